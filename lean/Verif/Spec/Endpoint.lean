import Verif.Spec.Host
/-!
# Specification: what the end of a tunnel takes from a frame

From the standards, on octets, like `Verif.Spec.Host`.
-/
namespace PacketRs.Spec

/-- RFC 2003, RFC 2473, RFC 4213: an IPv4 or IPv6 datagram inside another datagram. -/
def ipipInput (g : Datagram) : Option Datagram :=
  if g.proto = 4 then ip4Input g.data else if g.proto = 41 then ip6Input g.data else none

/-- A number of 32 bits. -/
def u32At (b : Bytes) (i : Nat) : Nat := 65536 * u16At b i + u16At b (i + 2)

/-- What arrives in a GRE tunnel: the ends of the tunnel, the protocol type, whether a checksum was checked,
key and sequence number if there, the packet. -/
structure GreMsg where
  src : Bytes
  dst : Bytes
  proto : Nat
  checked : Bool
  key : Option Nat
  seq : Option Nat
  data : Bytes
  deriving DecidableEq, Repr

/-- RFC 2784, with key and sequence number of RFC 2890.  The bits 1, 4 and 5 (routing, strict source route, recursion control of
RFC 1701) and the version are zero, and a checksum verifies. -/
def greInput (g : Datagram) : Option GreMsg :=
  let b := g.data
  let c := u8At b 0 / 128 % 2
  let k := u8At b 0 / 32 % 2
  let s := u8At b 0 / 16 % 2
  if g.proto = 47 ∧ 4 + 4 * c + 4 * k + 4 * s ≤ b.length ∧ u8At b 0 / 64 % 2 = 0 ∧ u8At b 0 / 4 % 4 = 0 ∧ u8At b 1 % 8 = 0 ∧
      (c = 1 → Verifies b) then
    some ⟨g.src, g.dst, u16At b 2, c == 1, if k = 1 then some (u32At b (4 + 4 * c)) else none,
      if s = 1 then some (u32At b (4 + 4 * c + 4 * k)) else none, b.drop (4 + 4 * c + 4 * k + 4 * s)⟩
  else none

/-- A mirrored frame (draft-foschiano-erspan, type II), with the fields of its header. -/
structure Erspan2Msg where
  seq : Nat
  vlan : Nat
  cos : Nat
  en : Nat
  t : Nat
  session : Nat
  index : Nat
  frame : Bytes
  deriving DecidableEq, Repr

/-- Type II: protocol type 0x88be, a sequence number, version 1.  (Without sequence number it would be type I, which has no
header of its own.) -/
def erspan2Input (m : GreMsg) : Option Erspan2Msg :=
  m.seq.bind fun q =>
    if m.proto = 0x88be ∧ 8 ≤ m.data.length ∧ u8At m.data 0 / 16 = 1 then
      some ⟨q, u16At m.data 0 % 4096, u8At m.data 2 / 32, u8At m.data 2 / 8 % 4, u8At m.data 2 / 4 % 2, u16At m.data 2 % 1024,
        u32At m.data 4 % 1048576, m.data.drop 8⟩
    else none

/-- Type III: the fields of the first eight octets, the security group tag, the last two octets. -/
structure Erspan3Msg where
  seq : Nat
  vlan : Nat
  cos : Nat
  bso : Nat
  t : Nat
  session : Nat
  timestamp : Nat
  sgt : Nat
  other : Nat
  frame : Bytes
  deriving DecidableEq, Repr

/-- Type III: protocol type 0x22eb, a sequence number, version 2, eight more octets if the last bit of the header is set. -/
def erspan3Input (m : GreMsg) : Option Erspan3Msg :=
  m.seq.bind fun q =>
    if m.proto = 0x22eb ∧ 12 + 8 * (u16At m.data 10 % 2) ≤ m.data.length ∧ u8At m.data 0 / 16 = 2 then
      some ⟨q, u16At m.data 0 % 4096, u8At m.data 2 / 32, u8At m.data 2 / 8 % 4, u8At m.data 2 / 4 % 2, u16At m.data 2 % 1024,
        u32At m.data 4, u16At m.data 8, u16At m.data 10, m.data.drop (12 + 8 * (u16At m.data 10 % 2))⟩
    else none

/-- What the end of a tunnel takes from a frame. -/
def endIpip (f : Bytes) : Option Datagram := (ipInput f).bind ipipInput
@[inherit_doc endIpip] def endGre (f : Bytes) : Option GreMsg := (ipInput f).bind greInput
@[inherit_doc endIpip] def endErspan2 (f : Bytes) : Option Erspan2Msg := (endGre f).bind erspan2Input
@[inherit_doc endIpip] def endErspan3 (f : Bytes) : Option Erspan3Msg := (endGre f).bind erspan3Input

end PacketRs.Spec
