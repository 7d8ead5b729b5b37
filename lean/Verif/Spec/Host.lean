import Verif.Spec.Transport
/-!
# Specification: what a host delivers to its programs from a frame

From the standards, on octets; nothing here refers to the model of the code.  The host takes whole IP datagrams with or without
one VLAN tag; IPv4 options are skipped, IPv6 extension headers are not understood, link addresses are not looked at.
-/
namespace PacketRs.Spec

/-- RFC 894 and IEEE 802.1Q: the Ethernet type and the octets after it. -/
def linkInput (f : Bytes) : Option (Nat × Bytes) :=
  if f.length < 14 then none
  else if u16At f 12 ≠ 0x8100 then some (u16At f 12, f.drop 14)
  else if f.length < 18 then none
  else some (u16At f 16, f.drop 18)

/-- A datagram the network layer hands on. -/
structure Datagram where
  v6 : Bool
  proto : Nat
  src : Bytes
  dst : Bytes
  data : Bytes
  deriving DecidableEq, Repr

/-- RFC 791 and RFC 1122, section 3.2.1: the version is 4, the header is at least five words, header and datagram lie within
what was received, the header checksum verifies.  Fragments are not handed on. -/
def ip4Input (b : Bytes) : Option Datagram :=
  if 20 ≤ b.length ∧ u8At b 0 / 16 = 4 ∧ 20 ≤ ihl b 0 ∧ ihl b 0 ≤ u16At b 2 ∧ u16At b 2 ≤ b.length ∧
      Verifies (b.take (ihl b 0)) ∧ u16At b 6 % 16384 = 0 then
    some ⟨false, u8At b 9, (b.drop 12).take 4, (b.drop 16).take 4, (b.take (u16At b 2)).drop (ihl b 0)⟩
  else none

/-- RFC 8200: the version is 6, the payload lies within what was received. -/
def ip6Input (b : Bytes) : Option Datagram :=
  if 40 ≤ b.length ∧ u8At b 0 / 16 = 6 ∧ 40 + u16At b 4 ≤ b.length then
    some ⟨true, u8At b 6, (b.drop 8).take 16, (b.drop 24).take 16, (b.drop 40).take (u16At b 4)⟩
  else none

/-- The datagram in a frame. -/
def ipInput (f : Bytes) : Option Datagram :=
  match linkInput f with
  | some (et, b) => if et = 0x0800 then ip4Input b else if et = 0x86DD then ip6Input b else none
  | none => none

/-- The pseudo header of a segment of `n` octets (RFC 768, RFC 9293; RFC 8200, section 8.1). -/
def Datagram.pseudo (g : Datagram) (n : Nat) : Bytes :=
  if g.v6 then g.src ++ g.dst ++ num32 n ++ [0#8, 0#8, 0#8, BitVec.ofNat 8 g.proto]
  else g.src ++ g.dst ++ [0#8, BitVec.ofNat 8 g.proto] ++ num16 n

/-- What a program gets from UDP: addresses, ports, data. -/
structure UdpMsg where
  src : Bytes
  dst : Bytes
  sport : Nat
  dport : Nat
  data : Bytes
  deriving DecidableEq, Repr

/-- RFC 768; over IPv6 a zero checksum is not accepted (RFC 8200). -/
def udpInput (g : Datagram) : Option UdpMsg :=
  let len := u16At g.data 4
  if g.proto = 17 ∧ 8 ≤ len ∧ len ≤ g.data.length ∧
      ((u16At g.data 6 = 0 ∧ g.v6 = false) ∨ (u16At g.data 6 ≠ 0 ∧ Verifies (g.pseudo len ++ g.data.take len))) then
    some ⟨g.src, g.dst, u16At g.data 0, u16At g.data 2, (g.data.take len).drop 8⟩
  else none

/-- What TCP takes from a segment: addresses, ports, sequence and acknowledgement number, flags, window, urgent pointer, data. -/
structure TcpSeg where
  src : Bytes
  dst : Bytes
  sport : Nat
  dport : Nat
  seq : Nat
  ack : Nat
  flags : Nat
  window : Nat
  urg : Nat
  data : Bytes
  deriving DecidableEq, Repr

/-- RFC 9293, section 3.1; options are skipped. -/
def tcpInput (g : Datagram) : Option TcpSeg :=
  let hl := 4 * (u8At g.data 12 / 16)
  if g.proto = 6 ∧ 20 ≤ hl ∧ hl ≤ g.data.length ∧ Verifies (g.pseudo g.data.length ++ g.data) then
    some ⟨g.src, g.dst, u16At g.data 0, u16At g.data 2, 65536 * u16At g.data 4 + u16At g.data 6,
      65536 * u16At g.data 8 + u16At g.data 10, u8At g.data 13, u16At g.data 14, u16At g.data 18, g.data.drop hl⟩
  else none

/-- An ICMP message: addresses, type, code, and what follows the checksum. -/
structure IcmpMsg where
  src : Bytes
  dst : Bytes
  type : Nat
  code : Nat
  data : Bytes
  deriving DecidableEq, Repr

/-- RFC 792 and RFC 4443, section 2.3. -/
def icmpInput (g : Datagram) : Option IcmpMsg :=
  if 4 ≤ g.data.length ∧ ((g.v6 = true ∧ g.proto = 58 ∧ Verifies (g.pseudo g.data.length ++ g.data)) ∨
      (g.v6 = false ∧ g.proto = 1 ∧ Verifies g.data)) then
    some ⟨g.src, g.dst, u8At g.data 0, u8At g.data 1, g.data.drop 4⟩
  else none

/-- UDP messages, TCP segments and ICMP messages a host takes from a frame. -/
def hostUdp (f : Bytes) : Option UdpMsg := (ipInput f).bind udpInput
@[inherit_doc hostUdp] def hostTcp (f : Bytes) : Option TcpSeg := (ipInput f).bind tcpInput
@[inherit_doc hostUdp] def hostIcmp (f : Bytes) : Option IcmpMsg := (ipInput f).bind icmpInput

end PacketRs.Spec
