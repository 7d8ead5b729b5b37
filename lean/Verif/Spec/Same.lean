import Verif.Addr
/-!
# Specification vocabulary: when the arguments of two builder calls mean the same

Two argument lists mean the same if every field they fill gets the same contents: addresses by the octets they convert to,
arguments that share a 16 or 32 bit word by their union.
-/
namespace PacketRs.Spec

/-- Layer 2 arguments, common to all builders. -/
structure Link where
  dst : Str
  src : Str
  tagged : Bool
  vid : U16
  pcp : Byte

/-- The tag control word: the identifier, united with the low three bits of the priority moved to the top. -/
def Link.tci (a : Link) : Nat := a.vid.toNat ||| (a.pcp.toNat % 8) * 8192

/-- Same addresses; both tagged and with the same tag, or both untagged (whatever the arguments for the tag). -/
def Link.Same (a b : Link) : Prop :=
  to_mac_bytes a.dst = to_mac_bytes b.dst ∧ to_mac_bytes a.src = to_mac_bytes b.src ∧ a.tagged = b.tagged ∧
    (a.tagged = true → a.tci = b.tci)

/-- IPv4 arguments, common to the builders over IPv4. -/
structure Net4 where
  ihl : Byte
  src : Str
  dst : Str
  tos : Byte
  ttl : Byte
  id : U16
  frag : U16
  opts : Bytes

/-- Same fields, the header length together with the version 4; options do not matter. -/
def Net4.Same (a b : Net4) : Prop :=
  64 ||| a.ihl.toNat = 64 ||| b.ihl.toNat ∧ a.tos = b.tos ∧ a.id = b.id ∧ a.frag = b.frag ∧ a.ttl = b.ttl ∧
    to_ipv4_bytes a.src = to_ipv4_bytes b.src ∧ to_ipv4_bytes a.dst = to_ipv4_bytes b.dst

/-- IPv6 arguments, common to the builders over IPv6. -/
structure Net6 where
  tc : Byte
  flow : U32
  hl : Byte
  src : Str
  dst : Str

/-- Same first word (version 6, traffic class and flow label united), hop limit and addresses. -/
def Net6.Same (p6 : Ipv6FromStr) (a b : Net6) : Prop :=
  0x60000000 ||| a.tc.toNat * 0x100000 ||| a.flow.toNat = 0x60000000 ||| b.tc.toNat * 0x100000 ||| b.flow.toNat ∧ a.hl = b.hl ∧
    to_ipv6_bytes p6 a.src = to_ipv6_bytes p6 b.src ∧ to_ipv6_bytes p6 a.dst = to_ipv6_bytes p6 b.dst

/-- TCP arguments. -/
structure Tcp where
  dst : U16
  src : U16
  seq : U32
  ack : U32
  off : Byte
  res : Byte
  flags : Byte
  window : U16
  urg : U16

/-- Same fields, the low four bits of the data offset together with the reserved bits. -/
def Tcp.Same (a b : Tcp) : Prop :=
  a.dst = b.dst ∧ a.src = b.src ∧ a.seq = b.seq ∧ a.ack = b.ack ∧
    (a.off.toNat % 16) * 16 ||| a.res.toNat = (b.off.toNat % 16) * 16 ||| b.res.toNat ∧ a.flags = b.flags ∧
    a.window = b.window ∧ a.urg = b.urg

end PacketRs.Spec
