import Verif.Slow
import Verif.Spec.Bits
/-!
# Spec: what a receiver reads

A receiver parses the bytes, looks the header up by its type's name and reads a field with the getter, or, for addresses of 128
bits, with `bytes`.  The tables below list, for a frame with the given contents, every field of every header and what the
receiver is expected to read.
-/
namespace PacketRs.Spec

/-- Parse, look up, read. -/
def receive (chk : Bool) (b : Bytes) (T : HeaderDef) (f : Field) : R U64 := do
  let p ← Slow.parse chk b
  match p.get_header T T.name with
  | some h => h.get chk f
  | none => throw .unwrapNone

/-- Parse, look up, read octets. -/
def receiveBytes (chk : Bool) (b : Bytes) (T : HeaderDef) (f : Field) : R Bytes := do
  let p ← Slow.parse chk b
  match p.get_header T T.name with
  | some h => h.bytes chk f.hi f.lo
  | none => throw .unwrapNone

inductive Value
  | num (n : Nat)
  | octets (b : Bytes)

/-- A header type, one of its fields, and a value. -/
abbrev Item := HeaderDef × Field × Value

/-- In both build profiles the receiver of `b` reads this value. -/
def Received (b : Bytes) : Item → Prop
  | (T, f, .num n) => ∀ chk, ∃ v, receive chk b T f = .ok v ∧ v.toNat = n
  | (T, f, .octets o) => ∀ chk, receiveBytes chk b T f = .ok o

/-- Ethernet with destination `d` and source `s`. -/
def etherSent (d s : Bytes) (et : Nat) : List Item :=
  [(Ether, Ether.dst, .num (beNat d)), (Ether, Ether.src, .num (beNat s)), (Ether, Ether.etype, .num et)]

/-- A VLAN tag. -/
def vlanSent (vid : U16) (pcp : Byte) (et : Nat) : List Item :=
  [(Vlan, Vlan.pcp, .num pcp.toNat), (Vlan, Vlan.cfi, .num 0), (Vlan, Vlan.vid, .num vid.toNat), (Vlan, Vlan.etype, .num et)]

/-- Layer 2: Ethernet, and a VLAN tag if wanted. -/
def l2Sent (d s : Bytes) (ve : Bool) (vid : U16) (pcp : Byte) (et : Nat) : List Item :=
  if ve then etherSent d s 0x8100 ++ vlanSent vid pcp et else etherSent d s et

/-- An IPv4 header of a packet with `len` bytes, without the checksum (C43). -/
def ip4Sent (ihl tos : Byte) (id : U16) (ttl : Byte) (frag : U16) (proto : Nat) (src dst : Bytes) (len : Nat) : List Item :=
  [(IPv4, IPv4.version, .num 4), (IPv4, IPv4.ihl, .num ihl.toNat), (IPv4, IPv4.diffserv, .num tos.toNat),
    (IPv4, IPv4.total_len, .num (len % 65536)), (IPv4, IPv4.identification, .num id.toNat), (IPv4, IPv4.flags, .num 0),
    (IPv4, IPv4.frag_startset, .num frag.toNat), (IPv4, IPv4.ttl, .num ttl.toNat), (IPv4, IPv4.protocol, .num proto),
    (IPv4, IPv4.src, .num (beNat src)), (IPv4, IPv4.dst, .num (beNat dst))]

/-- An IPv6 header followed by `len` bytes. -/
def ip6Sent (tc : Byte) (flow : U32) (nh : Nat) (hl : Byte) (src dst : Bytes) (len : Nat) : List Item :=
  [(IPv6, IPv6.version, .num 6), (IPv6, IPv6.traffic_class, .num tc.toNat), (IPv6, IPv6.flow_label, .num flow.toNat),
    (IPv6, IPv6.payload_len, .num (len % 65536)), (IPv6, IPv6.next_hdr, .num nh), (IPv6, IPv6.hop_limit, .num hl.toNat),
    (IPv6, IPv6.src, .octets src), (IPv6, IPv6.dst, .octets dst)]

/-- A TCP header; the builders never compute a checksum (C77). -/
def tcpSent (src dst : U16) (seq ack : U32) (off res flags : Byte) (window urg : U16) : List Item :=
  [(TCP, TCP.src, .num src.toNat), (TCP, TCP.dst, .num dst.toNat), (TCP, TCP.seq_no, .num seq.toNat),
    (TCP, TCP.ack_no, .num ack.toNat), (TCP, TCP.data_startset, .num off.toNat), (TCP, TCP.res, .num res.toNat),
    (TCP, TCP.flags, .num flags.toNat), (TCP, TCP.window, .num window.toNat), (TCP, TCP.checksum, .num 0),
    (TCP, TCP.urgent_ptr, .num urg.toNat)]

/-- A UDP header of a datagram with `len` bytes. -/
def udpSent (src dst : U16) (len ck : Nat) : List Item :=
  [(UDP, UDP.src, .num src.toNat), (UDP, UDP.dst, .num dst.toNat), (UDP, UDP.length, .num (len % 65536)),
    (UDP, UDP.checksum, .num ck)]

/-- An ICMP header. -/
def icmpSent (ty code : Byte) : List Item :=
  [(ICMP, ICMP.icmp_type, .num ty.toNat), (ICMP, ICMP.icmp_code, .num code.toNat), (ICMP, ICMP.chksum, .num 0)]

/-- An ARP header. -/
def arpSent (opcode : U16) (smac tmac sip tip : Bytes) : List Item :=
  [(ARP, ARP.hwtype, .num 1), (ARP, ARP.proto_type, .num 0x0800), (ARP, ARP.hwlen, .num 6), (ARP, ARP.proto_len, .num 4),
    (ARP, ARP.opcode, .num opcode.toNat), (ARP, ARP.sender_hw_addr, .num (beNat smac)),
    (ARP, ARP.sender_proto_addr, .num (beNat sip)), (ARP, ARP.target_hw_addr, .num (beNat tmac)),
    (ARP, ARP.target_proto_addr, .num (beNat tip))]

/-- A VXLAN header. -/
def vxlanSent (vni : U32) : List Item :=
  [(Vxlan, Vxlan.flags, .num 8), (Vxlan, Vxlan.reserved, .num 0), (Vxlan, Vxlan.vni, .num (vni.toNat % 2 ^ 24)),
    (Vxlan, Vxlan.reserved2, .num 0)]

/-- An ERSPAN II header. -/
def erspan2Sent (vlan : U16) (cos en t : Byte) (sid : U16) (idx : U32) : List Item :=
  [(ERSPAN2, ERSPAN2.version, .num 1), (ERSPAN2, ERSPAN2.vlan, .num vlan.toNat), (ERSPAN2, ERSPAN2.cos, .num cos.toNat),
    (ERSPAN2, ERSPAN2.en, .num en.toNat), (ERSPAN2, ERSPAN2.t, .num t.toNat), (ERSPAN2, ERSPAN2.session_id, .num sid.toNat),
    (ERSPAN2, ERSPAN2.reserved, .num 0), (ERSPAN2, ERSPAN2.index, .num idx.toNat)]

end PacketRs.Spec
