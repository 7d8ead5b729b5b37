import Verif.Spec.Read
import Verif.Spec.Build
import Verif.Packet
/-!
# Specification: the packets a builder can return

Conditions on a packet in terms of what its fields read; every field that is not mentioned is free.
-/
namespace PacketRs.Spec

/-- A header of type `T`, as long as declared. -/
def Entire (T : HeaderDef) (h : Hdr) : Prop := h.ty = T ∧ h.data.length = T.size

/-- An Ethernet header, or an Ethernet header and one VLAN tag, that announces type `et`. -/
inductive Front (et : Nat) : List Hdr → Prop where
  | plain {e : Hdr} : Entire Ether e → e.Reads Ether.etype et → Front et [e]
  | tagged {e v : Hdr} : Entire Ether e → e.Reads Ether.etype 0x8100 → Entire Vlan v → v.Reads Vlan.etype et → Front et [e, v]

/-- An IPv4 header for `total` octets carrying protocol `proto`, with the checksum the crate computes.  Its version need not
be 4: the header length argument may be too large. -/
structure IsIpv4 (chk : Bool) (proto total : Nat) (h : Hdr) : Prop where
  whole : Entire IPv4 h
  version : ∃ v, h.Reads IPv4.version v ∧ 4 ≤ v % 8
  length : h.Reads IPv4.total_len (total % 65536)
  proto : h.Reads IPv4.protocol proto
  checksum : ∃ c : U16, Packet.ipv4_checksum chk h.data = .ok c ∧ h.Reads IPv4.header_checksum c.toNat

/-- An IPv6 header for `n` octets after it, the next header being `next`.  Its version need not be 6: the flow label argument
may be too large. -/
structure IsIpv6 (next n : Nat) (h : Hdr) : Prop where
  whole : Entire IPv6 h
  version : ∃ v, h.Reads IPv6.version v ∧ 6 ≤ v % 8
  length : h.Reads IPv6.payload_len (n % 65536)
  next : h.Reads IPv6.next_hdr next

/-- A TCP header with checksum 0. -/
def IsTcp (h : Hdr) : Prop := Entire TCP h ∧ h.Reads TCP.checksum 0

/-- A UDP header for `n` octets and with this checksum. -/
def IsUdp (n ck : Nat) (h : Hdr) : Prop := Entire UDP h ∧ h.Reads UDP.length (n % 65536) ∧ h.Reads UDP.checksum ck

/-- An ICMP header with checksum 0. -/
def IsIcmp (h : Hdr) : Prop := Entire ICMP h ∧ h.Reads ICMP.chksum 0

/-- An ARP header for IPv4 over Ethernet. -/
def IsArp (h : Hdr) : Prop :=
  Entire ARP h ∧ h.Reads ARP.hwtype 1 ∧ h.Reads ARP.proto_type 0x800 ∧ h.Reads ARP.hwlen 6 ∧ h.Reads ARP.proto_len 4

/-- A VXLAN header with the flags octet 8 and nothing in the reserved fields. -/
def IsVxlan (h : Hdr) : Prop :=
  Entire Vxlan h ∧ h.Reads Vxlan.flags 8 ∧ h.Reads Vxlan.reserved 0 ∧ h.Reads Vxlan.reserved2 0

/-- A GRE header that announces these optional parts and this protocol. -/
structure IsGre (c r k q : Bool) (proto : Nat) (h : Hdr) : Prop where
  whole : Entire GRE h
  chksum : h.Reads GRE.chksum_present c.toNat
  routing : h.Reads GRE.routing_present r.toNat
  key : h.Reads GRE.key_present k.toNat
  seqnum : h.Reads GRE.seqnum_present q.toNat
  recurse : h.Reads GRE.recurse 0
  proto : h.Reads GRE.proto proto

/-- A GRE header of the ERSPAN builders: nothing but perhaps the sequence number announced. -/
structure IsErspanGre (q : Bool) (proto : Nat) (h : Hdr) : Prop where
  gre : IsGre false false false q proto h
  strict : h.Reads GRE.strict_route_src 0
  flags : h.Reads GRE.flags 0
  version : h.Reads GRE.version 0

/-- An ERSPAN II header.  Its version need not be 1: the VLAN argument may be too large. -/
def IsErspan2 (h : Hdr) : Prop := Entire ERSPAN2 h ∧ ∃ v, h.Reads ERSPAN2.version v ∧ v % 2 = 1

/-- An ERSPAN III header with this O bit.  Its version need not be 2. -/
def IsErspan3 (o : Nat) (h : Hdr) : Prop :=
  Entire ERSPAN3 h ∧ h.Reads ERSPAN3.o o ∧ ∃ v, h.Reads ERSPAN3.version v ∧ v / 2 % 2 = 1

/-- The sequence number header for `n`: none for 0. -/
def SeqIs (n : Nat) (hs : List Hdr) : Prop :=
  if n = 0 then hs = [] else ∃ h, hs = [h] ∧ Entire GRESequenceNum h ∧ h.Reads GRESequenceNum.seqnum n

/-- One header of type `T` when `b`, none otherwise. -/
def OneIf (T : HeaderDef) (b : Bool) (hs : List Hdr) : Prop := if b then ∃ h, Entire T h ∧ hs = [h] else hs = []

/-- Every IPv6 address has a text. -/
def Writable (p6 : Ipv6FromStr) : Prop := ∀ a : Vector Byte 16, ∃ s, p6 s = some a

end PacketRs.Spec
