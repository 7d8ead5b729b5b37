import Verif.Heap
import Verif.Utils
/-!
# The builders that take an inner packet, on shared storage

`Verif.Utils` gives the builders on packets as values.  Here they act on the variables of `Verif.Heap`: they take the
inner packet by value (/repo/src/utils.rs:305, 345, 522, 567, 624, 718, 803), read its bytes with `to_vec` and its length
with `len`, and make the outer headers afresh.  Five of them then forget the inner packet.  `create_vxlanv6_packet` and
`create_erspan_3_packet` end with `pkt + inner_pkt` (/repo/src/utils.rs:594, 871), which moves the inner packet's own
headers, and so their storage, into the result.

Simplification: a builder that forgets its inner packet leaves the variable live here (in Rust it is moved away; a program
that compiles does not name it again).
-/
namespace PacketRs
open Utils

/-- A builder with all arguments but the inner packet fixed. -/
structure Encap where
  /-- the new packet, from the bytes and the length of the inner one -/
  outer : Bytes → Nat → R Packet
  /-- the builder ends with `pkt + inner_pkt` -/
  keeps : Bool

/-- The builder on packets as values. -/
def Encap.value (e : Encap) (inner : Packet) : R Packet := do
  let o ← e.outer inner.to_vec inner.len
  pure (if e.keeps then o.add inner else o)

/-- The builder called with packet variable `p` as inner packet. -/
def World.build (chk : Bool) (w : World) (p : Nat) (e : Encap) : World × R Val :=
  match w.pkt? p with
  | none => (w, .ok .unit)
  | some q =>
    match w.step chk (.pktToVec p) with
    | (w, .ok (.bytes v)) =>
      match e.outer v q.len with
      | .error f => (w, .error f)
      | .ok o =>
        let n := w.ps.length
        let (w, _) := w.step chk (.adopt o)
        if e.keeps then w.step chk (.add n p) else (w, .ok .unit)
    | r => r

/-- The variable the result of `World.build` is in. -/
def Encap.slot (e : Encap) (w : World) : Nat := if e.keeps then w.ps.length + 1 else w.ps.length

namespace Encap

/-- A packet with bytes `v` and length `n`; it stands for an inner packet of which only these are read. -/
def bare (v : Bytes) (n : Nat) : Packet := ⟨[⟨{ path := "", name := "", size := n, fields := [], dflt := [] }, v⟩], []⟩

/-- `create_vxlan_packet`: /repo/src/utils.rs:504-550 -/
def vxlan (chk : Bool) (eth_dst eth_src : Str) (vlan_enable : Bool) (vlan_vid : U16)
    (vlan_pcp : Byte) (ip_ihl : Byte) (ip_src ip_dst : Str) (ip_tos ip_ttl : Byte) (ip_id ip_frag : U16)
    (ip_options : Bytes) (udp_dst udp_src : U16) (ck : Bool) (vni : U32) : Encap :=
  ⟨fun v n => create_vxlan_packet chk eth_dst eth_src vlan_enable vlan_vid vlan_pcp ip_ihl ip_src ip_dst ip_tos ip_ttl ip_id
    ip_frag ip_options udp_dst udp_src ck vni (bare v n), false⟩

/-- `create_ipv4ip_packet`: /repo/src/utils.rs:291-332 -/
def ipv4ip (chk : Bool) (eth_dst eth_src : Str) (vlan_enable : Bool) (vlan_vid : U16)
    (vlan_pcp : Byte) (ip_ihl : Byte) (ip_src ip_dst : Str) (ip_tos ip_ttl : Byte) (ip_id ip_frag : U16)
    (ip_options : Bytes) : Encap :=
  ⟨fun v n => create_ipv4ip_packet chk eth_dst eth_src vlan_enable vlan_vid vlan_pcp ip_ihl ip_src ip_dst ip_tos ip_ttl ip_id
    ip_frag ip_options (bare v n), false⟩

/-- `create_ipv6ip_packet`: /repo/src/utils.rs:334-369 -/
def ipv6ip (p6 : Ipv6FromStr) (eth_dst eth_src : Str) (vlan_enable : Bool) (vlan_vid : U16) (vlan_pcp : Byte)
    (tc : Byte) (flow : U32) (hl : Byte) (ip_src ip_dst : Str) : Encap :=
  ⟨fun v n => create_ipv6ip_packet p6 eth_dst eth_src vlan_enable vlan_vid vlan_pcp tc flow hl ip_src ip_dst (bare v n), false⟩

/-- `create_gre_packet` with an inner packet: /repo/src/utils.rs:598-695 -/
def gre (chk : Bool) (eth_dst eth_src : Str) (vlan_enable : Bool) (vlan_vid : U16)
    (vlan_pcp : Byte) (ip_ihl : Byte) (ip_src ip_dst : Str) (ip_tos ip_ttl : Byte) (ip_id ip_frag : U16)
    (ip_options : Bytes) (c r k q s : Bool) (flags ver : Byte) (gck goff : U16) (key seq : U32) (routing : Bytes) : Encap :=
  ⟨fun v n => create_gre_packet chk eth_dst eth_src vlan_enable vlan_vid vlan_pcp ip_ihl ip_src ip_dst ip_tos ip_ttl ip_id
    ip_frag ip_options c r k q s flags ver gck goff key seq routing (some (bare v n)), false⟩

/-- `create_erspan_2_packet` with an inner packet: /repo/src/utils.rs:697-776 -/
def erspan2 (chk : Bool) (eth_dst eth_src : Str) (vlan_enable : Bool) (vlan_vid : U16)
    (vlan_pcp : Byte) (ip_ihl : Byte) (ip_src ip_dst : Str) (ip_tos ip_ttl : Byte) (ip_id ip_frag : U16)
    (ip_options : Bytes) (seq : U32) (vlan : U16) (cos en t : Byte) (sid : U16) (idx : U32) : Encap :=
  ⟨fun v n => create_erspan_2_packet chk eth_dst eth_src vlan_enable vlan_vid vlan_pcp ip_ihl ip_src ip_dst ip_tos ip_ttl
    ip_id ip_frag ip_options seq vlan cos en t sid idx (some (bare v n)), false⟩

/-- `create_vxlanv6_packet`: /repo/src/utils.rs:552-596; `outer` is lines 569-592, line 594 is `keeps`. -/
def vxlanv6 (chk : Bool) (p6 : Ipv6FromStr) (eth_dst eth_src : Str) (vlan_enable : Bool)
    (vlan_vid : U16) (vlan_pcp : Byte) (ip_traffic_class : Byte) (ip_flow_label : U32)
    (ip_hop_limit : Byte) (ip_src ip_dst : Str) (udp_dst udp_src : U16) (_udp_checksum : Bool) (vxlan_vni : U32) : Encap :=
  ⟨fun ipkt_vec _ => do
    let pkt ← create_ipv6_packet p6 eth_dst eth_src vlan_enable vlan_vid vlan_pcp ip_traffic_class
      ip_flow_label IpProtocol.UDP.toU8 ip_hop_limit ip_src ip_dst ipkt_vec
    let pkt ← growIpv6 chk pkt (UDP.size + Vxlan.size)
    let l4_len := UDP.size + Vxlan.size + ipkt_vec.length
    let udp := Packet.udp udp_src udp_dst (BitVec.ofNat 16 l4_len)
    let udp ← udp.set UDP.checksum 0xffff#64
    let pkt := pkt.push udp
    pure (pkt.push (Packet.vxlan vxlan_vni)), true⟩

/-- `create_erspan_3_packet` with an inner packet: /repo/src/utils.rs:778-876; `outer` is lines 805-867, line 871 is
`keeps`. -/
def erspan3 (chk : Bool) (eth_dst eth_src : Str) (vlan_enable : Bool) (vlan_vid : U16)
    (vlan_pcp : Byte) (ip_ihl : Byte) (ip_src ip_dst : Str) (ip_tos ip_ttl : Byte) (ip_id ip_frag : U16)
    (ip_options : Bytes) (gre_seqnum : U32) (erspan_vlan : U16) (erpsan_cos erspan_en erspan_t : Byte)
    (erspan_session_id : U16) (erspan_timestamp : U32) (erspan_sgt erspan_ft_d_other : U16)
    (erspan_pltfm_id : Byte) (erspan_pltfm_info : U64) : Encap :=
  ⟨fun ipkt_vec len => do
    let pktlen := GRE.size + ERSPAN3.size
    let pktlen := if gre_seqnum ≠ 0#32 then pktlen + GRESequenceNum.size else pktlen
    let pktlen := if erspan_ft_d_other &&& 0x1#16 = 1#16 then pktlen + ERSPANPLATFORM.size else pktlen
    let pktlen := pktlen + len
    let pkt ← create_ipv4_packet chk eth_dst eth_src vlan_enable vlan_vid vlan_pcp ip_ihl ip_src ip_dst
      IpProtocol.GRE.toU8 ip_tos ip_ttl ip_id ip_frag ip_options ipkt_vec
    let pkt ← growIpv4 chk pkt pktlen
    let gre := GRE.new
    let gre ← gre.set GRE.proto (EtherType.ERSPANIII.toU16.setWidth 64)
    let gre ← gre.set GRE.seqnum_present (gre_seqnum.setWidth 64)
    let pkt := pkt.push gre
    let pkt := if gre_seqnum ≠ 0#32 then pkt.push (Packet.gre_sequence_number gre_seqnum) else pkt
    let erspan := Packet.erspan3 erspan_vlan erpsan_cos erspan_en erspan_t erspan_session_id
      erspan_timestamp erspan_sgt erspan_ft_d_other
    let pkt := pkt.push erspan
    pure (if erspan_ft_d_other &&& 0x1#16 = 1#16 then
      let pltfm : U64 := ((erspan_pltfm_id.setWidth 64) <<< 58) ||| erspan_pltfm_info
      pkt.push (ERSPANPLATFORM.ofVec (be64 pltfm))
    else pkt), true⟩

end Encap
end PacketRs
