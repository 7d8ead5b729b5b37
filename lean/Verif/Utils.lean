import Verif.Packet
/-!
# Packet builders: /repo/src/utils.rs

Parameters are in the order of the source.  Unused parameters keep their leading underscore.
`ip_options: Vec<u8>` is threaded through and ignored, as in the source.  `p6` is the external
`Ipv6Addr::from_str`, `chk` the overflow-check profile.
-/
namespace PacketRs.Utils

/-- `create_eth_packet`: /repo/src/utils.rs:7-25 -/
def create_eth_packet (eth_dst eth_src : Str) (vlan_enable : Bool) (vlan_vid : U16) (vlan_pcp : Byte)
    (etype : U16) (payload : Bytes) : R Packet := do
  let pkt := Packet.new
  let pkt ←
    if vlan_enable then do
      let pkt := pkt.push (← Packet.ethernet eth_dst eth_src EtherType.DOT1Q.toU16)
      pure (pkt.push (← Packet.vlan vlan_pcp 0 vlan_vid etype))
    else do
      pure (pkt.push (← Packet.ethernet eth_dst eth_src etype))
  pure (pkt.set_payload payload)

/-- `create_arp_packet`: /repo/src/utils.rs:27-53 -/
def create_arp_packet (eth_dst eth_src : Str) (vlan_enable : Bool) (vlan_vid : U16) (vlan_pcp : Byte)
    (opcode : U16) (sender_mac target_mac sender_ip target_ip : Str) (payload : Bytes) : R Packet := do
  let pkt ← create_eth_packet eth_dst eth_src vlan_enable vlan_vid vlan_pcp EtherType.ARP.toU16 payload
  pure (pkt.push (← Packet.arp opcode sender_mac target_mac sender_ip target_ip))

/-- `create_ipv4_packet`: /repo/src/utils.rs:55-95 -/
def create_ipv4_packet (chk : Bool) (eth_dst eth_src : Str) (vlan_enable : Bool) (vlan_vid : U16)
    (vlan_pcp : Byte) (ip_ihl : Byte) (ip_src ip_dst : Str) (ip_proto ip_tos ip_ttl : Byte)
    (ip_id ip_frag : U16) (_ip_options : Bytes) (payload : Bytes) : R Packet := do
  let pkt ← create_eth_packet eth_dst eth_src vlan_enable vlan_vid vlan_pcp EtherType.IPV4.toU16 payload
  let pktlen := IPv4.size + payload.length
  let ipv4 ← Packet.ipv4 chk ip_ihl ip_tos ip_id ip_ttl ip_frag ip_proto ip_src ip_dst
    (BitVec.ofNat 16 pktlen)
  pure (pkt.push ipv4)

/-- `create_ipv6_packet`: /repo/src/utils.rs:97-131 -/
def create_ipv6_packet (p6 : Ipv6FromStr) (eth_dst eth_src : Str) (vlan_enable : Bool)
    (vlan_vid : U16) (vlan_pcp : Byte) (ip_traffic_class : Byte) (ip_flow_label : U32)
    (ip_next_hdr ip_hop_limit : Byte) (ip_src ip_dst : Str) (payload : Bytes) : R Packet := do
  let pkt ← create_eth_packet eth_dst eth_src vlan_enable vlan_vid vlan_pcp EtherType.IPV6.toU16 payload
  let ipv6 := Packet.ipv6 p6 ip_traffic_class ip_flow_label ip_next_hdr ip_hop_limit ip_src ip_dst
    (BitVec.ofNat 16 payload.length)
  pure (pkt.push ipv6)

/-- The block
`let ipv4: &mut IPv4 = (&mut pkt["IPv4"]).into(); ipv4.set_total_len(ipv4.total_len() + n as u64);
let chksum = Packet::ipv4_checksum(ipv4.to_vec().as_slice()); ipv4.set_header_checksum(chksum as u64);`
that occurs at /repo/src/utils.rs:176-179, 233-236, 281-284, 668-671, 751-754, 839-842. -/
def growIpv4 (chk : Bool) (pkt : Packet) (n : Nat) : R Packet :=
  pkt.withHeaderMut IPv4 "IPv4" fun ipv4 => do
    let tl ← ipv4.get chk IPv4.total_len
    let ipv4 ← ipv4.set IPv4.total_len (tl + BitVec.ofNat 64 n)
    let chksum ← Packet.ipv4_checksum chk ipv4.to_vec
    ipv4.set IPv4.header_checksum (chksum.setWidth 64)

/-- The block
`let ipv6: &mut IPv6 = (&mut pkt["IPv6"]).into(); ipv6.set_payload_len(ipv6.payload_len() + n as u64);`
that occurs at /repo/src/utils.rs:407-408, 456-457, 497-498, 584-585. -/
def growIpv6 (chk : Bool) (pkt : Packet) (n : Nat) : R Packet :=
  pkt.withHeaderMut IPv6 "IPv6" fun ipv6 => do
    let pl ← ipv6.get chk IPv6.payload_len
    ipv6.set IPv6.payload_len (pl + BitVec.ofNat 64 n)

/-- `create_tcp_packet`: /repo/src/utils.rs:133-195 -/
def create_tcp_packet (chk : Bool) (eth_dst eth_src : Str) (vlan_enable : Bool) (vlan_vid : U16)
    (vlan_pcp : Byte) (ip_ihl : Byte) (ip_src ip_dst : Str) (ip_tos ip_ttl : Byte) (ip_id ip_frag : U16)
    (ip_options : Bytes) (tcp_dst tcp_src : U16) (tcp_seq_no tcp_ack_no : U32)
    (tcp_data_offset tcp_res tcp_flags : Byte) (tcp_window tcp_urgent_ptr : U16)
    (_tcp_checksum : Bool) (payload : Bytes) : R Packet := do
  let pkt ← create_ipv4_packet chk eth_dst eth_src vlan_enable vlan_vid vlan_pcp ip_ihl ip_src ip_dst
    IpProtocol.TCP.toU8 ip_tos ip_ttl ip_id ip_frag ip_options payload
  let pkt ← growIpv4 chk pkt TCP.size
  let tcp := Packet.tcp tcp_src tcp_dst tcp_seq_no tcp_ack_no tcp_data_offset tcp_res tcp_flags
    tcp_window 0 tcp_urgent_ptr
  pure (pkt.push tcp)

/-- `create_udp_packet`: /repo/src/utils.rs:197-242 -/
def create_udp_packet (chk : Bool) (eth_dst eth_src : Str) (vlan_enable : Bool) (vlan_vid : U16)
    (vlan_pcp : Byte) (ip_ihl : Byte) (ip_src ip_dst : Str) (ip_tos ip_ttl : Byte) (ip_id ip_frag : U16)
    (ip_options : Bytes) (udp_dst udp_src : U16) (_udp_checksum : Bool) (payload : Bytes) :
    R Packet := do
  let pkt ← create_ipv4_packet chk eth_dst eth_src vlan_enable vlan_vid vlan_pcp ip_ihl ip_src ip_dst
    IpProtocol.UDP.toU8 ip_tos ip_ttl ip_id ip_frag ip_options payload
  let pkt ← growIpv4 chk pkt UDP.size
  let l4_len := UDP.size + payload.length
  let udp := Packet.udp udp_src udp_dst (BitVec.ofNat 16 l4_len)
  pure (pkt.push udp)

/-- `create_icmp_packet`: /repo/src/utils.rs:244-289 -/
def create_icmp_packet (chk : Bool) (eth_dst eth_src : Str) (vlan_enable : Bool) (vlan_vid : U16)
    (vlan_pcp : Byte) (ip_ihl : Byte) (ip_src ip_dst : Str) (ip_tos ip_ttl : Byte) (ip_id ip_frag : U16)
    (ip_options : Bytes) (icmp_type icmp_code : Byte) (_icmp_data : Bytes) (_udp_checksum : Bool)
    (payload : Bytes) : R Packet := do
  let pkt ← create_ipv4_packet chk eth_dst eth_src vlan_enable vlan_vid vlan_pcp ip_ihl ip_src ip_dst
    IpProtocol.ICMP.toU8 ip_tos ip_ttl ip_id ip_frag ip_options payload
  let pkt ← growIpv4 chk pkt ICMP.size
  let icmp := Packet.icmp icmp_type icmp_code
  pure (pkt.push icmp)

/-- `match IpType::try_from(ipkt_vec[0] >> 4 & 0xf as u8) {...}`: /repo/src/utils.rs:309-313, 349-353 -/
def innerProto (ipkt_vec : Bytes) : R IpProtocol := do
  let b ← index ipkt_vec 0
  pure (match IpType.try_from ((b >>> 4) &&& 0xf#8) with
    | some .V4 => .IPIP
    | some .V6 => .IPV6
    | none => .IPIP)

/-- `create_ipv4ip_packet`: /repo/src/utils.rs:291-332 -/
def create_ipv4ip_packet (chk : Bool) (eth_dst eth_src : Str) (vlan_enable : Bool) (vlan_vid : U16)
    (vlan_pcp : Byte) (ip_ihl : Byte) (ip_src ip_dst : Str) (ip_tos ip_ttl : Byte) (ip_id ip_frag : U16)
    (ip_options : Bytes) (inner_pkt : Packet) : R Packet := do
  let ipkt_vec := inner_pkt.to_vec
  let ip_proto ← innerProto ipkt_vec
  create_ipv4_packet chk eth_dst eth_src vlan_enable vlan_vid vlan_pcp ip_ihl ip_src ip_dst
    ip_proto.toU8 ip_tos ip_ttl ip_id ip_frag ip_options ipkt_vec

/-- `create_ipv6ip_packet`: /repo/src/utils.rs:334-369 -/
def create_ipv6ip_packet (p6 : Ipv6FromStr) (eth_dst eth_src : Str) (vlan_enable : Bool)
    (vlan_vid : U16) (vlan_pcp : Byte) (ip_traffic_class : Byte) (ip_flow_label : U32)
    (ip_hop_limit : Byte) (ip_src ip_dst : Str) (inner_pkt : Packet) : R Packet := do
  let ipkt_vec := inner_pkt.to_vec
  let ip_nxt_hdr ← innerProto ipkt_vec
  create_ipv6_packet p6 eth_dst eth_src vlan_enable vlan_vid vlan_pcp ip_traffic_class ip_flow_label
    ip_nxt_hdr.toU8 ip_hop_limit ip_src ip_dst ipkt_vec

/-- `create_tcpv6_packet`: /repo/src/utils.rs:371-424 -/
def create_tcpv6_packet (chk : Bool) (p6 : Ipv6FromStr) (eth_dst eth_src : Str) (vlan_enable : Bool)
    (vlan_vid : U16) (vlan_pcp : Byte) (ip_traffic_class : Byte) (ip_flow_label : U32)
    (ip_hop_limit : Byte) (ip_src ip_dst : Str) (tcp_dst tcp_src : U16) (tcp_seq_no tcp_ack_no : U32)
    (tcp_data_offset tcp_res tcp_flags : Byte) (tcp_window tcp_urgent_ptr : U16) (payload : Bytes) :
    R Packet := do
  let pkt ← create_ipv6_packet p6 eth_dst eth_src vlan_enable vlan_vid vlan_pcp ip_traffic_class
    ip_flow_label IpProtocol.TCP.toU8 ip_hop_limit ip_src ip_dst payload
  let pkt ← growIpv6 chk pkt TCP.size
  let tcp := Packet.tcp tcp_src tcp_dst tcp_seq_no tcp_ack_no tcp_data_offset tcp_res tcp_flags
    tcp_window 0 tcp_urgent_ptr
  pure (pkt.push tcp)

/-- `create_udpv6_packet`: /repo/src/utils.rs:426-464 -/
def create_udpv6_packet (chk : Bool) (p6 : Ipv6FromStr) (eth_dst eth_src : Str) (vlan_enable : Bool)
    (vlan_vid : U16) (vlan_pcp : Byte) (ip_traffic_class : Byte) (ip_flow_label : U32)
    (ip_hop_limit : Byte) (ip_src ip_dst : Str) (udp_dst udp_src : U16) (_udp_checksum : Bool)
    (payload : Bytes) : R Packet := do
  let pkt ← create_ipv6_packet p6 eth_dst eth_src vlan_enable vlan_vid vlan_pcp ip_traffic_class
    ip_flow_label IpProtocol.UDP.toU8 ip_hop_limit ip_src ip_dst payload
  let pkt ← growIpv6 chk pkt UDP.size
  let l4_len := UDP.size + payload.length
  let udp := Packet.udp udp_src udp_dst (BitVec.ofNat 16 l4_len)
  let udp ← udp.set UDP.checksum 0xffff#64
  pure (pkt.push udp)

/-- `create_icmpv6_packet`: /repo/src/utils.rs:466-502 -/
def create_icmpv6_packet (chk : Bool) (p6 : Ipv6FromStr) (eth_dst eth_src : Str) (vlan_enable : Bool)
    (vlan_vid : U16) (vlan_pcp : Byte) (ip_traffic_class : Byte) (ip_flow_label : U32)
    (ip_hop_limit : Byte) (ip_src ip_dst : Str) (icmp_type icmp_code : Byte) (_icmp_data : Bytes)
    (_udp_checksum : Bool) (payload : Bytes) : R Packet := do
  let pkt ← create_ipv6_packet p6 eth_dst eth_src vlan_enable vlan_vid vlan_pcp ip_traffic_class
    ip_flow_label IpProtocol.ICMPV6.toU8 ip_hop_limit ip_src ip_dst payload
  let pkt ← growIpv6 chk pkt ICMP.size
  let icmp := Packet.icmp icmp_type icmp_code
  pure (pkt.push icmp)

/-- `create_vxlan_packet`: /repo/src/utils.rs:504-550.  Only `total_len` is updated (542-543), the
header checksum is not recomputed, as in the source. -/
def create_vxlan_packet (chk : Bool) (eth_dst eth_src : Str) (vlan_enable : Bool) (vlan_vid : U16)
    (vlan_pcp : Byte) (ip_ihl : Byte) (ip_src ip_dst : Str) (ip_tos ip_ttl : Byte) (ip_id ip_frag : U16)
    (ip_options : Bytes) (udp_dst udp_src : U16) (_udp_checksum : Bool) (vxlan_vni : U32)
    (inner_pkt : Packet) : R Packet := do
  let ipkt_vec := inner_pkt.to_vec
  let pkt ← create_ipv4_packet chk eth_dst eth_src vlan_enable vlan_vid vlan_pcp ip_ihl ip_src ip_dst
    IpProtocol.UDP.toU8 ip_tos ip_ttl ip_id ip_frag ip_options ipkt_vec
  let pkt ← pkt.withHeaderMut IPv4 "IPv4" fun ipv4 => do
    let tl ← ipv4.get chk IPv4.total_len
    ipv4.set IPv4.total_len (tl + BitVec.ofNat 64 (UDP.size + Vxlan.size))
  let l4_len := UDP.size + Vxlan.size + ipkt_vec.length
  let udp := Packet.udp udp_src udp_dst (BitVec.ofNat 16 l4_len)
  let pkt := pkt.push udp
  pure (pkt.push (Packet.vxlan vxlan_vni))

/-- `create_vxlanv6_packet`: /repo/src/utils.rs:552-596.  The inner packet is put in the payload and
its headers are added again (594), as in the source. -/
def create_vxlanv6_packet (chk : Bool) (p6 : Ipv6FromStr) (eth_dst eth_src : Str) (vlan_enable : Bool)
    (vlan_vid : U16) (vlan_pcp : Byte) (ip_traffic_class : Byte) (ip_flow_label : U32)
    (ip_hop_limit : Byte) (ip_src ip_dst : Str) (udp_dst udp_src : U16) (_udp_checksum : Bool)
    (vxlan_vni : U32) (inner_pkt : Packet) : R Packet := do
  let ipkt_vec := inner_pkt.to_vec
  let pkt ← create_ipv6_packet p6 eth_dst eth_src vlan_enable vlan_vid vlan_pcp ip_traffic_class
    ip_flow_label IpProtocol.UDP.toU8 ip_hop_limit ip_src ip_dst ipkt_vec
  let pkt ← growIpv6 chk pkt (UDP.size + Vxlan.size)
  let l4_len := UDP.size + Vxlan.size + ipkt_vec.length
  let udp := Packet.udp udp_src udp_dst (BitVec.ofNat 16 l4_len)
  let udp ← udp.set UDP.checksum 0xffff#64
  let pkt := pkt.push udp
  let pkt := pkt.push (Packet.vxlan vxlan_vni)
  pure (pkt.add inner_pkt)

/-- The protocol type and the bytes of the inner packet of `create_gre_packet`:
/repo/src/utils.rs:626-636 -/
def greInner (inner_pkt : Option Packet) : R (U16 × Bytes) :=
  match inner_pkt with
  | some p => do
    let ipkt_vec := p.to_vec
    let b ← index ipkt_vec 0
    let n := (b >>> 4) &&& 0xf#8
    if n = 4#8 then pure (EtherType.IPV4.toU16, ipkt_vec)
    else if n = 6#8 then pure (EtherType.IPV6.toU16, ipkt_vec)
    else pure (0#16, ipkt_vec)
  | none => pure (0#16, [])

/-- `create_gre_packet`: /repo/src/utils.rs:598-695 -/
def create_gre_packet (chk : Bool) (eth_dst eth_src : Str) (vlan_enable : Bool) (vlan_vid : U16)
    (vlan_pcp : Byte) (ip_ihl : Byte) (ip_src ip_dst : Str) (ip_tos ip_ttl : Byte) (ip_id ip_frag : U16)
    (ip_options : Bytes) (gre_chksum_present gre_routing_present gre_key_present gre_seqnum_present
    gre_strict_route_src : Bool) (gre_flags gre_version : Byte) (gre_chksum gre_offset : U16)
    (gre_key gre_seqnum : U32) (gre_routing : Bytes) (inner_pkt : Option Packet) : R Packet := do
  let (proto, ipkt_vec) ← greInner inner_pkt
  let pktlen := GRE.size
  let pktlen := if gre_chksum_present then pktlen + GREChksumOffset.size else pktlen
  let pktlen := if gre_key_present then pktlen + GREKey.size else pktlen
  let pktlen := if gre_seqnum_present then pktlen + GRESequenceNum.size else pktlen
  let pktlen := if gre_routing_present then pktlen + gre_routing.length else pktlen
  let pkt ← create_ipv4_packet chk eth_dst eth_src vlan_enable vlan_vid vlan_pcp ip_ihl ip_src ip_dst
    IpProtocol.GRE.toU8 ip_tos ip_ttl ip_id ip_frag ip_options ipkt_vec
  let pkt ← growIpv4 chk pkt pktlen
  let gre := Packet.gre gre_chksum_present gre_routing_present gre_key_present gre_seqnum_present
    gre_strict_route_src gre_flags gre_version proto
  let pkt := pkt.push gre
  let pkt := if gre_chksum_present then pkt.push (Packet.gre_chksum_offset gre_chksum gre_offset) else pkt
  let pkt := if gre_key_present then pkt.push (Packet.gre_key gre_key) else pkt
  let pkt := if gre_seqnum_present then pkt.push (Packet.gre_sequence_number gre_seqnum) else pkt
  pure pkt

/-- `match inner_pkt { Some(ref p) => p.to_vec(), None => Vec::new() }`: /repo/src/utils.rs:720-723,
805-808 -/
def innerVec (inner_pkt : Option Packet) : Bytes :=
  match inner_pkt with
  | some p => p.to_vec
  | none => []

/-- `match inner_pkt { Some(ref p) => p.len(), None => 0 }`: /repo/src/utils.rs:729-732, 817-820 -/
def innerLen (inner_pkt : Option Packet) : Nat :=
  match inner_pkt with
  | some p => p.len
  | none => 0

/-- `create_erspan_2_packet`: /repo/src/utils.rs:697-776 -/
def create_erspan_2_packet (chk : Bool) (eth_dst eth_src : Str) (vlan_enable : Bool) (vlan_vid : U16)
    (vlan_pcp : Byte) (ip_ihl : Byte) (ip_src ip_dst : Str) (ip_tos ip_ttl : Byte) (ip_id ip_frag : U16)
    (ip_options : Bytes) (gre_seqnum : U32) (erspan_vlan : U16) (erpsan_cos erspan_en erspan_t : Byte)
    (erspan_session_id : U16) (erspan_index : U32) (inner_pkt : Option Packet) : R Packet := do
  let ipkt_vec := innerVec inner_pkt
  let pktlen := GRE.size + ERSPAN2.size
  let pktlen := if gre_seqnum ≠ 0#32 then pktlen + GRESequenceNum.size else pktlen
  let pktlen := pktlen + innerLen inner_pkt
  let pkt ← create_ipv4_packet chk eth_dst eth_src vlan_enable vlan_vid vlan_pcp ip_ihl ip_src ip_dst
    IpProtocol.GRE.toU8 ip_tos ip_ttl ip_id ip_frag ip_options ipkt_vec
  let pkt ← growIpv4 chk pkt pktlen
  let gre := GRE.new
  let gre ← gre.set GRE.proto (EtherType.ERSPANII.toU16.setWidth 64)
  let gre ← if gre_seqnum ≠ 0#32 then gre.set GRE.seqnum_present 1#64 else pure gre
  let pkt := pkt.push gre
  let pkt := if gre_seqnum ≠ 0#32 then pkt.push (Packet.gre_sequence_number gre_seqnum) else pkt
  let erspan := Packet.erspan2 erspan_vlan erpsan_cos erspan_en erspan_t erspan_session_id erspan_index
  pure (pkt.push erspan)

/-- `create_erspan_3_packet`: /repo/src/utils.rs:778-876.  `seqnum_present` is set to the low bit of
`gre_seqnum` (846) and the inner headers are added after the payload was set (869-874), as in the
source. -/
def create_erspan_3_packet (chk : Bool) (eth_dst eth_src : Str) (vlan_enable : Bool) (vlan_vid : U16)
    (vlan_pcp : Byte) (ip_ihl : Byte) (ip_src ip_dst : Str) (ip_tos ip_ttl : Byte) (ip_id ip_frag : U16)
    (ip_options : Bytes) (gre_seqnum : U32) (erspan_vlan : U16) (erpsan_cos erspan_en erspan_t : Byte)
    (erspan_session_id : U16) (erspan_timestamp : U32) (erspan_sgt erspan_ft_d_other : U16)
    (erspan_pltfm_id : Byte) (erspan_pltfm_info : U64) (inner_pkt : Option Packet) : R Packet := do
  let ipkt_vec := innerVec inner_pkt
  let pktlen := GRE.size + ERSPAN3.size
  let pktlen := if gre_seqnum ≠ 0#32 then pktlen + GRESequenceNum.size else pktlen
  let pktlen := if erspan_ft_d_other &&& 0x1#16 = 1#16 then pktlen + ERSPANPLATFORM.size else pktlen
  let pktlen := pktlen + innerLen inner_pkt
  let pkt ← create_ipv4_packet chk eth_dst eth_src vlan_enable vlan_vid vlan_pcp ip_ihl ip_src ip_dst
    IpProtocol.GRE.toU8 ip_tos ip_ttl ip_id ip_frag ip_options ipkt_vec
  let pkt ← growIpv4 chk pkt pktlen
  let gre := GRE.new
  let gre ← gre.set GRE.proto (EtherType.ERSPANIII.toU16.setWidth 64)
  let gre ← gre.set GRE.seqnum_present (gre_seqnum.setWidth 64)
  let pkt := pkt.push gre
  let pkt := if gre_seqnum ≠ 0#32 then pkt.push (Packet.gre_sequence_number gre_seqnum) else pkt
  let erspan := Packet.erspan3 erspan_vlan erpsan_cos erspan_en erspan_t erspan_session_id
    erspan_timestamp erspan_sgt erspan_ft_d_other
  let pkt := pkt.push erspan
  let pkt :=
    if erspan_ft_d_other &&& 0x1#16 = 1#16 then
      let pltfm : U64 := ((erspan_pltfm_id.setWidth 64) <<< 58) ||| erspan_pltfm_info
      pkt.push (ERSPANPLATFORM.ofVec (be64 pltfm))
    else pkt
  pure (match inner_pkt with
    | some p => pkt.add p
    | none => pkt)

end PacketRs.Utils
