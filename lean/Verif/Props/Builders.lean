import Verif.Samples
import Verif.Lemmas.Build
import Verif.Spec.Build
import Verif.Props.Parser
/-!
# Properties C41 - C49: the packet builders

`l2Hdrs`, `Ip4.hdr` (Verif.Lemmas.Build) give the layer 2 stack and the IPv4 header byte for byte.
-/
namespace PacketRs
open Spec Utils

/-! ## C41: the stack, byte for byte -/

section
variable (chk : Bool) (p6 : Ipv6FromStr) (eth_dst eth_src : Str) (ve : Bool) (vid : U16) (pcp : Byte)
  (d s : Bytes) (hd : to_mac_bytes eth_dst = .ok d) (hs : to_mac_bytes eth_src = .ok s)
  (a : Ip4) (src dst : Str) (his : to_ipv4_bytes src = .ok a.src) (hid : to_ipv4_bytes dst = .ok a.dst)
  (opts payload : Bytes)
  (tc : Byte) (flow : U32) (hl : Byte)
include hd hs

theorem C41_eth (et : U16) :
    create_eth_packet eth_dst eth_src ve vid pcp et payload = .ok ⟨l2Hdrs d s ve vid pcp et, payload⟩ :=
  eth_eq _ _ _ _ _ _ _ d s hd hs

example : Sample.eth.map (·.to_vec.length) = .ok 23 := by decide +kernel

theorem C41_arp (opcode : U16) (smac tmac sip tip : Str) (arp : Hdr)
    (harp : Packet.arp opcode smac tmac sip tip = .ok arp) :
    create_arp_packet eth_dst eth_src ve vid pcp opcode smac tmac sip tip payload =
      .ok ⟨l2Hdrs d s ve vid pcp 0x0806#16 ++ [arp], payload⟩ := by
  unfold create_arp_packet
  rw [eth_eq _ _ _ _ _ _ _ d s hd hs]
  simp only [bind, Except.bind, harp]
  rfl

example : Sample.arp.map (·.to_vec.length) = .ok 51 := by decide +kernel

include his hid in
theorem C41_ipv4 :
    create_ipv4_packet chk eth_dst eth_src ve vid pcp a.ihl src dst a.proto a.tos a.ttl a.id a.frag opts payload
      = .ok ⟨l2Hdrs d s ve vid pcp 0x0800#16 ++ [a.hdr (BitVec.ofNat 16 (20 + payload.length))], payload⟩ :=
  ipv4pkt_eq _ _ _ _ _ _ _ _ _ _ _ d s hd hs his hid

example : Sample.ipv4.map (·.to_vec.length) = .ok 43 := by decide +kernel

theorem C41_ipv6 (nh : Byte) :
    create_ipv6_packet p6 eth_dst eth_src ve vid pcp tc flow nh hl src dst payload =
      .ok ⟨l2Hdrs d s ve vid pcp 0x86DD#16 ++
        [Packet.ipv6 p6 tc flow nh hl src dst (BitVec.ofNat 16 payload.length)], payload⟩ :=
  ipv6pkt_eq _ _ _ _ _ _ _ _ _ _ _ _ _ d s hd hs

example : Sample.ipv6.map (·.to_vec.length) = .ok 59 := by decide +kernel

include his hid in
/-- IPv4 header with protocol `pr` after `growIpv4`. -/
theorem grown (pr : Byte) (n : Nat) :
    (do
      let pkt ← create_ipv4_packet chk eth_dst eth_src ve vid pcp a.ihl src dst pr a.tos a.ttl a.id a.frag opts payload
      growIpv4 chk pkt n) =
    .ok ⟨l2Hdrs d s ve vid pcp 0x0800#16 ++
      [(a.withProto pr).hdr (BitVec.ofNat 16 (20 + payload.length + n))], payload⟩ := by
  have e := ipv4pkt_eq chk eth_dst eth_src ve vid pcp (a.withProto pr) src dst opts payload d s hd hs his hid
  rw [show create_ipv4_packet chk eth_dst eth_src ve vid pcp a.ihl src dst pr a.tos a.ttl a.id a.frag opts payload
    = _ from e]
  simp only [bind, Except.bind]
  rw [growIpv4_eq chk (a.withProto pr) ⟨C32_length _ _ his, C32_length _ _ hid⟩ _
    (l2_names _ _ _ _ _ _ _ (by decide) (by decide)), ← BitVec.ofNat_add]

include his hid in
/-- `create_tcp_packet`. -/
theorem C41_tcp (tdst tsrc : U16) (seq ack : U32) (off res flags : Byte) (window urg : U16) (ck : Bool) :
    create_tcp_packet chk eth_dst eth_src ve vid pcp a.ihl src dst a.tos a.ttl a.id a.frag opts tdst tsrc seq ack
      off res flags window urg ck payload =
    .ok ⟨l2Hdrs d s ve vid pcp 0x0800#16 ++
      [(a.withProto 6#8).hdr (BitVec.ofNat 16 (20 + payload.length + 20)),
        Packet.tcp tsrc tdst seq ack off res flags window 0 urg], payload⟩ := by
  have e := grown chk eth_dst eth_src ve vid pcp d s hd hs a src dst his hid opts payload 6#8 20
  unfold create_tcp_packet
  rw [← bind_assoc]
  simp only [show IpProtocol.TCP.toU8 = 6#8 from rfl, show TCP.size = 20 from rfl]
  rw [e]
  simp [Packet.push, pure, Except.pure]

example : Sample.tcp.map (·.to_vec.length) = .ok 63 := by decide +kernel

include his hid in
/-- `create_udp_packet`. -/
theorem C41_udp (udst usrc : U16) (ck : Bool) :
    create_udp_packet chk eth_dst eth_src ve vid pcp a.ihl src dst a.tos a.ttl a.id a.frag opts udst usrc ck payload =
    .ok ⟨l2Hdrs d s ve vid pcp 0x0800#16 ++
      [(a.withProto 17#8).hdr (BitVec.ofNat 16 (20 + payload.length + 8)),
        Packet.udp usrc udst (BitVec.ofNat 16 (8 + payload.length))], payload⟩ := by
  have e := grown chk eth_dst eth_src ve vid pcp d s hd hs a src dst his hid opts payload 17#8 8
  unfold create_udp_packet
  rw [← bind_assoc]
  simp only [show IpProtocol.UDP.toU8 = 17#8 from rfl, show UDP.size = 8 from rfl]
  rw [e]
  simp [Packet.push, pure, Except.pure]

example : Sample.udp.map (·.to_vec.length) = .ok 51 := by decide +kernel

include his hid in
/-- `create_icmp_packet`. -/
theorem C41_icmp (ty code : Byte) (idata : Bytes) (ck : Bool) :
    create_icmp_packet chk eth_dst eth_src ve vid pcp a.ihl src dst a.tos a.ttl a.id a.frag opts ty code idata ck
      payload =
    .ok ⟨l2Hdrs d s ve vid pcp 0x0800#16 ++
      [(a.withProto 1#8).hdr (BitVec.ofNat 16 (20 + payload.length + 4)), Packet.icmp ty code], payload⟩ := by
  have e := grown chk eth_dst eth_src ve vid pcp d s hd hs a src dst his hid opts payload 1#8 4
  unfold create_icmp_packet
  rw [← bind_assoc]
  simp only [show IpProtocol.ICMP.toU8 = 1#8 from rfl, show ICMP.size = 4 from rfl]
  rw [e]
  simp [Packet.push, pure, Except.pure]

example : Sample.icmp.map (·.to_vec.length) = .ok 43 := by decide +kernel

/-- IPv6 header after `growIpv6`. -/
theorem grown6 (nh : Byte) (n : Nat) :
    (do
      let pkt ← create_ipv6_packet p6 eth_dst eth_src ve vid pcp tc flow nh hl src dst payload
      growIpv6 chk pkt n) =
    .ok ⟨l2Hdrs d s ve vid pcp 0x86DD#16 ++
      [Packet.ipv6 p6 tc flow nh hl src dst (BitVec.ofNat 16 (payload.length + n))], payload⟩ := by
  rw [ipv6pkt_eq p6 eth_dst eth_src ve vid pcp tc flow nh hl src dst payload d s hd hs]
  simp only [bind, Except.bind]
  rw [growIpv6_eq chk p6 tc flow nh hl src dst _ (l2_names _ _ _ _ _ _ _ (by decide) (by decide)), ← BitVec.ofNat_add]

/-- `create_tcpv6_packet`. -/
theorem C41_tcpv6 (tdst tsrc : U16) (seq ack : U32) (off res flags : Byte) (window urg : U16) :
    create_tcpv6_packet chk p6 eth_dst eth_src ve vid pcp tc flow hl src dst tdst tsrc seq ack off res flags window urg
      payload =
    .ok ⟨l2Hdrs d s ve vid pcp 0x86DD#16 ++
      [Packet.ipv6 p6 tc flow 6#8 hl src dst (BitVec.ofNat 16 (payload.length + 20)),
        Packet.tcp tsrc tdst seq ack off res flags window 0 urg], payload⟩ := by
  have e := grown6 chk p6 eth_dst eth_src ve vid pcp d s hd hs src dst payload tc flow hl 6#8 20
  unfold create_tcpv6_packet
  rw [← bind_assoc]
  simp only [show IpProtocol.TCP.toU8 = 6#8 from rfl, show TCP.size = 20 from rfl]
  rw [e]
  simp [Packet.push, pure, Except.pure]

example : Sample.tcpv6.map (·.to_vec.length) = .ok 83 := by decide +kernel

/-- `create_udpv6_packet`. -/
theorem C41_udpv6 (udst usrc : U16) (ck : Bool) :
    create_udpv6_packet chk p6 eth_dst eth_src ve vid pcp tc flow hl src dst udst usrc ck payload =
    .ok ⟨l2Hdrs d s ve vid pcp 0x86DD#16 ++
      [Packet.ipv6 p6 tc flow 17#8 hl src dst (BitVec.ofNat 16 (payload.length + 8)),
        ⟨UDP, be16 usrc ++ be16 udst ++ be16 (BitVec.ofNat 16 (8 + payload.length)) ++ be16 0xffff#16⟩],
      payload⟩ := by
  have e := grown6 chk p6 eth_dst eth_src ve vid pcp d s hd hs src dst payload tc flow hl 17#8 8
  unfold create_udpv6_packet
  rw [← bind_assoc]
  simp only [show IpProtocol.UDP.toU8 = 17#8 from rfl, show UDP.size = 8 from rfl]
  rw [e]
  simp [Packet.push, pure, Except.pure, udp_ffff]

example : Sample.udpv6.map (·.to_vec.length) = .ok 71 := by decide +kernel

/-- `create_icmpv6_packet`. -/
theorem C41_icmpv6 (ty code : Byte) (idata : Bytes) (ck : Bool) :
    create_icmpv6_packet chk p6 eth_dst eth_src ve vid pcp tc flow hl src dst ty code idata ck payload =
    .ok ⟨l2Hdrs d s ve vid pcp 0x86DD#16 ++
      [Packet.ipv6 p6 tc flow 58#8 hl src dst (BitVec.ofNat 16 (payload.length + 4)), Packet.icmp ty code],
      payload⟩ := by
  have e := grown6 chk p6 eth_dst eth_src ve vid pcp d s hd hs src dst payload tc flow hl 58#8 4
  unfold create_icmpv6_packet
  rw [← bind_assoc]
  simp only [show IpProtocol.ICMPV6.toU8 = 58#8 from rfl, show ICMP.size = 4 from rfl]
  rw [e]
  simp [Packet.push, pure, Except.pure]

example : Sample.icmpv6.map (·.to_vec.length) = .ok 63 := by decide +kernel

include his hid in
/-- `create_vxlan_packet`: the checksum is that of the header with the shorter total length. -/
theorem C41_vxlan (udst usrc : U16) (ck : Bool) (vni : U32) (inner : Packet) :
    create_vxlan_packet chk eth_dst eth_src ve vid pcp a.ihl src dst a.tos a.ttl a.id a.frag opts udst usrc ck vni
      inner =
    .ok ⟨l2Hdrs d s ve vid pcp 0x0800#16 ++
      [⟨IPv4, (a.withProto 17#8).raw (BitVec.ofNat 16 (20 + inner.to_vec.length + 16))
          ((a.withProto 17#8).ck (BitVec.ofNat 16 (20 + inner.to_vec.length)))⟩,
        Packet.udp usrc udst (BitVec.ofNat 16 (16 + inner.to_vec.length)), Packet.vxlan vni], inner.to_vec⟩ := by
  unfold create_vxlan_packet
  have e := ipv4pkt_eq chk eth_dst eth_src ve vid pcp (a.withProto 17#8) src dst opts inner.to_vec d s hd hs his hid
  simp only
  rw [show create_ipv4_packet chk eth_dst eth_src ve vid pcp a.ihl src dst IpProtocol.UDP.toU8 a.tos a.ttl a.id a.frag
    opts inner.to_vec = _ from e]
  have e2 := vxlanLen_eq chk (a.withProto 17#8) ⟨C32_length _ _ his, C32_length _ _ hid⟩
    (l2Hdrs d s ve vid pcp 0x0800#16) (l2_names _ _ _ _ _ _ _ (by decide) (by decide))
    (BitVec.ofNat 16 (20 + inner.to_vec.length)) inner.to_vec 16
  simp only [R.ok_bind, show UDP.size + Vxlan.size = 16 from rfl]
  rw [e2, ← BitVec.ofNat_add]
  simp [Packet.push, pure, Except.pure]

example : Sample.vxlan.map (·.to_vec.length) = .ok 105 := by decide +kernel

/-- `create_vxlanv6_packet`: the inner headers follow the VXLAN header *and* the whole inner packet is the
payload. -/
theorem C41_vxlanv6 (udst usrc : U16) (ck : Bool) (vni : U32) (inner : Packet) :
    create_vxlanv6_packet chk p6 eth_dst eth_src ve vid pcp tc flow hl src dst udst usrc ck vni inner =
    .ok ⟨l2Hdrs d s ve vid pcp 0x86DD#16 ++
      [Packet.ipv6 p6 tc flow 17#8 hl src dst (BitVec.ofNat 16 (inner.to_vec.length + 16)),
        ⟨UDP, be16 usrc ++ be16 udst ++ be16 (BitVec.ofNat 16 (16 + inner.to_vec.length)) ++ be16 0xffff#16⟩,
        Packet.vxlan vni] ++ inner.hdrs, inner.to_vec⟩ := by
  have e := grown6 chk p6 eth_dst eth_src ve vid pcp d s hd hs src dst inner.to_vec tc flow hl 17#8 16
  unfold create_vxlanv6_packet
  simp only
  rw [← bind_assoc]
  simp only [show IpProtocol.UDP.toU8 = 17#8 from rfl, show UDP.size + Vxlan.size = 16 from rfl]
  rw [e]
  simp [Packet.push, Packet.add, pure, Except.pure, udp_ffff]

example : Sample.vxlanv6.map (·.to_vec.length) = .ok 171 := by decide +kernel

omit hd hs in
theorem innerProto_eq (b : Bytes) (hb : b ≠ []) : ∃ pr, innerProto b = .ok pr ∧ pr.toU8 = ipipProto b := by
  have hl : 0 < b.length := List.length_pos_iff.mpr hb
  unfold innerProto
  rw [index_eq_u8 b 0 hl]
  have h8 := u8At_lt b 0
  simp only [R.ok_bind]
  rw [nibble, BitVec.toNat_ofNat, Nat.mod_eq_of_lt (by omega : u8At b 0 < 2 ^ 8), IpType.try_from_ofNat _ (by omega)]
  unfold ipipProto
  by_cases h4 : u8At b 0 / 16 = 4
  · exact ⟨.IPIP, by simp [h4]; rfl, by simp [h4]; rfl⟩
  · by_cases h6 : u8At b 0 / 16 = 6
    · exact ⟨.IPV6, by simp [h6]; rfl, by simp [h6]; rfl⟩
    · exact ⟨.IPIP, by simp [h4, h6]; rfl, by simp [h6]; rfl⟩

include his hid in
/-- `create_ipv4ip_packet`. -/
theorem C41_ipv4ip (inner : Packet) (hi : inner.to_vec ≠ []) :
    create_ipv4ip_packet chk eth_dst eth_src ve vid pcp a.ihl src dst a.tos a.ttl a.id a.frag opts inner =
    .ok ⟨l2Hdrs d s ve vid pcp 0x0800#16 ++
      [(a.withProto (ipipProto inner.to_vec)).hdr (BitVec.ofNat 16 (20 + inner.to_vec.length))], inner.to_vec⟩ := by
  obtain ⟨pr, e1, e2⟩ := innerProto_eq inner.to_vec hi
  unfold create_ipv4ip_packet
  simp only [e1, R.ok_bind, e2]
  exact ipv4pkt_eq chk eth_dst eth_src ve vid pcp (a.withProto (ipipProto inner.to_vec)) src dst opts inner.to_vec d s
    hd hs his hid

example : Sample.ipv4ip.map (·.to_vec.length) = .ok 83 := by decide +kernel

/-- `create_ipv6ip_packet`. -/
theorem C41_ipv6ip (inner : Packet) (hi : inner.to_vec ≠ []) :
    create_ipv6ip_packet p6 eth_dst eth_src ve vid pcp tc flow hl src dst inner =
    .ok ⟨l2Hdrs d s ve vid pcp 0x86DD#16 ++
      [Packet.ipv6 p6 tc flow (ipipProto inner.to_vec) hl src dst (BitVec.ofNat 16 inner.to_vec.length)],
      inner.to_vec⟩ := by
  obtain ⟨pr, e1, e2⟩ := innerProto_eq inner.to_vec hi
  unfold create_ipv6ip_packet
  simp only [e1, R.ok_bind, e2]
  exact ipv6pkt_eq _ _ _ _ _ _ _ _ _ _ _ _ _ d s hd hs

example : Sample.ipv6ip.map (·.to_vec.length) = .ok 83 := by decide +kernel

omit hd hs in
/-- The IP-in-IP builders panic on an inner packet without bytes. -/
theorem C41_ipip_empty (inner : Packet) (hi : inner.to_vec = []) :
    create_ipv4ip_packet chk eth_dst eth_src ve vid pcp a.ihl src dst a.tos a.ttl a.id a.frag opts inner = .error .index
    ∧ create_ipv6ip_packet p6 eth_dst eth_src ve vid pcp tc flow hl src dst inner = .error .index := by
  unfold create_ipv4ip_packet create_ipv6ip_packet
  rw [hi]
  exact ⟨rfl, rfl⟩

end

/-- An optional header. -/
def optHdrs (c : Bool) (h : Hdr) : List Hdr := if c then [h] else []

theorem push_opt (c : Bool) (p : Packet) (h : Hdr) :
    (if c then p.push h else p) = ⟨p.hdrs ++ optHdrs c h, p.payload⟩ := by
  cases c <;> simp [optHdrs, Packet.push]

/-- Bytes of the GRE header and its options as `create_gre_packet` counts them. -/
def greLen (c r k q : Bool) (routing : Bytes) : Nat :=
  4 + (if c then 4 else 0) + (if k then 4 else 0) + (if q then 4 else 0) + (if r then routing.length else 0)

/-- The inner packet's bytes; `None` is no bytes. -/
def innerBytes (inner : Option Packet) : Bytes := match inner with | some p => p.to_vec | none => []

section
variable (chk : Bool) (eth_dst eth_src : Str) (ve : Bool) (vid : U16) (pcp : Byte)
  (d s : Bytes) (hd : to_mac_bytes eth_dst = .ok d) (hs : to_mac_bytes eth_src = .ok s)
  (a : Ip4) (src dst : Str) (his : to_ipv4_bytes src = .ok a.src) (hid : to_ipv4_bytes dst = .ok a.dst)
  (opts : Bytes) 
include hd hs his hid

/-- `create_gre_packet`. -/
theorem C41_gre (c r k q st : Bool) (flags ver : Byte) (gck goff : U16) (key seq : U32) (routing : Bytes)
    (inner : Option Packet) (hi : ∀ p, inner = some p → p.to_vec ≠ []) :
    create_gre_packet chk eth_dst eth_src ve vid pcp a.ihl src dst a.tos a.ttl a.id a.frag opts c r k q st flags ver
      gck goff key seq routing inner =
    .ok ⟨l2Hdrs d s ve vid pcp 0x0800#16 ++
      [(a.withProto 47#8).hdr (BitVec.ofNat 16 (20 + (innerBytes inner).length + greLen c r k q routing)),
        Packet.gre c r k q st flags ver (greProto (innerBytes inner))] ++
      (optHdrs c (Packet.gre_chksum_offset gck goff) ++ (optHdrs k (Packet.gre_key key) ++
        optHdrs q (Packet.gre_sequence_number seq))), innerBytes inner⟩ := by
  have key1 : greInner inner = .ok (greProto (innerBytes inner), innerBytes inner) := by
    cases inner with
    | none => rfl
    | some p =>
      have hb := hi p rfl
      have hl : 0 < p.to_vec.length := List.length_pos_iff.mpr hb
      simp only [innerBytes, greInner]
      rw [index_eq_u8 _ 0 hl]
      have h8 := u8At_lt p.to_vec 0
      simp only [R.ok_bind]
      rw [nibble, BitVec.toNat_ofNat, Nat.mod_eq_of_lt (by omega : u8At p.to_vec 0 < 2 ^ 8)]
      simp only [ofNat8_eq _ 4 (show u8At p.to_vec 0 / 16 < 256 by omega),
        ofNat8_eq _ 6 (show u8At p.to_vec 0 / 16 < 256 by omega)]
      unfold greProto
      by_cases h4 : u8At p.to_vec 0 / 16 = 4
      · simp [h4]; rfl
      · by_cases h6 : u8At p.to_vec 0 / 16 = 6
        · simp [h6]; rfl
        · simp [h4, h6]; rfl
  have e := grown chk eth_dst eth_src ve vid pcp d s hd hs a src dst his hid opts (innerBytes inner) 47#8
    (greLen c r k q routing)
  unfold create_gre_packet
  rw [key1]
  simp only [R.ok_bind]
  have hlen : (if r = true then (if q = true then (if k = true then (if c = true then
      GRE.size + GREChksumOffset.size else GRE.size) + GREKey.size else (if c = true then
      GRE.size + GREChksumOffset.size else GRE.size)) + GRESequenceNum.size else (if k = true then (if c = true then
      GRE.size + GREChksumOffset.size else GRE.size) + GREKey.size else (if c = true then
      GRE.size + GREChksumOffset.size else GRE.size))) + routing.length else (if q = true then (if k = true then (if c = true then
      GRE.size + GREChksumOffset.size else GRE.size) + GREKey.size else (if c = true then
      GRE.size + GREChksumOffset.size else GRE.size)) + GRESequenceNum.size else (if k = true then (if c = true then
      GRE.size + GREChksumOffset.size else GRE.size) + GREKey.size else (if c = true then
      GRE.size + GREChksumOffset.size else GRE.size)))) = greLen c r k q routing := by
    simp only [show GRE.size = 4 from rfl, show GREChksumOffset.size = 4 from rfl, show GREKey.size = 4 from rfl,
      show GRESequenceNum.size = 4 from rfl, greLen]
    cases c <;> cases r <;> cases k <;> cases q <;> simp
  rw [← bind_assoc]
  simp only [show IpProtocol.GRE.toU8 = 47#8 from rfl]
  rw [hlen, e]
  simp only [R.ok_bind, push_opt]
  simp [Packet.push, pure, Except.pure]

example : Sample.gre.map (·.to_vec.length) = .ok 71 := by decide +kernel

omit hd hs his hid in
theorem set_gre_seq (b0 b1 b2 b3 : Byte) (v : U64) (h0 : b0 = 0#8) :
    Hdr.set ⟨GRE, [b0, b1, b2, b3]⟩ GRE.seqnum_present v =
      .ok ⟨GRE, [if v.toNat % 2 = 1 then 0x10#8 else 0#8, b1, b2, b3]⟩ := by
  subst h0
  have e : v &&& 1#64 = if v.toNat % 2 = 1 then 1#64 else 0#64 := by
    apply BitVec.eq_of_toNat_eq
    simp only [BitVec.toNat_and, BitVec.toNat_ofNat]
    rw [show 1 % 2 ^ 64 = 2 ^ 1 - 1 from rfl, Nat.and_two_pow_sub_one_eq_mod]
    split <;> simp <;> omega
  change (do
      let d ← setBitRange [0#8, b1, b2, b3] 3 3 v
      pure (⟨GRE, d⟩ : Hdr) : R Hdr) = _
  have e2 : setBitRange [0#8, b1, b2, b3] 3 3 v =
      .ok [0#8 ||| ((v &&& 1#64).setWidth 8 <<< 4), b1, b2, b3] := rfl
  rw [e2, e]
  split <;> rfl

/-- Bytes of the tunnel headers `create_erspan_2_packet` adds. -/
def erspan2Len (seq : U32) : Nat := 12 + (if seq ≠ 0#32 then 4 else 0)

/-- `create_erspan_2_packet`. -/
theorem C41_erspan2 (seq : U32) (vlan : U16) (cos en t : Byte) (sid : U16) (idx : U32) (inner : Option Packet) :
    create_erspan_2_packet chk eth_dst eth_src ve vid pcp a.ihl src dst a.tos a.ttl a.id a.frag opts seq vlan cos en t
      sid idx inner =
    .ok ⟨l2Hdrs d s ve vid pcp 0x0800#16 ++
      [(a.withProto 47#8).hdr (BitVec.ofNat 16 (20 + (innerBytes inner).length + (erspan2Len seq + innerLen inner))),
        ⟨GRE, [if seq ≠ 0#32 then 0x10#8 else 0#8, 0#8, 0x88#8, 0xbe#8]⟩] ++
      (optHdrs (seq ≠ 0#32) (Packet.gre_sequence_number seq) ++ [Packet.erspan2 vlan cos en t sid idx]),
      innerBytes inner⟩ := by
  have e := grown chk eth_dst eth_src ve vid pcp d s hd hs a src dst his hid opts (innerBytes inner) 47#8
    (erspan2Len seq + innerLen inner)
  unfold create_erspan_2_packet
  have hlen : (if seq ≠ 0#32 then GRE.size + ERSPAN2.size + GRESequenceNum.size else GRE.size + ERSPAN2.size)
      = erspan2Len seq := by
    simp only [show GRE.size = 4 from rfl, show ERSPAN2.size = 8 from rfl, show GRESequenceNum.size = 4 from rfl,
      erspan2Len]
    split <;> rfl
  rw [← bind_assoc]
  simp only [show IpProtocol.GRE.toU8 = 47#8 from rfl, show innerVec inner = innerBytes inner from rfl]
  rw [hlen, e]
  by_cases h : seq = 0#32
  · have g : GRE.new.set GRE.proto (EtherType.ERSPANII.toU16.setWidth 64)
      = .ok ⟨GRE, [0#8, 0#8, 0x88#8, 0xbe#8]⟩ := by decide +kernel
    simp [h, g, Packet.push, pure, Except.pure, optHdrs]
  · have g : GRE.new.set GRE.proto (EtherType.ERSPANII.toU16.setWidth 64)
      = .ok ⟨GRE, [0#8, 0#8, 0x88#8, 0xbe#8]⟩ := by decide +kernel
    have g2 := set_gre_seq 0#8 0#8 0x88#8 0xbe#8 1#64 rfl
    simp [h, g, g2, Packet.push, pure, Except.pure, optHdrs]

example : Sample.erspan2.map (·.to_vec.length) = .ok 105 := by decide +kernel

/-- Bytes of the tunnel headers `create_erspan_3_packet` adds. -/
def erspan3Len (seq : U32) (ft : U16) : Nat :=
  16 + (if seq ≠ 0#32 then 4 else 0) + (if ft.toNat % 2 = 1 then 8 else 0)

/-- The platform specific subheader. -/
def platform (id : Byte) (info : U64) : Hdr := ⟨ERSPANPLATFORM, be64 ((id.setWidth 64 <<< 58) ||| info)⟩

omit hd hs his hid in
theorem and_one16 (ft : U16) : (ft &&& 0x1#16 = 1#16) ↔ ft.toNat % 2 = 1 := by
  rw [← BitVec.toNat_inj, BitVec.toNat_and]
  have : (0x1#16).toNat = 2 ^ 1 - 1 := rfl
  rw [this, Nat.and_two_pow_sub_one_eq_mod]
  simp

/-- The headers of an optional packet. -/
def innerHdrs (inner : Option Packet) : List Hdr := match inner with | some p => p.hdrs | none => []

/-- `create_erspan_3_packet`. -/
theorem C41_erspan3 (seq : U32) (vlan : U16) (cos en t : Byte) (sid : U16) (ts : U32) (sgt ft : U16) (pid : Byte)
    (info : U64) (inner : Option Packet) :
    create_erspan_3_packet chk eth_dst eth_src ve vid pcp a.ihl src dst a.tos a.ttl a.id a.frag opts seq vlan cos en t
      sid ts sgt ft pid info inner =
    .ok ⟨l2Hdrs d s ve vid pcp 0x0800#16 ++
      [(a.withProto 47#8).hdr (BitVec.ofNat 16 (20 + (innerBytes inner).length +
          (erspan3Len seq ft + innerLen inner))),
        ⟨GRE, [if seq.toNat % 2 = 1 then 0x10#8 else 0#8, 0#8, 0x22#8, 0xeb#8]⟩] ++
      (optHdrs (seq ≠ 0#32) (Packet.gre_sequence_number seq) ++
        (Packet.erspan3 vlan cos en t sid ts sgt ft :: (optHdrs (ft.toNat % 2 = 1) (platform pid info) ++
          innerHdrs inner))),
      innerBytes inner⟩ := by
  have e := grown chk eth_dst eth_src ve vid pcp d s hd hs a src dst his hid opts (innerBytes inner) 47#8
    (erspan3Len seq ft + innerLen inner)
  unfold create_erspan_3_packet
  simp only [and_one16]
  have hlen : (if ft.toNat % 2 = 1 then (if seq ≠ 0#32 then GRE.size + ERSPAN3.size + GRESequenceNum.size
      else GRE.size + ERSPAN3.size) + ERSPANPLATFORM.size else (if seq ≠ 0#32 then
      GRE.size + ERSPAN3.size + GRESequenceNum.size else GRE.size + ERSPAN3.size)) = erspan3Len seq ft := by
    simp only [show GRE.size = 4 from rfl, show ERSPAN3.size = 12 from rfl, show GRESequenceNum.size = 4 from rfl,
      show ERSPANPLATFORM.size = 8 from rfl, erspan3Len]
    split <;> split <;> rfl
  rw [← bind_assoc]
  simp only [show IpProtocol.GRE.toU8 = 47#8 from rfl, show innerVec inner = innerBytes inner from rfl]
  rw [hlen, e]
  have g : GRE.new.set GRE.proto (EtherType.ERSPANIII.toU16.setWidth 64)
      = .ok ⟨GRE, [0#8, 0#8, 0x22#8, 0xeb#8]⟩ := by decide +kernel
  have g2 := set_gre_seq 0#8 0#8 0x22#8 0xeb#8 (seq.setWidth 64) rfl
  rw [show (BitVec.setWidth 64 seq).toNat = seq.toNat by
    have := seq.isLt
    rw [BitVec.toNat_setWidth]; omega] at g2
  simp only [R.ok_bind, g, g2]
  cases inner <;> by_cases h : seq = 0#32 <;> by_cases h2 : ft.toNat % 2 = 1 <;>
    simp [Packet.add, innerHdrs, h, h2, Packet.push, pure, Except.pure, optHdrs, platform, HeaderDef.ofVec]

example : Sample.erspan3.map (·.to_vec.length) = .ok 163 := by decide +kernel

end
end PacketRs
