import Verif.Props.BuildersParse
import Verif.Props.BuildersSum
import Verif.Props.Transport
/-!
# Property C82: a builder is the builder of the layer below, applied to its own header and the payload

Equations between client programs: what one builder call puts on the wire, against another builder call whose payload
is the upper header (made by the crate's own constructor) followed by the payload.  The equations hold for every
argument, also for those that make both calls panic.  Where a builder does not follow the rule the exact condition
under which it still does is given.
-/
namespace PacketRs
open Spec Utils

/-- What a builder call puts on the wire, or its panic. -/
def sent (x : R Packet) : R Bytes := x.map Packet.to_vec

/-! ## Panics do not depend on the payload -/

theorem eth_total (eth_dst eth_src : Str) :
    (∃ d s, to_mac_bytes eth_dst = .ok d ∧ to_mac_bytes eth_src = .ok s) ∨
      ∃ e, ∀ ve vid pcp et payload, create_eth_packet eth_dst eth_src ve vid pcp et payload = .error e := by
  cases hd : to_mac_bytes eth_dst with
  | error e =>
    refine .inr ⟨e, fun ve vid pcp et payload => ?_⟩
    unfold create_eth_packet Packet.ethernet
    rw [hd]; cases ve <;> rfl
  | ok d =>
    cases hs : to_mac_bytes eth_src with
    | error e =>
      refine .inr ⟨e, fun ve vid pcp et payload => ?_⟩
      unfold create_eth_packet Packet.ethernet
      rw [hd, hs]; cases ve <;> rfl
    | ok s => exact .inl ⟨d, s, rfl, rfl⟩

theorem ip4_total (src dst : Str) :
    (∃ s d, to_ipv4_bytes src = .ok s ∧ to_ipv4_bytes dst = .ok d) ∨
      ∃ e, ∀ chk ihl tos id ttl frag proto len, Packet.ipv4 chk ihl tos id ttl frag proto src dst len = .error e := by
  cases hs : to_ipv4_bytes src with
  | error e =>
    refine .inr ⟨e, fun chk ihl tos id ttl frag proto len => ?_⟩
    unfold Packet.ipv4
    rw [hs]; rfl
  | ok s =>
    cases hd : to_ipv4_bytes dst with
    | error e =>
      refine .inr ⟨e, fun chk ihl tos id ttl frag proto len => ?_⟩
      unfold Packet.ipv4
      rw [hs, hd]; rfl
    | ok d => exact .inl ⟨s, d, rfl, rfl⟩

theorem ipv4_total (eth_dst eth_src src dst : Str) :
    (∃ d s si di, to_mac_bytes eth_dst = .ok d ∧ to_mac_bytes eth_src = .ok s ∧ to_ipv4_bytes src = .ok si ∧
        to_ipv4_bytes dst = .ok di) ∨
      ∃ e, ∀ chk ve vid pcp ihl proto tos ttl id frag opts payload,
        create_ipv4_packet chk eth_dst eth_src ve vid pcp ihl src dst proto tos ttl id frag opts payload = .error e := by
  rcases eth_total eth_dst eth_src with ⟨d, s, hd, hs⟩ | ⟨e, he⟩
  · rcases ip4_total src dst with ⟨si, di, h1, h2⟩ | ⟨e, he⟩
    · exact .inl ⟨d, s, si, di, hd, hs, h1, h2⟩
    · refine .inr ⟨e, fun chk ve vid pcp ihl proto tos ttl id frag opts payload => ?_⟩
      unfold create_ipv4_packet
      rw [eth_eq _ _ _ _ _ _ _ d s hd hs]
      simp only [bind, Except.bind, he]
  · refine .inr ⟨e, fun chk ve vid pcp ihl proto tos ttl id frag opts payload => ?_⟩
    unfold create_ipv4_packet
    rw [he]; rfl

theorem ipv6_total (eth_dst eth_src : Str) :
    (∃ d s, to_mac_bytes eth_dst = .ok d ∧ to_mac_bytes eth_src = .ok s) ∨
      ∃ e, ∀ p6 ve vid pcp tc flow nh hl src dst payload,
        create_ipv6_packet p6 eth_dst eth_src ve vid pcp tc flow nh hl src dst payload = .error e := by
  rcases eth_total eth_dst eth_src with h | ⟨e, he⟩
  · exact .inl h
  · refine .inr ⟨e, fun p6 ve vid pcp tc flow nh hl src dst payload => ?_⟩
    unfold create_ipv6_packet
    rw [he]; rfl

section
variable (chk : Bool) (p6 : Ipv6FromStr) (eth_dst eth_src : Str) (ve : Bool) (vid : U16) (pcp : Byte)
  (ihl : Byte) (src dst : Str) (tos ttl : Byte) (id frag : U16) (opts : Bytes) (tc : Byte) (flow : U32) (hl : Byte)
  (payload : Bytes)

/-! ## The layers that follow the rule -/

/-- **C82**, VLAN: a tagged frame is the untagged frame of type 0x8100 whose payload starts with the tag. -/
theorem C82_vlan (et : U16) (tag : Hdr) (ht : Packet.vlan pcp 0 vid et = .ok tag) :
    sent (create_eth_packet eth_dst eth_src true vid pcp et payload) =
      sent (create_eth_packet eth_dst eth_src false vid pcp 0x8100#16 (tag.data ++ payload)) := by
  rcases eth_total eth_dst eth_src with ⟨d, s, hd, hs⟩ | ⟨e, he⟩
  · rw [C41_eth _ _ _ _ _ d s hd hs, C41_eth _ _ _ _ _ d s hd hs]
    rw [vlan_eq] at ht
    cases ht
    simp [sent, Except.map, to_vec_onWire, onWire, l2Hdrs, HeaderDef.ofVec]
  · rw [he, he]

example : Packet.vlan 3 0 10 0x88cc = .ok ⟨Vlan, [0x60#8, 0x0a#8, 0x88#8, 0xcc#8]⟩ ∧
    sent Sample.eth = sent (create_eth_packet Sample.mac1 Sample.mac2 false 10 3 0x8100
      ([0x60#8, 0x0a#8, 0x88#8, 0xcc#8] ++ Sample.data)) ∧ (sent Sample.eth).map (·.length) = .ok 23 := by decide +kernel

/-- **C82**, ARP. -/
theorem C82_arp (opcode : U16) (smac tmac sip tip : Str) (arp : Hdr)
    (harp : Packet.arp opcode smac tmac sip tip = .ok arp) :
    sent (create_arp_packet eth_dst eth_src ve vid pcp opcode smac tmac sip tip payload) =
      sent (create_eth_packet eth_dst eth_src ve vid pcp 0x0806#16 (arp.data ++ payload)) := by
  rcases eth_total eth_dst eth_src with ⟨d, s, hd, hs⟩ | ⟨e, he⟩
  · rw [C41_eth _ _ _ _ _ d s hd hs, C41_arp _ _ _ _ _ d s hd hs _ _ _ _ _ _ arp harp]
    simp [sent, Except.map, to_vec_onWire, onWire]
  · unfold create_arp_packet
    rw [he, he]; rfl

example : sent Sample.arp = sent (create_eth_packet Sample.mac1 Sample.mac2 true 10 3 0x0806
    ((Sample.get Sample.arp).to_vec.drop 18)) ∧ (sent Sample.arp).map (·.length) = .ok 51 := by decide +kernel

/-- **C82**, IPv4: the header the constructor makes for this length, and the payload, in a frame of type 0x0800. -/
theorem C82_ipv4 (proto : Byte) (ip : Hdr)
    (hip : Packet.ipv4 chk ihl tos id ttl frag proto src dst (BitVec.ofNat 16 (20 + payload.length)) = .ok ip) :
    sent (create_ipv4_packet chk eth_dst eth_src ve vid pcp ihl src dst proto tos ttl id frag opts payload) =
      sent (create_eth_packet eth_dst eth_src ve vid pcp 0x0800#16 (ip.data ++ payload)) := by
  rcases eth_total eth_dst eth_src with ⟨d, s, hd, hs⟩ | ⟨e, he⟩
  · obtain ⟨si, di, his, hid⟩ := packet_ipv4_inv _ _ _ _ _ _ _ _ _ _ _ hip
    have e1 := C41_ipv4 chk _ _ ve vid pcp d s hd hs ⟨ihl, tos, id, ttl, frag, proto, si, di⟩ src dst his hid opts payload
    have e2 := packet_ipv4_eq chk ⟨ihl, tos, id, ttl, frag, proto, si, di⟩ src dst his hid
      (BitVec.ofNat 16 (20 + payload.length))
    rw [hip] at e2
    cases e2
    rw [e1, C41_eth _ _ _ _ _ d s hd hs]
    simp [sent, Except.map, to_vec_onWire, onWire]
  · unfold create_ipv4_packet
    rw [he, he]; rfl

example : sent Sample.ipv4 = sent (create_eth_packet Sample.mac1 Sample.mac2 true 10 3 0x0800
    ((Sample.get Sample.ipv4).to_vec.drop 18)) ∧ (sent Sample.ipv4).map (·.length) = .ok 43 := by decide +kernel

/-- **C82**, IPv6. -/
theorem C82_ipv6 (nh : Byte) :
    sent (create_ipv6_packet p6 eth_dst eth_src ve vid pcp tc flow nh hl src dst payload) =
      sent (create_eth_packet eth_dst eth_src ve vid pcp 0x86DD#16
        ((Packet.ipv6 p6 tc flow nh hl src dst (BitVec.ofNat 16 payload.length)).data ++ payload)) := by
  rcases eth_total eth_dst eth_src with ⟨d, s, hd, hs⟩ | ⟨e, he⟩
  · rw [C41_eth _ _ _ _ _ d s hd hs, C41_ipv6 _ _ _ _ _ _ d s hd hs]
    simp [sent, Except.map, to_vec_onWire, onWire]
  · unfold create_ipv6_packet
    rw [he, he]; rfl

example : sent Sample.ipv6 = sent (create_eth_packet Sample.mac1 Sample.mac2 false 10 3 0x86dd
    ((Sample.get Sample.ipv6).to_vec.drop 14)) ∧ (sent Sample.ipv6).map (·.length) = .ok 59 := by decide +kernel

/-- **C82**, TCP over IPv4: protocol 6, payload the TCP header with checksum 0 and the payload. -/
theorem C82_tcp (tdst tsrc : U16) (seq ack : U32) (off res flags : Byte) (window urg : U16) (ck : Bool) :
    sent (create_tcp_packet chk eth_dst eth_src ve vid pcp ihl src dst tos ttl id frag opts tdst tsrc seq ack
        off res flags window urg ck payload) =
      sent (create_ipv4_packet chk eth_dst eth_src ve vid pcp ihl src dst 6#8 tos ttl id frag opts
        ((Packet.tcp tsrc tdst seq ack off res flags window 0 urg).data ++ payload)) := by
  rcases ipv4_total eth_dst eth_src src dst with ⟨d, s, si, di, hd, hs, his, hid⟩ | ⟨e, he⟩
  · have e1 := C41_tcp chk _ _ ve vid pcp d s hd hs ⟨ihl, tos, id, ttl, frag, 6#8, si, di⟩ src dst his hid opts payload
      tdst tsrc seq ack off res flags window urg ck
    have e2 := C41_ipv4 chk _ _ ve vid pcp d s hd hs ⟨ihl, tos, id, ttl, frag, 6#8, si, di⟩ src dst his hid opts
      ((Packet.tcp tsrc tdst seq ack off res flags window 0 urg).data ++ payload)
    rw [e1, e2]
    have hl : (Packet.tcp tsrc tdst seq ack off res flags window 0 urg).data.length = 20 := rfl
    simp only [sent, Except.map, to_vec_onWire, onWire, List.length_append, hl]
    rw [show 20 + (20 + payload.length) = 20 + payload.length + 20 by omega]
    simp [Ip4.withProto]
  · unfold create_tcp_packet
    rw [he, he]; rfl

example : sent Sample.tcp = sent (create_ipv4_packet true Sample.mac1 Sample.mac2 true 10 3 5 Sample.ip1 Sample.ip2 6 1 64
    0x1234 0 [] ((Packet.tcp 1234 80 7 9 5 0 2 512 0 0).data ++ Sample.data)) ∧
    (sent Sample.tcp).map (·.length) = .ok 63 := by decide +kernel
-- also for arguments that make both panic
example : sent (create_udp_packet true Sample.mac1 Sample.mac2 true 10 3 5 "1.2.3.4.5".toList Sample.ip2 1 64 0 0 [] 1 2 true [1]) =
    sent (create_ipv4_packet true Sample.mac1 Sample.mac2 true 10 3 5 "1.2.3.4.5".toList Sample.ip2 17 1 64 0 0 []
      ((Packet.udp 2 1 9).data ++ [1])) ∧
    (sent (create_udp_packet true Sample.mac1 Sample.mac2 true 10 3 5 "1.2.3.4.5".toList Sample.ip2 1 64 0 0 [] 1 2 true
      [1])).toOption = none := by
  decide +kernel

/-- **C82**, UDP over IPv4. -/
theorem C82_udp (udst usrc : U16) (ck : Bool) :
    sent (create_udp_packet chk eth_dst eth_src ve vid pcp ihl src dst tos ttl id frag opts udst usrc ck payload) =
      sent (create_ipv4_packet chk eth_dst eth_src ve vid pcp ihl src dst 17#8 tos ttl id frag opts
        ((Packet.udp usrc udst (BitVec.ofNat 16 (8 + payload.length))).data ++ payload)) := by
  rcases ipv4_total eth_dst eth_src src dst with ⟨d, s, si, di, hd, hs, his, hid⟩ | ⟨e, he⟩
  · have e1 := C41_udp chk _ _ ve vid pcp d s hd hs ⟨ihl, tos, id, ttl, frag, 17#8, si, di⟩ src dst his hid opts payload
      udst usrc ck
    have e2 := C41_ipv4 chk _ _ ve vid pcp d s hd hs ⟨ihl, tos, id, ttl, frag, 17#8, si, di⟩ src dst his hid opts
      ((Packet.udp usrc udst (BitVec.ofNat 16 (8 + payload.length))).data ++ payload)
    rw [e1, e2]
    have hl : (Packet.udp usrc udst (BitVec.ofNat 16 (8 + payload.length))).data.length = 8 := rfl
    simp only [sent, Except.map, to_vec_onWire, onWire, List.length_append, hl]
    rw [show 20 + (8 + payload.length) = 20 + payload.length + 8 by omega]
    simp [Ip4.withProto]
  · unfold create_udp_packet
    rw [he, he]; rfl

/-- **C82**, ICMP. -/
theorem C82_icmp (ty code : Byte) (idata : Bytes) (ck : Bool) :
    sent (create_icmp_packet chk eth_dst eth_src ve vid pcp ihl src dst tos ttl id frag opts ty code idata ck payload) =
      sent (create_ipv4_packet chk eth_dst eth_src ve vid pcp ihl src dst 1#8 tos ttl id frag opts
        ((Packet.icmp ty code).data ++ payload)) := by
  rcases ipv4_total eth_dst eth_src src dst with ⟨d, s, si, di, hd, hs, his, hid⟩ | ⟨e, he⟩
  · have e1 := C41_icmp chk _ _ ve vid pcp d s hd hs ⟨ihl, tos, id, ttl, frag, 1#8, si, di⟩ src dst his hid opts payload
      ty code idata ck
    have e2 := C41_ipv4 chk _ _ ve vid pcp d s hd hs ⟨ihl, tos, id, ttl, frag, 1#8, si, di⟩ src dst his hid opts
      ((Packet.icmp ty code).data ++ payload)
    rw [e1, e2]
    have hl : (Packet.icmp ty code).data.length = 4 := rfl
    simp only [sent, Except.map, to_vec_onWire, onWire, List.length_append, hl]
    rw [show 20 + (4 + payload.length) = 20 + payload.length + 4 by omega]
    simp [Ip4.withProto]
  · unfold create_icmp_packet
    rw [he, he]; rfl

/-- **C82**, IP in IP: both builders are the plain builders with the inner packet as payload and the protocol its first
four bits announce (41 after a 6, 4 otherwise); without a first octet they panic. -/
theorem C82_ipip (inner : Packet) (x : Byte) (rest : Bytes) (hi : inner.to_vec = x :: rest) :
    sent (create_ipv4ip_packet chk eth_dst eth_src ve vid pcp ihl src dst tos ttl id frag opts inner) =
        sent (create_ipv4_packet chk eth_dst eth_src ve vid pcp ihl src dst
          (if x.toNat / 16 = 6 then 41#8 else 4#8) tos ttl id frag opts (x :: rest)) ∧
      sent (create_ipv6ip_packet p6 eth_dst eth_src ve vid pcp tc flow hl src dst inner) =
        sent (create_ipv6_packet p6 eth_dst eth_src ve vid pcp tc flow
          (if x.toNat / 16 = 6 then 41#8 else 4#8) hl src dst (x :: rest)) := by
  have key : ∀ y : Byte, IpProtocol.toU8 (match IpType.try_from ((y >>> 4) &&& 0xf#8) with
      | some .V4 => .IPIP | some .V6 => .IPV6 | none => .IPIP) = if y.toNat / 16 = 6 then 41#8 else 4#8 := by decide +kernel
  unfold create_ipv4ip_packet create_ipv6ip_packet innerProto
  rw [hi]
  rw [← key x]
  exact ⟨rfl, rfl⟩

example : sent Sample.ipv4ip = sent (create_ipv4_packet true Sample.mac1 Sample.mac2 true 10 3 5 Sample.ip1 Sample.ip2 41 1 64
    0x1234 0 [] Sample.innerIp6.to_vec) ∧ (sent Sample.ipv4ip).map (·.length) = .ok 83 := by decide +kernel

/-- **C82**, TCP over IPv6. -/
theorem C82_tcpv6 (tdst tsrc : U16) (seq ack : U32) (off res flags : Byte) (window urg : U16) :
    sent (create_tcpv6_packet chk p6 eth_dst eth_src ve vid pcp tc flow hl src dst tdst tsrc seq ack off res flags window
        urg payload) =
      sent (create_ipv6_packet p6 eth_dst eth_src ve vid pcp tc flow 6#8 hl src dst
        ((Packet.tcp tsrc tdst seq ack off res flags window 0 urg).data ++ payload)) := by
  rcases ipv6_total eth_dst eth_src with ⟨d, s, hd, hs⟩ | ⟨e, he⟩
  · rw [C41_tcpv6 _ _ _ _ _ _ _ d s hd hs, C41_ipv6 _ _ _ _ _ _ d s hd hs]
    have hl : (Packet.tcp tsrc tdst seq ack off res flags window 0 urg).data.length = 20 := rfl
    simp only [sent, Except.map, to_vec_onWire, onWire, List.length_append, hl]
    rw [show 20 + payload.length = payload.length + 20 by omega]
    simp
  · unfold create_tcpv6_packet
    rw [he, he]; rfl

/-- **C82**, UDP over IPv6: the UDP header carries the checksum 0xffff. -/
theorem C82_udpv6 (udst usrc : U16) (ck : Bool) (udp : Hdr)
    (hu : (Packet.udp usrc udst (BitVec.ofNat 16 (8 + payload.length))).set UDP.checksum 0xffff#64 = .ok udp) :
    sent (create_udpv6_packet chk p6 eth_dst eth_src ve vid pcp tc flow hl src dst udst usrc ck payload) =
      sent (create_ipv6_packet p6 eth_dst eth_src ve vid pcp tc flow 17#8 hl src dst (udp.data ++ payload)) := by
  rw [udp_ffff] at hu
  cases hu
  rcases ipv6_total eth_dst eth_src with ⟨d, s, hd, hs⟩ | ⟨e, he⟩
  · rw [C41_udpv6 _ _ _ _ _ _ _ d s hd hs, C41_ipv6 _ _ _ _ _ _ d s hd hs]
    have hl : (be16 usrc ++ be16 udst ++ be16 (BitVec.ofNat 16 (8 + payload.length)) ++ be16 0xffff#16).length = 8 := rfl
    simp only [sent, Except.map, to_vec_onWire, onWire, List.length_append (bs := payload), hl]
    rw [Nat.add_comm payload.length 8]
    simp
  · unfold create_udpv6_packet
    rw [he, he]; rfl

/-- **C82**, ICMPv6. -/
theorem C82_icmpv6 (ty code : Byte) (idata : Bytes) (ck : Bool) :
    sent (create_icmpv6_packet chk p6 eth_dst eth_src ve vid pcp tc flow hl src dst ty code idata ck payload) =
      sent (create_ipv6_packet p6 eth_dst eth_src ve vid pcp tc flow 58#8 hl src dst
        ((Packet.icmp ty code).data ++ payload)) := by
  rcases ipv6_total eth_dst eth_src with ⟨d, s, hd, hs⟩ | ⟨e, he⟩
  · rw [C41_icmpv6 _ _ _ _ _ _ _ d s hd hs, C41_ipv6 _ _ _ _ _ _ d s hd hs]
    have hl : (Packet.icmp ty code).data.length = 4 := rfl
    simp only [sent, Except.map, to_vec_onWire, onWire, List.length_append, hl]
    rw [show 4 + payload.length = payload.length + 4 by omega]
    simp
  · unfold create_icmpv6_packet
    rw [he, he]; rfl

example : sent Sample.udpv6 = sent (create_ipv6_packet Sample.p6 Sample.mac1 Sample.mac2 true 10 3 7 0x12345 17 64
    Sample.ip6a Sample.ip6b ([0x04#8, 0xd2#8, 0x00#8, 0x35#8, 0x00#8, 0x0d#8, 0xff#8, 0xff#8] ++ Sample.data)) ∧
    (sent Sample.udpv6).map (·.length) = .ok 71 := by decide +kernel

/-! ## The layers that do not -/

/-- **C82**, VXLAN over IPv4 against a UDP packet whose payload is the VXLAN header and the inner packet: they differ
always, and only in the two octets of the IPv4 checksum. -/
theorem C82_vxlan (udst usrc : U16) (ck : Bool) (vni : U32) (inner p q : Packet)
    (hp : create_vxlan_packet chk eth_dst eth_src ve vid pcp ihl src dst tos ttl id frag opts udst usrc ck vni inner = .ok p)
    (hq : create_udp_packet chk eth_dst eth_src ve vid pcp ihl src dst tos ttl id frag opts udst usrc ck
      ((Packet.vxlan vni).data ++ inner.to_vec) = .ok q) :
    ∃ pre c c' post, p.to_vec = pre ++ be16 c ++ post ∧ q.to_vec = pre ++ be16 c' ++ post ∧
      pre.length = ipAt ve + 10 ∧ c ≠ c' := by
  rcases ipv4_total eth_dst eth_src src dst with ⟨d, s, si, di, hd, hs, his, hid⟩ | ⟨e, he⟩
  · have e1 := C41_vxlan chk _ _ ve vid pcp d s hd hs ⟨ihl, tos, id, ttl, frag, 17#8, si, di⟩ src dst his hid opts
      udst usrc ck vni inner
    have e2 := C41_udp chk _ _ ve vid pcp d s hd hs ⟨ihl, tos, id, ttl, frag, 17#8, si, di⟩ src dst his hid opts
      ((Packet.vxlan vni).data ++ inner.to_vec) udst usrc ck
    rw [hp] at e1
    rw [hq] at e2
    cases e1
    cases e2
    have hv : (Packet.vxlan vni).data.length = 8 := rfl
    have hst := (Ip4.stale ⟨ihl, tos, id, ttl, frag, 17#8, si, di⟩ ⟨C32_length _ _ his, C32_length _ _ hid⟩
      (20 + inner.to_vec.length)).1
    have h1 := C31_length _ _ hd
    have h2 := C31_length _ _ hs
    clear hp hq
    generalize inner.to_vec = v at *
    simp only [to_vec_onWire (Packet.mk _ _), onWire, List.length_append (bs := v), hv]
    rw [show 20 + (8 + v.length) + 8 = 20 + v.length + 16 by omega, show 8 + (8 + v.length) = 16 + v.length by omega]
    refine ⟨hdrBytes (l2Hdrs d s ve vid pcp 0x0800#16) ++ ([0x40#8 ||| ihl] ++ [tos] ++
        be16 (BitVec.ofNat 16 (20 + v.length + 16)) ++ be16 id ++ be16 frag ++ [ttl] ++ [17#8]), _, _,
      si ++ di ++ (Packet.udp usrc udst (BitVec.ofNat 16 (16 + v.length))).data ++
        (Packet.vxlan vni).data ++ v, ?_, ?_, ?_, hst⟩
    · simp [Ip4.raw, Ip4.withProto, ipv4Raw, hdrBytes, onWire]
    · simp [Ip4.hdr, Ip4.raw, Ip4.withProto, ipv4Raw, hdrBytes, onWire]
    · cases ve <;> simp [hdrBytes, onWire, l2Hdrs, ipAt, h1, h2]
  · unfold create_udp_packet at hq
    rw [he] at hq
    exact nomatch hq

/-- The UDP packet with the same contents as `Sample.vxlan`. -/
def vxlanAsUdp : R Packet := create_udp_packet true Sample.mac1 Sample.mac2 true 10 3 5 Sample.ip1 Sample.ip2 1 64 0x1234 0 []
  4789 1234 true ((Packet.vxlan 0xabcd).data ++ Sample.innerFrame.to_vec)
example : Sample.vxlan = .ok (Sample.get Sample.vxlan) ∧ vxlanAsUdp = .ok (Sample.get vxlanAsUdp) ∧
    (Sample.get Sample.vxlan).to_vec.drop 28 ≠ (Sample.get vxlanAsUdp).to_vec.drop 28 ∧
    (Sample.get Sample.vxlan).to_vec.drop 30 = (Sample.get vxlanAsUdp).to_vec.drop 30 := by decide +kernel

/-- **C82**, VXLAN over IPv6 against a UDP packet over IPv6 likewise: the inner headers are there once more, between the
VXLAN header and the inner packet, without being counted. -/
theorem C82_vxlanv6 (udst usrc : U16) (ck : Bool) (vni : U32) (inner p q : Packet)
    (hp : create_vxlanv6_packet chk p6 eth_dst eth_src ve vid pcp tc flow hl src dst udst usrc ck vni inner = .ok p)
    (hq : create_udpv6_packet chk p6 eth_dst eth_src ve vid pcp tc flow hl src dst udst usrc ck
      ((Packet.vxlan vni).data ++ inner.to_vec) = .ok q) :
    (∃ pre, p.to_vec = pre ++ (inner.hdrs.map (·.data)).flatten ++ inner.to_vec ∧ q.to_vec = pre ++ inner.to_vec) ∧
      (p.to_vec = q.to_vec ↔ ∀ h ∈ inner.hdrs, h.data = []) := by
  rcases ipv6_total eth_dst eth_src with ⟨d, s, hd, hs⟩ | ⟨e, he⟩
  · rw [C41_vxlanv6 _ _ _ _ _ _ _ d s hd hs] at hp
    rw [C41_udpv6 _ _ _ _ _ _ _ d s hd hs] at hq
    cases hp
    cases hq
    have hv : (Packet.vxlan vni).data.length = 8 := rfl
    generalize inner.to_vec = v
    have key : ∃ pre, Packet.to_vec ⟨l2Hdrs d s ve vid pcp 0x86DD#16 ++
      [Packet.ipv6 p6 tc flow 17#8 hl src dst (BitVec.ofNat 16 (v.length + 16)),
        ⟨UDP, be16 usrc ++ be16 udst ++ be16 (BitVec.ofNat 16 (16 + v.length)) ++ be16 0xffff#16⟩,
        Packet.vxlan vni] ++ inner.hdrs, v⟩ =
          pre ++ (inner.hdrs.map (·.data)).flatten ++ v ∧
        Packet.to_vec ⟨l2Hdrs d s ve vid pcp 0x86DD#16 ++
      [Packet.ipv6 p6 tc flow 17#8 hl src dst (BitVec.ofNat 16 (((Packet.vxlan vni).data ++ v).length + 8)),
        ⟨UDP, be16 usrc ++ be16 udst ++
          be16 (BitVec.ofNat 16 (8 + ((Packet.vxlan vni).data ++ v).length)) ++ be16 0xffff#16⟩],
        (Packet.vxlan vni).data ++ v⟩ = pre ++ v := by
      simp only [to_vec_onWire (Packet.mk _ _), onWire, List.length_append (bs := v), hv]
      rw [show 8 + v.length + 8 = v.length + 16 by omega,
        show 8 + (8 + v.length) = 16 + v.length by omega]
      refine ⟨hdrBytes (l2Hdrs d s ve vid pcp 0x86DD#16 ++
        [Packet.ipv6 p6 tc flow 17#8 hl src dst (BitVec.ofNat 16 (v.length + 16)),
        ⟨UDP, be16 usrc ++ be16 udst ++ be16 (BitVec.ofNat 16 (16 + v.length)) ++ be16 0xffff#16⟩,
        Packet.vxlan vni]), ?_, ?_⟩ <;> simp [hdrBytes, onWire]
    refine ⟨key, ?_⟩
    obtain ⟨pre, e1, e2⟩ := key
    rw [e1, e2, List.append_cancel_right_eq, List.append_right_eq_self, List.flatten_eq_nil_iff]
    simp
  · unfold create_udpv6_packet at hq
    rw [he] at hq
    exact nomatch hq

example : (sent Sample.vxlanv6).map (·.length) = .ok (74 + 46 + 51) ∧
    (sent (create_udpv6_packet true Sample.p6 Sample.mac1 Sample.mac2 true 10 3 7 0x12345 64 Sample.ip6a Sample.ip6b 4789 1234
      true ((Packet.vxlan 0xabcd).data ++ Sample.innerFrame.to_vec))).map (·.length) = .ok (74 + 51) := by decide +kernel

theorem be16_inj {x y : U16} (h : be16 x = be16 y) : x = y := by
  have := congrArg beNat h
  rw [beNat_be16, beNat_be16] at this
  exact BitVec.eq_of_toNat_eq this

/-- The total length of the two is different whenever the counts are. -/
theorem Ip4.hdr_data_inj (a : Ip4) (m n : Nat) (x y : Bytes) :
    (a.hdr (BitVec.ofNat 16 m)).data ++ x = (a.hdr (BitVec.ofNat 16 n)).data ++ y ↔
      m % 65536 = n % 65536 ∧ x = y := by
  have hm : m % 65536 = n % 65536 ↔ BitVec.ofNat 16 m = BitVec.ofNat 16 n := by
    rw [← BitVec.toNat_inj]; simp
  rw [hm]
  constructor
  · intro h
    have e : be16 (BitVec.ofNat 16 m) = be16 (BitVec.ofNat 16 n) := by
      have := congrArg (fun l => (l.drop 2).take 2) h
      simpa [Ip4.hdr, Ip4.raw, ipv4Raw, be16] using this
    have e' : BitVec.ofNat 16 m = BitVec.ofNat 16 n := by
      exact be16_inj e
    rw [e', List.append_cancel_left_eq] at h
    exact ⟨e', h⟩
  · rintro ⟨h1, rfl⟩
    rw [h1]

/-- **C82**, GRE against an IPv4 packet of protocol 47 whose payload is the GRE header, its options and the inner
packet: the same exactly if there are no routing octets to be counted (modulo 65536). -/
theorem C82_gre (c r k q st : Bool) (flags ver : Byte) (gck goff : U16) (key seq : U32) (routing : Bytes)
    (inner : Option Packet) (x y : Packet)
    (hx : create_gre_packet chk eth_dst eth_src ve vid pcp ihl src dst tos ttl id frag opts c r k q st flags ver
      gck goff key seq routing inner = .ok x)
    (hy : create_ipv4_packet chk eth_dst eth_src ve vid pcp ihl src dst 47#8 tos ttl id frag opts
      ((Packet.gre c r k q st flags ver (greProto (innerBytes inner))).data ++
        ((if c then (Packet.gre_chksum_offset gck goff).data else []) ++
          ((if k then (Packet.gre_key key).data else []) ++
            ((if q then (Packet.gre_sequence_number seq).data else []) ++ innerBytes inner)))) = .ok y) :
    x.to_vec = y.to_vec ↔ r = false ∨ routing.length % 65536 = 0 := by
  obtain ⟨⟨⟨d, hd⟩, s, hs⟩, ⟨si, his⟩, di, hid⟩ := Addrs4.of hy
  have hi := ((C41_gre_returns_iff chk eth_dst eth_src ve vid pcp ihl src dst tos ttl id frag opts c r k q st flags ver
    gck goff key seq routing inner).1 ⟨x, hx⟩).2
  have e1 := C41_gre chk _ _ ve vid pcp d s hd hs ⟨ihl, tos, id, ttl, frag, 47#8, si, di⟩ src dst his hid opts
    c r k q st flags ver gck goff key seq routing inner hi
  have e2 := C41_ipv4 chk _ _ ve vid pcp d s hd hs ⟨ihl, tos, id, ttl, frag, 47#8, si, di⟩ src dst his hid opts
    ((Packet.gre c r k q st flags ver (greProto (innerBytes inner))).data ++
        ((if c then (Packet.gre_chksum_offset gck goff).data else []) ++
          ((if k then (Packet.gre_key key).data else []) ++
            ((if q then (Packet.gre_sequence_number seq).data else []) ++ innerBytes inner))))
  rw [hx] at e1
  rw [hy] at e2
  cases e1
  cases e2
  have hg : (Packet.gre c r k q st flags ver (greProto (innerBytes inner))).data.length = 4 := rfl
  have hc : (Packet.gre_chksum_offset gck goff).data.length = 4 := rfl
  have hk : (Packet.gre_key key).data.length = 4 := rfl
  have hq : (Packet.gre_sequence_number seq).data.length = 4 := rfl
  have w : ∀ (b : Bool) (h : Hdr), ((optHdrs b h).map (·.data)).flatten = if b then h.data else [] := by
    intro b h; cases b <;> simp [optHdrs]
  simp only [to_vec_onWire (Packet.mk _ _), onWire, List.map_append, List.flatten_append, w, List.append_assoc,
    List.append_cancel_left_eq, List.map_cons, List.map_nil, List.flatten_cons, List.flatten_nil, List.append_nil,
    Ip4.withProto]
  rw [Ip4.hdr_data_inj]
  cases c <;> cases r <;> cases k <;> cases q <;>
    simp [hg, hc, hk, hq, greLen] <;> omega

-- without routing octets, and with three
example : sent (Sample.greWith false false true true) = sent (create_ipv4_packet true Sample.mac1 Sample.mac2 true 10 3 5
    Sample.ip1 Sample.ip2 47 1 64 0x1234 0 [] ((Packet.gre false false true true false 0 0 0x0800).data ++
      ((Packet.gre_key 0xc0ffee).data ++ ((Packet.gre_sequence_number 7).data ++ Sample.innerIp.to_vec)))) ∧
    sent (Sample.greWith false true true true) ≠ sent (create_ipv4_packet true Sample.mac1 Sample.mac2 true 10 3 5
    Sample.ip1 Sample.ip2 47 1 64 0x1234 0 [] ((Packet.gre false true true true false 0 0 0x0800).data ++
      ((Packet.gre_key 0xc0ffee).data ++ ((Packet.gre_sequence_number 7).data ++ Sample.innerIp.to_vec)))) := by decide +kernel

/-- **C82**, ERSPAN II against an IPv4 packet of protocol 47 whose payload is the GRE header, the sequence number if it
is not 0, the ERSPAN header and the inner packet: the same exactly if the inner packet's length is 0 (modulo 65536). -/
theorem C82_erspan2 (seq : U32) (vlan : U16) (cos en t : Byte) (sid : U16) (idx : U32) (inner : Option Packet) (x y : Packet)
    (hx : create_erspan_2_packet chk eth_dst eth_src ve vid pcp ihl src dst tos ttl id frag opts seq vlan cos en t
      sid idx inner = .ok x)
    (hy : create_ipv4_packet chk eth_dst eth_src ve vid pcp ihl src dst 47#8 tos ttl id frag opts
      ((Packet.gre false false false (seq ≠ 0#32) false 0 0 0x88be#16).data ++
        ((if seq ≠ 0#32 then (Packet.gre_sequence_number seq).data else []) ++
          ((Packet.erspan2 vlan cos en t sid idx).data ++ innerBytes inner))) = .ok y) :
    x.to_vec = y.to_vec ↔ innerLen inner % 65536 = 0 := by
  obtain ⟨⟨⟨d, hd⟩, s, hs⟩, ⟨si, his⟩, di, hid⟩ := Addrs4.of hy
  have e1 := C41_erspan2 chk _ _ ve vid pcp d s hd hs ⟨ihl, tos, id, ttl, frag, 47#8, si, di⟩ src dst his hid opts
    seq vlan cos en t sid idx inner
  have e2 := C41_ipv4 chk _ _ ve vid pcp d s hd hs ⟨ihl, tos, id, ttl, frag, 47#8, si, di⟩ src dst his hid opts
    ((Packet.gre false false false (seq ≠ 0#32) false 0 0 0x88be#16).data ++
        ((if seq ≠ 0#32 then (Packet.gre_sequence_number seq).data else []) ++
          ((Packet.erspan2 vlan cos en t sid idx).data ++ innerBytes inner)))
  rw [hx] at e1
  rw [hy] at e2
  cases e1
  cases e2
  have hg : ∀ b, (Packet.gre false false false b false 0 0 0x88be#16).data = [if b = true then 0x10#8 else 0#8, 0#8, 0x88#8, 0xbe#8] := by
    decide +kernel
  have hq : (Packet.gre_sequence_number seq).data.length = 4 := rfl
  have he : (Packet.erspan2 vlan cos en t sid idx).data.length = 8 := rfl
  by_cases h0 : seq = 0#32
  · simp only [to_vec_onWire (Packet.mk _ _), onWire, List.map_append, List.flatten_append, List.append_assoc,
      List.append_cancel_left_eq, List.map_cons, List.map_nil, List.flatten_cons, List.flatten_nil, List.append_nil,
      Ip4.withProto, hg, h0]
    rw [Ip4.hdr_data_inj]
    simp [he, erspan2Len, optHdrs]
    omega
  · simp only [to_vec_onWire (Packet.mk _ _), onWire, List.map_append, List.flatten_append, List.append_assoc,
      List.append_cancel_left_eq, List.map_cons, List.map_nil, List.flatten_cons, List.flatten_nil, List.append_nil,
      Ip4.withProto, hg]
    rw [Ip4.hdr_data_inj]
    simp [he, hq, erspan2Len, optHdrs, h0]
    omega

example : sent Sample.erspan2 ≠ sent (create_ipv4_packet true Sample.mac1 Sample.mac2 true 10 3 5 Sample.ip1 Sample.ip2 47 1 64
    0x1234 0 [] ((Packet.gre false false false true false 0 0 0x88be).data ++ ((Packet.gre_sequence_number 24).data ++
      ((Packet.erspan2 100 1 2 1 77 0x55).data ++ Sample.innerFrame.to_vec)))) := by decide +kernel
example : sent (create_erspan_2_packet true Sample.mac1 Sample.mac2 true 10 3 5 Sample.ip1 Sample.ip2 1 64 0x1234 0 [] 24 100 1
      2 1 77 0x55 none) =
    sent (create_ipv4_packet true Sample.mac1 Sample.mac2 true 10 3 5 Sample.ip1 Sample.ip2 47 1 64
    0x1234 0 [] ((Packet.gre false false false true false 0 0 0x88be).data ++ ((Packet.gre_sequence_number 24).data ++
      ((Packet.erspan2 100 1 2 1 77 0x55).data ++ [])))) := by decide +kernel

/-- **C82**, ERSPAN III likewise (with the platform words if the last argument word is odd): the same exactly if the
sequence number is 0 or odd, the inner packet's length is 0 (modulo 65536), and its headers are empty. -/
theorem C82_erspan3 (seq : U32) (vlan : U16) (cos en t : Byte) (sid : U16) (ts : U32) (sgt ft : U16) (pid : Byte)
    (info : U64) (inner : Option Packet) (x y : Packet)
    (hx : create_erspan_3_packet chk eth_dst eth_src ve vid pcp ihl src dst tos ttl id frag opts seq vlan cos en t
      sid ts sgt ft pid info inner = .ok x)
    (hy : create_ipv4_packet chk eth_dst eth_src ve vid pcp ihl src dst 47#8 tos ttl id frag opts
      ((Packet.gre false false false (seq ≠ 0#32) false 0 0 0x22eb#16).data ++
        ((if seq ≠ 0#32 then (Packet.gre_sequence_number seq).data else []) ++
          ((Packet.erspan3 vlan cos en t sid ts sgt ft).data ++
            ((if ft.toNat % 2 = 1 then be64 ((pid.setWidth 64 <<< 58) ||| info) else []) ++ innerBytes inner)))) = .ok y) :
    x.to_vec = y.to_vec ↔ (seq = 0#32 ∨ seq.toNat % 2 = 1) ∧ innerLen inner % 65536 = 0 ∧
      ∀ p, inner = some p → ∀ h ∈ p.hdrs, h.data = [] := by
  obtain ⟨⟨⟨d, hd⟩, s, hs⟩, ⟨si, his⟩, di, hid⟩ := Addrs4.of hy
  have e1 := C41_erspan3 chk _ _ ve vid pcp d s hd hs ⟨ihl, tos, id, ttl, frag, 47#8, si, di⟩ src dst his hid opts
    seq vlan cos en t sid ts sgt ft pid info inner
  have e2 := C41_ipv4 chk _ _ ve vid pcp d s hd hs ⟨ihl, tos, id, ttl, frag, 47#8, si, di⟩ src dst his hid opts
    ((Packet.gre false false false (seq ≠ 0#32) false 0 0 0x22eb#16).data ++
        ((if seq ≠ 0#32 then (Packet.gre_sequence_number seq).data else []) ++
          ((Packet.erspan3 vlan cos en t sid ts sgt ft).data ++
            ((if ft.toNat % 2 = 1 then be64 ((pid.setWidth 64 <<< 58) ||| info) else []) ++ innerBytes inner))))
  rw [hx] at e1
  rw [hy] at e2
  cases e1
  cases e2
  have hg : ∀ b, (Packet.gre false false false b false 0 0 0x22eb#16).data = [if b = true then 0x10#8 else 0#8, 0#8, 0x22#8, 0xeb#8] := by
    decide +kernel
  have hq : (Packet.gre_sequence_number seq).data.length = 4 := rfl
  have he : (Packet.erspan3 vlan cos en t sid ts sgt ft).data.length = 12 := rfl
  have hb : (be64 ((pid.setWidth 64 <<< 58) ||| info)).length = 8 := rfl
  have hin : (∀ p, inner = some p → ∀ h ∈ p.hdrs, h.data = []) ↔
      ((innerHdrs inner).map (·.data)).flatten = [] := by
    rw [List.flatten_eq_nil_iff]
    cases inner <;> simp [innerHdrs]
  have w : ∀ (b : Bool) (h : Hdr), ((optHdrs b h).map (·.data)).flatten = if b then h.data else [] := by
    intro b h; cases b <;> simp [optHdrs]
  rw [hin]
  simp only [to_vec_onWire (Packet.mk _ _), onWire, List.map_append, List.flatten_append, List.append_assoc,
    List.append_cancel_left_eq, List.map_cons, List.map_nil, List.flatten_cons, List.flatten_nil, List.append_nil,
    Ip4.withProto, hg, w, platform]
  rw [Ip4.hdr_data_inj]
  generalize (List.map (fun x => x.data) (innerHdrs inner)).flatten = dup
  have hl : (20 + (innerBytes inner).length + (erspan3Len seq ft + innerLen inner)) % 65536 =
      (20 + ([if decide (seq ≠ 0#32) = true then 0x10#8 else 0#8, 0#8, 0x22#8, 0xeb#8] ++
        ((if seq ≠ 0#32 then (Packet.gre_sequence_number seq).data else []) ++
          ((Packet.erspan3 vlan cos en t sid ts sgt ft).data ++
            ((if ft.toNat % 2 = 1 then be64 ((pid.setWidth 64 <<< 58) ||| info) else []) ++ innerBytes inner)))).length) % 65536
      ↔ innerLen inner % 65536 = 0 := by
    by_cases h0 : seq = 0#32 <;> by_cases h1 : ft.toNat % 2 = 1 <;> simp [h0, h1, he, hb, hq, erspan3Len] <;> omega
  rw [hl]
  by_cases h0 : seq = 0#32
  · subst h0
    by_cases h1 : ft.toNat % 2 = 1 <;> simp [h1]
  · by_cases h2 : seq.toNat % 2 = 1 <;> by_cases h1 : ft.toNat % 2 = 1 <;> simp [h0, h1, h2]

example : sent (create_erspan_3_packet true Sample.mac1 Sample.mac2 true 10 3 5 Sample.ip1 Sample.ip2 1 64 0x1234 0 [] 23 100 1
      2 1 77 0x55 3 0x100 0 0 none) =
    sent (create_ipv4_packet true Sample.mac1 Sample.mac2 true 10 3 5 Sample.ip1 Sample.ip2 47 1 64
    0x1234 0 [] ((Packet.gre false false false true false 0 0 0x22eb).data ++ ((Packet.gre_sequence_number 23).data ++
      ((Packet.erspan3 100 1 2 1 77 0x55 3 0x100).data ++ [])))) ∧
    sent (create_erspan_3_packet true Sample.mac1 Sample.mac2 true 10 3 5 Sample.ip1 Sample.ip2 1 64 0x1234 0 [] 24 100 1
      2 1 77 0x55 3 0x100 0 0 none) ≠
    sent (create_ipv4_packet true Sample.mac1 Sample.mac2 true 10 3 5 Sample.ip1 Sample.ip2 47 1 64
    0x1234 0 [] ((Packet.gre false false false true false 0 0 0x22eb).data ++ ((Packet.gre_sequence_number 24).data ++
      ((Packet.erspan3 100 1 2 1 77 0x55 3 0x100).data ++ [])))) := by decide +kernel

end
end PacketRs
