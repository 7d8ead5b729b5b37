import Verif.Props.Builders
/-!
# Which arguments the builders accept, and the shape of what they return

Every builder returns exactly when its text addresses convert (`Addrs4`, `Addrs2`); for the IP-in-IP and GRE builders
the inner packet must have at least one byte.  The `…_shape` lemmas restate `C41` starting from a returned packet, for
use in the properties about lengths, checksums and parsing.
-/
namespace PacketRs
open Spec Utils

/-- Both MAC addresses convert. -/
def Addrs2 (eth_dst eth_src : Str) : Prop :=
  (∃ d, to_mac_bytes eth_dst = .ok d) ∧ ∃ s, to_mac_bytes eth_src = .ok s

/-- Both MAC and both IPv4 addresses convert. -/
def Addrs4 (eth_dst eth_src src dst : Str) : Prop :=
  Addrs2 eth_dst eth_src ∧ (∃ x, to_ipv4_bytes src = .ok x) ∧ ∃ x, to_ipv4_bytes dst = .ok x

theorem bind_ok {α β : Type} {x : R α} {f : α → R β} {b : β} (h : (x >>= f) = .ok b) :
    ∃ a, x = .ok a ∧ f a = .ok b := by
  cases x with
  | error e => exact nomatch h
  | ok a => exact ⟨a, rfl, h⟩

theorem Addrs4.of {chk : Bool} {eth_dst eth_src : Str} {ve : Bool} {vid : U16} {pcp ihl : Byte} {src dst : Str}
    {proto tos ttl : Byte} {id frag : U16} {opts payload : Bytes} {p : Packet}
    (h : create_ipv4_packet chk eth_dst eth_src ve vid pcp ihl src dst proto tos ttl id frag opts payload = .ok p) :
    Addrs4 eth_dst eth_src src dst := by
  obtain ⟨d, s, si, di, h1, h2, h3, h4⟩ := ipv4pkt_inv _ _ _ _ _ _ _ _ _ _ _ _ _ _ _ _ _ h
  exact ⟨⟨⟨d, h1⟩, s, h2⟩, ⟨si, h3⟩, di, h4⟩

theorem Addrs2.of {p6 : Ipv6FromStr} {eth_dst eth_src : Str} {ve : Bool} {vid : U16} {pcp tc : Byte} {flow : U32}
    {nh hl : Byte} {src dst : Str} {payload : Bytes} {p : Packet}
    (h : create_ipv6_packet p6 eth_dst eth_src ve vid pcp tc flow nh hl src dst payload = .ok p) :
    Addrs2 eth_dst eth_src := by
  obtain ⟨d, s, h1, h2⟩ := ipv6pkt_inv _ _ _ _ _ _ _ _ _ _ _ _ _ _ h
  exact ⟨⟨d, h1⟩, s, h2⟩

section
variable (chk : Bool) (p6 : Ipv6FromStr) (eth_dst eth_src : Str) (ve : Bool) (vid : U16) (pcp : Byte)
  (ihl : Byte) (src dst : Str) (tos ttl : Byte) (id frag : U16) (opts : Bytes) (tc : Byte) (flow : U32) (hl : Byte)
  (payload : Bytes)

/-- `create_eth_packet` returns iff both MAC addresses convert. -/
theorem C41_eth_returns_iff (et : U16) :
    (∃ p, create_eth_packet eth_dst eth_src ve vid pcp et payload = .ok p) ↔ Addrs2 eth_dst eth_src := by
  constructor
  · rintro ⟨p, h⟩
    obtain ⟨d, s, h1, h2⟩ := eth_inv _ _ _ _ _ _ _ _ h
    exact ⟨⟨d, h1⟩, s, h2⟩
  · rintro ⟨⟨d, hd⟩, s, hs⟩
    exact ⟨_, C41_eth _ _ _ _ _ d s hd hs _ _⟩

example : create_eth_packet "0:1:2:3:4:5:6".toList Sample.mac2 true 10 3 0x88cc Sample.data = .error .index := by
  decide +kernel

example : Sample.eth = .ok (Sample.get Sample.eth) := by decide +kernel

/-- `create_arp_packet` returns iff all four MAC and both IPv4 addresses convert. -/
theorem C41_arp_returns_iff (opcode : U16) (smac tmac sip tip : Str) :
    (∃ p, create_arp_packet eth_dst eth_src ve vid pcp opcode smac tmac sip tip payload = .ok p) ↔
      Addrs2 eth_dst eth_src ∧ Addrs4 smac tmac sip tip := by
  constructor
  · rintro ⟨p, h⟩
    unfold create_arp_packet at h
    obtain ⟨q, e1, h⟩ := bind_ok h
    obtain ⟨arp, e2, h⟩ := bind_ok h
    obtain ⟨d, s, h1, h2⟩ := eth_inv _ _ _ _ _ _ _ _ e1
    refine ⟨⟨⟨d, h1⟩, s, h2⟩, ?_⟩
    unfold Packet.arp at e2
    obtain ⟨a1, f1, e2⟩ := bind_ok e2
    obtain ⟨a2, f2, e2⟩ := bind_ok e2
    obtain ⟨a3, f3, e2⟩ := bind_ok e2
    obtain ⟨a4, f4, e2⟩ := bind_ok e2
    exact ⟨⟨⟨_, f1⟩, _, f3⟩, ⟨_, f2⟩, _, f4⟩
  · rintro ⟨⟨⟨d, hd⟩, s, hs⟩, ⟨⟨a1, f1⟩, a3, f3⟩, ⟨a2, f2⟩, a4, f4⟩
    refine ⟨_, C41_arp _ _ _ _ _ d s hd hs _ _ _ _ _ _ (ARP.ofVec (be16 1#16 ++ be16 EtherType.IPV4.toU16 ++
      [BitVec.ofNat 8 MAC_LEN] ++ [BitVec.ofNat 8 IPV4_LEN] ++ be16 opcode ++ a1 ++ a2 ++ a3 ++ a4)) ?_⟩
    unfold Packet.arp
    rw [f1, f2, f3, f4]
    rfl

example : Sample.arp = .ok (Sample.get Sample.arp) := by decide +kernel

/-- `create_ipv4_packet` returns iff its addresses convert. -/
theorem C41_ipv4_returns_iff (proto : Byte) :
    (∃ p, create_ipv4_packet chk eth_dst eth_src ve vid pcp ihl src dst proto tos ttl id frag opts payload = .ok p) ↔
      Addrs4 eth_dst eth_src src dst := by
  constructor
  · rintro ⟨p, h⟩; exact .of h
  · rintro ⟨⟨⟨d, hd⟩, s, hs⟩, ⟨si, his⟩, di, hid⟩
    exact ⟨_, C41_ipv4 chk _ _ _ _ _ d s hd hs ⟨ihl, tos, id, ttl, frag, proto, si, di⟩ _ _ his hid _ _⟩

example : Sample.ipv4 = .ok (Sample.get Sample.ipv4) := by decide +kernel

theorem ipv4_shape {proto : Byte} {p : Packet}
    (h : create_ipv4_packet chk eth_dst eth_src ve vid pcp ihl src dst proto tos ttl id frag opts payload = .ok p) :
    ∃ d s a, d.length = 6 ∧ s.length = 6 ∧ Ip4.Ok a ∧ a.proto = proto ∧
      p = ⟨l2Hdrs d s ve vid pcp 0x0800#16 ++ [a.hdr (BitVec.ofNat 16 (20 + payload.length))], payload⟩ := by
  obtain ⟨⟨⟨d, hd⟩, s, hs⟩, ⟨si, his⟩, di, hid⟩ := Addrs4.of h
  refine ⟨d, s, ⟨ihl, tos, id, ttl, frag, proto, si, di⟩, C31_length _ _ hd, C31_length _ _ hs,
    ⟨C32_length _ _ his, C32_length _ _ hid⟩, rfl, ?_⟩
  have e := C41_ipv4 chk _ _ ve vid pcp d s hd hs ⟨ihl, tos, id, ttl, frag, proto, si, di⟩ _ _ his hid opts payload
  rw [h] at e
  exact Except.ok.inj e

/-- `create_ipv6_packet` returns iff its MAC addresses convert (IPv6 addresses never panic, `C32`). -/
theorem C41_ipv6_returns_iff (nh : Byte) :
    (∃ p, create_ipv6_packet p6 eth_dst eth_src ve vid pcp tc flow nh hl src dst payload = .ok p) ↔
      Addrs2 eth_dst eth_src := by
  constructor
  · rintro ⟨p, h⟩; exact .of h
  · rintro ⟨⟨d, hd⟩, s, hs⟩
    exact ⟨_, C41_ipv6 _ _ _ _ _ _ d s hd hs _ _ _ _ _ _ _⟩

example : Sample.ipv6 = .ok (Sample.get Sample.ipv6) := by decide +kernel

/-- `create_tcp_packet` returns iff its addresses convert. -/
theorem C41_tcp_returns_iff (tdst tsrc : U16) (seq ack : U32) (off res flags : Byte) (window urg : U16) (ck : Bool) :
    (∃ p, create_tcp_packet chk eth_dst eth_src ve vid pcp ihl src dst tos ttl id frag opts tdst tsrc seq ack off res flags window urg ck payload
      = .ok p) ↔ Addrs4 eth_dst eth_src src dst := by
  constructor
  · rintro ⟨p, h⟩
    unfold create_tcp_packet at h
    obtain ⟨q, e, -⟩ := bind_ok h
    exact .of e
  · rintro ⟨⟨⟨d, hd⟩, s, hs⟩, ⟨si, his⟩, di, hid⟩
    exact ⟨_, C41_tcp chk _ _ ve vid pcp d s hd hs ⟨ihl, tos, id, ttl, frag, 0#8, si, di⟩ _ _ his hid opts payload tdst tsrc seq ack off res flags window urg ck⟩

example : create_tcp_packet true Sample.mac1 Sample.mac2 true 10 3 5 "10.0.0.0.0".toList Sample.ip2 1 64 0x1234 0 [] 80 1234 7 9
    5 0 2 512 0 true Sample.data = .error .index := by decide +kernel

example : Sample.tcp = .ok (Sample.get Sample.tcp) := by decide +kernel

theorem tcp_shape (tdst tsrc : U16) (seq ack : U32) (off res flags : Byte) (window urg : U16) (ck : Bool) {p : Packet}
    (h : create_tcp_packet chk eth_dst eth_src ve vid pcp ihl src dst tos ttl id frag opts tdst tsrc seq ack off res flags window urg ck payload
      = .ok p) :
    ∃ d s a, d.length = 6 ∧ s.length = 6 ∧ Ip4.Ok a ∧ a.proto = 6#8 ∧
      p = ⟨l2Hdrs d s ve vid pcp 0x0800#16 ++ [a.hdr (BitVec.ofNat 16 (20 + payload.length + 20)),
        Packet.tcp tsrc tdst seq ack off res flags window 0 urg], payload⟩ := by
  obtain ⟨⟨⟨d, hd⟩, s, hs⟩, ⟨si, his⟩, di, hid⟩ :=
    (C41_tcp_returns_iff .. ).mp ⟨p, h⟩
  refine ⟨d, s, Ip4.withProto ⟨ihl, tos, id, ttl, frag, 0#8, si, di⟩ (6#8), C31_length _ _ hd, C31_length _ _ hs,
    ⟨C32_length _ _ his, C32_length _ _ hid⟩, rfl, ?_⟩
  have e := C41_tcp chk _ _ ve vid pcp d s hd hs ⟨ihl, tos, id, ttl, frag, 0#8, si, di⟩ _ _ his hid opts payload tdst tsrc seq ack off res flags window urg ck
  exact Except.ok.inj (h.symm.trans e)

/-- `create_udp_packet` returns iff its addresses convert. -/
theorem C41_udp_returns_iff (udst usrc : U16) (ck : Bool) :
    (∃ p, create_udp_packet chk eth_dst eth_src ve vid pcp ihl src dst tos ttl id frag opts udst usrc ck payload
      = .ok p) ↔ Addrs4 eth_dst eth_src src dst := by
  constructor
  · rintro ⟨p, h⟩
    unfold create_udp_packet at h
    obtain ⟨q, e, -⟩ := bind_ok h
    exact .of e
  · rintro ⟨⟨⟨d, hd⟩, s, hs⟩, ⟨si, his⟩, di, hid⟩
    exact ⟨_, C41_udp chk _ _ ve vid pcp d s hd hs ⟨ihl, tos, id, ttl, frag, 0#8, si, di⟩ _ _ his hid opts payload udst usrc ck⟩

example : Sample.udp = .ok (Sample.get Sample.udp) := by decide +kernel

theorem udp_shape (udst usrc : U16) (ck : Bool) {p : Packet}
    (h : create_udp_packet chk eth_dst eth_src ve vid pcp ihl src dst tos ttl id frag opts udst usrc ck payload
      = .ok p) :
    ∃ d s a, d.length = 6 ∧ s.length = 6 ∧ Ip4.Ok a ∧ a.proto = 17#8 ∧
      p = ⟨l2Hdrs d s ve vid pcp 0x0800#16 ++ [a.hdr (BitVec.ofNat 16 (20 + payload.length + 8)),
        Packet.udp usrc udst (BitVec.ofNat 16 (8 + payload.length))], payload⟩ := by
  obtain ⟨⟨⟨d, hd⟩, s, hs⟩, ⟨si, his⟩, di, hid⟩ :=
    (C41_udp_returns_iff .. ).mp ⟨p, h⟩
  refine ⟨d, s, Ip4.withProto ⟨ihl, tos, id, ttl, frag, 0#8, si, di⟩ (17#8), C31_length _ _ hd, C31_length _ _ hs,
    ⟨C32_length _ _ his, C32_length _ _ hid⟩, rfl, ?_⟩
  have e := C41_udp chk _ _ ve vid pcp d s hd hs ⟨ihl, tos, id, ttl, frag, 0#8, si, di⟩ _ _ his hid opts payload udst usrc ck
  exact Except.ok.inj (h.symm.trans e)

/-- `create_icmp_packet` returns iff its addresses convert. -/
theorem C41_icmp_returns_iff (ty code : Byte) (idata : Bytes) (ck : Bool) :
    (∃ p, create_icmp_packet chk eth_dst eth_src ve vid pcp ihl src dst tos ttl id frag opts ty code idata ck payload
      = .ok p) ↔ Addrs4 eth_dst eth_src src dst := by
  constructor
  · rintro ⟨p, h⟩
    unfold create_icmp_packet at h
    obtain ⟨q, e, -⟩ := bind_ok h
    exact .of e
  · rintro ⟨⟨⟨d, hd⟩, s, hs⟩, ⟨si, his⟩, di, hid⟩
    exact ⟨_, C41_icmp chk _ _ ve vid pcp d s hd hs ⟨ihl, tos, id, ttl, frag, 0#8, si, di⟩ _ _ his hid opts payload ty code idata ck⟩

example : Sample.icmp = .ok (Sample.get Sample.icmp) := by decide +kernel

theorem icmp_shape (ty code : Byte) (idata : Bytes) (ck : Bool) {p : Packet}
    (h : create_icmp_packet chk eth_dst eth_src ve vid pcp ihl src dst tos ttl id frag opts ty code idata ck payload
      = .ok p) :
    ∃ d s a, d.length = 6 ∧ s.length = 6 ∧ Ip4.Ok a ∧ a.proto = 1#8 ∧
      p = ⟨l2Hdrs d s ve vid pcp 0x0800#16 ++ [a.hdr (BitVec.ofNat 16 (20 + payload.length + 4)), Packet.icmp ty code], payload⟩ := by
  obtain ⟨⟨⟨d, hd⟩, s, hs⟩, ⟨si, his⟩, di, hid⟩ :=
    (C41_icmp_returns_iff .. ).mp ⟨p, h⟩
  refine ⟨d, s, Ip4.withProto ⟨ihl, tos, id, ttl, frag, 0#8, si, di⟩ (1#8), C31_length _ _ hd, C31_length _ _ hs,
    ⟨C32_length _ _ his, C32_length _ _ hid⟩, rfl, ?_⟩
  have e := C41_icmp chk _ _ ve vid pcp d s hd hs ⟨ihl, tos, id, ttl, frag, 0#8, si, di⟩ _ _ his hid opts payload ty code idata ck
  exact Except.ok.inj (h.symm.trans e)

/-- `create_vxlan_packet` returns iff its addresses convert. -/
theorem C41_vxlan_returns_iff (udst usrc : U16) (ck : Bool) (vni : U32) (inner : Packet) :
    (∃ p, create_vxlan_packet chk eth_dst eth_src ve vid pcp ihl src dst tos ttl id frag opts udst usrc ck vni inner
      = .ok p) ↔ Addrs4 eth_dst eth_src src dst := by
  constructor
  · rintro ⟨p, h⟩
    unfold create_vxlan_packet at h
    obtain ⟨q, e, -⟩ := bind_ok h
    exact .of e
  · rintro ⟨⟨⟨d, hd⟩, s, hs⟩, ⟨si, his⟩, di, hid⟩
    exact ⟨_, C41_vxlan chk _ _ ve vid pcp d s hd hs ⟨ihl, tos, id, ttl, frag, 0#8, si, di⟩ _ _ his hid opts udst usrc ck vni inner⟩

example : Sample.vxlan = .ok (Sample.get Sample.vxlan) := by decide +kernel

theorem vxlan_shape (udst usrc : U16) (ck : Bool) (vni : U32) (inner : Packet) {p : Packet}
    (h : create_vxlan_packet chk eth_dst eth_src ve vid pcp ihl src dst tos ttl id frag opts udst usrc ck vni inner
      = .ok p) :
    ∃ d s a, d.length = 6 ∧ s.length = 6 ∧ Ip4.Ok a ∧ a.proto = 17#8 ∧
      p = ⟨l2Hdrs d s ve vid pcp 0x0800#16 ++ [⟨IPv4, a.raw (BitVec.ofNat 16 (20 + inner.to_vec.length + 16)) (a.ck (BitVec.ofNat 16 (20 + inner.to_vec.length)))⟩,
        Packet.udp usrc udst (BitVec.ofNat 16 (16 + inner.to_vec.length)), Packet.vxlan vni], inner.to_vec⟩ := by
  obtain ⟨⟨⟨d, hd⟩, s, hs⟩, ⟨si, his⟩, di, hid⟩ :=
    (C41_vxlan_returns_iff .. ).mp ⟨p, h⟩
  refine ⟨d, s, Ip4.withProto ⟨ihl, tos, id, ttl, frag, 0#8, si, di⟩ (17#8), C31_length _ _ hd, C31_length _ _ hs,
    ⟨C32_length _ _ his, C32_length _ _ hid⟩, rfl, ?_⟩
  have e := C41_vxlan chk _ _ ve vid pcp d s hd hs ⟨ihl, tos, id, ttl, frag, 0#8, si, di⟩ _ _ his hid opts udst usrc ck vni inner
  exact Except.ok.inj (h.symm.trans e)

/-- `create_ipv4ip_packet` returns iff its addresses convert and the inner packet has a byte. -/
theorem C41_ipv4ip_returns_iff (inner : Packet) :
    (∃ p, create_ipv4ip_packet chk eth_dst eth_src ve vid pcp ihl src dst tos ttl id frag opts inner
      = .ok p) ↔ Addrs4 eth_dst eth_src src dst ∧ inner.to_vec ≠ [] := by
  constructor
  · rintro ⟨p, h⟩
    unfold create_ipv4ip_packet at h
    obtain ⟨pr, e, h⟩ := bind_ok h
    refine ⟨.of h, fun h0 => ?_⟩
    rw [h0] at e
    exact nomatch e
  · rintro ⟨⟨⟨⟨d, hd⟩, s, hs⟩, ⟨si, his⟩, di, hid⟩, hi⟩
    exact ⟨_, C41_ipv4ip chk _ _ ve vid pcp d s hd hs ⟨ihl, tos, id, ttl, frag, 0#8, si, di⟩ _ _ his hid opts inner hi⟩

example : create_ipv4ip_packet true Sample.mac1 Sample.mac2 true 10 3 5 Sample.ip1 Sample.ip2 1 64 0x1234 0 []
    Packet.new = .error .index := by decide +kernel

example : Sample.ipv4ip = .ok (Sample.get Sample.ipv4ip) := by decide +kernel

theorem ipv4ip_shape (inner : Packet) {p : Packet}
    (h : create_ipv4ip_packet chk eth_dst eth_src ve vid pcp ihl src dst tos ttl id frag opts inner
      = .ok p) :
    ∃ d s a, d.length = 6 ∧ s.length = 6 ∧ Ip4.Ok a ∧ a.proto = ipipProto inner.to_vec ∧
      p = ⟨l2Hdrs d s ve vid pcp 0x0800#16 ++ [a.hdr (BitVec.ofNat 16 (20 + inner.to_vec.length))], inner.to_vec⟩ := by
  obtain ⟨⟨⟨⟨d, hd⟩, s, hs⟩, ⟨si, his⟩, di, hid⟩, hi⟩ :=
    (C41_ipv4ip_returns_iff .. ).mp ⟨p, h⟩
  refine ⟨d, s, Ip4.withProto ⟨ihl, tos, id, ttl, frag, 0#8, si, di⟩ (ipipProto inner.to_vec), C31_length _ _ hd, C31_length _ _ hs,
    ⟨C32_length _ _ his, C32_length _ _ hid⟩, rfl, ?_⟩
  have e := C41_ipv4ip chk _ _ ve vid pcp d s hd hs ⟨ihl, tos, id, ttl, frag, 0#8, si, di⟩ _ _ his hid opts inner hi
  exact Except.ok.inj (h.symm.trans e)

/-- `create_gre_packet` returns iff its addresses convert and the inner packet, if any, has a byte. -/
theorem C41_gre_returns_iff (c r k q st : Bool) (flags ver : Byte) (gck goff : U16) (key seq : U32) (routing : Bytes)
    (inner : Option Packet) :
    (∃ p, create_gre_packet chk eth_dst eth_src ve vid pcp ihl src dst tos ttl id frag opts c r k q st flags ver
      gck goff key seq routing inner
      = .ok p) ↔ Addrs4 eth_dst eth_src src dst ∧ ∀ x, inner = some x → x.to_vec ≠ [] := by
  constructor
  · rintro ⟨p, h⟩
    unfold create_gre_packet at h
    obtain ⟨⟨pr, v⟩, e, h⟩ := bind_ok h
    obtain ⟨q, e2, -⟩ := bind_ok h
    refine ⟨.of e2, fun x hx h0 => ?_⟩
    subst hx
    simp only [greInner, h0] at e
    exact nomatch e
  · rintro ⟨⟨⟨⟨d, hd⟩, s, hs⟩, ⟨si, his⟩, di, hid⟩, hi⟩
    exact ⟨_, C41_gre chk _ _ ve vid pcp d s hd hs ⟨ihl, tos, id, ttl, frag, 0#8, si, di⟩ _ _ his hid opts c r k q st flags ver gck goff key seq routing inner hi⟩

example : Sample.gre = .ok (Sample.get Sample.gre) := by decide +kernel

theorem gre_shape (c r k q st : Bool) (flags ver : Byte) (gck goff : U16) (key seq : U32) (routing : Bytes)
    (inner : Option Packet) {p : Packet}
    (h : create_gre_packet chk eth_dst eth_src ve vid pcp ihl src dst tos ttl id frag opts c r k q st flags ver
      gck goff key seq routing inner
      = .ok p) :
    ∃ d s a, d.length = 6 ∧ s.length = 6 ∧ Ip4.Ok a ∧ a.proto = 47#8 ∧
      p = ⟨l2Hdrs d s ve vid pcp 0x0800#16 ++ ([a.hdr (BitVec.ofNat 16 (20 + (innerBytes inner).length + greLen c r k q routing)),
        Packet.gre c r k q st flags ver (greProto (innerBytes inner))] ++
      (optHdrs c (Packet.gre_chksum_offset gck goff) ++ (optHdrs k (Packet.gre_key key) ++
        optHdrs q (Packet.gre_sequence_number seq)))), innerBytes inner⟩ := by
  obtain ⟨⟨⟨⟨d, hd⟩, s, hs⟩, ⟨si, his⟩, di, hid⟩, hi⟩ :=
    (C41_gre_returns_iff .. ).mp ⟨p, h⟩
  refine ⟨d, s, Ip4.withProto ⟨ihl, tos, id, ttl, frag, 0#8, si, di⟩ (47#8), C31_length _ _ hd, C31_length _ _ hs,
    ⟨C32_length _ _ his, C32_length _ _ hid⟩, rfl, ?_⟩
  have e := C41_gre chk _ _ ve vid pcp d s hd hs ⟨ihl, tos, id, ttl, frag, 0#8, si, di⟩ _ _ his hid opts c r k q st flags ver gck goff key seq routing inner hi
  rw [List.append_assoc] at e
  exact Except.ok.inj (h.symm.trans e)

/-- `create_erspan_2_packet` returns iff its addresses convert. -/
theorem C41_erspan2_returns_iff (seq : U32) (vlan : U16) (cos en t : Byte) (sid : U16) (idx : U32) (inner : Option Packet) :
    (∃ p, create_erspan_2_packet chk eth_dst eth_src ve vid pcp ihl src dst tos ttl id frag opts seq vlan cos en t sid idx inner
      = .ok p) ↔ Addrs4 eth_dst eth_src src dst := by
  constructor
  · rintro ⟨p, h⟩
    unfold create_erspan_2_packet at h
    obtain ⟨q, e, -⟩ := bind_ok h
    exact .of e
  · rintro ⟨⟨⟨d, hd⟩, s, hs⟩, ⟨si, his⟩, di, hid⟩
    exact ⟨_, C41_erspan2 chk _ _ ve vid pcp d s hd hs ⟨ihl, tos, id, ttl, frag, 0#8, si, di⟩ _ _ his hid opts seq vlan cos en t sid idx inner⟩

example : Sample.erspan2 = .ok (Sample.get Sample.erspan2) := by decide +kernel

theorem erspan2_shape (seq : U32) (vlan : U16) (cos en t : Byte) (sid : U16) (idx : U32) (inner : Option Packet) {p : Packet}
    (h : create_erspan_2_packet chk eth_dst eth_src ve vid pcp ihl src dst tos ttl id frag opts seq vlan cos en t sid idx inner
      = .ok p) :
    ∃ d s a, d.length = 6 ∧ s.length = 6 ∧ Ip4.Ok a ∧ a.proto = 47#8 ∧
      p = ⟨l2Hdrs d s ve vid pcp 0x0800#16 ++ ([a.hdr (BitVec.ofNat 16 (20 + (innerBytes inner).length + (erspan2Len seq + innerLen inner))),
        ⟨GRE, [if seq ≠ 0#32 then 0x10#8 else 0#8, 0#8, 0x88#8, 0xbe#8]⟩] ++
      (optHdrs (seq ≠ 0#32) (Packet.gre_sequence_number seq) ++ [Packet.erspan2 vlan cos en t sid idx])), innerBytes inner⟩ := by
  obtain ⟨⟨⟨d, hd⟩, s, hs⟩, ⟨si, his⟩, di, hid⟩ :=
    (C41_erspan2_returns_iff .. ).mp ⟨p, h⟩
  refine ⟨d, s, Ip4.withProto ⟨ihl, tos, id, ttl, frag, 0#8, si, di⟩ (47#8), C31_length _ _ hd, C31_length _ _ hs,
    ⟨C32_length _ _ his, C32_length _ _ hid⟩, rfl, ?_⟩
  have e := C41_erspan2 chk _ _ ve vid pcp d s hd hs ⟨ihl, tos, id, ttl, frag, 0#8, si, di⟩ _ _ his hid opts seq vlan cos en t sid idx inner
  rw [List.append_assoc] at e
  exact Except.ok.inj (h.symm.trans e)

/-- `create_erspan_3_packet` returns iff its addresses convert. -/
theorem C41_erspan3_returns_iff (seq : U32) (vlan : U16) (cos en t : Byte) (sid : U16) (ts : U32) (sgt ft : U16) (pid : Byte)
    (info : U64) (inner : Option Packet) :
    (∃ p, create_erspan_3_packet chk eth_dst eth_src ve vid pcp ihl src dst tos ttl id frag opts seq vlan cos en t sid ts
      sgt ft pid info inner
      = .ok p) ↔ Addrs4 eth_dst eth_src src dst := by
  constructor
  · rintro ⟨p, h⟩
    unfold create_erspan_3_packet at h
    obtain ⟨q, e, -⟩ := bind_ok h
    exact .of e
  · rintro ⟨⟨⟨d, hd⟩, s, hs⟩, ⟨si, his⟩, di, hid⟩
    exact ⟨_, C41_erspan3 chk _ _ ve vid pcp d s hd hs ⟨ihl, tos, id, ttl, frag, 0#8, si, di⟩ _ _ his hid opts seq vlan cos en t sid ts sgt ft pid info inner⟩

example : Sample.erspan3 = .ok (Sample.get Sample.erspan3) := by decide +kernel

theorem erspan3_shape (seq : U32) (vlan : U16) (cos en t : Byte) (sid : U16) (ts : U32) (sgt ft : U16) (pid : Byte)
    (info : U64) (inner : Option Packet) {p : Packet}
    (h : create_erspan_3_packet chk eth_dst eth_src ve vid pcp ihl src dst tos ttl id frag opts seq vlan cos en t sid ts
      sgt ft pid info inner
      = .ok p) :
    ∃ d s a, d.length = 6 ∧ s.length = 6 ∧ Ip4.Ok a ∧ a.proto = 47#8 ∧
      p = ⟨l2Hdrs d s ve vid pcp 0x0800#16 ++ ([a.hdr (BitVec.ofNat 16 (20 + (innerBytes inner).length + (erspan3Len seq ft + innerLen inner))),
        ⟨GRE, [if seq.toNat % 2 = 1 then 0x10#8 else 0#8, 0#8, 0x22#8, 0xeb#8]⟩] ++
      (optHdrs (seq ≠ 0#32) (Packet.gre_sequence_number seq) ++
        (Packet.erspan3 vlan cos en t sid ts sgt ft :: (optHdrs (ft.toNat % 2 = 1) (platform pid info) ++
          innerHdrs inner)))), innerBytes inner⟩ := by
  obtain ⟨⟨⟨d, hd⟩, s, hs⟩, ⟨si, his⟩, di, hid⟩ :=
    (C41_erspan3_returns_iff .. ).mp ⟨p, h⟩
  refine ⟨d, s, Ip4.withProto ⟨ihl, tos, id, ttl, frag, 0#8, si, di⟩ (47#8), C31_length _ _ hd, C31_length _ _ hs,
    ⟨C32_length _ _ his, C32_length _ _ hid⟩, rfl, ?_⟩
  have e := C41_erspan3 chk _ _ ve vid pcp d s hd hs ⟨ihl, tos, id, ttl, frag, 0#8, si, di⟩ _ _ his hid opts seq vlan cos en t sid ts sgt ft pid info inner
  rw [List.append_assoc] at e
  exact Except.ok.inj (h.symm.trans e)

/-- `create_tcpv6_packet` returns iff its MAC addresses convert. -/
theorem C41_tcpv6_returns_iff (tdst tsrc : U16) (seq ack : U32) (off res flags : Byte) (window urg : U16) :
    (∃ p, create_tcpv6_packet chk p6 eth_dst eth_src ve vid pcp tc flow hl src dst tdst tsrc seq ack off res flags
      window urg payload
      = .ok p) ↔ Addrs2 eth_dst eth_src := by
  constructor
  · rintro ⟨p, h⟩
    unfold create_tcpv6_packet at h
    obtain ⟨q, e, -⟩ := bind_ok h
    exact .of e
  · rintro ⟨⟨d, hd⟩, s, hs⟩
    exact ⟨_, C41_tcpv6 chk p6 _ _ ve vid pcp d s hd hs src dst payload tc flow hl tdst tsrc seq ack off res flags window urg⟩

example : Sample.tcpv6 = .ok (Sample.get Sample.tcpv6) := by decide +kernel

theorem tcpv6_shape (tdst tsrc : U16) (seq ack : U32) (off res flags : Byte) (window urg : U16) {p : Packet}
    (h : create_tcpv6_packet chk p6 eth_dst eth_src ve vid pcp tc flow hl src dst tdst tsrc seq ack off res flags
      window urg payload
      = .ok p) :
    ∃ d s, d.length = 6 ∧ s.length = 6 ∧
      p = ⟨l2Hdrs d s ve vid pcp 0x86DD#16 ++ [Packet.ipv6 p6 tc flow 6#8 hl src dst (BitVec.ofNat 16 (payload.length + 20)),
        Packet.tcp tsrc tdst seq ack off res flags window 0 urg], payload⟩ := by
  obtain ⟨⟨d, hd⟩, s, hs⟩ := (C41_tcpv6_returns_iff ..).mp ⟨p, h⟩
  refine ⟨d, s, C31_length _ _ hd, C31_length _ _ hs, ?_⟩
  have e := C41_tcpv6 chk p6 _ _ ve vid pcp d s hd hs src dst payload tc flow hl tdst tsrc seq ack off res flags window urg
  exact Except.ok.inj (h.symm.trans e)

/-- `create_udpv6_packet` returns iff its MAC addresses convert. -/
theorem C41_udpv6_returns_iff (udst usrc : U16) (ck : Bool) :
    (∃ p, create_udpv6_packet chk p6 eth_dst eth_src ve vid pcp tc flow hl src dst udst usrc ck payload
      = .ok p) ↔ Addrs2 eth_dst eth_src := by
  constructor
  · rintro ⟨p, h⟩
    unfold create_udpv6_packet at h
    obtain ⟨q, e, -⟩ := bind_ok h
    exact .of e
  · rintro ⟨⟨d, hd⟩, s, hs⟩
    exact ⟨_, C41_udpv6 chk p6 _ _ ve vid pcp d s hd hs src dst payload tc flow hl udst usrc ck⟩

example : Sample.udpv6 = .ok (Sample.get Sample.udpv6) := by decide +kernel

theorem udpv6_shape (udst usrc : U16) (ck : Bool) {p : Packet}
    (h : create_udpv6_packet chk p6 eth_dst eth_src ve vid pcp tc flow hl src dst udst usrc ck payload
      = .ok p) :
    ∃ d s, d.length = 6 ∧ s.length = 6 ∧
      p = ⟨l2Hdrs d s ve vid pcp 0x86DD#16 ++ [Packet.ipv6 p6 tc flow 17#8 hl src dst (BitVec.ofNat 16 (payload.length + 8)),
        ⟨UDP, be16 usrc ++ be16 udst ++ be16 (BitVec.ofNat 16 (8 + payload.length)) ++ be16 0xffff#16⟩], payload⟩ := by
  obtain ⟨⟨d, hd⟩, s, hs⟩ := (C41_udpv6_returns_iff ..).mp ⟨p, h⟩
  refine ⟨d, s, C31_length _ _ hd, C31_length _ _ hs, ?_⟩
  have e := C41_udpv6 chk p6 _ _ ve vid pcp d s hd hs src dst payload tc flow hl udst usrc ck
  exact Except.ok.inj (h.symm.trans e)

/-- `create_icmpv6_packet` returns iff its MAC addresses convert. -/
theorem C41_icmpv6_returns_iff (ty code : Byte) (idata : Bytes) (ck : Bool) :
    (∃ p, create_icmpv6_packet chk p6 eth_dst eth_src ve vid pcp tc flow hl src dst ty code idata ck payload
      = .ok p) ↔ Addrs2 eth_dst eth_src := by
  constructor
  · rintro ⟨p, h⟩
    unfold create_icmpv6_packet at h
    obtain ⟨q, e, -⟩ := bind_ok h
    exact .of e
  · rintro ⟨⟨d, hd⟩, s, hs⟩
    exact ⟨_, C41_icmpv6 chk p6 _ _ ve vid pcp d s hd hs src dst payload tc flow hl ty code idata ck⟩

example : Sample.icmpv6 = .ok (Sample.get Sample.icmpv6) := by decide +kernel

theorem icmpv6_shape (ty code : Byte) (idata : Bytes) (ck : Bool) {p : Packet}
    (h : create_icmpv6_packet chk p6 eth_dst eth_src ve vid pcp tc flow hl src dst ty code idata ck payload
      = .ok p) :
    ∃ d s, d.length = 6 ∧ s.length = 6 ∧
      p = ⟨l2Hdrs d s ve vid pcp 0x86DD#16 ++ [Packet.ipv6 p6 tc flow 58#8 hl src dst (BitVec.ofNat 16 (payload.length + 4)), Packet.icmp ty code], payload⟩ := by
  obtain ⟨⟨d, hd⟩, s, hs⟩ := (C41_icmpv6_returns_iff ..).mp ⟨p, h⟩
  refine ⟨d, s, C31_length _ _ hd, C31_length _ _ hs, ?_⟩
  have e := C41_icmpv6 chk p6 _ _ ve vid pcp d s hd hs src dst payload tc flow hl ty code idata ck
  exact Except.ok.inj (h.symm.trans e)

/-- `create_vxlanv6_packet` returns iff its MAC addresses convert. -/
theorem C41_vxlanv6_returns_iff (udst usrc : U16) (ck : Bool) (vni : U32) (inner : Packet) :
    (∃ p, create_vxlanv6_packet chk p6 eth_dst eth_src ve vid pcp tc flow hl src dst udst usrc ck vni inner
      = .ok p) ↔ Addrs2 eth_dst eth_src := by
  constructor
  · rintro ⟨p, h⟩
    unfold create_vxlanv6_packet at h
    obtain ⟨q, e, -⟩ := bind_ok h
    exact .of e
  · rintro ⟨⟨d, hd⟩, s, hs⟩
    exact ⟨_, C41_vxlanv6 chk p6 _ _ ve vid pcp d s hd hs src dst tc flow hl udst usrc ck vni inner⟩

example : Sample.vxlanv6 = .ok (Sample.get Sample.vxlanv6) := by decide +kernel

theorem vxlanv6_shape (udst usrc : U16) (ck : Bool) (vni : U32) (inner : Packet) {p : Packet}
    (h : create_vxlanv6_packet chk p6 eth_dst eth_src ve vid pcp tc flow hl src dst udst usrc ck vni inner
      = .ok p) :
    ∃ d s, d.length = 6 ∧ s.length = 6 ∧
      p = ⟨l2Hdrs d s ve vid pcp 0x86DD#16 ++ ([Packet.ipv6 p6 tc flow 17#8 hl src dst (BitVec.ofNat 16 (inner.to_vec.length + 16)),
        ⟨UDP, be16 usrc ++ be16 udst ++ be16 (BitVec.ofNat 16 (16 + inner.to_vec.length)) ++ be16 0xffff#16⟩,
        Packet.vxlan vni] ++ inner.hdrs), inner.to_vec⟩ := by
  obtain ⟨⟨d, hd⟩, s, hs⟩ := (C41_vxlanv6_returns_iff ..).mp ⟨p, h⟩
  refine ⟨d, s, C31_length _ _ hd, C31_length _ _ hs, ?_⟩
  have e := C41_vxlanv6 chk p6 _ _ ve vid pcp d s hd hs src dst tc flow hl udst usrc ck vni inner
  rw [List.append_assoc] at e
  exact Except.ok.inj (h.symm.trans e)

/-- `create_ipv6ip_packet` returns iff its MAC addresses convert and the inner packet has a byte. -/
theorem C41_ipv6ip_returns_iff (inner : Packet) :
    (∃ p, create_ipv6ip_packet p6 eth_dst eth_src ve vid pcp tc flow hl src dst inner
      = .ok p) ↔ Addrs2 eth_dst eth_src ∧ inner.to_vec ≠ [] := by
  constructor
  · rintro ⟨p, h⟩
    unfold create_ipv6ip_packet at h
    obtain ⟨pr, e, h⟩ := bind_ok h
    refine ⟨.of h, fun h0 => ?_⟩
    rw [h0] at e
    exact nomatch e
  · rintro ⟨⟨⟨d, hd⟩, s, hs⟩, hi⟩
    exact ⟨_, C41_ipv6ip p6 _ _ ve vid pcp d s hd hs src dst tc flow hl inner hi⟩

example : Sample.ipv6ip = .ok (Sample.get Sample.ipv6ip) := by decide +kernel

theorem ipv6ip_shape (inner : Packet) {p : Packet}
    (h : create_ipv6ip_packet p6 eth_dst eth_src ve vid pcp tc flow hl src dst inner
      = .ok p) :
    ∃ d s, d.length = 6 ∧ s.length = 6 ∧
      p = ⟨l2Hdrs d s ve vid pcp 0x86DD#16 ++ [Packet.ipv6 p6 tc flow (ipipProto inner.to_vec) hl src dst (BitVec.ofNat 16 inner.to_vec.length)], inner.to_vec⟩ := by
  obtain ⟨⟨⟨d, hd⟩, s, hs⟩, hi⟩ := (C41_ipv6ip_returns_iff ..).mp ⟨p, h⟩
  refine ⟨d, s, C31_length _ _ hd, C31_length _ _ hs, ?_⟩
  have e := C41_ipv6ip p6 _ _ ve vid pcp d s hd hs src dst tc flow hl inner hi
  exact Except.ok.inj (h.symm.trans e)

theorem ipv6_shape (nh : Byte) {p : Packet}
    (h : create_ipv6_packet p6 eth_dst eth_src ve vid pcp tc flow nh hl src dst payload = .ok p) :
    ∃ d s, d.length = 6 ∧ s.length = 6 ∧
      p = ⟨l2Hdrs d s ve vid pcp 0x86DD#16 ++
        [Packet.ipv6 p6 tc flow nh hl src dst (BitVec.ofNat 16 payload.length)], payload⟩ := by
  obtain ⟨⟨d, hd⟩, s, hs⟩ := (C41_ipv6_returns_iff ..).mp ⟨p, h⟩
  refine ⟨d, s, C31_length _ _ hd, C31_length _ _ hs, ?_⟩
  have e := C41_ipv6 p6 _ _ ve vid pcp d s hd hs src dst payload tc flow hl nh
  exact Except.ok.inj (h.symm.trans e)

end
end PacketRs
