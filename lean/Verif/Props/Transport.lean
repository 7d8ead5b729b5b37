import Verif.Spec.Transport
import Verif.Props.BuildersLen
import Verif.Samples
/-!
# Property C77: builder arguments without effect, transport checksums, declared header lengths
-/
namespace PacketRs
open Spec Utils

/-! ## Sums -/

theorem words_append (a b : Bytes) (h : a.length % 2 = 0) : words (a ++ b) = words a ++ words b := by
  fun_induction words a with
  | case1 => rfl
  | case2 => simp at h
  | case3 x y r ih =>
    simp only [List.length_cons] at h
    simp only [List.cons_append, words, ih (by omega)]

/-- One word `x` between `a` and `b`: whatever the rest, exactly one residue of `x` verifies. -/
theorem one_word (a b : Bytes) (ha : a.length % 2 = 0) (hz : (words a).sum ≠ 0) :
    ∃ u < 65535, ∀ x y : Byte, Verifies (a ++ ([x, y] ++ b)) ↔ (256 * x.toNat + y.toNat) % 65535 = u := by
  refine ⟨(65535 - ((words a).sum + (words b).sum) % 65535) % 65535, Nat.mod_lt _ (by omega), fun x y => ?_⟩
  rw [verifies_iff, words_append _ _ ha, words_append _ _ (by simp)]
  simp only [words, List.sum_append, List.sum_cons, List.sum_nil]
  omega

/-- The same without anything before the word. -/
theorem first_word (b : Bytes) :
    ∃ u < 65535, ∀ x y : Byte, Verifies ([x, y] ++ b) ↔
      (256 * x.toNat + y.toNat) % 65535 = u ∧ ¬ (x = 0#8 ∧ y = 0#8 ∧ (words b).sum = 0) := by
  refine ⟨(65535 - (words b).sum % 65535) % 65535, Nat.mod_lt _ (by omega), fun x y => ?_⟩
  rw [verifies_iff, words_append _ _ (by simp)]
  simp only [words, List.sum_append, List.sum_cons, List.sum_nil]
  have e : ∀ z : Byte, z = 0#8 ↔ z.toNat = 0 := fun z => by
    constructor
    · rintro rfl; rfl
    · intro h; exact BitVec.eq_of_toNat_eq h
  rw [e, e]
  omega

theorem words_zero (b : Bytes) : (words b).sum = 0 ↔ ∀ x ∈ b, x = 0#8 := by
  have e : ∀ z : Byte, z = 0#8 ↔ z.toNat = 0 := fun z => by
    constructor
    · rintro rfl; rfl
    · intro h; exact BitVec.eq_of_toNat_eq h
  fun_induction words b with
  | case1 => simp
  | case2 a => simp only [List.sum_cons, List.sum_nil, List.mem_singleton, forall_eq, e]; omega
  | case3 a b r ih =>
    simp only [List.sum_cons, List.mem_cons, forall_eq_or_imp, e] at ih ⊢
    rw [show (∀ x ∈ r, BitVec.toNat x = 0) = ((words r).sum = 0) from propext ih.symm]; omega

/-- `be16` as two octets. -/
theorem be16_num (x : U16) : 256 * ((x >>> 8).setWidth 8 : Byte).toNat + ((x.setWidth 8 : Byte)).toNat = x.toNat := by
  have := x.isLt
  simp only [BitVec.toNat_setWidth, BitVec.toNat_ushiftRight, Nat.shiftRight_eq_div_pow]
  omega

/-! ## The frame around a segment -/

theorem l2_length (d s : Bytes) (hd : d.length = 6) (hs : s.length = 6) (ve : Bool) (vid : U16) (pcp : Byte) (et : U16) :
    (hdrBytes (l2Hdrs d s ve vid pcp et)).length = ipAt ve := by
  cases ve <;> simp [hdrBytes, onWire, l2Hdrs, ipAt, hd, hs]

theorem frame_wire (l2 : List Hdr) (ip : Hdr) (post : List Hdr) (pl : Bytes) :
    (Packet.mk (l2 ++ ip :: post) pl).to_vec = hdrBytes l2 ++ (ip.data ++ onWire post pl) := by
  rw [to_vec_onWire]
  simp [onWire, hdrBytes]

theorem getD_append_ge (a b : Bytes) (n k : Nat) (h : a.length = n) : (a ++ b).getD (n + k) 0#8 = b.getD k 0#8 := by
  subst h
  simp [List.getD_eq_getElem?_getD, List.getElem?_append_right]

theorem drop_add_left (a b : Bytes) (n k : Nat) (h : a.length = n) : (a ++ b).drop (n + k) = b.drop k := by
  subst h
  rw [← List.drop_drop, List.drop_left]

theorem pseudo4_eq (l2 : Bytes) (a : Ip4) (ha : a.Ok) (len c : U16) (seg : Bytes) (n : Nat) (hn : l2.length = n) :
    seg4 (l2 ++ (a.raw len c ++ seg)) n = seg ∧
      pseudo4 (l2 ++ (a.raw len c ++ seg)) n = a.src ++ a.dst ++ [0#8, a.proto] ++ num16 seg.length := by
  have e1 : seg4 (l2 ++ (a.raw len c ++ seg)) n = seg := by
    rw [seg4, drop_add_left _ _ _ _ hn, List.drop_left' (a.raw_length ha len c)]
  refine ⟨e1, ?_⟩
  rw [pseudo4, e1, getD_append_ge _ _ _ _ hn, drop_add_left _ _ _ _ hn]
  have h8 : (a.src ++ a.dst).length = 8 := by simp [ha.1, ha.2]
  congr 2
  · rw [show (a.raw len c ++ seg).drop 12 = (a.src ++ a.dst) ++ seg by simp [Ip4.raw, ipv4Raw, be16]]
    rw [List.take_append_of_le_length (by omega), List.take_of_length_le (by omega)]

theorem pseudo6_eq (l2 : Bytes) (p6 : Ipv6FromStr) (tc : Byte) (flow : U32) (nh hl : Byte) (src dst : Str) (len : U16)
    (seg : Bytes) (n : Nat) (hn : l2.length = n) :
    seg6 (l2 ++ ((Packet.ipv6 p6 tc flow nh hl src dst len).data ++ seg)) n = seg ∧
      pseudo6 (l2 ++ ((Packet.ipv6 p6 tc flow nh hl src dst len).data ++ seg)) n =
        to_ipv6_bytes p6 src ++ to_ipv6_bytes p6 dst ++ num32 seg.length ++ [0#8, 0#8, 0#8, nh] := by
  have h32 : (to_ipv6_bytes p6 src ++ to_ipv6_bytes p6 dst).length = 32 := by simp [ipv6_len6]
  have h40 : (Packet.ipv6 p6 tc flow nh hl src dst len).data.length = 40 := by
    simp [Packet.ipv6, HeaderDef.ofVec, be32, ipv6_len6]
  have e1 : seg6 (l2 ++ ((Packet.ipv6 p6 tc flow nh hl src dst len).data ++ seg)) n = seg := by
    rw [seg6, drop_add_left _ _ _ _ hn, List.drop_left' h40]
  refine ⟨e1, ?_⟩
  rw [pseudo6, e1, getD_append_ge _ _ _ _ hn, drop_add_left _ _ _ _ hn]
  congr 2
  · rw [show ((Packet.ipv6 p6 tc flow nh hl src dst len).data ++ seg).drop 8 =
      (to_ipv6_bytes p6 src ++ to_ipv6_bytes p6 dst) ++ seg by simp [Packet.ipv6, HeaderDef.ofVec, be16, be32]]
    rw [List.take_append_of_le_length (by omega), List.take_of_length_le (by omega)]

/-- Pseudo headers have an even number of octets and are not zero, because of the protocol number. -/
theorem pseudo4_words (s d : Bytes) (hs : s.length = 4) (hd : d.length = 4) (pr : Byte) (hp : pr ≠ 0#8) (k : Nat) :
    (s ++ d ++ [0#8, pr] ++ num16 k).length % 2 = 0 ∧ (words (s ++ d ++ [0#8, pr] ++ num16 k)).sum ≠ 0 := by
  refine ⟨by simp [hs, hd, num16], fun h => hp ?_⟩
  exact (words_zero _).mp h pr (by simp)

theorem pseudo6_words (s d : Bytes) (hs : s.length = 16) (hd : d.length = 16) (nh : Byte) (hp : nh ≠ 0#8) (k : Nat) :
    (s ++ d ++ num32 k ++ [0#8, 0#8, 0#8, nh]).length % 2 = 0 ∧
      (words (s ++ d ++ num32 k ++ [0#8, 0#8, 0#8, nh])).sum ≠ 0 := by
  refine ⟨by simp [hs, hd, num32, num16], fun h => hp ?_⟩
  exact (words_zero _).mp h nh (by simp)

/-- The word at an even place of a segment behind a pseudo header. -/
theorem one_seg_word (ps pre post : Bytes) (h1 : ps.length % 2 = 0) (h2 : (words ps).sum ≠ 0) (h3 : pre.length % 2 = 0) :
    ∃ u < 65535, ∀ x : U16, Verifies (ps ++ (pre ++ (be16 x ++ post))) ↔ x.toNat % 65535 = u := by
  obtain ⟨u, hu, h⟩ := one_word (ps ++ pre) post (by rw [List.length_append]; omega)
    (by rw [words_append _ _ h1, List.sum_append]; omega)
  refine ⟨u, hu, fun x => ?_⟩
  rw [← be16_num x, ← h, be16, List.append_assoc]

theorem onWire_cons (h : Hdr) (hs : List Hdr) (pl : Bytes) : onWire (h :: hs) pl = h.data ++ onWire hs pl := by
  simp only [onWire, List.map_cons, List.flatten_cons, List.append_assoc]

theorem onWire_nil (pl : Bytes) : onWire [] pl = pl := rfl

/-- Segment and pseudo header in a frame with an IPv4 header as the builders make them. -/
theorem frame4 (d s : Bytes) (hd : d.length = 6) (hs : s.length = 6) (ve : Bool) (vid : U16) (pcp : Byte) (et : U16) (a : Ip4)
    (ha : a.Ok) (len c : U16) (post : List Hdr) (pl : Bytes) :
    seg4 (Packet.mk (l2Hdrs d s ve vid pcp et ++ ⟨IPv4, a.raw len c⟩ :: post) pl).to_vec (ipAt ve) = onWire post pl ∧
      pseudo4 (Packet.mk (l2Hdrs d s ve vid pcp et ++ ⟨IPv4, a.raw len c⟩ :: post) pl).to_vec (ipAt ve) =
        a.src ++ a.dst ++ [0#8, a.proto] ++ num16 (onWire post pl).length := by
  rw [frame_wire]
  exact pseudo4_eq _ a ha len c _ _ (l2_length d s hd hs ve vid pcp et)

theorem frame6 (d s : Bytes) (hd : d.length = 6) (hs : s.length = 6) (ve : Bool) (vid : U16) (pcp : Byte) (et : U16)
    (p6 : Ipv6FromStr) (tc : Byte) (flow : U32) (nh hl : Byte) (src dst : Str) (len : U16) (post : List Hdr) (pl : Bytes) :
    seg6 (Packet.mk (l2Hdrs d s ve vid pcp et ++ Packet.ipv6 p6 tc flow nh hl src dst len :: post) pl).to_vec (ipAt ve) =
        onWire post pl ∧
      pseudo6 (Packet.mk (l2Hdrs d s ve vid pcp et ++ Packet.ipv6 p6 tc flow nh hl src dst len :: post) pl).to_vec (ipAt ve) =
        to_ipv6_bytes p6 src ++ to_ipv6_bytes p6 dst ++ num32 (onWire post pl).length ++ [0#8, 0#8, 0#8, nh] := by
  rw [frame_wire]
  exact pseudo6_eq _ p6 tc flow nh hl src dst len _ _ (l2_length d s hd hs ve vid pcp et)

/-! ## Transport checksums -/

theorem tcp_split (src dst : U16) (seq ack : U32) (off res flags : Byte) (w c : U16) :
    ∃ pre : Bytes, pre.length = 18 ∧ ∀ u, (Packet.tcp src dst seq ack off res flags w c u).data = pre ++ be16 u :=
  ⟨_, by rfl, fun _ => rfl⟩

section
variable (chk : Bool) (p6 : Ipv6FromStr) (eth_dst eth_src : Str) (ve : Bool) (vid : U16) (pcp : Byte)
  (ihl : Byte) (src dst : Str) (tos ttl : Byte) (id frag : U16) (opts : Bytes) (tc : Byte) (flow : U32) (hl : Byte)
  (payload : Bytes)

/-- **C77, TCP over IPv4**: no checksum is computed. Whatever the other arguments, a receiver accepts exactly one urgent
pointer (or the two 0 and 0xffff). -/
theorem C77_tcp4 (tdst tsrc : U16) (seq ack : U32) (off res flags : Byte) (window : U16) (ck : Bool) :
    ∃ u < 65535, ∀ urg p,
      create_tcp_packet chk eth_dst eth_src ve vid pcp ihl src dst tos ttl id frag opts tdst tsrc seq ack off res flags window
        urg ck payload = .ok p →
      (Tcp4Ok p.to_vec (ipAt ve) ↔ urg.toNat % 65535 = u) := by
  by_cases hA : Addrs4 eth_dst eth_src src dst
  · obtain ⟨⟨⟨d, hd⟩, s, hs⟩, ⟨si, his⟩, di, hid⟩ := hA
    have h4 := C32_length _ _ his
    have h4' := C32_length _ _ hid
    obtain ⟨pre, hp, hpre⟩ := tcp_split tsrc tdst seq ack off res flags window 0
    obtain ⟨w1, w2⟩ := pseudo4_words si di h4 h4' 6#8 (by decide) (20 + payload.length)
    obtain ⟨u, hu, hv⟩ := one_seg_word _ pre payload w1 w2 (by omega)
    refine ⟨u, hu, fun urg p h => ?_⟩
    have e := C41_tcp chk eth_dst eth_src ve vid pcp d s hd hs ⟨ihl, tos, id, ttl, frag, 0#8, si, di⟩ src dst his hid opts
      payload tdst tsrc seq ack off res flags window urg ck
    have e := Except.ok.inj (h.symm.trans e)
    subst e
    have q := fun len c => frame4 d s (C31_length _ _ hd) (C31_length _ _ hs) ve vid pcp 0x0800#16
      (Ip4.withProto ⟨ihl, tos, id, ttl, frag, 0#8, si, di⟩ 6#8) ⟨h4, h4'⟩ len c
      [Packet.tcp tsrc tdst seq ack off res flags window 0 urg] payload
    rw [Tcp4Ok, Ip4.hdr, (q _ _).2, (q _ _).1, onWire_cons, onWire_nil, hpre, ← hv]
    simp only [Ip4.withProto, List.length_append, hp, be16_length, List.append_assoc, show 18 + (2 + payload.length) = 20 + payload.length by omega]
  · exact ⟨0, by omega, fun urg p h => absurd ((C41_tcp_returns_iff ..).mp ⟨p, h⟩) hA⟩

/-- **C77, UDP over IPv4**: the checksum is always zero, which a receiver accepts. -/
theorem C77_udp4 (udst usrc : U16) (ck : Bool) (p : Packet)
    (h : create_udp_packet chk eth_dst eth_src ve vid pcp ihl src dst tos ttl id frag opts udst usrc ck payload = .ok p) :
    u16At (seg4 p.to_vec (ipAt ve)) 6 = 0 ∧ Udp4Ok p.to_vec (ipAt ve) := by
  obtain ⟨d, s, a, hd, hs, ha, -, rfl⟩ := udp_shape (h := h)
  have q := fun len c => frame4 d s hd hs ve vid pcp 0x0800#16 a ha len c
    [Packet.udp usrc udst (BitVec.ofNat 16 (8 + payload.length))] payload
  have e : u16At (onWire [Packet.udp usrc udst (BitVec.ofNat 16 (8 + payload.length))] payload) 6 = 0 := rfl
  rw [Udp4Ok, Ip4.hdr, (q _ _).1, e]
  exact ⟨rfl, .inl rfl⟩

/-- **C77, VXLAN over IPv4**: likewise. -/
theorem C77_vxlan4 (udst usrc : U16) (ck : Bool) (vni : U32) (inner p : Packet)
    (h : create_vxlan_packet chk eth_dst eth_src ve vid pcp ihl src dst tos ttl id frag opts udst usrc ck vni inner = .ok p) :
    u16At (seg4 p.to_vec (ipAt ve)) 6 = 0 ∧ Udp4Ok p.to_vec (ipAt ve) := by
  obtain ⟨d, s, a, hd, hs, ha, -, rfl⟩ := vxlan_shape (h := h)
  have q := fun len c => frame4 d s hd hs ve vid pcp 0x0800#16 a ha len c
    [Packet.udp usrc udst (BitVec.ofNat 16 (16 + inner.to_vec.length)), Packet.vxlan vni] inner.to_vec
  have e : u16At (onWire [Packet.udp usrc udst (BitVec.ofNat 16 (16 + inner.to_vec.length)), Packet.vxlan vni]
    inner.to_vec) 6 = 0 := rfl
  rw [Udp4Ok, (q _ _).1, e]
  exact ⟨rfl, .inl rfl⟩

/-- **C77, ICMP**: no checksum is computed. Whatever the other arguments, a receiver accepts exactly one type and code (or the
two 0, 0 and 255, 255, of which the first only if the payload is not zero). -/
theorem C77_icmp4 (idata : Bytes) (ck : Bool) :
    ∃ u < 65535, ∀ ty code p,
      create_icmp_packet chk eth_dst eth_src ve vid pcp ihl src dst tos ttl id frag opts ty code idata ck payload = .ok p →
      (Icmp4Ok p.to_vec (ipAt ve) ↔ (256 * ty.toNat + code.toNat) % 65535 = u ∧
        ¬ (ty = 0#8 ∧ code = 0#8 ∧ ∀ x ∈ payload, x = 0#8)) := by
  obtain ⟨u, hu, hv⟩ := first_word ([0#8, 0#8] ++ payload)
  refine ⟨u, hu, fun ty code p h => ?_⟩
  obtain ⟨d, s, a, hd, hs, ha, -, rfl⟩ := icmp_shape (h := h)
  have q := fun len c => frame4 d s hd hs ve vid pcp 0x0800#16 a ha len c [Packet.icmp ty code] payload
  have e : onWire [Packet.icmp ty code] payload = [ty, code] ++ ([0#8, 0#8] ++ payload) := rfl
  rw [Icmp4Ok, Ip4.hdr, (q _ _).1, e, hv, words_zero]
  simp

/-- **C77, TCP over IPv6**: as over IPv4. -/
theorem C77_tcp6 (tdst tsrc : U16) (seq ack : U32) (off res flags : Byte) (window : U16) :
    ∃ u < 65535, ∀ urg p,
      create_tcpv6_packet chk p6 eth_dst eth_src ve vid pcp tc flow hl src dst tdst tsrc seq ack off res flags window urg
        payload = .ok p →
      (Tcp6Ok p.to_vec (ipAt ve) ↔ urg.toNat % 65535 = u) := by
  obtain ⟨pre, hp, hpre⟩ := tcp_split tsrc tdst seq ack off res flags window 0
  obtain ⟨w1, w2⟩ := pseudo6_words (to_ipv6_bytes p6 src) (to_ipv6_bytes p6 dst) (ipv6_len6 ..) (ipv6_len6 ..) 6#8 (by decide)
    (20 + payload.length)
  obtain ⟨u, hu, hv⟩ := one_seg_word _ pre payload w1 w2 (by omega)
  refine ⟨u, hu, fun urg p h => ?_⟩
  obtain ⟨⟨d, hd⟩, s, hs⟩ := (C41_tcpv6_returns_iff ..).mp ⟨p, h⟩
  have e := Except.ok.inj (h.symm.trans (C41_tcpv6 chk p6 eth_dst eth_src ve vid pcp d s hd hs src dst payload tc flow hl ..))
  subst e
  have q := fun len => frame6 d s (C31_length _ _ hd) (C31_length _ _ hs) ve vid pcp 0x86DD#16 p6 tc flow 6#8 hl src dst len
    [Packet.tcp tsrc tdst seq ack off res flags window 0 urg] payload
  rw [Tcp6Ok, (q _).2, (q _).1, onWire_cons, onWire_nil, hpre, ← hv]
  simp only [List.length_append, hp, be16_length, List.append_assoc, show 18 + (2 + payload.length) = 20 + payload.length by omega]

/-- **C77, UDP over IPv6**: the checksum is always 0xffff. Whatever the other arguments, a receiver accepts exactly one source
port (or the two 0 and 0xffff). -/
theorem C77_udp6 (udst : U16) (ck : Bool) :
    ∃ u < 65535, ∀ usrc p,
      create_udpv6_packet chk p6 eth_dst eth_src ve vid pcp tc flow hl src dst udst usrc ck payload = .ok p →
      u16At (seg6 p.to_vec (ipAt ve)) 6 = 0xffff ∧ (Udp6Ok p.to_vec (ipAt ve) ↔ usrc.toNat % 65535 = u) := by
  obtain ⟨w1, w2⟩ := pseudo6_words (to_ipv6_bytes p6 src) (to_ipv6_bytes p6 dst) (ipv6_len6 ..) (ipv6_len6 ..) 17#8 (by decide)
    (8 + payload.length)
  obtain ⟨u, hu, hv⟩ := one_seg_word _ [] (be16 udst ++ (be16 (BitVec.ofNat 16 (8 + payload.length)) ++
    (be16 0xffff#16 ++ payload))) w1 w2 rfl
  refine ⟨u, hu, fun usrc p h => ?_⟩
  obtain ⟨⟨d, hd⟩, s, hs⟩ := (C41_udpv6_returns_iff ..).mp ⟨p, h⟩
  have e := Except.ok.inj (h.symm.trans (C41_udpv6 chk p6 eth_dst eth_src ve vid pcp d s hd hs src dst payload tc flow hl ..))
  subst e
  have q := fun len => frame6 d s (C31_length _ _ hd) (C31_length _ _ hs) ve vid pcp 0x86DD#16 p6 tc flow 17#8 hl src dst len
    [⟨UDP, be16 usrc ++ be16 udst ++ be16 (BitVec.ofNat 16 (8 + payload.length)) ++ be16 0xffff#16⟩] payload
  have e6 : u16At (onWire [⟨UDP, be16 usrc ++ be16 udst ++ be16 (BitVec.ofNat 16 (8 + payload.length)) ++ be16 0xffff#16⟩]
    payload) 6 = 0xffff := rfl
  rw [Udp6Ok, (q _).2, (q _).1, e6]
  refine ⟨rfl, ?_⟩
  rw [onWire_cons, onWire_nil, ← hv]
  simp only [List.length_append, be16_length, List.append_assoc, List.nil_append]
  rw [show 2 + (2 + (2 + (2 + payload.length))) = 8 + payload.length by omega]
  exact and_iff_right (by decide)

/-- **C77, ICMPv6**: no checksum is computed, a receiver accepts exactly one type and code (or the two 0, 0 and 255, 255). -/
theorem C77_icmp6 (idata : Bytes) (ck : Bool) :
    ∃ u < 65535, ∀ ty code p,
      create_icmpv6_packet chk p6 eth_dst eth_src ve vid pcp tc flow hl src dst ty code idata ck payload = .ok p →
      (Icmp6Ok p.to_vec (ipAt ve) ↔ (256 * ty.toNat + code.toNat) % 65535 = u) := by
  obtain ⟨w1, w2⟩ := pseudo6_words (to_ipv6_bytes p6 src) (to_ipv6_bytes p6 dst) (ipv6_len6 ..) (ipv6_len6 ..) 58#8 (by decide)
    (4 + payload.length)
  obtain ⟨u, hu, hv⟩ := one_word _ ([0#8, 0#8] ++ payload) w1 w2
  refine ⟨u, hu, fun ty code p h => ?_⟩
  obtain ⟨⟨d, hd⟩, s, hs⟩ := (C41_icmpv6_returns_iff ..).mp ⟨p, h⟩
  have e := Except.ok.inj (h.symm.trans (C41_icmpv6 chk p6 eth_dst eth_src ve vid pcp d s hd hs src dst payload tc flow hl ..))
  subst e
  have q := fun len => frame6 d s (C31_length _ _ hd) (C31_length _ _ hs) ve vid pcp 0x86DD#16 p6 tc flow 58#8 hl src dst len
    [Packet.icmp ty code] payload
  have e6 : onWire [Packet.icmp ty code] payload = [ty, code] ++ ([0#8, 0#8] ++ payload) := rfl
  rw [Icmp6Ok, (q _).2, (q _).1, e6, ← hv]
  simp only [List.length_append, List.length_cons, List.length_nil]
  rw [show 0 + 1 + 1 + (0 + 1 + 1 + payload.length) = 4 + payload.length by omega]

/-- **C77, VXLAN over IPv6**: as UDP. -/
theorem C77_vxlan6 (udst : U16) (ck : Bool) (vni : U32) (inner : Packet) :
    ∃ u < 65535, ∀ usrc p,
      create_vxlanv6_packet chk p6 eth_dst eth_src ve vid pcp tc flow hl src dst udst usrc ck vni inner = .ok p →
      u16At (seg6 p.to_vec (ipAt ve)) 6 = 0xffff ∧ (Udp6Ok p.to_vec (ipAt ve) ↔ usrc.toNat % 65535 = u) := by
  let rest := onWire (Packet.vxlan vni :: inner.hdrs) inner.to_vec
  obtain ⟨w1, w2⟩ := pseudo6_words (to_ipv6_bytes p6 src) (to_ipv6_bytes p6 dst) (ipv6_len6 ..) (ipv6_len6 ..) 17#8 (by decide)
    (8 + rest.length)
  obtain ⟨u, hu, hv⟩ := one_seg_word _ [] (be16 udst ++ (be16 (BitVec.ofNat 16 (16 + inner.to_vec.length)) ++
    (be16 0xffff#16 ++ rest))) w1 w2 rfl
  refine ⟨u, hu, fun usrc p h => ?_⟩
  obtain ⟨⟨d, hd⟩, s, hs⟩ := (C41_vxlanv6_returns_iff ..).mp ⟨p, h⟩
  have e := Except.ok.inj (h.symm.trans (C41_vxlanv6 chk p6 eth_dst eth_src ve vid pcp d s hd hs src dst tc flow hl ..))
  subst e
  have q := fun len => frame6 d s (C31_length _ _ hd) (C31_length _ _ hs) ve vid pcp 0x86DD#16 p6 tc flow 17#8 hl src dst len
    (⟨UDP, be16 usrc ++ be16 udst ++ be16 (BitVec.ofNat 16 (16 + inner.to_vec.length)) ++ be16 0xffff#16⟩ ::
      Packet.vxlan vni :: inner.hdrs) inner.to_vec
  have e6 : u16At (onWire (⟨UDP, be16 usrc ++ be16 udst ++ be16 (BitVec.ofNat 16 (16 + inner.to_vec.length)) ++
    be16 0xffff#16⟩ :: Packet.vxlan vni :: inner.hdrs) inner.to_vec) 6 = 0xffff := rfl
  simp only [List.append_assoc, List.cons_append, List.nil_append] at q e6 ⊢
  rw [Udp6Ok, (q _).2, (q _).1, e6]
  refine ⟨rfl, ?_⟩
  rw [onWire_cons, ← hv, show onWire (Packet.vxlan vni :: inner.hdrs) inner.to_vec = rest from rfl]
  simp only [List.length_append, be16_length, List.append_assoc, List.nil_append]
  rw [show 2 + (2 + (2 + (2 + rest.length))) = 8 + rest.length by omega]
  exact and_iff_right (by decide)

/-- For the sample arguments: the values a receiver accepts, next to ones it does not; UDP over IPv4 is accepted. -/
example :
    let b := fun x : R Packet => (Sample.get x).to_vec
    let tcp := fun u => b (create_tcp_packet true Sample.mac1 Sample.mac2 true 10 3 5 Sample.ip1 Sample.ip2 1 64 0x1234 0 [] 80
      1234 7 9 5 0 2 512 u true Sample.data)
    let icmp := fun ty code => b (create_icmp_packet true Sample.mac1 Sample.mac2 false 10 3 5 Sample.ip1 Sample.ip2 1 64 0x1234 0
      [] ty code [1, 2] true Sample.data)
    let tcp6 := fun u => b (create_tcpv6_packet true Sample.p6 Sample.mac1 Sample.mac2 true 10 3 7 0x12345 64 Sample.ip6a
      Sample.ip6b 80 1234 7 9 5 0 2 512 u Sample.data)
    let udp6 := fun s => b (create_udpv6_packet true Sample.p6 Sample.mac1 Sample.mac2 true 10 3 7 0x12345 64 Sample.ip6a
      Sample.ip6b 53 s true Sample.data)
    let icmp6 := fun ty code => b (create_icmpv6_packet true Sample.p6 Sample.mac1 Sample.mac2 false 10 3 7 0x12345 64
      Sample.ip6a Sample.ip6b ty code [1, 2] true Sample.data)
    let vxlan6 := fun s => b (create_vxlanv6_packet true Sample.p6 Sample.mac1 Sample.mac2 true 10 3 7 0x12345 64 Sample.ip6a
      Sample.ip6b 4789 s true 0xabcd Sample.innerFrame)
    (Tcp4Ok (tcp 16227) 18 ∧ ¬ Tcp4Ok (tcp 0) 18) ∧ (Icmp4Ok (icmp 0x61 0x62) 14 ∧ ¬ Icmp4Ok (icmp 8 0) 14) ∧
      (Tcp6Ok (tcp6 56404) 18 ∧ ¬ Tcp6Ok (tcp6 0) 18) ∧ (Udp6Ok (udp6 13128) 18 ∧ ¬ Udp6Ok (udp6 1234) 18) ∧
      (Icmp6Ok (icmp6 0x33 0x65) 14 ∧ ¬ Icmp6Ok (icmp6 128 0) 14) ∧
      (Udp6Ok (vxlan6 60468) 18 ∧ ¬ Udp6Ok (vxlan6 1234) 18) ∧
      Udp4Ok (b Sample.udp) 18 ∧ Udp4Ok (b Sample.vxlan) 18 := by
  decide +kernel

/-! ## Arguments without effect -/

/-- **C77**: IPv4 options, the requests for checksums and the ICMP data change nothing. -/
theorem C77_ignored (opts' : Bytes) (ck ck' : Bool) (idata idata' : Bytes) (proto : Byte) (tdst tsrc : U16) (seq ack : U32)
    (off res flags : Byte) (window urg : U16) (ty code : Byte) (vni : U32) (inner : Packet) :
    create_ipv4_packet chk eth_dst eth_src ve vid pcp ihl src dst proto tos ttl id frag opts payload =
        create_ipv4_packet chk eth_dst eth_src ve vid pcp ihl src dst proto tos ttl id frag opts' payload ∧
      create_tcp_packet chk eth_dst eth_src ve vid pcp ihl src dst tos ttl id frag opts tdst tsrc seq ack off res flags window
          urg ck payload =
        create_tcp_packet chk eth_dst eth_src ve vid pcp ihl src dst tos ttl id frag opts' tdst tsrc seq ack off res flags window
          urg ck' payload ∧
      create_udp_packet chk eth_dst eth_src ve vid pcp ihl src dst tos ttl id frag opts tdst tsrc ck payload =
        create_udp_packet chk eth_dst eth_src ve vid pcp ihl src dst tos ttl id frag opts' tdst tsrc ck' payload ∧
      create_icmp_packet chk eth_dst eth_src ve vid pcp ihl src dst tos ttl id frag opts ty code idata ck payload =
        create_icmp_packet chk eth_dst eth_src ve vid pcp ihl src dst tos ttl id frag opts' ty code idata' ck' payload ∧
      create_vxlan_packet chk eth_dst eth_src ve vid pcp ihl src dst tos ttl id frag opts tdst tsrc ck vni inner =
        create_vxlan_packet chk eth_dst eth_src ve vid pcp ihl src dst tos ttl id frag opts' tdst tsrc ck' vni inner ∧
      create_ipv4ip_packet chk eth_dst eth_src ve vid pcp ihl src dst tos ttl id frag opts inner =
        create_ipv4ip_packet chk eth_dst eth_src ve vid pcp ihl src dst tos ttl id frag opts' inner ∧
      create_udpv6_packet chk p6 eth_dst eth_src ve vid pcp tc flow hl src dst tdst tsrc ck payload =
        create_udpv6_packet chk p6 eth_dst eth_src ve vid pcp tc flow hl src dst tdst tsrc ck' payload ∧
      create_icmpv6_packet chk p6 eth_dst eth_src ve vid pcp tc flow hl src dst ty code idata ck payload =
        create_icmpv6_packet chk p6 eth_dst eth_src ve vid pcp tc flow hl src dst ty code idata' ck' payload ∧
      create_vxlanv6_packet chk p6 eth_dst eth_src ve vid pcp tc flow hl src dst tdst tsrc ck vni inner =
        create_vxlanv6_packet chk p6 eth_dst eth_src ve vid pcp tc flow hl src dst tdst tsrc ck' vni inner :=
  ⟨rfl, rfl, rfl, rfl, rfl, rfl, rfl, rfl, rfl⟩

/-- **C77**: without a tag its identifier and priority change nothing, for the frame every builder starts from. -/
theorem C77_untagged (vid' : U16) (pcp' : Byte) (et : U16) :
    create_eth_packet eth_dst eth_src false vid pcp et payload = create_eth_packet eth_dst eth_src false vid' pcp' et payload :=
  rfl

/-- **C77**: the GRE routing octets count only by their number, and not at all without their flag; checksum and offset, key and
sequence number only with theirs. -/
theorem C77_gre (opts' : Bytes) (c r k q st : Bool) (flags ver : Byte) (gck gck' goff goff' : U16) (key key' sq sq' : U32)
    (ro ro' : Bytes) (inner : Option Packet) (hc : c = true → gck = gck' ∧ goff = goff') (hk : k = true → key = key')
    (hq : q = true → sq = sq') (hr : r = true → ro.length = ro'.length) :
    create_gre_packet chk eth_dst eth_src ve vid pcp ihl src dst tos ttl id frag opts c r k q st flags ver gck goff key sq ro
        inner =
      create_gre_packet chk eth_dst eth_src ve vid pcp ihl src dst tos ttl id frag opts' c r k q st flags ver gck' goff' key' sq'
        ro' inner := by
  have e1 : (fun p : Packet => if c then p.push (Packet.gre_chksum_offset gck goff) else p) =
      fun p => if c then p.push (Packet.gre_chksum_offset gck' goff') else p := by
    cases c with
    | false => rfl
    | true => rw [(hc rfl).1, (hc rfl).2]
  have e2 : (fun p : Packet => if k then p.push (Packet.gre_key key) else p) =
      fun p => if k then p.push (Packet.gre_key key') else p := by
    cases k with
    | false => rfl
    | true => rw [hk rfl]
  have e3 : (fun p : Packet => if q then p.push (Packet.gre_sequence_number sq) else p) =
      fun p => if q then p.push (Packet.gre_sequence_number sq') else p := by
    cases q with
    | false => rfl
    | true => rw [hq rfl]
  have e4 : (fun n => if r then n + ro.length else n) = fun n => if r then n + ro'.length else n := by
    cases r with
    | false => rfl
    | true => rw [hr rfl]
  have f1 := fun p => congrFun e1 p
  have f2 := fun p => congrFun e2 p
  have f3 := fun p => congrFun e3 p
  have f4 := fun n => congrFun e4 n
  unfold create_gre_packet
  simp only [f1, f2, f3, f4]
  rfl

/-- **C77**: the ERSPAN III platform words count only if the low bit of the last argument word asks for them. -/
theorem C77_erspan3 (opts' : Bytes) (sq : U32) (vlan : U16) (cos en t : Byte) (sid : U16) (ts : U32) (sgt ft : U16)
    (pid pid' : Byte) (info info' : U64) (inner : Option Packet) (hf : ft &&& 0x1#16 ≠ 1#16) :
    create_erspan_3_packet chk eth_dst eth_src ve vid pcp ihl src dst tos ttl id frag opts sq vlan cos en t sid ts sgt ft pid
        info inner =
      create_erspan_3_packet chk eth_dst eth_src ve vid pcp ihl src dst tos ttl id frag opts' sq vlan cos en t sid ts sgt ft
        pid' info' inner := by
  unfold create_erspan_3_packet
  simp only [if_neg hf]
  rfl

theorem C77_erspan2 (opts' : Bytes) (sq : U32) (vlan : U16) (cos en t : Byte) (sid : U16) (idx : U32) (inner : Option Packet) :
    create_erspan_2_packet chk eth_dst eth_src ve vid pcp ihl src dst tos ttl id frag opts sq vlan cos en t sid idx inner =
      create_erspan_2_packet chk eth_dst eth_src ve vid pcp ihl src dst tos ttl id frag opts' sq vlan cos en t sid idx inner :=
  rfl

end

/-! ## Declared header lengths -/

theorem declared4 (l2 raw seg : Bytes) (n i : Nat) (hn : l2.length = n) (hr : raw.length = 20)
    (hi : Spec.ihl (l2 ++ (raw ++ seg)) n = 4 * i) (ht : u16At (l2 ++ (raw ++ seg)) (n + 2) = (20 + seg.length) % 65536) :
    ipv4Data (l2 ++ (raw ++ seg)) n = seg ↔ (i = 5 ∧ 20 + seg.length < 65536) ∨ (seg = [] ∧ 5 ≤ i) := by
  subst hn
  rw [ipv4Data, hi, ht, List.take_length_add_append, drop_add_left _ _ _ _ rfl]
  constructor
  · intro h
    have hl := congrArg List.length h
    simp only [List.length_drop, List.length_take, List.length_append, hr] at hl
    by_cases h0 : seg.length = 0
    · exact .inr ⟨List.length_eq_zero_iff.mp h0, by omega⟩
    · left; omega
  · rintro (⟨rfl, h⟩ | ⟨rfl, h⟩)
    · rw [Nat.mod_eq_of_lt h, List.take_of_length_le (by simp [hr]), List.drop_left' (by omega)]
    · rw [List.drop_of_length_le]
      simp only [List.length_take, List.length_append, hr, List.length_nil]; omega

theorem ver_octet (x : Byte) : (0x40#8 ||| x).toNat % 16 = x.toNat % 16 ∧
    ((0x40#8 ||| x).toNat / 16 = 4 ↔ x.toNat / 16 = 0 ∨ x.toNat / 16 = 4) := by
  revert x; decide +kernel

/-- The octet with the data offset. -/
theorem off_octet (x y : Byte) : ((x <<< 4) ||| (y &&& 0xff#8)).toNat / 16 = (x.toNat % 16 ||| y.toNat / 16) := by
  rw [show y &&& 0xff#8 = y from BitVec.and_allOnes]
  simp only [BitVec.toNat_or, BitVec.toNat_shiftLeft, Nat.shiftLeft_eq]
  rw [show (16 : Nat) = 2 ^ 4 from rfl, ← Nat.shiftRight_eq_div_pow, Nat.shiftRight_or_distrib,
    Nat.shiftRight_eq_div_pow, Nat.shiftRight_eq_div_pow]
  congr 1
  omega

/-- The IPv4 header a builder makes at the end of `l2`. -/
theorem ipv4_declares (d s : Bytes) (hd : d.length = 6) (hs : s.length = 6) (ve : Bool) (vid : U16) (pcp : Byte) (et : U16)
    (a : Ip4) (ha : a.Ok) (c : U16) (post : List Hdr) (pl : Bytes) (b : Bytes)
    (hb : b = (Packet.mk (l2Hdrs d s ve vid pcp et ++
      ⟨IPv4, a.raw (BitVec.ofNat 16 (20 + (onWire post pl).length)) c⟩ :: post) pl).to_vec) :
    (u8At b (ipAt ve) / 16 = 4 ↔ a.ihl.toNat / 16 = 0 ∨ a.ihl.toNat / 16 = 4) ∧
      (ipv4Data b (ipAt ve) = seg4 b (ipAt ve) ↔
        (a.ihl.toNat % 16 = 5 ∧ 20 + (onWire post pl).length < 65536) ∨ (onWire post pl = [] ∧ 5 ≤ a.ihl.toNat % 16)) := by
  have q := (frame4 d s hd hs ve vid pcp et a ha (BitVec.ofNat 16 (20 + (onWire post pl).length)) c post pl).1
  rw [← hb] at q
  have hl := l2_length d s hd hs ve vid pcp et
  rw [frame_wire] at hb
  have h0 : u8At b (ipAt ve) = (0x40#8 ||| a.ihl).toNat := by
    rw [u8At, ← Nat.add_zero (ipAt ve), hb, getD_append_ge _ _ _ _ hl]; rfl
  have h2 : u16At b (ipAt ve + 2) = (20 + (onWire post pl).length) % 65536 := by
    rw [u16At, u8At, u8At, hb, Nat.add_assoc, getD_append_ge _ _ _ _ hl, getD_append_ge _ _ _ _ hl]
    exact (be16_num _).trans (BitVec.toNat_ofNat _ _)
  refine ⟨by rw [h0]; exact (ver_octet a.ihl).2, ?_⟩
  rw [q]
  rw [hb] at h0 h2 ⊢
  exact declared4 _ _ _ _ _ hl (a.raw_length ha _ _) (by rw [Spec.ihl, h0, (ver_octet a.ihl).1]) h2

section
variable {chk : Bool} {eth_dst eth_src : Str} {ve : Bool} {vid : U16} {pcp : Byte} {ihl : Byte} {src dst : Str}
  {tos ttl : Byte} {id frag : U16} {opts : Bytes} {payload : Bytes} {p : Packet}

/-- **C77**: the octets the IPv4 header declares as its contents are the payload exactly if `ip_ihl` says 5 and the packet fits
16 bits (or there is no payload and `ip_ihl` says at least 5); the version is 4 exactly if the upper half of `ip_ihl` is 0
or 4. -/
theorem C77_declared_ipv4 {proto : Byte}
    (h : create_ipv4_packet chk eth_dst eth_src ve vid pcp ihl src dst proto tos ttl id frag opts payload = .ok p) :
    (u8At p.to_vec (ipAt ve) / 16 = 4 ↔ ihl.toNat / 16 = 0 ∨ ihl.toNat / 16 = 4) ∧
      (ipv4Data p.to_vec (ipAt ve) = payload ↔
        (ihl.toNat % 16 = 5 ∧ 20 + payload.length < 65536) ∨ (payload = [] ∧ 5 ≤ ihl.toNat % 16)) := by
  obtain ⟨⟨⟨d, hd⟩, s, hs⟩, ⟨si, his⟩, di, hid⟩ := Addrs4.of h
  have e := Except.ok.inj (h.symm.trans (C41_ipv4 chk _ _ ve vid pcp d s hd hs ⟨ihl, tos, id, ttl, frag, proto, si, di⟩ _ _ his
    hid opts payload))
  have q := ipv4_declares d s (C31_length _ _ hd) (C31_length _ _ hs) ve vid pcp 0x0800#16
    ⟨ihl, tos, id, ttl, frag, proto, si, di⟩ ⟨C32_length _ _ his, C32_length _ _ hid⟩ _ [] payload p.to_vec (by rw [e]; rfl)
  have f := fun c => (frame4 d s (C31_length _ _ hd) (C31_length _ _ hs) ve vid pcp 0x0800#16
    ⟨ihl, tos, id, ttl, frag, proto, si, di⟩ ⟨C32_length _ _ his, C32_length _ _ hid⟩
    (BitVec.ofNat 16 (20 + payload.length)) c [] payload).1
  rw [show seg4 p.to_vec (ipAt ve) = payload by rw [e]; exact f _] at q
  exact q

/-- **C77**, TCP: likewise for the segment; and the octets the TCP header declares as data are the payload exactly if
`tcp_data_offset`, overlaid with the upper half of `tcp_res`, says 5 (or there is no payload and it says at least 5). -/
theorem C77_declared_tcp {tdst tsrc : U16} {seq ack : U32} {off res flags : Byte} {window urg : U16} {ck : Bool}
    (h : create_tcp_packet chk eth_dst eth_src ve vid pcp ihl src dst tos ttl id frag opts tdst tsrc seq ack off res flags
      window urg ck payload = .ok p) :
    (ipv4Data p.to_vec (ipAt ve) = seg4 p.to_vec (ipAt ve) ↔ ihl.toNat % 16 = 5 ∧ 40 + payload.length < 65536) ∧
      (tcpData p.to_vec (ipAt ve + 20) = payload ↔
        (off.toNat % 16 ||| res.toNat / 16) = 5 ∨ (payload = [] ∧ 5 ≤ (off.toNat % 16 ||| res.toNat / 16))) := by
  obtain ⟨⟨⟨d, hd⟩, s, hs⟩, ⟨si, his⟩, di, hid⟩ := (C41_tcp_returns_iff ..).mp ⟨p, h⟩
  have hok : Ip4.Ok (Ip4.withProto ⟨ihl, tos, id, ttl, frag, 0#8, si, di⟩ 6#8) := ⟨C32_length _ _ his, C32_length _ _ hid⟩
  have e := Except.ok.inj (h.symm.trans (C41_tcp chk _ _ ve vid pcp d s hd hs ⟨ihl, tos, id, ttl, frag, 0#8, si, di⟩ _ _ his
    hid opts payload tdst tsrc seq ack off res flags window urg ck))
  have hw : (onWire [Packet.tcp tsrc tdst seq ack off res flags window 0 urg] payload).length = payload.length + 20 := by
    simp [onWire_length, tcp_len]; omega
  have q := ipv4_declares d s (C31_length _ _ hd) (C31_length _ _ hs) ve vid pcp 0x0800#16 _ hok
    (Ip4.ck (Ip4.withProto ⟨ihl, tos, id, ttl, frag, 0#8, si, di⟩ 6#8) (BitVec.ofNat 16 (20 + payload.length + 20)))
    [Packet.tcp tsrc tdst seq ack off res flags window 0 urg] payload p.to_vec (by rw [e, hw]; rfl)
  refine ⟨?_, ?_⟩
  · rw [q.2]
    have : onWire [Packet.tcp tsrc tdst seq ack off res flags window 0 urg] payload ≠ [] := by
      intro h0; rw [h0] at hw; simp at hw
    simp only [Ip4.withProto, this, false_and, or_false, hw]
    omega
  · have hb : p.to_vec = (hdrBytes (l2Hdrs d s ve vid pcp 0x0800#16) ++
        (Ip4.withProto ⟨ihl, tos, id, ttl, frag, 0#8, si, di⟩ 6#8).raw (BitVec.ofNat 16 (20 + payload.length + 20))
          (Ip4.ck (Ip4.withProto ⟨ihl, tos, id, ttl, frag, 0#8, si, di⟩ 6#8) (BitVec.ofNat 16 (20 + payload.length + 20)))) ++
        ((Packet.tcp tsrc tdst seq ack off res flags window 0 urg).data ++ payload) := by
      rw [e, frame_wire, onWire_cons, onWire_nil, List.append_assoc]; rfl
    have hl : (hdrBytes (l2Hdrs d s ve vid pcp 0x0800#16) ++
        (Ip4.withProto ⟨ihl, tos, id, ttl, frag, 0#8, si, di⟩ 6#8).raw (BitVec.ofNat 16 (20 + payload.length + 20))
          (Ip4.ck (Ip4.withProto ⟨ihl, tos, id, ttl, frag, 0#8, si, di⟩ 6#8)
            (BitVec.ofNat 16 (20 + payload.length + 20)))).length = ipAt ve + 20 := by
      rw [List.length_append, Ip4.raw_length _ hok, l2_length d s (C31_length _ _ hd) (C31_length _ _ hs)]
    have h12 : u8At p.to_vec (ipAt ve + 20 + 12) / 16 = (off.toNat % 16 ||| res.toNat / 16) := by
      rw [u8At, hb, getD_append_ge _ _ _ _ hl]
      exact off_octet off res
    rw [tcpData, h12, hb, drop_add_left _ _ _ _ hl]
    generalize (off.toNat % 16 ||| res.toNat / 16) = i
    have ht := tcp_len tsrc tdst seq ack off res flags window 0 urg
    constructor
    · intro h
      have hl := congrArg List.length h
      simp only [List.length_drop, List.length_append, ht] at hl
      by_cases h0 : payload.length = 0
      · exact .inr ⟨List.length_eq_zero_iff.mp h0, by omega⟩
      · left; omega
    · rintro (rfl | ⟨rfl, h⟩)
      · rw [List.drop_left' (by omega)]
      · rw [List.drop_of_length_le]
        simp only [List.length_append, ht, List.length_nil]; omega

/-- A header length of 6 declares four octets of the payload to be options; a data offset of 6 four octets to be TCP options. -/
example :
    let ip := fun ihl => (Sample.get (create_ipv4_packet true Sample.mac1 Sample.mac2 true 10 3 ihl Sample.ip1 Sample.ip2 99 1 64
      0x1234 0 [1, 1, 1, 1] Sample.data)).to_vec
    let tcp := fun off => (Sample.get (create_tcp_packet true Sample.mac1 Sample.mac2 true 10 3 5 Sample.ip1 Sample.ip2 1 64 0x1234
      0 [] 80 1234 7 9 off 0 2 512 0 true Sample.data)).to_vec
    (ipv4Data (ip 5) 18 = Sample.data ∧ ipv4Data (ip 6) 18 = [0x01#8]) ∧
      (u8At (ip 5) 18 / 16 = 4 ∧ u8At (ip 0x25) 18 / 16 = 6) ∧
      (tcpData (tcp 5) 38 = Sample.data ∧ tcpData (tcp 6) 38 = [0x01#8]) := by
  decide +kernel

end

end PacketRs
