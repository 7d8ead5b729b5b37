import Verif.Spec.Host
import Verif.Props.Transport
import Verif.Props.BuildersSum
/-!
# Property C97: which built packets a host takes as what was meant
-/
namespace PacketRs
open Spec Utils

/-! ## Octets of a list -/

theorem u8At_append_lt (a b : Bytes) (i : Nat) (h : i < a.length) : u8At (a ++ b) i = u8At a i := by
  unfold u8At
  rw [List.getD_eq_getElem?_getD, List.getD_eq_getElem?_getD, List.getElem?_append_left h]

theorem u16At_append_lt (a b : Bytes) (i : Nat) (h : i + 1 < a.length) : u16At (a ++ b) i = u16At a i := by
  unfold u16At
  rw [u8At_append_lt _ _ _ (by omega), u8At_append_lt _ _ _ h]

/-! ## Link layer -/

theorem linkInput_frame (d s : Bytes) (hd : d.length = 6) (hs : s.length = 6) (ve : Bool) (vid : U16) (pcp : Byte) (et : U16)
    (het : et ≠ 0x8100#16) (ip : Hdr) (post : List Hdr) (pl : Bytes) :
    linkInput (Packet.mk (l2Hdrs d s ve vid pcp et ++ ip :: post) pl).to_vec = some (et.toNat, ip.data ++ onWire post pl) := by
  have het' : et.toNat ≠ 0x8100 := fun h => het (BitVec.eq_of_toNat_eq h)
  rw [frame_wire]
  generalize ip.data ++ onWire post pl = r
  match d, hd with
  | [d0, d1, d2, d3, d4, d5], _ =>
    match s, hs with
    | [s0, s1, s2, s3, s4, s5], _ =>
      have e := be16_num et
      cases ve with
      | false =>
        have e1 : u16At (hdrBytes (l2Hdrs [d0, d1, d2, d3, d4, d5] [s0, s1, s2, s3, s4, s5] false vid pcp et) ++ r) 12 = et.toNat := by
          simpa [hdrBytes, onWire, l2Hdrs, be16, u16At, u8At] using e
        unfold linkInput
        rw [e1, if_neg (by simp [hdrBytes, onWire, l2Hdrs, be16]), if_pos het']
        simp [hdrBytes, onWire, l2Hdrs, be16]
      | true =>
        have e1 : u16At (hdrBytes (l2Hdrs [d0, d1, d2, d3, d4, d5] [s0, s1, s2, s3, s4, s5] true vid pcp et) ++ r) 12 = 0x8100 := by
          simp [hdrBytes, onWire, l2Hdrs, be16, u16At, u8At]
        have e2 : u16At (hdrBytes (l2Hdrs [d0, d1, d2, d3, d4, d5] [s0, s1, s2, s3, s4, s5] true vid pcp et) ++ r) 16 = et.toNat := by
          simpa [hdrBytes, onWire, l2Hdrs, be16, u16At, u8At] using e
        unfold linkInput
        rw [e1, e2, if_neg (by simp [hdrBytes, onWire, l2Hdrs, be16]), if_neg (by simp),
          if_neg (by simp [hdrBytes, onWire, l2Hdrs, be16])]
        simp [hdrBytes, onWire, l2Hdrs, be16]

/-! ## IPv4 -/

/-- The first octet of a built header reads as version 4 with five words exactly for these two arguments. -/
theorem version_ihl (ihl : Byte) :
    ((0x40#8 ||| ihl).toNat / 16 = 4 ∧ (0x40#8 ||| ihl).toNat % 16 = 5) ↔ ihl = 0x05#8 ∨ ihl = 0x45#8 := by
  revert ihl; decide +kernel

/-- What the network layer needs of a header followed by `seg` to hand all of `seg` on. -/
def Whole4 (a : Ip4) (len c : U16) (seg : Bytes) : Prop :=
  (a.ihl = 0x05#8 ∨ a.ihl = 0x45#8) ∧ len.toNat = 20 + seg.length ∧ a.frag.toNat % 16384 = 0 ∧ Verifies (a.raw len c)

theorem raw_u8 (a : Ip4) (ha : a.Ok) (len c : U16) (seg : Bytes) :
    u8At (a.raw len c ++ seg) 0 = (0x40#8 ||| a.ihl).toNat ∧ u16At (a.raw len c ++ seg) 2 = len.toNat ∧
      u16At (a.raw len c ++ seg) 6 = a.frag.toNat ∧ u8At (a.raw len c ++ seg) 9 = a.proto.toNat ∧
      ((a.raw len c ++ seg).drop 12).take 4 = a.src ∧ ((a.raw len c ++ seg).drop 16).take 4 = a.dst := by
  obtain ⟨ihl, tos, id, ttl, frag, proto, src, dst⟩ := a
  obtain ⟨h1, h2⟩ := ha
  simp only at h1 h2
  match src, h1 with
  | [s0, s1, s2, s3], _ =>
    match dst, h2 with
    | [d0, d1, d2, d3], _ =>
      have e1 := be16_num len
      have e2 := be16_num frag
      refine ⟨?_, ?_, ?_, ?_, ?_, ?_⟩
      · simp [Ip4.raw, ipv4Raw, be16, u8At]
      · simpa [Ip4.raw, ipv4Raw, be16, u16At, u8At] using e1
      · simpa [Ip4.raw, ipv4Raw, be16, u16At, u8At] using e2
      · simp [Ip4.raw, ipv4Raw, be16, u8At]
      · simp [Ip4.raw, ipv4Raw, be16]
      · simp [Ip4.raw, ipv4Raw, be16]

theorem ip4Input_whole (a : Ip4) (ha : a.Ok) (len c : U16) (seg : Bytes) (h : Whole4 a len c seg) :
    ip4Input (a.raw len c ++ seg) = some ⟨false, a.proto.toNat, a.src, a.dst, seg⟩ := by
  obtain ⟨h1, h2, h3, h4⟩ := h
  obtain ⟨r1, r2, r3, r4, r5, r6⟩ := raw_u8 a ha len c seg
  obtain ⟨v1, v2⟩ := (version_ihl a.ihl).mpr h1
  have hl := a.raw_length ha len c
  have hh : ihl (a.raw len c ++ seg) 0 = 20 := by rw [ihl, r1, v2]
  unfold ip4Input
  rw [hh, r1, r2, r3, r4, r5, r6, List.length_append, hl, List.take_left' hl, if_pos ⟨by omega, v1, by omega, by omega, by omega, h4, h3⟩,
    List.take_of_length_le (by rw [List.length_append, hl]; omega), List.drop_left' hl]

theorem whole_of_ip4Input (a : Ip4) (ha : a.Ok) (len c : U16) (seg : Bytes) (g : Datagram)
    (h : ip4Input (a.raw len c ++ seg) = some g) (hg : seg.length ≤ g.data.length) : Whole4 a len c seg := by
  obtain ⟨r1, r2, r3, r4, r5, r6⟩ := raw_u8 a ha len c seg
  have hl := a.raw_length ha len c
  unfold ip4Input at h
  split at h
  next hc =>
    obtain ⟨c1, c2, c3, c4, c5, c6, c7⟩ := hc
    cases h
    simp only [List.length_drop, List.length_take, List.length_append, hl] at hg c1 c5
    rw [r1] at c2
    rw [r2] at c4 c5 hg
    rw [r3] at c7
    have h20 : ihl (a.raw len c ++ seg) 0 = 20 := by omega
    have h5 : (0x40#8 ||| a.ihl).toNat % 16 = 5 := by
      rw [ihl, r1] at h20; omega
    rw [h20, List.take_left' hl] at c6
    exact ⟨(version_ihl _).mp ⟨c2, h5⟩, by omega, c7, c6⟩
  next => cases h

/-! ## IPv6 -/

/-- The flow label leaves version 6 alone. -/
def Flow6 (flow : U32) : Prop :=
  flow.toNat / 2 ^ 28 = 0 ∨ flow.toNat / 2 ^ 28 = 2 ∨ flow.toNat / 2 ^ 28 = 4 ∨ flow.toNat / 2 ^ 28 = 6

instance (flow : U32) : Decidable (Flow6 flow) := inferInstanceAs (Decidable (_ ∨ _))

theorem version6 (tc : Byte) (flow : U32) :
    ((((0x6#32 <<< 28) &&& 0xF0000000#32) ||| (tc.setWidth 32 <<< 20)) ||| flow).toNat / 2 ^ 28 = 6 ↔ Flow6 flow := by
  have h1 : ((0x6#32 <<< 28) &&& 0xF0000000#32).toNat >>> 28 = 6 := by decide
  have h2 : (tc.setWidth 32 <<< 20 : U32).toNat >>> 28 = 0 := by
    rw [BitVec.toNat_shiftLeft, BitVec.toNat_setWidth, Nat.shiftLeft_eq, Nat.shiftRight_eq_div_pow]
    have := tc.isLt
    omega
  have key : ∀ k < 16, ((6 ||| 0) ||| k = 6 ↔ k = 0 ∨ k = 2 ∨ k = 4 ∨ k = 6) := by decide
  rw [BitVec.toNat_or, BitVec.toNat_or, ← Nat.shiftRight_eq_div_pow, Nat.shiftRight_or_distrib, Nat.shiftRight_or_distrib, h1, h2,
    Nat.shiftRight_eq_div_pow]
  exact key _ (by have := flow.isLt; omega)

/-- What the network layer needs of a header followed by `seg` to hand all of `seg` on. -/
def Whole6 (flow : U32) (len : U16) (seg : Bytes) : Prop := Flow6 flow ∧ len.toNat = seg.length

theorem ipv6_u8 (p6 : Ipv6FromStr) (tc : Byte) (flow : U32) (nh hl : Byte) (src dst : Str) (len : U16) (seg : Bytes) :
    (Packet.ipv6 p6 tc flow nh hl src dst len).data.length = 40 ∧
      (u8At ((Packet.ipv6 p6 tc flow nh hl src dst len).data ++ seg) 0 / 16 = 6 ↔ Flow6 flow) ∧
      u16At ((Packet.ipv6 p6 tc flow nh hl src dst len).data ++ seg) 4 = len.toNat ∧
      u8At ((Packet.ipv6 p6 tc flow nh hl src dst len).data ++ seg) 6 = nh.toNat ∧
      (((Packet.ipv6 p6 tc flow nh hl src dst len).data ++ seg).drop 8).take 16 = to_ipv6_bytes p6 src ∧
      (((Packet.ipv6 p6 tc flow nh hl src dst len).data ++ seg).drop 24).take 16 = to_ipv6_bytes p6 dst := by
  have hs := ipv6_len6 p6 src
  have hd := ipv6_len6 p6 dst
  have hf := version6 tc flow
  unfold Packet.ipv6
  simp only [HeaderDef.ofVec]
  generalize to_ipv6_bytes p6 src = s at hs ⊢
  generalize to_ipv6_bytes p6 dst = d at hd ⊢
  generalize (((0x6#32 <<< 28) &&& 0xF0000000#32) ||| (tc.setWidth 32 <<< 20)) ||| flow = w at hf ⊢
  have e1 := be16_num len
  refine ⟨by simp [be32, hs, hd], ?_, ?_, ?_, ?_, ?_⟩
  · rw [← hf]
    simp only [be32, u8At, List.cons_append, List.getD_cons_zero, BitVec.toNat_setWidth, BitVec.toNat_ushiftRight,
      Nat.shiftRight_eq_div_pow]
    have := w.isLt
    omega
  · simpa [be32, be16, u16At, u8At] using e1
  · simp [be32, be16, u8At]
  · rw [show (be32 w ++ be16 len ++ [nh] ++ [hl] ++ s ++ d ++ seg).drop 8 = s ++ (d ++ seg) by simp [be32, be16], List.take_left' hs]
  · rw [show (be32 w ++ be16 len ++ [nh] ++ [hl] ++ s ++ d ++ seg) = (be32 w ++ be16 len ++ [nh] ++ [hl] ++ s) ++ (d ++ seg) by simp,
      List.drop_left' (by simp [be32, be16, hs]), List.take_left' hd]

theorem ip6Input_whole (p6 : Ipv6FromStr) (tc : Byte) (flow : U32) (nh hl : Byte) (src dst : Str) (len : U16) (seg : Bytes)
    (h : Whole6 flow len seg) :
    ip6Input ((Packet.ipv6 p6 tc flow nh hl src dst len).data ++ seg) =
      some ⟨true, nh.toNat, to_ipv6_bytes p6 src, to_ipv6_bytes p6 dst, seg⟩ := by
  obtain ⟨r0, r1, r2, r3, r4, r5⟩ := ipv6_u8 p6 tc flow nh hl src dst len seg
  unfold ip6Input
  rw [r2, r3, r4, r5, if_pos ⟨by rw [List.length_append]; omega, r1.mpr h.1, by rw [List.length_append]; have := h.2; omega⟩,
    List.drop_left' r0, List.take_of_length_le (by have := h.2; omega)]

theorem whole_of_ip6Input (p6 : Ipv6FromStr) (tc : Byte) (flow : U32) (nh hl : Byte) (src dst : Str) (len : U16) (seg : Bytes)
    (g : Datagram) (h : ip6Input ((Packet.ipv6 p6 tc flow nh hl src dst len).data ++ seg) = some g)
    (hg : seg.length ≤ g.data.length) : Whole6 flow len seg := by
  obtain ⟨r0, r1, r2, r3, r4, r5⟩ := ipv6_u8 p6 tc flow nh hl src dst len seg
  unfold ip6Input at h
  split at h
  next hc =>
    obtain ⟨c1, c2, c3⟩ := hc
    cases h
    simp only [List.length_take, List.length_drop, List.length_append, r0, r2] at hg c3
    exact ⟨r1.mp c2, by omega⟩
  next => cases h

/-! ## Frames -/

theorem ipInput_frame4 (d s : Bytes) (hd : d.length = 6) (hs : s.length = 6) (ve : Bool) (vid : U16) (pcp : Byte) (ip : Hdr)
    (post : List Hdr) (pl : Bytes) :
    ipInput (Packet.mk (l2Hdrs d s ve vid pcp 0x0800#16 ++ ip :: post) pl).to_vec = ip4Input (ip.data ++ onWire post pl) := by
  unfold ipInput
  rw [linkInput_frame d s hd hs ve vid pcp _ (by decide)]
  rfl

theorem ipInput_frame6 (d s : Bytes) (hd : d.length = 6) (hs : s.length = 6) (ve : Bool) (vid : U16) (pcp : Byte) (ip : Hdr)
    (post : List Hdr) (pl : Bytes) :
    ipInput (Packet.mk (l2Hdrs d s ve vid pcp 0x86DD#16 ++ ip :: post) pl).to_vec = ip6Input (ip.data ++ onWire post pl) := by
  unfold ipInput
  rw [linkInput_frame d s hd hs ve vid pcp _ (by decide)]
  rfl

/-- A host handing on at least as many octets as `seg` hands on `seg`: then what it makes of the frame is what it makes of
`seg`. -/
theorem host4 {β : Type} (k : Datagram → Option β) (a : Ip4) (ha : a.Ok) (len c : U16) (seg : Bytes) (m : β)
    (hk : ∀ g, k g = some m → seg.length ≤ g.data.length) :
    (ip4Input (a.raw len c ++ seg)).bind k = some m ↔
      Whole4 a len c seg ∧ k ⟨false, a.proto.toNat, a.src, a.dst, seg⟩ = some m := by
  constructor
  · intro h
    obtain ⟨g, h1, h2⟩ := Option.bind_eq_some_iff.mp h
    have hw := whole_of_ip4Input a ha len c seg g h1 (hk g h2)
    rw [ip4Input_whole a ha len c seg hw] at h1
    cases h1
    exact ⟨hw, h2⟩
  · rintro ⟨hw, h2⟩
    rw [ip4Input_whole a ha len c seg hw]
    exact h2

theorem host6 {β : Type} (k : Datagram → Option β) (p6 : Ipv6FromStr) (tc : Byte) (flow : U32) (nh hl : Byte) (src dst : Str)
    (len : U16) (seg : Bytes) (m : β) (hk : ∀ g, k g = some m → seg.length ≤ g.data.length) :
    (ip6Input ((Packet.ipv6 p6 tc flow nh hl src dst len).data ++ seg)).bind k = some m ↔
      Whole6 flow len seg ∧ k ⟨true, nh.toNat, to_ipv6_bytes p6 src, to_ipv6_bytes p6 dst, seg⟩ = some m := by
  constructor
  · intro h
    obtain ⟨g, h1, h2⟩ := Option.bind_eq_some_iff.mp h
    have hw := whole_of_ip6Input p6 tc flow nh hl src dst len seg g h1 (hk g h2)
    rw [ip6Input_whole p6 tc flow nh hl src dst len seg hw] at h1
    cases h1
    exact ⟨hw, h2⟩
  · rintro ⟨hw, h2⟩
    rw [ip6Input_whole p6 tc flow nh hl src dst len seg hw]
    exact h2

/-! ## Transport -/

theorem udp_needs (g : Datagram) (m : UdpMsg) (h : udpInput g = some m) : 8 + m.data.length ≤ g.data.length := by
  unfold udpInput at h
  simp only at h
  split at h
  next hc =>
    obtain ⟨-, c2, c3, -⟩ := hc
    cases h
    simp only [List.length_drop, List.length_take]
    omega
  next => cases h

theorem tcp_needs (g : Datagram) (m : TcpSeg) (h : tcpInput g = some m) : 20 + m.data.length ≤ g.data.length := by
  unfold tcpInput at h
  simp only at h
  split at h
  next hc =>
    obtain ⟨-, c2, c3, -⟩ := hc
    cases h
    simp only [List.length_drop]
    omega
  next => cases h

theorem icmp_needs (g : Datagram) (m : IcmpMsg) (h : icmpInput g = some m) : 4 + m.data.length ≤ g.data.length := by
  unfold icmpInput at h
  split at h
  next hc =>
    cases h
    have := hc.1
    simp only [List.length_drop]
    omega
  next => cases h

/-- The sum of the words of an IPv4 header without its checksum. -/
def ipSum (ihl tos : Byte) (len : Nat) (id frag : U16) (ttl proto : Byte) (s d : Bytes) : Nat :=
  256 * (0x40#8 ||| ihl).toNat + tos.toNat + len + id.toNat + frag.toNat + 256 * ttl.toNat + proto.toNat +
    (words s).sum + (words d).sum

theorem plainSum_ipSum (a : Ip4) (ha : a.Ok) (len c : U16) :
    plainSum (a.raw len c) = ipSum a.ihl a.tos len.toNat a.id a.frag a.ttl a.proto a.src a.dst := by
  unfold plainSum
  rw [Ip4.raw_putChecksum, ipSum]
  have e : a.raw len 0 = ([0x40#8 ||| a.ihl, a.tos] ++ be16 len ++ be16 a.id ++ be16 a.frag ++ [a.ttl, a.proto] ++ be16 0) ++
      (a.src ++ a.dst) := by simp [Ip4.raw, ipv4Raw]
  rw [e, words_append _ (a.src ++ a.dst) (by simp), words_append a.src _ (by rw [ha.1])]
  have e1 := be16_num len
  have e2 := be16_num a.id
  have e3 := be16_num a.frag
  simp only [be16, List.cons_append, List.nil_append, words, List.sum_append, List.sum_cons] at *
  simp only [show ((0 : U16) >>> 8).setWidth 8 = 0#8 from rfl, show ((0 : U16)).setWidth 8 = 0#8 from rfl]
  simp only [BitVec.toNat_ofNat, Nat.zero_mod]
  omega

/-- What a host requires of the arguments for the IPv4 header to deliver `seg` octets behind it: no options announced, not a
fragment, not too long, and a sum that `ipv4_checksum` folds right. -/
def Host4 (ihl tos : Byte) (seg : Nat) (id frag : U16) (ttl proto : Byte) (s d : Bytes) : Prop :=
  (ihl = 0x05#8 ∨ ihl = 0x45#8) ∧ 20 + seg < 65536 ∧ frag.toNat % 16384 = 0 ∧
    ipSum ihl tos (20 + seg) id frag ttl proto s d / 65536 + ipSum ihl tos (20 + seg) id frag ttl proto s d % 65536 < 65536

instance (ihl tos : Byte) (seg : Nat) (id frag : U16) (ttl proto : Byte) (s d : Bytes) :
    Decidable (Host4 ihl tos seg id frag ttl proto s d) := inferInstanceAs (Decidable (_ ∧ _))

theorem whole_hdr (a : Ip4) (ha : a.Ok) (n : Nat) (seg : Bytes) (hn : n = 20 + seg.length) :
    Whole4 a (BitVec.ofNat 16 n) (a.ck (BitVec.ofNat 16 n)) seg ↔
      Host4 a.ihl a.tos seg.length a.id a.frag a.ttl a.proto a.src a.dst := by
  subst hn
  unfold Whole4 Host4
  rw [a.verifies_hdr ha, plainSum_ipSum a ha, BitVec.toNat_ofNat]
  by_cases hb : 20 + seg.length < 65536
  · rw [show (20 + seg.length) % 2 ^ 16 = 20 + seg.length from Nat.mod_eq_of_lt (by omega)]
    simp [hb]
  · have : (20 + seg.length) % 2 ^ 16 ≠ 20 + seg.length := by omega
    simp [hb]

/-- A UDP header with data, as UDP reads it. -/
theorem udp_fields (sp dp n ck : U16) (pl : Bytes) :
    u16At (be16 sp ++ be16 dp ++ be16 n ++ be16 ck ++ pl) 0 = sp.toNat ∧
      u16At (be16 sp ++ be16 dp ++ be16 n ++ be16 ck ++ pl) 2 = dp.toNat ∧
      u16At (be16 sp ++ be16 dp ++ be16 n ++ be16 ck ++ pl) 4 = n.toNat ∧
      u16At (be16 sp ++ be16 dp ++ be16 n ++ be16 ck ++ pl) 6 = ck.toNat := by
  have e1 := be16_num sp
  have e2 := be16_num dp
  have e3 := be16_num n
  have e4 := be16_num ck
  refine ⟨?_, ?_, ?_, ?_⟩
  · simpa [be16, u16At, u8At] using e1
  · simpa [be16, u16At, u8At] using e2
  · simpa [be16, u16At, u8At] using e3
  · simpa [be16, u16At, u8At] using e4

theorem udpInput_eq (v6 : Bool) (s d : Bytes) (sp dp ck : U16) (pl : Bytes) (hb : 8 + pl.length < 65536) :
    udpInput ⟨v6, 17, s, d, be16 sp ++ be16 dp ++ be16 (BitVec.ofNat 16 (8 + pl.length)) ++ be16 ck ++ pl⟩ =
      if (ck.toNat = 0 ∧ v6 = false) ∨ (ck.toNat ≠ 0 ∧ Verifies ((Datagram.mk v6 17 s d []).pseudo (8 + pl.length) ++
        (be16 sp ++ be16 dp ++ be16 (BitVec.ofNat 16 (8 + pl.length)) ++ be16 ck ++ pl)))
      then some ⟨s, d, sp.toNat, dp.toNat, pl⟩ else none := by
  obtain ⟨e0, e2, e4, e6⟩ := udp_fields sp dp (BitVec.ofNat 16 (8 + pl.length)) ck pl
  have hl : (be16 sp ++ be16 dp ++ be16 (BitVec.ofNat 16 (8 + pl.length)) ++ be16 ck ++ pl).length = 8 + pl.length := by simp; omega
  rw [BitVec.toNat_ofNat, Nat.mod_eq_of_lt (by omega)] at e4
  unfold udpInput
  simp only [e0, e2, e4, e6, hl]
  rw [List.take_of_length_le (by omega),
    show ((be16 sp ++ be16 dp ++ be16 (BitVec.ofNat 16 (8 + pl.length)) ++ be16 ck ++ pl)).drop 8 = pl from
      List.drop_left' (by simp)]
  simp only [Datagram.pseudo, Nat.le_add_right, Nat.le_refl, true_and]

theorem udpInput_built (v6 : Bool) (s d : Bytes) (sp dp ck : U16) (pl : Bytes) (hb : 8 + pl.length < 65536) :
    udpInput ⟨v6, 17, s, d, be16 sp ++ be16 dp ++ be16 (BitVec.ofNat 16 (8 + pl.length)) ++ be16 ck ++ pl⟩ =
        some ⟨s, d, sp.toNat, dp.toNat, pl⟩ ↔
      (ck.toNat = 0 ∧ v6 = false) ∨ (ck.toNat ≠ 0 ∧ Verifies ((Datagram.mk v6 17 s d []).pseudo (8 + pl.length) ++
        (be16 sp ++ be16 dp ++ be16 (BitVec.ofNat 16 (8 + pl.length)) ++ be16 ck ++ pl))) := by
  rw [udpInput_eq _ _ _ _ _ _ _ hb]
  simp only [Option.ite_none_right_eq_some, and_true]

theorem udp_data (sp dp n : U16) : (Packet.udp sp dp n).data = be16 sp ++ be16 dp ++ be16 n ++ be16 0#16 := rfl

/-- A TCP header with data, as TCP reads it. -/
theorem tcp_fields (sp dp : U16) (sq ak : U32) (off res fl : Byte) (w c u : U16) (pl : Bytes) :
    let b := (Packet.tcp sp dp sq ak off res fl w c u).data ++ pl
    b.length = 20 + pl.length ∧ b.drop 20 = pl ∧ u16At b 0 = sp.toNat ∧ u16At b 2 = dp.toNat ∧
      65536 * u16At b 4 + u16At b 6 = sq.toNat ∧ 65536 * u16At b 8 + u16At b 10 = ak.toNat ∧
      u8At b 12 = ((off <<< 4) ||| res).toNat ∧ u8At b 13 = fl.toNat ∧ u16At b 14 = w.toNat ∧ u16At b 18 = u.toNat := by
  have e1 := be16_num sp
  have e2 := be16_num dp
  have e3 := beNat_be32 sq
  have e4 := beNat_be32 ak
  have e5 := be16_num w
  have e6 := be16_num u
  have e7 : res &&& 0xff#8 = res := (congrArg (res &&& ·) (show 0xff#8 = BitVec.allOnes 8 from rfl)).trans (BitVec.and_allOnes)
  simp only [be32, beNat] at *
  simp only [Packet.tcp, e7]
  clear e7
  refine ⟨?_, ?_, ?_, ?_, ?_, ?_, ?_, ?_, ?_, ?_⟩
  · simp [HeaderDef.ofVec]; omega
  · exact List.drop_left' rfl
  all_goals simp [HeaderDef.ofVec, be16, be32, u16At, u8At] at *
  all_goals first | assumption | omega

/-- The data offset on the wire: `data_offset` in its low four bits, overlaid by the high ones of `res`. -/
def DataOffset5 (off res : Byte) : Prop := (off.toNat % 16 ||| res.toNat / 16) = 5

instance (off res : Byte) : Decidable (DataOffset5 off res) := inferInstanceAs (Decidable (_ = _))

theorem dataOffset_iff (off res : Byte) : ((off <<< 4) ||| res).toNat / 16 = 5 ↔ DataOffset5 off res := by
  have h := off.isLt
  have e : ((off <<< 4) ||| res).toNat / 16 = (off.toNat % 16 ||| res.toNat / 16) := by
    rw [BitVec.toNat_or, ← Nat.shiftRight_eq_div_pow _ 4, Nat.shiftRight_or_distrib, Nat.shiftRight_eq_div_pow,
      Nat.shiftRight_eq_div_pow, BitVec.toNat_shiftLeft, Nat.shiftLeft_eq]
    congr 1
    omega
  rw [DataOffset5, e]

theorem tcpInput_built (v6 : Bool) (s d : Bytes) (sp dp : U16) (sq ak : U32) (off res fl : Byte) (w u : U16) (pl : Bytes) :
    tcpInput ⟨v6, 6, s, d, (Packet.tcp sp dp sq ak off res fl w 0 u).data ++ pl⟩ =
        some ⟨s, d, sp.toNat, dp.toNat, sq.toNat, ak.toNat, fl.toNat, w.toNat, u.toNat, pl⟩ ↔
      DataOffset5 off res ∧ Verifies ((Datagram.mk v6 6 s d []).pseudo (20 + pl.length) ++
        ((Packet.tcp sp dp sq ak off res fl w 0 u).data ++ pl)) := by
  obtain ⟨e0, e1, e2, e3, e4, e5, e6, e7, e8, e9⟩ := tcp_fields sp dp sq ak off res fl w 0 u pl
  rw [← dataOffset_iff]
  unfold tcpInput
  simp only [e0, e2, e3, e4, e5, e6, e7, e8, e9, true_and, Option.ite_none_right_eq_some, Option.some.injEq,
    TcpSeg.mk.injEq, Datagram.pseudo]
  constructor
  · rintro ⟨⟨h1, h2, h3⟩, h4⟩
    have := congrArg List.length h4
    rw [List.length_drop, e0] at this
    exact ⟨by omega, h3⟩
  · rintro ⟨h1, h2⟩
    rw [h1]
    exact ⟨⟨by omega, by omega, h2⟩, e1⟩

theorem icmpInput_built (v6 : Bool) (pr : Nat) (s d : Bytes) (ty code : Byte) (pl : Bytes) :
    icmpInput ⟨v6, pr, s, d, (Packet.icmp ty code).data ++ pl⟩ = some ⟨s, d, ty.toNat, code.toNat, pl⟩ ↔
      (v6 = true ∧ pr = 58 ∧ Verifies ((Datagram.mk v6 pr s d []).pseudo (4 + pl.length) ++
        ((Packet.icmp ty code).data ++ pl))) ∨ (v6 = false ∧ pr = 1 ∧ Verifies ((Packet.icmp ty code).data ++ pl)) := by
  have e0 : ((Packet.icmp ty code).data ++ pl).length = 4 + pl.length := by
    rw [List.length_append]; rfl
  have e1 : ((Packet.icmp ty code).data ++ pl).drop 4 = pl := List.drop_left' rfl
  have e2 : u8At ((Packet.icmp ty code).data ++ pl) 0 = ty.toNat := rfl
  have e3 : u8At ((Packet.icmp ty code).data ++ pl) 1 = code.toNat := rfl
  unfold icmpInput
  simp only [e0, e1, e2, e3, Datagram.pseudo, Nat.le_add_right, true_and, Option.ite_none_right_eq_some, and_true]

section
variable {chk : Bool} {p6 : Ipv6FromStr} {eth_dst eth_src : Str} {ve : Bool} {vid : U16} {pcp : Byte}
  {ihl : Byte} {src dst : Str} {tos ttl : Byte} {id frag : U16} {opts : Bytes} {tc : Byte} {flow : U32} {hl : Byte}
  {payload : Bytes} {p : Packet}

/-- **C97, UDP.** A host takes from a frame of `create_udp_packet` the message that was given to the builder iff `ip_ihl` is 5 (or
0x45), the packet is not marked as a fragment, its length fits, and the sum of its IPv4 header is folded right. -/
theorem C97_udp4 {udst usrc : U16} {ck : Bool} {s d : Bytes} (hs : to_ipv4_bytes src = .ok s) (hd : to_ipv4_bytes dst = .ok d)
    (h : create_udp_packet chk eth_dst eth_src ve vid pcp ihl src dst tos ttl id frag opts udst usrc ck payload = .ok p) :
    hostUdp p.to_vec = some ⟨s, d, usrc.toNat, udst.toNat, payload⟩ ↔
      Host4 ihl tos (8 + payload.length) id frag ttl 17#8 s d := by
  obtain ⟨⟨⟨m, hm⟩, n, hn⟩, -⟩ := (C41_udp_returns_iff ..).mp ⟨p, h⟩
  have e := C41_udp chk _ _ ve vid pcp m n hm hn ⟨ihl, tos, id, ttl, frag, 0#8, s, d⟩ _ _ hs hd opts payload udst usrc ck
  obtain rfl := Except.ok.inj (h.symm.trans e)
  have ha : Ip4.Ok (Ip4.withProto ⟨ihl, tos, id, ttl, frag, 0#8, s, d⟩ 17#8) := ⟨C32_length _ _ hs, C32_length _ _ hd⟩
  rw [hostUdp, ipInput_frame4 _ _ (C31_length _ _ hm) (C31_length _ _ hn)]
  have hseg : (onWire [Packet.udp usrc udst (BitVec.ofNat 16 (8 + payload.length))] payload).length = 8 + payload.length := by
    simp [onWire, Packet.udp, HeaderDef.ofVec]; omega
  rw [Ip4.hdr, host4 udpInput _ ha _ _ _ _ (fun g hg => by rw [hseg]; exact udp_needs g _ hg),
    whole_hdr _ ha _ _ (by rw [hseg]; omega), hseg]
  refine and_iff_left_of_imp fun hw => ?_
  have hb := hw.2.1
  rw [show onWire [Packet.udp usrc udst (BitVec.ofNat 16 (8 + payload.length))] payload =
    be16 usrc ++ be16 udst ++ be16 (BitVec.ofNat 16 (8 + payload.length)) ++ be16 0#16 ++ payload by
      simp [onWire, udp_data]]
  exact (udpInput_built false s d usrc udst 0#16 payload (by omega)).mpr (.inl ⟨rfl, rfl⟩)

example :
    hostUdp (Sample.get Sample.udp).to_vec = some ⟨[10, 0, 0, 1], [192, 168, 0, 2], 1234, 53, Sample.data⟩ ∧
      Host4 5 1 13 0x1234 0 64 17#8 [10, 0, 0, 1] [192, 168, 0, 2] ∧
      hostUdp (Sample.get (create_udp_packet true Sample.mac1 Sample.mac2 true 10 3 6 Sample.ip1 Sample.ip2 1 64 0x1234 0 [] 53
        1234 true Sample.data)).to_vec = none ∧ ¬ Host4 6 1 13 0x1234 0 64 17#8 [10, 0, 0, 1] [192, 168, 0, 2] := by
  decide +kernel

/-- **C97, TCP.** As for UDP, and the data offset that comes out of `data_offset` and `res` is 5, and the zero checksum that the
builder leaves happens to be right. -/
theorem C97_tcp4 {tdst tsrc : U16} {seq ack : U32} {off res flags : Byte} {window urg : U16} {ck : Bool} {s d : Bytes}
    (hs : to_ipv4_bytes src = .ok s) (hd : to_ipv4_bytes dst = .ok d)
    (h : create_tcp_packet chk eth_dst eth_src ve vid pcp ihl src dst tos ttl id frag opts tdst tsrc seq ack off res flags
      window urg ck payload = .ok p) :
    hostTcp p.to_vec = some ⟨s, d, tsrc.toNat, tdst.toNat, seq.toNat, ack.toNat, flags.toNat, window.toNat, urg.toNat, payload⟩ ↔
      Host4 ihl tos (20 + payload.length) id frag ttl 6#8 s d ∧ DataOffset5 off res ∧ Tcp4Ok p.to_vec (ipAt ve) := by
  obtain ⟨⟨⟨m, hm⟩, n, hn⟩, -⟩ := (C41_tcp_returns_iff ..).mp ⟨p, h⟩
  have e := C41_tcp chk _ _ ve vid pcp m n hm hn ⟨ihl, tos, id, ttl, frag, 0#8, s, d⟩ _ _ hs hd opts payload tdst tsrc seq ack
    off res flags window urg ck
  obtain rfl := Except.ok.inj (h.symm.trans e)
  have ha : Ip4.Ok (Ip4.withProto ⟨ihl, tos, id, ttl, frag, 0#8, s, d⟩ 6#8) := ⟨C32_length _ _ hs, C32_length _ _ hd⟩
  have hseg : (onWire [Packet.tcp tsrc tdst seq ack off res flags window 0 urg] payload).length = 20 + payload.length := by
    simp [onWire, Packet.tcp, HeaderDef.ofVec]; omega
  obtain ⟨f1, f2⟩ := frame4 m n (C31_length _ _ hm) (C31_length _ _ hn) ve vid pcp 0x0800#16 _ ha
    (BitVec.ofNat 16 (20 + payload.length + 20)) ((Ip4.withProto ⟨ihl, tos, id, ttl, frag, 0#8, s, d⟩ 6#8).ck
      (BitVec.ofNat 16 (20 + payload.length + 20))) [Packet.tcp tsrc tdst seq ack off res flags window 0 urg] payload
  rw [Tcp4Ok, Ip4.hdr, f1, f2, hseg]
  rw [hostTcp, ipInput_frame4 _ _ (C31_length _ _ hm) (C31_length _ _ hn),
    host4 tcpInput _ ha _ _ _ _ (fun g hg => by rw [hseg]; exact tcp_needs g _ hg),
    whole_hdr _ ha _ _ (by rw [hseg]; omega), hseg]
  refine and_congr_right fun _ => ?_
  rw [onWire_cons, onWire_nil]
  exact tcpInput_built false s d tsrc tdst seq ack off res flags window urg payload

example :
    let f := fun u : U16 => (Sample.get (create_tcp_packet true Sample.mac1 Sample.mac2 true 10 3 5 Sample.ip1 Sample.ip2 1 64 0x1234
      0 [] 80 1234 7 9 5 0 2 512 u true Sample.data)).to_vec
    hostTcp (f 16227) = some ⟨[10, 0, 0, 1], [192, 168, 0, 2], 1234, 80, 7, 9, 2, 512, 16227, Sample.data⟩ ∧
      hostTcp (f 0) = none := by
  decide +kernel

/-- **C97, ICMP.** As for TCP; there is no data offset.  What `icmp_data` holds is not in the message. -/
theorem C97_icmp4 {ty code : Byte} {idata : Bytes} {ck : Bool} {s d : Bytes}
    (hs : to_ipv4_bytes src = .ok s) (hd : to_ipv4_bytes dst = .ok d)
    (h : create_icmp_packet chk eth_dst eth_src ve vid pcp ihl src dst tos ttl id frag opts ty code idata ck payload = .ok p) :
    hostIcmp p.to_vec = some ⟨s, d, ty.toNat, code.toNat, payload⟩ ↔
      Host4 ihl tos (4 + payload.length) id frag ttl 1#8 s d ∧ Icmp4Ok p.to_vec (ipAt ve) := by
  obtain ⟨⟨⟨m, hm⟩, n, hn⟩, -⟩ := (C41_icmp_returns_iff ..).mp ⟨p, h⟩
  have e := C41_icmp chk _ _ ve vid pcp m n hm hn ⟨ihl, tos, id, ttl, frag, 0#8, s, d⟩ _ _ hs hd opts payload ty code idata ck
  obtain rfl := Except.ok.inj (h.symm.trans e)
  have ha : Ip4.Ok (Ip4.withProto ⟨ihl, tos, id, ttl, frag, 0#8, s, d⟩ 1#8) := ⟨C32_length _ _ hs, C32_length _ _ hd⟩
  have hseg : (onWire [Packet.icmp ty code] payload).length = 4 + payload.length := by
    simp [onWire, Packet.icmp, HeaderDef.ofVec]; omega
  obtain ⟨f1, -⟩ := frame4 m n (C31_length _ _ hm) (C31_length _ _ hn) ve vid pcp 0x0800#16 _ ha
    (BitVec.ofNat 16 (20 + payload.length + 4)) ((Ip4.withProto ⟨ihl, tos, id, ttl, frag, 0#8, s, d⟩ 1#8).ck
      (BitVec.ofNat 16 (20 + payload.length + 4))) [Packet.icmp ty code] payload
  rw [Icmp4Ok, Ip4.hdr, f1]
  rw [hostIcmp, ipInput_frame4 _ _ (C31_length _ _ hm) (C31_length _ _ hn),
    host4 icmpInput _ ha _ _ _ _ (fun g hg => by rw [hseg]; exact icmp_needs g _ hg),
    whole_hdr _ ha _ _ (by rw [hseg]; omega), hseg]
  refine and_congr_right fun _ => ?_
  rw [onWire_cons, onWire_nil]
  refine (icmpInput_built false 1 s d ty code payload).trans ?_
  simp

example :
    let f := fun ty code : Byte => (Sample.get (create_icmp_packet true Sample.mac1 Sample.mac2 false 10 3 5 Sample.ip1 Sample.ip2 1 64
      0x1234 0 [] ty code [1, 2] true Sample.data)).to_vec
    hostIcmp (f 0x61 0x62) = some ⟨[10, 0, 0, 1], [192, 168, 0, 2], 0x61, 0x62, Sample.data⟩ ∧ hostIcmp (f 8 0) = none := by
  decide +kernel

/-- **C97, VXLAN.** A host never takes from a frame of `create_vxlan_packet` the UDP message with the VXLAN header and the inner
frame: the checksum of the IPv4 header is that of a header with another length. -/
theorem C97_vxlan4 {udst usrc : U16} {ck : Bool} {vni : U32} {inner : Packet} {s d : Bytes}
    (hs : to_ipv4_bytes src = .ok s) (hd : to_ipv4_bytes dst = .ok d)
    (h : create_vxlan_packet chk eth_dst eth_src ve vid pcp ihl src dst tos ttl id frag opts udst usrc ck vni inner = .ok p) :
    hostUdp p.to_vec ≠ some ⟨s, d, usrc.toNat, udst.toNat, (Packet.vxlan vni).data ++ inner.to_vec⟩ := by
  obtain ⟨⟨⟨m, hm⟩, n, hn⟩, -⟩ := (C41_vxlan_returns_iff ..).mp ⟨p, h⟩
  have e := C41_vxlan chk _ _ ve vid pcp m n hm hn ⟨ihl, tos, id, ttl, frag, 0#8, s, d⟩ _ _ hs hd opts udst usrc ck vni inner
  obtain rfl := Except.ok.inj (h.symm.trans e)
  have ha : Ip4.Ok (Ip4.withProto ⟨ihl, tos, id, ttl, frag, 0#8, s, d⟩ 17#8) := ⟨C32_length _ _ hs, C32_length _ _ hd⟩
  rw [hostUdp, ipInput_frame4 _ _ (C31_length _ _ hm) (C31_length _ _ hn)]
  intro hh
  have hw := ((host4 udpInput _ ha _ _ _ _ (fun g hg => by
    have := udp_needs g _ hg
    simp only [onWire_cons, onWire_nil, List.length_append, udp_data, be16_length] at this ⊢
    omega)).mp hh).1
  exact (Ip4.stale _ ha (20 + inner.to_vec.length)).2 hw.2.2.2

example : Sample.vxlan = .ok (Sample.get Sample.vxlan) ∧ hostUdp (Sample.get Sample.vxlan).to_vec = none := by decide +kernel

/-- **C97, UDP over IPv6.** The flow label argument leaves the version alone, the length fits, and the fixed checksum 0xffff happens
to be right. -/
theorem C97_udp6 {udst usrc : U16} {ck : Bool}
    (h : create_udpv6_packet chk p6 eth_dst eth_src ve vid pcp tc flow hl src dst udst usrc ck payload = .ok p) :
    hostUdp p.to_vec = some ⟨to_ipv6_bytes p6 src, to_ipv6_bytes p6 dst, usrc.toNat, udst.toNat, payload⟩ ↔
      Flow6 flow ∧ 8 + payload.length < 65536 ∧ Udp6Ok p.to_vec (ipAt ve) := by
  obtain ⟨⟨m, hm⟩, n, hn⟩ := (C41_udpv6_returns_iff ..).mp ⟨p, h⟩
  have e := C41_udpv6 chk p6 _ _ ve vid pcp m n hm hn src dst payload tc flow hl udst usrc ck
  obtain rfl := Except.ok.inj (h.symm.trans e)
  obtain ⟨f1, f2⟩ := frame6 m n (C31_length _ _ hm) (C31_length _ _ hn) ve vid pcp 0x86DD#16 p6 tc flow 17#8 hl src dst
    (BitVec.ofNat 16 (payload.length + 8))
    [⟨UDP, be16 usrc ++ be16 udst ++ be16 (BitVec.ofNat 16 (8 + payload.length)) ++ be16 0xffff#16⟩] payload
  have hseg : (onWire [⟨UDP, be16 usrc ++ be16 udst ++ be16 (BitVec.ofNat 16 (8 + payload.length)) ++ be16 0xffff#16⟩]
      payload).length = 8 + payload.length := by
    simp [onWire]; omega
  rw [Udp6Ok, f1, f2, hseg]
  rw [hostUdp, ipInput_frame6 _ _ (C31_length _ _ hm) (C31_length _ _ hn),
    host6 udpInput _ _ _ _ _ _ _ _ _ _ (fun g hg => by rw [hseg]; exact udp_needs g _ hg), Whole6, hseg, and_assoc]
  refine and_congr_right fun _ => ?_
  rw [BitVec.toNat_ofNat, show (payload.length + 8) % 2 ^ 16 = 8 + payload.length ↔ 8 + payload.length < 65536 by omega]
  refine and_congr_right fun hb => ?_
  rw [onWire_cons, onWire_nil, (udp_fields usrc udst (BitVec.ofNat 16 (8 + payload.length)) 0xffff#16 payload).2.2.2]
  refine (udpInput_built true _ _ usrc udst 0xffff#16 payload hb).trans ?_
  simp [Datagram.pseudo]

example :
    let f := fun (fl : U32) (s : U16) => (Sample.get (create_udpv6_packet true Sample.p6 Sample.mac1 Sample.mac2 true 10 3 7 fl 64
      Sample.ip6a Sample.ip6b 53 s true Sample.data)).to_vec
    hostUdp (f 0x12345 13128) = some ⟨to_ipv6_bytes Sample.p6 Sample.ip6a, to_ipv6_bytes Sample.p6 Sample.ip6b, 13128, 53,
        Sample.data⟩ ∧ hostUdp (f 0x12345 1234) = none ∧ hostUdp (f 0x10012345 13128) = none := by
  decide +kernel

/-- **C97, TCP over IPv6.** -/
theorem C97_tcp6 {tdst tsrc : U16} {seq ack : U32} {off res flags : Byte} {window urg : U16}
    (h : create_tcpv6_packet chk p6 eth_dst eth_src ve vid pcp tc flow hl src dst tdst tsrc seq ack off res flags window urg
      payload = .ok p) :
    hostTcp p.to_vec = some ⟨to_ipv6_bytes p6 src, to_ipv6_bytes p6 dst, tsrc.toNat, tdst.toNat, seq.toNat, ack.toNat,
        flags.toNat, window.toNat, urg.toNat, payload⟩ ↔
      Flow6 flow ∧ 20 + payload.length < 65536 ∧ DataOffset5 off res ∧ Tcp6Ok p.to_vec (ipAt ve) := by
  obtain ⟨⟨m, hm⟩, n, hn⟩ := (C41_tcpv6_returns_iff ..).mp ⟨p, h⟩
  have e := C41_tcpv6 chk p6 _ _ ve vid pcp m n hm hn src dst payload tc flow hl tdst tsrc seq ack off res flags window urg
  obtain rfl := Except.ok.inj (h.symm.trans e)
  obtain ⟨f1, f2⟩ := frame6 m n (C31_length _ _ hm) (C31_length _ _ hn) ve vid pcp 0x86DD#16 p6 tc flow 6#8 hl src dst
    (BitVec.ofNat 16 (payload.length + 20)) [Packet.tcp tsrc tdst seq ack off res flags window 0 urg] payload
  have hseg : (onWire [Packet.tcp tsrc tdst seq ack off res flags window 0 urg] payload).length = 20 + payload.length := by
    simp [onWire, Packet.tcp, HeaderDef.ofVec]; omega
  rw [Tcp6Ok, f1, f2, hseg]
  rw [hostTcp, ipInput_frame6 _ _ (C31_length _ _ hm) (C31_length _ _ hn),
    host6 tcpInput _ _ _ _ _ _ _ _ _ _ (fun g hg => by rw [hseg]; exact tcp_needs g _ hg), Whole6, hseg, and_assoc]
  refine and_congr_right fun _ => ?_
  rw [BitVec.toNat_ofNat, show (payload.length + 20) % 2 ^ 16 = 20 + payload.length ↔ 20 + payload.length < 65536 by omega]
  refine and_congr_right fun hb => ?_
  rw [onWire_cons, onWire_nil]
  exact tcpInput_built true _ _ tsrc tdst seq ack off res flags window urg payload

example :
    let f := fun (off : Byte) (u : U16) => (Sample.get (create_tcpv6_packet true Sample.p6 Sample.mac1 Sample.mac2 true 10 3 7 0x12345 64
      Sample.ip6a Sample.ip6b 80 1234 7 9 off 0 2 512 u Sample.data)).to_vec
    hostTcp (f 5 56404) = some ⟨to_ipv6_bytes Sample.p6 Sample.ip6a, to_ipv6_bytes Sample.p6 Sample.ip6b, 1234, 80, 7, 9, 2, 512,
        56404, Sample.data⟩ ∧ hostTcp (f 5 0) = none ∧ hostTcp (f 0 56404) = none := by
  decide +kernel

/-- **C97, ICMPv6.** -/
theorem C97_icmp6 {ty code : Byte} {idata : Bytes} {ck : Bool}
    (h : create_icmpv6_packet chk p6 eth_dst eth_src ve vid pcp tc flow hl src dst ty code idata ck payload = .ok p) :
    hostIcmp p.to_vec = some ⟨to_ipv6_bytes p6 src, to_ipv6_bytes p6 dst, ty.toNat, code.toNat, payload⟩ ↔
      Flow6 flow ∧ 4 + payload.length < 65536 ∧ Icmp6Ok p.to_vec (ipAt ve) := by
  obtain ⟨⟨m, hm⟩, n, hn⟩ := (C41_icmpv6_returns_iff ..).mp ⟨p, h⟩
  have e := C41_icmpv6 chk p6 _ _ ve vid pcp m n hm hn src dst payload tc flow hl ty code idata ck
  obtain rfl := Except.ok.inj (h.symm.trans e)
  obtain ⟨f1, f2⟩ := frame6 m n (C31_length _ _ hm) (C31_length _ _ hn) ve vid pcp 0x86DD#16 p6 tc flow 58#8 hl src dst
    (BitVec.ofNat 16 (payload.length + 4)) [Packet.icmp ty code] payload
  have hseg : (onWire [Packet.icmp ty code] payload).length = 4 + payload.length := by
    simp [onWire, Packet.icmp, HeaderDef.ofVec]; omega
  rw [Icmp6Ok, f1, f2, hseg]
  rw [hostIcmp, ipInput_frame6 _ _ (C31_length _ _ hm) (C31_length _ _ hn),
    host6 icmpInput _ _ _ _ _ _ _ _ _ _ (fun g hg => by rw [hseg]; exact icmp_needs g _ hg), Whole6, hseg, and_assoc]
  refine and_congr_right fun _ => ?_
  rw [BitVec.toNat_ofNat, show (payload.length + 4) % 2 ^ 16 = 4 + payload.length ↔ 4 + payload.length < 65536 by omega]
  refine and_congr_right fun hb => ?_
  rw [onWire_cons, onWire_nil]
  refine (icmpInput_built true 58 _ _ ty code payload).trans ?_
  simp [Datagram.pseudo]

example :
    let f := fun ty code : Byte => (Sample.get (create_icmpv6_packet true Sample.p6 Sample.mac1 Sample.mac2 false 10 3 7 0x12345 64
      Sample.ip6a Sample.ip6b ty code [1, 2] true Sample.data)).to_vec
    hostIcmp (f 0x33 0x65) = some ⟨to_ipv6_bytes Sample.p6 Sample.ip6a, to_ipv6_bytes Sample.p6 Sample.ip6b, 0x33, 0x65,
        Sample.data⟩ ∧ hostIcmp (f 128 0) = none := by
  decide +kernel

/-- The UDP datagram that `create_vxlanv6_packet` announces when the inner frame is `v`. -/
def vxlanSeg (usrc udst : U16) (vni : U32) (v : Bytes) : Bytes :=
  be16 usrc ++ be16 udst ++ be16 (BitVec.ofNat 16 (16 + v.length)) ++ be16 0xffff#16 ++ ((Packet.vxlan vni).data ++ v)

/-- **C97, VXLAN over IPv6.** The inner headers are on the wire twice, but the announced lengths count them once: the host sees the
inner headers and then as much of the whole inner frame as the inner payload is long.  That is the inner frame iff its payload
begins as the frame does, for example when it is empty. -/
theorem C97_vxlan6 {udst usrc : U16} {ck : Bool} {vni : U32} {inner : Packet}
    (h : create_vxlanv6_packet chk p6 eth_dst eth_src ve vid pcp tc flow hl src dst udst usrc ck vni inner = .ok p) :
    hostUdp p.to_vec = some ⟨to_ipv6_bytes p6 src, to_ipv6_bytes p6 dst, usrc.toNat, udst.toNat,
        (Packet.vxlan vni).data ++ inner.to_vec⟩ ↔
      Flow6 flow ∧ 16 + inner.to_vec.length < 65536 ∧ inner.payload = inner.to_vec.take inner.payload.length ∧
        Verifies (to_ipv6_bytes p6 src ++ to_ipv6_bytes p6 dst ++ num32 (16 + inner.to_vec.length) ++ [0#8, 0#8, 0#8, 17#8] ++
          vxlanSeg usrc udst vni inner.to_vec) := by
  obtain ⟨⟨m, hm⟩, n, hn⟩ := (C41_vxlanv6_returns_iff ..).mp ⟨p, h⟩
  have e := C41_vxlanv6 chk p6 _ _ ve vid pcp m n hm hn src dst tc flow hl udst usrc ck vni inner
  obtain rfl := Except.ok.inj (h.symm.trans e)
  clear h e
  have hv : (Packet.vxlan vni).data.length = 8 := rfl
  -- the inner frame is its headers and its payload
  obtain ⟨H, hH⟩ : ∃ H, H = (inner.hdrs.map (·.data)).flatten := ⟨_, rfl⟩
  have hin : inner.to_vec = H ++ inner.payload := by rw [to_vec_onWire, onWire, hH]
  have hwire : onWire (⟨UDP, be16 usrc ++ be16 udst ++ be16 (BitVec.ofNat 16 (16 + inner.to_vec.length)) ++ be16 0xffff#16⟩ ::
      Packet.vxlan vni :: inner.hdrs) inner.to_vec =
      be16 usrc ++ be16 udst ++ be16 (BitVec.ofNat 16 (16 + inner.to_vec.length)) ++ be16 0xffff#16 ++
        ((Packet.vxlan vni).data ++ (H ++ inner.to_vec)) := by
    rw [onWire_cons, onWire_cons, onWire, hH]
  rw [hostUdp]
  have hfr := ipInput_frame6 _ _ (C31_length _ _ hm) (C31_length _ _ hn) ve vid pcp
    (Packet.ipv6 p6 tc flow 17#8 hl src dst (BitVec.ofNat 16 (inner.to_vec.length + 16)))
    (⟨UDP, be16 usrc ++ be16 udst ++ be16 (BitVec.ofNat 16 (16 + inner.to_vec.length)) ++ be16 0xffff#16⟩ ::
      Packet.vxlan vni :: inner.hdrs) inner.to_vec
  simp only [List.append_assoc, List.cons_append, List.nil_append] at hfr hwire ⊢
  rw [hfr, hwire]
  generalize hlen : inner.to_vec.length = k at *
  obtain ⟨r0, r1, r2, r3, r4, r5⟩ := ipv6_u8 p6 tc flow 17#8 hl src dst (BitVec.ofNat 16 (k + 16))
    (be16 usrc ++ (be16 udst ++ (be16 (BitVec.ofNat 16 (16 + k)) ++ (be16 0xffff#16 ++
      ((Packet.vxlan vni).data ++ (H ++ inner.to_vec))))))
  by_cases hb : 16 + k < 65536
  swap
  · -- too long: the announced length is smaller than the message
    refine iff_of_false (fun hh => ?_) (fun hh => hb hh.2.1)
    obtain ⟨g, g1, g2⟩ := Option.bind_eq_some_iff.mp hh
    have g3 := udp_needs g _ g2
    unfold ip6Input at g1
    split at g1
    · cases g1
      rw [r2] at g3
      simp only [List.length_take, List.length_append, hv, hlen, BitVec.toNat_ofNat] at g3
      omega
    · cases g1
  have hk : (BitVec.ofNat 16 (k + 16)).toNat = k + 16 := by rw [BitVec.toNat_ofNat]; omega
  have hHk : H.length + inner.payload.length = k := by rw [← hlen, hin, List.length_append]
  by_cases hf : Flow6 flow
  swap
  · refine iff_of_false (fun hh => ?_) (fun hh => hf hh.1)
    obtain ⟨g, g1, -⟩ := Option.bind_eq_some_iff.mp hh
    unfold ip6Input at g1
    split at g1
    next hc => exact hf (r1.mp hc.2.1)
    next => cases g1
  -- what the host hands on
  obtain ⟨w, hw⟩ : ∃ w, w = (H ++ inner.to_vec).take k := ⟨_, rfl⟩
  have hwk : w.length = k := by
    rw [hw, List.length_take, List.length_append, hlen]; omega
  have hw' : w = inner.to_vec ↔ inner.payload = inner.to_vec.take inner.payload.length := by
    rw [hw, ← hHk, List.take_length_add_append]
    constructor
    · intro h'
      rw [hin] at h'
      rw [hin]
      exact (List.append_cancel_left h').symm
    · intro h'
      rw [← h', ← hin]
  have hd : ip6Input ((Packet.ipv6 p6 tc flow 17#8 hl src dst (BitVec.ofNat 16 (k + 16))).data ++
      (be16 usrc ++ (be16 udst ++ (be16 (BitVec.ofNat 16 (16 + k)) ++ (be16 0xffff#16 ++
      ((Packet.vxlan vni).data ++ (H ++ inner.to_vec))))))) = some ⟨true, 17, to_ipv6_bytes p6 src, to_ipv6_bytes p6 dst,
        be16 usrc ++ be16 udst ++ be16 (BitVec.ofNat 16 (8 + ((Packet.vxlan vni).data ++ w).length)) ++ be16 0xffff#16 ++
          ((Packet.vxlan vni).data ++ w)⟩ := by
    unfold ip6Input
    rw [r2, r3, r4, r5, hk, if_pos ⟨by rw [List.length_append]; omega, r1.mpr hf, by
      simp only [List.length_append, r0, be16_length, hv, hlen]; omega⟩, List.drop_left' r0]
    congr 2
    rw [List.length_append, hv, hwk, show 8 + (8 + k) = 16 + k by omega]
    have e16 : ((be16 usrc ++ be16 udst ++ be16 (BitVec.ofNat 16 (16 + k)) ++ be16 0xffff#16) ++ (Packet.vxlan vni).data).length = 16 := by
      simp [hv]
    have := List.take_length_add_append (l₁ := (be16 usrc ++ be16 udst ++ be16 (BitVec.ofNat 16 (16 + k)) ++ be16 0xffff#16) ++
      (Packet.vxlan vni).data) (l₂ := H ++ inner.to_vec) k
    rw [e16, ← hw] at this
    rw [Nat.add_comm k 16]
    simpa only [List.append_assoc] using this
  rw [hd, Option.bind_some, udpInput_eq _ _ _ _ _ _ _ (by rw [List.length_append, hv, hwk]; omega)]
  simp only [Option.ite_none_right_eq_some, Option.some.injEq, UdpMsg.mk.injEq, true_and, List.append_cancel_left_eq, hw', hf, hb]
  rw [and_comm]
  refine and_congr_right fun h' => ?_
  have hwe := hw'.mpr h'
  rw [hwe, vxlanSeg, hlen, List.length_append, hv, hlen, show 8 + (8 + k) = 16 + k by omega]
  simp [Datagram.pseudo]

/-- With an inner frame without payload the host can get it; with the sample inner frame it gets another one, here for the one source
port whose checksum is right. -/
example :
    let f := fun (inner : Packet) (s : U16) => (Sample.get (create_vxlanv6_packet true Sample.p6 Sample.mac1 Sample.mac2 true 10 3 7
      0x12345 64 Sample.ip6a Sample.ip6b 4789 s true 0xabcd inner)).to_vec
    let a := to_ipv6_bytes Sample.p6 Sample.ip6a
    let b := to_ipv6_bytes Sample.p6 Sample.ip6b
    let bare : Packet := ⟨Sample.innerFrame.hdrs, []⟩
    hostUdp (f bare 14897) = some ⟨a, b, 14897, 4789, (Packet.vxlan 0xabcd).data ++ bare.to_vec⟩ ∧
      hostUdp (f Sample.innerFrame 54242) = some ⟨a, b, 54242, 4789, (Packet.vxlan 0xabcd).data ++ (bare.to_vec ++
        Sample.innerFrame.to_vec.take 5)⟩ ∧ Sample.innerFrame.payload = Sample.data := by
  decide +kernel

end
end PacketRs
