import Verif.Spec.Bridge
import Verif.Props.Ports
import Verif.Props.Surgery
/-!
# Property C101: bridging, tagging, and forwarding of IPv6 frames
-/
namespace PacketRs
open Spec Utils

theorem u8At_bits {a b : Bytes} {k : Nat} (h : ∀ i, 8 * k ≤ i → i < 8 * k + 8 → netBit a i = netBit b i) : u8At a k = u8At b k := by
  unfold u8At
  congr 1
  apply BitVec.eq_of_getMsbD_eq
  intro i hi
  have := h (8 * k + i) (by omega) (by omega)
  unfold netBit at this
  rwa [show (8 * k + i) / 8 = k by omega, show (8 * k + i) % 8 = i by omega] at this

theorem u16At_bits {a b : Bytes} {k : Nat} (h : ∀ i, 8 * k ≤ i → i < 8 * k + 16 → netBit a i = netBit b i) :
    u16At a k = u16At b k := by
  rw [u16At, u16At, u8At_bits (k := k) fun i h1 h2 => h i h1 (by omega),
    u8At_bits (k := k + 1) fun i h1 h2 => h i (by omega) (by omega)]

theorem nibble_bits {a b : Bytes} {k : Nat} (h : ∀ i, 8 * k ≤ i → i < 8 * k + 4 → netBit a i = netBit b i) :
    u8At a k / 16 = u8At b k / 16 := by
  unfold u8At
  have e : ∀ x : Byte, x.toNat / 16 = (x >>> 4).toNat := by
    intro x
    rw [BitVec.toNat_ushiftRight, Nat.shiftRight_eq_div_pow]
  rw [e, e]
  congr 1
  apply BitVec.eq_of_getLsbD_eq
  intro i hi
  rw [BitVec.getLsbD_ushiftRight, BitVec.getLsbD_ushiftRight]
  by_cases c : i < 4
  · have := h (8 * k + (3 - i)) (by omega) (by omega)
    unfold netBit at this
    rw [show (8 * k + (3 - i)) / 8 = k by omega, show (8 * k + (3 - i)) % 8 = 3 - i by omega, BitVec.getMsbD, BitVec.getMsbD,
      decide_eq_true (by omega), Bool.true_and, Bool.true_and, show 8 - 1 - (3 - i) = 4 + i by omega] at this
    exact this
  · rw [BitVec.getLsbD_of_ge _ _ (by omega), BitVec.getLsbD_of_ge _ _ (by omega)]

theorem drop_bits {a b : Bytes} {n : Nat} (hl : a.length = b.length) (h : ∀ i, 8 * n ≤ i → netBit a i = netBit b i) :
    a.drop n = b.drop n := by
  apply eq_of_netBit
  · rw [List.length_drop, List.length_drop, hl]
  · intro i _
    rw [netBit_drop, netBit_drop]
    exact h _ (by omega)

/-- A host gets the same from frames that differ in ignored bits only. -/
theorem ipInput_ignored {f f' : Bytes} (hl : f'.length = f.length) (hb : ∀ i, ¬ Ignored f i → netBit f' i = netBit f i) :
    ipInput f' = ipInput f := by
  have h12 : u16At f' 12 = u16At f 12 := u16At_bits fun i h1 h2 => hb i (by
    unfold Ignored
    have : 14 ≤ l3At f := by unfold l3At; split <;> decide
    omega)
  have key : ∀ et, u16At f (l3At f - 2) = et → u16At f' (l3At f - 2) = et := by
    intro et he
    rw [← he]
    refine u16At_bits fun i h1 h2 => hb i ?_
    unfold Ignored
    by_cases c : u16At f 12 = 0x8100
    · have : l3At f = 18 := by rw [l3At, if_pos c]
      omega
    · have : l3At f = 14 := by rw [l3At, if_neg c]
      omega
  have rest : ∀ n, 8 * n ≥ 8 * l3At f + (if u16At f (l3At f - 2) = 0x86DD then 64 else 0) → f'.drop n = f.drop n := by
    intro n hn
    refine drop_bits hl fun i hi => hb i ?_
    unfold Ignored
    by_cases c : u16At f 12 = 0x8100
    · have : l3At f = 18 := by rw [l3At, if_pos c]
      by_cases d : u16At f (l3At f - 2) = 0x86DD
      · rw [if_pos d] at hn; omega
      · rw [if_neg d] at hn; omega
    · have : l3At f = 14 := by rw [l3At, if_neg c]
      by_cases d : u16At f (l3At f - 2) = 0x86DD
      · rw [if_pos d] at hn; omega
      · rw [if_neg d] at hn; omega
  have six : u16At f (l3At f - 2) = 0x86DD → ip6Input (f'.drop (l3At f)) = ip6Input (f.drop (l3At f)) := by
    intro d
    rw [if_pos d] at rest
    have l14 : l3At f = 14 ∨ l3At f = 18 := by unfold l3At; split <;> simp
    have l18 : u16At f 12 = 0x8100 → l3At f = 18 := fun c => by rw [l3At, if_pos c]
    have e0 : u8At f' (l3At f) / 16 = u8At f (l3At f) / 16 := nibble_bits fun i h1 h2 => hb i (by unfold Ignored; omega)
    have e4 : u16At f' (l3At f + 4) = u16At f (l3At f + 4) := u16At_bits fun i h1 h2 => hb i (by unfold Ignored; omega)
    have e6 : u8At f' (l3At f + 6) = u8At f (l3At f + 6) := u8At_bits fun i h1 h2 => hb i (by unfold Ignored; omega)
    unfold ip6Input
    simp only [u8At_drop_add, u16At_drop_add, List.length_drop, List.drop_drop, Nat.add_zero, hl, e0, e4, e6, rest (l3At f + 8) (by omega),
      rest (l3At f + 24) (by omega), rest (l3At f + 40) (by omega)]
  unfold ipInput linkInput
  rw [hl, h12]
  by_cases c0 : f.length < 14
  · rw [if_pos c0, if_pos c0]
  rw [if_neg c0, if_neg c0]
  by_cases c : u16At f 12 = 0x8100
  · have h18 : l3At f = 18 := by rw [l3At, if_pos c]
    rw [h18] at key rest six
    simp only [c, ne_eq, not_true_eq_false, if_false]
    by_cases c1 : f.length < 18
    · rw [if_pos c1, if_pos c1]
    rw [if_neg c1, if_neg c1]
    simp only [key _ rfl]
    by_cases d : u16At f 16 = 0x86DD
    · simp only [d, show (0x86DD : Nat) ≠ 0x0800 by decide, if_false, if_true]
      exact six d
    · rw [if_neg d] at rest
      simp only [rest 18 (by omega)]
  · have h14 : l3At f = 14 := by rw [l3At, if_neg c]
    rw [h14] at key rest six
    rw [if_pos c, if_pos c]
    simp only
    by_cases d : u16At f 12 = 0x86DD
    · simp only [d, show (0x86DD : Nat) ≠ 0x0800 by decide, if_false, if_true]
      exact six d
    · rw [if_neg d] at rest
      simp only [rest 14 (by omega)]

/-- The headers up to the IP header. -/
theorem seen_types {chk : Bool} {f : Bytes} {g : Datagram} {p : Packet} (hi : ipInput f = some g) (hp : Slow.parse chk f = .ok p) :
    ∃ ip post, p.hdrs = (if u16At f 12 = 0x8100 then [⟨Ether, f.take 14⟩, ⟨Vlan, (f.drop 14).take 4⟩] else [⟨Ether, f.take 14⟩]) ++
      ip :: post ∧ ip.ty = (if u16At f (l3At f - 2) = 0x86DD then IPv6 else IPv4) := by
  have ipCase : ∀ et b, (if et = 0x0800 then ip4Input b else if et = 0x86DD then ip6Input b else none) = some g → ∀ (front : List Hdr),
      Slow.parse chk f = (Slow.parseL chk (etherNext et) b).map (prep front) →
      ∃ ip post, p.hdrs = front ++ ip :: post ∧ ip.ty = if et = 0x86DD then IPv6 else IPv4 := by
    intro et b h front hpar
    rw [hp] at hpar
    by_cases c : et = 0x0800
    · subst c
      rw [if_pos rfl] at h
      have h20 := (Option.ite_none_right_eq_some.mp h).1.1
      rw [show etherNext 0x0800 = .ipv4 from rfl, parse_one b (by decide) rfl (show 20 ≤ b.length from h20), map_prep] at hpar
      generalize Slow.parseL chk _ _ = r at hpar
      cases r with
      | error e => cases hpar
      | ok r => exact ⟨⟨IPv4, b.take 20⟩, r.hdrs, by rw [Except.ok.inj hpar]; simp [prep]; rfl, rfl⟩
    · rw [if_neg c] at h
      obtain ⟨rfl, h6⟩ := Option.ite_none_right_eq_some.mp h
      have h40 := (Option.ite_none_right_eq_some.mp h6).1.1
      rw [show etherNext 0x86DD = .ipv6 from rfl, parse_one b (by decide) rfl (show 40 ≤ b.length from h40), map_prep] at hpar
      generalize Slow.parseL chk _ _ = r at hpar
      cases r with
      | error e => cases hpar
      | ok r => exact ⟨⟨IPv6, b.take 40⟩, r.hdrs, by rw [Except.ok.inj hpar]; simp [prep]; rfl, rfl⟩
  unfold ipInput linkInput at hi
  by_cases h14 : f.length < 14
  · rw [if_pos h14] at hi; cases hi
  rw [if_neg h14] at hi
  by_cases c : u16At f 12 = 0x8100
  · simp only [c, ne_eq, not_true_eq_false, if_false] at hi
    have h18 : l3At f = 18 := by rw [l3At, if_pos c]
    rw [h18, if_pos c]
    by_cases c1 : f.length < 18
    · rw [if_pos c1] at hi; cases hi
    rw [if_neg c1] at hi
    refine ipCase _ _ hi _ ?_
    rw [Slow.parse_eq, if_neg h14, if_neg (by omega), parse_one f (by decide) rfl (show 14 ≤ f.length by omega), c,
      show etherNext 0x8100 = .vlan from rfl,
      parse_one (f.drop Ether.size) (by decide) rfl (show 4 ≤ (f.drop 14).length by rw [List.length_drop]; omega), map_prep,
      List.drop_drop, u16At_drop_add]
    rfl
  · rw [if_pos c] at hi
    have h14' : l3At f = 14 := by rw [l3At, if_neg c]
    rw [h14', if_neg c]
    refine ipCase _ _ hi _ ?_
    have hn : ¬ u16At f 12 < 1500 := by
      intro hlt
      simp only at hi
      rw [if_neg (by omega), if_neg (by omega)] at hi
      cases hi
    rw [Slow.parse_eq, if_neg h14, if_neg hn]
    exact parse_one f (by decide) rfl (show 14 ≤ f.length by omega)

/-- **C101, harmless edits.** Setting link addresses, the control information of the VLAN tag, or traffic class, flow label or hop
limit of an IPv6 header, to anything, changes nothing for a host. -/
theorem C101_harmless {chk : Bool} {f : Bytes} {g : Datagram} {p : Packet} (hi : ipInput f = some g)
    (hp : Slow.parse chk f = .ok p) (hg : ∀ g ∈ p.hdrs, g.ty = GRE → greOptCount g.data ≤ 1) (T : HeaderDef) (x : Field)
    (hx : Harmless f T x) (v : U64) :
    ∃ q, editField T T.name x v p = .ok q ∧ hostUdp q.to_vec = hostUdp f ∧ hostTcp q.to_vec = hostTcp f ∧
      hostIcmp q.to_vec = hostIcmp f := by
  suffices ∃ q, editField T T.name x v p = .ok q ∧ ipInput q.to_vec = ipInput f by
    obtain ⟨q, e, h⟩ := this
    exact ⟨q, e, by simp only [hostUdp, h], by simp only [hostTcp, h], by simp only [hostIcmp, h]⟩
  obtain ⟨ip, post, hs, hty⟩ := seen_types hi hp
  obtain ⟨hle, hx⟩ := hx
  have edit : ∀ pre h post, IsFirstNamed p.hdrs T.name pre h post → h.ty = T → x.Inside T.size →
      (∀ i, 8 * sizes pre + x.lo ≤ i → i ≤ 8 * sizes pre + x.hi → Ignored f i) →
      ∃ q, editField T T.name x v p = .ok q ∧ ipInput q.to_vec = ipInput f := by
    intro pre h post hf hT hin hig
    obtain ⟨q, e, hl, hb⟩ := C67_set chk f p hp hg T T.name pre post h hf hT x (hT ▸ hin) v
    refine ⟨q, e, ipInput_ignored hl fun i hi => ?_⟩
    rw [hb i, if_neg fun c => hi (hig i c.1 c.2)]
  rcases hx with ⟨rfl, h⟩ | ⟨ht, rfl, h⟩ | ⟨h6, rfl, h⟩
  · have : ∃ e post, p.hdrs = [] ++ ⟨Ether, e⟩ :: post := by
      rw [hs]
      by_cases c : u16At f 12 = 0x8100
      · rw [if_pos c]; exact ⟨_, _, rfl⟩
      · rw [if_neg c]; exact ⟨_, _, rfl⟩
    obtain ⟨e, post', hh⟩ := this
    have h14 : Ether.size = 14 := rfl
    refine edit [] ⟨Ether, e⟩ post' ⟨hh, rfl, by simp⟩ rfl ⟨hle, by omega⟩ fun i h1 h2 => .inl ?_
    simp only [sizes, List.map_nil, List.sum_nil] at h2
    omega
  · rw [if_pos ht] at hs
    have h4 : Vlan.size = 4 := rfl
    refine edit [⟨Ether, f.take 14⟩] ⟨Vlan, (f.drop 14).take 4⟩ (ip :: post) ⟨hs, rfl, ?_⟩ rfl ⟨hle, by omega⟩
      fun i h1 h2 => .inr (.inl ⟨ht, ?_⟩)
    · intro y hy
      rw [List.mem_singleton.mp hy]
      exact (by decide : Ether.name ≠ Vlan.name)
    · have : sizes [⟨Ether, f.take 14⟩] = 14 := rfl
      omega
  · rw [if_pos h6] at hty
    have h40 : IPv6.size = 40 := rfl
    refine edit _ ip post ⟨hs, by rw [Hdr.name, hty], ?_⟩ hty ⟨hle, by omega⟩ fun i h1 h2 => .inr (.inr ⟨h6, ?_⟩)
    · intro y hy
      by_cases c : u16At f 12 = 0x8100
      · rw [if_pos c] at hy
        simp only [List.mem_cons, List.not_mem_nil, or_false] at hy
        rcases hy with rfl | rfl
        · exact (by decide : Ether.name ≠ IPv6.name)
        · exact (by decide : Vlan.name ≠ IPv6.name)
      · rw [if_neg c, List.mem_singleton] at hy
        rw [hy]
        exact (by decide : Ether.name ≠ IPv6.name)
    · have : sizes (if u16At f 12 = 0x8100 then [⟨Ether, f.take 14⟩, ⟨Vlan, (f.drop 14).take 4⟩] else [⟨Ether, f.take 14⟩]) =
          l3At f := by
        unfold l3At
        split <;> rfl
      omega

theorem ipInput_plain {f : Bytes} (h : 14 ≤ f.length) (c : u16At f 12 ≠ 0x8100) :
    ipInput f = if u16At f 12 = 0x0800 then ip4Input (f.drop 14) else if u16At f 12 = 0x86DD then ip6Input (f.drop 14) else none := by
  unfold ipInput linkInput
  rw [if_neg (Nat.not_lt.mpr h), if_pos c]

theorem ipInput_tagged {f : Bytes} (h : 18 ≤ f.length) (c : u16At f 12 = 0x8100) :
    ipInput f = if u16At f 16 = 0x0800 then ip4Input (f.drop 18) else if u16At f 16 = 0x86DD then ip6Input (f.drop 18) else none := by
  unfold ipInput linkInput
  rw [if_neg (by omega), if_neg (by omega), if_neg (by omega)]

theorem ipInput_tagged_long {f : Bytes} {g : Datagram} (h : ipInput f = some g) (c : u16At f 12 = 0x8100) : 18 ≤ f.length := by
  unfold ipInput linkInput at h
  by_cases h14 : f.length < 14
  · rw [if_pos h14] at h; cases h
  by_cases h18 : f.length < 18
  · rw [if_neg h14, if_neg (by omega), if_pos h18] at h; cases h
  · omega

/-- The tag inserted. -/
theorem ipInput_tag {f t : Bytes} (ht : t.length = 2) (h14 : 14 ≤ f.length) :
    ipInput (f.take 12 ++ ([0x81#8, 0x00#8] ++ (t ++ f.drop 12))) =
      if u16At f 12 = 0x0800 then ip4Input (f.drop 14) else if u16At f 12 = 0x86DD then ip6Input (f.drop 14) else none := by
  have h12 : (f.take 12).length = 12 := by rw [List.length_take]; omega
  have e12 : u16At (f.take 12 ++ ([0x81#8, 0x00#8] ++ (t ++ f.drop 12))) 12 = 0x8100 := by
    rw [u16At, u8At_append_right (f.take 12) _ 12 (by omega), u8At_append_right (f.take 12) _ (12 + 1) (by omega), h12]; rfl
  have d : ∀ k, (f.take 12 ++ ([0x81#8, 0x00#8] ++ (t ++ f.drop 12))).drop (16 + k) = f.drop (12 + k) := by
    intro k
    rw [show f.take 12 ++ ([0x81#8, 0x00#8] ++ (t ++ f.drop 12)) = (f.take 12 ++ [0x81#8, 0x00#8] ++ t) ++ f.drop 12 by simp,
      drop_add_left _ _ _ _ (by simp; omega), List.drop_drop]
  have e16 : u16At (f.take 12 ++ ([0x81#8, 0x00#8] ++ (t ++ f.drop 12))) 16 = u16At f 12 := by
    have := u16At_drop_add (f.take 12 ++ ([0x81#8, 0x00#8] ++ (t ++ f.drop 12))) 16 0
    rw [d 0, u16At_drop_add] at this
    exact this.symm
  have hl : (f.take 12 ++ ([0x81#8, 0x00#8] ++ (t ++ f.drop 12))).length = f.length + 4 := by
    simp only [List.length_append, h12, List.length_cons, List.length_nil, List.length_drop]; omega
  rw [ipInput_tagged (by omega) e12, e16, d 2]

theorem frame_ether {chk : Bool} {f : Bytes} {g : Datagram} {p : Packet} (hi : ipInput f = some g) (hp : Slow.parse chk f = .ok p) :
    14 ≤ f.length ∧ 1500 ≤ u16At f 12 ∧ Slow.parse_ethernet chk f = .ok p := by
  unfold ipInput linkInput at hi
  by_cases h14 : f.length < 14
  · rw [if_pos h14] at hi; cases hi
  rw [if_neg h14] at hi
  have hn : ¬ u16At f 12 < 1500 := by
    intro hlt
    rw [if_pos (by omega)] at hi
    simp only at hi
    rw [if_neg (by omega), if_neg (by omega)] at hi
    cases hi
  rw [Slow.parse_eq, if_neg h14, if_neg hn] at hp
  exact ⟨by omega, by omega, hp⟩

/-- **C101, tagging.** A frame without a tag gives a host the same after a tag is put in, with any priority and VLAN; a frame with a
tag gives nothing any more. -/
theorem C101_tag {chk : Bool} {f : Bytes} {g : Datagram} {p : Packet} (hi : ipInput f = some g)
    (hp : Slow.parse chk f = .ok p) (hg : ∀ g ∈ p.hdrs, g.ty = GRE → greOptCount g.data ≤ 1) (pcp : Byte) (vid : U16) :
    ∃ q, tag chk pcp vid p = .ok q ∧ ipInput q.to_vec = if u16At f 12 = 0x8100 then none else ipInput f := by
  obtain ⟨h14, -, hpe⟩ := frame_ether hi hp
  obtain ⟨q, e, hq, -, h1, h2⟩ := C71_tag chk f p hpe pcp vid
  refine ⟨q, e, ?_⟩
  have hg' : ∀ g ∈ q.hdrs, g.ty = GRE → greOptCount g.data ≤ 1 := by
    intro x hx hT
    match hh : q.hdrs with
    | [] => rw [hh] at hx; cases hx
    | [_] => rw [hh] at h1; simp at h1
    | a :: b :: r =>
      rw [hh] at h1 h2 hx
      simp only [List.map_cons, List.cons.injEq] at h1
      rcases List.mem_cons.mp hx with rfl | hx
      · rw [hT] at h1; exact absurd h1.1 (by decide)
      rcases List.mem_cons.mp hx with rfl | hx
      · rw [hT] at h1; exact absurd h1.2.1 (by decide)
      · have : x ∈ p.hdrs.drop 1 := h2 ▸ hx
        exact hg x (List.mem_of_mem_drop this) hT
  rw [C23_roundtrip_frame chk _ q hq hg', ipInput_tag rfl h14]
  by_cases c : u16At f 12 = 0x8100
  · rw [if_pos c, c]; rfl
  · rw [if_neg c, ipInput_plain h14 c]

/-- **C101, untagging.** A frame with a tag gives a host the same after the tag is taken out. -/
theorem C101_untag {chk : Bool} {f : Bytes} {g : Datagram} {p : Packet} (hi : ipInput f = some g) (ht : u16At f 12 = 0x8100)
    (hp : Slow.parse chk f = .ok p) (hg : ∀ g ∈ p.hdrs, g.ty = GRE → greOptCount g.data ≤ 1) :
    ∃ q, untag chk p = .ok q ∧ ipInput q.to_vec = some g := by
  obtain ⟨h14, -, hpe⟩ := frame_ether hi hp
  obtain ⟨ip, post, hs, -⟩ := seen_types hi hp
  rw [if_pos ht] at hs
  obtain ⟨q, e, hq, hqe, -⟩ := C71_untag chk f p hpe _ _ _ hs rfl
  refine ⟨q, e, ?_⟩
  have hg' : ∀ g ∈ q.hdrs, g.ty = GRE → greOptCount g.data ≤ 1 := by
    intro x hx hT
    rw [hq] at hx
    rcases List.mem_cons.mp hx with rfl | hx
    · exact absurd hT (by decide : Ether ≠ GRE)
    · exact hg x (by rw [hs]; simp only [List.cons_append, List.nil_append, List.mem_cons]; right; right; exact List.mem_cons.mp hx) hT
  have h18 := ipInput_tagged_long hi ht
  rw [C23_roundtrip chk .ether _ q hqe hg', ← hi]
  rw [ipInput_tagged h18 ht] at hi ⊢
  have h12 : (f.take 12).length = 12 := by rw [List.length_take]; omega
  have e12 : u16At (f.take 12 ++ f.drop 16) 12 = u16At f 16 := by
    rw [u16At, u8At_append_right (f.take 12) _ 12 (by omega), u8At_append_right (f.take 12) _ (12 + 1) (by omega), h12,
      u8At_drop_add, u8At_drop_add]
    rfl
  have hd : (f.take 12 ++ f.drop 16).drop 14 = f.drop 18 := by
    rw [show 14 = 12 + 2 from rfl, drop_add_left _ _ _ _ h12, List.drop_drop]
  rw [ipInput_plain (by rw [List.length_append, h12, List.length_drop]; omega) (by
    rw [e12]
    intro c
    rw [c] at hi
    exact nomatch hi), e12, hd]

/-! ## Addresses of IPv6 -/

/-- The client: `let x: &mut IPv6 = (&mut pkt["IPv6"]).into(); x.set_bytes(8 * k + 127, 8 * k, &a);` with sixteen octets. -/
def setAddr6 (chk : Bool) (k : Nat) (a : Bytes) (p : Packet) : R Packet :=
  p.withHeaderMut IPv6 "IPv6" fun x => x.set_bytes chk (8 * k + 8 * a.length - 1) (8 * k) a

/-- The octets of the address replaced in the frame. -/
theorem setAddr6_frame {chk : Bool} {f : Bytes} {g : Datagram} {p : Packet} (hi : ipInput f = some g) (h6 : g.v6 = true)
    (hp : Slow.parse chk f = .ok p) (hg : ∀ g ∈ p.hdrs, g.ty = GRE → greOptCount g.data ≤ 1) (k : Nat) (a : Bytes)
    (ha : a.length = 16) (hk : k = 8 ∨ k = 24) :
    ∃ q, setAddr6 chk k a p = .ok q ∧
      ipInput q.to_vec = some (if k = 8 then { g with src := a } else { g with dst := a }) := by
  obtain ⟨ip, post, hs, hty⟩ := seen_types hi hp
  unfold ipInput at hi
  split at hi
  rotate_left
  · cases hi
  next et b hli =>
  split at hi
  · unfold ip4Input at hi
    obtain ⟨-, hi⟩ := Option.ite_none_right_eq_some.mp hi
    cases hi
    cases h6
  next he =>
  obtain ⟨he6, hi⟩ := Option.ite_none_right_eq_some.mp hi
  obtain ⟨e1, e2, e3, -⟩ := link_seen f b et hli (.inr he6)
  rw [← e1, if_pos he6] at hty
  unfold ip6Input at hi
  obtain ⟨⟨c1, c2, c3⟩, hi⟩ := Option.ite_none_right_eq_some.mp hi
  cases hi
  generalize hpre : (if u16At f 12 = 0x8100 then [(⟨Ether, f.take 14⟩ : Hdr), ⟨Vlan, (f.drop 14).take 4⟩] else [⟨Ether, f.take 14⟩]) = pre
    at hs
  have hsz : sizes pre = l3At f := by
    rw [← hpre]; unfold l3At; split <;> rfl
  have hnames : ∀ x ∈ pre, x.name ≠ "IPv6" := by
    rw [← hpre]
    intro y hy
    by_cases c : u16At f 12 = 0x8100
    · rw [if_pos c] at hy
      simp only [List.mem_cons, List.not_mem_nil, or_false] at hy
      rcases hy with rfl | rfl
      · exact (by decide : Ether.name ≠ IPv6.name)
      · exact (by decide : Vlan.name ≠ IPv6.name)
    · rw [if_neg c, List.mem_singleton] at hy
      rw [hy]
      exact (by decide : Ether.name ≠ IPv6.name)
  obtain ⟨w1, w2, w3⟩ := wire_take_drop hp hg hs
  rw [hsz] at w1 w2 w3
  rw [hty, show IPv6.size = 40 from rfl, ← e2] at w2
  rw [hty, show IPv6.size = 40 from rfl, ← List.drop_drop, ← e2] at w3
  have hl : ip.data.length = 40 := by rw [w2, List.length_take]; omega
  obtain ⟨d', s1, s2, s3⟩ := setBytes_ok chk ip.data (8 * k) a (by rintro rfl; cases ha) (by omega) (by omega)
  have hd : d' = putAt ip.data k a := by
    apply eq_of_netBit
    · rw [putAt_length _ _ _ (by omega), s2]
    · intro i hi
      have hta : (ip.data.take k).length = k := by rw [List.length_take]; omega
      rw [s3 i]
      unfold putAt
      by_cases c1 : i < 8 * k
      · rw [netBit_append_left _ _ _ (by omega), netBit_take, if_neg (by omega), decide_eq_true c1, Bool.true_and]
      · rw [netBit_append_right _ _ _ (by omega), hta]
        by_cases c2 : i < 8 * (k + a.length)
        · rw [netBit_append_left _ _ _ (by omega), if_pos (by omega)]
        · rw [netBit_append_right _ _ _ (by omega), netBit_drop, if_neg (by omega)]
          congr 1; omega
  refine ⟨⟨pre ++ ⟨IPv6, d'⟩ :: post, p.payload⟩, ?_, ?_⟩
  · have hfn : IsFirstNamed p.hdrs "IPv6" pre ip post := ⟨hs, by rw [Hdr.name, hty]; rfl, hnames⟩
    simp only [setAddr6, Packet.withHeaderMut, modifyFirst_of_first hfn, hty, if_true, Hdr.set_bytes, s1, bind, Except.bind, pure,
      Except.pure, Except.map]
  · have hv : (⟨pre ++ ⟨IPv6, d'⟩ :: post, p.payload⟩ : Packet).to_vec = f.take (l3At f) ++ putAt b k a := by
      rw [wire_split, w1, w3, hd, w2]
      congr 1
      conv => rhs; rw [← List.take_append_drop 40 b]
      rw [putAt_append _ _ _ _ (by rw [List.length_take]; omega)]
    have hle : k + a.length ≤ b.length := by omega
    unfold ipInput
    rw [hv, linkInput_front hli]
    simp only [if_neg he, if_pos he6]
    unfold ip6Input
    rw [putAt_length _ _ _ hle, putAt_u8 _ _ _ hle 0 (by omega), putAt_u8 _ _ _ hle 6 (by omega), putAt_u16 _ _ _ hle 4 (by omega),
      if_pos ⟨c1, c2, c3⟩, putAt_drop _ _ _ hle 40 (by omega)]
    rcases hk with rfl | rfl
    · rw [if_pos rfl, show ((putAt b 8 a).drop 8).take 16 = a from ha ▸ putAt_at b 8 a hle, putAt_drop _ _ _ hle 24 (by omega)]
    · rw [if_neg (by decide), putAt_before _ _ _ 8 16 hle (by decide), show ((putAt b 24 a).drop 24).take 16 = a from ha ▸ putAt_at b 24 a hle]

theorem addr6_length {f : Bytes} {g : Datagram} (hi : ipInput f = some g) (h6 : g.v6 = true) : g.src.length = 16 ∧ g.dst.length = 16 := by
  unfold ipInput at hi
  split at hi
  rotate_left
  · cases hi
  split at hi
  · unfold ip4Input at hi
    obtain ⟨-, hi⟩ := Option.ite_none_right_eq_some.mp hi
    cases hi
    cases h6
  · obtain ⟨-, hi⟩ := Option.ite_none_right_eq_some.mp hi
    unfold ip6Input at hi
    obtain ⟨c, hi⟩ := Option.ite_none_right_eq_some.mp hi
    cases hi
    constructor <;> simp <;> omega

theorem tail6 (pr : Nat) (h : pr = 17 ∨ pr = 6 ∨ pr = 58) (n : Nat) (r : Bytes) :
    (words (num32 n ++ ([0#8, 0#8, 0#8, BitVec.ofNat 8 pr] ++ r))).sum ≠ 0 := by
  rw [words_append _ _ (by rw [num32_length]), List.sum_append, words_append _ _ (by simp), List.sum_append]
  rcases h with rfl | rfl | rfl <;> simp [words]

theorem verifies6_src (g : Datagram) (h6 : g.v6 = true) (hp : g.proto = 17 ∨ g.proto = 6 ∨ g.proto = 58) (hs : g.src.length = 16)
    (hd : g.dst.length = 16) (a : Bytes) (ha : a.length = 16) (n : Nat) (r : Bytes) (hv : Verifies (g.pseudo n ++ r)) :
    Verifies (({ g with src := a } : Datagram).pseudo n ++ r) ↔ SameSum a g.src := by
  simp only [Datagram.pseudo, h6, if_true, List.append_assoc] at hv ⊢
  refine verifies_swap [] _ _ _ rfl (by rw [hs]) (by rw [ha]) ?_ hv
  rw [words_append _ _ (by rw [hd]), List.sum_append]
  have := tail6 g.proto hp n r
  omega

theorem verifies6_dst (g : Datagram) (h6 : g.v6 = true) (hp : g.proto = 17 ∨ g.proto = 6 ∨ g.proto = 58) (hs : g.src.length = 16)
    (hd : g.dst.length = 16) (a : Bytes) (ha : a.length = 16) (n : Nat) (r : Bytes) (hv : Verifies (g.pseudo n ++ r)) :
    Verifies (({ g with dst := a } : Datagram).pseudo n ++ r) ↔ SameSum a g.dst := by
  simp only [Datagram.pseudo, h6, if_true, List.append_assoc] at hv ⊢
  exact verifies_swap _ _ _ _ (by rw [hs]) (by rw [hd]) (by rw [ha]) (tail6 g.proto hp n r) hv

/-- **C101, another IPv6 source address.** No checksum is adjusted, and over IPv6 every message has one that covers the addresses: the
host takes the message iff the new address has the same sum as the old one. -/
theorem C101_source6 {chk : Bool} {f : Bytes} {g : Datagram} {p : Packet} (hi : ipInput f = some g) (h6 : g.v6 = true)
    (hp : Slow.parse chk f = .ok p) (hg : ∀ g ∈ p.hdrs, g.ty = GRE → greOptCount g.data ≤ 1) (a : Bytes) (ha : a.length = 16) :
    ∃ q, setAddr6 chk 8 a p = .ok q ∧
      (∀ m, hostUdp f = some m → hostUdp q.to_vec = if SameSum a m.src then some { m with src := a } else none) ∧
      (∀ m, hostTcp f = some m → hostTcp q.to_vec = if SameSum a m.src then some { m with src := a } else none) ∧
      (∀ m, hostIcmp f = some m → hostIcmp q.to_vec = if SameSum a m.src then some { m with src := a } else none) := by
  obtain ⟨q, e, h⟩ := setAddr6_frame hi h6 hp hg 8 a ha (.inl rfl)
  obtain ⟨hs, hd⟩ := addr6_length hi h6
  rw [if_pos rfl] at h
  refine ⟨q, e, fun m hm => ?_, fun m hm => ?_, fun m hm => ?_⟩
  · rw [hostUdp, hi, Option.bind_some] at hm
    rw [hostUdp, h, Option.bind_some]
    unfold udpInput at hm ⊢
    simp only at hm ⊢
    obtain ⟨⟨c1, c2, c3, c4⟩, hm⟩ := Option.ite_none_right_eq_some.mp hm
    cases hm
    rcases c4 with c4 | c4
    · rw [h6] at c4; cases c4.2
    have k := verifies6_src g h6 (.inl c1) hs hd a ha _ _ c4.2
    by_cases c : SameSum a g.src
    · rw [if_pos ⟨c1, c2, c3, .inr ⟨c4.1, k.mpr c⟩⟩, if_pos c]
    · rw [if_neg (fun d => ?_), if_neg c]
      rcases d.2.2.2 with d | d
      · exact c4.1 d.1
      · exact c (k.mp d.2)
  · rw [hostTcp, hi, Option.bind_some] at hm
    rw [hostTcp, h, Option.bind_some]
    unfold tcpInput at hm ⊢
    simp only at hm ⊢
    obtain ⟨⟨c1, c2, c3, c4⟩, hm⟩ := Option.ite_none_right_eq_some.mp hm
    cases hm
    have k := verifies6_src g h6 (.inr (.inl c1)) hs hd a ha _ _ c4
    by_cases c : SameSum a g.src
    · rw [if_pos ⟨c1, c2, c3, k.mpr c⟩, if_pos c]
    · rw [if_neg (fun d => c (k.mp d.2.2.2)), if_neg c]
  · rw [hostIcmp, hi, Option.bind_some] at hm
    rw [hostIcmp, h, Option.bind_some]
    unfold icmpInput at hm ⊢
    simp only at hm ⊢
    obtain ⟨⟨c1, c2⟩, hm⟩ := Option.ite_none_right_eq_some.mp hm
    cases hm
    rcases c2 with c2 | c2
    rotate_left
    · rw [h6] at c2; cases c2.1
    have k := verifies6_src g h6 (.inr (.inr c2.2.1)) hs hd a ha _ _ c2.2.2
    by_cases c : SameSum a g.src
    · rw [if_pos ⟨c1, .inl ⟨c2.1, c2.2.1, k.mpr c⟩⟩, if_pos c]
    · rw [if_neg (fun d => ?_), if_neg c]
      rcases d.2 with d | d
      · exact c (k.mp d.2.2)
      · rw [h6] at d; cases d.1

/-- **C101, another IPv6 destination address.** Likewise. -/
theorem C101_destination6 {chk : Bool} {f : Bytes} {g : Datagram} {p : Packet} (hi : ipInput f = some g) (h6 : g.v6 = true)
    (hp : Slow.parse chk f = .ok p) (hg : ∀ g ∈ p.hdrs, g.ty = GRE → greOptCount g.data ≤ 1) (a : Bytes) (ha : a.length = 16) :
    ∃ q, setAddr6 chk 24 a p = .ok q ∧
      (∀ m, hostUdp f = some m → hostUdp q.to_vec = if SameSum a m.dst then some { m with dst := a } else none) ∧
      (∀ m, hostTcp f = some m → hostTcp q.to_vec = if SameSum a m.dst then some { m with dst := a } else none) ∧
      (∀ m, hostIcmp f = some m → hostIcmp q.to_vec = if SameSum a m.dst then some { m with dst := a } else none) := by
  obtain ⟨q, e, h⟩ := setAddr6_frame hi h6 hp hg 24 a ha (.inr rfl)
  obtain ⟨hs, hd⟩ := addr6_length hi h6
  rw [if_neg (by decide)] at h
  refine ⟨q, e, fun m hm => ?_, fun m hm => ?_, fun m hm => ?_⟩
  · rw [hostUdp, hi, Option.bind_some] at hm
    rw [hostUdp, h, Option.bind_some]
    unfold udpInput at hm ⊢
    simp only at hm ⊢
    obtain ⟨⟨c1, c2, c3, c4⟩, hm⟩ := Option.ite_none_right_eq_some.mp hm
    cases hm
    rcases c4 with c4 | c4
    · rw [h6] at c4; cases c4.2
    have k := verifies6_dst g h6 (.inl c1) hs hd a ha _ _ c4.2
    by_cases c : SameSum a g.dst
    · rw [if_pos ⟨c1, c2, c3, .inr ⟨c4.1, k.mpr c⟩⟩, if_pos c]
    · rw [if_neg (fun d => ?_), if_neg c]
      rcases d.2.2.2 with d | d
      · exact c4.1 d.1
      · exact c (k.mp d.2)
  · rw [hostTcp, hi, Option.bind_some] at hm
    rw [hostTcp, h, Option.bind_some]
    unfold tcpInput at hm ⊢
    simp only at hm ⊢
    obtain ⟨⟨c1, c2, c3, c4⟩, hm⟩ := Option.ite_none_right_eq_some.mp hm
    cases hm
    have k := verifies6_dst g h6 (.inr (.inl c1)) hs hd a ha _ _ c4
    by_cases c : SameSum a g.dst
    · rw [if_pos ⟨c1, c2, c3, k.mpr c⟩, if_pos c]
    · rw [if_neg (fun d => c (k.mp d.2.2.2)), if_neg c]
  · rw [hostIcmp, hi, Option.bind_some] at hm
    rw [hostIcmp, h, Option.bind_some]
    unfold icmpInput at hm ⊢
    simp only at hm ⊢
    obtain ⟨⟨c1, c2⟩, hm⟩ := Option.ite_none_right_eq_some.mp hm
    cases hm
    rcases c2 with c2 | c2
    rotate_left
    · rw [h6] at c2; cases c2.1
    have k := verifies6_dst g h6 (.inr (.inr c2.2.1)) hs hd a ha _ _ c2.2.2
    by_cases c : SameSum a g.dst
    · rw [if_pos ⟨c1, .inl ⟨c2.1, c2.2.1, k.mpr c⟩⟩, if_pos c]
    · rw [if_neg (fun d => ?_), if_neg c]
      rcases d.2 with d | d
      · exact c (k.mp d.2.2)
      · rw [h6] at d; cases d.1

/-- Over IPv6: other link addresses, another hop limit, a tag put in and taken out again change nothing; a second tag hides the
datagram.  Another address is taken when its words have the same sum, here with the last two words exchanged. -/
example :
    let f : Bytes := [0, 17, 34, 51, 68, 85, 0, 6, 7, 8, 9, 10, 134, 221, 96, 0, 0, 0, 0, 10, 17, 64, 32, 1, 0, 0, 0, 0, 0, 0, 0, 0, 0, 0,
      0, 0, 0, 1, 32, 1, 0, 0, 0, 0, 0, 0, 0, 0, 0, 0, 0, 0, 0, 2, 4, 210, 0, 53, 0, 10, 16, 19, 170, 187]
    let p := Sample.get (Slow.parse true f)
    let m : UdpMsg := ⟨[32, 1, 0, 0, 0, 0, 0, 0, 0, 0, 0, 0, 0, 0, 0, 1], [32, 1, 0, 0, 0, 0, 0, 0, 0, 0, 0, 0, 0, 0, 0, 2], 1234, 53,
      [170, 187]⟩
    let a : Bytes := [32, 1, 0, 0, 0, 0, 0, 0, 0, 0, 0, 0, 0, 1, 0, 0]
    let b : Bytes := [32, 1, 0, 0, 0, 0, 0, 0, 0, 0, 0, 0, 0, 2, 0, 0]
    let t := (Sample.get (tag true 3 10 p)).to_vec
    let pt := Sample.get (Slow.parse true t)
    hostUdp f = some m ∧ Slow.parse true f = .ok p ∧ (ipInput f).map (·.v6) = some true ∧ (∀ g ∈ p.hdrs, g.ty ≠ GRE) ∧
      hostUdp (Sample.get (editField Ether "Ether" Ether.dst 0xffffffffffff p)).to_vec = some m ∧
      hostUdp (Sample.get (editField IPv6 "IPv6" IPv6.hop_limit 3 p)).to_vec = some m ∧
      hostUdp (Sample.get (editField IPv6 "IPv6" IPv6.next_hdr 3 p)).to_vec = none ∧
      t.length = f.length + 4 ∧ u16At t 12 = 0x8100 ∧ hostUdp t = some m ∧
      hostUdp (Sample.get (tag true 3 10 pt)).to_vec = none ∧
      (Sample.get (untag true pt)).to_vec = f ∧
      hostUdp (Sample.get (editField Vlan "Vlan" Vlan.vid 77 pt)).to_vec = some m ∧
      hostUdp (Sample.get (setAddr6 true 8 a p)).to_vec = some { m with src := a } ∧
      hostUdp (Sample.get (setAddr6 true 24 b p)).to_vec = some { m with dst := b } ∧
      hostUdp (Sample.get (setAddr6 true 8 b p)).to_vec = none ∧
      hostUdp (Sample.get (setAddr6 true 24 a p)).to_vec = none := by
  decide +kernel

/-- Which fields are harmless in that frame. -/
example :
    let f : Bytes := [0, 17, 34, 51, 68, 85, 0, 6, 7, 8, 9, 10, 134, 221, 96, 0, 0, 0, 0, 10, 17, 64, 32, 1, 0, 0, 0, 0, 0, 0, 0, 0, 0, 0,
      0, 0, 0, 1, 32, 1, 0, 0, 0, 0, 0, 0, 0, 0, 0, 0, 0, 0, 0, 2, 4, 210, 0, 53, 0, 10, 16, 19, 170, 187]
    Harmless f Ether Ether.dst ∧ Harmless f Ether Ether.src ∧ ¬ Harmless f Ether Ether.etype ∧ ¬ Harmless f Vlan Vlan.vid ∧
      Harmless f IPv6 IPv6.traffic_class ∧ Harmless f IPv6 IPv6.flow_label ∧ Harmless f IPv6 IPv6.hop_limit ∧
      ¬ Harmless f IPv6 IPv6.version ∧ ¬ Harmless f IPv6 IPv6.payload_len ∧ ¬ Harmless f IPv6 IPv6.next_hdr := by
  simp only [Harmless]
  refine ⟨?_, ?_, ?_, ?_, ?_, ?_, ?_, ?_, ?_, ?_⟩ <;> decide +kernel

end PacketRs
