import Verif.Props.Fields
import Verif.Props.Checksum
import Verif.Props.BuildersShape
import Verif.Props.Show
/-!
# Property C76: debug and release builds agree, and where they do not

`chk` is the profile: with overflow checks (debug) or without (release). Every theorem of the other files holds for both
values; here the results of the two are compared.
-/
namespace PacketRs
open Spec Utils

/-! ## Parsers -/

/-- **C76, slow parser**: both profiles return the same packet or fail in the same way, on every input. -/
theorem C76_parse (b : Bytes) : Slow.parse true b = Slow.parse false b := by
  cases ht : Slow.parse true b with
  | ok p =>
    obtain ⟨hs, pl⟩ := p
    rw [(C21_parse_frame false b hs pl).mpr ((C21_parse_frame true b hs pl).mp ht)]
  | error e =>
    cases hf : Slow.parse false b with
    | ok p =>
      obtain ⟨hs, pl⟩ := p
      rw [(C21_parse_frame true b hs pl).mpr ((C21_parse_frame false b hs pl).mp hf)] at ht
      exact nomatch ht
    | error e' =>
      rcases C20_slow_parse_terminates true b with h | ⟨p, h, -⟩
      · rcases C20_slow_parse_terminates false b with h' | ⟨p, h', -⟩
        · rw [h] at ht; rw [h'] at hf; cases ht; cases hf; rfl
        · rw [h'] at hf; exact nomatch hf
      · rw [h] at ht; exact nomatch ht

/-- **C76, fast parser**: the same windows into the frame, layer by layer. -/
theorem C76_fast_layer (l : Layer) (w : Fast.Win) (hb : w.InBounds) : Fast.parseL true l w = Fast.parseL false l w := by
  suffices H : ∀ m l (w : Fast.Win), w.len ≤ m → w.InBounds → Fast.parseL true l w = Fast.parseL false l w from
    H w.len l w (Nat.le_refl _) hb
  intro m
  induction m with
  | zero =>
    intro l w hm hb
    by_cases hl : l = .payload
    · subst hl; rfl
    · rw [Fast.parseL_eq _ _ _ hb hl, Fast.parseL_eq _ _ _ hb hl]
      match e : lay l w.bytes with
      | none => rfl
      | some (hs, n, l') =>
        have hn := Fast.lay_bounds e
        rw [w.length_bytes hb] at hn
        omega
  | succ m ih =>
    intro l w hm hb
    by_cases hl : l = .payload
    · subst hl; rfl
    · rw [Fast.parseL_eq _ _ _ hb hl, Fast.parseL_eq _ _ _ hb hl]
      match e : lay l w.bytes with
      | none => rfl
      | some (hs, n, l') =>
        have hn := Fast.lay_bounds e
        rw [w.length_bytes hb] at hn
        simp only [Fast.stepThen]
        rw [ih l' (w.sub n (w.len - n)) (by simp only [Fast.Win.sub]; omega) (Fast.drop_inBounds w hb n hn.2.2)]

theorem C76_fast_parse (w : Fast.Win) (hb : w.InBounds) : Fast.parse true w = Fast.parse false w := by
  rw [Fast.parse_eq _ _ hb, Fast.parse_eq _ _ hb, C76_fast_layer _ w hb]

/-! ## Accessors -/

theorem bitRange_profile (d : Bytes) (hi lo : Nat) (h1 : lo ≤ hi) (h2 : hi - lo < 64) :
    bitRange true d hi lo = bitRange false d hi lo := by
  by_cases h3 : hi / 8 < d.length
  · rw [bitRange_toNat true d lo hi h1 h2 h3, bitRange_toNat false d lo hi h1 h2 h3]
  · rw [bitRange_err true d lo hi h1 (by omega), bitRange_err false d lo hi h1 (by omega)]

/-- **C76, getters.** They agree exactly for fields of at most 64 bits and for fields that end outside the data (where
both panic on the index). -/
theorem C76_get_iff (h : Hdr) (f : Field) (h1 : f.lo ≤ f.hi) (hw : f.width < 2 ^ 64) :
    h.get true f = h.get false f ↔ f.width ≤ 64 ∨ h.data.length ≤ f.hi / 8 := by
  constructor
  · intro e
    by_cases hb : f.hi / 8 < h.data.length
    · left
      rcases Nat.lt_or_ge 64 f.width with h64 | h64
      · obtain ⟨v, hv, -⟩ := C07_wide_getter_unchecked h f ⟨h1, by omega⟩ h64 hw
        rw [C07_wide_getter_checked h f ⟨h1, by omega⟩ h64 hw, hv] at e
        exact nomatch e
      · exact h64
    · right; omega
  · rintro (h64 | hb)
    · exact bitRange_profile _ _ _ h1 (by unfold Field.width at h64; omega)
    · rw [Hdr.get, Hdr.get, bitRange_err true _ _ _ h1 hb, bitRange_err false _ _ _ h1 hb]

theorem foldlM_congr {α β : Type} {f g : β → α → R β} (h : ∀ x a, f x a = g x a) (l : List α) (x : β) :
    l.foldlM f x = l.foldlM g x := by
  rw [show f = g from funext fun x => funext fun a => h x a]

theorem usizeSub_wrap (a b : Nat) (h : ¬ b ≤ a) : usizeSub false a b = .ok (a + 2 ^ 64 - b) := by
  rw [usizeSub, if_neg h, if_neg Bool.false_ne_true]

theorem usizeAdd_wrap (a b : Nat) : usizeAdd false a b = .ok (if a + b < 2 ^ 64 then a + b else (a + b) % 2 ^ 64) := by
  rw [usizeAdd]
  by_cases h : a + b < 2 ^ 64
  · rw [if_pos h, if_pos h]
  · rw [if_neg h, if_neg h, if_neg Bool.false_ne_true]

theorem getBytes_empty (chk : Bool) (d : Bytes) (msb lsb a w : Nat) (h1 : usizeSub chk msb lsb = .ok a)
    (h2 : usizeAdd chk a 1 = .ok w) (hr : inclRangeStep8 lsb msb = []) :
    getBytes chk d msb lsb = if w % 8 = 0 then .ok [] else .error .assert := by
  rw [getBytes, h1]
  simp only [bind, Except.bind]
  rw [h2, hr]
  by_cases h : w % 8 = 0
  · simp [h, pure, Except.pure]
  · simp [h, throw, throwThe, MonadExceptOf.throw]

theorem setBytes_empty (chk : Bool) (d v : Bytes) (msb lsb a w : Nat) (h1 : usizeSub chk msb lsb = .ok a)
    (h2 : usizeAdd chk a 1 = .ok w) (hr : inclRangeStep8 lsb msb = []) :
    setBytes chk d msb lsb v = if v.length * 8 = w then .ok d else .error .assert := by
  rw [setBytes, h1]
  simp only [bind, Except.bind]
  rw [h2, hr]
  by_cases h : v.length * 8 = w
  · simp [h, pure, Except.pure]
  · simp [h, throw, throwThe, MonadExceptOf.throw]

/-- The width computed without overflow checks from a reversed range. -/
theorem wrapped_width (msb lsb : Nat) (hl : lsb < 2 ^ 64) (hlt : msb < lsb) :
    ∃ a w, usizeSub false msb lsb = .ok a ∧ usizeAdd false a 1 = .ok w ∧ (w + (lsb - msb)) % 2 ^ 64 = 1 ∧ w < 2 ^ 64 := by
  refine ⟨_, _, usizeSub_wrap msb lsb (by omega), usizeAdd_wrap _ _, ?_, ?_⟩
  · split <;> omega
  · split <;> omega

/-- **C76, `bytes`.** They agree on every range that is not reversed. On a reversed one the debug build panics on the
subtraction; the release build returns no bytes if the distance is one more than a multiple of eight, and fails its assertion
otherwise. -/
theorem C76_bytes (h : Hdr) (msb lsb : Nat) (hl : lsb < 2 ^ 64) (hm : msb < 2 ^ 64 - 1) :
    (lsb ≤ msb → h.bytes true msb lsb = h.bytes false msb lsb) ∧
      (msb < lsb → h.bytes true msb lsb = .error .overflow ∧
        h.bytes false msb lsb = if (lsb - msb) % 8 = 1 then .ok [] else .error .assert) := by
  constructor
  · intro hle
    simp only [Hdr.bytes, getBytes, usizeSub_ok _ msb lsb hle, bind, Except.bind, usizeAdd_ok _ (msb - lsb) 1 (by omega)]
    split
    · rfl
    · refine foldlM_congr (fun x i => ?_) _ _
      rw [bitRange_profile _ _ _ (by omega) (by omega)]
  · intro hlt
    have hn : ¬ lsb ≤ msb := by omega
    have hr : inclRangeStep8 lsb msb = [] := by
      rw [inclRangeStep8, show (msb + 1 - lsb + 7) / 8 = 0 by omega]; rfl
    refine ⟨by simp [Hdr.bytes, getBytes, usizeSub, hn, bind, Except.bind], ?_⟩
    obtain ⟨a, w, ha, hw, hs, hlt'⟩ := wrapped_width msb lsb hl hlt
    rw [Hdr.bytes, getBytes_empty _ _ _ _ a w ha hw hr]
    by_cases h8 : (lsb - msb) % 8 = 1
    · rw [if_pos h8, if_pos (by omega)]
    · rw [if_neg h8, if_neg (by omega)]

/-- **C76, `set_bytes`.** They agree on every range that is not reversed. On a reversed one the debug build panics on the
subtraction; the release build does nothing if the range is reversed by one and there is nothing to store, and fails its
assertion otherwise. -/
theorem C76_set_bytes (h : Hdr) (msb lsb : Nat) (v : Bytes) (hl : lsb < 2 ^ 63) (hm : msb < 2 ^ 64 - 1)
    (hv : v.length < 2 ^ 60) :
    (lsb ≤ msb → h.set_bytes true msb lsb v = h.set_bytes false msb lsb v) ∧
      (msb < lsb → h.set_bytes true msb lsb v = .error .overflow ∧
        h.set_bytes false msb lsb v = if lsb = msb + 1 ∧ v = [] then .ok h else .error .assert) := by
  constructor
  · intro hle
    simp only [Hdr.set_bytes, setBytes, usizeSub_ok _ msb lsb hle, bind, Except.bind, usizeAdd_ok _ (msb - lsb) 1 (by omega)]
  · intro hlt
    have hn : ¬ lsb ≤ msb := by omega
    have hr : inclRangeStep8 lsb msb = [] := by
      rw [inclRangeStep8, show (msb + 1 - lsb + 7) / 8 = 0 by omega]; rfl
    refine ⟨by simp [Hdr.set_bytes, setBytes, usizeSub, hn, bind, Except.bind], ?_⟩
    obtain ⟨a, w, ha, hw, hs, hlt'⟩ := wrapped_width msb lsb (by omega) hlt
    rw [Hdr.set_bytes, setBytes_empty _ _ _ _ _ a w ha hw hr]
    by_cases he : lsb = msb + 1 ∧ v = []
    · obtain ⟨rfl, rfl⟩ := he
      rw [if_pos (by simp only [List.length_nil]; omega), if_pos ⟨rfl, rfl⟩]; rfl
    · have : ¬ v.length * 8 = w := by
        intro e
        refine he ⟨by omega, List.length_eq_zero_iff.mp (by omega)⟩
      rw [if_neg this, if_neg he]; rfl

/-- A getter that agrees, one that does not, one that panics alike on short data; ranges in order and reversed. -/
example : ((IPv4.new).get true IPv4.src = (IPv4.new).get false IPv4.src ∧
      (IPv6.new).get true IPv6.src ≠ (IPv6.new).get false IPv6.src ∧
      (Hdr.mk IPv6 []).get true IPv6.src = (Hdr.mk IPv6 []).get false IPv6.src) ∧
    ((IPv4.new).bytes true 15 0 = .ok [0x45#8, 0#8] ∧ (IPv4.new).bytes false 15 0 = .ok [0x45#8, 0#8]) ∧
    ((IPv4.new).bytes true 7 8 = .error .overflow ∧ (IPv4.new).bytes false 7 8 = .ok []) ∧
    ((IPv4.new).bytes true 7 10 = .error .overflow ∧ (IPv4.new).bytes false 7 10 = .error .assert) ∧
    ((IPv4.new).set_bytes true 7 8 [] = .error .overflow ∧ (IPv4.new).set_bytes false 7 8 [] = .ok IPv4.new) := by
  decide +kernel

/-! ## The checksum -/

theorem sum0_mono (v : Bytes) (k : Nat) : sum0 v k ≤ sum0 v (k + 1) := by rw [sum0_succ]; omega

theorem checksumStep_word (chk : Bool) (v : Bytes) (s j : Nat) (hl : 2 * j + 1 < v.length ∨ j = 5) :
    Packet.checksumStep chk v (BitVec.ofNat 32 s) (2 * j) =
      if chk = true ∧ j ≠ 5 ∧ 2 ^ 32 ≤ s % 2 ^ 32 + word0 v j then .error .overflow
      else .ok (BitVec.ofNat 32 (s + word0 v j)) := by
  by_cases hs : s % 2 ^ 32 + word0 v j < 2 ^ 32
  · rw [if_neg (by omega)]
    have := checksumStep_ok chk v (s % 2 ^ 32) j hl hs
    rw [show BitVec.ofNat 32 (s % 2 ^ 32) = BitVec.ofNat 32 s by
      apply BitVec.eq_of_toNat_eq; simp [BitVec.toNat_ofNat]] at this
    rw [this]
    congr 1
    apply BitVec.eq_of_toNat_eq
    simp only [BitVec.toNat_ofNat]; omega
  · have h5 : j ≠ 5 := by
      rintro rfl
      apply hs
      rw [show word0 v 5 = 0 from rfl]
      omega
    have hl : 2 * j + 1 < v.length := by omega
    unfold Packet.checksumStep
    rw [if_neg (by omega), index_ok v _ (by omega), index_ok v _ hl]
    simp only [bind, Except.bind]
    have hw : (((v.getD (2 * j) 0#8).setWidth 16 <<< 8).setWidth 32 ||| (v.getD (2 * j + 1) 0#8).setWidth 32 : U32)
        = BitVec.ofNat 32 (word0 v j) := by
      have := checksumStep_ok false v 0 j (.inl hl) (by have := word0_lt v j; omega)
      unfold Packet.checksumStep at this
      rw [if_neg (by omega), index_ok v _ (by omega), index_ok v _ hl] at this
      simp only [bind, Except.bind] at this
      have hz : ∀ x : U32, (BitVec.ofNat 32 0).toNat + x.toNat < 2 ^ 32 := by
        intro x; have := x.isLt; simpa using this
      rw [if_pos (hz _)] at this
      have := Except.ok.inj this
      simpa using this
    rw [hw]
    have : ¬ (BitVec.ofNat 32 s).toNat + (BitVec.ofNat 32 (word0 v j)).toNat < 2 ^ 32 := by
      have := word0_lt v j
      simp only [BitVec.toNat_ofNat]; omega
    rw [if_neg this]
    cases chk with
    | true => rw [if_pos rfl, if_pos ⟨rfl, h5, by omega⟩]; rfl
    | false => rw [if_neg (by decide), if_neg (by simp), BitVec.ofNat_add]; rfl

theorem checksumLoop_unchecked (v : Bytes) (k : Nat) (hl : ∀ j < k, 2 * j + 1 < v.length ∨ j = 5) :
    (List.range' 0 k 2).foldlM (Packet.checksumStep false v) 0#32 = .ok (BitVec.ofNat 32 (sum0 v k)) := by
  induction k with
  | zero => rfl
  | succ k ih =>
    rw [List.range'_concat, List.foldlM_append, ih (fun j hj => hl j (by omega))]
    simp only [Nat.zero_add, List.foldlM_cons, List.foldlM_nil, bind, Except.bind]
    rw [checksumStep_word false v _ k (hl k (by omega)), sum0_succ, if_neg (by simp)]
    rfl

theorem checksumLoop_checked (v : Bytes) (k : Nat) (hl : ∀ j < k, 2 * j + 1 < v.length ∨ j = 5) :
    (List.range' 0 k 2).foldlM (Packet.checksumStep true v) 0#32 =
      if sum0 v k < 2 ^ 32 then .ok (BitVec.ofNat 32 (sum0 v k)) else .error .overflow := by
  induction k with
  | zero => rfl
  | succ k ih =>
    rw [List.range'_concat, List.foldlM_append, ih (fun j hj => hl j (by omega))]
    by_cases hs : sum0 v k < 2 ^ 32
    · rw [if_pos hs]
      simp only [Nat.zero_add, List.foldlM_cons, List.foldlM_nil, bind, Except.bind]
      rw [checksumStep_word true v _ k (hl k (by omega)), sum0_succ, Nat.mod_eq_of_lt hs]
      by_cases h2 : sum0 v k + word0 v k < 2 ^ 32
      · rw [if_neg (by omega), if_pos h2]; rfl
      · have h5 : k ≠ 5 := by
          rintro rfl
          exact h2 (by rw [show word0 v 5 = 0 from rfl]; omega)
        rw [if_pos ⟨rfl, h5, by omega⟩, if_neg h2]
    · have := sum0_mono v k
      rw [if_neg hs, if_neg (by omega)]
      rfl

theorem foldLoop_unchecked (s : U32) : ∃ c, Packet.foldLoop false s = .ok c := by
  fun_induction Packet.foldLoop false s with
  | case1 => simp_all
  | case2 _ _ _ ih => exact ih
  | case3 => exact ⟨_, rfl⟩

theorem foldLoop_overflow (s : Nat) (h : s < 2 ^ 32) (ho : 2 ^ 32 ≤ s / 65536 + s) :
    Packet.foldLoop true (BitVec.ofNat 32 s) = .error .overflow := by
  have hn : (BitVec.ofNat 32 s >>> 16).toNat = s / 65536 := by
    simp only [BitVec.toNat_ushiftRight, BitVec.toNat_ofNat, Nat.shiftRight_eq_div_pow]; omega
  unfold Packet.foldLoop
  rw [dif_pos, if_pos]
  · refine ⟨rfl, ?_⟩
    rw [hn]; simp only [BitVec.toNat_ofNat]; omega
  · intro hc
    rw [hc] at hn
    simp at hn
    omega

/-- **C76, checksum.** On the lengths on which `ipv4_checksum` returns at all (C40), the debug build panics iff the sum of the
words, folded once, does not fit 32 bits; the release build always returns. So they agree iff it fits, in particular for every
buffer of at most 2^17 octets (C39). -/
theorem C76_checksum_iff (v : Bytes) (hl : v.length % 2 = 0 ∨ v.length = 11) :
    (∃ c, Packet.ipv4_checksum false v = .ok c) ∧
      (Packet.ipv4_checksum true v = .error .overflow ↔ 2 ^ 32 ≤ plainSum v / 65536 + plainSum v) ∧
      (Packet.ipv4_checksum true v = Packet.ipv4_checksum false v ↔ plainSum v / 65536 + plainSum v < 2 ^ 32) := by
  have hr : ∀ j < (v.length + 1) / 2, 2 * j + 1 < v.length ∨ j = 5 := fun j hj => by omega
  obtain ⟨c, hc⟩ := foldLoop_unchecked (BitVec.ofNat 32 (sum0 v ((v.length + 1) / 2)))
  have hf : Packet.ipv4_checksum false v = .ok (~~~(c.setWidth 16)) := by
    unfold Packet.ipv4_checksum
    rw [checksumLoop_unchecked v _ hr]
    simp only [bind, Except.bind, hc]
    rfl
  have hov : 2 ^ 32 ≤ plainSum v / 65536 + plainSum v → Packet.ipv4_checksum true v = .error .overflow := by
    intro ho
    unfold Packet.ipv4_checksum
    rw [checksumLoop_checked v _ hr, ← plainSum_eq]
    by_cases hs : plainSum v < 2 ^ 32
    · rw [if_pos hs]
      simp only [bind, Except.bind, foldLoop_overflow _ hs ho]
    · rw [if_neg hs]; rfl
  have hok : plainSum v / 65536 + plainSum v < 2 ^ 32 → Packet.ipv4_checksum true v = Packet.ipv4_checksum false v := by
    intro ho
    unfold Packet.ipv4_checksum
    rw [checksumLoop_checked v _ hr, checksumLoop_unchecked v _ hr, ← plainSum_eq, if_pos (by omega)]
    simp only [bind, Except.bind]
    rw [foldLoop_ok true _ (by omega), foldLoop_ok false _ (by omega)]
  refine ⟨⟨_, hf⟩, ⟨fun e => ?_, hov⟩, ⟨fun e => ?_, hok⟩⟩
  · rcases Nat.lt_or_ge (plainSum v / 65536 + plainSum v) (2 ^ 32) with h | h
    · rw [hok h, hf] at e; exact nomatch e
    · exact h
  · rcases Nat.lt_or_ge (plainSum v / 65536 + plainSum v) (2 ^ 32) with h | h
    · exact h
    · rw [hov h, hf] at e; exact nomatch e

/-- All-ones words, the word of the checksum field left out. -/
theorem sum0_ones (n k : Nat) (hk : k ≤ n) :
    sum0 (List.replicate (2 * n) 0xff#8) k = 65535 * (if 5 < k then k - 1 else k) := by
  induction k with
  | zero => rfl
  | succ k ih =>
    rw [sum0_succ, ih (by omega)]
    by_cases h5 : k = 5
    · subst h5; rw [show word0 _ 5 = 0 from rfl]; rfl
    · have hw : word0 (List.replicate (2 * n) 0xff#8) k = 65535 := by
        unfold word0
        rw [if_neg h5, word]
        simp [List.getD_eq_getElem?_getD, show 2 * k < 2 * n by omega,
          show 2 * k + 1 < 2 * n by omega]
      rw [hw]
      split <;> split <;> omega

/-- The boundary is met: among buffers of `n` all-ones words, those up to 65537 words give the same result, longer ones panic in
the debug build only. -/
theorem C76_checksum_ones (n : Nat) (hn : 6 ≤ n) :
    Packet.ipv4_checksum true (List.replicate (2 * n) 0xff#8) = Packet.ipv4_checksum false (List.replicate (2 * n) 0xff#8) ↔
      n ≤ 65537 := by
  rw [(C76_checksum_iff _ (.inl (by simp))).2.2, plainSum_eq]
  rw [List.length_replicate, show (2 * n + 1) / 2 = n by omega, sum0_ones n n (Nat.le_refl _), if_pos (by omega)]
  omega

/-- Both sides of the boundary. -/
example : (Packet.ipv4_checksum true (List.replicate (2 * 65537) 0xff#8) =
      Packet.ipv4_checksum false (List.replicate (2 * 65537) 0xff#8)) ∧
    Packet.ipv4_checksum true (List.replicate (2 * 65538) 0xff#8) ≠
      Packet.ipv4_checksum false (List.replicate (2 * 65538) 0xff#8) :=
  ⟨(C76_checksum_ones 65537 (by omega)).mpr (by omega), fun h => absurd ((C76_checksum_ones 65538 (by omega)).mp h) (by omega)⟩

/-! ## `show` -/

theorem forEach_congr {α : Type} {l : List α} {f g : α → Out Unit} (h : ∀ a ∈ l, f a = g a) :
    Out.forEach l f = Out.forEach l g := by
  induction l with
  | nil => rfl
  | cons a l ih =>
    simp only [Out.forEach]
    rw [h a (by simp), ih fun x hx => h x (by simp [hx])]

theorem showField_profile (d : Bytes) (f : Field) (h1 : f.lo ≤ f.hi) :
    showField (bitRange true d) f = showField (bitRange false d) f := by
  have ho : ∀ n, showOctets (bitRange true d) f.lo n = showOctets (bitRange false d) f.lo n := by
    intro n
    refine forEach_congr fun i _ => ?_
    rw [bitRange_profile d (i + 7) i (by omega) (by omega)]
  unfold showField
  congr 1
  funext _
  by_cases h8 : f.width ≤ 8
  · simp only [h8, if_true]
    rw [bitRange_profile d f.hi f.lo h1 (by unfold Field.width at h8; omega)]
  · simp only [h8, if_false]
    rw [ho, bitRange_profile d f.hi (f.hi - f.width % 8) (by omega) (by omega)]

/-- **C76, `show`**: for every header type whose fields are not reversed, e.g. every predefined one (C05), and all data. -/
theorem C76_show (h : Hdr) (hf : ∀ f ∈ h.ty.fields, f.lo ≤ f.hi) : h.show true = h.show false := by
  unfold Hdr.show showHeader
  rw [forEach_congr fun f hm => showField_profile h.data f (hf f hm)]

theorem C76_show_packet (p : Packet) (hf : ∀ h ∈ p.hdrs, ∀ f ∈ h.ty.fields, f.lo ≤ f.hi) : p.show true = p.show false := by
  unfold Packet.show
  rw [forEach_congr fun h hm => C76_show h (hf h hm)]

example : ((Fast.Win.ofBytes exFrame).InBounds ∧ (Slow.parse true exFrame).toOption.isSome) ∧
    (∀ f ∈ IPv6.fields, f.lo ≤ f.hi) ∧ ∃ f ∈ IPv6.fields, 64 < f.width :=
  ⟨⟨by simp [Fast.Win.ofBytes, Fast.Win.InBounds], by decide +kernel⟩, by decide, by decide⟩

/-! ## Constructors and builders -/

/-- **C76, the IPv4 constructor**, the only one that computes with overflow checks. -/
theorem C76_ipv4 (ihl tos : Byte) (id : U16) (ttl : Byte) (frag : U16) (proto : Byte) (src dst : Str) (n : U16) :
    Packet.ipv4 true ihl tos id ttl frag proto src dst n = Packet.ipv4 false ihl tos id ttl frag proto src dst n := by
  unfold Packet.ipv4
  cases hs : to_ipv4_bytes src with
  | error e => rfl
  | ok s =>
    cases hd : to_ipv4_bytes dst with
    | error e => rfl
    | ok d =>
      simp only [bind, Except.bind]
      have h1 := C32_length _ _ hs
      have h2 := C32_length _ _ hd
      rw [checksum_eq true _ (.inl (by simp [be16, h1, h2])) (by simp [be16, h1, h2]),
        checksum_eq false _ (.inl (by simp [be16, h1, h2])) (by simp [be16, h1, h2])]

section
variable (p6 : Ipv6FromStr) (eth_dst eth_src : Str) (ve : Bool) (vid : U16) (pcp ihl : Byte) (src dst : Str)
  (tos ttl : Byte) (id frag : U16) (opts payload : Bytes) (tc : Byte) (flow : U32) (hl : Byte)

theorem C76_create_ipv4 (proto : Byte) :
    create_ipv4_packet true eth_dst eth_src ve vid pcp ihl src dst proto tos ttl id frag opts payload =
      create_ipv4_packet false eth_dst eth_src ve vid pcp ihl src dst proto tos ttl id frag opts payload := by
  unfold create_ipv4_packet
  rw [show @Packet.ipv4 true = @Packet.ipv4 false by funext _ _ _ _ _ _ _ _ _; exact C76_ipv4 ..]

/-- Building and then growing the IPv4 header. -/
theorem grown_profile (proto : Byte) (n : Nat) :
    (create_ipv4_packet true eth_dst eth_src ve vid pcp ihl src dst proto tos ttl id frag opts payload >>= fun p =>
        growIpv4 true p n) =
      (create_ipv4_packet false eth_dst eth_src ve vid pcp ihl src dst proto tos ttl id frag opts payload >>= fun p =>
        growIpv4 false p n) := by
  have e := C76_create_ipv4 eth_dst eth_src ve vid pcp ihl src dst tos ttl id frag opts payload proto
  cases hp : create_ipv4_packet true eth_dst eth_src ve vid pcp ihl src dst proto tos ttl id frag opts payload with
  | error x => rw [← e, hp]; rfl
  | ok p =>
    obtain ⟨⟨⟨d, hd⟩, s, hs⟩, ⟨si, his⟩, di, hid⟩ := Addrs4.of hp
    have g := fun c => grown c eth_dst eth_src ve vid pcp d s hd hs ⟨ihl, tos, id, ttl, frag, 0#8, si, di⟩ src dst his hid opts
      payload proto n
    rw [← hp]
    exact (g true).trans (g false).symm

theorem growIpv6_profile : @growIpv6 true = @growIpv6 false := by
  funext p n
  have hg : ∀ h : Hdr, h.get true IPv6.payload_len = h.get false IPv6.payload_len := fun h =>
    (C76_get_iff h IPv6.payload_len (by decide) (by decide)).mpr (.inl (by decide))
  simp only [growIpv6, hg]

theorem C76_create_tcp (tdst tsrc : U16) (seq ack : U32) (off res flags : Byte) (window urg : U16) (ck : Bool) :
    create_tcp_packet true eth_dst eth_src ve vid pcp ihl src dst tos ttl id frag opts tdst tsrc seq ack off res flags window
        urg ck payload =
      create_tcp_packet false eth_dst eth_src ve vid pcp ihl src dst tos ttl id frag opts tdst tsrc seq ack off res flags
        window urg ck payload := by
  unfold create_tcp_packet
  rw [← bind_assoc, ← bind_assoc, grown_profile]

theorem C76_create_udp (udst usrc : U16) (ck : Bool) :
    create_udp_packet true eth_dst eth_src ve vid pcp ihl src dst tos ttl id frag opts udst usrc ck payload =
      create_udp_packet false eth_dst eth_src ve vid pcp ihl src dst tos ttl id frag opts udst usrc ck payload := by
  unfold create_udp_packet
  rw [← bind_assoc, ← bind_assoc, grown_profile]

theorem C76_create_icmp (ty code : Byte) (idata : Bytes) (ck : Bool) :
    create_icmp_packet true eth_dst eth_src ve vid pcp ihl src dst tos ttl id frag opts ty code idata ck payload =
      create_icmp_packet false eth_dst eth_src ve vid pcp ihl src dst tos ttl id frag opts ty code idata ck payload := by
  unfold create_icmp_packet
  rw [← bind_assoc, ← bind_assoc, grown_profile]

theorem C76_create_ipv4ip (inner : Packet) :
    create_ipv4ip_packet true eth_dst eth_src ve vid pcp ihl src dst tos ttl id frag opts inner =
      create_ipv4ip_packet false eth_dst eth_src ve vid pcp ihl src dst tos ttl id frag opts inner := by
  unfold create_ipv4ip_packet
  simp only [C76_create_ipv4]

theorem C76_create_tcpv6 (tdst tsrc : U16) (seq ack : U32) (off res flags : Byte) (window urg : U16) :
    create_tcpv6_packet true p6 eth_dst eth_src ve vid pcp tc flow hl src dst tdst tsrc seq ack off res flags window urg
        payload =
      create_tcpv6_packet false p6 eth_dst eth_src ve vid pcp tc flow hl src dst tdst tsrc seq ack off res flags window urg
        payload := by
  unfold create_tcpv6_packet
  rw [growIpv6_profile]

theorem C76_create_udpv6 (udst usrc : U16) (ck : Bool) :
    create_udpv6_packet true p6 eth_dst eth_src ve vid pcp tc flow hl src dst udst usrc ck payload =
      create_udpv6_packet false p6 eth_dst eth_src ve vid pcp tc flow hl src dst udst usrc ck payload := by
  unfold create_udpv6_packet
  rw [growIpv6_profile]

theorem C76_create_icmpv6 (ty code : Byte) (idata : Bytes) (ck : Bool) :
    create_icmpv6_packet true p6 eth_dst eth_src ve vid pcp tc flow hl src dst ty code idata ck payload =
      create_icmpv6_packet false p6 eth_dst eth_src ve vid pcp tc flow hl src dst ty code idata ck payload := by
  unfold create_icmpv6_packet
  rw [growIpv6_profile]

theorem C76_create_vxlan (udst usrc : U16) (ck : Bool) (vni : U32) (inner : Packet) :
    create_vxlan_packet true eth_dst eth_src ve vid pcp ihl src dst tos ttl id frag opts udst usrc ck vni inner =
      create_vxlan_packet false eth_dst eth_src ve vid pcp ihl src dst tos ttl id frag opts udst usrc ck vni inner := by
  have hg : ∀ h : Hdr, h.get true IPv4.total_len = h.get false IPv4.total_len := fun h =>
    (C76_get_iff h IPv4.total_len (by decide) (by decide)).mpr (.inl (by decide))
  unfold create_vxlan_packet
  simp only [C76_create_ipv4, hg]

theorem C76_create_vxlanv6 (udst usrc : U16) (ck : Bool) (vni : U32) (inner : Packet) :
    create_vxlanv6_packet true p6 eth_dst eth_src ve vid pcp tc flow hl src dst udst usrc ck vni inner =
      create_vxlanv6_packet false p6 eth_dst eth_src ve vid pcp tc flow hl src dst udst usrc ck vni inner := by
  unfold create_vxlanv6_packet
  rw [growIpv6_profile]

theorem C76_create_gre (c r k q st : Bool) (flags ver : Byte) (gck goff : U16) (key seq : U32) (routing : Bytes)
    (inner : Option Packet) :
    create_gre_packet true eth_dst eth_src ve vid pcp ihl src dst tos ttl id frag opts c r k q st flags ver gck goff key seq
        routing inner =
      create_gre_packet false eth_dst eth_src ve vid pcp ihl src dst tos ttl id frag opts c r k q st flags ver gck goff key seq
        routing inner := by
  unfold create_gre_packet
  congr 1
  funext ⟨pr, v⟩
  dsimp only
  rw [← bind_assoc, ← bind_assoc, grown_profile]

theorem C76_create_erspan2 (seq : U32) (vlan : U16) (cos en t : Byte) (sid : U16) (idx : U32) (inner : Option Packet) :
    create_erspan_2_packet true eth_dst eth_src ve vid pcp ihl src dst tos ttl id frag opts seq vlan cos en t sid idx inner =
      create_erspan_2_packet false eth_dst eth_src ve vid pcp ihl src dst tos ttl id frag opts seq vlan cos en t sid idx
        inner := by
  unfold create_erspan_2_packet
  rw [← bind_assoc, ← bind_assoc, grown_profile]

theorem C76_create_erspan3 (seq : U32) (vlan : U16) (cos en t : Byte) (sid : U16) (ts : U32) (sgt ft : U16) (pid : Byte)
    (info : U64) (inner : Option Packet) :
    create_erspan_3_packet true eth_dst eth_src ve vid pcp ihl src dst tos ttl id frag opts seq vlan cos en t sid ts sgt ft pid
        info inner =
      create_erspan_3_packet false eth_dst eth_src ve vid pcp ihl src dst tos ttl id frag opts seq vlan cos en t sid ts sgt ft
        pid info inner := by
  unfold create_erspan_3_packet
  rw [← bind_assoc, ← bind_assoc, grown_profile]

end

end PacketRs
