import Verif.Bits
import Verif.Spec.Bits
/-!
# Lemmas about network bits and the accessor loops
-/
namespace PacketRs
open Spec

theorem beNat_foldl (d : Bytes) (a : Nat) :
    d.foldl (fun a b => a * 256 + b.toNat) a = a * 256 ^ d.length + beNat d := by
  induction d generalizing a with
  | nil => simp [beNat]
  | cons b d ih =>
    simp only [List.foldl_cons, List.length_cons, beNat]
    rw [ih, ih (0 * 256 + b.toNat), Nat.pow_succ]
    simp only [Nat.add_mul, Nat.zero_mul, Nat.zero_add, Nat.mul_assoc]
    rw [Nat.mul_comm 256, Nat.add_assoc]

@[simp] theorem beNat_nil : beNat [] = 0 := rfl

theorem beNat_cons (b : Byte) (d : Bytes) : beNat (b :: d) = b.toNat * 256 ^ d.length + beNat d := by
  conv => lhs; unfold beNat
  rw [List.foldl_cons, beNat_foldl]; simp

theorem beNat_append (a b : Bytes) : beNat (a ++ b) = beNat a * 256 ^ b.length + beNat b := by
  conv => lhs; unfold beNat
  rw [List.foldl_append, beNat_foldl]; rfl

theorem beNat_lt (d : Bytes) : beNat d < 256 ^ d.length := by
  induction d with
  | nil => simp
  | cons b d ih =>
    rw [beNat_cons, List.length_cons, Nat.pow_succ]
    have hb : b.toNat < 256 := b.isLt
    have : (b.toNat + 1) * 256 ^ d.length ≤ 256 * 256 ^ d.length := Nat.mul_le_mul_right _ (by omega)
    rw [Nat.add_mul] at this
    rw [Nat.mul_comm (256 ^ d.length)]
    omega

theorem pow256 (n : Nat) : 256 ^ n = 2 ^ (8 * n) := by
  rw [Nat.pow_mul]

theorem netBit_cons (b : Byte) (d : Bytes) (i : Nat) :
    netBit (b :: d) i = if i < 8 then b.getMsbD i else netBit d (i - 8) := by
  unfold netBit
  split
  · next h =>
    have h1 : i / 8 = 0 := by omega
    have h2 : i % 8 = i := by omega
    simp [h1, h2]
  · next h =>
    obtain ⟨j, rfl⟩ : ∃ j, i = j + 8 := ⟨i - 8, by omega⟩
    simp

theorem netBit_ge (d : Bytes) (i : Nat) (h : 8 * d.length ≤ i) : netBit d i = false := by
  unfold netBit
  have : d.length ≤ i / 8 := by omega
  simp [List.getD_eq_getElem?_getD, List.getElem?_eq_none this, BitVec.getMsbD]

theorem testBit_beNat (d : Bytes) (k : Nat) :
    (beNat d).testBit k = (decide (k < 8 * d.length) && netBit d (8 * d.length - 1 - k)) := by
  induction d generalizing k with
  | nil => simp
  | cons b d ih =>
    rw [beNat_cons, pow256, Nat.mul_comm, Nat.testBit_two_pow_mul_add]
    · split
      · next h =>
        rw [ih, netBit_cons]
        have h1 : k < 8 * (b :: d).length := by simp; omega
        have h2 : ¬ (8 * (b :: d).length - 1 - k < 8) := by simp; omega
        have h3 : 8 * (b :: d).length - 1 - k - 8 = 8 * d.length - 1 - k := by simp; omega
        simp only [h, h1, h2, h3, decide_true, if_false]
      · next h =>
        rw [netBit_cons, BitVec.testBit_toNat]
        by_cases h1 : k < 8 * (b :: d).length
        · have h2 : (8 * (b :: d).length - 1 - k < 8) := by simp at h1 ⊢; omega
          have h3 : 8 * (b :: d).length - 1 - k = 7 - (k - 8 * d.length) := by simp at h1 ⊢; omega
          have h4 : k - 8 * d.length < 8 := by simp at h1; omega
          simp only [h1, h2, decide_true, if_true, Bool.true_and]
          rw [h3, BitVec.getMsbD]
          have h5 : 7 - (k - 8 * d.length) < 8 := by omega
          have h6 : 8 - 1 - (7 - (k - 8 * d.length)) = k - 8 * d.length := by omega
          rw [h6]; simp [h5]
        · simp only [h1, decide_false, Bool.false_and]
          apply BitVec.getLsbD_of_ge
          simp at h1; omega
    · rw [← pow256]; exact beNat_lt d

/-- Two buffers of equal length are equal iff all their bits are. -/
theorem eq_of_netBit (d e : Bytes) (hl : d.length = e.length)
    (h : ∀ i, i < 8 * d.length → netBit d i = netBit e i) : d = e := by
  apply List.ext_getElem hl
  intro j h1 h2
  apply BitVec.eq_of_getMsbD_eq
  intro m hm
  have := h (8 * j + m) (by omega)
  unfold netBit at this
  have e1 : (8 * j + m) / 8 = j := by omega
  have e2 : (8 * j + m) % 8 = m := by omega
  rw [e1, e2] at this
  simpa [List.getD_eq_getElem?_getD, h1, h2] using this

theorem netBit_append_left (a b : Bytes) (i : Nat) (h : i < 8 * a.length) :
    netBit (a ++ b) i = netBit a i := by
  unfold netBit
  have : i / 8 < a.length := by omega
  simp [List.getD_eq_getElem?_getD, List.getElem?_append_left this]

theorem netBit_append_right (a b : Bytes) (i : Nat) (h : 8 * a.length ≤ i) :
    netBit (a ++ b) i = netBit b (i - 8 * a.length) := by
  unfold netBit
  have h1 : a.length ≤ i / 8 := by omega
  have h2 : (i - 8 * a.length) / 8 = i / 8 - a.length := by omega
  have h3 : (i - 8 * a.length) % 8 = i % 8 := by omega
  rw [h2, h3]
  simp [List.getD_eq_getElem?_getD, List.getElem?_append_right h1]

theorem netBit_take (d : Bytes) (n i : Nat) :
    netBit (d.take n) i = (decide (i < 8 * n) && netBit d i) := by
  unfold netBit
  by_cases h : i < 8 * n
  · have : i / 8 < n := by omega
    simp [List.getD_eq_getElem?_getD, h, this]
  · have : ¬ i / 8 < n := by omega
    have : (d.take n)[i / 8]? = none := List.getElem?_eq_none (by simp; omega)
    simp [List.getD_eq_getElem?_getD, h, this, BitVec.getMsbD]

theorem netBit_drop (d : Bytes) (n i : Nat) : netBit (d.drop n) i = netBit d (8 * n + i) := by
  unfold netBit
  have h1 : (8 * n + i) / 8 = n + i / 8 := by omega
  have h2 : (8 * n + i) % 8 = i % 8 := by omega
  rw [h1, h2]
  simp [List.getD_eq_getElem?_getD]

/-- Bits of the specified field value. -/
theorem testBit_fieldVal (d : Bytes) (lo hi : Nat) (hhi : hi < 8 * d.length) (j : Nat) :
    (fieldVal d lo hi).testBit j = (decide (j < hi + 1 - lo) && netBit d (hi - j)) := by
  unfold fieldVal
  rw [Nat.testBit_mod_two_pow, Nat.testBit_div_two_pow, testBit_beNat]
  by_cases h : j < hi + 1 - lo
  · have h1 : j + (8 * d.length - 1 - hi) < 8 * d.length := by omega
    have h2 : 8 * d.length - 1 - (j + (8 * d.length - 1 - hi)) = hi - j := by omega
    simp only [h, h1, h2, decide_true, Bool.true_and]
  · simp [h]

theorem fieldVal_lt (d : Bytes) (lo hi : Nat) : fieldVal d lo hi < 2 ^ (hi + 1 - lo) :=
  Nat.mod_lt _ (Nat.two_pow_pos _)

/-- The specified value of a field depends only on the bits of the field. -/
theorem fieldVal_congr (d e : Bytes) (lo hi : Nat) (hd : hi < 8 * d.length) (he : hi < 8 * e.length)
    (h : ∀ i, lo ≤ i → i ≤ hi → netBit d i = netBit e i) : fieldVal d lo hi = fieldVal e lo hi := by
  apply Nat.eq_of_testBit_eq
  intro j
  rw [testBit_fieldVal d lo hi hd, testBit_fieldVal e lo hi he]
  by_cases hj : j < hi + 1 - lo
  · simp only [hj, decide_true, Bool.true_and]
    by_cases hle : lo ≤ hi
    · exact h _ (by omega) (by omega)
    · omega
  · simp [hj]

/-- Conversely, equal field values mean equal bits. -/
theorem netBit_of_fieldVal (d e : Bytes) (lo hi : Nat) (hd : hi < 8 * d.length)
    (he : hi < 8 * e.length) (h : fieldVal d lo hi = fieldVal e lo hi) (i : Nat) (h1 : lo ≤ i)
    (h2 : i ≤ hi) : netBit d i = netBit e i := by
  have := congrArg (fun n => n.testBit (hi - i)) h
  simp only [testBit_fieldVal _ lo hi hd, testBit_fieldVal _ lo hi he] at this
  have e1 : hi - i < hi + 1 - lo := by omega
  have e2 : hi - (hi - i) = i := by omega
  simpa [e1, e2] using this

/-! ## The getter loop -/

theorem index_ok (d : Bytes) (i : Nat) (h : i < d.length) : index d i = .ok (d.getD i 0#8) := by
  simp [index, h, List.getD_eq_getElem?_getD]

theorem index_err (d : Bytes) (i : Nat) (h : d.length ≤ i) : index d i = .error .index := by
  simp [index, h]

theorem bitRangeStep_ok (d : Bytes) (v : U64) (i : Nat) (h : i / 8 < d.length) :
    ∃ r, bitRangeStep d v i = .ok r ∧
      ∀ j, j < 64 → r.getLsbD j = if j = 0 then netBit d i else v.getLsbD (j - 1) := by
  refine ⟨(v <<< 1) ||| ((d.getD (i / 8) 0#8 >>> (8 - i % 8 - 1)) &&& 1#8).setWidth 64,
    by simp only [bitRangeStep, index_ok d _ h, bind, Except.bind, pure, Except.pure], ?_⟩
  intro j hj
  have hm : i % 8 < 8 := Nat.mod_lt _ (by omega)
  unfold netBit
  generalize d.getD (i / 8) 0#8 = b
  by_cases h0 : j = 0
  · subst h0
    have e1 : 8 - i % 8 - 1 = 7 - i % 8 := by omega
    simp [BitVec.getMsbD, hm, e1]
    omega
  · have : (1#8).getLsbD j = false := by
      rw [BitVec.getLsbD_one]; simp [h0]
    simp only [BitVec.getLsbD_or, BitVec.getLsbD_shiftLeft, BitVec.getLsbD_setWidth,
      BitVec.getLsbD_and, this, Bool.and_false, Bool.or_false, hj, h0, decide_true, Bool.true_and, if_false]
    have : ¬ j < 1 := by omega
    simp [this]

/-- The getter loop over `lo, lo+1, ..., lo+n-1`. -/
theorem getLoop_ok (d : Bytes) (n lo : Nat) (v : U64) (h : n = 0 ∨ (lo + n - 1) / 8 < d.length) :
    ∃ r, (List.range' lo n).foldlM (bitRangeStep d) v = .ok r ∧
      ∀ j, j < 64 → r.getLsbD j = if j < n then netBit d (lo + n - 1 - j) else v.getLsbD (j - n) := by
  induction n generalizing lo v with
  | zero => exact ⟨v, rfl, by simp⟩
  | succ n ih =>
    obtain ⟨r1, e1, h1⟩ := bitRangeStep_ok d v lo (by omega)
    obtain ⟨r, e, hr⟩ := ih (lo + 1) r1 (by omega)
    refine ⟨r, ?_, ?_⟩
    · rw [List.range'_succ, List.foldlM_cons, e1]; exact e
    · intro j hj
      rw [hr j hj]
      by_cases hjn : j < n
      · have h3 : j < n + 1 := by omega
        have h4 : lo + 1 + n - 1 - j = lo + (n + 1) - 1 - j := by omega
        simp only [hjn, h3, h4, if_true]
      · simp only [hjn, if_false]
        rw [h1 _ (by omega)]
        by_cases hjn' : j = n
        · subst hjn'
          simp
        · have h3 : ¬ j < n + 1 := by omega
          have h4 : ¬ j - n = 0 := by omega
          have h5 : j - n - 1 = j - (n + 1) := by omega
          simp only [h3, h4, h5, if_false]

/-- The getter loop panics as soon as it leaves the buffer. -/
theorem getLoop_err (d : Bytes) (n lo : Nat) (v : U64) (hn : n ≠ 0) (h : d.length ≤ (lo + n - 1) / 8) :
    (List.range' lo n).foldlM (bitRangeStep d) v = .error .index := by
  induction n generalizing lo v with
  | zero => exact absurd rfl hn
  | succ n ih =>
    rw [List.range'_succ, List.foldlM_cons]
    by_cases h0 : lo / 8 < d.length
    · obtain ⟨r1, e1, _⟩ := bitRangeStep_ok d v lo h0
      rw [e1]
      by_cases hz : n = 0
      · subst hz; simp at h; omega
      · have h' : d.length ≤ (lo + 1 + n - 1) / 8 := by
          have : lo + 1 + n - 1 = lo + (n + 1) - 1 := by omega
          rw [this]; exact h
        exact ih (lo + 1) r1 hz h'
    · have : bitRangeStep d v lo = .error .index := by
        simp only [bitRangeStep, index_err d _ (Nat.le_of_not_lt h0)]; rfl
      rw [this]; rfl

theorem usizeSub_ok (chk : Bool) (a b : Nat) (h : b ≤ a) : usizeSub chk a b = .ok (a - b) := by
  simp [usizeSub, h]

theorem usizeAdd_ok (chk : Bool) (a b : Nat) (h : a + b < 2 ^ 64) : usizeAdd chk a b = .ok (a + b) := by
  simp [usizeAdd, h]

theorem inclRange_eq (lo hi : Nat) : inclRange lo hi = List.range' lo (hi + 1 - lo) := rfl

/-- `bit_range` on a range of 1..64 bits inside the buffer, bit by bit. -/
theorem bitRange_ok (chk : Bool) (d : Bytes) (lo hi : Nat) (h1 : lo ≤ hi) (h2 : hi - lo < 64)
    (h3 : hi / 8 < d.length) :
    ∃ r, bitRange chk d hi lo = .ok r ∧
      ∀ j, j < 64 → r.getLsbD j = (decide (j < hi + 1 - lo) && netBit d (hi - j)) := by
  obtain ⟨v, ev, hv⟩ := getLoop_ok d (hi + 1 - lo) lo 0#64 (by right; rw [show lo + (hi + 1 - lo) - 1 = hi by omega]; exact h3)
  have es : 64 - (hi - lo + 1) < 64 := by omega
  refine ⟨(v <<< (64 - (hi - lo + 1))) >>> (64 - (hi - lo + 1)), ?_, ?_⟩
  · simp only [bitRange, inclRange_eq, ev, usizeSub_ok chk hi lo h1,
      usizeAdd_ok chk (hi - lo) 1 (by omega), usizeSub_ok chk 64 (hi - lo + 1) (by omega),
      shl64, shr64, es, if_true, bind, Except.bind]
  · intro j hj
    simp only [BitVec.getLsbD_ushiftRight, BitVec.getLsbD_shiftLeft]
    by_cases hjn : j < hi + 1 - lo
    · have a1 : 64 - (hi - lo + 1) + j < 64 := by omega
      have a2 : ¬ (64 - (hi - lo + 1) + j < 64 - (hi - lo + 1)) := by omega
      have a3 : 64 - (hi - lo + 1) + j - (64 - (hi - lo + 1)) = j := by omega
      rw [a3, hv j hj]
      have a4 : lo + (hi + 1 - lo) - 1 - j = hi - j := by omega
      simp only [a1, a2, hjn, a4, decide_true, decide_false, Bool.not_false, Bool.true_and, if_true]
    · have a1 : ¬ 64 - (hi - lo + 1) + j < 64 := by omega
      simp only [a1, hjn, decide_false, Bool.false_and]

theorem bitRange_toNat (chk : Bool) (d : Bytes) (lo hi : Nat) (h1 : lo ≤ hi) (h2 : hi - lo < 64)
    (h3 : hi / 8 < d.length) :
    bitRange chk d hi lo = .ok (BitVec.ofNat 64 (fieldVal d lo hi)) := by
  obtain ⟨r, e, hr⟩ := bitRange_ok chk d lo hi h1 h2 h3
  rw [e]; congr 1
  apply BitVec.eq_of_getLsbD_eq
  intro j hj
  rw [hr j hj, BitVec.getLsbD_ofNat, testBit_fieldVal d lo hi (by omega)]
  simp [hj]

theorem bitRange_err (chk : Bool) (d : Bytes) (lo hi : Nat) (h1 : lo ≤ hi)
    (h3 : d.length ≤ hi / 8) : bitRange chk d hi lo = .error .index := by
  have := getLoop_err d (hi + 1 - lo) lo 0#64 (by omega) (by rw [show lo + (hi + 1 - lo) - 1 = hi by omega]; exact h3)
  simp only [bitRange, inclRange_eq, this]; rfl

/-! ## The setter loop -/

theorem netBit_set (d : Bytes) (k i : Nat) (b : Byte) (hk : k < d.length) :
    netBit (d.set k b) i = if i / 8 = k then b.getMsbD (i % 8) else netBit d i := by
  unfold netBit
  by_cases h : i / 8 = k
  · subst h; simp [List.getD_eq_getElem?_getD, hk]
  · have : k ≠ i / 8 := fun e => h e.symm
    simp [List.getD_eq_getElem?_getD, List.getElem?_set_ne this, h]

theorem setBitByte (b : Byte) (v : U64) (m k : Nat) (hm : m < 8) (hk : k < 8) :
    ((b &&& ~~~(1#8 <<< (8 - m - 1))) ||| ((v &&& 1#64).setWidth 8 <<< (8 - m - 1))).getMsbD k =
      if k = m then v.getLsbD 0 else b.getMsbD k := by
  have e : 8 - m - 1 = 7 - m := by omega
  rw [e]
  simp only [BitVec.getMsbD, hk, decide_true, Bool.true_and, BitVec.getLsbD_or, BitVec.getLsbD_and,
    BitVec.getLsbD_not, BitVec.getLsbD_shiftLeft, BitVec.getLsbD_one, BitVec.getLsbD_setWidth]
  have a1 : 8 - 1 - k < 8 := by omega
  by_cases h : k = m
  · subst h
    have a2 : 8 - 1 - k - (7 - k) = 0 := by omega
    have a3 : ¬ (8 - 1 - k < 7 - k) := by omega
    simp [a1, a2, a3]
  · simp only [h, if_false]
    by_cases h' : 8 - 1 - k < 7 - m
    · simp [a1, h']
    · have a2 : ¬ (0 = 8 - 1 - k - (7 - m)) := by omega
      have a4 : ¬ (8 - 1 - k - (7 - m) = 0) := by omega
      have a3 : 8 - 1 - k - (7 - m) < 8 := by omega
      simp [a1, h', a3, a4]

theorem setBitStep_ok (d : Bytes) (v : U64) (i : Nat) (h : i / 8 < d.length) :
    ∃ d', setBitStep (d, v) i = .ok (d', v >>> 1) ∧ d'.length = d.length ∧
      ∀ k, netBit d' k = if k = i then v.getLsbD 0 else netBit d k := by
  have h' : i / 8 < (d.set (i / 8) (d.getD (i / 8) 0#8 &&& ~~~(1#8 <<< (8 - i % 8 - 1)))).length := by
    simpa using h
  refine ⟨(d.set (i / 8) (d.getD (i / 8) 0#8 &&& ~~~(1#8 <<< (8 - i % 8 - 1)))).set (i / 8)
      ((d.set (i / 8) (d.getD (i / 8) 0#8 &&& ~~~(1#8 <<< (8 - i % 8 - 1)))).getD (i / 8) 0#8 |||
        (v &&& 1#64).setWidth 8 <<< (8 - i % 8 - 1)),
    by simp only [setBitStep, index_ok d _ h, index_ok _ _ h', bind, Except.bind, pure,
    Except.pure], by simp, ?_⟩
  intro k
  rw [netBit_set _ _ _ _ h', netBit_set _ _ _ _ h]
  by_cases hk : k / 8 = i / 8
  · simp only [hk, if_true]
    have : (d.set (i / 8) (d.getD (i / 8) 0#8 &&& ~~~(1#8 <<< (8 - i % 8 - 1)))).getD (i / 8) 0#8 =
        d.getD (i / 8) 0#8 &&& ~~~(1#8 <<< (8 - i % 8 - 1)) := by
      simp [List.getD_eq_getElem?_getD, h]
    rw [this, setBitByte _ _ _ _ (Nat.mod_lt _ (by omega)) (Nat.mod_lt _ (by omega))]
    by_cases hki : k = i
    · simp [hki]
    · have : ¬ k % 8 = i % 8 := by omega
      simp only [hki, this, if_false]
      unfold netBit; rw [hk]
  · have : k ≠ i := fun e => hk (by rw [e])
    simp only [hk, this, if_false]

theorem setLoop_ok (n lo : Nat) (d : Bytes) (v : U64) (h : n = 0 ∨ (lo + n - 1) / 8 < d.length) :
    ∃ d', (List.range' lo n).reverse.foldlM setBitStep (d, v) = .ok (d', v >>> n) ∧
      d'.length = d.length ∧
      ∀ i, netBit d' i = if lo ≤ i ∧ i < lo + n then v.getLsbD (lo + n - 1 - i) else netBit d i := by
  induction n generalizing d v with
  | zero => exact ⟨d, by simp [pure, Except.pure], rfl, by intro i; rw [if_neg (by omega)]⟩
  | succ n ih =>
    obtain ⟨d1, e1, l1, b1⟩ := setBitStep_ok d v (lo + n) (by omega)
    obtain ⟨d2, e2, l2, b2⟩ := ih d1 (v >>> 1) (by omega)
    refine ⟨d2, ?_, by omega, ?_⟩
    · rw [List.range'_concat, List.reverse_append]
      simp only [List.reverse_cons, List.reverse_nil, List.nil_append, List.cons_append,
        List.foldlM_cons, Nat.one_mul]
      rw [e1]
      simp only [bind, Except.bind]
      rw [e2, Nat.add_comm n 1, BitVec.shiftRight_add]
    · intro i
      rw [b2, b1]
      by_cases h1 : lo ≤ i ∧ i < lo + n
      · have h2 : lo ≤ i ∧ i < lo + (n + 1) := by omega
        rw [if_pos h1, if_pos h2, BitVec.getLsbD_ushiftRight]
        congr 1; omega
      · rw [if_neg h1]
        by_cases h3 : i = lo + n
        · subst h3
          rw [if_pos rfl, if_pos (by omega)]
          congr 1; omega
        · rw [if_neg h3, if_neg (by omega)]

/-- `set_bit_range`, bit by bit. -/
theorem setBitRange_ok (d : Bytes) (lo hi : Nat) (v : U64) (h1 : lo ≤ hi) (h3 : hi / 8 < d.length) :
    ∃ d', setBitRange d hi lo v = .ok d' ∧ d'.length = d.length ∧
      ∀ i, netBit d' i = if lo ≤ i ∧ i ≤ hi then v.getLsbD (hi - i) else netBit d i := by
  obtain ⟨d', e, l, b⟩ := setLoop_ok (hi + 1 - lo) lo d v (by right; rw [show lo + (hi + 1 - lo) - 1 = hi by omega]; exact h3)
  refine ⟨d', by simp only [setBitRange, inclRange_eq, e]; rfl, l, ?_⟩
  intro i
  rw [b]
  by_cases h : lo ≤ i ∧ i ≤ hi
  · rw [if_pos h, if_pos (by omega)]
    congr 1; omega
  · rw [if_neg h, if_neg (by omega)]

theorem setBitRange_err (d : Bytes) (lo hi : Nat) (v : U64) (h1 : lo ≤ hi) (h3 : d.length ≤ hi / 8) :
    setBitRange d hi lo v = .error .index := by
  obtain ⟨n, hn⟩ : ∃ n, hi + 1 - lo = n + 1 := ⟨hi - lo, by omega⟩
  simp only [setBitRange, inclRange_eq, hn]
  rw [List.range'_concat, List.reverse_append]
  simp only [List.reverse_cons, List.reverse_nil, List.nil_append, List.cons_append,
    List.foldlM_cons, Nat.one_mul]
  have : setBitStep (d, v) (lo + n) = .error .index := by
    simp only [setBitStep, index_err d _ (show d.length ≤ (lo + n) / 8 by rw [show lo + n = hi by omega]; exact h3)]
    rfl
  rw [this]; rfl

end PacketRs
