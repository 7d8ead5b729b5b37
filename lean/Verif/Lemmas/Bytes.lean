import Verif.Lemmas.Bits
/-!
# Lemmas about `bytes` and `set_bytes`
-/
namespace PacketRs
open Spec

theorem octetsAt_succ (d : Bytes) (lo n : Nat) :
    octetsAt d lo (n + 1) = BitVec.ofNat 8 (fieldVal d lo (lo + 7)) :: octetsAt d (lo + 8) n := by
  unfold octetsAt
  rw [List.range_succ_eq_map, List.map_cons, List.map_map]
  congr 1
  apply List.map_congr_left
  intro k _
  simp only [Function.comp]
  congr 2 <;> simp only [Nat.succ_eq_add_one] <;> omega

@[simp] theorem length_octetsAt (d : Bytes) (lo n : Nat) : (octetsAt d lo n).length = n := by
  simp [octetsAt]

theorem getMsbD_ofNat_fieldVal (d : Bytes) (a m : Nat) (ha : a + 7 < 8 * d.length) (hm : m < 8) :
    (BitVec.ofNat 8 (fieldVal d a (a + 7))).getMsbD m = netBit d (a + m) := by
  rw [BitVec.getMsbD]
  simp only [hm, decide_true, Bool.true_and]
  rw [BitVec.getLsbD_ofNat, testBit_fieldVal _ _ _ ha]
  have h1 : 8 - 1 - m < 8 := by omega
  have h2 : 8 - 1 - m < a + 7 + 1 - a := by omega
  have h3 : a + 7 - (8 - 1 - m) = a + m := by omega
  rw [h3]; simp [h1, h2]

theorem netBit_octetsAt (d : Bytes) (lo n i : Nat) (h : lo + 8 * n ≤ 8 * d.length) (hi : i < 8 * n) :
    netBit (octetsAt d lo n) i = netBit d (lo + i) := by
  conv => lhs; unfold netBit
  have h1 : i / 8 < n := by omega
  have : (octetsAt d lo n).getD (i / 8) 0#8 =
      BitVec.ofNat 8 (fieldVal d (lo + 8 * (i / 8)) (lo + 8 * (i / 8) + 7)) := by
    simp [octetsAt, List.getD_eq_getElem?_getD, h1]
  rw [this, getMsbD_ofNat_fieldVal _ _ _ (by omega) (Nat.mod_lt _ (by omega))]
  congr 1; omega

/-- Octets at a byte boundary are plain slices. -/
theorem octetsAt_aligned (d : Bytes) (a n : Nat) (h : a + n ≤ d.length) :
    octetsAt d (8 * a) n = (d.drop a).take n := by
  apply eq_of_netBit
  · simp; omega
  · intro i hi
    simp at hi
    rw [netBit_octetsAt _ _ _ _ (by omega) hi, netBit_take, netBit_drop]
    simp [hi]

theorem setWidth8_ofNat64 (n : Nat) : (BitVec.ofNat 64 n).setWidth 8 = BitVec.ofNat 8 n := by
  apply BitVec.eq_of_toNat_eq
  simp only [BitVec.toNat_setWidth, BitVec.toNat_ofNat]
  omega

theorem getBytesLoop (chk : Bool) (d : Bytes) (n lo : Nat) (acc : Bytes)
    (h : lo + 8 * n ≤ 8 * d.length) :
    (List.range' lo n 8).foldlM
      (fun (value : Bytes) i => do
        let v ← bitRange chk d (i + 7) i
        pure (value ++ [v.setWidth 8])) acc = .ok (acc ++ octetsAt d lo n) := by
  induction n generalizing lo acc with
  | zero => simp [octetsAt, pure, Except.pure]
  | succ n ih =>
    rw [List.range'_succ, List.foldlM_cons, bitRange_toNat chk d lo (lo + 7) (by omega) (by omega) (by omega)]
    simp only [bind, Except.bind, pure, Except.pure]
    have := ih (lo + 8) (acc ++ [BitVec.ofNat 8 (fieldVal d lo (lo + 7))]) (by omega)
    simp only [bind, Except.bind, pure, Except.pure] at this
    rw [setWidth8_ofNat64, this, octetsAt_succ, List.append_assoc]; rfl

/-- `bytes` on a byte-multiple range inside the buffer. -/
theorem getBytes_ok (chk : Bool) (d : Bytes) (lo n : Nat) (hn : n ≠ 0)
    (h : lo + 8 * n ≤ 8 * d.length) (hs : 8 * n < 2 ^ 64) :
    getBytes chk d (lo + 8 * n - 1) lo = .ok (octetsAt d lo n) := by
  have e1 : lo + 8 * n - 1 - lo + 1 = 8 * n := by omega
  have e2 : (lo + 8 * n - 1 + 1 - lo + 7) / 8 = n := by omega
  have e3 : ¬ (8 * n % 8 ≠ 0) := by omega
  simp only [getBytes, usizeSub_ok chk _ lo (show lo ≤ lo + 8 * n - 1 by omega),
    usizeAdd_ok chk (lo + 8 * n - 1 - lo) 1 (by omega), e1, inclRangeStep8, e2, bind, Except.bind]
  have := getBytesLoop chk d n lo [] h
  simp only [bind, Except.bind, pure, Except.pure] at this ⊢
  rw [if_neg e3]
  simpa using this

theorem setBytesLoop (value : Bytes) (n lo k : Nat) (d : Bytes) (h : lo + 8 * n ≤ 8 * d.length)
    (hv : k + n ≤ value.length) :
    ∃ d', (List.range' lo n 8).foldlM
      (fun (s : Bytes × Nat) i => do
        let b ← index value s.2
        let d ← setBitRange s.1 (i + 7) i (b.setWidth 64)
        pure (d, s.2 + 1)) (d, k) = .ok (d', k + n) ∧ d'.length = d.length ∧
      ∀ i, netBit d' i = if lo ≤ i ∧ i < lo + 8 * n then netBit value (8 * k + (i - lo)) else netBit d i := by
  induction n generalizing lo k d with
  | zero => exact ⟨d, by simp [pure, Except.pure], rfl, by intro i; rw [if_neg (by omega)]⟩
  | succ n ih =>
    obtain ⟨d1, e1, l1, b1⟩ := setBitRange_ok d lo (lo + 7) ((value.getD k 0#8).setWidth 64) (by omega) (by omega)
    obtain ⟨d2, e2, l2, b2⟩ := ih (lo + 8) (k + 1) d1 (by omega) (by omega)
    refine ⟨d2, ?_, by omega, ?_⟩
    · rw [List.range'_succ, List.foldlM_cons]
      simp only [index_ok value k (by omega), bind, Except.bind, pure, Except.pure, e1]
      simp only [bind, Except.bind, pure, Except.pure] at e2
      rw [e2]; congr 2; omega
    · intro i
      rw [b2, b1]
      by_cases h1 : lo + 8 ≤ i ∧ i < lo + 8 + 8 * n
      · rw [if_pos h1, if_pos (by omega)]
        congr 1; omega
      · rw [if_neg h1]
        by_cases h2 : lo ≤ i ∧ i ≤ lo + 7
        · rw [if_pos h2, if_pos (by omega)]
          rw [BitVec.getLsbD_setWidth]
          unfold netBit
          have a1 : (8 * k + (i - lo)) / 8 = k := by omega
          have a2 : (8 * k + (i - lo)) % 8 = i - lo := by omega
          have a3 : lo + 7 - i < 64 := by omega
          have a4 : i - lo < 8 := by omega
          have a5 : 8 - 1 - (i - lo) = lo + 7 - i := by omega
          rw [a1, a2, BitVec.getMsbD, a5]
          simp [a3, a4]
        · rw [if_neg h2, if_neg (by omega)]

/-- `set_bytes` on a byte-multiple range inside the buffer. -/
theorem setBytes_ok (chk : Bool) (d : Bytes) (lo : Nat) (value : Bytes) (hn : value ≠ [])
    (h : lo + 8 * value.length ≤ 8 * d.length) (hs : 8 * value.length < 2 ^ 64) :
    ∃ d', setBytes chk d (lo + 8 * value.length - 1) lo value = .ok d' ∧ d'.length = d.length ∧
      ∀ i, netBit d' i = if lo ≤ i ∧ i < lo + 8 * value.length then netBit value (i - lo)
        else netBit d i := by
  have hn' : 0 < value.length := List.length_pos_iff.mpr hn
  have e1 : lo + 8 * value.length - 1 - lo + 1 = 8 * value.length := by omega
  have e2 : (lo + 8 * value.length - 1 + 1 - lo + 7) / 8 = value.length := by omega
  have e3 : ¬ (value.length * 8 ≠ 8 * value.length) := by omega
  obtain ⟨d', e, l, b⟩ := setBytesLoop value value.length lo 0 d h (by omega)
  refine ⟨d', ?_, l, ?_⟩
  · simp only [setBytes, usizeSub_ok chk _ lo (show lo ≤ lo + 8 * value.length - 1 by omega),
      usizeAdd_ok chk (lo + 8 * value.length - 1 - lo) 1 (by omega), e1, inclRangeStep8, e2, bind, Except.bind]
    simp only [bind, Except.bind, pure, Except.pure] at e ⊢
    rw [if_neg e3]
    simp only [e]
  · intro i; rw [b]; simp

end PacketRs
