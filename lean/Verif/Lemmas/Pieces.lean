import Verif.Lemmas.Bytes
import Verif.Spec.Read
/-!
# Fields of headers that are built by concatenating pieces
-/
namespace PacketRs
open Spec

theorem fieldVal_append_left (a b : Bytes) (lo hi : Nat) (h : hi < 8 * a.length) :
    fieldVal (a ++ b) lo hi = fieldVal a lo hi := by
  apply fieldVal_congr _ _ _ _ (by simp; omega) h
  intro i _ h2
  exact netBit_append_left a b i (by omega)

theorem fieldVal_append_right (a b : Bytes) (lo hi : Nat) (hle : lo ≤ hi) (h : 8 * a.length ≤ lo)
    (h2 : hi < 8 * (a.length + b.length)) :
    fieldVal (a ++ b) lo hi = fieldVal b (lo - 8 * a.length) (hi - 8 * a.length) := by
  apply Nat.eq_of_testBit_eq
  intro j
  rw [testBit_fieldVal _ _ _ (by simp; omega), testBit_fieldVal _ _ _ (by omega)]
  rw [show hi - 8 * a.length + 1 - (lo - 8 * a.length) = hi + 1 - lo by omega]
  by_cases hj : j < hi + 1 - lo
  · simp only [hj, decide_true, Bool.true_and]
    rw [netBit_append_right a b _ (by omega)]
    congr 1; omega
  · simp [hj]

@[simp] theorem be16_length (x : U16) : (be16 x).length = 2 := by
  simp [be16]
@[simp] theorem be32_length (x : U32) : (be32 x).length = 4 := by
  simp [be32]
@[simp] theorem be64_length (x : U64) : (be64 x).length = 8 := by
  simp [be64]

@[simp] theorem beNat_be16 (x : U16) : beNat (be16 x) = x.toNat := by
  simp only [be16, beNat, List.foldl_cons, List.foldl_nil, BitVec.toNat_setWidth, BitVec.toNat_ushiftRight,
    Nat.shiftRight_eq_div_pow]
  have := x.isLt
  omega

@[simp] theorem beNat_be32 (x : U32) : beNat (be32 x) = x.toNat := by
  simp only [be32, beNat, List.foldl_cons, List.foldl_nil, BitVec.toNat_setWidth, BitVec.toNat_ushiftRight,
    Nat.shiftRight_eq_div_pow]
  have := x.isLt
  omega

@[simp] theorem beNat_be64 (x : U64) : beNat (be64 x) = x.toNat := by
  simp only [be64, beNat, List.foldl_cons, List.foldl_nil, BitVec.toNat_setWidth, BitVec.toNat_ushiftRight,
    Nat.shiftRight_eq_div_pow]
  have := x.isLt
  omega

@[simp] theorem beNat_singleton (b : Byte) : beNat [b] = b.toNat := by simp [beNat]

theorem fieldVal_be16 (x : U16) (lo hi : Nat) :
    fieldVal (be16 x) lo hi = x.toNat / 2 ^ (15 - hi) % 2 ^ (hi + 1 - lo) := by
  simp [fieldVal]

theorem fieldVal_be32 (x : U32) (lo hi : Nat) :
    fieldVal (be32 x) lo hi = x.toNat / 2 ^ (31 - hi) % 2 ^ (hi + 1 - lo) := by
  simp [fieldVal]

theorem fieldVal_be64 (x : U64) (lo hi : Nat) :
    fieldVal (be64 x) lo hi = x.toNat / 2 ^ (63 - hi) % 2 ^ (hi + 1 - lo) := by
  simp [fieldVal]

theorem fieldVal_byte (b : Byte) (lo hi : Nat) :
    fieldVal [b] lo hi = b.toNat / 2 ^ (7 - hi) % 2 ^ (hi + 1 - lo) := by
  simp [fieldVal]

theorem fieldVal_all (d : Bytes) (hi : Nat) (h : hi + 1 = 8 * d.length) : fieldVal d 0 hi = beNat d := by
  unfold fieldVal
  have := beNat_lt d
  rw [pow256] at this
  rw [show 8 * d.length - 1 - hi = 0 by omega, h, Nat.sub_zero, Nat.pow_zero, Nat.div_one, Nat.mod_eq_of_lt this]

theorem beNat_inj (a b : Bytes) (hl : a.length = b.length) (h : beNat a = beNat b) : a = b := by
  apply eq_of_netBit a b hl
  intro i hi
  have := congrArg (fun n => n.testBit (8 * a.length - 1 - i)) h
  simp only [testBit_beNat, ← hl] at this
  have h1 : 8 * a.length - 1 - i < 8 * a.length := by omega
  simp only [h1, decide_true, Bool.true_and] at this
  rwa [show 8 * a.length - 1 - (8 * a.length - 1 - i) = i by omega] at this

/-- Reading a field of a header. -/
theorem reads_of {h : Hdr} {f : Field} {n : Nat} (h1 : f.lo ≤ f.hi) (h2 : f.hi - f.lo < 64)
    (h3 : f.hi / 8 < h.data.length) (e : fieldVal h.data f.lo f.hi = n) : h.Reads f n := by
  intro chk
  refine ⟨_, bitRange_toNat chk h.data f.lo f.hi h1 h2 h3, ?_⟩
  rw [BitVec.toNat_ofNat, e, Nat.mod_eq_of_lt]
  rw [← e]
  exact Nat.lt_of_lt_of_le (fieldVal_lt _ _ _) (Nat.pow_le_pow_right (by decide) (by omega))

/-- Reading whole octets of a header. -/
theorem readsBytes_of {h : Hdr} {f : Field} {a n : Nat} {b : Bytes} (hlo : f.lo = 8 * a)
    (hhi : f.hi + 1 = 8 * a + 8 * n) (hn : n ≠ 0) (hs : n < 1000) (h3 : a + n ≤ h.data.length)
    (e : (h.data.drop a).take n = b) : h.ReadsBytes f b := by
  intro chk
  have := getBytes_ok chk h.data (8 * a) n hn (by omega) (by omega)
  rw [octetsAt_aligned _ _ _ h3, e] at this
  unfold Hdr.bytes
  rw [hlo, show f.hi = 8 * a + 8 * n - 1 by omega]
  exact this

theorem getLsbD_be16 (x : U16) (i : Nat) (h : i < 16) : netBit (be16 x) i = x.getLsbD (15 - i) := by
  have := testBit_beNat (be16 x) (15 - i)
  rw [beNat_be16, be16_length] at this
  have h1 : 15 - i < 8 * 2 := by omega
  simp only [h1, decide_true, Bool.true_and] at this
  rw [show 8 * 2 - 1 - (15 - i) = i by omega] at this
  rw [← this, BitVec.testBit_toNat]

/-- Setting a byte-aligned 16-bit field replaces two bytes. -/
theorem set_be16 (h : Hdr) (f : Field) (a : Nat) (v : U64) (hlo : f.lo = 8 * a) (hhi : f.hi = 8 * a + 15)
    (hl : a + 2 ≤ h.data.length) :
    h.set f v = .ok ⟨h.ty, h.data.take a ++ (be16 (v.setWidth 16) ++ h.data.drop (a + 2))⟩ := by
  obtain ⟨d', e, l, b⟩ := setBitRange_ok h.data f.lo f.hi v (by omega) (by omega)
  have : d' = h.data.take a ++ (be16 (v.setWidth 16) ++ h.data.drop (a + 2)) := by
    apply eq_of_netBit
    · simp; omega
    · intro i hi
      rw [b]
      have hta : (h.data.take a).length = a := by simp; omega
      by_cases h1 : i < 8 * a
      · rw [if_neg (by omega), netBit_append_left _ _ _ (by omega), netBit_take]
        simp [h1]
      · rw [netBit_append_right _ _ _ (by omega), hta]
        by_cases h2 : i < 8 * a + 16
        · rw [if_pos (by omega), netBit_append_left _ _ _ (by simp; omega), getLsbD_be16 _ _ (by omega),
            BitVec.getLsbD_setWidth]
          have : 15 - (i - 8 * a) < 16 := by omega
          simp only [this, decide_true, Bool.true_and]
          congr 1; omega
        · rw [if_neg (by omega), netBit_append_right _ _ _ (by simp; omega), netBit_drop]
          congr 1; simp; omega
  unfold Hdr.set
  rw [e, this]; rfl

end PacketRs
