import Verif.Fast
/-!
# Windows inside their buffer behave like the bytes they show
-/
namespace PacketRs

theorem Fast.Win.index_eq (w : Fast.Win) (hb : w.InBounds) (i : Nat) :
    w.index i = PacketRs.index w.bytes i := by
  unfold Fast.Win.index PacketRs.index Fast.Win.bytes
  unfold Fast.Win.InBounds at hb
  by_cases h : i < w.len
  · have : w.off + i < w.base.length := by omega
    simp [h, this]
  · have : ((w.base.drop w.off).take w.len)[i]? = none := List.getElem?_eq_none (by simp; omega)
    simp [h, this]

theorem Fast.bitRange_eq (chk : Bool) (w : Fast.Win) (hb : w.InBounds) (msb lsb : Nat) :
    Fast.bitRange chk w msb lsb = PacketRs.bitRange chk w.bytes msb lsb := by
  have : Fast.bitRangeStep w = PacketRs.bitRangeStep w.bytes := by
    funext v i
    simp only [Fast.bitRangeStep, PacketRs.bitRangeStep, Fast.Win.index_eq w hb]
  simp only [Fast.bitRange, PacketRs.bitRange, this]

namespace Fast

/-- The window of `n` bytes at offset `o` of `w`. -/
def Win.sub (w : Win) (o n : Nat) : Win := { base := w.base, off := w.off + o, len := n }

theorem Win.length_bytes (w : Win) (hb : w.InBounds) : w.bytes.length = w.len := by
  unfold Win.InBounds at hb
  simp only [Win.bytes, List.length_take, List.length_drop]; omega

theorem Win.sub_inBounds (w : Win) (hb : w.InBounds) (o n : Nat) (h : o + n ≤ w.len) :
    (w.sub o n).InBounds := by
  unfold Win.InBounds Win.sub at *; simp only; omega

theorem Win.bytes_sub (w : Win) (o n : Nat) (h : o + n ≤ w.len) :
    (w.sub o n).bytes = (w.bytes.drop o).take n := by
  simp only [Win.bytes, Win.sub, List.drop_take, List.take_take, List.drop_drop]
  rw [Nat.min_eq_left (by omega)]

theorem Win.bytes_sub_drop (w : Win) (o : Nat) :
    (w.sub o (w.len - o)).bytes = w.bytes.drop o := by
  simp only [Win.bytes, Win.sub, List.drop_take, List.drop_drop]

theorem Win.slice_ok (w : Win) (a b : Nat) (h1 : a ≤ b) (h2 : b ≤ w.len) :
    w.slice a b = .ok (w.sub a (b - a)) := by simp [Win.slice, h1, h2, Win.sub]

theorem Win.slice0_ok (w : Win) (n : Nat) (h : n ≤ w.len) : w.slice 0 n = .ok (w.sub 0 n) := by
  simp [Win.slice, h, Win.sub]

theorem Win.slice_err (w : Win) (a b : Nat) (h : w.len < b) : w.slice a b = .error .index := by
  have : ¬ b ≤ w.len := by omega
  simp [Win.slice, this]

theorem Win.sliceFrom_ok (w : Win) (n : Nat) (h : n ≤ w.len) :
    w.sliceFrom n = .ok ⟨w.sub n (w.len - n), rfl, h⟩ := by simp [Win.sliceFrom, h]; rfl

theorem Win.sliceFrom_err (w : Win) (n : Nat) (h : w.len < n) : w.sliceFrom n = .error .index := by
  have : ¬ n ≤ w.len := by omega
  simp [Win.sliceFrom, this]

end Fast
end PacketRs
