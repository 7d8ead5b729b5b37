import Mathlib.Data.List.Forall2
import Verif.Spec.ShowImage
import Verif.Lemmas.Pieces
import Verif.Props.Show
import Verif.Props.Formats
/-!
# C94: which texts `show` can print, and the samples of the README
-/
namespace PacketRs
open Spec

/-! ## A buffer with given bits -/

theorem byte_with_bits (g : Nat → Bool) : ∃ b : Byte, ∀ i, i < 8 → b.getMsbD i = g i := by
  have key : ∀ a b c d e f g h : Bool, ∃ x : Byte, x.getMsbD 0 = a ∧ x.getMsbD 1 = b ∧ x.getMsbD 2 = c ∧ x.getMsbD 3 = d ∧
      x.getMsbD 4 = e ∧ x.getMsbD 5 = f ∧ x.getMsbD 6 = g ∧ x.getMsbD 7 = h := by
    intro a b c d e f g h
    refine ⟨BitVec.ofBoolListBE [a, b, c, d, e, f, g, h], ?_⟩
    revert a b c d e f g h
    decide +kernel
  obtain ⟨x, h0, h1, h2, h3, h4, h5, h6, h7⟩ := key (g 0) (g 1) (g 2) (g 3) (g 4) (g 5) (g 6) (g 7)
  refine ⟨x, fun i hi => ?_⟩
  obtain rfl | rfl | rfl | rfl | rfl | rfl | rfl | rfl :
    i = 0 ∨ i = 1 ∨ i = 2 ∨ i = 3 ∨ i = 4 ∨ i = 5 ∨ i = 6 ∨ i = 7 := by omega
  all_goals assumption

theorem pairwise_disjoint_ne {fs : List Field} (h : fs.Pairwise Field.Disjoint) {f g : Field} (hf : f ∈ fs) (hg : g ∈ fs)
    (hne : f ≠ g) : f.Disjoint g := by
  induction h with
  | nil => cases hf
  | cons h1 _ ih =>
    rcases List.mem_cons.1 hf with rfl | hf' <;> rcases List.mem_cons.1 hg with rfl | hg'
    · exact absurd rfl hne
    · exact h1 g hg'
    · exact (h1 f hf').elim .inr .inl
    · exact ih hf' hg'

theorem buffer_with_bits (n : Nat) (g : Nat → Bool) : ∃ d : Bytes, d.length = n ∧ ∀ i, i < 8 * n → netBit d i = g i := by
  refine ⟨(List.range n).map fun k => (byte_with_bits fun i => g (8 * k + i)).choose, by simp, ?_⟩
  intro i hi
  unfold netBit
  rw [List.getD_eq_getElem?_getD, List.getElem?_map, List.getElem?_range (by omega)]
  simp only [Option.map_some, Option.getD_some]
  rw [(byte_with_bits fun j => g (8 * (i / 8) + j)).choose_spec (i % 8) (by omega), Nat.div_add_mod]

/-- **C94, values.** Fields that do not overlap can be given any values of their width, all at the same time. -/
theorem C94_values (n : Nat) (fs : List Field) (hin : ∀ f ∈ fs, f.Inside n) (hdis : fs.Pairwise Field.Disjoint)
    (V : Field → Nat) (hV : ∀ f ∈ fs, V f < 2 ^ f.width) :
    ∃ d : Bytes, d.length = n ∧ ∀ f ∈ fs, fieldVal d f.lo f.hi = V f := by
  obtain ⟨d, hd, hb⟩ := buffer_with_bits n fun i =>
    match fs.find? (fun f => decide (f.lo ≤ i ∧ i ≤ f.hi)) with
    | some f => (V f).testBit (f.hi - i)
    | none => false
  refine ⟨d, hd, fun f hf => ?_⟩
  obtain ⟨h1, h2⟩ := hin f hf
  have hwd : f.width = f.hi - f.lo + 1 := rfl
  apply Nat.eq_of_testBit_eq
  intro j
  rw [testBit_fieldVal _ _ _ (by omega)]
  by_cases hj : j < f.hi + 1 - f.lo
  · rw [decide_eq_true hj, Bool.true_and, hb _ (by omega)]
    split
    case h_2 hfi =>
      have := List.find?_eq_none.1 hfi f hf
      simp at this; omega
    case h_1 g hfi =>
      have hg := List.mem_of_find?_eq_some hfi
      have hgi := List.find?_some hfi
      simp only [decide_eq_true_eq] at hgi
      have : g = f := by
        refine Classical.byContradiction fun hne => ?_
        have := pairwise_disjoint_ne hdis hg hf hne
        unfold Field.Disjoint at this
        omega
      subst this
      congr 1; omega
  · rw [decide_eq_false hj, Bool.false_and]
    exact (Nat.testBit_lt_two_pow (Nat.lt_of_lt_of_le (hV f hf) (Nat.pow_le_pow_right (by omega) (by omega)))).symm

/-! ## The octets of one line -/

/-- **C94, one line.** The octets on the line of a field always have the form of `LineOctets`. -/
theorem C94_line (d : Bytes) (f : Field) (hin : f.Inside d.length) : LineOctets f.width (shownOctets d f) := by
  unfold LineOctets
  have hwd : f.width = f.hi - f.lo + 1 := rfl
  have hle := hin.1
  split
  · rename_i hw
    have hlt := fieldVal_lt d f.lo f.hi
    refine ⟨_, by unfold shownOctets; rw [if_pos hw], ?_⟩
    rw [BitVec.toNat_ofNat, Nat.mod_eq_of_lt]
    · rwa [hwd, show f.hi - f.lo + 1 = f.hi + 1 - f.lo by omega]
    · exact Nat.lt_of_lt_of_le hlt (Nat.pow_le_pow_right (by omega) (by omega))
  · split
    · rename_i hw h0
      rw [length_shownOctets, if_neg hw, if_pos h0]
    · rename_i hw h0
      obtain ⟨hl, hb⟩ := garbled_parts d f hin (by omega) h0
      refine ⟨hl, ?_⟩
      obtain ⟨os, x, hx⟩ : ∃ os x, shownOctets d f = os ++ [x] :=
        ⟨_, _, (List.dropLast_concat_getLast (List.ne_nil_of_length_pos (by omega))).symm⟩
      rw [hx] at hl hb ⊢
      simp only [List.length_append, List.length_singleton] at hl
      obtain ⟨pre, y, rfl⟩ : ∃ pre y, os = pre ++ [y] :=
        ⟨_, _, (List.dropLast_concat_getLast (List.ne_nil_of_length_pos (by omega))).symm⟩
      refine ⟨pre, y, x, by simp, ?_⟩
      rw [beNat_append, beNat_append, beNat_singleton, beNat_singleton] at hb
      simp only [List.length_singleton, Nat.pow_one] at hb
      have hr8 : f.width % 8 < 8 := Nat.mod_lt _ (by omega)
      have hm : fieldVal d f.lo f.hi % 2 ^ (f.width % 8 + 1) < 256 :=
        Nat.lt_of_lt_of_le (Nat.mod_lt _ (Nat.two_pow_pos _))
          (Nat.le_trans (Nat.pow_le_pow_right (by omega) (show f.width % 8 + 1 ≤ 8 by omega)) (by decide))
      have hx256 : x.toNat < 256 := x.isLt
      have hdm := Nat.mod_mul_right_div_self (fieldVal d f.lo f.hi) (2 ^ (f.width % 8)) 2
      rw [← Nat.pow_succ] at hdm
      generalize fieldVal d f.lo f.hi / 2 ^ (f.width % 8) = q at *
      generalize fieldVal d f.lo f.hi % 2 ^ (f.width % 8 + 1) = m at *
      generalize beNat pre = A at *
      have e1 : x.toNat = m := by omega
      rw [e1, hdm]
      omega

/-- The value a line stands for. -/
theorem value_of_line (w : Nat) (os : Bytes) (h : LineOctets w os) :
    ∃ v, v < 2 ^ w ∧ ∀ (d : Bytes) (f : Field), f.Inside d.length → f.width = w → fieldVal d f.lo f.hi = v → shownOctets d f = os := by
  unfold LineOctets at h
  split at h
  · rename_i h8
    obtain ⟨x, rfl, hx⟩ := h
    refine ⟨x.toNat, hx, fun d f hin hfw hv => ?_⟩
    unfold shownOctets
    rw [if_pos (by omega), hv, BitVec.ofNat_toNat, BitVec.setWidth_eq]
  · rename_i h8
    split at h
    · rename_i h0
      refine ⟨beNat os, ?_, fun d f hin hfw hv => ?_⟩
      · have := beNat_lt os
        rwa [h, show (256 : Nat) = 2 ^ 8 by rfl, ← Nat.pow_mul, Nat.mul_div_cancel' (Nat.dvd_of_mod_eq_zero h0)] at this
      · apply beNat_inj
        · rw [length_shownOctets, if_neg (by omega), if_pos (by omega), h, hfw]
        · rw [C55_octets_are_value d f hin (by omega), hv]
    · rename_i h0
      obtain ⟨hl, pre, y, x, rfl, hx⟩ := h
      have hx256 : x.toNat < 256 := x.isLt
      have hA := beNat_lt (pre ++ [y])
      have hAl : (pre ++ [y]).length = w / 8 := by simp at hl ⊢; omega
      have hA2 : beNat (pre ++ [y]) % 2 = y.toNat % 2 := by
        rw [beNat_append, beNat_singleton]; simp only [List.length_singleton, Nat.pow_one]; omega
      have hos : beNat (pre ++ [y, x]) = beNat (pre ++ [y]) * 256 + x.toNat := by
        rw [show pre ++ [y, x] = (pre ++ [y]) ++ [x] by simp, beNat_append (pre ++ [y]) [x]]; simp
      rw [hAl, show (256 : Nat) = 2 ^ 8 by rfl, ← Nat.pow_mul] at hA
      generalize hAg : beNat (pre ++ [y]) = A at *
      have hP : 0 < 2 ^ (w % 8) := Nat.two_pow_pos _
      have hxm : x.toNat % 2 ^ (w % 8) < 2 ^ (w % 8) := Nat.mod_lt _ hP
      have hsplit := Nat.div_add_mod x.toNat (2 ^ (w % 8))
      refine ⟨A * 2 ^ (w % 8) + x.toNat % 2 ^ (w % 8), ?_, fun d f hin hfw hv => ?_⟩
      · calc A * 2 ^ (w % 8) + x.toNat % 2 ^ (w % 8) < A * 2 ^ (w % 8) + 2 ^ (w % 8) := by omega
          _ = (A + 1) * 2 ^ (w % 8) := by rw [Nat.add_mul, Nat.one_mul]
          _ ≤ 2 ^ (8 * (w / 8)) * 2 ^ (w % 8) := Nat.mul_le_mul_right _ hA
          _ = 2 ^ w := by rw [← Nat.pow_add, Nat.div_add_mod]
      · obtain ⟨hl', hb⟩ := garbled_parts d f hin (by omega) (by omega)
        apply beNat_inj
        · rw [hl', hl, hfw]
        · rw [hb, hos, hv, hfw]
          have e1 : (A * 2 ^ (w % 8) + x.toNat % 2 ^ (w % 8)) / 2 ^ (w % 8) = A := by
            rw [Nat.mul_comm, Nat.mul_add_div hP, Nat.div_eq_of_lt hxm, Nat.add_zero]
          have e2 : (A * 2 ^ (w % 8) + x.toNat % 2 ^ (w % 8)) % 2 ^ (w % 8 + 1) = x.toNat := by
            rw [Nat.pow_succ, Nat.mod_mul, e1, hA2, ← hx, Nat.mul_comm A, Nat.mul_add_mod, Nat.mod_mod, Nat.mod_add_div]
          rw [e1, e2]

/-- **C94, all lines at once.** Octets are printable on the lines of a header whose fields do not overlap iff each line's octets
have the form of `LineOctets`; the fields do not constrain each other. -/
theorem C94_lines (n : Nat) (fs : List Field) (hin : ∀ f ∈ fs, f.Inside n) (hdis : fs.Pairwise Field.Disjoint)
    (os : Field → Bytes) :
    (∃ d : Bytes, d.length = n ∧ ∀ f ∈ fs, shownOctets d f = os f) ↔ ∀ f ∈ fs, LineOctets f.width (os f) := by
  constructor
  · rintro ⟨d, rfl, hd⟩ f hf
    rw [← hd f hf]
    exact C94_line d f (hin f hf)
  · intro h
    let V : Field → Nat := fun f =>
      open Classical in if h' : LineOctets f.width (os f) then (value_of_line f.width (os f) h').choose else 0
    have hVs : ∀ f, (h' : LineOctets f.width (os f)) → V f = (value_of_line f.width (os f) h').choose :=
      fun f h' => dif_pos h'
    obtain ⟨d, hd, hv⟩ := C94_values n fs hin hdis V fun f hf => by
      rw [hVs f (h f hf)]
      exact (value_of_line f.width (os f) (h f hf)).choose_spec.1
    refine ⟨d, hd, fun f hf => ?_⟩
    have := (value_of_line f.width (os f) (h f hf)).choose_spec.2
    exact this d f (by rw [hd]; exact hin f hf) rfl (by rw [hv f hf, hVs f (h f hf)])

/-! ## The whole text -/

theorem fieldLine_octetLine (d : Bytes) (f : Field) : fieldLine d f = octetLine f (shownOctets d f) := rfl

theorem length_lineOctets {w : Nat} {os : Bytes} (h : LineOctets w os) :
    os.length = if w ≤ 8 then 1 else if w % 8 = 0 then w / 8 else w / 8 + 1 := by
  unfold LineOctets at h
  split at h
  · obtain ⟨x, rfl, -⟩ := h
    simp [*]
  · split at h
    · simp [*]
    · simp [*, h.1]

theorem octetLine_inj {f : Field} {a b : Bytes} (hl : a.length = b.length) (h : octetLine f a = octetLine f b) : a = b := by
  unfold octetLine at h
  have h2 := List.append_cancel_left (List.append_cancel_right h)
  split at h2
  · exact spaced_dropLast_inj hl h2
  · exact spaced_inj hl h2

theorem length_octetLine {f : Field} {a b : Bytes} (hl : a.length = b.length) : (octetLine f a).length = (octetLine f b).length := by
  unfold octetLine
  split <;> simp [length_spaced, hl]

/-- `show` returns only when all fields are inside. -/
theorem inside_of_show {chk : Bool} {h : Hdr} (hle : ∀ f ∈ h.ty.fields, f.lo ≤ f.hi) {t t' : Text}
    (hs : h.show chk t = (.ok (), t')) : ∀ f ∈ h.ty.fields, f.Inside h.data.length := by
  have key : ∀ (post pre : List Field), h.ty.fields = pre ++ post → (∀ f ∈ pre, f.Inside h.data.length) →
      ∀ f ∈ post, f.Inside h.data.length := by
    intro post
    induction post with
    | nil => intro _ _ _ f hf; cases hf
    | cons g post ih =>
      intro pre he hpre
      have hg : g.Inside h.data.length := by
        refine ⟨hle g (by simp [he]), Nat.lt_of_not_le fun hout => ?_⟩
        rw [C55_panic chk h pre post g he hpre (hle g (by simp [he])) hout t] at hs
        cases hs
      intro f hf
      rcases List.mem_cons.1 hf with rfl | hf
      · exact hg
      · refine ih (pre ++ [g]) (by simp [he]) ?_ f hf
        intro k hk
        rcases List.mem_append.1 hk with hk | hk
        · exact hpre k hk
        · rw [List.mem_singleton.1 hk]; exact hg
  exact key _ [] rfl (by simp)

/-- **C94, every text.** Whatever the data, a text `show` prints without panicking is the head lines and, for every field, a line
with octets of the form of `LineOctets`. -/
theorem C94_text_form (chk : Bool) (T : HeaderDef) (hle : ∀ f ∈ T.fields, f.lo ≤ f.hi) (d : Bytes) (t : Text)
    (hs : (T.ofVec d).show chk [] = (.ok (), t)) :
    ∃ os : List Bytes, List.Forall₂ (fun f o => LineOctets f.width o) T.fields os ∧
      t = headLines T.name ++ (List.zipWith octetLine T.fields os).flatten := by
  have hin := inside_of_show (h := T.ofVec d) hle hs
  rw [C55_header_text chk (T.ofVec d) hin, Prod.mk.injEq] at hs
  refine ⟨T.fields.map (shownOctets d), ?_, ?_⟩
  · have hin' : ∀ f ∈ T.fields, f.Inside d.length := hin
    generalize T.fields = fs at hin'
    induction fs with
    | nil => exact .nil
    | cons f fs ih =>
      exact .cons (C94_line d f (hin' f (by simp))) (ih fun g hg => hin' g (by simp [hg]))
  · rw [← hs.2]
    simp only [HeaderDef.ofVec, List.nil_append, List.zipWith_map_right, List.zipWith_self]
    rfl

/-- **C94, no other restriction.** Every such text is printed by some header of any given length that holds all the fields. -/
theorem C94_text_attained (chk : Bool) (T : HeaderDef) (n : Nat) (hin : ∀ f ∈ T.fields, f.Inside n)
    (hdis : T.fields.Pairwise Field.Disjoint) (os : List Bytes)
    (hos : List.Forall₂ (fun f o => LineOctets f.width o) T.fields os) :
    ∃ d : Bytes, d.length = n ∧
      (T.ofVec d).show chk [] = (.ok (), headLines T.name ++ (List.zipWith octetLine T.fields os).flatten) := by
  have key : ∀ (fs : List Field) (os : List Bytes), (∀ f ∈ fs, f.Inside n) → fs.Pairwise Field.Disjoint →
      List.Forall₂ (fun f o => LineOctets f.width o) fs os →
      ∃ g : Field → Bytes, os = fs.map g ∧ ∀ f ∈ fs, LineOctets f.width (g f) := by
    intro fs os hin hdis h
    induction h with
    | nil => exact ⟨fun _ => [], rfl, by simp⟩
    | @cons f o fs os h1 h2 ih =>
      obtain ⟨hd1, hd2⟩ := List.pairwise_cons.1 hdis
      obtain ⟨g, rfl, hg⟩ := ih (fun k hk => hin k (by simp [hk])) hd2
      have hnot : ∀ k ∈ fs, k ≠ f := by
        rintro k hk rfl
        have := hd1 k hk
        have := (hin k (by simp)).1
        unfold Field.Disjoint at *
        omega
      refine ⟨fun k => open Classical in if k = f then o else g k, ?_, ?_⟩
      · rw [List.map_cons, if_pos rfl]
        congr 1
        exact List.map_congr_left fun k hk => (if_neg (hnot k hk)).symm
      · intro k hk
        rcases List.mem_cons.1 hk with rfl | hk
        · dsimp only; rw [if_pos rfl]; exact h1
        · dsimp only; rw [if_neg (hnot k hk)]; exact hg k hk
  obtain ⟨g, rfl, hg⟩ := key _ _ hin hdis hos
  obtain ⟨d, hd, hv⟩ := (C94_lines n T.fields hin hdis g).2 hg
  refine ⟨d, hd, ?_⟩
  rw [C55_header_text chk (T.ofVec d) (by intro f hf; rw [show (T.ofVec d).data = d from rfl, hd]; exact hin f hf)]
  simp only [HeaderDef.ofVec, List.nil_append, List.zipWith_map_right, List.zipWith_self]
  congr 3
  exact List.map_congr_left fun f hf => by rw [fieldLine_octetLine, hv f hf]

/-- **C94, the header types of the crate.** -/
theorem C94_predefined (chk : Bool) (T : HeaderDef) (hT : T ∈ predefined) (t : Text) :
    (∃ d : Bytes, d.length = T.size ∧ (T.ofVec d).show chk [] = (.ok (), t)) ↔
      ∃ os : List Bytes, List.Forall₂ (fun f o => LineOctets f.width o) T.fields os ∧
        t = headLines T.name ++ (List.zipWith octetLine T.fields os).flatten := by
  constructor
  · rintro ⟨d, -, hs⟩
    exact C94_text_form chk T (fun f hf => (predefined_inside T hT f hf).1) d t hs
  · rintro ⟨os, hos, rfl⟩
    refine C94_text_attained chk T T.size (predefined_inside T hT) ?_ os hos
    have : ∀ T ∈ predefined, chainFrom 0 T.fields (8 * T.size) = true := by decide +kernel
    exact chain_disjoint (this T hT)

/-- The octets on the lines of a text are determined by it. -/
theorem octets_of_text (fs : List Field) (as bs : List Bytes) (ha : List.Forall₂ (fun f o => LineOctets f.width o) fs as)
    (hl : List.Forall₂ (fun f o => o.length = if f.width ≤ 8 then 1 else if f.width % 8 = 0 then f.width / 8 else f.width / 8 + 1)
      fs bs)
    (h : (List.zipWith octetLine fs as).flatten = (List.zipWith octetLine fs bs).flatten) : as = bs := by
  induction ha generalizing bs with
  | nil => cases hl; rfl
  | cons h1 _ ih =>
    cases hl with
    | cons h3 h4 =>
      have he := (length_lineOctets h1).trans h3.symm
      simp only [List.zipWith_cons_cons, List.flatten_cons] at h
      obtain ⟨e1, e2⟩ := List.append_inj h (length_octetLine he)
      rw [octetLine_inj he e1, ih _ h4 e2]

theorem lineOctets_two {w : Nat} (h1 : 8 < w) (h2 : w < 16) (y x : Byte) :
    LineOctets w [y, x] ↔ x.toNat / 2 ^ (w % 8) = y.toNat % 2 := by
  unfold LineOctets
  rw [if_neg (by omega), if_neg (by omega)]
  constructor
  · rintro ⟨-, pre, y', x', he, hx⟩
    obtain rfl : pre = [] := by
      have := congrArg List.length he
      simp at this
      exact this
    simp only [List.nil_append, List.cons.injEq, and_true] at he
    rw [he.1, he.2]; exact hx
  · intro h
    exact ⟨by simp; omega, [], y, x, rfl, h⟩

/-! ## The samples of the README -/

/-- **C94, the first sample of the README.** No header of the type declared there prints the text shown there, whatever its data. -/
theorem C94_readme_header (chk : Bool) (d : Bytes) : (readmeHeader.ofVec d).show chk [] ≠ (.ok (), readmeText) := by
  intro h
  obtain ⟨os, hos, ht⟩ := C94_text_form chk readmeHeader (by decide) d _ h
  have : readmeText = headLines readmeHeader.name ++
      (List.zipWith octetLine readmeHeader.fields [[0x02], [0x01], [0x00, 0x10], [0x08, 0x00]]).flatten := by decide +kernel
  rw [this] at ht
  have := octets_of_text _ _ _ hos (by decide) (List.append_cancel_left ht).symm
  subst this
  simp only [readmeHeader, List.forall₂_cons] at hos
  have := (lineOctets_two (by decide) (by decide) _ _).1 hos.2.2.1
  revert this
  decide

/-- **C94, the second sample of the README.** No `IPv4` header prints the text shown there, whatever its data. -/
theorem C94_readme_ipv4 (chk : Bool) (d : Bytes) : (IPv4.ofVec d).show chk [] ≠ (.ok (), readmeIPv4Text) := by
  intro h
  obtain ⟨os, hos, ht⟩ := C94_text_form chk IPv4 (by decide) d _ h
  have : readmeIPv4Text = headLines IPv4.name ++
      (List.zipWith octetLine IPv4.fields [[0x04], [0x05], [0x00], [0x00, 0x14], [0x00, 0x33], [0x02], [0x06, 0x29], [0x64], [0x06],
        [0xfa, 0xec], [0xc0, 0xa8, 0x00, 0x01], [0xc0, 0xa8, 0x00, 0x02]]).flatten := by decide +kernel
  rw [this] at ht
  have := octets_of_text _ _ _ hos (by decide) (List.append_cancel_left ht).symm
  subst this
  simp only [IPv4, List.forall₂_cons] at hos
  have := (lineOctets_two (by decide) (by decide) _ _).1 hos.2.2.2.2.2.2.1
  revert this
  decide

/-! ## The hypotheses are met -/

/-- What the header of the README really prints with the data of the README. -/
example : (readmeHeader.ofVec [0x00, 0x0a, 0x08, 0x00]).show true [] = (.ok (), "\
#### MyHeader         Size   Data
-------------------------------------------
field_1             :    3 : 00
field_2             :    1 : 00
field_3             :   12 : 00 0a
field_4             :   16 : 08 00 \n".toList) := by decide +kernel

/-- `C94_text_form` for this header. -/
example : ∃ os : List Bytes, List.Forall₂ (fun f o => LineOctets f.width o) readmeHeader.fields os ∧
    headerText readmeHeader [0x00, 0x0a, 0x08, 0x00] =
      headLines "MyHeader" ++ (List.zipWith octetLine readmeHeader.fields os).flatten :=
  C94_text_form true readmeHeader (by decide) [0x00, 0x0a, 0x08, 0x00] _ (by decide +kernel)

/-- A text that differs from that of the README in one digit (`01 10` instead of `00 10`) is printed by some header of four bytes. -/
example : ∃ d : Bytes, d.length = 4 ∧ (readmeHeader.ofVec d).show true [] = (.ok (),
    headLines "MyHeader" ++ (List.zipWith octetLine readmeHeader.fields [[0x02], [0x01], [0x01, 0x10], [0x08, 0x00]]).flatten) :=
  C94_text_attained true readmeHeader 4 (by decide) (chain_disjoint (a := 0) (b := 32) (by decide)) [[0x02], [0x01], [0x01, 0x10], [0x08, 0x00]]
    (.cons (show LineOctets 3 [0x02] from ⟨_, rfl, by decide⟩) (.cons (show LineOctets 1 [0x01] from ⟨_, rfl, by decide⟩)
      (.cons ((lineOctets_two (by decide) (by decide) _ _).2 (by decide)) (.cons (show LineOctets 16 [0x08, 0x00] from rfl) .nil))))

/-- That header: bits `010 1 000000010000`, then `08 00`. -/
example : (readmeHeader.ofVec [0x50, 0x10, 0x08, 0x00]).show true [] = (.ok (),
    headLines "MyHeader" ++ (List.zipWith octetLine readmeHeader.fields [[0x02], [0x01], [0x01, 0x10], [0x08, 0x00]]).flatten) := by
  decide +kernel

end PacketRs
