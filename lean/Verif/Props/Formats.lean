import Verif.Props.Fields
import Verif.Spec.Wire
import Verif.Spec.Read
/-!
# C87: the predefined headers have the formats of their standards
-/
namespace PacketRs
open Spec

/-! ## Bits -/

theorem bits_length (d : Bytes) : (bits d).length = 8 * d.length := by
  induction d with
  | nil => rfl
  | cons b bs ih => simp only [bits, List.length_cons, ih]; omega

theorem bits_get (d : Bytes) (i : Nat) (h : i < 8 * d.length) : (bits d)[i]? = some (netBit d i) := by
  induction d generalizing i with
  | nil => simp at h
  | cons b bs ih =>
    match i with
    | 0 | 1 | 2 | 3 | 4 | 5 | 6 | 7 => rfl
    | i + 8 =>
      simp only [bits, List.getElem?_cons_succ]
      rw [ih i (by simp at h; omega)]
      unfold netBit
      rw [show (i + 8) / 8 = i / 8 + 1 by omega, show (i + 8) % 8 = i % 8 by omega]
      simp

theorem bits_inj {d e : Bytes} (h : bits d = bits e) : d = e := by
  have hl : d.length = e.length := by
    have := congrArg List.length h
    rw [bits_length, bits_length] at this; omega
  apply eq_of_netBit _ _ hl
  intro i hi
  have h1 := bits_get d i hi
  rw [h, bits_get e i (by omega)] at h1
  exact (Option.some.inj h1).symm

theorem number_foldl (l : List Bool) (n : Nat) :
    l.foldl (fun n b => 2 * n + (if b then 1 else 0)) n = 2 ^ l.length * n + number l := by
  induction l generalizing n with
  | nil => simp [number]
  | cons b l ih =>
    simp only [number, List.foldl_cons, List.length_cons]
    rw [ih, ih, Nat.pow_succ]
    generalize number l = m
    cases b <;> simp <;> grind

theorem number_cons (b : Bool) (l : List Bool) : number (b :: l) = 2 ^ l.length * (if b then 1 else 0) + number l := by
  unfold number
  rw [List.foldl_cons, number_foldl]
  simp [number]

theorem number_lt (l : List Bool) : number l < 2 ^ l.length := by
  induction l with
  | nil => decide
  | cons b l ih =>
    rw [number_cons, List.length_cons, Nat.pow_succ]
    cases b <;> simp <;> omega

theorem testBit_number (l : List Bool) (j : Nat) :
    (number l).testBit j = (decide (j < l.length) && l.getD (l.length - 1 - j) false) := by
  induction l with
  | nil => simp [number]
  | cons b l ih =>
    rw [number_cons, Nat.testBit_two_pow_mul_add _ (number_lt l), ih]
    by_cases h : j < l.length
    · rw [if_pos h, List.length_cons]
      simp only [h, decide_true, Bool.true_and, show j < l.length + 1 by omega]
      rw [show l.length + 1 - 1 - j = (l.length - 1 - j) + 1 by omega]
      simp
    · rw [if_neg h, List.length_cons]
      by_cases e : j = l.length
      · subst e; cases b <;> simp
      · have h2 : ¬ j < l.length + 1 := by omega
        simp only [h2, decide_false, Bool.false_and]
        have : j - l.length ≠ 0 := by omega
        have : Nat.testBit 1 (j - l.length) = false := Nat.testBit_lt_two_pow (Nat.one_lt_two_pow this)
        cases b <;> simp [this]

theorem binary_length (w v : Nat) : (binary w v).length = w := by
  induction w with
  | zero => rfl
  | succ w ih => simp [binary, ih]

theorem binary_get (w v i : Nat) (h : i < w) : (binary w v)[i]? = some (v.testBit (w - 1 - i)) := by
  induction w generalizing i with
  | zero => omega
  | succ w ih =>
    cases i with
    | zero =>
      simp only [binary, List.getElem?_cons_zero, Nat.testBit_eq_decide_div_mod_eq]
      simp
    | succ i =>
      simp only [binary, List.getElem?_cons_succ]
      rw [ih i (by omega)]
      congr 2; omega

theorem binary_number (l : List Bool) : binary l.length (number l) = l := by
  apply List.ext_getElem?
  intro i
  by_cases h : i < l.length
  · rw [binary_get _ _ _ h, testBit_number]
    simp only [show l.length - 1 - i < l.length by omega, decide_true, Bool.true_and,
      show l.length - 1 - (l.length - 1 - i) = i by omega]
    simp [h]
  · rw [List.getElem?_eq_none (by rw [binary_length]; omega), List.getElem?_eq_none (by omega)]

/-- The bits of a field. -/
def Field.piece (f : Field) (d : Bytes) : List Bool := ((bits d).drop f.lo).take f.width

theorem piece_length {f : Field} {d : Bytes} (h : f.Inside d.length) : (f.piece d).length = f.width := by
  have := h.1; have := h.2
  unfold Field.piece
  rw [List.length_take, List.length_drop, bits_length]
  unfold Field.width; omega

theorem piece_get {f : Field} {d : Bytes} (h : f.Inside d.length) {i : Nat} (hi : i < f.width) :
    (f.piece d)[i]? = some (netBit d (f.lo + i)) := by
  have := h.1; have := h.2
  unfold Field.piece
  rw [List.getElem?_take, if_pos hi, List.getElem?_drop, bits_get]
  unfold Field.width at hi; omega

theorem number_piece {f : Field} {d : Bytes} (h : f.Inside d.length) : number (f.piece d) = fieldVal d f.lo f.hi := by
  have h1 := h.1; have h2 := h.2
  apply Nat.eq_of_testBit_eq
  intro j
  rw [testBit_number, testBit_fieldVal _ _ _ h2, piece_length h]
  by_cases hj : j < f.width
  · have e : f.lo + (f.width - 1 - j) = f.hi - j := by unfold Field.width at *; omega
    rw [List.getD_eq_getElem?_getD, piece_get h (by omega), e]
    unfold Field.width at hj
    simp [hj, show f.width = f.hi - f.lo + 1 from rfl, show j < f.hi + 1 - f.lo by omega]
  · have : ¬ j < f.hi + 1 - f.lo := by unfold Field.width at hj; omega
    simp [hj, this]

/-! ## Consecutive fields -/

/-- Fields drawn one after the other from bit 0 to the end of the header. -/
def HeaderDef.Consecutive (T : HeaderDef) : Prop := chainFrom 0 T.fields (8 * T.size) = true

theorem cut_chain {fs : List Field} {a b : Nat} (h : chainFrom a fs b = true) (d : Bytes) :
    pieces (fs.map (·.width)) ((bits d).drop a) = fs.map (·.piece d) := by
  induction fs generalizing a with
  | nil => rfl
  | cons f fs ih =>
    simp only [chainFrom, Bool.and_eq_true, decide_eq_true_eq] at h
    obtain ⟨⟨h1, h2⟩, h3⟩ := h
    simp only [List.map_cons, pieces]
    rw [List.drop_drop, show a + f.width = f.hi + 1 by unfold Field.width; omega, ih h3]
    congr 1
    unfold Field.piece
    rw [h1]

theorem flatten_chain {fs : List Field} {a b : Nat} (h : chainFrom a fs b = true) (d : Bytes) :
    (fs.map (·.piece d)).flatten = ((bits d).drop a).take (b - a) := by
  induction fs generalizing a with
  | nil => simp [chainFrom] at h; simp [h]
  | cons f fs ih =>
    have hle := chainFrom_le (fs := fs) (a := f.hi + 1) (b := b) (by
      simp only [chainFrom, Bool.and_eq_true, decide_eq_true_eq] at h; exact h.2)
    simp only [chainFrom, Bool.and_eq_true, decide_eq_true_eq] at h
    obtain ⟨⟨h1, h2⟩, h3⟩ := h
    rw [List.map_cons, List.flatten_cons, ih h3]
    unfold Field.piece
    have e : f.hi + 1 = a + f.width := by unfold Field.width; omega
    rw [h1, e, ← List.drop_drop, show b - a = f.width + (b - (a + f.width)) by omega, List.take_add]

/-- **C87** (reading): in a header type whose fields are drawn one after the other, cut the bits of the buffer into pieces of the
fields' widths: the getter of the `i`-th field returns the number in the `i`-th piece, and `bytes` returns its bits. -/
theorem C87_read (T : HeaderDef) (hT : T.Consecutive) (d : Bytes) (hd : T.size ≤ d.length) (i : Nat) (f : Field)
    (hf : T.fields[i]? = some f) :
    ∃ l, (pieces (T.fields.map (·.width)) (bits d))[i]? = some l ∧ l.length = f.width ∧
      (f.width ≤ 64 → (T.ofVec d).Reads f (number l)) ∧
      (f.width % 8 = 0 → f.width < 2 ^ 64 → ∃ o, (T.ofVec d).ReadsBytes f o ∧ bits o = l) := by
  have hm : f ∈ T.fields := List.mem_of_getElem? hf
  have hin : f.Inside d.length := by
    obtain ⟨-, h1, h2⟩ := chainFrom_lo hT f hm
    exact ⟨h1, by omega⟩
  have hc := cut_chain hT d
  rw [List.drop_zero] at hc
  refine ⟨f.piece d, ?_, piece_length hin, ?_, ?_⟩
  · rw [hc, List.getElem?_map, hf]; rfl
  · intro hw chk
    obtain ⟨v, e, hv, -⟩ := C01_getter_value chk (T.ofVec d) f hin hw
    exact ⟨v, e, by rw [hv, number_piece hin]; rfl⟩
  · intro h8 h64
    have h1 := hin.1; have h2 := hin.2
    have hw : f.width = f.hi - f.lo + 1 := rfl
    refine ⟨octetsAt d f.lo (f.width / 8), ?_, ?_⟩
    · intro chk
      have := C06_bytes_value chk (T.ofVec d) f.lo (f.width / 8) (by omega)
        (by show _ ≤ 8 * d.length; omega) (by omega)
      rw [show f.lo + 8 * (f.width / 8) - 1 = f.hi by omega] at this
      exact this
    · have hol : (octetsAt d f.lo (f.width / 8)).length = f.width / 8 := by simp [octetsAt]
      apply List.ext_getElem?
      intro j
      by_cases hj : j < f.width
      · rw [bits_get _ _ (by rw [hol]; omega), piece_get hin hj, netBit_octetsAt _ _ _ _ (by omega) (by omega)]
      · rw [List.getElem?_eq_none (by rw [bits_length, hol]; omega), List.getElem?_eq_none (by rw [piece_length hin]; omega)]

/-! ## Writing -/

/-- Set the fields of the list one after the other. -/
def setAll (v : Field → U64) (l : List Field) (h : Hdr) : R Hdr := l.foldlM (fun h f => h.set f (v f)) h

theorem setAll_bits (v : Field → U64) : ∀ (l : List Field) (h : Hdr), (∀ f ∈ l, f.Inside h.data.length) →
    l.Pairwise Field.Disjoint → ∃ h', setAll v l h = .ok h' ∧ h'.ty = h.ty ∧ h'.data.length = h.data.length ∧
      (∀ f ∈ l, ∀ i, f.lo ≤ i → i ≤ f.hi → netBit h'.data i = (v f).getLsbD (f.hi - i)) ∧
      ∀ i, (∀ f ∈ l, i < f.lo ∨ f.hi < i) → netBit h'.data i = netBit h.data i
  | [], h, _, _ => ⟨h, rfl, rfl, rfl, by simp, fun _ _ => rfl⟩
  | f :: l, h, hin, hp => by
    obtain ⟨h1, e1, t1, l1, b1⟩ := set_bits h f (v f) (hin f (by simp))
    rw [List.pairwise_cons] at hp
    obtain ⟨h2, e2, t2, l2, b2, b3⟩ := setAll_bits v l h1 (fun g hg => by rw [l1]; exact hin g (by simp [hg])) hp.2
    refine ⟨h2, ?_, t2.trans t1, l2.trans l1, ?_, ?_⟩
    · unfold setAll at e2 ⊢
      rw [List.foldlM_cons, e1]
      exact e2
    · intro g hg i h3 h4
      rcases List.mem_cons.mp hg with rfl | hg
      · rw [b3 i (fun k hk => by have := hp.1 k hk; unfold Field.Disjoint at this; omega), b1, if_pos ⟨h3, h4⟩]
      · exact b2 g hg i h3 h4
    · intro i hi
      rw [b3 i (fun g hg => hi g (by simp [hg])), b1, if_neg (by have := hi f (by simp); omega)]

theorem chain_disjoint {fs : List Field} {a b : Nat} (h : chainFrom a fs b = true) : fs.Pairwise Field.Disjoint := by
  induction fs generalizing a with
  | nil => exact .nil
  | cons f fs ih =>
    simp only [chainFrom, Bool.and_eq_true, decide_eq_true_eq] at h
    refine List.pairwise_cons.mpr ⟨fun g hg => ?_, ih h.2⟩
    have := chainFrom_lo h.2 g hg
    exact Or.inl (by omega)

/-- **C87** (writing): setting all fields of such a header, in any order and whatever it held before, gives the binary numerals of
the values, each cut to the width of its field, one after the other. -/
theorem C87_write (T : HeaderDef) (hT : T.Consecutive) (d : Bytes) (hd : d.length = T.size) (v : Field → U64) (l : List Field)
    (hl : l.Perm T.fields) :
    ∃ h, setAll v l (T.ofVec d) = .ok h ∧ h.ty = T ∧
      bits h.data = (T.fields.map fun f => binary f.width (v f).toNat).flatten := by
  have ins : ∀ f ∈ T.fields, f.Inside T.size := fun f hf => by
    obtain ⟨-, h1, h2⟩ := chainFrom_lo hT f hf
    exact ⟨h1, h2⟩
  obtain ⟨h, e, t, len, b, -⟩ := setAll_bits v l (T.ofVec d) (fun f hf => by
      show f.Inside d.length
      rw [hd]; exact ins f (hl.mem_iff.mp hf))
    ((hl.pairwise_iff (fun h => Or.symm h)).mpr (chain_disjoint hT))
  have len : h.data.length = T.size := len.trans hd
  refine ⟨h, e, t, ?_⟩
  have := flatten_chain hT h.data
  rw [List.drop_zero, Nat.sub_zero, List.take_of_length_le (by rw [bits_length, len]; exact Nat.le_refl _)] at this
  rw [← this]
  congr 1
  apply List.map_congr_left
  intro f hf
  have hin : f.Inside h.data.length := by rw [len]; exact ins f hf
  have h1 := hin.1
  apply List.ext_getElem?
  intro j
  by_cases hj : j < f.width
  · have hw : f.width = f.hi - f.lo + 1 := rfl
    rw [piece_get hin hj, binary_get _ _ _ hj, b f (hl.mem_iff.mpr hf) _ (by omega) (by omega), BitVec.testBit_toNat]
    congr 2; omega
  · rw [List.getElem?_eq_none (by rw [piece_length hin]; omega), List.getElem?_eq_none (by rw [binary_length]; omega)]

-- a header of one's own, that of /repo/examples/pkt.rs:9-18, is read and written like that; the crate's test header is not
example : HeaderDef.Consecutive ⟨"main", "MyHeader", 4, [⟨"field_1", 0, 2⟩, ⟨"field_2", 3, 3⟩, ⟨"field_3", 4, 15⟩,
    ⟨"field_4", 16, 31⟩], [0x0#8, 0xa#8, 0x8#8, 0x0#8]⟩ := by unfold HeaderDef.Consecutive; decide

example : ¬ Tester.Consecutive := by unfold HeaderDef.Consecutive; decide

example : ((setAll (fun f => if f = Vlan.vid then 0xfabc#64 else if f = Vlan.pcp then 5#64 else 0x806#64)
    [Vlan.etype, Vlan.vid, Vlan.cfi, Vlan.pcp] Vlan.new).map (·.data)) = .ok [0xaa#8, 0xbc#8, 0x08#8, 0x06#8] := by
  decide +kernel

/-! ## The predefined headers -/

/-- **C87** (table): the predefined headers are those of the table of formats, with its fields, in order and with its widths. -/
theorem C87_table : predefined.map (fun T => (T.name, T.fields.map fun f => (f.name, f.width))) = formats := by decide +kernel

/-- **C87** (formats): of each standard's header every field is read where the standard draws it, in every buffer that holds the
header. -/
theorem C87_formats (n : String) (fs : List (String × Nat)) (h : (n, fs) ∈ formats) :
    ∃ T ∈ predefined, T.name = n ∧ 8 * T.size = (fs.map (·.2)).sum ∧
      ∀ d : Bytes, T.size ≤ d.length → ∀ (i : Nat) (x : String) (w : Nat), fs[i]? = some (x, w) →
        ∃ f l, T.fields[i]? = some f ∧ f.name = x ∧ (pieces (fs.map (·.2)) (bits d))[i]? = some l ∧ l.length = w ∧
          (w ≤ 64 → (T.ofVec d).Reads f (number l)) ∧
          (w % 8 = 0 → ∃ o, (T.ofVec d).ReadsBytes f o ∧ bits o = l) := by
  rw [← C87_table, List.mem_map] at h
  obtain ⟨T, hT, e⟩ := h
  obtain ⟨rfl, rfl⟩ := Prod.mk.inj e
  have size : ∀ T ∈ predefined, 8 * T.size = ((T.fields.map fun f => (f.name, f.width)).map (·.2)).sum := by decide
  have small : ∀ T ∈ predefined, ∀ f ∈ T.fields, f.width ≤ 128 := by decide
  refine ⟨T, hT, rfl, size T hT, ?_⟩
  intro d hd i x w hi
  rw [List.getElem?_map] at hi
  obtain ⟨f, hf, e⟩ := Option.map_eq_some_iff.mp hi
  obtain ⟨rfl, rfl⟩ := Prod.mk.inj e
  obtain ⟨l, h1, h2, h3, h4⟩ := C87_read T (predefined_chain T hT) d hd i f hf
  refine ⟨f, l, hf, rfl, ?_, h2, h3, fun h8 => h4 h8 ?_⟩
  · rw [List.map_map]; exact h1
  · exact Nat.lt_of_le_of_lt (small T hT f (List.mem_of_getElem? hf)) (by decide)

example : (pieces ((Vlan.fields.map (·.width))) (bits Vlan.dflt)).map number = [0, 0, 10, 0x800] := by decide +kernel

end PacketRs
