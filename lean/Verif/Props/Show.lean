import Verif.Show
import Verif.Spec.Show
import Verif.Lemmas.Bytes
import Verif.Lemmas.Win
import Verif.Props.Fields
/-!
# C55: what `show` prints
-/
namespace PacketRs
open Spec Out

theorem hex2_eq : ∀ b : Byte, hex2 b = hexByte b.toNat := by decide +kernel

theorem Out.bind_def {α β : Type} (p : Out α) (f : α → Out β) (t : Text) :
    (p >>= f) t = match p t with
      | (.ok a, t') => f a t'
      | (.error e, t') => (.error e, t') := rfl

theorem Out.print_bind {β : Type} (s : Text) (f : Unit → Out β) (t : Text) : (print s >>= f) t = f () (t ++ s) := rfl

theorem Out.ofR_ok_bind {α β : Type} {x : R α} {a : α} (h : x = .ok a) (f : α → Out β) (t : Text) :
    (ofR x >>= f) t = f a t := by rw [h]; rfl

theorem Out.ofR_err_bind {α β : Type} {x : R α} {e : Fault} (h : x = .error e) (f : α → Out β) (t : Text) :
    (ofR x >>= f) t = (.error e, t) := by rw [h]; rfl

theorem Out.forEach_ok {α : Type} (l : List α) (f : α → Out Unit) (g : α → Text)
    (h : ∀ a ∈ l, ∀ t, f a t = (.ok (), t ++ g a)) (t : Text) : forEach l f t = (.ok (), t ++ (l.map g).flatten) := by
  induction l generalizing t with
  | nil => simp [forEach, pure]
  | cons a l ih =>
    rw [forEach, Out.bind_def, h a (by simp) t]
    simp only
    rw [ih (fun b hb => h b (by simp [hb]))]
    simp

theorem setWidth_ofNat (n : Nat) : (BitVec.ofNat 64 n).setWidth 8 = BitVec.ofNat 8 n := by
  apply BitVec.eq_of_toNat_eq
  simp only [BitVec.toNat_setWidth, BitVec.toNat_ofNat]
  omega

/-- `rd` reads the buffer `d`: the values of the specification inside, a panic outside. -/
structure Reads (rd : Nat → Nat → R U64) (d : Bytes) : Prop where
  ok : ∀ lo hi, lo ≤ hi → hi - lo < 64 → hi < 8 * d.length → rd hi lo = .ok (BitVec.ofNat 64 (fieldVal d lo hi))
  err : ∀ lo hi, lo ≤ hi → 8 * d.length ≤ hi → rd hi lo = .error .index

theorem reads_bitRange (chk : Bool) (d : Bytes) : Reads (bitRange chk d) d :=
  ⟨fun lo hi h1 h2 h3 => bitRange_toNat chk d lo hi h1 h2 (by omega),
   fun lo hi h1 h2 => bitRange_err chk d lo hi h1 (by omega)⟩

theorem showOctets_ok {rd : Nat → Nat → R U64} {d : Bytes} (hrd : Reads rd d) (lo n : Nat)
    (hin : lo + 8 * n ≤ 8 * d.length) (t : Text) :
    showOctets rd lo n t = (.ok (), t ++ spaced (octetsAt d lo n)) := by
  unfold showOctets
  rw [Out.forEach_ok _ _ (fun i => hexByte (BitVec.ofNat 8 (fieldVal d i (i + 7))).toNat ++ [' '])]
  · unfold spaced octetsAt
    simp [List.map_map, Function.comp_def]
  · intro i hi t
    simp only [List.mem_map, List.mem_range] at hi
    obtain ⟨k, hk, rfl⟩ := hi
    rw [Out.ofR_ok_bind (hrd.ok _ _ (by omega) (by omega) (by omega))]
    rw [setWidth_ofNat, hex2_eq]
    rfl

theorem spaced_append (a b : Bytes) : spaced (a ++ b) = spaced a ++ spaced b := by
  simp [spaced]

theorem spaced_one (b : Byte) : spaced [b] = hexByte b.toNat ++ [' '] := by simp [spaced]

/-- One line of `show`. -/
theorem showField_ok {rd : Nat → Nat → R U64} {d : Bytes} (hrd : Reads rd d) (f : Field) (hin : f.Inside d.length)
    (t : Text) : showField rd f t = (.ok (), t ++ fieldLine d f) := by
  obtain ⟨h1, h2⟩ := hin
  unfold showField
  rw [Out.print_bind]
  unfold fieldLine fieldLabel shownOctets padRight decimal
  by_cases hw : f.width ≤ 8
  · have hw' := hw
    unfold Field.width at hw'
    simp only [hw, if_true, true_or]
    rw [Out.ofR_ok_bind (hrd.ok _ _ h1 (by omega) (by omega)), setWidth_ofNat, hex2_eq]
    rw [Out.print_bind]
    simp [print, spaced_one, String.length_toList]
  · simp only [hw, if_false, false_or]
    by_cases hm : f.width % 8 = 0
    · simp only [hm, if_true, ne_eq, not_true_eq_false, if_false]
      rw [Out.bind_def, showOctets_ok hrd _ _ (by unfold Field.width at *; omega)]
      simp [print, String.length_toList]
    · simp only [hm, if_false, ne_eq, not_false_eq_true, if_true]
      have hlast := hrd.ok (f.hi - f.width % 8) f.hi (by omega) (by omega) (by omega)
      rw [Out.bind_def, showOctets_ok hrd _ _ (by unfold Field.width at *; omega)]
      simp only
      rw [Out.ofR_ok_bind hlast, setWidth_ofNat, hex2_eq]
      rw [Out.print_bind]
      simp [print, spaced_append, spaced_one, String.length_toList]

theorem showHeader_ok {rd : Nat → Nat → R U64} {d : Bytes} (hrd : Reads rd d) (T : HeaderDef)
    (hin : ∀ f ∈ T.fields, f.Inside d.length) (t : Text) :
    showHeader rd T t = (.ok (), t ++ headerText T d) := by
  unfold showHeader headerText
  rw [Out.print_bind, Out.print_bind, Out.forEach_ok _ _ (fieldLine d)
    (fun f hf t => showField_ok hrd f (hin f hf) t)]
  unfold headLines padRight
  simp [String.length_toList]

/-- **C55** (text): `show()` of a header whose buffer covers all fields prints the two head lines and
one line per field, in order, and does not panic. -/
theorem C55_header_text (chk : Bool) (h : Hdr) (hin : ∀ f ∈ h.ty.fields, f.Inside h.data.length) (t : Text) :
    h.show chk t = (.ok (), t ++ headLines h.ty.name ++ (h.ty.fields.map (fieldLine h.data)).flatten) := by
  rw [Hdr.show, showHeader_ok (reads_bitRange chk h.data) h.ty hin, headerText, List.append_assoc]

/-- Every default header of the crate, and every header at least as long as its type says, meets the
hypothesis. -/
theorem C55_predefined (chk : Bool) (T : HeaderDef) (hT : T ∈ predefined) (d : Bytes) (hd : T.size ≤ d.length) (t : Text) :
    (T.ofVec d).show chk t = (.ok (), t ++ headLines T.name ++ (T.fields.map (fieldLine d)).flatten) :=
  C55_header_text chk (T.ofVec d) (fun f hf => (predefined_inside T hT f hf).mono hd) t

/-! ## What the printed octets mean -/

theorem beNat_octetsAt (d : Bytes) (lo n : Nat) (hn : n ≠ 0) (h : lo + 8 * n ≤ 8 * d.length) :
    beNat (octetsAt d lo n) = fieldVal d lo (lo + 8 * n - 1) := by
  apply Nat.eq_of_testBit_eq
  intro j
  rw [testBit_beNat, testBit_fieldVal _ _ _ (by omega), length_octetsAt]
  by_cases hj : j < 8 * n
  · rw [netBit_octetsAt _ _ _ _ h (by omega)]
    rw [show lo + (8 * n - 1 - j) = lo + 8 * n - 1 - j by omega, show lo + 8 * n - 1 + 1 - lo = 8 * n by omega]
  · rw [show lo + 8 * n - 1 + 1 - lo = 8 * n by omega]
    simp [hj]

theorem fieldVal_mod (d : Bytes) (lo hi k : Nat) (h : hi < 8 * d.length) (hk : lo + k ≤ hi + 1) :
    fieldVal d lo hi % 2 ^ k = fieldVal d (hi + 1 - k) hi := by
  apply Nat.eq_of_testBit_eq
  intro j
  rw [Nat.testBit_mod_two_pow, testBit_fieldVal _ _ _ h, testBit_fieldVal _ _ _ h]
  by_cases hj : j < k
  · rw [decide_eq_true hj, decide_eq_true (by omega), decide_eq_true (by omega), Bool.true_and]
  · rw [decide_eq_false hj, decide_eq_false (p := j < hi + 1 - (hi + 1 - k)) (by omega), Bool.false_and, Bool.false_and]

theorem fieldVal_div (d : Bytes) (lo hi k : Nat) (h : hi < 8 * d.length) (hk : lo + k ≤ hi) :
    fieldVal d lo hi / 2 ^ k = fieldVal d lo (hi - k) := by
  apply Nat.eq_of_testBit_eq
  intro j
  rw [Nat.testBit_div_two_pow, testBit_fieldVal _ _ _ h, testBit_fieldVal _ _ _ (by omega)]
  by_cases hj : j + k < hi + 1 - lo
  · rw [decide_eq_true hj, decide_eq_true (by omega), show hi - k - j = hi - (j + k) by omega]
  · rw [decide_eq_false hj, decide_eq_false (by omega), Bool.false_and, Bool.false_and]

/-- **C55** (faithful widths): for widths up to 8 and multiples of 8 the octets on the line, read in
base 256, are the field's value. -/
theorem C55_octets_are_value (d : Bytes) (f : Field) (hin : f.Inside d.length) (hw : f.width ≤ 8 ∨ f.width % 8 = 0) :
    beNat (shownOctets d f) = fieldVal d f.lo f.hi := by
  obtain ⟨h1, h2⟩ := hin
  unfold shownOctets
  by_cases h8 : f.width ≤ 8
  · rw [if_pos h8]
    have := fieldVal_lt d f.lo f.hi
    have hle : 2 ^ (f.hi + 1 - f.lo) ≤ 2 ^ 8 := Nat.pow_le_pow_right (by omega) (by unfold Field.width at h8; omega)
    simp only [beNat, List.foldl_cons, List.foldl_nil, BitVec.toNat_ofNat]
    omega
  · rw [if_neg h8, if_pos (by omega), beNat_octetsAt _ _ _ (by omega) (by unfold Field.width at *; omega)]
    congr 1
    unfold Field.width at *; omega

/-- The two parts of the line of a field whose width is not a multiple of 8: `a`, the bits before the
last `r`, and the last octet, which repeats the lowest bit of `a`. -/
theorem garbled_parts (d : Bytes) (f : Field) (hin : f.Inside d.length) (hw : 8 < f.width) (hr : f.width % 8 ≠ 0) :
    let v := fieldVal d f.lo f.hi
    let r := f.width % 8
    (shownOctets d f).length = f.width / 8 + 1 ∧
    beNat (shownOctets d f) = v / 2 ^ r * 256 + v % 2 ^ (r + 1) := by
  obtain ⟨h1, h2⟩ := hin
  intro v r
  have hr' : r = f.width % 8 := rfl
  have hwd : f.width = f.hi - f.lo + 1 := rfl
  unfold shownOctets
  rw [if_neg (by omega), if_neg hr]
  refine ⟨by simp, ?_⟩
  rw [beNat_append, beNat_octetsAt _ _ _ (by omega) (by omega)]
  have hd := fieldVal_div d f.lo f.hi r h2 (by omega)
  have hm := fieldVal_mod d f.lo f.hi (r + 1) h2 (by omega)
  rw [show f.lo + 8 * (f.width / 8) - 1 = f.hi - r by omega, ← hd]
  rw [show f.hi - f.width % 8 = f.hi + 1 - (r + 1) by omega, ← hm]
  have hlt : v % 2 ^ (r + 1) < 2 ^ 8 :=
    Nat.lt_of_lt_of_le (Nat.mod_lt _ (Nat.two_pow_pos _)) (Nat.pow_le_pow_right (by omega) (by omega))
  simp only [beNat, List.foldl_cons, List.foldl_nil, BitVec.toNat_ofNat, List.length_cons, List.length_nil]
  change v / 2 ^ r * 256 ^ 1 + (0 * 256 + v % 2 ^ (r + 1) % 2 ^ 8) = _
  rw [Nat.mod_eq_of_lt hlt]
  omega

/-- **C55** (garbled widths): for every other width the octets on the line, read in base 256, are the
value only if all bits before the last `width % 8` are zero. -/
theorem C55_octets_garbled (d : Bytes) (f : Field) (hin : f.Inside d.length) (hw : 8 < f.width) (hr : f.width % 8 ≠ 0) :
    beNat (shownOctets d f) = fieldVal d f.lo f.hi ↔ fieldVal d f.lo f.hi < 2 ^ (f.width % 8) := by
  obtain ⟨-, h⟩ := garbled_parts d f hin hw hr
  rw [h]
  generalize hv : fieldVal d f.lo f.hi = v
  have hr8 : f.width % 8 < 8 := Nat.mod_lt _ (by omega)
  generalize f.width % 8 = r at *
  have hp : 2 ^ r ≤ 2 ^ 7 := Nat.pow_le_pow_right (by omega) (by omega)
  constructor
  · intro heq
    by_cases h0 : v / 2 ^ r = 0
    · exact (Nat.div_eq_zero_iff_lt (Nat.two_pow_pos r)).1 h0
    · exfalso
      have h1 := Nat.div_add_mod v (2 ^ r)
      have h2 := Nat.mod_lt v (Nat.two_pow_pos r)
      have h3 : 2 ^ r * (v / 2 ^ r) ≤ 128 * (v / 2 ^ r) := Nat.mul_le_mul_right _ hp
      omega
  · intro hlt
    rw [Nat.div_eq_of_lt hlt, Nat.mod_eq_of_lt (Nat.lt_of_lt_of_le hlt (Nat.pow_le_pow_right (by omega) (by omega)))]
    omega

/-- **C55** (recoverable): the value is still determined by the garbled line: the octets before the last
one, followed by the last `width % 8` bits of the last one. -/
theorem C55_octets_recover (d : Bytes) (f : Field) (hin : f.Inside d.length) (hw : 8 < f.width) (hr : f.width % 8 ≠ 0) :
    fieldVal d f.lo f.hi =
      beNat (shownOctets d f) / 256 * 2 ^ (f.width % 8) + beNat (shownOctets d f) % 256 % 2 ^ (f.width % 8) := by
  obtain ⟨-, h⟩ := garbled_parts d f hin hw hr
  rw [h]
  generalize hv : fieldVal d f.lo f.hi = v
  have hr8 : f.width % 8 < 8 := Nat.mod_lt _ (by omega)
  generalize f.width % 8 = r at *
  have hlt : v % 2 ^ (r + 1) < 2 ^ 8 :=
    Nat.lt_of_lt_of_le (Nat.mod_lt _ (Nat.two_pow_pos _)) (Nat.pow_le_pow_right (by omega) (by omega))
  rw [show (v / 2 ^ r * 256 + v % 2 ^ (r + 1)) / 256 = v / 2 ^ r by omega,
    show (v / 2 ^ r * 256 + v % 2 ^ (r + 1)) % 256 = v % 2 ^ (r + 1) by omega,
    Nat.mod_mod_of_dvd _ (Nat.pow_dvd_pow 2 (by omega)), Nat.mul_comm, Nat.div_add_mod]

/-! ## Two headers print the same text only if all fields agree -/

theorem length_hexByte : ∀ b : Byte, (hexByte b.toNat).length = 2 := by decide +kernel

theorem hexByte_inj : ∀ b c : Byte, hexByte b.toNat = hexByte c.toNat → b = c := by
  intro b c h
  rw [← hex2_eq, ← hex2_eq] at h
  have hd' : ∀ m n : Fin 16, hexDigit m = hexDigit n → m = n := by decide
  have hd : ∀ m n, m < 16 → n < 16 → hexDigit m = hexDigit n → m = n := fun m n hm hn h =>
    congrArg Fin.val (hd' ⟨m, hm⟩ ⟨n, hn⟩ h)
  simp only [hex2, List.cons.injEq, and_true] at h
  have h1 := hd _ _ (by have := b.isLt; omega) (by have := c.isLt; omega) h.1
  have h2 := hd _ _ (by omega) (by omega) h.2
  apply BitVec.eq_of_toNat_eq
  omega

theorem length_spaced (b : Bytes) : (spaced b).length = 3 * b.length := by
  induction b with
  | nil => rfl
  | cons x b ih =>
    rw [show x :: b = [x] ++ b from rfl, spaced_append, spaced_one]
    simp [length_hexByte, ih]; omega

theorem spaced_inj {b c : Bytes} (hl : b.length = c.length) (h : spaced b = spaced c) : b = c := by
  induction b generalizing c with
  | nil => cases c with
    | nil => rfl
    | cons => simp at hl
  | cons x b ih => cases c with
    | nil => simp at hl
    | cons y c =>
      rw [show x :: b = [x] ++ b from rfl, show y :: c = [y] ++ c from rfl, spaced_append, spaced_append,
        spaced_one, spaced_one] at h
      obtain ⟨h1, h2⟩ := List.append_inj h (by simp [length_hexByte])
      rw [hexByte_inj _ _ (List.append_cancel_right h1), ih (by simpa using hl) h2]

theorem spaced_dropLast_inj {b c : Bytes} (hl : b.length = c.length) (h : (spaced b).dropLast = (spaced c).dropLast) : b = c := by
  have key : ∀ e : Bytes, e ≠ [] → spaced e = (spaced e).dropLast ++ [' '] := by
    intro e he
    obtain ⟨e', x, rfl⟩ : ∃ e' x, e = e' ++ [x] := ⟨e.dropLast, e.getLast he, (List.dropLast_concat_getLast he).symm⟩
    rw [spaced_append, spaced_one, ← List.append_assoc, List.dropLast_concat]
  by_cases hb : b = []
  · subst hb; exact (List.length_eq_zero_iff.1 hl.symm).symm
  · have hc : c ≠ [] := by intro h; subst h; exact hb (List.length_eq_zero_iff.1 hl)
    exact spaced_inj hl (by rw [key b hb, key c hc, h])

theorem length_shownOctets (d : Bytes) (f : Field) :
    (shownOctets d f).length = if f.width ≤ 8 then 1 else if f.width % 8 = 0 then f.width / 8 else f.width / 8 + 1 := by
  unfold shownOctets
  split
  · rfl
  · split <;> simp

theorem length_fieldLine (d e : Bytes) (f : Field) : (fieldLine d f).length = (fieldLine e f).length := by
  unfold fieldLine
  split <;> simp [length_spaced, length_shownOctets]

theorem shownOctets_of_fieldVal {d e : Bytes} {f : Field} (hd : f.Inside d.length) (he : f.Inside e.length) :
    shownOctets d f = shownOctets e f ↔ fieldVal d f.lo f.hi = fieldVal e f.lo f.hi := by
  constructor
  · intro h
    by_cases hw : f.width ≤ 8 ∨ f.width % 8 = 0
    · rw [← C55_octets_are_value d f hd hw, ← C55_octets_are_value e f he hw, h]
    · rw [C55_octets_recover d f hd (by omega) (by omega), C55_octets_recover e f he (by omega) (by omega), h]
  · intro h
    have hb := netBit_of_fieldVal d e f.lo f.hi hd.2 he.2 h
    obtain ⟨h1, h2⟩ := hd
    have h3 := he.2
    have hwd : f.width = f.hi - f.lo + 1 := rfl
    have ho : octetsAt d f.lo (f.width / 8) = octetsAt e f.lo (f.width / 8) := by
      unfold octetsAt
      apply List.map_congr_left
      intro k hk
      rw [List.mem_range] at hk
      rw [fieldVal_congr d e _ _ (by omega) (by omega) fun i hi1 hi2 => hb i (by omega) (by omega)]
    unfold shownOctets
    by_cases hw : f.width ≤ 8
    · rw [if_pos hw, if_pos hw, h]
    · rw [ho, fieldVal_congr d e (f.hi - f.width % 8) f.hi h2 h3 fun i hi1 hi2 => hb i (by omega) hi2, h]

theorem fieldLine_inj {d e : Bytes} {f : Field} (h : fieldLine d f = fieldLine e f) : shownOctets d f = shownOctets e f := by
  unfold fieldLine at h
  have hl : (shownOctets d f).length = (shownOctets e f).length := by simp [length_shownOctets]
  have h1 := List.append_cancel_right h
  have h2 := List.append_cancel_left h1
  split at h2
  · exact spaced_dropLast_inj hl h2
  · exact spaced_inj hl h2

/-- **C55** (injective): two headers of one type with enough data print the same text iff all their
fields have the same values; so the text determines every field, garbled or not. -/
theorem C55_text_determines_fields (chk : Bool) (T : HeaderDef) (d e : Bytes)
    (hd : ∀ f ∈ T.fields, f.Inside d.length) (he : ∀ f ∈ T.fields, f.Inside e.length) :
    (T.ofVec d).show chk [] = (T.ofVec e).show chk [] ↔
      ∀ f ∈ T.fields, fieldVal d f.lo f.hi = fieldVal e f.lo f.hi := by
  rw [C55_header_text chk (T.ofVec d) hd, C55_header_text chk (T.ofVec e) he]
  simp only [HeaderDef.ofVec, List.nil_append, Prod.mk.injEq, true_and, List.append_cancel_left_eq]
  generalize T.fields = fs at *
  induction fs with
  | nil => simp
  | cons f fs ih =>
    have hdf := hd f (by simp)
    have hef := he f (by simp)
    have ih := ih (fun g hg => hd g (by simp [hg])) (fun g hg => he g (by simp [hg]))
    rw [List.map_cons, List.map_cons, List.flatten_cons, List.flatten_cons, List.forall_mem_cons, ← ih,
      ← shownOctets_of_fieldVal hdf hef]
    constructor
    · intro h
      obtain ⟨h1, h2⟩ := List.append_inj h (length_fieldLine d e f)
      exact ⟨fieldLine_inj h1, h2⟩
    · rintro ⟨h1, h2⟩
      rw [h2]; unfold fieldLine; rw [h1]

/-! ## Buffers that are too short -/

theorem Out.forEach_append {α : Type} (l l' : List α) (f : α → Out Unit) (g : α → Text)
    (h : ∀ a ∈ l, ∀ t, f a t = (.ok (), t ++ g a)) (t : Text) :
    forEach (l ++ l') f t = forEach l' f (t ++ (l.map g).flatten) := by
  induction l generalizing t with
  | nil => simp
  | cons a l ih =>
    rw [List.cons_append, forEach, Out.bind_def, h a (by simp) t]
    simp only
    rw [ih (fun b hb => h b (by simp [hb]))]
    simp

theorem showOctets_err {rd : Nat → Nat → R U64} {d : Bytes} (hrd : Reads rd d) (lo n : Nat)
    (hout : 8 * d.length < lo + 8 * n) (hlo : lo ≤ 8 * d.length) (t : Text) :
    showOctets rd lo n t = (.error .index, t ++ spaced (octetsAt d lo ((8 * d.length - lo) / 8))) := by
  unfold showOctets
  generalize hm : (8 * d.length - lo) / 8 = m
  obtain ⟨k, rfl⟩ : ∃ k, n = m + (k + 1) := ⟨n - m - 1, by omega⟩
  rw [List.range_add, List.map_append, Out.forEach_append _ _ _
    (fun i => hexByte (BitVec.ofNat 8 (fieldVal d i (i + 7))).toNat ++ [' '])]
  · rw [List.range_succ_eq_map]
    simp only [List.map_cons, forEach]
    rw [Out.bind_def, Out.ofR_err_bind (hrd.err _ _ (by omega) (by omega))]
    simp only
    unfold spaced octetsAt
    simp [List.map_map, Function.comp_def]
  · intro i hi t
    simp only [List.mem_map, List.mem_range] at hi
    obtain ⟨k, hk, rfl⟩ := hi
    rw [Out.ofR_ok_bind (hrd.ok _ _ (by omega) (by omega) (by omega))]
    rw [setWidth_ofNat, hex2_eq]
    rfl

/-- **C55** (too short): if the buffer ends inside or before some field, `show()` panics; the head
lines, the lines of the fields before the first such field, that field's label and its whole octets
that are inside (none for widths up to 8) are already printed, and nothing more. -/
theorem C55_panic (chk : Bool) (h : Hdr) (pre post : List Field) (f : Field) (hf : h.ty.fields = pre ++ f :: post)
    (hpre : ∀ g ∈ pre, g.Inside h.data.length) (hle : f.lo ≤ f.hi) (hout : 8 * h.data.length ≤ f.hi) (t : Text) :
    h.show chk t = (.error .index, t ++ headLines h.ty.name ++ (pre.map (fieldLine h.data)).flatten ++ fieldLabel f ++
      if f.width ≤ 8 then [] else spaced (octetsAt h.data f.lo (min (f.width / 8) ((8 * h.data.length - f.lo) / 8)))) := by
  have hrd := reads_bitRange chk h.data
  unfold Hdr.show showHeader
  rw [Out.print_bind, Out.print_bind, hf, Out.forEach_append _ _ _ (fieldLine h.data)
    (fun g hg t => showField_ok hrd g (hpre g hg) t)]
  rw [forEach, Out.bind_def]
  have key : ∀ t, showField (bitRange chk h.data) f t = (.error .index, t ++ fieldLabel f ++
      if f.width ≤ 8 then [] else spaced (octetsAt h.data f.lo (min (f.width / 8) ((8 * h.data.length - f.lo) / 8)))) := by
    intro t
    have hwd : f.width = f.hi - f.lo + 1 := rfl
    have hlab : padRight 20 f.name.toList ++ ": ".toList ++ decimal 4 f.width ++ " : ".toList = fieldLabel f := by
      simp [fieldLabel, padRight, decimal, String.length_toList]
    unfold showField
    rw [Out.print_bind, hlab]
    by_cases hw : f.width ≤ 8
    · simp only [hw, if_true]
      rw [Out.ofR_err_bind (hrd.err _ _ hle hout)]
      simp
    · simp only [hw, if_false]
      by_cases hlo : 8 * h.data.length < f.lo + 8 * (f.width / 8)
      · have hoct : ∀ t, showOctets (bitRange chk h.data) f.lo (f.width / 8) t = (.error .index, t ++
            spaced (octetsAt h.data f.lo (min (f.width / 8) ((8 * h.data.length - f.lo) / 8)))) := by
          intro t
          by_cases hlo' : f.lo ≤ 8 * h.data.length
          · rw [showOctets_err hrd _ _ hlo hlo', Nat.min_eq_right (by omega)]
          · obtain ⟨k, hk⟩ : ∃ k, f.width / 8 = k + 1 := ⟨f.width / 8 - 1, by omega⟩
            rw [Nat.min_eq_right (by omega), show (8 * h.data.length - f.lo) / 8 = 0 by omega, hk]
            unfold showOctets
            rw [List.range_succ_eq_map]
            simp only [List.map_cons, forEach]
            rw [Out.bind_def, Out.ofR_err_bind (hrd.err _ _ (by omega) (by omega))]
            simp [spaced, octetsAt]
        by_cases hm : f.width % 8 = 0
        · simp only [hm, if_true]
          rw [Out.bind_def, hoct]
        · simp only [hm, if_false]
          rw [Out.bind_def, hoct]
      · have hm : f.width % 8 ≠ 0 := by omega
        simp only [hm, if_false]
        rw [Out.bind_def, showOctets_ok hrd _ _ (by omega)]
        simp only
        rw [Out.ofR_err_bind (hrd.err _ _ (by omega) hout), Nat.min_eq_left (by omega)]
  rw [key]
  unfold headLines padRight
  simp [String.length_toList]

/-! ## Slices and packets -/

/-- **C55** (slices): a slice header inside its buffer prints what an owned header with the same bytes
prints. -/
theorem C55_slice_same (chk : Bool) (h : Fast.SHdr) (hb : h.win.InBounds) :
    h.show chk = (h.ty.ofVec h.win.bytes).show chk := by
  unfold Fast.SHdr.show Hdr.show
  congr 1
  funext a b
  exact Fast.bitRange_eq chk h.win hb a b

theorem showRaw_ok (v : Bytes) (k : Nat) (t : Text) :
    showRaw v (k % 16) t = (.ok (), t ++ (v.mapIdx fun i b => hexByte b.toNat ++ [' '] ++
      if (k + i + 1) % 16 = 0 then ['\n'] else []).flatten) := by
  induction v generalizing k t with
  | nil => simp [showRaw, pure]
  | cons b v ih =>
    rw [showRaw, Out.print_bind, hex2_eq, List.mapIdx_cons, List.flatten_cons]
    have hstep : ∀ i, k + (i + 1) + 1 = k + 1 + i + 1 := by omega
    by_cases h : (k % 16 + 1) % 16 = 0
    · rw [if_pos h, Out.print_bind]
      have h0 : showRaw v 0 = showRaw v ((k + 1) % 16) := by congr 1; omega
      have hc : (k + 0 + 1) % 16 = 0 := by omega
      rw [h0, ih, if_pos hc]
      simp [hstep]
    · rw [if_neg h]
      have h0 : k % 16 + 1 = (k + 1) % 16 := by omega
      have hc : ¬ (k + 0 + 1) % 16 = 0 := by omega
      rw [h0, ih, if_neg hc]
      simp [hstep]

theorem showBytes_ok (v : Bytes) (t : Text) : showBytes v t = (.ok (), t ++ rawText v) := by
  unfold showBytes rawText rawLines
  rw [Out.print_bind, Out.bind_def]
  have := showRaw_ok v 0 (t ++ ("\n#### raw ".toList ++ Nat.toDigits 10 v.length ++ " bytes ####\n".toList))
  rw [show (0 : Nat) % 16 = 0 from rfl] at this
  rw [this]
  simp [print]

/-- **C55** (packets): `show()` of a packet prints its headers in order and then all bytes of the
packet, sixteen to a line. -/
theorem C55_packet_text (chk : Bool) (p : Packet)
    (hin : ∀ h ∈ p.hdrs, ∀ f ∈ h.ty.fields, f.Inside h.data.length) (t : Text) :
    p.show chk t = (.ok (), t ++ (p.hdrs.map fun h => headerText h.ty h.data).flatten ++ rawText p.to_vec) := by
  unfold Packet.show
  rw [Out.bind_def, Out.forEach_ok _ _ (fun h => headerText h.ty h.data)
    (fun h hh t => (showHeader_ok (reads_bitRange chk h.data) h.ty (hin h hh) t :
      h.show chk t = (.ok (), t ++ headerText h.ty h.data)))]
  exact showBytes_ok _ _

/-- **C55** (packet slices): likewise for packet slices. -/
theorem C55_packet_slice_text (chk : Bool) (p : Fast.PacketSlice) (hb : ∀ h ∈ p.hdrs, h.win.InBounds)
    (hin : ∀ h ∈ p.hdrs, ∀ f ∈ h.ty.fields, f.Inside h.win.len) (t : Text) :
    p.show chk t = (.ok (), t ++ (p.hdrs.map fun h => headerText h.ty h.win.bytes).flatten ++ rawText p.to_vec) := by
  unfold Fast.PacketSlice.show
  rw [Out.bind_def, Out.forEach_ok _ _ (fun h => headerText h.ty h.win.bytes) (fun h hh t => by
    rw [C55_slice_same chk h (hb h hh)]
    exact showHeader_ok (reads_bitRange chk _) h.ty
      (fun f hf => by
        change f.Inside h.win.bytes.length
        rw [Fast.Win.length_bytes _ (hb h hh)]; exact hin h hh f hf) t)]
  exact showBytes_ok _ _

/-! ## Concrete cases -/

-- A VLAN header with vid 0xabc: the 12-bit field is printed as "ab 1c" (the last octet covers five bits).
example : (Vlan.ofVec [0x6a#8, 0xbc#8, 0x08#8, 0x00#8]).show true [] = (.ok (),
    ("#### Vlan             Size   Data\n" ++
     "-------------------------------------------\n" ++
     "pcp                 :    3 : 03\n" ++
     "cfi                 :    1 : 00\n" ++
     "vid                 :   12 : ab 1c\n" ++
     "etype               :   16 : 08 00 \n").toList) := by decide +kernel

-- hypotheses of the garbled cases hold for it, and the printed octets are not the value
example : Vlan.vid.Inside 4 ∧ 8 < Vlan.vid.width ∧ Vlan.vid.width % 8 ≠ 0 ∧
    shownOctets [0x6a#8, 0xbc#8, 0x08#8, 0x00#8] Vlan.vid = [0xab#8, 0x1c#8] ∧
    fieldVal [0x6a#8, 0xbc#8, 0x08#8, 0x00#8] Vlan.vid.lo Vlan.vid.hi = 0xabc := by decide

-- two different headers: the text tells them apart
example : (Vlan.ofVec [0x6a#8, 0xbc#8, 0x08#8, 0x00#8]).show true [] ≠
    (Vlan.ofVec [0x6a#8, 0xbd#8, 0x08#8, 0x00#8]).show true [] := by
  rw [ne_eq, C55_text_determines_fields true Vlan _ _ (by decide) (by decide)]
  decide

-- a three-byte VLAN header: the first octet of `etype` is printed, then `show` panics
example : (Vlan.ofVec [0x6a#8, 0xbc#8, 0x08#8]).show false [] = (.error .index,
    ("#### Vlan             Size   Data\n" ++
     "-------------------------------------------\n" ++
     "pcp                 :    3 : 03\n" ++
     "cfi                 :    1 : 00\n" ++
     "vid                 :   12 : ab 1c\n" ++
     "etype               :   16 : 08 ").toList) := by decide +kernel
example : Vlan.fields = [Vlan.pcp, Vlan.cfi, Vlan.vid] ++ Vlan.etype :: [] ∧
    (∀ g ∈ [Vlan.pcp, Vlan.cfi, Vlan.vid], g.Inside 3) ∧ Vlan.etype.lo ≤ Vlan.etype.hi ∧ 8 * 3 ≤ Vlan.etype.hi := by decide

-- a packet: one header and thirteen bytes of payload make two lines of raw bytes
example : ({ hdrs := [Vlan.ofVec [0x6a#8, 0xbc#8, 0x08#8, 0x00#8]], payload := List.replicate 13 0x5f#8 } : Packet).show true [] =
    (.ok (),
    ("#### Vlan             Size   Data\n" ++
     "-------------------------------------------\n" ++
     "pcp                 :    3 : 03\n" ++
     "cfi                 :    1 : 00\n" ++
     "vid                 :   12 : ab 1c\n" ++
     "etype               :   16 : 08 00 \n" ++
     "\n#### raw 17 bytes ####\n" ++
     "6a bc 08 00 5f 5f 5f 5f 5f 5f 5f 5f 5f 5f 5f 5f \n" ++
     "5f \n").toList) := by decide +kernel

-- slices into a larger buffer
example : let w : Fast.Win := { base := [0xff#8, 0x6a#8, 0xbc#8, 0x08#8, 0x00#8], off := 1, len := 4 }
    w.InBounds ∧ (Fast.SHdr.show true { ty := Vlan, win := w }) [] =
      (Vlan.ofVec [0x6a#8, 0xbc#8, 0x08#8, 0x00#8]).show true [] := by
  refine ⟨by unfold Fast.Win.InBounds; decide, ?_⟩
  rw [C55_slice_same true _ (by unfold Fast.Win.InBounds; decide)]
  rfl

end PacketRs
