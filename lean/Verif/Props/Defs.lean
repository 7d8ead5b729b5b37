import Verif.Spec.Defs
import Verif.Props.ShowImage
/-!
# C95: which definitions given to `make_header!` work
-/
namespace PacketRs
open Spec

theorem madeBySets_length {T : HeaderDef} {h : Hdr} (hin : ∀ f ∈ T.fields, f.Inside T.dflt.length) (hm : MadeBySets T h) :
    h.data.length = T.dflt.length ∧ h.ty = T := by
  induction hm with
  | new => exact ⟨rfl, rfl⟩
  | @set h h' f v _ hf hs ih =>
    obtain ⟨h'', e, t, l, _⟩ := set_bits h f v (by rw [ih.1]; exact hin f hf)
    obtain rfl : h'' = h' := Except.ok.inj (e.symm.trans hs)
    exact ⟨by rw [l, ih.1], by rw [t, ih.2]⟩

/-- The widths of which a getter returns all that a setter can store. -/
def ReadableWidth (chk : Bool) (w : Nat) : Prop := w ≤ 64 ∨ (chk = false ∧ w % 64 = 0)

theorem set_get_readable (chk : Bool) (h : Hdr) (f : Field) (v : U64) (hin : f.Inside h.data.length)
    (hw : ReadableWidth chk f.width) (hs : f.width < 2 ^ 64) :
    ∃ h' r, h.set f v = .ok h' ∧ h'.get chk f = .ok r ∧ r.toNat = v.toNat % 2 ^ f.width := by
  by_cases h64 : f.width ≤ 64
  · exact C02_set_get chk h f v hin h64
  · rcases hw with hw | ⟨rfl, hm⟩
    · exact absurd hw h64
    · obtain ⟨h', e, hv⟩ := C07_wide_setter h f v hin (by omega)
      obtain ⟨h'', e', _, l, _⟩ := set_bits h f v hin
      obtain rfl : h'' = h' := Except.ok.inj (e'.symm.trans e)
      obtain ⟨r, er, hr⟩ := C07_wide_getter_unchecked h'' f (by rw [l]; exact hin) (by omega) hs
      refine ⟨h'', r, e, er, ?_⟩
      have hlt : v.toNat < 2 ^ 64 := v.isLt
      rw [hr, hv, wideBits, if_pos hm, Nat.mod_eq_of_lt hlt, Nat.mod_eq_of_lt]
      exact Nat.lt_of_lt_of_le hlt (Nat.pow_le_pow_right (by omega) (by omega))

theorem get_readable (chk : Bool) (h : Hdr) (f : Field) (hin : f.Inside h.data.length)
    (hw : ReadableWidth chk f.width) (hs : f.width < 2 ^ 64) : ∃ r, h.get chk f = .ok r := by
  by_cases h64 : f.width ≤ 64
  · obtain ⟨v, e, _⟩ := C01_getter_value chk h f hin h64
    exact ⟨v, e⟩
  · rcases hw with hw | ⟨rfl, _⟩
    · exact absurd hw h64
    · obtain ⟨v, e, _⟩ := C07_wide_getter_unchecked h f hin (by omega) hs
      exact ⟨v, e⟩

theorem get_lowest (chk : Bool) (h : Hdr) (f : Field) (hin : f.Inside h.data.length) (hs : f.width < 2 ^ 64) (r : U64)
    (hg : h.get chk f = .ok r) : r.getLsbD 0 = netBit h.data f.hi := by
  by_cases h64 : f.width ≤ 64
  · obtain ⟨v, e, hv⟩ := C01_getter_bits chk h f hin h64
    obtain rfl : v = r := Except.ok.inj (e.symm.trans hg)
    have : 0 < f.width := Nat.succ_pos _
    rw [hv 0]; simp [this]
  · cases chk with
    | true => rw [C07_wide_getter_checked h f hin (by omega) hs] at hg; cases hg
    | false =>
      obtain ⟨v, e, hv⟩ := C07_wide_getter_unchecked h f hin (by omega) hs
      obtain rfl : v = r := Except.ok.inj (e.symm.trans hg)
      have hb : 0 < wideBits f.width := by unfold wideBits; split <;> omega
      have h0 : 0 < f.hi + 1 - f.lo := by have := hin.1; omega
      rw [← BitVec.testBit_toNat, hv, Nat.testBit_mod_two_pow, testBit_fieldVal _ _ _ hin.2, decide_eq_true hb, decide_eq_true h0]
      simp

/-- **C95, exactly which.** A definition gives a record of independent numbers iff the default data reach to the end of every
field, no two fields overlap, and no field is wider than 64 bits; without overflow checks multiples of 64 are good, too.
(`hs`: bit positions are machine numbers.) -/
theorem C95_record_iff (chk : Bool) (T : HeaderDef) (hle : ∀ f ∈ T.fields, f.lo ≤ f.hi) (hs : ∀ f ∈ T.fields, f.width < 2 ^ 64) :
    RecordLike chk T ↔
      (∀ f ∈ T.fields, f.hi < 8 * T.dflt.length) ∧ T.fields.Pairwise Field.Disjoint ∧
        ∀ f ∈ T.fields, f.width ≤ 64 ∨ (chk = false ∧ f.width % 64 = 0) := by
  constructor
  · intro hr
    have hin : ∀ f ∈ T.fields, f.Inside T.dflt.length := by
      intro f hf
      refine ⟨hle f hf, ?_⟩
      obtain ⟨i, hi⟩ := List.mem_iff_getElem?.1 hf
      obtain ⟨-, h', e, -⟩ := hr T.new .new i f 0#64 hi
      refine Nat.lt_of_not_le fun hge => ?_
      obtain ⟨e', he'⟩ := (C08_setter_panics_iff T.new f 0#64 (hle f hf)).2 (by change T.dflt.length ≤ _; omega)
      rw [he'] at e; cases e
    refine ⟨fun f hf => (hin f hf).2, ?_, ?_⟩
    · rw [List.pairwise_iff_getElem]
      intro i j hi hj hij
      -- the field that ends first is `f`, the other one `g`
      have key : ∀ (a b : Nat) (ha : a < T.fields.length) (hb : b < T.fields.length), a ≠ b →
          T.fields[a].hi ≤ T.fields[b].hi → T.fields[a].hi < T.fields[b].lo := by
        intro a b ha hb hab hhi
        refine Nat.lt_of_not_le fun hlo => ?_
        have hfa := List.getElem_mem ha
        have hga := List.getElem_mem hb
        have efa : T.fields[a]? = some T.fields[a] := List.getElem?_eq_getElem ha
        have ega : T.fields[b]? = some T.fields[b] := List.getElem?_eq_getElem hb
        generalize T.fields[a] = f at *
        generalize T.fields[b] = g at *
        obtain ⟨-, h1, e1, ⟨r1, g1, v1⟩, -⟩ := hr T.new .new a f 1#64 efa
        have hm1 : MadeBySets T h1 := .set .new hfa e1
        obtain ⟨-, h2, e2, -, keep⟩ := hr h1 hm1 b g 0#64 ega
        have hk := keep a f efa hab
        obtain ⟨hl1, -⟩ := madeBySets_length hin hm1
        obtain ⟨h1', e1', _, l1, b1⟩ := set_bits T.new f 1#64 (hin f hfa)
        obtain rfl : h1' = h1 := Except.ok.inj (e1'.symm.trans e1)
        obtain ⟨h2', e2', _, l2, b2⟩ := set_bits h1' g 0#64 (by rw [hl1]; exact hin g hga)
        obtain rfl : h2' = h2 := Except.ok.inj (e2'.symm.trans e2)
        rw [g1] at hk
        -- the lowest bit of `f` is 1 before and 0 after
        have hbit : netBit h2'.data f.hi = false := by
          rw [b2, if_pos ⟨hlo, hhi⟩]; simp
        have hlow := get_lowest chk h2' f (by rw [l2, l1]; exact hin f hfa) (hs f hfa) r1 hk
        rw [hbit] at hlow
        have : r1.toNat.testBit 0 = true := by
          rw [v1, Nat.mod_eq_of_lt]
          · rfl
          · exact Nat.one_lt_two_pow (Nat.succ_ne_zero _)
        rw [BitVec.testBit_toNat, hlow] at this
        cases this
      have h1 := key i j hi hj (by omega)
      have h2 := key j i hj hi (by omega)
      unfold Field.Disjoint
      omega
    · intro f hf
      obtain ⟨i, hi⟩ := List.mem_iff_getElem?.1 hf
      by_cases h64 : f.width ≤ 64
      · exact .inl h64
      · obtain ⟨⟨r0, e0⟩, h', e, ⟨r, er, hrv⟩, -⟩ := hr T.new .new i f (BitVec.allOnes 64) hi
        cases chk with
        | true =>
          rw [C07_wide_getter_checked T.new f (hin f hf) (by omega) (hs f hf)] at e0
          cases e0
        | false =>
          refine .inr ⟨rfl, ?_⟩
          obtain ⟨h'', e', hv⟩ := C07_wide_setter T.new f (BitVec.allOnes 64) (hin f hf) (by omega)
          obtain rfl : h'' = h' := Except.ok.inj (e'.symm.trans e)
          obtain ⟨hl, -⟩ := madeBySets_length hin (.set .new hf e)
          obtain ⟨r', er', hr'⟩ := C07_wide_getter_unchecked h'' f (by rw [hl]; exact hin f hf) (by omega) (hs f hf)
          obtain rfl : r' = r := Except.ok.inj (er'.symm.trans er)
          refine Classical.byContradiction fun hne => ?_
          have hlt := Nat.mod_lt (fieldVal h''.data f.lo f.hi) (Nat.two_pow_pos (wideBits f.width))
          have hwb : wideBits f.width ≤ 63 := by unfold wideBits; rw [if_neg hne]; omega
          have hp : 2 ^ wideBits f.width ≤ 2 ^ 63 := Nat.pow_le_pow_right (by omega) hwb
          have hq : (BitVec.allOnes 64).toNat < 2 ^ f.width :=
            Nat.lt_of_lt_of_le (BitVec.allOnes 64).isLt (Nat.pow_le_pow_right (by omega) (by omega))
          rw [Nat.mod_eq_of_lt hq, hr'] at hrv
          have : (BitVec.allOnes 64).toNat = 2 ^ 64 - 1 := rfl
          omega
  · rintro ⟨hhi, hdis, hw⟩ h hm i f v hf
    have hin : ∀ f ∈ T.fields, f.Inside T.dflt.length := fun f hf => ⟨hle f hf, hhi f hf⟩
    obtain ⟨hl, -⟩ := madeBySets_length hin hm
    have hfm := List.mem_of_getElem? hf
    have hin' : f.Inside h.data.length := by rw [hl]; exact hin f hfm
    refine ⟨get_readable chk h f hin' (hw f hfm) (hs f hfm), ?_⟩
    obtain ⟨h', r, e, er, hr⟩ := set_get_readable chk h f v hin' (hw f hfm) (hs f hfm)
    refine ⟨h', e, ⟨r, er, hr⟩, fun j g hg hne => ?_⟩
    refine C03_other_fields chk h h' f g v hin' e ?_
    obtain ⟨hi, rfl⟩ := List.getElem?_eq_some_iff.1 hf
    obtain ⟨hj, rfl⟩ := List.getElem?_eq_some_iff.1 hg
    rw [List.pairwise_iff_getElem] at hdis
    rcases Nat.lt_or_gt_of_ne hne with h' | h'
    · exact (hdis j i hj hi h').elim .inr .inl
    · exact hdis i j hi hj h'

/-- **C95, the header types of the crate.** All but `IPv6` are records of independent numbers; `IPv6` is one without overflow
checks. -/
theorem C95_predefined (chk : Bool) (T : HeaderDef) (hT : T ∈ predefined) : RecordLike chk T ↔ (T = IPv6 → chk = false) := by
  have tab : ∀ T ∈ predefined, (∀ f ∈ T.fields, f.lo ≤ f.hi ∧ f.hi < 8 * T.dflt.length ∧ f.width < 2 ^ 64) ∧
      chainFrom 0 T.fields (8 * T.size) = true ∧ ((∀ f ∈ T.fields, f.width ≤ 64) ↔ T ≠ IPv6) ∧
      ∀ f ∈ T.fields, f.width ≤ 64 ∨ f.width % 64 = 0 := by decide +kernel
  obtain ⟨h1, h2, h3, h4⟩ := tab T hT
  rw [C95_record_iff chk T (fun f hf => (h1 f hf).1) (fun f hf => (h1 f hf).2.2)]
  constructor
  · rintro ⟨-, -, hw⟩ hT6
    cases chk with
    | false => rfl
    | true => exact absurd hT6 (h3.1 fun f hf => (hw f hf).elim id fun h => by cases h.1)
  · intro hc
    refine ⟨fun f hf => (h1 f hf).2.1, chain_disjoint h2, fun f hf => ?_⟩
    by_cases hT6 : T = IPv6
    · exact (h4 f hf).imp_right fun h => ⟨hc hT6, h⟩
    · exact .inl (h3.2 hT6 f hf)

/-- **C95, bytes and fields.** The fields determine the bytes iff every bit belongs to a field. -/
theorem C95_determined_iff (fs : List Field) (n : Nat) (hin : ∀ f ∈ fs, f.Inside n) :
    (∀ d e : Bytes, d.length = n → e.length = n → (∀ f ∈ fs, fieldVal d f.lo f.hi = fieldVal e f.lo f.hi) → d = e) ↔
      ∀ i, i < 8 * n → ∃ f ∈ fs, f.lo ≤ i ∧ i ≤ f.hi := by
  constructor
  · intro h i hi
    refine Classical.byContradiction fun hno => ?_
    obtain ⟨d, hd, hdb⟩ := buffer_with_bits n fun _ => false
    obtain ⟨e, he, heb⟩ := buffer_with_bits n fun j => decide (j = i)
    have := h d e hd he fun f hf => fieldVal_congr d e _ _ (by rw [hd]; exact (hin f hf).2) (by rw [he]; exact (hin f hf).2)
      fun j hj1 hj2 => by
        have := (hin f hf).2
        rw [hdb j (by omega), heb j (by omega)]
        refine (decide_eq_false ?_).symm
        rintro rfl
        exact hno ⟨f, hf, hj1, hj2⟩
    have h1 := hdb i hi
    rw [this, heb i hi] at h1
    simp at h1
  · intro hcov d e hd he hv
    refine eq_of_netBit d e (hd.trans he.symm) fun i hi => ?_
    obtain ⟨f, hf, h1, h2⟩ := hcov i (by omega)
    exact netBit_of_fieldVal d e f.lo f.hi (by rw [hd]; exact (hin f hf).2) (by rw [he]; exact (hin f hf).2) (hv f hf) i h1 h2

/-- **C95, lengths.** `len` is the number of bytes for every header made by `new()` and the setters iff the default data have the
declared size. -/
theorem C95_len_iff (T : HeaderDef) (hin : ∀ f ∈ T.fields, f.Inside T.dflt.length) :
    (∀ h, MadeBySets T h → h.len = h.to_vec.length) ↔ T.dflt.length = T.size := by
  constructor
  · intro h; exact (h T.new .new).symm
  · intro e h hm
    obtain ⟨hl, ht⟩ := madeBySets_length hin hm
    rw [Hdr.len, Hdr.to_vec, ht, hl, e]

/-- **C95, the slice type.** Its getter of a field of at most 64 bits returns iff the field ends within the declared size; the
default data do not matter, nor do bytes after the header. -/
theorem C95_slice_iff (chk : Bool) (T : HeaderDef) (w : Fast.Win) (hb : w.InBounds) (hl : T.size ≤ w.len) (f : Field)
    (hle : f.lo ≤ f.hi) (hw : f.width ≤ 64) :
    (∃ v, (Fast.SHdr.from T w).get chk f = .ok v) ↔ f.hi < 8 * T.size := by
  obtain ⟨-, -, hg, -⟩ := C09_slice_header_agrees T w hb hl
  rw [hg chk f]
  have hlen : w.bytes.length = w.len := Fast.Win.length_bytes w hb
  have hd : (T.ofVec (w.bytes.take T.size)).data.length = T.size := by
    simp only [HeaderDef.ofVec, List.length_take]; omega
  have := C08_getter_panics_iff chk (T.ofVec (w.bytes.take T.size)) f hle hw
  rw [hd] at this
  constructor
  · rintro ⟨v, hv⟩
    refine Nat.lt_of_not_le fun hge => ?_
    obtain ⟨e, he⟩ := this.2 (by omega)
    rw [he] at hv; cases hv
  · intro h
    rcases hr : (T.ofVec (w.bytes.take T.size)).get chk f with e | v
    · have := this.1 ⟨e, hr⟩
      omega
    · exact ⟨v, rfl⟩

/-! ## The hypotheses are met, and fail -/

/-- The header of the README is a record. -/
example : RecordLike true readmeHeader :=
  (C95_record_iff true readmeHeader (by decide) (by decide)).2 ⟨by decide, chain_disjoint (a := 0) (b := 32) (by decide), by decide⟩

/-- Two fields that share a bit: no record. -/
example : ¬ RecordLike true ⟨"main", "Two", 1, [⟨"a", 0, 4⟩, ⟨"b", 4, 7⟩], [0]⟩ := fun h => by
  have := ((C95_record_iff true _ (by decide) (by decide)).1 h).2.1
  rw [List.pairwise_cons] at this
  have := this.1 ⟨"b", 4, 7⟩ (by simp)
  unfold Field.Disjoint at this
  simp at this

/-- A 65 bit field is none of the two. -/
example (chk : Bool) : ¬ RecordLike chk ⟨"main", "Wide", 9, [⟨"a", 0, 64⟩], [0, 0, 0, 0, 0, 0, 0, 0, 0]⟩ := fun h => by
  have := ((C95_record_iff chk _ (by decide) (by decide)).1 h).2.2 ⟨"a", 0, 64⟩ (by simp)
  revert this
  cases chk <;> decide

/-- `ICMP`: the default data are longer than declared. -/
example : ¬ ∀ h, MadeBySets ICMP h → h.len = h.to_vec.length := fun h =>
  absurd ((C95_len_iff ICMP (by decide)).1 h) (by decide)

end PacketRs
