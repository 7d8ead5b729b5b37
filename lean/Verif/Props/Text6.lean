import Verif.Addr6
import Verif.Spec.Text6
import Verif.Props.Text
import Verif.Props.Constructors
import Verif.Spec.Image
/-!
# C91: IPv6 text conversion
-/
namespace PacketRs
open Spec StdNet

/-! ## Digits -/

section
variable {radix : Nat} {Digit : Char → Nat → Prop}

/-- The value of a digit string after `r`. -/
def valFrom (radix : Nat) (r : Nat) (ds : Str) : Nat := ds.foldl (fun a c => a * radix + (toDigit radix c).getD 0) r

def AllDigits (radix : Nat) (ds : Str) : Prop := ∀ c ∈ ds, toDigit radix c ≠ none

/-- The text does not start with a digit. -/
def NoDigit (radix : Nat) (s : Str) : Prop := ∀ c cs, s = c :: cs → toDigit radix c = none

theorem numeral_iff (hd : ∀ c v, toDigit radix c = some v ↔ Digit c v) (ds : Str) (n : Nat) :
    Numeral radix Digit ds n ↔ ds ≠ [] ∧ AllDigits radix ds ∧ n = valFrom radix 0 ds := by
  constructor
  · intro h
    induction h with
    | one h =>
      rw [← hd] at h
      exact ⟨by simp, by simp [AllDigits, h], by simp [valFrom, h]⟩
    | @snoc ds n c v _ h ih =>
      rw [← hd] at h
      obtain ⟨-, ha, hv⟩ := ih
      refine ⟨by simp, ?_, ?_⟩
      · intro x hx
        rcases List.mem_append.mp hx with hx | hx
        · exact ha x hx
        · rw [List.mem_singleton.mp hx, h]; simp
      · rw [hv]
        simp [valFrom, List.foldl_append, h]
  · rintro ⟨hne, ha, rfl⟩
    have : ∀ k (ds : Str), ds.length = k + 1 → AllDigits radix ds → Numeral radix Digit ds (valFrom radix 0 ds) := by
      intro k
      induction k with
      | zero =>
        intro ds hl ha
        obtain ⟨c, rfl⟩ := List.length_eq_one_iff.mp hl
        cases e : toDigit radix c with
        | none => exact absurd e (ha c (by simp))
        | some v => simpa [valFrom, e] using Numeral.one ((hd c v).mp e)
      | succ k ih =>
        intro ds hl ha
        rcases List.eq_nil_or_concat ds with rfl | ⟨es, c, rfl⟩
        · simp at hl
        · cases e : toDigit radix c with
          | none => exact absurd e (ha c (by simp))
          | some v =>
            have := Numeral.snoc (ih es (by simpa using hl) (fun x hx => ha x (by simp [hx]))) ((hd c v).mp e)
            simpa [valFrom, List.foldl_append, e] using this
    obtain ⟨c, cs, rfl⟩ := List.exists_cons_of_ne_nil hne
    exact this cs.length _ (by simp) ha

theorem exists_span (radix : Nat) (s : Str) : ∃ ds rest, s = ds ++ rest ∧ AllDigits radix ds ∧ NoDigit radix rest := by
  induction s with
  | nil => exact ⟨[], [], rfl, by simp [AllDigits], fun c cs h => by cases h⟩
  | cons c cs ih =>
    by_cases h : toDigit radix c = none
    · exact ⟨[], c :: cs, rfl, by simp [AllDigits], fun x xs e => by cases e; exact h⟩
    · obtain ⟨ds, rest, rfl, ha, hn⟩ := ih
      refine ⟨c :: ds, rest, rfl, ?_, hn⟩
      intro x hx
      rcases List.mem_cons.mp hx with rfl | hx
      · exact h
      · exact ha x hx

theorem numberLoop_span (radix max : Nat) (ds rest : Str) (ha : AllDigits radix ds) (hn : NoDigit radix rest) : ∀ r n,
    n ≤ max → numberLoop radix max (ds ++ rest) r n =
      if n + ds.length ≤ max then some (valFrom radix r ds, n + ds.length, rest) else none := by
  induction ds with
  | nil =>
    intro r n hnm
    cases rest with
    | nil => simp [numberLoop, valFrom, hnm]
    | cons c cs => simp [numberLoop, hn c cs rfl, valFrom, hnm]
  | cons c cs ih =>
    intro r n hnm
    cases e : toDigit radix c with
    | none => exact absurd e (ha c (by simp))
    | some v =>
      simp only [List.cons_append, numberLoop, e]
      by_cases h : n + 1 > max
      · rw [if_pos h, if_neg (by simp only [List.length_cons]; omega)]
      · rw [if_neg h, ih (fun x hx => ha x (List.mem_cons_of_mem _ hx)) _ _ (by omega)]
        simp only [valFrom, List.foldl_cons, e, Option.getD_some, List.length_cons]
        simp only [show n + 1 + cs.length = n + (cs.length + 1) by omega]

theorem readNumber_span (radix max : Nat) (az : Bool) (bound : Nat) (ds rest : Str) (ha : AllDigits radix ds)
    (hn : NoDigit radix rest) :
    readNumber radix max az bound (ds ++ rest) =
      if ds ≠ [] ∧ ds.length ≤ max ∧ (az = true ∨ ds.length = 1 ∨ ds.head? ≠ some '0') ∧ valFrom radix 0 ds < bound then
        some (valFrom radix 0 ds, rest) else none := by
  rw [readNumber, numberLoop_span radix max ds rest ha hn 0 0 (by omega)]
  simp only [Nat.zero_add]
  cases ds with
  | nil => simp
  | cons c cs =>
    by_cases h1 : (c :: cs).length ≤ max
    · rw [if_pos h1]
      simp only [List.length_cons, Nat.add_one_ne_zero, if_false, List.cons_append, List.head?_cons, Option.some.injEq, ne_eq,
        reduceCtorEq, not_false_eq_true, true_and] at h1 ⊢
      by_cases h2 : ¬ az = true ∧ c = '0' ∧ cs.length + 1 > 1
      · rw [if_pos h2, if_neg (by rintro ⟨-, h | h | h, -⟩; exacts [h2.1 h, by omega, h h2.2.1])]
      · rw [if_neg h2]
        have h3 : az = true ∨ cs.length + 1 = 1 ∨ ¬ c = '0' := by
          by_cases ha : az = true
          · exact .inl ha
          · by_cases hc : c = '0'
            · refine .inr (.inl ?_)
              apply Classical.byContradiction
              intro hl
              exact h2 ⟨ha, hc, by omega⟩
            · exact .inr (.inr hc)
        by_cases h4 : valFrom radix 0 (c :: cs) < bound
        · rw [if_pos h4, if_pos ⟨h1, h3, h4⟩]
        · rw [if_neg h4, if_neg (fun h => h4 h.2.2)]
    · rw [if_neg h1, if_neg (fun h => h1 h.2.1)]
end

theorem valFrom16_lt (ds : Str) (ha : AllDigits 16 ds) : ∀ r, valFrom 16 r ds < (r + 1) * 16 ^ ds.length := by
  induction ds with
  | nil => intro r; simp [valFrom]
  | cons c cs ih =>
    intro r
    cases e : toDigit 16 c with
    | none => exact absurd e (ha c (by simp))
    | some v =>
      have hv : v < 16 := by
        simp only [toDigit] at e
        split at e
        · split at e
          · cases e; assumption
          · cases e
        · cases e
      have := ih (fun x hx => ha x (List.mem_cons_of_mem _ hx)) (r * 16 + v)
      simp only [valFrom, List.foldl_cons, e, Option.getD_some, List.length_cons] at this ⊢
      refine Nat.lt_of_lt_of_le this ?_
      rw [Nat.pow_succ, Nat.mul_comm (16 ^ _) 16, ← Nat.mul_assoc]
      exact Nat.mul_le_mul_right _ (by omega)

/-! ## A group of hexadecimal digits -/

theorem hexGroup_iff (t : Str) (n : Nat) :
    HexGroup t n ↔ t ≠ [] ∧ AllDigits 16 t ∧ n = valFrom 16 0 t ∧ t.length ≤ 4 := by
  rw [HexGroup, numeral_iff toDigit_hex]
  exact ⟨fun ⟨⟨a, b, c⟩, d⟩ => ⟨a, b, c, d⟩, fun ⟨a, b, c, d⟩ => ⟨⟨a, b, c⟩, d⟩⟩

theorem HexGroup_lt {t : Str} {n : Nat} (h : HexGroup t n) : n < 65536 := by
  obtain ⟨-, ha, rfl, hl⟩ := (hexGroup_iff t n).mp h
  refine Nat.lt_of_lt_of_le (valFrom16_lt t ha 0) ?_
  simp only [Nat.zero_add, Nat.one_mul]
  exact Nat.pow_le_pow_right (by omega) hl

theorem readHex_of {t rest : Str} {n : Nat} (h : HexGroup t n) (hn : NoDigit 16 rest) :
    readNumber 16 4 true 65536 (t ++ rest) = some (n, rest) := by
  have hlt := HexGroup_lt h
  obtain ⟨hne, ha, rfl, hl⟩ := (hexGroup_iff t n).mp h
  rw [readNumber_span 16 4 true 65536 t rest ha hn, if_pos ⟨hne, hl, .inl rfl, hlt⟩]

theorem of_readHex {s rest : Str} {n : Nat} (h : readNumber 16 4 true 65536 s = some (n, rest)) :
    ∃ t, s = t ++ rest ∧ HexGroup t n ∧ NoDigit 16 rest := by
  obtain ⟨ds, r, rfl, ha, hn⟩ := exists_span 16 s
  rw [readNumber_span 16 4 true 65536 ds r ha hn] at h
  split at h
  · next hc =>
    cases h
    exact ⟨ds, rfl, (hexGroup_iff _ _).mpr ⟨hc.1, ha, rfl, hc.2.1⟩, hn⟩
  · cases h

/-! ## An octet in decimal -/

theorem dec_digits : ∀ b : Byte, AllDigits 10 (dec b) ∧ valFrom 10 0 (dec b) = b.toNat ∧ dec b ≠ [] ∧ (dec b).length ≤ 3 ∧
    ((dec b).length = 1 ∨ (dec b).head? ≠ some '0') := by
  unfold AllDigits
  decide +kernel

theorem toDigit10_cases (c : Char) (h : toDigit 10 c ≠ none) :
    c ∈ ['0', '1', '2', '3', '4', '5', '6', '7', '8', '9'] := by
  cases e : toDigit 10 c with
  | none => exact absurd e h
  | some v =>
    have := (toDigit_dec c v).mp e
    exact List.mem_of_getElem? this

/-- Digits that make a number below 256 and do not start with a superfluous zero are the usual ones. -/
theorem dec_of_digits (ds : Str) (ha : AllDigits 10 ds) (hne : ds ≠ []) (hl : ds.length ≤ 3)
    (hz : ds.length = 1 ∨ ds.head? ≠ some '0') (hlt : valFrom 10 0 ds < 256) : ds = dec (BitVec.ofNat 8 (valFrom 10 0 ds)) := by
  match ds, hne, hl with
  | [a], _, _ =>
    have h1 := toDigit10_cases a (ha a (by simp))
    have : ∀ a ∈ ['0', '1', '2', '3', '4', '5', '6', '7', '8', '9'], [a] = dec (BitVec.ofNat 8 (valFrom 10 0 [a])) := by
      decide +kernel
    exact this a h1
  | [a, b], _, _ =>
    have h1 := toDigit10_cases a (ha a (by simp))
    have h2 := toDigit10_cases b (ha b (by simp))
    have : ∀ a ∈ ['0', '1', '2', '3', '4', '5', '6', '7', '8', '9'], ∀ b ∈ ['0', '1', '2', '3', '4', '5', '6', '7', '8', '9'],
        a ≠ '0' → [a, b] = dec (BitVec.ofNat 8 (valFrom 10 0 [a, b])) := by
      decide +kernel
    exact this a h1 b h2 (by simpa using hz)
  | [a, b, c], _, _ =>
    have h1 := toDigit10_cases a (ha a (by simp))
    have h2 := toDigit10_cases b (ha b (by simp))
    have h3 := toDigit10_cases c (ha c (by simp))
    have : ∀ a ∈ ['0', '1', '2', '3', '4', '5', '6', '7', '8', '9'], ∀ b ∈ ['0', '1', '2', '3', '4', '5', '6', '7', '8', '9'],
        ∀ c ∈ ['0', '1', '2', '3', '4', '5', '6', '7', '8', '9'],
        a ≠ '0' → valFrom 10 0 [a, b, c] < 256 → [a, b, c] = dec (BitVec.ofNat 8 (valFrom 10 0 [a, b, c])) := by
      decide +kernel
    exact this a h1 b h2 c h3 (by simpa using hz) hlt

theorem readDec_of (b : Byte) (rest : Str) (hn : NoDigit 10 rest) :
    readNumber 10 3 false 256 (dec b ++ rest) = some (b.toNat, rest) := by
  obtain ⟨ha, hv, hne, hl, hz⟩ := dec_digits b
  rw [readNumber_span 10 3 false 256 _ rest ha hn, if_pos ⟨hne, hl, .inr hz, by rw [hv]; exact b.isLt⟩, hv]

theorem of_readDec {s rest : Str} {n : Nat} (h : readNumber 10 3 false 256 s = some (n, rest)) :
    ∃ b : Byte, s = dec b ++ rest ∧ n = b.toNat ∧ NoDigit 10 rest := by
  obtain ⟨ds, r, rfl, ha, hn⟩ := exists_span 10 s
  rw [readNumber_span 10 3 false 256 ds r ha hn] at h
  split at h
  · next hc =>
    cases h
    obtain ⟨h1, h2, h3, h4⟩ := hc
    refine ⟨BitVec.ofNat 8 (valFrom 10 0 ds), ?_, ?_, hn⟩
    · rw [← dec_of_digits ds ha h1 h2 (by simpa using h3) h4]
    · rw [BitVec.toNat_ofNat, Nat.mod_eq_of_lt (by omega)]
  · cases h

/-! ## An IPv4 address -/

theorem readNumber_none {radix max bound : Nat} {az : Bool} {s : Str} (h : NoDigit radix s) :
    readNumber radix max az bound s = none := by
  have := readNumber_span radix max az bound [] s (by simp [AllDigits]) h
  simpa using this

theorem noDigit_dot (s : Str) : NoDigit 10 ('.' :: s) := fun c cs e => by cases e; decide

theorem noDigit_colon (radix : Nat) (hr : radix = 10 ∨ radix = 16) (s : Str) : NoDigit radix (':' :: s) :=
  fun c cs e => by cases e; rcases hr with rfl | rfl <;> decide

theorem noDigit_nil (radix : Nat) : NoDigit radix [] := fun c cs e => by cases e

theorem readIpv4_of (a b c d : Byte) (rest : Str) (hn : NoDigit 10 rest) :
    readIpv4Addr (joined '.' [dec a, dec b, dec c, dec d] ++ rest) = some ([a.toNat, b.toNat, c.toNat, d.toNat], rest) := by
  simp only [joined, List.append_assoc, List.cons_append, readIpv4Addr, ipv4Loop, readSeparator, Nat.lt_irrefl, if_false,
    readDec_of _ _ (noDigit_dot _), readDec_of _ _ hn, readGivenChar, if_true, Nat.zero_add, Nat.zero_lt_one, gt_iff_lt,
    Nat.reduceAdd, Nat.reduceLT]

theorem of_readSep {α : Type} {sep : Char} {i : Nat} {inner : Str → Option (α × Str)} {s : Str} {x : α × Str}
    (h : readSeparator sep i inner s = some x) :
    ∃ s', s = (if i = 0 then [] else [sep]) ++ s' ∧ inner s' = some x := by
  rw [readSeparator] at h
  by_cases hi : i > 0
  · rw [if_pos hi] at h
    rw [if_neg (by omega)]
    cases s with
    | nil => cases h
    | cons c cs =>
      simp only [readGivenChar] at h
      by_cases hc : c = sep
      · subst hc
        rw [if_pos rfl] at h
        exact ⟨cs, rfl, h⟩
      · rw [if_neg hc] at h
        cases h
  · rw [if_neg hi] at h
    rw [if_pos (by omega)]
    exact ⟨s, rfl, h⟩

theorem of_readIpv4 {s rest : Str} {os : List Nat} (h : readIpv4Addr s = some (os, rest)) :
    ∃ a b c d : Byte, s = joined '.' [dec a, dec b, dec c, dec d] ++ rest ∧ os = [a.toNat, b.toNat, c.toNat, d.toNat] ∧
      NoDigit 10 rest := by
  have step : ∀ {k i : Nat} {s rest : Str} {os : List Nat}, ipv4Loop (k + 1) i s = some (os, rest) →
      ∃ (b : Byte) (os' : List Nat) (s' : Str), s = (if i = 0 then [] else ['.']) ++ dec b ++ s' ∧ os = b.toNat :: os' ∧
        ipv4Loop k (i + 1) s' = some (os', rest) ∧ NoDigit 10 s' := by
    intro k i s rest os h
    simp only [ipv4Loop] at h
    cases e : readSeparator '.' i (readNumber 10 3 false 256) s with
    | none => rw [e] at h; cases h
    | some x =>
      obtain ⟨o, s'⟩ := x
      rw [e] at h
      obtain ⟨t, rfl, ht⟩ := of_readSep e
      obtain ⟨b, rfl, rfl, hn⟩ := of_readDec ht
      cases e2 : ipv4Loop k (i + 1) s' with
      | none => simp only [e2] at h; cases h
      | some y =>
        obtain ⟨os', s''⟩ := y
        simp only [e2] at h
        cases h
        exact ⟨b, os', s', by simp, rfl, e2, hn⟩
  obtain ⟨a, o1, s1, rfl, rfl, h1, -⟩ := step h
  obtain ⟨b, o2, s2, rfl, rfl, h2, -⟩ := step h1
  obtain ⟨c, o3, s3, rfl, rfl, h3, -⟩ := step h2
  obtain ⟨d, o4, s4, rfl, rfl, h4, hn⟩ := step h3
  simp only [ipv4Loop] at h4
  cases h4
  exact ⟨a, b, c, d, by simp [joined], rfl, hn⟩

theorem toDigit16_of_10 (c : Char) (h : toDigit 10 c ≠ none) : toDigit 16 c ≠ none := by
  have := toDigit10_cases c h
  revert this
  have : ∀ c ∈ ['0', '1', '2', '3', '4', '5', '6', '7', '8', '9'], toDigit 16 c ≠ none := by decide +kernel
  exact this c

/-- A group of hexadecimal digits is not taken for an IPv4 address. -/
theorem readIpv4_hex {t rest : Str} {n : Nat} (h : HexGroup t n) (hn : NoDigit 16 rest) (hd : rest.head? ≠ some '.') :
    readIpv4Addr (t ++ rest) = none := by
  cases e : readIpv4Addr (t ++ rest) with
  | none => rfl
  | some x =>
    exfalso
    obtain ⟨os, r⟩ := x
    obtain ⟨a, b, c, d, he, -, -⟩ := of_readIpv4 e
    obtain ⟨-, ha, -, -⟩ := (hexGroup_iff t n).mp h
    simp only [joined, List.append_assoc, List.cons_append] at he
    generalize dec b ++ _ = x at he
    rcases List.append_eq_append_iff.mp he with ⟨u, h1, h2⟩ | ⟨u, h1, h2⟩
    · cases u with
      | nil => rw [List.nil_append] at h2; rw [h2] at hd; exact hd rfl
      | cons c' u =>
        have : toDigit 10 c' ≠ none := (dec_digits a).1 c' (by rw [h1]; simp)
        exact toDigit16_of_10 c' this (hn c' _ (by rw [h2]; rfl))
    · cases u with
      | nil => rw [List.nil_append] at h2; rw [← h2] at hd; exact hd rfl
      | cons c' u =>
        cases h2
        exact ha '.' (by rw [h1]; simp) (by decide)

theorem readIpv4_none {s : Str} (h : NoDigit 10 s) : readIpv4Addr s = none := by
  simp only [readIpv4Addr, ipv4Loop, readSeparator, Nat.lt_irrefl, if_false, gt_iff_lt, readNumber_none h]

/-! ## Groups -/

/-- Groups each after a colon. -/
def tailText (ps : List Str) : Str := ps.flatMap (fun p => ':' :: p)

/-- Groups from the one with index `i` on. -/
def sepText (i : Nat) (ps : List Str) : Str := if i = 0 then joined ':' ps else tailText ps

theorem joined_cons (p : Str) (ps : List Str) : joined ':' (p :: ps) = p ++ tailText ps := by
  induction ps generalizing p with
  | nil => simp [joined, tailText]
  | cons q qs ih =>
    simp only [joined, ih q, tailText, List.flatMap_cons, List.cons_append]

theorem sepText_cons (i : Nat) (p : Str) (ps : List Str) :
    sepText i (p :: ps) = (if i = 0 then [] else [':']) ++ p ++ sepText (i + 1) ps := by
  rw [sepText, sepText, if_neg (by omega : i + 1 ≠ 0), joined_cons]
  by_cases h : i = 0
  · simp [h]
  · simp [h, tailText]

/-- After a group comes no digit and no dot. -/
def After (s : Str) : Prop := NoDigit 16 s ∧ s.head? ≠ some '.'

theorem after_colon (s : Str) : After (':' :: s) := ⟨noDigit_colon 16 (.inr rfl) s, by simp⟩
theorem after_nil : After [] := ⟨noDigit_nil 16, by decide⟩

theorem readSep_of {α : Type} (sep : Char) (i : Nat) (inner : Str → Option (α × Str)) (s : Str) :
    readSeparator sep i inner ((if i = 0 then [] else [sep]) ++ s) = inner s := by
  rw [readSeparator]
  by_cases h : i = 0
  · simp [h]
  · simp [h, readGivenChar, Nat.pos_of_ne_zero h]

theorem groups_append {ps : List Str} {ns : List Nat} (h : List.Forall₂ HexGroup ps ns) : ∀ (k i : Nat) (rest : Str),
    ns.length ≤ k → (ps = [] ∨ After rest) →
    readGroups k i (sepText i ps ++ rest) =
      (ns ++ (readGroups (k - ns.length) (i + ns.length) rest).1, (readGroups (k - ns.length) (i + ns.length) rest).2) := by
  induction h with
  | nil =>
    intro k i rest _ _
    have : sepText i [] = [] := by simp [sepText, joined, tailText]
    simp [this]
  | @cons p n ps ns hp hps ih =>
    intro k i rest hk ha
    have ha : After rest := by
      rcases ha with ha | ha
      · cases ha
      · exact ha
    obtain ⟨k, rfl⟩ : ∃ m, k = m + 1 := ⟨k - 1, by simp only [List.length_cons] at hk; omega⟩
    simp only [List.length_cons] at hk
    have hmid : After (sepText (i + 1) ps ++ rest) := by
      cases ps with
      | nil =>
        have : sepText (i + 1) [] = [] := by simp [sepText, tailText]
        simpa [this] using ha
      | cons q qs =>
        rw [sepText_cons, if_neg (by omega)]
        exact after_colon _
    rw [sepText_cons, List.append_assoc, List.append_assoc, readGroups, readSep_of, readSep_of, readIpv4_hex hp hmid.1 hmid.2,
      readHex_of hp hmid.1, ite_self]
    simp only [ih k (i + 1) rest (by omega) (.inr ha), List.length_cons, List.cons_append,
      show k + 1 - (ns.length + 1) = k - ns.length by omega, show i + 1 + ns.length = i + (ns.length + 1) by omega]

/-- Reading stops at the end and at `::`. -/
theorem groups_stop (k i : Nat) (rest : Str) (h : rest = [] ∨ ∃ r, rest = ':' :: ':' :: r) :
    readGroups k i rest = ([], false, rest) := by
  cases k with
  | zero => rfl
  | succ k =>
    have key : ∀ {α : Type} (inner : Str → Option (α × Str)), inner [] = none → (∀ s, inner (':' :: s) = none) →
        readSeparator ':' i inner rest = none := by
      intro α inner h1 h2
      rw [readSeparator]
      rcases h with rfl | ⟨r, rfl⟩
      · simp [readGivenChar, h1]
      · simp [readGivenChar, h2]
    rw [readGroups, key _ (readIpv4_none (noDigit_nil 10)) (fun s => readIpv4_none (noDigit_colon 10 (.inl rfl) s)),
      key _ (readNumber_none (noDigit_nil 16)) (fun s => readNumber_none (noDigit_colon 16 (.inr rfl) s)), ite_self]

theorem groups_quad (k i : Nat) (q : Str) (g : List Nat) (h : Quad q g) :
    readGroups (k + 2) i ((if i = 0 then [] else [':']) ++ q) = (g, true, []) := by
  obtain ⟨a, b, c, d, rfl, rfl⟩ := h
  have := readIpv4_of a b c d [] (noDigit_nil 10)
  rw [List.append_nil] at this
  rw [readGroups, if_pos (by omega), readSep_of, this]
  rfl

theorem of_groups : ∀ (k i : Nat) (s : Str) (gs : List Nat) (v4 : Bool) (rest : Str), readGroups k i s = (gs, v4, rest) →
    gs.length ≤ k ∧ ∃ ps ms, List.Forall₂ HexGroup ps ms ∧
      ((v4 = false ∧ gs = ms ∧ s = sepText i ps ++ rest) ∨
       (v4 = true ∧ ∃ q g, Quad q g ∧ gs = ms ++ g ∧ s = sepText i (ps ++ [q]) ++ rest)) := by
  intro k
  induction k with
  | zero =>
    intro i s gs v4 rest h
    cases h
    exact ⟨Nat.le_refl _, [], [], .nil, .inl ⟨rfl, rfl, by simp [sepText, joined, tailText]⟩⟩
  | succ k ih =>
    intro i s gs v4 rest h
    rw [readGroups] at h
    cases e : (if k + 1 > 1 then readSeparator ':' i readIpv4Addr s else none) with
    | some x =>
      obtain ⟨os, s'⟩ := x
      rw [e] at h
      by_cases hk : k + 1 > 1
      · rw [if_pos hk] at e
        obtain ⟨t, rfl, ht⟩ := of_readSep e
        obtain ⟨a, b, c, d, rfl, rfl, -⟩ := of_readIpv4 ht
        cases h
        refine ⟨by simp only [List.length_cons, List.length_nil]; omega, [], [], .nil, .inr ⟨rfl, _, _, ⟨a, b, c, d, rfl, rfl⟩, rfl, ?_⟩⟩
        rw [List.nil_append, sepText_cons]
        simp [sepText, tailText]
      · rw [if_neg hk] at e
        cases e
    | none =>
      rw [e] at h
      cases e2 : readSeparator ':' i (readNumber 16 4 true 65536) s with
      | none =>
        simp only [e2] at h
        cases h
        exact ⟨by simp, [], [], .nil, .inl ⟨rfl, rfl, by simp [sepText, joined, tailText]⟩⟩
      | some x =>
        obtain ⟨n, s'⟩ := x
        simp only [e2] at h
        obtain ⟨t, rfl, ht⟩ := of_readSep e2
        obtain ⟨p, rfl, hp, -⟩ := of_readHex ht
        rcases hr : readGroups k (i + 1) s' with ⟨g1, v1, r1⟩
        rw [hr] at h
        cases h
        obtain ⟨hl, ps, ms, hf, hc⟩ := ih (i + 1) s' _ _ _ hr
        refine ⟨by simp only [List.length_cons]; omega, p :: ps, n :: ms, .cons hp hf, ?_⟩
        rcases hc with ⟨h1, h2, h3⟩ | ⟨h1, q, g, h2, h3, h4⟩
        · exact .inl ⟨h1, by rw [h2], by rw [sepText_cons, h3]; simp⟩
        · exact .inr ⟨h1, q, g, h2, by rw [h3]; rfl, by rw [List.cons_append, sepText_cons, h4]; simp⟩

/-! ## Addresses -/

theorem readAll_of {t : Str} {ns : List Nat} (h : Groups t ns) (k : Nat) (hk : ns.length ≤ k) :
    ∃ v4, readGroups k 0 t = (ns, v4, []) := by
  rcases h with ⟨ps, rfl, hf⟩ | ⟨ps, q, ms, g, rfl, hf, hq, rfl⟩
  · have := groups_append hf k 0 [] hk (.inr after_nil)
    rw [List.append_nil, groups_stop _ _ _ (.inl rfl), List.append_nil] at this
    exact ⟨false, this⟩
  · have hg : g.length = 2 := by obtain ⟨a, b, c, d, -, rfl⟩ := hq; rfl
    simp only [List.length_append, hg] at hk
    have hl : ps.length = ms.length := hf.length_eq
    have e : joined ':' (ps ++ [q]) = sepText 0 ps ++ ((if 0 + ms.length = 0 then [] else [':']) ++ q) := by
      cases ps with
      | nil =>
        have : ms.length = 0 := by simpa using hl.symm
        simp [joined, sepText, this]
      | cons p ps =>
        have : ms.length ≠ 0 := by rw [← hl]; simp
        rw [if_neg (by omega), List.cons_append, joined_cons, sepText, if_pos rfl, joined_cons]
        simp [tailText]
    have hq2 := groups_quad (k - ms.length - 2) (0 + ms.length) q g hq
    rw [show k - ms.length - 2 + 2 = k - ms.length by omega] at hq2
    refine ⟨true, ?_⟩
    rw [e, groups_append hf k 0 _ (by omega) ?_, hq2]
    cases ps with
    | nil => exact .inl rfl
    | cons p ps =>
      have : ms.length ≠ 0 := by rw [← hl]; simp
      rw [if_neg (by omega)]
      exact .inr (after_colon _)

theorem read_of_text {t : Str} {ns : List Nat} (h : Ipv6Text t ns) : readIpv6Addr t = some (ns, []) := by
  rcases h with ⟨h, hl⟩ | ⟨l, r, a, b, rfl, ⟨ps, rfl, hf⟩, hr, hab, rfl⟩
  · obtain ⟨v4, e⟩ := readAll_of h 8 (by omega)
    simp only [readIpv6Addr, e, hl, if_true]
  · have h1 := groups_append hf 8 0 ([':', ':'] ++ r) (by omega) (.inr (after_colon _))
    rw [groups_stop _ _ ([':', ':'] ++ r) (.inr ⟨r, rfl⟩), List.append_nil] at h1
    obtain ⟨v4, h2⟩ := readAll_of hr (8 - (a.length + 1)) (by omega)
    have e : joined ':' ps ++ [':', ':'] ++ r = sepText 0 ps ++ ([':', ':'] ++ r) := by simp [sepText]
    rw [e, readIpv6Addr, h1]
    simp only [show a.length ≠ 8 by omega, if_false, Bool.false_eq_true, List.cons_append, List.nil_append, readGivenChar, if_true,
      h2, show 8 - a.length - b.length = 8 - (a.length + b.length) by omega]

theorem groups_of_reading {s : Str} {gs : List Nat} {v4 : Bool} {k : Nat} (h : readGroups k 0 s = (gs, v4, [])) : Groups s gs := by
  obtain ⟨-, ps, ms, hf, hc⟩ := of_groups k 0 s gs v4 [] h
  rcases hc with ⟨-, rfl, e⟩ | ⟨-, q, g, hq, rfl, e⟩
  · exact .inl ⟨ps, by rw [e]; simp [sepText], hf⟩
  · exact .inr ⟨ps, q, ms, g, by rw [e]; simp [sepText], hf, hq, rfl⟩

theorem of_readGiven {c : Char} {s s' : Str} (h : readGivenChar c s = some s') : s = c :: s' := by
  cases s with
  | nil => cases h
  | cons x xs =>
    simp only [readGivenChar] at h
    split at h
    · next e => cases h; rw [e]
    · cases h

theorem text_of_read {t : Str} {ns : List Nat} (h : readIpv6Addr t = some (ns, [])) : Ipv6Text t ns := by
  rw [readIpv6Addr] at h
  rcases e1 : readGroups 8 0 t with ⟨hd, v4, s1⟩
  rw [e1] at h
  simp only at h
  by_cases h8 : hd.length = 8
  · rw [if_pos h8] at h
    cases h
    exact .inl ⟨groups_of_reading e1, h8⟩
  · rw [if_neg h8] at h
    cases v4 with
    | true => cases h
    | false =>
      simp only [Bool.false_eq_true, if_false] at h
      cases e2 : readGivenChar ':' s1 with
      | none => rw [e2] at h; cases h
      | some s2 =>
        rw [e2] at h
        simp only at h
        cases e3 : readGivenChar ':' s2 with
        | none => rw [e3] at h; cases h
        | some s3 =>
          rw [e3] at h
          simp only at h
          rcases e4 : readGroups (8 - (hd.length + 1)) 0 s3 with ⟨tl, w4, s4⟩
          rw [e4] at h
          cases h
          obtain ⟨hl, ps, ms, hf, hc⟩ := of_groups _ _ _ _ _ _ e1
          have hl2 := (of_groups _ _ _ _ _ _ e4).1
          rcases hc with ⟨-, rfl, e⟩ | ⟨h, -⟩
          · refine .inr ⟨joined ':' ps, s3, hd, tl, ?_, ⟨ps, rfl, hf⟩, groups_of_reading e4, by omega, ?_⟩
            · rw [e, of_readGiven e2, of_readGiven e3]
              simp [sepText]
            · rw [show 8 - hd.length - tl.length = 8 - (hd.length + tl.length) by omega]
          · cases h

theorem Ipv6Text_length {t : Str} {ns : List Nat} (h : Ipv6Text t ns) : ns.length = 8 := by
  rcases h with ⟨-, h⟩ | ⟨l, r, a, b, -, -, -, h, rfl⟩
  · exact h
  · simp only [List.length_append, List.length_replicate]
    omega

theorem octets_toList (ns : List Nat) (h : ns.length = 8) : (octets ns).toList = groupOctets ns := by
  match ns, h with
  | [a, b, c, d, e, f, g, i], _ => rfl

/-- **C91**: no text denotes two addresses. -/
theorem C91_unambiguous (t : Str) (ns ms : List Nat) (h : Ipv6Text t ns) (k : Ipv6Text t ms) : ns = ms := by
  have := (read_of_text h).symm.trans (read_of_text k)
  cases this
  rfl

/-- **C91**: the parser of the standard library accepts exactly the texts of IPv6 addresses and returns the address denoted. -/
theorem C91_parser (t : Str) (v : Vector Byte 16) :
    ipv6FromStr t = some v ↔ ∃ ns, Ipv6Text t ns ∧ v.toList = groupOctets ns := by
  constructor
  · intro h
    simp only [ipv6FromStr] at h
    split at h
    · next gs e =>
      cases h
      have := text_of_read e
      exact ⟨gs, this, octets_toList gs (Ipv6Text_length this)⟩
    · cases h
  · rintro ⟨ns, h, hv⟩
    simp only [ipv6FromStr, read_of_text h]
    rw [← octets_toList ns (Ipv6Text_length h)] at hv
    rw [Vector.toList_inj.mp hv]

/-- **C91**: `to_ipv6_bytes` gives the octets of the address the text denotes, sixteen zeros if it denotes none, and never
panics. -/
theorem C91_bytes (t : Str) :
    (∀ ns, Ipv6Text t ns → to_ipv6_bytes ipv6FromStr t = groupOctets ns) ∧
    ((∀ ns, ¬ Ipv6Text t ns) → to_ipv6_bytes ipv6FromStr t = List.replicate 16 0#8) := by
  constructor
  · intro ns h
    have : ipv6FromStr t = some (octets ns) := (C91_parser t _).mpr ⟨ns, h, octets_toList ns (Ipv6Text_length h)⟩
    rw [to_ipv6_bytes, this]
    exact octets_toList ns (Ipv6Text_length h)
  · intro h
    cases e : ipv6FromStr t with
    | none => rw [to_ipv6_bytes, e]; rfl
    | some v =>
      obtain ⟨ns, hn, -⟩ := (C91_parser t v).mp e
      exact absurd hn (h ns)

/-- **C91**: every group of an address is below 65536. -/
theorem C91_groups (t : Str) (ns : List Nat) (h : Ipv6Text t ns) : ns.length = 8 ∧ ∀ n ∈ ns, n < 65536 := by
  have hex : ∀ {ps : List Str} {ms : List Nat}, List.Forall₂ HexGroup ps ms → ∀ n ∈ ms, n < 65536 := by
    intro ps ms hf
    induction hf with
    | nil => simp
    | cons hp _ ih =>
      intro n hn
      rcases List.mem_cons.mp hn with rfl | hn
      · exact HexGroup_lt hp
      · exact ih n hn
  have all : ∀ {t : Str} {ms : List Nat}, Groups t ms → ∀ n ∈ ms, n < 65536 := by
    rintro t ms (⟨ps, -, hf⟩ | ⟨ps, q, ks, g, -, hf, ⟨a, b, c, d, -, rfl⟩, rfl⟩)
    · exact hex hf
    · intro n hn
      simp only [List.mem_append, List.mem_cons, List.not_mem_nil, or_false] at hn
      have := a.isLt; have := b.isLt; have := c.isLt; have := d.isLt
      rcases hn with hn | rfl | rfl
      · exact hex hf n hn
      · omega
      · omega
  refine ⟨Ipv6Text_length h, ?_⟩
  rcases h with ⟨h, -⟩ | ⟨l, r, a, b, -, ⟨ps, -, hf⟩, hr, -, rfl⟩
  · exact all h
  · intro n hn
    simp only [List.mem_append, List.mem_replicate] at hn
    rcases hn with (hn | hn) | hn
    · exact hex hf n hn
    · omega
    · exact all hr n hn

theorem groupOctets_inj : ∀ (ns ms : List Nat), (∀ n ∈ ns, n < 65536) → (∀ n ∈ ms, n < 65536) →
    groupOctets ns = groupOctets ms → ns = ms
  | [], [], _, _, _ => rfl
  | [], m :: ms, _, _, h => by simp [groupOctets] at h
  | n :: ns, [], _, _, h => by simp [groupOctets] at h
  | n :: ns, m :: ms, hn, hm, h => by
    simp only [groupOctets, List.flatMap_cons, List.cons_append, List.nil_append, List.cons.injEq] at h
    obtain ⟨h1, h2, h3⟩ := h
    have e1 := congrArg BitVec.toNat h1
    have e2 := congrArg BitVec.toNat h2
    simp only [BitVec.toNat_ofNat] at e1 e2
    have := hn n (by simp)
    have := hm m (by simp)
    rw [show n = m by omega, groupOctets_inj ns ms (fun x hx => hn x (List.mem_cons_of_mem _ hx))
      (fun x hx => hm x (List.mem_cons_of_mem _ hx)) h3]

/-- **C91**: two texts of addresses convert to the same octets iff they denote the same address. -/
theorem C91_injective (t u : Str) (ns ms : List Nat) (h : Ipv6Text t ns) (k : Ipv6Text u ms) :
    to_ipv6_bytes ipv6FromStr t = to_ipv6_bytes ipv6FromStr u ↔ ns = ms := by
  rw [(C91_bytes t).1 ns h, (C91_bytes u).1 ms k]
  exact ⟨groupOctets_inj ns ms (C91_groups t ns h).2 (C91_groups u ms k).2, fun e => by rw [e]⟩

/-- **C91**: a text that is not an address is converted to the unspecified address, as are the texts of that address and no
others. -/
theorem C91_unspecified (t : Str) :
    to_ipv6_bytes ipv6FromStr t = List.replicate 16 0#8 ↔
      (∀ ns, ¬ Ipv6Text t ns) ∨ Ipv6Text t (List.replicate 8 0) := by
  have e0 : groupOctets (List.replicate 8 0) = List.replicate 16 0#8 := by decide
  constructor
  · intro h
    by_cases hn : ∃ ns, Ipv6Text t ns
    · obtain ⟨ns, hn⟩ := hn
      rw [(C91_bytes t).1 ns hn, ← e0] at h
      rw [groupOctets_inj ns _ (C91_groups t ns hn).2 (by simp) h] at hn
      exact .inr hn
    · exact .inl (fun ns hns => hn ⟨ns, hns⟩)
  · rintro (h | h)
    · exact (C91_bytes t).2 h
    · rw [(C91_bytes t).1 _ h, e0]

theorem hex2_digits : ∀ b : Byte, ∀ al ∈ ["0123456789abcdef".toList, "0123456789ABCDEF".toList],
    (hex2 al b).map (toDigit 16) = [some (b.toNat / 16), some (b.toNat % 16)] := by
  decide +kernel

theorem hexGroup_full (al : Str) (hal : al ∈ ["0123456789abcdef".toList, "0123456789ABCDEF".toList]) (a b : Byte) :
    HexGroup (hex2 al a ++ hex2 al b) (a.toNat * 256 + b.toNat) := by
  rw [hexGroup_iff]
  have ha := hex2_digits a al hal
  have hb := hex2_digits b al hal
  simp only [hex2, List.map_cons, List.map_nil, List.cons.injEq, and_true] at ha hb
  refine ⟨by simp [hex2], ?_, ?_, by simp [hex2]⟩
  · intro c hc
    simp only [hex2, List.cons_append, List.nil_append, List.mem_cons, List.not_mem_nil, or_false] at hc
    rcases hc with rfl | rfl | rfl | rfl
    · rw [ha.1]; simp
    · rw [ha.2]; simp
    · rw [hb.1]; simp
    · rw [hb.2]; simp
  · simp only [valFrom, hex2, List.cons_append, List.nil_append, List.foldl_cons, List.foldl_nil, ha.1, ha.2, hb.1, hb.2,
      Option.getD_some]
    omega

/-- **C91**: every address can be written, for instance with all digits of all groups, in lower or upper case. -/
theorem C91_written (d : Bytes) (hd : d.length = 16) (al : Str)
    (hal : al ∈ ["0123456789abcdef".toList, "0123456789ABCDEF".toList]) :
    Ipv6Text (joined ':' (fullText al d)) (toGroups d) ∧ groupOctets (toGroups d) = d ∧
    to_ipv6_bytes ipv6FromStr (joined ':' (fullText al d)) = d := by
  have key : ∀ (k : Nat) (d : Bytes), d.length = 2 * k → (toGroups d).length = k ∧ groupOctets (toGroups d) = d ∧
      List.Forall₂ HexGroup (fullText al d) (toGroups d) := by
    intro k
    induction k with
    | zero =>
      intro d hd
      obtain rfl := List.length_eq_zero_iff.mp hd
      exact ⟨rfl, rfl, .nil⟩
    | succ k ih =>
      intro d hd
      match d, hd with
      | a :: b :: d, hd =>
        obtain ⟨h1, h2, h3⟩ := ih d (by simp only [List.length_cons] at hd; omega)
        refine ⟨by simp only [toGroups, List.length_cons, h1], ?_, .cons (hexGroup_full al hal a b) h3⟩
        simp only [toGroups, groupOctets, List.flatMap_cons] at h2 ⊢
        rw [h2]
        have e1 : BitVec.ofNat 8 ((a.toNat * 256 + b.toNat) / 256) = a := by
          apply BitVec.eq_of_toNat_eq
          have := a.isLt; have := b.isLt
          rw [BitVec.toNat_ofNat]; omega
        have e2 : BitVec.ofNat 8 (a.toNat * 256 + b.toNat) = b := by
          apply BitVec.eq_of_toNat_eq
          have := a.isLt; have := b.isLt
          rw [BitVec.toNat_ofNat]; omega
        rw [e1, e2]
        rfl
  obtain ⟨h1, h2, h3⟩ := key 8 d (by omega)
  have ht : Ipv6Text (joined ':' (fullText al d)) (toGroups d) := .inl ⟨.inl ⟨_, rfl, h3⟩, h1⟩
  exact ⟨ht, h2, by rw [(C91_bytes _).1 _ ht, h2]⟩

/-- **C91**: the hypothesis of C89's IPv6 theorems holds of the standard library's parser. -/
theorem C91_writable : Writable ipv6FromStr := by
  intro a
  have hl : a.toList.length = 16 := by simp
  obtain ⟨ht, he, -⟩ := C91_written a.toList hl "0123456789abcdef".toList (by simp)
  exact ⟨_, (C91_parser _ a).mpr ⟨_, ht, he.symm⟩⟩

/-- **C91**: an IPv4 address inside an IPv6 address is converted like one on its own. -/
theorem C91_quad (q : Str) (g : List Nat) (h : Quad q g) : to_ipv4_bytes q = .ok (groupOctets g) := by
  obtain ⟨a, b, c, d, rfl, rfl⟩ := h
  have := C32_roundtrip [a, b, c, d] rfl
  rw [show [a, b, c, d].map dec = [dec a, dec b, dec c, dec d] from rfl] at this
  rw [this]
  have key : ∀ x y : Byte, BitVec.ofNat 8 ((x.toNat * 256 + y.toNat) / 256) = x ∧ BitVec.ofNat 8 (x.toNat * 256 + y.toNat) = y := by
    intro x y
    have := x.isLt; have := y.isLt
    constructor <;> apply BitVec.eq_of_toNat_eq <;> rw [BitVec.toNat_ofNat] <;> omega
  simp only [groupOctets, List.flatMap_cons, List.flatMap_nil, (key a b).1, (key a b).2, (key c d).1, (key c d).2,
    List.cons_append, List.nil_append]

/-- **C91**: the addresses in an IPv6 header made from texts are the ones denoted. -/
theorem C91_header (tc : Byte) (flow : U32) (nh hl : Byte) (src dst : Str) (len : U16) (ns ms : List Nat)
    (hs : Ipv6Text src ns) (hd : Ipv6Text dst ms) :
    (Packet.ipv6 ipv6FromStr tc flow nh hl src dst len).ReadsBytes IPv6.src (groupOctets ns) ∧
    (Packet.ipv6 ipv6FromStr tc flow nh hl src dst len).ReadsBytes IPv6.dst (groupOctets ms) := by
  obtain ⟨-, -, -, -, -, -, -, -, h1, h2⟩ := C35_ipv6 ipv6FromStr tc flow nh hl src dst len
  rw [(C91_bytes src).1 ns hs] at h1
  rw [(C91_bytes dst).1 ms hd] at h2
  exact ⟨h1, h2⟩

/-! ## Cases -/

/-- `2001:db8::c000:280` and `2001:db8::192.0.2.128` are texts of the same address. -/
example : Ipv6Text "2001:db8::192.0.2.128".toList [0x2001, 0xdb8, 0, 0, 0, 0, 0xc000, 0x280] ∧
    Ipv6Text "2001:DB8::c000:280".toList [0x2001, 0xdb8, 0, 0, 0, 0, 0xc000, 0x280] :=
  ⟨text_of_read (by decide +kernel), text_of_read (by decide +kernel)⟩

/-- The grammar itself: seven groups and `::`. -/
example : Ipv6Text "1:2:3:4:5:6:7::".toList [1, 2, 3, 4, 5, 6, 7, 0] :=
  text_of_read (by decide +kernel)

/-- Not addresses: too many groups, two `::`, five digits, an IPv4 address that is not at the end, a leading zero in it. -/
example : ∀ t ∈ ["1:2:3:4:5:6:7:8:9", "1::2::3", "12345::", "1.2.3.4::", "::1.2.3.4:5", "::01.2.3.4", "1:2:3", ":1:2:3:4:5:6:7", ""],
    ∀ ns, ¬ Ipv6Text t.toList ns := by
  have key : ∀ t ∈ ["1:2:3:4:5:6:7:8:9", "1::2::3", "12345::", "1.2.3.4::", "::1.2.3.4:5", "::01.2.3.4", "1:2:3",
      ":1:2:3:4:5:6:7", ""], ipv6FromStr t.toList = none := by decide +kernel
  intro t ht ns hn
  have := (C91_parser t.toList (octets ns)).mpr ⟨ns, hn, octets_toList ns (Ipv6Text_length hn)⟩
  rw [key t ht] at this
  cases this

end PacketRs
