import Verif.Spec.Text
import Mathlib.Tactic.IntervalCases
import Mathlib.Data.List.Forall2
import Mathlib.Data.List.Induction
/-!
# Properties C31, C32: textual addresses
-/
namespace PacketRs
open Spec

/-! ## digits -/

theorem char_eq_ofNat (c : Char) (n : Nat) (h : c.toNat = n) : c = Char.ofNat n := by
  rw [← h, Char.ofNat_toNat]

theorem char_le (a c : Char) : (a ≤ c) = (a.toNat ≤ c.toNat) := rfl

theorem toDigit_hex (c : Char) (v : Nat) : toDigit 16 c = some v ↔ HexDigit c v := by
  constructor
  · intro h
    unfold toDigit at h
    simp only [char_le, show '0'.toNat = 48 from rfl, show '9'.toNat = 57 from rfl,
      show 'a'.toNat = 97 from rfl, show 'z'.toNat = 122 from rfl, show 'A'.toNat = 65 from rfl,
      show 'Z'.toNat = 90 from rfl] at h
    generalize hn : c.toNat = n at h
    have hc := char_eq_ofNat c n hn
    subst hc
    clear hn
    by_cases h1 : 48 ≤ n ∧ n ≤ 57
    · simp only [h1, and_self, if_true] at h
      obtain ⟨a, b⟩ := h1
      have h2 : n - 48 < 16 := by omega
      simp only [h2, if_true, Option.some.injEq] at h
      subst h
      clear h2
      interval_cases n <;> (unfold HexDigit; decide)
    · by_cases h2 : 97 ≤ n ∧ n ≤ 122
      · simp only [h1, if_false, h2, and_self, if_true] at h
        obtain ⟨a, b⟩ := h2
        by_cases h3 : n - 97 + 10 < 16
        · simp only [h3, if_true, Option.some.injEq] at h
          subst h
          have h4 : n ≤ 102 := by omega
          clear h1 h3 b
          interval_cases n <;> (unfold HexDigit; decide)
        · simp only [h3, if_false] at h; exact nomatch h
      · by_cases h3 : 65 ≤ n ∧ n ≤ 90
        · simp only [h1, h2, if_false, h3, and_self, if_true] at h
          obtain ⟨a, b⟩ := h3
          by_cases h3 : n - 65 + 10 < 16
          · simp only [h3, if_true, Option.some.injEq] at h
            subst h
            have h4 : n ≤ 70 := by omega
            clear h1 h2 h3 b
            interval_cases n <;> (unfold HexDigit; decide)
          · simp only [h3, if_false] at h; exact nomatch h
        · simp only [h1, h2, h3, if_false] at h; exact nomatch h
  · intro h
    have hv : v < 16 := by
      rcases h with h | h
      · exact (List.getElem?_eq_some_iff.mp h).1
      · exact (List.getElem?_eq_some_iff.mp h).1
    unfold HexDigit at h
    interval_cases v <;>
    · rcases h with h | h
      · have h := Option.some.inj h
        subst h; decide
      · have h := Option.some.inj h
        subst h; decide

theorem toDigit_dec (c : Char) (v : Nat) : toDigit 10 c = some v ↔ DecDigit c v := by
  constructor
  · intro h
    unfold toDigit at h
    simp only [char_le, show '0'.toNat = 48 from rfl, show '9'.toNat = 57 from rfl,
      show 'a'.toNat = 97 from rfl, show 'z'.toNat = 122 from rfl, show 'A'.toNat = 65 from rfl,
      show 'Z'.toNat = 90 from rfl] at h
    generalize hn : c.toNat = n at h
    have hc := char_eq_ofNat c n hn
    subst hc
    clear hn
    by_cases h1 : 48 ≤ n ∧ n ≤ 57
    · simp only [h1, and_self, if_true] at h
      obtain ⟨a, b⟩ := h1
      have h2 : n - 48 < 10 := by omega
      simp only [h2, if_true, Option.some.injEq] at h
      subst h
      clear h2
      interval_cases n <;> (unfold DecDigit; decide)
    · exfalso
      simp only [h1, if_false] at h
      by_cases h2 : 97 ≤ n ∧ n ≤ 122
      · have h3 : ¬ n - 97 + 10 < 10 := by omega
        simp only [h2, and_self, if_true, h3, if_false] at h
        exact nomatch h
      · by_cases h3 : 65 ≤ n ∧ n ≤ 90
        · have h4 : ¬ n - 65 + 10 < 10 := by omega
          simp only [h2, if_false, h3, and_self, if_true, h4] at h
          exact nomatch h
        · simp only [h2, h3, if_false] at h; exact nomatch h
  · intro h
    have hv : v < 10 := (List.getElem?_eq_some_iff.mp h).1
    unfold DecDigit at h
    interval_cases v <;>
    · have h := Option.some.inj h
      subst h; decide

/-! ## numerals -/

section
variable {radix : Nat} {Digit : Char → Nat → Prop}

theorem _root_.PacketRs.Spec.Numeral.ne_nil {s : Str} {n : Nat} (h : Numeral radix Digit s n) : s ≠ [] := by
  cases h <;> simp

theorem _root_.PacketRs.Spec.Numeral.head {s : Str} {n : Nat} (h : Numeral radix Digit s n) :
    ∃ c v t, s = c :: t ∧ Digit c v := by
  induction h with
  | @one c v h => exact ⟨c, v, [], rfl, h⟩
  | @snoc ds n c v _ _ ih =>
    obtain ⟨c', v', t, rfl, h⟩ := ih
    exact ⟨c', v', t ++ [c], rfl, h⟩

/-- The digit loop as a left fold. -/
theorem radixLoop_append (radix : Nat) (ds : Str) (c : Char) : ∀ acc,
    radixLoop radix acc (ds ++ [c]) =
      match radixLoop radix acc ds with
      | none => none
      | some n => match toDigit radix c with
        | none => none
        | some d => if n * radix + d ≤ 255 then some (n * radix + d) else none := by
  induction ds with
  | nil =>
    intro acc
    simp only [List.nil_append, radixLoop]
    cases toDigit radix c <;> rfl
  | cons x xs ih =>
    intro acc
    simp only [List.cons_append, radixLoop]
    cases toDigit radix x with
    | none => rfl
    | some d =>
      simp only
      by_cases h : acc * radix + d ≤ 255
      · simp only [h, if_true, ih]
      · simp only [h, if_false]

theorem radixLoop_iff (hd : ∀ c v, toDigit radix c = some v ↔ Digit c v)
    (hr : 1 ≤ radix) (n : Nat) : ∀ s : Str, s ≠ [] →
    (radixLoop radix 0 s = some n ↔ n ≤ 255 ∧ Numeral radix Digit s n) := by
  intro s
  induction s using List.reverseRecOn generalizing n with
  | nil => intro h; exact absurd rfl h
  | append_singleton ds c ih =>
    intro _
    rw [radixLoop_append]
    by_cases hds : ds = []
    · subst hds
      simp only [radixLoop, Nat.zero_mul, Nat.zero_add, List.nil_append]
      constructor
      · intro h
        match hc : toDigit radix c with
        | none => rw [hc] at h; exact nomatch h
        | some d =>
          rw [hc] at h
          simp only at h
          by_cases h2 : d ≤ 255
          · simp only [h2, if_true, Option.some.injEq] at h
            subst h; exact ⟨h2, .one ((hd c d).mp hc)⟩
          · simp only [h2, if_false] at h; exact nomatch h
      · rintro ⟨h1, h2⟩
        have : Digit c n := by
          generalize hs : [c] = s at h2
          cases h2 with
          | one h => injection hs with h1 _; subst h1; exact h
          | @snoc ds n c' v hn _ =>
            cases ds with
            | nil => exact absurd rfl hn.ne_nil
            | cons a t => exact absurd (congrArg List.length hs) (by simp)
        rw [(hd c n).mpr this]
        simp only [h1, if_true]
    · have ih' := fun m => ih m hds
      constructor
      · intro h
        match hl : radixLoop radix 0 ds with
        | none => rw [hl] at h; exact nomatch h
        | some m =>
          rw [hl] at h
          simp only at h
          match hc : toDigit radix c with
          | none => rw [hc] at h; exact nomatch h
          | some d =>
            rw [hc] at h
            simp only at h
            by_cases h2 : m * radix + d ≤ 255
            · simp only [h2, if_true, Option.some.injEq] at h
              subst h
              exact ⟨h2, .snoc ((ih' m).mp hl).2 ((hd c d).mp hc)⟩
            · simp only [h2, if_false] at h; exact nomatch h
      · rintro ⟨h1, h2⟩
        generalize hs : ds ++ [c] = s at h2
        cases h2 with
        | one h =>
          cases ds with
          | nil => exact absurd rfl hds
          | cons a t => exact absurd (congrArg List.length hs) (by simp)
        | @snoc ds' m c' v hn hv =>
          obtain ⟨e1, e2⟩ := List.append_inj' hs rfl
          injection e2 with e2 _
          subst e1 e2
          have hm : m ≤ 255 := by
            have : m ≤ m * radix := Nat.le_mul_of_pos_right m hr
            omega
          rw [(ih' m).mpr ⟨hm, hn⟩]
          simp only [(hd c v).mpr hv, h1, if_true]

theorem u8FromStrRadix_iff (hd : ∀ c v, toDigit radix c = some v ↔ Digit c v)
    (hr : 1 ≤ radix)
    (hplus : toDigit radix '+' = none) (hminus : toDigit radix '-' = none) (s : Str) (b : Byte) :
    u8FromStrRadix radix s = some b ↔ Octet radix Digit s b := by
  have nplus : ∀ v, ¬ Digit '+' v := by intro v hv; rw [← hd, hplus] at hv; exact nomatch hv
  have nminus : ∀ v, ¬ Digit '-' v := by intro v hv; rw [← hd, hminus] at hv; exact nomatch hv
  have hmap : ∀ s : Str, s ≠ [] →
      ((radixLoop radix 0 s).map (BitVec.ofNat 8) = some b ↔ Numeral radix Digit s b.toNat) := by
    intro s hs
    rw [Option.map_eq_some_iff]
    constructor
    · rintro ⟨n, h1, rfl⟩
      obtain ⟨h2, h3⟩ := (radixLoop_iff hd hr n s hs).mp h1
      rw [BitVec.toNat_ofNat, Nat.mod_eq_of_lt (by omega)]
      exact h3
    · intro h
      have := b.isLt
      exact ⟨b.toNat, (radixLoop_iff hd hr _ s hs).mpr ⟨by omega, h⟩, by simp⟩
  have nonplus : ∀ c t, c ≠ '+' → ∀ n, ((Numeral radix Digit (c :: t) n ∨ ∃ ds, c :: t = '+' :: ds ∧
      Numeral radix Digit ds n) ↔ Numeral radix Digit (c :: t) n) := by
    intro c t hc n
    constructor
    · rintro (h | ⟨ds, h, -⟩)
      · exact h
      · injection h with h _; exact absurd h hc
    · exact .inl
  have single : ∀ c n, (∀ v, ¬ Digit c v) → ¬ Numeral radix Digit [c] n := by
    intro c n hc h
    obtain ⟨c', v, t, e, h⟩ := h.head
    injection e with e _
    subst e; exact hc v h
  unfold Octet u8FromStrRadix
  split
  · constructor
    · intro h; exact nomatch h
    · rintro (h | ⟨ds, h, -⟩)
      · exact absurd rfl h.ne_nil
      · exact nomatch h
  · constructor
    · intro h; exact nomatch h
    · rintro (h | ⟨ds, h, h2⟩)
      · exact absurd h (single _ _ nplus)
      · injection h with _ h; subst h; exact absurd rfl h2.ne_nil
  · constructor
    · intro h; exact nomatch h
    · rintro (h | ⟨ds, h, h2⟩)
      · exact absurd h (single _ _ nminus)
      · injection h with h _; exact absurd h (by decide)
  · rename_i ds h1
    have hne : ds ≠ [] := by rintro rfl; exact h1 rfl
    rw [hmap ds hne]
    constructor
    · intro h; exact .inr ⟨ds, rfl, h⟩
    · rintro (h | ⟨ds', h, h2⟩)
      · obtain ⟨c', v, t, e, h⟩ := h.head
        injection e with e _
        subst e; exact absurd h (nplus v)
      · injection h with _ h; subst h; exact h2
  · rename_i h0 h1 h2 h3
    match s with
    | [] => exact absurd rfl h0
    | c :: t =>
      have hc : c ≠ '+' := by rintro rfl; exact h3 t rfl
      rw [nonplus c t hc, hmap _ (by simp)]

end

theorem hex_iff (s : Str) (b : Byte) : u8FromStrRadix 16 s = some b ↔ Octet 16 HexDigit s b :=
  u8FromStrRadix_iff toDigit_hex (by decide) (by decide) (by decide) s b

theorem dec_iff (s : Str) (b : Byte) : u8FromStrRadix 10 s = some b ↔ Octet 10 DecDigit s b :=
  u8FromStrRadix_iff toDigit_dec (by decide) (by decide) (by decide) s b

/-! ## splitting -/

theorem splitOnChar_ne_nil (c : Char) (s : Str) : splitOnChar c s ≠ [] := by
  cases s with
  | nil => simp [splitOnChar]
  | cons x xs =>
    simp only [splitOnChar]
    by_cases h : x = c
    · simp [h]
    · simp only [h, if_false]; split <;> simp

theorem splitOnChar_single (c : Char) (p : Str) (h : c ∉ p) : splitOnChar c p = [p] := by
  induction p with
  | nil => rfl
  | cons x xs ih =>
    have hx : x ≠ c := by rintro rfl; exact h List.mem_cons_self
    have := ih (fun hm => h (List.mem_cons_of_mem _ hm))
    simp only [splitOnChar, hx, if_false, this]

theorem splitOnChar_append (c : Char) (p s : Str) (h : c ∉ p) :
    splitOnChar c (p ++ c :: s) = p :: splitOnChar c s := by
  induction p with
  | nil => simp [splitOnChar]
  | cons x xs ih =>
    have hx : x ≠ c := by rintro rfl; exact h List.mem_cons_self
    have := ih (fun hm => h (List.mem_cons_of_mem _ hm))
    simp only [List.cons_append, splitOnChar, hx, if_false, this]

/-- The pieces of a text joined from pieces without the separator. -/
theorem splitOnChar_joined (c : Char) (ps : List Str) (hne : ps ≠ []) (h : ∀ p ∈ ps, c ∉ p) :
    splitOnChar c (joined c ps) = ps := by
  induction ps with
  | nil => exact absurd rfl hne
  | cons p ps ih =>
    cases ps with
    | nil => exact splitOnChar_single c p (h p List.mem_cons_self)
    | cons q qs =>
      rw [joined, splitOnChar_append c p _ (h p List.mem_cons_self),
        ih (by simp) (fun x hx => h x (List.mem_cons_of_mem _ hx))]
      simp

/-- Every text is such a join. -/
theorem joined_splitOnChar (c : Char) (s : Str) :
    joined c (splitOnChar c s) = s ∧ ∀ p ∈ splitOnChar c s, c ∉ p := by
  induction s with
  | nil => simp [splitOnChar, joined]
  | cons x xs ih =>
    have hne := splitOnChar_ne_nil c xs
    match hs : splitOnChar c xs with
    | [] => exact absurd hs hne
    | q :: qs =>
      rw [hs] at ih
      simp only [splitOnChar]
      by_cases hx : x = c
      · subst hx
        simp only [if_true, hs]
        refine ⟨by rw [joined]; simp [ih.1]; simp, ?_⟩
        intro p hp
        rcases List.mem_cons.mp hp with rfl | hp
        · simp
        · exact ih.2 p hp
      · simp only [hx, if_false, hs]
        constructor
        · cases qs with
          | nil => simpa [joined] using ih.1
          | cons r rs => simpa [joined] using ih.1
        · intro p hp
          rcases List.mem_cons.mp hp with rfl | hp
          · have := ih.2 q List.mem_cons_self
            simp only [List.mem_cons, not_or]
            exact ⟨fun e => hx e.symm, this⟩
          · exact ih.2 p (List.mem_cons_of_mem _ hp)

/-! ## the write loop -/

/-- What a component is converted to. -/
def compByte (radix : Nat) (s : Str) : Byte := (u8FromStrRadix radix s).getD 0#8

theorem writeLoop (radix : Nat) : ∀ (ps : List Str) (i : Nat) (done rest : Bytes), done.length = i →
    (ps.zipIdx i).foldlM (writeComponent radix) (done ++ rest) =
      if ps.length ≤ rest.length then .ok (done ++ ps.map (compByte radix) ++ rest.drop ps.length)
      else (.error .index : R Bytes) := by
  intro ps
  induction ps with
  | nil => intro i done rest _; simp; rfl
  | cons p ps ih =>
    intro i done rest hi
    rw [List.zipIdx_cons, List.foldlM_cons]
    have hw : writeComponent radix (done ++ rest) (p, i) =
        if i < (done ++ rest).length then .ok ((done ++ rest).set i (compByte radix p))
        else .error .index := by
      unfold writeComponent compByte
      cases u8FromStrRadix radix p <;> rfl
    rw [hw]
    cases rest with
    | nil =>
      rw [if_neg (by simp; omega), if_neg (by simp)]
      rfl
    | cons r rs =>
      rw [if_pos (by simp; omega)]
      have hset : (done ++ r :: rs).set i (compByte radix p) = (done ++ [compByte radix p]) ++ rs := by
        rw [← hi]; simp
      rw [hset]
      have := ih (i + 1) (done ++ [compByte radix p]) rs (by simp [hi])
      show List.foldlM _ _ _ = _
      rw [this]
      simp

theorem Component_unique {radix : Nat} {Digit : Char → Nat → Prop}
    (hiff : ∀ s b, u8FromStrRadix radix s = some b ↔ Octet radix Digit s b) (s : Str) (b : Byte) :
    Component radix Digit s b ↔ b = compByte radix s := by
  unfold Component compByte
  simp only [← hiff]
  cases h : u8FromStrRadix radix s with
  | none => simp
  | some x =>
    constructor
    · rintro (h | ⟨h, -⟩)
      · injection h with h; exact h.symm
      · exact absurd rfl (h x)
    · intro h; exact .inl (by simp [h])

theorem Forall₂_compByte {radix : Nat} {Digit : Char → Nat → Prop}
    (hiff : ∀ s b, u8FromStrRadix radix s = some b ↔ Octet radix Digit s b) (ps : List Str) (bs : Bytes)
    (h : List.Forall₂ (Component radix Digit) ps bs) : bs = ps.map (compByte radix) := by
  induction h with
  | nil => rfl
  | cons h _ ih => rw [List.map_cons, ih, (Component_unique hiff _ _).mp h]

/-! ## C31 -/

/-- **C31**: a text of `n ≤ 6` components separated by `:` converts to the octets that the components
denote (0 for a component that denotes none), followed by zeros; more than six components panic.
The components may be anything without a `:`. -/
theorem C31_mac (ps : List Str) (bs : Bytes) (hne : ps ≠ []) (hsep : ∀ p ∈ ps, ':' ∉ p)
    (h : List.Forall₂ (Component 16 HexDigit) ps bs) :
    (ps.length ≤ 6 → to_mac_bytes (joined ':' ps) = .ok (bs ++ List.replicate (6 - ps.length) 0#8)) ∧
    (6 < ps.length → to_mac_bytes (joined ':' ps) = .error .index) := by
  have hb := Forall₂_compByte hex_iff ps bs h
  have hw := writeLoop 16 ps 0 [] (List.replicate 6 0#8) rfl
  simp only [List.nil_append, List.length_replicate, List.drop_replicate] at hw
  unfold to_mac_bytes
  rw [splitOnChar_joined ':' ps hne hsep]
  refine ⟨fun hl => ?_, fun hl => ?_⟩
  · rw [if_pos hl, ← hb] at hw; exact hw
  · rw [if_neg (by omega)] at hw; exact hw

/-- **C31**: every string is such a text, and every component denotes exactly one stored octet, so the
previous theorem says what happens for every string. -/
theorem C31_every_string (s : Str) : ∃ ps bs, ps ≠ [] ∧ (∀ p ∈ ps, ':' ∉ p) ∧ s = joined ':' ps ∧
    List.Forall₂ (Component 16 HexDigit) ps bs ∧ bs.length = ps.length := by
  refine ⟨splitOnChar ':' s, (splitOnChar ':' s).map (compByte 16), splitOnChar_ne_nil _ _,
    (joined_splitOnChar ':' s).2, (joined_splitOnChar ':' s).1.symm, ?_, by simp⟩
  rw [List.forall₂_map_right_iff]
  exact List.forall₂_same.mpr fun p _ => (Component_unique hex_iff p _).mpr rfl

theorem hex2_component (b : Byte) :
    Component 16 HexDigit (hex2 "0123456789abcdef".toList b) b ∧
    Component 16 HexDigit (hex2 "0123456789ABCDEF".toList b) b ∧
    ':' ∉ hex2 "0123456789abcdef".toList b ∧ ':' ∉ hex2 "0123456789ABCDEF".toList b := by
  rw [Component_unique hex_iff, Component_unique hex_iff]
  revert b
  decide +kernel

/-- **C31**: the usual text of a MAC address, in lower or upper case, converts to that address. -/
theorem C31_roundtrip (m : Bytes) (hm : m.length = 6) :
    to_mac_bytes (joined ':' (m.map (hex2 "0123456789abcdef".toList))) = .ok m ∧
    to_mac_bytes (joined ':' (m.map (hex2 "0123456789ABCDEF".toList))) = .ok m := by
  have hne : ∀ f : Byte → Str, m.map f ≠ [] := by
    intro f h; rw [List.map_eq_nil_iff] at h; subst h; exact nomatch hm
  constructor
  · have := (C31_mac (m.map (hex2 "0123456789abcdef".toList)) m (hne _)
      (by intro p hp; obtain ⟨b, -, rfl⟩ := List.mem_map.mp hp; exact (hex2_component b).2.2.1)
      (by rw [List.forall₂_map_left_iff]; exact List.forall₂_same.mpr fun b _ => (hex2_component b).1)).1
      (by simp [hm])
    simpa [hm] using this
  · have := (C31_mac (m.map (hex2 "0123456789ABCDEF".toList)) m (hne _)
      (by intro p hp; obtain ⟨b, -, rfl⟩ := List.mem_map.mp hp; exact (hex2_component b).2.2.2)
      (by rw [List.forall₂_map_left_iff]; exact List.forall₂_same.mpr fun b _ => (hex2_component b).2.1)).1
      (by simp [hm])
    simpa [hm] using this

/-- **C31**: so the result, when there is one, always has six octets. -/
theorem C31_length (s : Str) (m : Bytes) (h : to_mac_bytes s = .ok m) : m.length = 6 := by
  obtain ⟨ps, bs, h1, h2, rfl, h4, h5⟩ := C31_every_string s
  obtain ⟨k1, k2⟩ := C31_mac ps bs h1 h2 h4
  by_cases hl : ps.length ≤ 6
  · rw [k1 hl] at h; injection h with h; subst h; simp; omega
  · rw [k2 (by omega)] at h; exact nomatch h

example : to_mac_bytes "00:0a:0B:+c:zz:1ff".toList = .ok [0#8, 10#8, 11#8, 12#8, 0#8, 0#8] ∧
    to_mac_bytes "ff:1".toList = .ok [255#8, 1#8, 0#8, 0#8, 0#8, 0#8] ∧
    to_mac_bytes "1:2:3:4:5:6:7".toList = .error .index ∧
    joined ':' (([0#8, 0xab#8, 1#8, 2#8, 3#8, 0xff#8] : Bytes).map (hex2 "0123456789abcdef".toList)) =
      "00:ab:01:02:03:ff".toList := by decide +kernel

/-! ## C32 -/

/-- **C32**: the same for `to_ipv4_bytes`: decimal components separated by `.`, at most four. -/
theorem C32_ipv4 (ps : List Str) (bs : Bytes) (hne : ps ≠ []) (hsep : ∀ p ∈ ps, '.' ∉ p)
    (h : List.Forall₂ (Component 10 DecDigit) ps bs) :
    (ps.length ≤ 4 → to_ipv4_bytes (joined '.' ps) = .ok (bs ++ List.replicate (4 - ps.length) 0#8)) ∧
    (4 < ps.length → to_ipv4_bytes (joined '.' ps) = .error .index) := by
  have hb := Forall₂_compByte dec_iff ps bs h
  have hw := writeLoop 10 ps 0 [] (List.replicate 4 0#8) rfl
  simp only [List.nil_append, List.length_replicate, List.drop_replicate] at hw
  unfold to_ipv4_bytes
  rw [splitOnChar_joined '.' ps hne hsep]
  refine ⟨fun hl => ?_, fun hl => ?_⟩
  · rw [if_pos hl, ← hb] at hw; exact hw
  · rw [if_neg (by omega)] at hw; exact hw

theorem C32_every_string (s : Str) : ∃ ps bs, ps ≠ [] ∧ (∀ p ∈ ps, '.' ∉ p) ∧ s = joined '.' ps ∧
    List.Forall₂ (Component 10 DecDigit) ps bs ∧ bs.length = ps.length := by
  refine ⟨splitOnChar '.' s, (splitOnChar '.' s).map (compByte 10), splitOnChar_ne_nil _ _,
    (joined_splitOnChar '.' s).2, (joined_splitOnChar '.' s).1.symm, ?_, by simp⟩
  rw [List.forall₂_map_right_iff]
  exact List.forall₂_same.mpr fun p _ => (Component_unique dec_iff p _).mpr rfl

theorem dec_component (b : Byte) : Component 10 DecDigit (dec b) b ∧ '.' ∉ dec b := by
  rw [Component_unique dec_iff]
  revert b
  decide +kernel

/-- **C32**: the dotted-decimal text of an IPv4 address converts to that address. -/
theorem C32_roundtrip (m : Bytes) (hm : m.length = 4) :
    to_ipv4_bytes (joined '.' (m.map dec)) = .ok m := by
  have hne : m.map dec ≠ [] := by
    intro h; rw [List.map_eq_nil_iff] at h; subst h; exact nomatch hm
  have := (C32_ipv4 (m.map dec) m hne
    (by intro p hp; obtain ⟨b, -, rfl⟩ := List.mem_map.mp hp; exact (dec_component b).2)
    (by rw [List.forall₂_map_left_iff]; exact List.forall₂_same.mpr fun b _ => (dec_component b).1)).1
    (by simp [hm])
  simpa [hm] using this

theorem C32_length (s : Str) (m : Bytes) (h : to_ipv4_bytes s = .ok m) : m.length = 4 := by
  obtain ⟨ps, bs, h1, h2, rfl, h4, h5⟩ := C32_every_string s
  obtain ⟨k1, k2⟩ := C32_ipv4 ps bs h1 h2 h4
  by_cases hl : ps.length ≤ 4
  · rw [k1 hl] at h; injection h with h; subst h; simp; omega
  · rw [k2 (by omega)] at h; exact nomatch h

example : to_ipv4_bytes "192.168.0.256".toList = .ok [192#8, 168#8, 0#8, 0#8] ∧
    to_ipv4_bytes "10.x".toList = .ok [10#8, 0#8, 0#8, 0#8] ∧
    to_ipv4_bytes "1.2.3.4.5".toList = .error .index ∧
    joined '.' (([192#8, 0#8, 2#8, 33#8] : Bytes).map dec) = "192.0.2.33".toList := by decide +kernel

end PacketRs
