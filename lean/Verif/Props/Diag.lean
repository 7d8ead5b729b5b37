import Verif.Diag
import Verif.Spec.Diag
import Verif.Props.Text
import Verif.Props.Show
import Verif.Props.Container
/-!
# Property C61: diagnostics
-/
namespace PacketRs
open Spec Out

/-! ## the kinds of error -/

theorem radixLoopE_toOption (radix : Nat) : ∀ (s : Str) (acc : Nat), (radixLoopE radix acc s).toOption = radixLoop radix acc s
  | [], _ => rfl
  | c :: cs, acc => by
    rw [radixLoopE, radixLoop]
    cases toDigit radix c with
    | none => rfl
    | some d =>
      simp only
      split
      · exact radixLoopE_toOption radix cs _
      · rfl

theorem toOption_map {α β ε : Type} (x : Except ε α) (f : α → β) : (x.map f).toOption = x.toOption.map f := by
  cases x <;> rfl

theorem u8FromStrRadixE_toOption (radix : Nat) (s : Str) : (u8FromStrRadixE radix s).toOption = u8FromStrRadix radix s := by
  unfold u8FromStrRadixE u8FromStrRadix
  split
  · rfl
  · rfl
  · rfl
  · rename_i ds h
    rw [toOption_map, radixLoopE_toOption]
    split
    · rename_i e; exact absurd e (by simp)
    · rename_i e; exact absurd (List.cons.inj e).2 h
    · rename_i e; exact absurd (List.cons.inj e).1 (by decide)
    · rename_i e; rw [(List.cons.inj e).2]
    · rename_i h4; exact absurd rfl (h4 ds)
  · rename_i h1 h2 h3 h4
    rw [toOption_map, radixLoopE_toOption]
    split
    · exact absurd rfl h1
    · exact absurd rfl h2
    · exact absurd rfl h3
    · exact absurd rfl (h4 _)
    · rfl

section
variable {radix : Nat} {Digit : Char → Nat → Prop}

/-- Digits read so far and their value. -/
def Sofar (radix : Nat) (Digit : Char → Nat → Prop) (pre : Str) (acc : Nat) : Prop :=
  (pre = [] ∧ acc = 0) ∨ Numeral radix Digit pre acc

theorem Sofar.step {pre : Str} {acc : Nat} {c : Char} {d : Nat} (h : Sofar radix Digit pre acc) (hd : Digit c d) :
    Numeral radix Digit (pre ++ [c]) (acc * radix + d) := by
  rcases h with ⟨rfl, rfl⟩ | h
  · rw [Nat.zero_mul, Nat.zero_add]; exact .one hd
  · exact .snoc h hd

theorem radixLoopE_why (hd : ∀ c v, toDigit radix c = some v ↔ Digit c v) {e : IntErr} : ∀ (s pre : Str) (acc : Nat),
    acc < 256 → Sofar radix Digit pre acc → radixLoopE radix acc s = .error e →
    (e = .invalidDigit ∧ ∃ p c q n, s = p ++ c :: q ∧ n < 256 ∧ Sofar radix Digit (pre ++ p) n ∧ ∀ v, ¬ Digit c v) ∨
    (e = .posOverflow ∧ ∃ p q n, s = p ++ q ∧ Numeral radix Digit (pre ++ p) n ∧ 256 ≤ n)
  | [], _, _, _, _, h => nomatch h
  | c :: cs, pre, acc, ha, hp, h => by
    rw [radixLoopE] at h
    cases ht : toDigit radix c with
    | none =>
      rw [ht] at h
      obtain rfl := Except.error.inj h
      exact .inl ⟨rfl, [], c, cs, acc, rfl, ha, by simpa using hp, fun v hv => by
        rw [(hd c v).mpr hv] at ht; exact nomatch ht⟩
    | some d =>
      rw [ht] at h
      simp only at h
      have hn := hp.step ((hd c d).mp ht)
      split at h
      · rcases radixLoopE_why hd cs (pre ++ [c]) _ (by omega) (.inr hn) h with
          ⟨rfl, p, c', q, n, rfl, h1, h2, h3⟩ | ⟨rfl, p, q, n, rfl, h1, h2⟩
        · exact .inl ⟨rfl, c :: p, c', q, n, rfl, h1, by simpa using h2, h3⟩
        · exact .inr ⟨rfl, c :: p, q, n, rfl, by simpa using h1, h2⟩
      · obtain rfl := Except.error.inj h
        exact .inr ⟨rfl, [c], cs, _, rfl, hn, by omega⟩

theorem body_other (s : Str) (h : ∀ c cs, s ≠ '+' :: c :: cs) : body s = s := by
  unfold body
  split
  · exact absurd rfl (h _ _)
  · rfl

theorem map_error {α β ε : Type} {x : Except ε α} {f : α → β} {e : ε} (h : x.map f = .error e) : x = .error e := by
  cases x with
  | error _ => exact congrArg _ (Except.error.inj h)
  | ok _ => exact nomatch h

/-- What the loop says about a whole component. -/
theorem why_of_loop (hd : ∀ c v, toDigit radix c = some v ↔ Digit c v) {e : IntErr} {s ds : Str} (hb : body s = ds)
    (h : radixLoopE radix 0 ds = .error e) : Why radix Digit s (String.ofList e.text) := by
  rcases radixLoopE_why hd ds [] 0 (by decide) (.inl ⟨rfl, rfl⟩) h with
    ⟨rfl, p, c, q, n, rfl, h1, h2, h3⟩ | ⟨rfl, p, q, n, rfl, h1, h2⟩
  · refine .digit (c := c) hb ?_ h3
    rcases h2 with ⟨h2, -⟩ | h2
    · exact .inl (by simpa using h2)
    · exact .inr ⟨n, h1, by simpa using h2⟩
  · exact .large hb (by simpa using h1) h2

theorem u8FromStrRadixE_why (hd : ∀ c v, toDigit radix c = some v ↔ Digit c v) (hplus : toDigit radix '+' = none)
    (hminus : toDigit radix '-' = none) {s : Str} {e : IntErr} (h : u8FromStrRadixE radix s = .error e) :
    Why radix Digit s (String.ofList e.text) := by
  have nplus : ∀ v, ¬ Digit '+' v := by intro v hv; rw [← hd, hplus] at hv; exact nomatch hv
  have nminus : ∀ v, ¬ Digit '-' v := by intro v hv; rw [← hd, hminus] at hv; exact nomatch hv
  unfold u8FromStrRadixE at h
  split at h
  · obtain rfl := Except.error.inj h; exact .empty
  · obtain rfl := Except.error.inj h; exact .digit (pre := []) (c := '+') (post := []) rfl (.inl rfl) nplus
  · obtain rfl := Except.error.inj h; exact .digit (pre := []) (c := '-') (post := []) rfl (.inl rfl) nminus
  · rename_i ds hne
    cases ds with
    | nil => exact absurd rfl hne
    | cons c cs => exact why_of_loop hd rfl (map_error h)
  · rename_i h1 h2 h3 h4
    exact why_of_loop hd (body_other _ fun c cs e => h4 (c :: cs) e) (map_error h)

/-! ## reasons are unique -/

theorem _root_.PacketRs.Spec.Numeral.mono (hr : 1 ≤ radix) (hdet : ∀ c v w, Digit c v → Digit c w → v = w) {a b : Str}
    {n m : Nat} (ha : Numeral radix Digit a n) (hb : Numeral radix Digit b m) (hp : a <+: b) : n ≤ m := by
  induction hb generalizing a n with
  | @one c v hv =>
    obtain ⟨t, ht⟩ := hp
    have hal : a ≠ [] := ha.ne_nil
    have : a = [c] := by
      cases a with
      | nil => exact absurd rfl hal
      | cons x xs =>
        simp only [List.cons_append, List.cons.injEq, List.append_eq_nil_iff] at ht
        rw [ht.1, ht.2.1]
    subst this
    generalize hs : [c] = s at ha
    cases ha with
    | one h => obtain ⟨rfl, -⟩ := List.cons.inj hs; exact Nat.le_of_eq (hdet _ _ _ h hv)
    | snoc h _ =>
      have := congrArg List.length hs
      have hne := h.ne_nil
      simp only [List.length_cons, List.length_nil, List.length_append] at this
      exact absurd (List.length_eq_zero_iff.mp (by omega)) hne
  | @snoc ds k c v hn hv ih =>
    rcases List.prefix_concat_iff.mp hp with h | h
    · subst h
      generalize hs : ds ++ [c] = s at ha
      cases ha with
      | one h =>
        have := congrArg List.length hs
        have hne := hn.ne_nil
        simp only [List.length_cons, List.length_nil, List.length_append] at this
        exact absurd (List.length_eq_zero_iff.mp (by omega)) hne
      | @snoc ds' k' c' v' hn' hv' =>
        obtain ⟨e1, e2⟩ := List.append_inj' hs rfl
        obtain ⟨rfl, -⟩ := List.cons.inj e2
        subst e1
        rw [hdet _ _ _ hv' hv]
        have := ih hn' (List.prefix_rfl)
        exact Nat.add_le_add_right (Nat.mul_le_mul_right _ this) _
    · have := ih ha h
      have : k ≤ k * radix := Nat.le_mul_of_pos_right k hr
      omega

theorem _root_.PacketRs.Spec.Numeral.digits {s : Str} {n : Nat} (h : Numeral radix Digit s n) : ∀ c ∈ s, ∃ v, Digit c v := by
  induction h with
  | one h => intro c hc; rw [List.mem_singleton] at hc; subst hc; exact ⟨_, h⟩
  | snoc _ hv ih =>
    intro c hc
    rcases List.mem_append.mp hc with hc | hc
    · exact ih c hc
    · rw [List.mem_singleton] at hc; subst hc; exact ⟨_, hv⟩

theorem why_unique (hr : 1 ≤ radix) (hdet : ∀ c v w, Digit c v → Digit c w → v = w) {s : Str} {a b : String}
    (ha : Why radix Digit s a) (hb : Why radix Digit s b) : a = b := by
  have clash : ∀ {pre c post pre' post' n}, body s = pre ++ c :: post → (pre = [] ∨ ∃ n, n < 256 ∧ Numeral radix Digit pre n) →
      (∀ v, ¬ Digit c v) → body s = pre' ++ post' → Numeral radix Digit pre' n → 256 ≤ n → False := by
    intro pre c post pre' post' n e1 h1 hc e2 h2 hn
    rw [e1] at e2
    rcases List.append_eq_append_iff.mp e2 with ⟨t, rfl, e3⟩ | ⟨t, rfl, e3⟩
    · cases t with
      | nil =>
        rcases h1 with rfl | ⟨m, hm, h1⟩
        · exact h2.ne_nil (by simp)
        · have := h2.mono hr hdet h1 (by simp); omega
      | cons x t =>
        obtain ⟨rfl, -⟩ := List.cons.inj e3
        obtain ⟨v, hv⟩ := h2.digits c (by simp)
        exact hc v hv
    · rcases h1 with h1 | ⟨m, hm, h1⟩
      · exact absurd (List.append_eq_nil_iff.mp h1).1 h2.ne_nil
      · have := h2.mono hr hdet h1 (List.prefix_append _ _); omega
  have nonempty : ∀ {pre c post}, body ([] : Str) = pre ++ c :: post → False := by
    intro pre c post e
    have : body ([] : Str) = [] := rfl
    rw [this] at e
    simp at e
  cases ha with
  | empty =>
    cases hb with
    | empty => rfl
    | digit e => exact (nonempty e).elim
    | large e h hn =>
      have h' : body ([] : Str) = [] := rfl
      rw [h'] at e
      exact absurd (List.append_eq_nil_iff.mp e.symm).1 h.ne_nil
  | digit e1 h1 hc =>
    cases hb with
    | empty => exact (nonempty e1).elim
    | digit e => rfl
    | large e h hn => exact (clash e1 h1 hc e h hn).elim
  | large e h hn =>
    cases hb with
    | empty =>
      have h' : body ([] : Str) = [] := rfl
      rw [h'] at e
      exact absurd (List.append_eq_nil_iff.mp e.symm).1 h.ne_nil
    | digit e1 h1 hc => exact (clash e1 h1 hc e h hn).elim
    | large => rfl

/-! ## the loops -/

/-- The line printed for a component. -/
def compLine (radix : Nat) (whole s : Str) : Text :=
  match u8FromStrRadixE radix s with
  | .ok _ => []
  | .error e => "Error: ".toList ++ e.text ++ " - ".toList ++ s ++ " in ".toList ++ whole ++ "\n".toList

theorem compLine_complaint (hd : ∀ c v, toDigit radix c = some v ↔ Digit c v) (hplus : toDigit radix '+' = none)
    (hminus : toDigit radix '-' = none) (hiff : ∀ s b, u8FromStrRadix radix s = some b ↔ Octet radix Digit s b)
    (whole s : Str) : Complaint radix Digit whole s (compLine radix whole s) := by
  unfold compLine
  cases h : u8FromStrRadixE radix s with
  | ok v => exact .none ((hiff s v).mp (by rw [← u8FromStrRadixE_toOption, h]; rfl))
  | error e =>
    have hw := u8FromStrRadixE_why hd hplus hminus h
    have := Complaint.line (whole := whole) (fun v hv => by
      rw [← hiff, ← u8FromStrRadixE_toOption, h] at hv; exact nomatch hv) hw
    have e2 : (String.ofList e.text).toList = e.text := String.toList_ofList
    rw [e2] at this
    exact this

theorem complaint_unique (hr : 1 ≤ radix) (hdet : ∀ c v w, Digit c v → Digit c w → v = w) {whole s : Str} {a b : Text}
    (ha : Complaint radix Digit whole s a) (hb : Complaint radix Digit whole s b) : a = b := by
  cases ha with
  | none h =>
    cases hb with
    | none => rfl
    | line h' => exact absurd h (h' _)
  | line h w =>
    cases hb with
    | none h' => exact absurd h' (h _)
    | line _ w' => rw [why_unique hr hdet w w']

theorem reportComponent_eq (radix : Nat) (whole : Str) (arr : Bytes) (iv : Str × Nat) (t : Text) :
    reportComponent radix whole arr iv t = (writeComponent radix arr iv, t ++ compLine radix whole iv.1) := by
  have h := u8FromStrRadixE_toOption radix iv.1
  unfold reportComponent writeComponent compLine
  rw [← h]
  cases u8FromStrRadixE radix iv.1 with
  | ok v =>
    simp only [Except.toOption]
    rw [Out.bind_def]
    show (if iv.2 < arr.length then (pure (arr.set iv.2 v) : Out Bytes) else ofR (.error .index)) t = _
    split <;> simp [pure, ofR]
  | error e =>
    simp only [Except.toOption]
    rw [Out.bind_def]
    show (if iv.2 < arr.length then (pure (arr.set iv.2 0#8) : Out Bytes) else ofR (.error .index)) (t ++ _) = _
    split <;> rfl

theorem writeComponent_eq (radix : Nat) (arr : Bytes) (iv : Str × Nat) : writeComponent radix arr iv =
    if iv.2 < arr.length then .ok (arr.set iv.2 (compByte radix iv.1)) else .error .index := by
  unfold writeComponent compByte
  cases u8FromStrRadix radix iv.1 <;> rfl

theorem reportLoop_eq (radix : Nat) (whole : Str) : ∀ (ps : List Str) (i : Nat) (arr : Bytes) (t : Text), i ≤ arr.length →
    reportLoop radix whole arr (ps.zipIdx i) t =
      ((ps.zipIdx i).foldlM (writeComponent radix) arr,
        t ++ ((ps.take (arr.length - i + 1)).map (compLine radix whole)).flatten)
  | [], _, arr, t, _ => by simp [reportLoop, pure]; rfl
  | p :: ps, i, arr, t, hi => by
    rw [List.zipIdx_cons, reportLoop, Out.bind_def, reportComponent_eq, List.foldlM_cons]
    have hlen : ∀ a', writeComponent radix arr (p, i) = .ok a' → i < arr.length ∧ a'.length = arr.length := by
      intro a' h
      rw [writeComponent_eq] at h
      split at h
      · obtain rfl := Except.ok.inj h; exact ⟨by assumption, by simp⟩
      · exact nomatch h
    cases h : writeComponent radix arr (p, i) with
    | error e =>
      have : arr.length - i = 0 := by
        rw [writeComponent_eq] at h
        split at h
        · exact nomatch h
        · simp only at *; omega
      simp only [this]
      simp
      rfl
    | ok a' =>
      obtain ⟨h1, h2⟩ := hlen a' h
      show reportLoop radix whole a' (ps.zipIdx (i + 1)) (t ++ compLine radix whole p) = _
      rw [reportLoop_eq radix whole ps (i + 1) a' _ (by omega)]
      refine Prod.ext rfl ?_
      show _ = t ++ (List.map (compLine radix whole) (List.take (arr.length - i + 1) (p :: ps))).flatten
      rw [List.take_succ_cons, List.map_cons, List.flatten_cons, h2,
        show arr.length - (i + 1) + 1 = arr.length - i by omega]
      simp

end

theorem hex_det : ∀ c v w, HexDigit c v → HexDigit c w → v = w := fun c v w h h' => by
  rw [← toDigit_hex] at h h'; rw [h] at h'; exact Option.some.inj h'

theorem dec_det : ∀ c v w, DecDigit c v → DecDigit c w → v = w := fun c v w h h' => by
  rw [← toDigit_dec] at h h'; rw [h] at h'; exact Option.some.inj h'

theorem lines_eq {radix : Nat} {Digit : Char → Nat → Prop} {whole : Str} (hd : ∀ c v, toDigit radix c = some v ↔ Digit c v)
    (hr : 1 ≤ radix) (hplus : toDigit radix '+' = none) (hminus : toDigit radix '-' = none)
    (hiff : ∀ s b, u8FromStrRadix radix s = some b ↔ Octet radix Digit s b) {ps : List Str} {lines : List Text} :
    List.Forall₂ (Complaint radix Digit whole) ps lines ↔ lines = ps.map (compLine radix whole) := by
  have det : ∀ c v w, Digit c v → Digit c w → v = w := fun c v w h h' => by
    rw [← hd] at h h'; rw [h] at h'; exact Option.some.inj h'
  constructor
  · intro h
    induction h with
    | nil => rfl
    | cons ha _ ih =>
      rw [List.map_cons, ← ih, complaint_unique hr det ha (compLine_complaint hd hplus hminus hiff _ _)]
  · rintro rfl
    rw [List.forall₂_map_right_iff]
    exact List.forall₂_same.mpr fun p _ => compLine_complaint hd hplus hminus hiff _ _

/-- **C61** MAC text: the conversion returns (or panics) as stated in C31, and prints one line for each of the first
seven components that denotes no octet, in order, naming the reason. -/
theorem C61_mac (ps : List Str) (lines : List Text) (hne : ps ≠ []) (hsep : ∀ p ∈ ps, ':' ∉ p) (t : Text)
    (h : List.Forall₂ (Complaint 16 HexDigit (joined ':' ps)) (ps.take 7) lines) :
    to_mac_bytes_out (joined ':' ps) t = (to_mac_bytes (joined ':' ps), t ++ lines.flatten) := by
  rw [lines_eq toDigit_hex (by decide) (by decide) (by decide) hex_iff] at h
  unfold to_mac_bytes_out to_mac_bytes
  rw [reportLoop_eq _ _ _ _ _ _ (by simp), splitOnChar_joined ':' ps hne hsep, h]
  rfl

/-- **C61** dotted quads: as for MAC text, for the first five components. -/
theorem C61_ipv4 (ps : List Str) (lines : List Text) (hne : ps ≠ []) (hsep : ∀ p ∈ ps, '.' ∉ p) (t : Text)
    (h : List.Forall₂ (Complaint 10 DecDigit (joined '.' ps)) (ps.take 5) lines) :
    to_ipv4_bytes_out (joined '.' ps) t = (to_ipv4_bytes (joined '.' ps), t ++ lines.flatten) := by
  rw [lines_eq toDigit_dec (by decide) (by decide) (by decide) dec_iff] at h
  unfold to_ipv4_bytes_out to_ipv4_bytes
  rw [reportLoop_eq _ _ _ _ _ _ (by simp), splitOnChar_joined '.' ps hne hsep, h]
  rfl

/-- **C61**: for every list of components there are such lines, and only one list of them. -/
theorem C61_lines_exist (whole : Str) (ps : List Str) :
    (∃! lines, List.Forall₂ (Complaint 16 HexDigit whole) ps lines) ∧
      ∃! lines, List.Forall₂ (Complaint 10 DecDigit whole) ps lines := by
  simp only [lines_eq toDigit_hex (by decide) (by decide) (by decide) hex_iff,
    lines_eq toDigit_dec (by decide) (by decide) (by decide) dec_iff]
  exact ⟨⟨_, rfl, fun _ h => h⟩, ⟨_, rfl, fun _ h => h⟩⟩

theorem flatten_lines_nil {radix : Nat} {Digit : Char → Nat → Prop} {whole : Str} {ps : List Str} {lines : List Text}
    (h : List.Forall₂ (Complaint radix Digit whole) ps lines) :
    lines.flatten = [] ↔ ∀ p ∈ ps, ∃ v, Octet radix Digit p v := by
  induction h with
  | nil => simp
  | cons ha _ ih =>
    rw [List.flatten_cons, List.append_eq_nil_iff, ih, List.forall_mem_cons]
    refine and_congr_left fun _ => ?_
    cases ha with
    | none ho => exact ⟨fun _ => ⟨_, ho⟩, fun _ => rfl⟩
    | line hn _ =>
      constructor
      · intro e; simp at e
      · rintro ⟨v, hv⟩; exact absurd hv (hn v)

/-- **C61**: a conversion is silent iff each of the components looked at denotes an octet.  So a conversion that is
silent and returns has not replaced anything by 0 (missing components apart). -/
theorem C61_silent_iff (ps : List Str) (hne : ps ≠ []) (t : Text) :
    ((∀ p ∈ ps, ':' ∉ p) → ((to_mac_bytes_out (joined ':' ps) t).2 = t ↔ ∀ p ∈ ps.take 7, ∃ v, Octet 16 HexDigit p v)) ∧
    ((∀ p ∈ ps, '.' ∉ p) → ((to_ipv4_bytes_out (joined '.' ps) t).2 = t ↔ ∀ p ∈ ps.take 5, ∃ v, Octet 10 DecDigit p v)) := by
  constructor
  · intro hsep
    obtain ⟨lines, h, -⟩ := (C61_lines_exist (joined ':' ps) (ps.take 7)).1
    rw [C61_mac ps lines hne hsep t h, ← flatten_lines_nil h]
    exact List.append_right_eq_self
  · intro hsep
    obtain ⟨lines, h, -⟩ := (C61_lines_exist (joined '.' ps) (ps.take 5)).2
    rw [C61_ipv4 ps lines hne hsep t h, ← flatten_lines_nil h]
    exact List.append_right_eq_self

example : to_mac_bytes_out "1:zz::1ff".toList [] = (.ok [1, 0, 0, 0, 0, 0],
    ("Error: invalid digit found in string - zz in 1:zz::1ff\n" ++
     "Error: cannot parse integer from empty string -  in 1:zz::1ff\n" ++
     "Error: number too large to fit in target type - 1ff in 1:zz::1ff\n").toList) := by decide +kernel
example : to_ipv4_bytes_out "1.2.3.+4".toList [] = (.ok [1, 2, 3, 4], []) := by decide +kernel
-- the message of the component that does not fit is printed before the panic, those after it are not
example : to_ipv4_bytes_out "1.2.3.4.x.y".toList [] =
    (.error .index, "Error: invalid digit found in string - x in 1.2.3.4.x.y\n".toList) := by decide +kernel
example : List.Forall₂ (Complaint 10 DecDigit "1.2.3.4.x.y".toList) ((["1", "2", "3", "4", "x", "y"].map (·.toList)).take 5)
    [[], [], [], [], "Error: invalid digit found in string - x in 1.2.3.4.x.y\n".toList] := by
  rw [lines_eq toDigit_dec (by decide) (by decide) (by decide) dec_iff]; decide +kernel

/-- **C61** IPv6 text: 16 octets, never a panic; a message iff the text is not an address. -/
theorem C61_ipv6 (p6 : Ipv6FromStr) (s : Str) (t : Text) :
    (∀ a, p6 s = some a → to_ipv6_bytes_out p6 s t = (.ok a.toList, t)) ∧
    (p6 s = none → to_ipv6_bytes_out p6 s t =
      (.ok (List.replicate 16 0), t ++ "Error: invalid IPv6 address syntax - ".toList ++ s ++ ['\n'])) ∧
    to_ipv6_bytes p6 s = (match p6 s with | some a => a.toList | none => List.replicate 16 0) ∧
    (to_ipv6_bytes p6 s).length = 16 := by
  unfold to_ipv6_bytes_out to_ipv6_bytes
  refine ⟨?_, ?_, ?_, ?_⟩
  · intro a h; rw [h]; rfl
  · intro h; rw [h]
    show (Except.ok _, _) = _
    refine Prod.ext rfl ?_
    show t ++ _ = _
    simp
  · cases p6 s <;> rfl
  · cases p6 s <;> simp [IPV6_LEN]

/-- **C61** `compare_with_slice`: the answer is that of C13; it prints nothing iff it answers true, the two lengths iff
`len()` differs from the length given, and otherwise also the number of positions at which the bytes agree. -/
theorem C61_compare (p : Packet) (b : Bytes) (t : Text) :
    p.compare_with_slice_out b t = (.ok (p.compare_with_slice b), t ++
      if p.compare_with_slice b then []
      else "this ".toList ++ Nat.toDigits 10 p.len ++ " other ".toList ++ Nat.toDigits 10 b.length ++
        if p.len = b.length then ", matching upto ".toList ++ Nat.toDigits 10 ((List.zip p.to_vec b).countP fun x => x.1 == x.2) ++
          " bytes\n".toList
        else "\n".toList) := by
  unfold Packet.compare_with_slice_out Packet.compare_with_slice
  simp only
  by_cases h : p.len = b.length
  · simp only [h, ne_eq, not_true_eq_false, if_false, if_true, List.countP_eq_length_filter]
    split
    · show (Except.ok false, t ++ _) = _
      simp
    · show (Except.ok true, t) = _
      simp
  · simp only [h, ne_eq, not_false_eq_true, if_true, if_false]
    show (Except.ok false, t ++ _) = _
    simp

/-- **C61**: `compare` likewise, with the bytes of the other packet. -/
theorem C61_compare_silent_iff (p q : Packet) (t : Text) :
    (p.compare_out q t).1 = .ok (p.compare q) ∧ ((p.compare_out q t).2 = t ↔ p.compare q = true) := by
  unfold Packet.compare_out Packet.compare
  rw [C61_compare]
  refine ⟨rfl, ?_⟩
  show _ ++ _ = _ ↔ _
  rw [List.append_right_eq_self]
  by_cases h : p.compare_with_slice q.to_vec = true
  · rw [if_pos h, h]; simp
  · rw [if_neg h]
    refine iff_of_false (fun e => ?_) h
    rw [List.append_assoc, List.append_assoc, List.append_assoc, List.append_eq_nil_iff] at e
    exact absurd e.1 (by decide)

-- "matching upto" counts agreeing positions, it is not the length of the common beginning
example : (Packet.new.set_payload [1, 2, 3, 4]).compare_with_slice_out [9, 2, 3, 4] [] =
    (.ok false, "this 4 other 4, matching upto 3 bytes\n".toList) := by decide +kernel
example : (Packet.new.set_payload [1, 2, 3, 4]).compare_with_slice_out [1] [] =
    (.ok false, "this 4 other 1\n".toList) := by decide +kernel

end PacketRs
