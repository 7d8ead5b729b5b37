import Verif.Props.Tangle
import Verif.Spec.Tally
/-!
# C129: a counter that is read while it is counted up is never read ahead

A setter writes the bits of its field from the least significant one, a getter reads them from the most significant one
(/repo/src/headers.rs:304-326). This is the order of Lamport's "Concurrent reading and writing" (1977) in which a reader that
meets writers of ever greater numbers gets at most the last one.
-/
namespace PacketRs
open Spec

/-- One of the two orders of the numbers. -/
inductive UpOrDown : (Nat → Nat → Prop) → Prop where
  | up : UpOrDown (· ≤ ·)
  | down : UpOrDown (· ≥ ·)

namespace UpOrDown
variable {R : Nat → Nat → Prop}

theorem refl (h : UpOrDown R) (a : Nat) : R a a := by cases h <;> exact Nat.le_refl a

theorem trans (h : UpOrDown R) {a b c : Nat} (h1 : R a b) (h2 : R b c) : R a c := by
  cases h
  · exact Nat.le_trans h1 h2
  · exact Nat.le_trans h2 h1

theorem div (h : UpOrDown R) {a b : Nat} (k : Nat) (h1 : R a b) : R (a / 2 ^ k) (b / 2 ^ k) := by
  cases h
  · exact Nat.div_le_div_right h1
  · exact Nat.div_le_div_right h1

theorem next (h : UpOrDown R) {a b : Nat} (c : Nat) (h1 : R a b) : R (2 * a + c) (2 * b + c) := by
  cases h
  · show _ ≤ _; have : a ≤ b := h1; omega
  · show _ ≥ _; have : b ≤ a := h1; omega

end UpOrDown

/-- The leading bits of a number, one more. -/
theorem lead_succ (a m : Nat) : a / 2 ^ m = 2 * (a / 2 ^ (m + 1)) + (a.testBit m).toNat := by
  rw [Nat.pow_succ, ← Nat.div_div_eq_div_mul, Nat.testBit_eq_decide_div_mod_eq]
  generalize a / 2 ^ m = x
  rcases Nat.mod_two_eq_zero_or_one x with h | h
  · simp [h]; omega
  · simp [h]; omega

theorem bitsNat_snoc (bs : List Bool) (b : Bool) :
    readOctets.bitsNat (bs ++ [b]) = 2 * readOctets.bitsNat bs + b.toNat := by
  simp [readOctets.bitsNat, List.foldl_append]

/-- A reader of the field: it has read the bits `bs`, and these are related to what the writer has finished (`a`) or, if
the writer has already come to them, to what it is writing (`b`, of which it has written `p` bits). -/
def TallyReader (R : Nat → Nat → Prop) (r lo n a b p : Nat) (q : Micro U64) : Prop :=
  ∃ bs : List Bool, bs.length ≤ n ∧
    q = readBits r (lo + bs.length) (n - bs.length) (fun bs' => .done (BitVec.ofNat 64 (readOctets.bitsNat (bs ++ bs')))) ∧
    R (readOctets.bitsNat bs) (if p ≤ n - bs.length then a / 2 ^ (n - bs.length) else b / 2 ^ (n - bs.length))

/-- The state of the writer, of the field and of the readers. -/
structure Tally (R : Nat → Nat → Prop) (r : Nat) (f : Field) (a0 : Nat) (l : List U64) (N : Nat) (w : Machine U64)
    (pre post : List U64) (b p : Nat) : Prop where
  split : l = pre ++ post
  len : f.hi < 8 * (w.cont r).length
  climbs : Climbs R ((heldVals f pre).getLastD a0) (heldVals f post)
  small : (heldVals f pre).getLastD a0 < 2 ^ (f.hi + 1 - f.lo)
  now : R ((heldVals f pre).getLastD a0) b
  writer : (p = 0 ∧ w.th 0 = micro (setEach r f post)) ∨
    ∃ v post', post = v :: post' ∧ p < f.hi + 1 - f.lo ∧ b = v.toNat % 2 ^ (f.hi + 1 - f.lo) ∧
      w.th 0 = writeBits r f.hi v.getLsbD (micro (setEach r f post')) (f.hi + 1 - f.lo - p) p
  bits : ∀ q, q < f.hi + 1 - f.lo →
    netBit (w.cont r) (f.hi - q) = if q < p then b.testBit q else ((heldVals f pre).getLastD a0).testBit q
  readers : ∀ t, t < N → TallyReader R r f.lo (f.hi + 1 - f.lo) ((heldVals f pre).getLastD a0) b p (w.th (t + 1))
  others : ∀ t, N ≤ t → w.th (t + 1) = .done 0#64

theorem TallyReader.mono {R : Nat → Nat → Prop} (hR : UpOrDown R) {r lo n a b p : Nat} {q : Micro U64} (hab : R a b)
    (h : TallyReader R r lo n a b p q) : TallyReader R r lo n a b (p + 1) q := by
  obtain ⟨bs, h1, h2, h3⟩ := h
  refine ⟨bs, h1, h2, ?_⟩
  by_cases c : p + 1 ≤ n - bs.length
  · rw [if_pos c]; rwa [if_pos (by omega)] at h3
  · rw [if_neg c]
    split at h3
    · exact hR.trans h3 (hR.div _ hab)
    · exact h3

/-- The writer has not begun: what it writes next does not count. -/
theorem TallyReader.idle {R : Nat → Nat → Prop} {r lo n a b c : Nat} {q : Micro U64}
    (h : TallyReader R r lo n a b 0 q) : TallyReader R r lo n a c 0 q := by
  obtain ⟨bs, h1, h2, h3⟩ := h
  refine ⟨bs, h1, h2, ?_⟩
  rw [if_pos (Nat.zero_le _)] at h3 ⊢
  exact h3

/-- The writer has finished a value. -/
theorem TallyReader.full {R : Nat → Nat → Prop} {r lo n a b c : Nat} {q : Micro U64} (ha : a < 2 ^ n) (hb : b < 2 ^ n)
    (h : TallyReader R r lo n a b n q) : TallyReader R r lo n b c 0 q := by
  obtain ⟨bs, h1, h2, h3⟩ := h
  refine ⟨bs, h1, h2, ?_⟩
  rw [if_pos (Nat.zero_le _)]
  by_cases c : bs.length = 0
  · rw [c, Nat.sub_zero, if_pos (Nat.le_refl _), Nat.div_eq_of_lt ha] at h3
    rw [c, Nat.sub_zero, Nat.div_eq_of_lt hb]; exact h3
  · rwa [if_neg (by omega)] at h3

theorem setEach_busy (r : Nat) (f : Field) (v : U64) (l : List U64) :
    micro (setEach r f (v :: l)) = writeBits r f.hi v.getLsbD (micro (setEach r f l)) (f.hi + 1 - f.lo) 0 := rfl

theorem Tally.step {R : Nat → Nat → Prop} (hR : UpOrDown R) {r : Nat} {f : Field} (hf : f.lo ≤ f.hi) {a0 : Nat} {l : List U64} {N : Nat}
    {w w' : Machine U64} {pre post : List U64} {b p : Nat} (h : Tally R r f a0 l N w pre post b p) {t : Nat} (hs : Machine.Step t w w') :
    ∃ pre' post' b' p', Tally R r f a0 l N w' pre' post' b' p' := by
  cases t with
  | zero =>
    -- the writer writes a bit
    have hbusy : ∃ v post' p', post = v :: post' ∧ p' < f.hi + 1 - f.lo ∧
        w.th 0 = writeBits r f.hi v.getLsbD (micro (setEach r f post')) (f.hi + 1 - f.lo - p') p' ∧
        Tally R r f a0 l N w pre post (v.toNat % 2 ^ (f.hi + 1 - f.lo)) p' := by
      rcases h.writer with ⟨rfl, e⟩ | ⟨v, post', e1, e2, e3, e4⟩
      · cases hp : post with
        | nil =>
          rw [hp] at e
          have e : w.th 0 = .done 0#64 := e
          rcases hs with ⟨g, _, _⟩ | ⟨g, _, _, _⟩ | ⟨g, _, _⟩ | ⟨g, _, _⟩ <;> rw [e] at g <;> cases g
        | cons v post' =>
          rw [hp] at e
          refine ⟨v, post', 0, rfl, by omega, e, ?_⟩
          rw [← hp]
          have hc := h.climbs
          rw [hp] at hc
          exact ⟨h.split, h.len, h.climbs, h.small, hc.1, .inr ⟨v, post', hp, by omega, rfl, e⟩, fun q hq => by
            rw [if_neg (Nat.not_lt_zero q)]; have := h.bits q hq; rwa [if_neg (Nat.not_lt_zero q)] at this,
            fun t ht => (h.readers t ht).idle, h.others⟩
      · exact ⟨v, post', p, e1, e2, e4, e3 ▸ h⟩
    clear h
    obtain ⟨v, post', p, rfl, hp, e, h⟩ := hbusy
    obtain ⟨m, hm⟩ : ∃ m, f.hi + 1 - f.lo - p = m + 1 := ⟨f.hi + 1 - f.lo - p - 1, by omega⟩
    rw [hm] at e
    rcases hs with ⟨g, _, _⟩ | ⟨g, g1, g2, g3⟩ | ⟨g, _, _⟩ | ⟨g, _, _⟩ <;> rw [e] at g <;> cases g
    have hbits : ∀ q, q < f.hi + 1 - f.lo → netBit (w'.cont r) (f.hi - q) =
        if q < p + 1 then (v.toNat % 2 ^ (f.hi + 1 - f.lo)).testBit q else ((heldVals f pre).getLastD a0).testBit q := by
      intro q hq
      rw [g2.1, g1.2]
      by_cases hqp : q = p
      · subst hqp
        rw [if_pos rfl, if_pos (by omega), Nat.testBit_mod_two_pow, BitVec.testBit_toNat]
        simp [hq]
      · rw [if_neg (by omega), h.bits q hq]
        by_cases c : q < p
        · rw [if_pos c, if_pos (by omega)]
        · rw [if_neg c, if_neg (by omega)]
    have hread : ∀ t, t < N → TallyReader R r f.lo (f.hi + 1 - f.lo) ((heldVals f pre).getLastD a0) (v.toNat % 2 ^ (f.hi + 1 - f.lo)) (p + 1)
        (w'.th (t + 1)) := by
      intro t ht
      rw [g3.2 (t + 1) (by omega)]
      exact (h.readers t ht).mono hR h.now
    have hoth : ∀ t, N ≤ t → w'.th (t + 1) = .done 0#64 := fun t ht => by rw [g3.2 (t + 1) (by omega)]; exact h.others t ht
    have hlen : f.hi < 8 * (w'.cont r).length := by rw [g2.1, g1.1]; exact h.len
    by_cases hlast : p + 1 = f.hi + 1 - f.lo
    · have hm0 : m = 0 := by omega
      subst hm0
      have hl : (heldVals f (pre ++ [v])).getLastD a0 = v.toNat % 2 ^ (f.hi + 1 - f.lo) := by simp [heldVals]
      have hlt : v.toNat % 2 ^ (f.hi + 1 - f.lo) < 2 ^ (f.hi + 1 - f.lo) := Nat.mod_lt _ (Nat.two_pow_pos _)
      refine ⟨pre ++ [v], post', v.toNat % 2 ^ (f.hi + 1 - f.lo), 0, ⟨by simp [h.split], hlen, ?_, ?_, ?_, .inl ⟨rfl, g3.1⟩, ?_, ?_, hoth⟩⟩
      · rw [hl]; exact h.climbs.2
      · rw [hl]; exact hlt
      · rw [hl]; exact hR.refl _
      · intro q hq
        rw [hl, if_neg (Nat.not_lt_zero q), hbits q hq, if_pos (by omega)]
      · intro t ht
        rw [hl]
        have := hread t ht
        rw [hlast] at this
        exact this.full h.small hlt
    · refine ⟨pre, v :: post', v.toNat % 2 ^ (f.hi + 1 - f.lo), p + 1, ⟨h.split, hlen, h.climbs, h.small, h.now,
        .inr ⟨v, post', rfl, by omega, rfl, ?_⟩, hbits, hread, hoth⟩⟩
      rw [g3.1]
      congr 1
      omega
  | succ t =>
    by_cases ht : t < N
    · obtain ⟨bs, h1, h2, h3⟩ := h.readers t ht
      rcases Nat.lt_or_ge bs.length (f.hi + 1 - f.lo) with hlt | hge
      · obtain ⟨m, hm⟩ : ∃ m, f.hi + 1 - f.lo - bs.length = m + 1 := ⟨f.hi + 1 - f.lo - bs.length - 1, by omega⟩
        rw [hm] at h2
        rcases hs with ⟨g, g1, g2⟩ | ⟨g, _, _, _⟩ | ⟨g, _, _⟩ | ⟨g, _, _⟩ <;> rw [h2] at g <;> cases g
        have hth : ∀ u, u ≠ t + 1 → w'.th u = w.th u := g2.2
        refine ⟨pre, post, b, p, ⟨h.split, by rw [g1]; exact h.len, h.climbs, h.small, h.now, ?_, ?_, ?_, ?_⟩⟩
        · rw [hth 0 (by omega)]; exact h.writer
        · rw [g1]; exact h.bits
        · intro u hu
          by_cases hut : u = t
          · subst hut
            have hx : f.lo + bs.length = f.hi - m := by omega
            have hbit := h.bits m (by omega)
            refine ⟨bs ++ [netBit (w.cont r) (f.lo + bs.length)], by simp; omega, ?_, ?_⟩
            · rw [g2.1]
              simp only [List.length_append, List.length_singleton, List.append_assoc, List.singleton_append]
              rw [show f.hi + 1 - f.lo - (bs.length + 1) = m by omega, Nat.add_assoc]
            · rw [bitsNat_snoc, List.length_append, List.length_singleton, show f.hi + 1 - f.lo - (bs.length + 1) = m by omega, hx, hbit,
                lead_succ _ m, lead_succ b m]
              rw [hm] at h3
              by_cases c : p ≤ m
              · rw [if_pos c, if_neg (by omega)]
                rw [if_pos (by omega)] at h3
                exact hR.next _ h3
              · rw [if_neg c, if_pos (by omega)]
                refine hR.next _ ?_
                split at h3
                · exact hR.trans h3 (hR.div _ h.now)
                · exact h3
          · rw [hth (u + 1) (by omega)]; exact h.readers u hu
        · intro u hu
          rw [hth (u + 1) (by omega)]; exact h.others u hu
      · rw [show f.hi + 1 - f.lo - bs.length = 0 by omega] at h2
        rcases hs with ⟨g, _, _⟩ | ⟨g, _, _, _⟩ | ⟨g, _, _⟩ | ⟨g, _, _⟩ <;> rw [h2] at g <;> cases g
    · have h2 := h.others t (by omega)
      rcases hs with ⟨g, _, _⟩ | ⟨g, _, _, _⟩ | ⟨g, _, _⟩ | ⟨g, _, _⟩ <;> rw [h2] at g <;> cases g

/-! ## The claims -/

section
variable {L : Nat → Nat}

theorem tally_start {R : Nat → Nat → Prop} (hR : UpOrDown R) (r : Nat) (f : Field) (hhi : f.hi < 8 * L r) (m : Store)
    (hm : Fresh L m) (l : List U64) (n : Nat) (hl : Climbs R (fieldVal (m r).bytes f.lo f.hi) (heldVals f l)) :
    Tally R r f (fieldVal (m r).bytes f.lo f.hi) l n ⟨fun r => (m r).bytes, fun t => micro (tallyThreads r f l n t)⟩ [] l
      (fieldVal (m r).bytes f.lo f.hi) 0 := by
  have hlen : f.hi < 8 * (m r).bytes.length := by rw [(hm r).2.2]; exact hhi
  refine ⟨rfl, hlen, hl, fieldVal_lt _ _ _, hR.refl _, .inl ⟨rfl, rfl⟩, fun q hq => ?_, fun t ht => ⟨[], Nat.zero_le _, ?_, ?_⟩, fun t ht => ?_⟩
  · rw [if_neg (Nat.not_lt_zero q)]
    show _ = (fieldVal (m r).bytes f.lo f.hi).testBit q
    rw [testBit_fieldVal _ _ _ hlen]
    simp [hq]
  · show micro (if t < n then _ else _) = _
    rw [if_pos ht]; rfl
  · rw [if_pos (Nat.zero_le _)]
    show R 0 (fieldVal (m r).bytes f.lo f.hi / 2 ^ (f.hi + 1 - f.lo))
    rw [Nat.div_eq_of_lt (fieldVal_lt _ _ _)]
    exact hR.refl 0
  · show micro (if t < n then _ else _) = _
    rw [if_neg (by omega)]; rfl

theorem tally_reach {R : Nat → Nat → Prop} (hR : UpOrDown R) (r : Nat) (f : Field) (hf : f.lo ≤ f.hi) (hhi : f.hi < 8 * L r) (m : Store)
    (hm : Fresh L m) (l : List U64) (n : Nat) (hl : Climbs R (fieldVal (m r).bytes f.lo f.hi) (heldVals f l)) {w : Machine U64}
    (hw : Machine.Reach ⟨fun r => (m r).bytes, fun t => micro (tallyThreads r f l n t)⟩ w) :
    ∃ pre post b p, Tally R r f (fieldVal (m r).bytes f.lo f.hi) l n w pre post b p := by
  induction hw with
  | refl => exact ⟨_, _, _, _, tally_start hR r f hhi m hm l n hl⟩
  | step t _ hs ih =>
    obtain ⟨pre, post, b, p, h⟩ := ih
    exact h.step hR hf hs

/-- How many bits a thread of the machine writes before it does something else. -/
def writesAhead {α : Type} : Micro α → Nat
  | .write _ _ _ k => writesAhead k + 1
  | _ => 0

theorem writesAhead_bits {α : Type} (r hi : Nat) (v : Nat → Bool) (k : Micro α) (n j : Nat) :
    writesAhead (writeBits r hi v k n j) = n + writesAhead k := by
  induction n generalizing j with
  | zero => simp [writeBits]
  | succ n ih => simp only [writeBits, writesAhead, ih]; omega

theorem writesAhead_setEach (r : Nat) (f : Field) (l : List U64) :
    writesAhead (micro (setEach r f l)) = (f.hi + 1 - f.lo) * l.length := by
  induction l with
  | nil => rfl
  | cons v l ih => rw [setEach_busy, writesAhead_bits, ih, List.length_cons, Nat.mul_succ, Nat.add_comm]

/-- What a reader that is done has returned. -/
theorem TallyReader.result {R : Nat → Nat → Prop} {r lo n a b p : Nat} {x : U64} (hn : n ≤ 64)
    (h : TallyReader R r lo n a b p (.done x)) : R x.toNat (if p ≤ 0 then a else b) := by
  obtain ⟨bs, h1, h2, h3⟩ := h
  rcases Nat.lt_or_ge bs.length n with c | c
  · obtain ⟨m, hm⟩ : ∃ m, n - bs.length = m + 1 := ⟨n - bs.length - 1, by omega⟩
    rw [hm] at h2
    cases h2
  · rw [show n - bs.length = 0 by omega] at h2 h3
    simp only [readBits, List.append_nil, Micro.done.injEq] at h2
    rw [Nat.pow_zero, Nat.div_one, Nat.div_one] at h3
    have hlt : readOctets.bitsNat bs < 2 ^ 64 :=
      Nat.lt_of_lt_of_le (bitsNat_lt bs) (Nat.pow_le_pow_right (by decide) (by omega))
    rw [h2, BitVec.toNat_ofNat, Nat.mod_eq_of_lt hlt]
    exact h3

/-- On the machine: whenever the writer is between two calls, what readers have returned is related to what it has written last. -/
theorem tally_between {R : Nat → Nat → Prop} (hR : UpOrDown R) (r : Nat) (f : Field) (hf : f.lo ≤ f.hi) (hhi : f.hi < 8 * L r)
    (h64 : f.hi - f.lo < 64) (m : Store) (hm : Fresh L m) (pre post : List U64) (n : Nat)
    (hl : Climbs R (fieldVal (m r).bytes f.lo f.hi) (heldVals f (pre ++ post))) {w : Machine U64}
    (hw : Machine.Reach ⟨fun r => (m r).bytes, fun t => micro (tallyThreads r f (pre ++ post) n t)⟩ w)
    (h0 : w.th 0 = micro (setEach r f post)) (t : Nat) (ht : t < n) (x : U64) (hx : w.th (t + 1) = .done x) :
    R x.toNat ((heldVals f pre).getLastD (fieldVal (m r).bytes f.lo f.hi)) := by
  obtain ⟨pre', post', b, p, h⟩ := tally_reach hR r f hf hhi m hm _ n hl hw
  have hp : p = 0 ∧ post'.length = post.length := by
    rcases h.writer with ⟨h1, h2⟩ | ⟨v, q, h1, h2, -, h4⟩
    · refine ⟨h1, ?_⟩
      have := congrArg writesAhead (h2.symm.trans h0)
      rw [writesAhead_setEach, writesAhead_setEach] at this
      exact Nat.eq_of_mul_eq_mul_left (by omega) this
    · have := congrArg writesAhead (h4.symm.trans h0)
      rw [writesAhead_bits, writesAhead_setEach, writesAhead_setEach] at this
      rw [h1, List.length_cons]
      generalize f.hi + 1 - f.lo = k at this h2
      generalize q.length = i at this ⊢
      generalize post.length = j at this ⊢
      have e : k * j + p = k * (i + 1) := by rw [Nat.mul_succ]; omega
      have e2 : p = 0 := by
        have e3 := congrArg (· % k) e
        simp only [Nat.mul_add_mod, Nat.mul_mod_right] at e3
        rwa [Nat.mod_eq_of_lt h2] at e3
      exact ⟨e2, Nat.eq_of_mul_eq_mul_left (show 0 < k by omega) (by rw [← e, e2]; rfl)⟩
  obtain ⟨rfl, hlen⟩ := hp
  have hpre : pre = pre' := (List.append_inj' h.split hlen.symm).1
  have := h.readers t ht
  rw [hx] at this
  have := this.result (by omega)
  rw [if_pos (Nat.le_refl 0)] at this
  rwa [hpre]

theorem tally_inside (r : Nat) (f : Field) (hf : f.lo ≤ f.hi) (hhi : f.hi < 8 * L r) (h64 : f.hi - f.lo < 64) (l : List U64) (n t : Nat) :
    Inside L (tallyThreads r f l n t) := by
  match t with
  | 0 =>
    show Inside L (setEach r f l)
    induction l with
    | nil => trivial
    | cons v l ih => exact ⟨hf, hhi, fun _ _ _ => trivial, ih⟩
  | t + 1 =>
    show Inside L (if t < n then _ else _)
    split
    · exact ⟨hf, hhi, h64, fun _ _ _ => .inl trivial, fun _ => trivial⟩
    · trivial

theorem tally_final {R : Nat → Nat → Prop} (hR : UpOrDown R) (chk : Bool) (m : Store) (hm : Fresh L m) (r : Nat) (f : Field)
    (hf : f.lo ≤ f.hi) (hhi : f.hi < 8 * L r) (h64 : f.hi - f.lo < 64) (l : List U64) (n : Nat)
    (hl : Climbs R (fieldVal (m r).bytes f.lo f.hi) (heldVals f l)) {s : Sys U64}
    (hs : Sys.Reach ⟨m, fun t => (tallyThreads r f l n t).prog chk⟩ s) (hF : s.Final) :
    fieldVal (s.mem r).bytes f.lo f.hi = (heldVals f l).getLastD (fieldVal (m r).bytes f.lo f.hi) ∧
    ∀ t, t < n → ∃ x, s.th (t + 1) = .ret x ∧ R x.toNat (fieldVal (s.mem r).bytes f.lo f.hi) := by
  have hin := tally_inside r f hf hhi h64 l n
  obtain ⟨res, hres⟩ := all_returned chk m hm _ hin hs hF
  have hw := (C65_atomic_bits chk m hm _ hin res fun r => (s.mem r).bytes).1 ⟨s, hs, hres, fun _ => rfl⟩
  obtain ⟨pre, post, b, p, h⟩ := tally_reach hR r f hf hhi m hm l n hl hw
  have hend : p = 0 ∧ post = [] := by
    rcases h.writer with ⟨h1, h2⟩ | ⟨v, q, h1, h2, -, h4⟩
    · have := congrArg writesAhead h2
      rw [writesAhead_setEach] at this
      refine ⟨h1, List.length_eq_zero_iff.mp ?_⟩
      rcases Nat.mul_eq_zero.mp this.symm with e | e
      · omega
      · exact e
    · have := congrArg writesAhead h4
      rw [writesAhead_bits] at this
      simp only [writesAhead] at this
      omega
  obtain ⟨rfl, rfl⟩ := hend
  have hsplit := h.split
  rw [List.append_nil] at hsplit
  subst hsplit
  have hlen : f.hi < 8 * (s.mem r).bytes.length := h.len
  have hval : fieldVal (s.mem r).bytes f.lo f.hi = (heldVals f l).getLastD (fieldVal (m r).bytes f.lo f.hi) := by
    apply Nat.eq_of_testBit_eq
    intro q
    rw [testBit_fieldVal _ _ _ hlen]
    by_cases c : q < f.hi + 1 - f.lo
    · have := h.bits q c
      rw [if_neg (Nat.not_lt_zero q)] at this
      rw [← this]; simp [c]
    · rw [Nat.testBit_lt_two_pow (Nat.lt_of_lt_of_le h.small (Nat.pow_le_pow_right (by decide) (by omega)))]
      simp [c]
  refine ⟨hval, fun t ht => ⟨res (t + 1), hres _, ?_⟩⟩
  have := (h.readers t ht).result (by omega)
  rw [if_pos (Nat.le_refl 0)] at this
  rwa [hval]

/-- C129.  A field that one thread sets to ever greater values (or the same ones) while other threads read it: when all have
finished, no reader has returned more than what the field holds, which is the last of the values. -/
theorem C129_counting_up (chk : Bool) (m : Store) (hm : Fresh L m) (r : Nat) (f : Field) (hf : f.lo ≤ f.hi) (hhi : f.hi < 8 * L r)
    (h64 : f.hi - f.lo < 64) (l : List U64) (n : Nat) (hl : Climbs (· ≤ ·) (fieldVal (m r).bytes f.lo f.hi) (heldVals f l)) {s : Sys U64}
    (hs : Sys.Reach ⟨m, fun t => (tallyThreads r f l n t).prog chk⟩ s) (hF : s.Final) :
    fieldVal (s.mem r).bytes f.lo f.hi = (heldVals f l).getLastD (fieldVal (m r).bytes f.lo f.hi) ∧
    ∀ t, t < n → ∃ x, s.th (t + 1) = .ret x ∧ x.toNat ≤ fieldVal (s.mem r).bytes f.lo f.hi :=
  tally_final .up chk m hm r f hf hhi h64 l n hl hs hF

/-- C129.  The same for values that never grow: no reader has returned less than what the field holds. -/
theorem C129_counting_down (chk : Bool) (m : Store) (hm : Fresh L m) (r : Nat) (f : Field) (hf : f.lo ≤ f.hi) (hhi : f.hi < 8 * L r)
    (h64 : f.hi - f.lo < 64) (l : List U64) (n : Nat) (hl : Climbs (· ≥ ·) (fieldVal (m r).bytes f.lo f.hi) (heldVals f l)) {s : Sys U64}
    (hs : Sys.Reach ⟨m, fun t => (tallyThreads r f l n t).prog chk⟩ s) (hF : s.Final) :
    fieldVal (s.mem r).bytes f.lo f.hi = (heldVals f l).getLastD (fieldVal (m r).bytes f.lo f.hi) ∧
    ∀ t, t < n → ∃ x, s.th (t + 1) = .ret x ∧ x.toNat ≥ fieldVal (s.mem r).bytes f.lo f.hi :=
  tally_final .down chk m hm r f hf hhi h64 l n hl hs hF

/-- C129.  On the machine of C65, at any time at which the writer has made the calls `pre` and not begun those of `post`: no reader has
returned more than the last value of `pre` (counting up), or less (counting down). -/
theorem C129_never_ahead (r : Nat) (f : Field) (hf : f.lo ≤ f.hi) (hhi : f.hi < 8 * L r) (h64 : f.hi - f.lo < 64) (m : Store) (hm : Fresh L m)
    (pre post : List U64) (n : Nat) {w : Machine U64}
    (hw : Machine.Reach ⟨fun r => (m r).bytes, fun t => micro (tallyThreads r f (pre ++ post) n t)⟩ w)
    (h0 : w.th 0 = micro (setEach r f post)) (t : Nat) (ht : t < n) (x : U64) (hx : w.th (t + 1) = .done x) :
    (Climbs (· ≤ ·) (fieldVal (m r).bytes f.lo f.hi) (heldVals f (pre ++ post)) →
      x.toNat ≤ (heldVals f pre).getLastD (fieldVal (m r).bytes f.lo f.hi)) ∧
    (Climbs (· ≥ ·) (fieldVal (m r).bytes f.lo f.hi) (heldVals f (pre ++ post)) →
      x.toNat ≥ (heldVals f pre).getLastD (fieldVal (m r).bytes f.lo f.hi)) :=
  ⟨fun hl => tally_between .up r f hf hhi h64 m hm pre post n hl hw h0 t ht x hx,
    fun hl => tally_between .down r f hf hhi h64 m hm pre post n hl hw h0 t ht x hx⟩

end

/-! ## Non-vacuity, and the other bound -/

/-- The two bits at the end of an octet. -/
def lowPair : Field := ⟨"pair", 6, 7⟩

-- the field holds 1 and is set to 2 and to 3, with five readers
example {s : Sys U64} (hs : Sys.Reach ⟨ballotStore, fun t => (tallyThreads 0 lowPair [2#64, 3#64] 5 t).prog true⟩ s) (hF : s.Final) (t : Nat) (ht : t < 5) :
    ∃ x, s.th (t + 1) = .ret x ∧ x.toNat ≤ 3 := by
  have h := C129_counting_up (L := fun _ => 1) true ballotStore ballot_fresh 0 lowPair (by decide) (by decide) (by decide) [2#64, 3#64] 5
    ⟨by decide, by decide, trivial⟩ hs hF
  obtain ⟨x, h1, h2⟩ := h.2 t ht
  rw [h.1] at h2
  exact ⟨x, h1, h2⟩

-- as long as the writer has not begun to write 3
example {w : Machine U64} (hw : Machine.Reach ⟨fun r => (ballotStore r).bytes, fun t => micro (tallyThreads 0 lowPair ([2#64] ++ [3#64]) 5 t)⟩ w)
    (h0 : w.th 0 = micro (setEach 0 lowPair [3#64])) (x : U64) (hx : w.th 1 = .done x) : x.toNat ≤ 2 :=
  (C129_never_ahead (L := fun _ => 1) 0 lowPair (by decide) (by decide) (by decide) ballotStore ballot_fresh [2#64] [3#64] 5 hw h0 0 (by decide) x hx).1
    ⟨by decide, by decide, trivial⟩

-- the field holds 1 and is set to 1 and to 0
example {s : Sys U64} (hs : Sys.Reach ⟨ballotStore, fun t => (tallyThreads 0 lowPair [1#64, 0#64] 5 t).prog true⟩ s) (hF : s.Final) :=
  C129_counting_down (L := fun _ => 1) true ballotStore ballot_fresh 0 lowPair (by decide) (by decide) (by decide) [1#64, 0#64] 5
    ⟨by decide, by decide, trivial⟩ hs hF

/-- C129.  The reader may be behind: of a field that holds 1 and is set to 2, it can get 0. -/
theorem C129_can_be_behind (chk : Bool) : ∃ s, Sys.Reach ⟨ballotStore, fun t => (tallyThreads 0 lowPair [2#64] 1 t).prog chk⟩ s ∧ s.Final ∧
    fieldVal (ballotStore 0).bytes lowPair.lo lowPair.hi = 1 ∧ s.th 1 = .ret 0#64 ∧ fieldVal (s.mem 0).bytes lowPair.lo lowPair.hi = 2 := by
  let c0 : Nat → Bytes := fun r => (ballotStore r).bytes
  let c1 : Nat → Bytes := fun r => if r = 0 then [0x00#8] else c0 r
  let c2 : Nat → Bytes := fun r => if r = 0 then [0x02#8] else c0 r
  let th (a b : Micro U64) : Nat → Micro U64 := fun t => if t = 0 then a else if t = 1 then b else .done 0#64
  let R2 : Micro U64 := .read 0 7 fun b => .done (BitVec.ofNat 64 (readOctets.bitsNat [false, b]))
  let W1 : Micro U64 := .write 0 6 true (.done 0#64)
  have n6 : netBit [0x01#8] 6 = false := by decide
  have n7 : netBit [0x02#8] 7 = false := by decide
  have hbs : ∀ (d e : Byte) (i : Nat) (b : Bool), (∀ j, j < 8 → netBit [e] j = if j = i then b else netBit [d] j) → i < 8 → BitSet [d] i b [e] := by
    intro d e i b h hi
    refine ⟨rfl, fun j => ?_⟩
    rcases Nat.lt_or_ge j 8 with hj | hj
    · exact h j hj
    · have : ∀ z : Byte, netBit [z] j = false := by
        intro z
        unfold netBit
        rw [List.getD_eq_getElem?_getD, List.getElem?_eq_none (show [z].length ≤ j / 8 by simp; omega)]
        simp
      rw [this, this, if_neg (by omega)]
  have r0 : Machine.Reach (⟨c0, fun t => micro (tallyThreads 0 lowPair [2#64] 1 t)⟩ : Machine U64) ⟨c2, th (.done 0#64) (.done 0#64)⟩ := by
    refine .step (w' := ⟨c2, th (.done 0#64) R2⟩) 1 (.step (w' := ⟨c1, th W1 R2⟩) 0
      (.step (w' := ⟨c0, th (.write 0 7 false W1) R2⟩) 0 (.step 1 .refl ?_) ?_) ?_) ?_
    · refine .read (r := 0) (i := 6) (k := fun b => .read 0 7 fun b' => .done (BitVec.ofNat 64 (readOctets.bitsNat [b, b']))) rfl rfl ⟨?_, fun z hz => ?_⟩
      · show R2 = .read 0 7 fun b' => .done (BitVec.ofNat 64 (readOctets.bitsNat [netBit [0x01#8] 6, b']))
        rw [n6]
      match z, hz with
      | 0, _ => rfl
      | z + 2, _ =>
        show _ = micro (if z + 1 < 1 then Client.get 0 lowPair .done else .done 0#64)
        rw [if_neg (by omega)]; rfl
    · refine .write (e := [0x00#8]) rfl (hbs 0x01#8 0x00#8 7 false (by decide) (by decide)) ⟨rfl, fun z hz => if_neg hz⟩ ⟨rfl, fun z hz => ?_⟩
      show (if z = 0 then _ else _) = (if z = 0 then _ else _)
      rw [if_neg hz, if_neg hz]
    · refine .write (e := [0x02#8]) rfl (hbs 0x00#8 0x02#8 6 true (by decide) (by decide)) ⟨rfl, fun z hz => ?_⟩ ⟨rfl, fun z hz => ?_⟩
      · show (if z = 0 then _ else _) = (if z = 0 then _ else _)
        rw [if_neg hz, if_neg hz]
      · show (if z = 0 then _ else _) = (if z = 0 then _ else _)
        rw [if_neg hz, if_neg hz]
    · refine .read (r := 0) (i := 7) rfl rfl ⟨?_, fun z hz => ?_⟩
      · show Micro.done 0#64 = .done (BitVec.ofNat 64 (readOctets.bitsNat [false, netBit [0x02#8] 7]))
        rw [n7]; rfl
      show (if z = 0 then _ else if z = 1 then _ else _) = (if z = 0 then _ else if z = 1 then _ else _)
      rw [if_neg hz, if_neg hz]
  have hth : th (.done 0#64) (.done 0#64) = fun _ => .done 0#64 := by
    funext t; show (if t = 0 then _ else if t = 1 then _ else _) = _; split <;> [rfl; split <;> rfl]
  rw [hth] at r0
  obtain ⟨s, h1, h2, h3⟩ := (C65_atomic_bits (L := fun _ => 1) chk ballotStore ballot_fresh _ (tally_inside 0 lowPair (by decide) (by decide) (by decide) [2#64] 1)
    (fun _ => 0#64) c2).2 r0
  exact ⟨s, h1, fun t => by rw [h2 t]; trivial, by decide, h2 1, by rw [h3 0]; decide⟩

end PacketRs
