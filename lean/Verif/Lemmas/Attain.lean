import Verif.Lemmas.Mix
/-!
# Schedules that attain every mixture
-/
namespace PacketRs
open Spec
open Prog hiding bind

section
variable {L : Nat → Nat}

/-- How many bits of the field lie below bit `i`. -/
def below (f : Field) (i : Nat) : Nat := min i (f.hi + 1) - f.lo

/-- The thread has its bits below `i` left to write. -/
def StageOf (c : Call) (i : Nat) (p : Prog (Option U64)) : Prop :=
  match c with
  | .set r f v => p = setRest r f.lo (below f i) (v >>> (f.hi + 1 - f.lo - below f i))
  | .get _ _ => False
  | .rest => p = .ret none

/-- All threads have written their bits above `i`, those in `D` also bit `i`. -/
def Stage (L : Nat → Nat) (calls : Nat → Call) (D : Nat → Prop) (i : Nat) (s : Sys (Option U64)) : Prop :=
  Fresh L s.mem ∧ ∀ t, (D t → StageOf (calls t) i (s.th t)) ∧ (¬ D t → StageOf (calls t) (i + 1) (s.th t))

theorem proc {calls : Nat → Call} (hok : ∀ t, (calls t).Ok L) {D : Nat → Prop} {i : Nat} {s : Sys (Option U64)}
    (h : Stage L calls D i s) {t : Nat} (ht : ¬ D t) :
    ∃ s', Sys.AReach s s' ∧ Stage L calls (fun u => D u ∨ u = t) i s' ∧
      ∀ r j, netBit (s'.mem r).bytes j =
        if j = i then ((calls t).writes r i).getD (netBit (s.mem r).bytes i) else netBit (s.mem r).bytes j := by
  obtain ⟨hf, hth⟩ := h
  have h1 := (hth t).2 ht
  have hokt := hok t
  -- a thread that does not write bit `i` need not do anything
  have skip : StageOf (calls t) i (s.th t) → (∀ r, (calls t).writes r i = none) →
      ∃ s', Sys.AReach s s' ∧ Stage L calls (fun u => D u ∨ u = t) i s' ∧
      ∀ r j, netBit (s'.mem r).bytes j =
        if j = i then ((calls t).writes r i).getD (netBit (s.mem r).bytes i) else netBit (s.mem r).bytes j := by
    intro h2 h3
    refine ⟨s, .refl, ⟨hf, fun u => ⟨?_, fun hu => (hth u).2 (fun hD => hu (.inl hD))⟩⟩, ?_⟩
    · rintro (hu | rfl)
      · exact (hth u).1 hu
      · exact h2
    · intro r j
      rw [h3]
      split
      · next e => subst e; rfl
      · rfl
  cases e : calls t with
  | rest =>
    rw [e] at skip h1
    exact skip h1 (fun _ => rfl)
  | get r f => rw [e] at h1; exact h1.elim
  | set r f v =>
    rw [e] at h1 hokt skip
    obtain ⟨ho1, ho2⟩ := hokt
    simp only [StageOf] at h1
    by_cases hc : f.lo ≤ i ∧ i ≤ f.hi
    · obtain ⟨n, hn⟩ : ∃ n, n = below f i := ⟨_, rfl⟩
      have hn1 : below f (i + 1) = n + 1 := by simp only [below] at hn ⊢; omega
      have hni : f.lo + n = i := by simp only [below] at hn; omega
      rw [hn1] at h1
      obtain ⟨d, hd, hb, ha⟩ := astep_set hf h1 (by omega)
      have hv : (v >>> (f.hi + 1 - f.lo - (n + 1))).getLsbD 0 = v.getLsbD (f.hi - i) := by
        rw [BitVec.getLsbD_ushiftRight]; congr 1; omega
      refine ⟨_, .step t .refl ha, ⟨hf.put hd, ?_⟩, ?_⟩
      · intro u
        by_cases hu : u = t
        · subst hu
          refine ⟨fun _ => ?_, fun hh => absurd (.inr rfl) hh⟩
          rw [e]
          simp only [StageOf, Sys.setTh_same, ← hn]
          rw [← BitVec.shiftRight_add, show f.hi + 1 - f.lo - (n + 1) + 1 = f.hi + 1 - f.lo - n from by omega]
        · simp only [Sys.setTh_ne _ _ hu]
          exact ⟨fun hD => (hth u).1 (hD.resolve_right hu), fun hD => (hth u).2 (fun h => hD (.inl h))⟩
      · intro x j
        simp only [Call.writes]
        by_cases hx : x = r
        · subst hx
          simp only [put_same, hb, hv, hni, hc, and_self, if_true, Option.getD_some]
        · simp only [put_ne _ _ hx, hx, false_and, if_false, Option.getD_none]
          split
          · next e => rw [e]
          · rfl
    · refine skip ?_ ?_
      · simp only [StageOf]
        have : below f (i + 1) = below f i := by simp only [below]; omega
        rw [this] at h1
        exact h1
      · intro x
        simp only [Call.writes]
        rw [if_neg (by omega)]

theorem proc_list {calls : Nat → Call} (hok : ∀ t, (calls t).Ok L) {i : Nat} (l : List Nat) {D : Nat → Prop}
    {s : Sys (Option U64)} (h : Stage L calls D i s) (hl : l.Nodup) (hD : ∀ t ∈ l, ¬ D t) :
    ∃ s', Sys.AReach s s' ∧ Stage L calls (fun u => D u ∨ u ∈ l) i s' ∧
      ∀ r j, netBit (s'.mem r).bytes j = if j = i then
        l.foldl (fun b t => ((calls t).writes r i).getD b) (netBit (s.mem r).bytes i) else netBit (s.mem r).bytes j := by
  induction l generalizing D s with
  | nil =>
    refine ⟨s, .refl, ⟨h.1, fun t => ⟨fun hh => (h.2 t).1 (by simpa using hh), fun hh => (h.2 t).2 (by simpa using hh)⟩⟩, ?_⟩
    intro r j
    split
    · next e => rw [e]; rfl
    · rfl
  | cons t l ih =>
    obtain ⟨s1, r1, st1, b1⟩ := proc hok h (hD t (by simp))
    rw [List.nodup_cons] at hl
    obtain ⟨s2, r2, st2, b2⟩ := ih st1 hl.2 (by
      intro u hu hh
      rcases hh with hh | rfl
      · exact hD u (by simp [hu]) hh
      · exact hl.1 hu)
    refine ⟨s2, r1.trans r2, ?_, ?_⟩
    · have : (fun u => D u ∨ u ∈ t :: l) = fun u => (D u ∨ u = t) ∨ u ∈ l := by
        funext u; simp only [List.mem_cons, or_assoc]
      rw [this]; exact st2
    · intro r j
      rw [b2 r j]
      by_cases hj : j = i
      · rw [if_pos hj, if_pos hj, List.foldl_cons, b1 r i, if_pos rfl]
      · rw [if_neg hj, if_neg hj, b1 r j, if_neg hj]

theorem foldl_none {g : Nat → Option Bool} (l : List Nat) (h : ∀ t ∈ l, g t = none) (b : Bool) :
    l.foldl (fun b t => (g t).getD b) b = b := by
  induction l generalizing b with
  | nil => rfl
  | cons t l ih =>
    rw [List.foldl_cons, h t (by simp)]
    exact ih (fun u hu => h u (by simp [hu])) b

theorem foldl_one {g : Nat → Option Bool} (l : List Nat) {t0 : Nat} {b0 : Bool} (h0 : g t0 = some b0)
    (hm : t0 ∈ l) (h : ∀ t ∈ l, t ≠ t0 → g t = none) (b : Bool) : l.foldl (fun b t => (g t).getD b) b = b0 := by
  induction l generalizing b with
  | nil => cases hm
  | cons t l ih =>
    rw [List.foldl_cons]
    by_cases hin : t0 ∈ l
    · exact ih hin (fun u hu => h u (by simp [hu])) _
    · have : t = t0 := by
        rcases List.mem_cons.1 hm with e | e
        · exact e.symm
        · exact absurd e hin
      subst this
      rw [h0]
      refine foldl_none l (fun u hu => h u (by simp [hu]) ?_) _
      rintro rfl
      exact hin hu

/-- All threads write bit `i`, the chosen one of each vector last. -/
theorem proc_bit {calls : Nat → Call} (hok : ∀ t, (calls t).Ok L) {n : Nat} (hn : ∀ t, n ≤ t → calls t = .rest)
    (ch : Nat → Nat → Nat) (hch : ∀ x i t, (calls t).writes x i ≠ none → (calls (ch x i)).writes x i ≠ none)
    {i : Nat} {s : Sys (Option U64)} (h : Stage L calls (fun _ => False) i s) :
    ∃ s', Sys.AReach s s' ∧ (Fresh L s'.mem ∧ ∀ t, StageOf (calls t) i (s'.th t)) ∧
      ∀ r j, netBit (s'.mem r).bytes j = if j = i then
        ((calls (ch r i)).writes r i).getD (netBit (s.mem r).bytes i) else netBit (s.mem r).bytes j := by
  let P : Nat → Bool := fun t => match calls t with
    | .set r _ _ => decide (ch r i = t)
    | _ => false
  have hP : ∀ t x, (calls t).writes x i ≠ none → (P t = true ↔ ch x i = t) := by
    intro t x hw
    cases e : calls t with
    | rest => rw [e] at hw; exact absurd rfl hw
    | get r f => rw [e] at hw; exact absurd rfl hw
    | set r f v =>
      rw [e] at hw
      simp only [Call.writes] at hw
      have hx : x = r := by
        by_cases hx : x = r
        · exact hx
        · simp [hx] at hw
      simp only [P, e, hx, decide_eq_true_eq]
  have hnd : ((List.range n).filter (fun t => !P t) ++ (List.range n).filter P).Nodup := by
    rw [List.nodup_append]
    refine ⟨List.nodup_range.filter _, List.nodup_range.filter _, ?_⟩
    intro a ha b hb hab
    subst hab
    rw [List.mem_filter] at ha hb
    simp [hb.2] at ha
  obtain ⟨s', hr, hs, hb⟩ := proc_list hok _ h hnd (fun _ _ hh => hh)
  refine ⟨s', hr, ⟨hs.1, fun t => ?_⟩, ?_⟩
  · by_cases ht : t < n
    · refine (hs.2 t).1 (.inr ?_)
      rw [List.mem_append, List.mem_filter, List.mem_filter, List.mem_range]
      cases P t <;> simp [ht]
    · have := (hs.2 t).2 (by simp [ht])
      rw [hn t (by omega)] at this ⊢
      exact this
  · intro r j
    rw [hb r j]
    by_cases hj : j = i
    · rw [if_pos hj, if_pos hj]
      by_cases hc : ∃ t, (calls t).writes r i ≠ none
      · obtain ⟨t, ht⟩ := hc
        have h0 := hch r i t ht
        obtain ⟨b0, hb0⟩ := Option.ne_none_iff_exists'.1 h0
        rw [hb0, Option.getD_some, List.foldl_append]
        have hlt : ch r i < n := Nat.lt_of_not_le fun hle => by rw [hn _ hle] at h0; exact h0 rfl
        refine foldl_one (g := fun t => (calls t).writes r i) _ hb0 ?_ ?_ _
        · rw [List.mem_filter, List.mem_range]
          exact ⟨hlt, (hP _ r h0).2 rfl⟩
        · intro u hu hne
          rw [List.mem_filter] at hu
          cases hw : (calls u).writes r i with
          | none => rfl
          | some b => exact absurd ((hP u r (by simp [hw])).1 hu.2).symm hne
      · have hnone : ∀ t, (calls t).writes r i = none := by
          intro t
          cases hw : (calls t).writes r i with
          | none => rfl
          | some b => exact absurd ⟨t, by simp [hw]⟩ hc
        rw [foldl_none _ (fun t _ => hnone t), hnone, Option.getD_none]
    · rw [if_neg hj, if_neg hj]

/-- Every choice of a last writer per bit is realised by some schedule. -/
theorem attain {chk : Bool} {calls : Nat → Call} (hok : ∀ t, (calls t).Ok L) (hset : ∀ t r f, calls t ≠ .get r f) {n : Nat}
    (hn : ∀ t, n ≤ t → calls t = .rest) (ch : Nat → Nat → Nat)
    (hch : ∀ x i t, (calls t).writes x i ≠ none → (calls (ch x i)).writes x i ≠ none) {m : Store} (hm : Fresh L m) :
    ∃ s', Sys.AReach (⟨m, fun t => (calls t).client.prog chk⟩ : Sys (Option U64)) s' ∧ s'.Final ∧ Fresh L s'.mem ∧
      ∀ r j, netBit (s'.mem r).bytes j = ((calls (ch r j)).writes r j).getD (netBit (m r).bytes j) := by
  -- a bound on all fields
  obtain ⟨M, hM⟩ : ∃ M, ∀ t r f v, calls t = .set r f v → f.hi + 1 ≤ M := by
    have : ∀ k, ∃ M, ∀ t, t < k → ∀ r f v, calls t = .set r f v → f.hi + 1 ≤ M := by
      intro k
      induction k with
      | zero => exact ⟨0, fun t ht => absurd ht (by omega)⟩
      | succ k ih =>
        obtain ⟨M, hM⟩ := ih
        cases e : calls k with
        | set r f v =>
          refine ⟨M + (f.hi + 1), fun t ht r' f' v' h => ?_⟩
          by_cases htk : t = k
          · subst htk; rw [e] at h; cases h; omega
          · have := hM t (by omega) r' f' v' h; omega
        | get r f => exact absurd e (hset k r f)
        | rest =>
          refine ⟨M, fun t ht r' f' v' h => ?_⟩
          by_cases htk : t = k
          · subst htk; rw [e] at h; cases h
          · exact hM t (by omega) r' f' v' h
    obtain ⟨M, hM⟩ := this n
    refine ⟨M, fun t r f v h => ?_⟩
    by_cases ht : t < n
    · exact hM t ht r f v h
    · rw [hn t (by omega)] at h; cases h
  have main : ∀ k, k ≤ M → ∃ s', Sys.AReach (⟨m, fun t => (calls t).client.prog chk⟩ : Sys (Option U64)) s' ∧
      (Fresh L s'.mem ∧ ∀ t, StageOf (calls t) (M - k) (s'.th t)) ∧
      ∀ r j, netBit (s'.mem r).bytes j = if M - k ≤ j then ((calls (ch r j)).writes r j).getD (netBit (m r).bytes j)
        else netBit (m r).bytes j := by
    intro k
    induction k with
    | zero =>
      intro _
      refine ⟨_, .refl, ⟨hm, fun t => ?_⟩, fun r j => ?_⟩
      · cases e : calls t with
        | rest => simp only [StageOf, e]; rfl
        | get r f => exact absurd e (hset t r f)
        | set r f v =>
          have := hM t r f v e
          have hb : below f (M - 0) = f.hi + 1 - f.lo := by simp only [below]; omega
          simp only [StageOf, e, set_prog, hb, Nat.sub_self]
          simp
      · split
        · next hj =>
          cases hw : (calls (ch r j)).writes r j with
          | none => rfl
          | some b =>
            cases e : calls (ch r j) with
            | rest => rw [e] at hw; cases hw
            | get r f => rw [e] at hw; cases hw
            | set r' f v =>
              have := hM _ r' f v e
              rw [e] at hw
              simp only [Call.writes] at hw
              rw [if_neg (by omega)] at hw
              cases hw
        · rfl
    | succ k ih =>
      intro hk
      obtain ⟨s1, r1, ⟨hf1, st1⟩, b1⟩ := ih (by omega)
      have e1 : M - k = M - (k + 1) + 1 := by omega
      obtain ⟨s2, r2, st2, b2⟩ := proc_bit hok hn ch hch (i := M - (k + 1)) (s := s1)
        ⟨hf1, fun t => ⟨fun hh => hh.elim, fun _ => by rw [← e1]; exact st1 t⟩⟩
      refine ⟨s2, r1.trans r2, st2, fun r j => ?_⟩
      rw [b2 r j]
      by_cases hj : j = M - (k + 1)
      · subst hj
        rw [if_pos rfl, if_pos (Nat.le_refl _), b1 r, if_neg (by omega)]
      · rw [if_neg hj, b1 r j]
        by_cases hj2 : M - k ≤ j
        · rw [if_pos hj2, if_pos (by omega)]
        · rw [if_neg hj2, if_neg (by omega)]
  obtain ⟨s', hr, ⟨hf, hst⟩, hb⟩ := main M (Nat.le_refl _)
  refine ⟨s', hr, fun t => ?_, hf, fun r j => ?_⟩
  · have := hst t
    cases e : calls t with
    | rest => rw [e] at this; simp only [StageOf] at this; rw [this]; trivial
    | get r f => exact absurd e (hset t r f)
    | set r f v =>
      rw [e] at this
      have hz : below f (M - M) = 0 := by simp only [below]; omega
      simp only [StageOf, hz] at this
      rw [this]; trivial
  · rw [hb r j, if_pos (by omega)]

end
end PacketRs
