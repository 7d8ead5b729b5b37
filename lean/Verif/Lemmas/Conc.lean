import Verif.Lemmas.Sect
/-!
# Schedules of whole critical sections

For threads made of sections on one mutex each (`Acc`), every schedule of single steps has the same
outcome as a schedule of whole sections, and the other way round.
-/
namespace PacketRs
open Spec
open Prog hiding bind

namespace Sys
section
variable {α : Type}

/-- A step of thread `t` that executes a whole critical section. -/
def astep (t : Nat) (s : Sys α) : Option (Sys α) :=
  match s.th t with
  | .panic f => some ⟨s.mem, s.setTh t (.died f)⟩
  | .lock r k =>
    if (s.mem r).poisoned then some ⟨s.mem, s.setTh t (.panic .poisoned)⟩
    else match finish r k (s.mem r).bytes with
      | some (k', d, b) => some ⟨s.mem.put r ⟨d, b, none⟩, s.setTh t k'⟩
      | none => none
  | _ => none

inductive AReach (s : Sys α) : Sys α → Prop where
  | refl : AReach s s
  | step {s' s'' : Sys α} (t : Nat) : AReach s s' → s'.astep t = some s'' → AReach s s''

/-- `a` is where the system is once every open section of `c` is completed. -/
structure Sim (c a : Sys α) : Prop where
  free : ∀ r, (c.mem r).owner = none → a.mem r = c.mem r
  held : ∀ r t, (c.mem r).owner = some t → (c.mem r).poisoned = false ∧ (a.mem r).owner = none ∧
    finish r (c.th t) (c.mem r).bytes = some (a.th t, (a.mem r).bytes, (a.mem r).poisoned)
  idle : ∀ t, (∀ r, (c.mem r).owner ≠ some t) → a.th t = c.th t
  acc : ∀ t, Acc (fun _ => True) (a.th t)
  one : ∀ r r' t, (c.mem r).owner = some t → (c.mem r').owner = some t → r = r'

theorem Sim.init {s : Sys α} (hf : AllFree s.mem) (ha : ∀ t, Acc (fun _ => True) (s.th t)) : Sim s s :=
  ⟨fun _ _ => rfl, fun r t h => (by rw [hf r] at h; cases h), fun _ _ => rfl, ha,
    fun r r' t h => (by rw [hf r] at h; cases h)⟩

@[simp] theorem setTh_same (s : Sys α) (t : Nat) (p : Prog α) : s.setTh t p t = p := by simp [setTh]
theorem setTh_ne (s : Sys α) {t u : Nat} (p : Prog α) (h : u ≠ t) : s.setTh t p u = s.th u := by simp [setTh, h]

theorem Sim.allFree {c a : Sys α} (h : Sim c a) : AllFree a.mem := by
  intro r
  cases e : (c.mem r).owner with
  | none => rw [h.free r e]; exact e
  | some t => exact (h.held r t e).2.1

/-- A step inside a section that keeps the section open. -/
theorem Sim.inside {c a : Sys α} (h : Sim c a) {t r : Nat} (ho : (c.mem r).owner = some t) (d : Bytes) (p : Prog α)
    (hfin : finish r p d = some (a.th t, (a.mem r).bytes, (a.mem r).poisoned)) :
    Sim ⟨c.mem.put r { c.mem r with bytes := d }, c.setTh t p⟩ a := by
  have hown : ∀ x, ((c.mem.put r { c.mem r with bytes := d }) x).owner = (c.mem x).owner := by
    intro x
    by_cases hx : x = r
    · subst hx; simp
    · rw [put_ne _ _ hx]
  refine ⟨?_, ?_, ?_, h.acc, ?_⟩
  · intro x hx
    have hxr : x ≠ r := by rintro rfl; rw [hown, ho] at hx; cases hx
    simp only [put_ne _ _ hxr] at hx ⊢
    exact h.free x hx
  · intro x u hx
    simp only [hown] at hx
    by_cases hxr : x = r
    · subst hxr
      rw [ho] at hx; cases hx
      simp only [put_same, setTh_same]
      exact ⟨(h.held x t ho).1, (h.held x t ho).2.1, hfin⟩
    · have hut : u ≠ t := by rintro rfl; exact hxr (h.one x r _ hx ho)
      simp only [put_ne _ _ hxr, setTh_ne _ _ hut]
      exact h.held x u hx
  · intro u hu
    have hut : u ≠ t := by rintro rfl; exact hu r (by simp [ho])
    simp only [setTh_ne _ _ hut]
    exact h.idle u (fun x => by rw [← hown]; exact hu x)
  · intro x x' u hx hx'
    simp only [hown] at hx hx'
    exact h.one x x' u hx hx'

/-- A step that ends the section. -/
theorem Sim.leave {c a : Sys α} (h : Sim c a) {t r : Nat} (ho : (c.mem r).owner = some t) (m : Store)
    (hm : m r = a.mem r) (hne : ∀ x, x ≠ r → m x = c.mem x) : Sim ⟨m, c.setTh t (a.th t)⟩ a := by
  have hr : (a.mem r).owner = none := (h.held r t ho).2.1
  refine ⟨?_, ?_, ?_, h.acc, ?_⟩
  · intro x hx
    by_cases hxr : x = r
    · subst hxr; exact hm.symm
    · simp only [hne x hxr] at hx ⊢; exact h.free x hx
  · intro x u hx
    have hxr : x ≠ r := by rintro rfl; simp only [hm, hr] at hx; cases hx
    simp only [hne x hxr] at hx ⊢
    have hut : u ≠ t := by rintro rfl; exact hxr (h.one x r _ hx ho)
    simp only [setTh_ne _ _ hut]
    exact h.held x u hx
  · intro u hu
    by_cases hut : u = t
    · subst hut; simp
    · simp only [setTh_ne _ _ hut]
      refine h.idle u fun x hx => ?_
      by_cases hxr : x = r
      · subst hxr; rw [ho] at hx; cases hx; exact hut rfl
      · have := hu x; simp only [hne x hxr] at this; exact this hx
  · intro x x' u hx hx'
    have hxr : x ≠ r := by rintro rfl; simp only [hm, hr] at hx; cases hx
    have hxr' : x' ≠ r := by rintro rfl; simp only [hm, hr] at hx'; cases hx'
    simp only [hne x hxr, hne x' hxr'] at hx hx'
    exact h.one x x' u hx hx'

/-- A step between sections that leaves the storage alone. -/
theorem Sim.between {c a : Sys α} (h : Sim c a) {t : Nat} (hid : ∀ r, (c.mem r).owner ≠ some t) (p : Prog α)
    (hp : Acc (fun _ => True) p) : Sim ⟨c.mem, c.setTh t p⟩ ⟨a.mem, a.setTh t p⟩ := by
  refine ⟨h.free, ?_, ?_, ?_, h.one⟩
  · intro x u hx
    have hut : u ≠ t := by rintro rfl; exact hid x hx
    simp only [setTh_ne _ _ hut]
    exact h.held x u hx
  · intro u hu
    by_cases hut : u = t
    · subst hut; simp
    · simp only [setTh_ne _ _ hut]; exact h.idle u hu
  · intro u
    by_cases hut : u = t
    · subst hut; simpa using hp
    · simp only [setTh_ne _ _ hut]; exact h.acc u

theorem Sim.step {c c' a : Sys α} (h : Sim c a) {t : Nat} (hs : c.step t = some c') :
    Sim c' a ∨ ∃ a', a.astep t = some a' ∧ Sim c' a' := by
  by_cases hown : ∃ r, (c.mem r).owner = some t
  · obtain ⟨r, ho⟩ := hown
    obtain ⟨h1, h2, h3⟩ := h.held r t ho
    left
    unfold Sys.step at hs
    cases e : c.th t with
    | ret x => rw [e] at h3; simp [finish] at h3
    | died f => rw [e] at h3; simp [finish] at h3
    | lock r' k => rw [e] at h3; simp [finish] at h3
    | panic f =>
      rw [e] at h3 hs
      simp only [finish, Option.some.injEq, Prod.mk.injEq] at h3 hs
      subst hs
      rw [h3.1]
      refine h.leave ho _ ?_ ?_
      · simp only [Store.unwind, ho, if_true]
        cases ha : a.mem r with
        | mk b p o => rw [ha] at h2 h3; simp only at h2 h3; simp [h2, h3]
      · intro x hx
        simp only [Store.unwind]
        rw [if_neg]
        exact fun hx' => hx (h.one x r t hx' ho)
    | load r' k =>
      rw [e] at h3 hs
      simp only [finish] at h3
      split at h3
      · next er =>
        subst er
        simp only [Option.some.injEq] at hs
        subst hs
        have := h.inside ho (c.mem r').bytes (k (c.mem r').bytes) h3
        rwa [put_eq_self _ rfl] at this
      · cases h3
    | store r' b k =>
      rw [e] at h3 hs
      simp only [finish] at h3
      split at h3
      · next er =>
        subst er
        simp only [Option.some.injEq] at hs
        subst hs
        exact h.inside ho b k h3
      · cases h3
    | unlock r' k =>
      rw [e] at h3 hs
      simp only [finish] at h3
      split at h3
      · next er =>
        subst er
        simp only [Option.some.injEq, Prod.mk.injEq] at h3 hs
        subst hs
        rw [h3.1]
        refine h.leave ho _ ?_ ?_
        · rw [put_same]
          cases ha : a.mem r' with
          | mk b p o => rw [ha] at h2 h3; simp only at h2 h3; simp [h2, h3, h1]
        · intro x hx; rw [put_ne _ _ hx]
      · cases h3
  · have hid : ∀ r, (c.mem r).owner ≠ some t := fun r hr => hown ⟨r, hr⟩
    have hth := h.idle t hid
    have hacc := h.acc t
    rw [hth] at hacc
    unfold Sys.step at hs
    generalize hp : c.th t = p at hacc hs
    cases hacc with
    | ret x => cases hs
    | died f => cases hs
    | panic f =>
      simp only [Option.some.injEq] at hs
      subst hs
      refine .inr ⟨⟨a.mem, a.setTh t (.died f)⟩, by simp only [astep, hth, hp], ?_⟩
      have : c.mem.unwind t = c.mem := unwind_idle hid
      rw [this]
      exact h.between hid _ (.died f)
    | @sect r k hr k' d' b hfin hb hk =>
      simp only at hs
      split at hs
      · cases hs
      · next hno =>
        have ho : (c.mem r).owner = none := by simpa using hno
        have ham := h.free r ho
        split at hs
        · next hpo =>
          simp only [Option.some.injEq] at hs
          subst hs
          refine .inr ⟨⟨a.mem, a.setTh t (.panic .poisoned)⟩, ?_, h.between hid _ (.panic _)⟩
          simp only [astep, hth, hp, ham, hpo, if_true]
        · next hpo =>
          simp only [Option.some.injEq] at hs
          subst hs
          have hpo : (c.mem r).poisoned = false := by simpa using hpo
          refine .inr ⟨⟨a.mem.put r ⟨d' (c.mem r).bytes, b (c.mem r).bytes, none⟩, a.setTh t (k' (c.mem r).bytes)⟩, ?_, ?_⟩
          · simp only [astep, hth, hp, ham, hpo, hfin, Bool.false_eq_true, if_false]
          · refine ⟨?_, ?_, ?_, ?_, ?_⟩
            · intro x hx
              by_cases hxr : x = r
              · subst hxr; simp at hx
              · simp only [put_ne _ _ hxr] at hx ⊢; exact h.free x hx
            · intro x u hx
              by_cases hxr : x = r
              · subst hxr
                simp only [put_same, Option.some.injEq] at hx
                subst hx
                simp only [put_same, setTh_same]
                exact ⟨hpo, trivial, hfin _⟩
              · simp only [put_ne _ _ hxr] at hx ⊢
                have hut : u ≠ t := by rintro rfl; exact hid x hx
                simp only [setTh_ne _ _ hut]
                exact h.held x u hx
            · intro u hu
              have hut : u ≠ t := by rintro rfl; exact hu r (by simp)
              simp only [setTh_ne _ _ hut]
              refine h.idle u fun x hx => ?_
              by_cases hxr : x = r
              · subst hxr; rw [ho] at hx; cases hx
              · have := hu x; simp only [put_ne _ _ hxr] at this; exact this hx
            · intro u
              by_cases hut : u = t
              · subst hut; simpa using hk _
              · simp only [setTh_ne _ _ hut]; exact h.acc u
            · intro x x' u hx hx'
              by_cases hxr : x = r
              · subst hxr
                simp only [put_same, Option.some.injEq] at hx
                subst hx
                by_cases hxr' : x' = x
                · exact hxr'.symm
                · simp only [put_ne _ _ hxr'] at hx'; exact absurd hx' (hid x')
              · simp only [put_ne _ _ hxr] at hx
                by_cases hxr' : x' = r
                · subst hxr'
                  simp only [put_same, Option.some.injEq] at hx'
                  subst hx'
                  exact absurd hx (hid x)
                · simp only [put_ne _ _ hxr'] at hx'; exact h.one x x' u hx hx'

theorem Sim.reach {s c : Sys α} (hf : AllFree s.mem) (ha : ∀ t, Acc (fun _ => True) (s.th t)) (h : Reach s c) :
    ∃ a, AReach s a ∧ Sim c a := by
  induction h with
  | refl => exact ⟨s, .refl, Sim.init hf ha⟩
  | step t _ hs ih =>
    obtain ⟨a, h1, h2⟩ := ih
    rcases h2.step hs with h3 | ⟨a', h3, h4⟩
    · exact ⟨a, h1, h3⟩
    · exact ⟨a', .step t h1 h3, h4⟩

theorem Sim.final {c a : Sys α} (h : Sim c a) (hc : c.Final) : a = c := by
  have hno : ∀ r t, (c.mem r).owner ≠ some t := by
    intro r t ho
    have h3 := (h.held r t ho).2.2
    have hft := hc t
    cases e : c.th t <;> rw [e] at h3 hft <;> simp [finish] at h3 <;> exact hft
  have h1 : a.mem = c.mem := by
    funext r
    refine h.free r ?_
    cases e : (c.mem r).owner with
    | none => rfl
    | some t => exact absurd e (hno r t)
  have h2 : a.th = c.th := by
    funext t
    exact h.idle t (fun r => hno r t)
  cases a; cases c; cases h1; cases h2; rfl

/-- Atomicity: a terminated execution has the outcome of one whose steps are whole sections. -/
theorem areach_of_reach {s c : Sys α} (hf : AllFree s.mem) (ha : ∀ t, Acc (fun _ => True) (s.th t)) (h : Reach s c)
    (hc : c.Final) : AReach s c := by
  obtain ⟨a, h1, h2⟩ := Sim.reach hf ha h
  rwa [h2.final hc] at h1

theorem Reach.trans {s s' s'' : Sys α} (h : Reach s s') (h' : Reach s' s'') : Reach s s'' := by
  induction h' with
  | refl => exact h
  | step t _ hs ih => exact .step t ih hs

theorem AReach.trans {s s' s'' : Sys α} (h : AReach s s') (h' : AReach s' s'') : AReach s s'' := by
  induction h' with
  | refl => exact h
  | step t _ hs ih => exact .step t ih hs

theorem reach_finish {t r : Nat} {p p' : Prog α} {d d' : Bytes} {b : Bool} (s : Sys α) (hf : AllFree s.mem)
    (h : finish r p d = some (p', d', b)) :
    Reach (⟨s.mem.put r ⟨d, false, some t⟩, s.setTh t p⟩ : Sys α) ⟨s.mem.put r ⟨d', b, none⟩, s.setTh t p'⟩ := by
  have hset : ∀ (m : Store) (p q : Prog α), (⟨m, s.setTh t p⟩ : Sys α).setTh t q = s.setTh t q := by
    intro m p q; funext x; simp only [setTh]; split <;> rfl
  have one : ∀ (x y : Sys α), x.step t = some y → Reach x y := fun x y hxy => .step t .refl hxy
  induction p generalizing d with
  | ret a => simp [finish] at h
  | died e => simp [finish] at h
  | lock r' k ih => simp [finish] at h
  | panic e =>
    simp only [finish, Option.some.injEq, Prod.mk.injEq] at h
    obtain ⟨rfl, rfl, rfl⟩ := h
    refine one _ _ ?_
    simp only [Sys.step, setTh_same, hset, unwind_put (hf.idle t)]
  | load r' k ih =>
    simp only [finish] at h
    split at h
    · next e =>
      subst e
      refine (one _ _ ?_).trans (ih d h)
      simp only [Sys.step, setTh_same, hset, put_same]
    · cases h
  | store r' b' k ih =>
    simp only [finish] at h
    split at h
    · next e =>
      subst e
      refine (one _ _ ?_).trans (ih h)
      simp only [Sys.step, setTh_same, hset, put_same, put_put]
    · cases h
  | unlock r' k ih =>
    simp only [finish] at h
    split at h
    · next e =>
      subst e
      simp only [Option.some.injEq, Prod.mk.injEq] at h
      obtain ⟨rfl, rfl, rfl⟩ := h
      refine one _ _ ?_
      simp only [Sys.step, setTh_same, hset, put_same, put_put]
    · cases h

/-- A whole section is a possible schedule. -/
theorem reach_of_astep {t : Nat} {s s' : Sys α} (hf : AllFree s.mem) (h : s.astep t = some s') :
    Reach s s' ∧ AllFree s'.mem := by
  unfold astep at h
  split at h
  · next f e =>
    cases h
    refine ⟨.step t .refl ?_, hf⟩
    simp only [Sys.step, e, unwind_idle (hf.idle t)]
  · next r k e =>
    split at h
    · next hp =>
      cases h
      refine ⟨.step t .refl ?_, hf⟩
      simp only [Sys.step, e, hf r, hp, ne_eq, not_true_eq_false, if_false, if_true]
    · next hp =>
      split at h
      · next k' d b hfin =>
        cases h
        have hp : (s.mem r).poisoned = false := by simpa using hp
        refine ⟨Reach.trans (.step t .refl ?_) (reach_finish s hf hfin), hf.put rfl⟩
        simp only [Sys.step, e, hf r, hp, ne_eq, not_true_eq_false, if_false, Bool.false_eq_true]
      · cases h
  · cases h

theorem reach_of_areach {s s' : Sys α} (hf : AllFree s.mem) (h : AReach s s') : Reach s s' ∧ AllFree s'.mem := by
  induction h with
  | refl => exact ⟨.refl, hf⟩
  | step t _ hs ih =>
    obtain ⟨h1, h2⟩ := ih
    obtain ⟨h3, h4⟩ := reach_of_astep h2 hs
    exact ⟨h1.trans h3, h4⟩

/-! ## Progress and termination -/

/-- In every reachable state some thread can take a step, unless all have finished. -/
theorem Sim.progress {c a : Sys α} (h : Sim c a) (hnf : ¬ c.Final) : ∃ t c', c.step t = some c' := by
  by_cases hown : ∃ r t, (c.mem r).owner = some t
  · obtain ⟨r, t, ho⟩ := hown
    have h3 := (h.held r t ho).2.2
    refine ⟨t, ?_⟩
    unfold Sys.step
    cases e : c.th t <;> rw [e] at h3 <;> simp [finish] at h3 <;> exact ⟨_, rfl⟩
  · have hfree : ∀ r, (c.mem r).owner = none := by
      intro r
      cases e : (c.mem r).owner with
      | none => rfl
      | some t => exact absurd ⟨r, t, e⟩ hown
    obtain ⟨t, ht⟩ : ∃ t, ¬ (c.th t).Finished := Classical.not_forall.1 hnf
    have hth := h.idle t (fun r hr => hown ⟨r, t, hr⟩)
    have hacc := h.acc t
    rw [hth] at hacc
    refine ⟨t, ?_⟩
    unfold Sys.step
    generalize c.th t = p at hacc ht
    cases hacc with
    | ret x => exact absurd trivial ht
    | died f => exact absurd trivial ht
    | panic f => exact ⟨_, rfl⟩
    | @sect r k hr k' d' b hfin hb hk =>
      simp only [hfree r, ne_eq, not_true_eq_false, if_false]
      split <;> exact ⟨_, rfl⟩

end
end Sys
end PacketRs
