import Mathlib.Order.GameAdd
import Verif.Lemmas.Conc
/-!
# Schedules of finitely many threads are finite
-/
namespace PacketRs
open Prog hiding bind

section
variable {α : Type}

/-- `q` is what is left of `p` after a step, for some contents of the store. -/
inductive Next : Prog α → Prog α → Prop where
  | panic (f : Fault) : Next (.died f) (.panic f)
  | poisoned (r : Nat) (k : Prog α) : Next (.panic .poisoned) (.lock r k)
  | lock (r : Nat) (k : Prog α) : Next k (.lock r k)
  | load (r : Nat) (k : Bytes → Prog α) (d : Bytes) : Next (k d) (.load r k)
  | store (r : Nat) (b : Bytes) (k : Prog α) : Next k (.store r b k)
  | unlock (r : Nat) (k : Prog α) : Next k (.unlock r k)

theorem Next.wf : WellFounded (Next (α := α)) := by
  have hd : ∀ f, _root_.Acc (Next (α := α)) (.died f) := fun f => ⟨_, fun q hq => (by cases hq)⟩
  have hp : ∀ f, _root_.Acc (Next (α := α)) (.panic f) := fun f => ⟨_, fun q hq => (by cases hq; exact hd f)⟩
  refine ⟨fun p => ?_⟩
  induction p with
  | ret a => exact ⟨_, fun q hq => (by cases hq)⟩
  | panic f => exact hp f
  | died f => exact hd f
  | lock r k ih => exact ⟨_, fun q hq => (by cases hq; exacts [hp _, ih])⟩
  | load r k ih => exact ⟨_, fun q hq => (by cases hq; exact ih _)⟩
  | store r b k ih => exact ⟨_, fun q hq => (by cases hq; exact ih)⟩
  | unlock r k ih => exact ⟨_, fun q hq => (by cases hq; exact ih)⟩

namespace Sys

theorem step_next {s s' : Sys α} {t : Nat} (h : s.step t = some s') :
    Next (s'.th t) (s.th t) ∧ ∀ u, u ≠ t → s'.th u = s.th u := by
  unfold Sys.step at h
  split at h
  · cases h
  · cases h
  · next e => cases h; exact ⟨by simpa [e] using Next.panic _, fun u hu => setTh_ne _ _ hu⟩
  · next e =>
    split at h
    · cases h
    · split at h
      · cases h; exact ⟨by simpa [e] using Next.poisoned _ _, fun u hu => setTh_ne _ _ hu⟩
      · cases h; exact ⟨by simpa [e] using Next.lock _ _, fun u hu => setTh_ne _ _ hu⟩
  · next e => cases h; exact ⟨by simpa [e] using Next.load _ _ _, fun u hu => setTh_ne _ _ hu⟩
  · next e => cases h; exact ⟨by simpa [e] using Next.store _ _ _, fun u hu => setTh_ne _ _ hu⟩
  · next e => cases h; exact ⟨by simpa [e] using Next.unlock _ _, fun u hu => setTh_ne _ _ hu⟩

/-- One of the first `n` programs takes a step. -/
def NextN (n : Nat) (g f : Nat → Prog α) : Prop := ∃ t, t < n ∧ Next (g t) (f t) ∧ ∀ u, u ≠ t → g u = f u

theorem NextN.wf (n : Nat) : WellFounded (NextN (α := α) n) := by
  induction n with
  | zero => exact ⟨fun f => ⟨_, fun g ⟨t, ht, _⟩ => absurd ht (by omega)⟩⟩
  | succ n ih =>
    refine Subrelation.wf ?_ (InvImage.wf
      (fun f : Nat → Prog α => ((fun u => if u < n then f u else .died .index : Nat → Prog α), f n))
      (ih.prod_gameAdd Next.wf))
    rintro g f ⟨t, ht, h1, h2⟩
    simp only [InvImage, Prod.gameAdd_mk_iff]
    by_cases htn : t = n
    · subst htn
      refine .inr ⟨h1, ?_⟩
      funext u
      split
      · exact h2 u (by omega)
      · rfl
    · refine .inl ⟨⟨t, by omega, ?_, ?_⟩, h2 n (Ne.symm htn)⟩
      · simp only [show t < n from by omega, if_true]; exact h1
      · intro u hu
        dsimp only
        split
        · exact h2 u hu
        · rfl

theorem finished_step {s : Sys α} {t : Nat} (h : (s.th t).Finished) : s.step t = none := by
  unfold Sys.step
  cases e : s.th t <;> rw [e] at h <;> first | rfl | exact absurd h (by simp [Prog.Finished])

/-- A system of finitely many threads has no infinite schedule. -/
theorem no_infinite {n : Nat} {s : Sys α} (hn : ∀ t, n ≤ t → (s.th t).Finished) :
    ¬ ∃ (σ : Nat → Sys α) (sch : Nat → Nat), σ 0 = s ∧ ∀ i, (σ i).step (sch i) = some (σ (i + 1)) := by
  rintro ⟨σ, sch, h0, hstep⟩
  have hfin : ∀ i t, n ≤ t → ((σ i).th t).Finished := by
    intro i
    induction i with
    | zero => rw [h0]; exact hn
    | succ i ih =>
      intro t ht
      have hne : t ≠ sch i := by
        intro e
        have := finished_step (ih t ht)
        rw [e, hstep i] at this; cases this
      rw [(step_next (hstep i)).2 t hne]
      exact ih t ht
  have hdec : ∀ i, NextN n (σ (i + 1)).th (σ i).th := by
    intro i
    obtain ⟨h1, h2⟩ := step_next (hstep i)
    refine ⟨sch i, Nat.lt_of_not_le fun hle => ?_, h1, h2⟩
    have := finished_step (hfin i _ hle)
    rw [hstep i] at this; cases this
  have key : ∀ f : Nat → Prog α, ∀ i, (σ i).th ≠ f := by
    intro f
    induction f using (NextN.wf n).induction with
    | _ f ih =>
      rintro i rfl
      exact ih _ (hdec i) (i + 1) rfl
  exact key _ 0 rfl

/-- From any state some schedule runs until no thread can step. -/
theorem exists_stuck {n : Nat} {s : Sys α} (hn : ∀ t, n ≤ t → (s.th t).Finished) :
    ∃ s', Reach s s' ∧ ∀ t, s'.step t = none := by
  have key : ∀ (f : Nat → Prog α) (s : Sys α), s.th = f → (∀ t, n ≤ t → (s.th t).Finished) →
      ∃ s', Reach s s' ∧ ∀ t, s'.step t = none := by
    intro f
    induction f using (NextN.wf n).induction with
    | _ f ih =>
      rintro s rfl hs
      by_cases h : ∃ t s', s.step t = some s'
      · obtain ⟨t, s', h⟩ := h
        obtain ⟨h1, h2⟩ := step_next h
        have ht : t < n := Nat.lt_of_not_le fun hle => by
          rw [finished_step (hs t hle)] at h; cases h
        obtain ⟨s'', h3, h4⟩ := ih s'.th ⟨t, ht, h1, h2⟩ s' rfl
          (fun u hu => by rw [h2 u (by omega)]; exact hs u hu)
        exact ⟨s'', Reach.trans (.step t .refl h) h3, h4⟩
      · refine ⟨s, .refl, fun t => ?_⟩
        cases e : s.step t with
        | none => rfl
        | some s' => exact absurd ⟨t, s', e⟩ h
  exact key _ s rfl hn

end Sys
end
end PacketRs
