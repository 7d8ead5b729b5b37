import Verif.Spec.Apart
import Verif.Props.Taint
/-!
# C118: threads that share no header have nothing to do with each other

Nothing is assumed of the calls: panics, poisoning and deadlocks included.
-/
namespace PacketRs
open Spec
open Prog hiding bind

section
variable {α : Type}

/-- The program touches only headers in `S`. -/
def Only (S : Nat → Bool) : Prog α → Prop
  | .ret _ => True
  | .panic _ => True
  | .died _ => True
  | .lock r k => S r = true ∧ Only S k
  | .load r k => S r = true ∧ ∀ d, Only S (k d)
  | .store r _ k => S r = true ∧ Only S k
  | .unlock r k => S r = true ∧ Only S k

theorem only_of_sh {T Rp : Nat → Nat → Prop} {U P : Nat → Prop} {S : Nat → Bool} (hu : ∀ r, U r → S r = true) {pos : Pos} {p : Prog α}
    (h : Sh T Rp U P pos p) : (∀ x ∈ pos.held, S x = true) → Only S p := by
  induction h with
  | ret => intro _; trivial
  | panic => intro _; trivial
  | died => intro _; trivial
  | lock h _ ih => intro _; exact ⟨hu _ h, ih (by simpa [Pos.held] using hu _ h)⟩
  | load _ ih => intro hp; exact ⟨hp _ (by simp [Pos.held]), fun d => ih d hp⟩
  | clear _ _ ih => intro hp; exact ⟨hp _ (by simp [Pos.held]), ih hp⟩
  | lock2 _ h _ ih =>
    intro hp
    refine ⟨hu _ h, ih fun x hx => ?_⟩
    simp only [Pos.held, List.mem_cons, List.not_mem_nil, or_false] at hx
    rcases hx with rfl | rfl
    · exact hu _ h
    · exact hp _ (by simp [Pos.held])
  | fail => intro _; trivial
  | write _ _ ih => intro hp; exact ⟨hp _ (by simp [Pos.held]), ih hp⟩
  | drop _ ih => intro hp; exact ⟨hp _ (by simp [Pos.held]), ih (by simp [Pos.held])⟩
  | drop' _ ih => intro hp; exact ⟨hp _ (by simp [Pos.held]), ih (by simp [Pos.held])⟩
  | loadS _ ih => intro hp; exact ⟨hp _ (by simp [Pos.held]), fun d => ih d hp⟩
  | loadT _ ih => intro hp; exact ⟨hp _ (by simp [Pos.held]), fun d => ih d hp⟩
  | fill _ _ ih => intro hp; exact ⟨hp _ (by simp [Pos.held]), ih hp⟩
  | dropS _ ih => intro hp; exact ⟨hp _ (by simp [Pos.held]), ih fun x hx => hp x (by simp_all [Pos.held])⟩
  | hit => intro _; trivial
  | hit2 => intro _; trivial
  | dead => intro _; trivial

theorem only_client (chk : Bool) {S : Nat → Bool} (c : Client α) (h : ∀ r, MayUse c r → S r = true) : Only S (c.prog chk) :=
  only_of_sh (P := fun _ => False) h (sh_client chk c (fun _ _ h => h) (fun _ _ h => h) fun _ h => h) (by simp [Pos.held])

/-- What a step of thread `t` at `p` does to the store and the program. -/
def act (t : Nat) (p : Prog α) (m : Store) : Option (Store × Prog α) :=
  match p with
  | .ret _ => none
  | .died _ => none
  | .panic f => some (m.unwind t, .died f)
  | .lock r k =>
    if (m r).owner ≠ none then none
    else if (m r).poisoned then some (m, .panic .poisoned)
    else some (m.put r { m r with owner := some t }, k)
  | .load r k => some (m, k (m r).bytes)
  | .store r b k => some (m.put r { m r with bytes := b }, k)
  | .unlock r k => some (m.put r { m r with owner := none }, k)

theorem step_act (s : Sys α) (t : Nat) : s.step t = (act t (s.th t) s.mem).map fun x => ⟨x.1, s.setTh t x.2⟩ := by
  unfold Sys.step act
  cases s.th t <;> simp only [Option.map_some, Option.map_none]
  split
  · rfl
  · split <;> rfl

/-- A step depends only on, and changes only, the headers in `S`. -/
theorem act_local {S : Nat → Bool} {t : Nat} {p p' : Prog α} {m m1 m' : Store} (hp : Only S p) (ho : ∀ r, (m r).owner = some t → S r = true)
    (ho1 : ∀ r, (m1 r).owner = some t → S r = true) (ha : ∀ r, S r = true → m1 r = m r) (h : act t p m = some (m', p')) :
    ∃ m1', act t p m1 = some (m1', p') ∧ (∀ r, S r = true → m1' r = m' r) ∧ (∀ r, S r = false → m1' r = m1 r ∧ m' r = m r) ∧ Only S p' ∧
      (∀ r u, (m' r).owner = some u → (m r).owner = some u ∨ (u = t ∧ S r = true)) := by
  have off : ∀ {x : Nat} {c c1 : Cell}, S x = true → ∀ r, S r = false → m1.put x c1 r = m1 r ∧ m.put x c r = m r := by
    intro x c c1 hx r hr
    have : r ≠ x := fun e => by rw [e, hx] at hr; cases hr
    exact ⟨put_ne _ _ this, put_ne _ _ this⟩
  have on : ∀ {x : Nat} {c : Cell}, ∀ r, S r = true → m1.put x c r = m.put x c r := by
    intro x c r hr
    simp only [Store.put]
    split
    · rfl
    · exact ha r hr
  cases p with
  | ret a => cases h
  | died f => cases h
  | panic f =>
    cases h
    refine ⟨m1.unwind t, rfl, fun r hr => by simp only [Store.unwind, ha r hr], fun r hr => ?_, trivial, fun r u hu => ?_⟩
    · have h1 : (m r).owner ≠ some t := fun e => by rw [ho r e] at hr; cases hr
      have h2 : (m1 r).owner ≠ some t := fun e => by rw [ho1 r e] at hr; cases hr
      simp [Store.unwind, h1, h2]
    · simp only [Store.unwind] at hu
      split at hu
      · cases hu
      · exact .inl hu
  | lock x k =>
    obtain ⟨hx, hk⟩ := hp
    simp only [act] at h ⊢
    rw [ha x hx]
    split at h
    · cases h
    · next hfree =>
      rw [if_neg hfree]
      split at h
      · next hpo =>
        cases h
        rw [if_pos hpo]
        exact ⟨m1, rfl, ha, fun _ _ => ⟨rfl, rfl⟩, trivial, fun _ _ => .inl⟩
      · next hpo =>
        cases h
        rw [if_neg hpo]
        refine ⟨_, rfl, on, off hx, hk, fun r u hu => ?_⟩
        simp only [Store.put] at hu
        split at hu
        · next e => exact .inr ⟨by simpa using hu.symm, e ▸ hx⟩
        · exact .inl hu
  | load x k =>
    obtain ⟨hx, hk⟩ := hp
    cases h
    exact ⟨m1, by simp only [act, ha x hx], ha, fun _ _ => ⟨rfl, rfl⟩, hk _, fun _ _ => .inl⟩
  | store x b k =>
    obtain ⟨hx, hk⟩ := hp
    cases h
    refine ⟨_, by simp only [act, ha x hx], on, off hx, hk, fun r u hu => ?_⟩
    simp only [Store.put] at hu
    split at hu
    · next e => subst e; exact .inl hu
    · exact .inl hu
  | unlock x k =>
    obtain ⟨hx, hk⟩ := hp
    cases h
    refine ⟨_, by simp only [act, ha x hx], on, off hx, hk, fun r u hu => ?_⟩
    simp only [Store.put] at hu
    split at hu
    · cases hu
    · exact .inl hu

/-- Every thread keeps to the headers of its group. -/
structure Sides (A G : Nat → Bool) (s : Sys α) : Prop where
  only : ∀ t, Only (fun r => G r == A t) (s.th t)
  own : ∀ t r, (s.mem r).owner = some t → (G r == A t) = true

theorem Sides.step {A G : Nat → Bool} {s s' : Sys α} (h : Sides A G s) {t : Nat} (hs : s.step t = some s') : Sides A G s' := by
  rw [step_act, Option.map_eq_some_iff] at hs
  obtain ⟨⟨m', p'⟩, h1, rfl⟩ := hs
  obtain ⟨-, -, -, -, h4, h5⟩ := act_local (h.only t) (h.own t) (h.own t) (fun _ _ => rfl) h1
  refine ⟨fun u => ?_, fun u r hu => ?_⟩
  · by_cases e : u = t
    · subst e; simpa [Sys.setTh] using h4
    · simpa [Sys.setTh_ne _ _ e] using h.only u
  · rcases h5 r u hu with a | ⟨rfl, a⟩
    · exact h.own u r a
    · exact a

theorem Sides.reach {A G : Nat → Bool} {s s' : Sys α} (h : Sides A G s) (hr : Sys.Reach s s') : Sides A G s' := by
  induction hr with
  | refl => exact h
  | step t _ hs ih => exact ih.step hs

theorem sides_start (chk : Bool) {A G : Nat → Bool} {m : Store} (hf : ∀ r, (m r).owner = none) {cs : Nat → Client α}
    (hn : NothingShared A G cs) : Sides A G ⟨m, fun t => (cs t).prog chk⟩ :=
  ⟨fun t => only_client chk (cs t) fun r h => by simp [hn t r h], fun t r h => by simp [hf r] at h⟩

/-- Two systems agree on the threads with `A t = b` and the headers with `G r = b`. -/
structure Same (A G : Nat → Bool) (b : Bool) (s s' : Sys α) : Prop where
  th : ∀ t, A t = b → s.th t = s'.th t
  mem : ∀ r, G r = b → s.mem r = s'.mem r

/-- What one of two systems that agree does, the other can do as well, changing nothing of the other group. -/
theorem Same.step {A G : Nat → Bool} {s s1 s' : Sys α} {t : Nat} (hs : Sides A G s) (hs1 : Sides A G s1) (h : Same A G (A t) s s1)
    (hstep : s.step t = some s') : ∃ s1', s1.step t = some s1' ∧ Same A G (A t) s' s1' ∧ Same A G (!A t) s s' ∧ Same A G (!A t) s1 s1' := by
  rw [step_act, Option.map_eq_some_iff] at hstep
  obtain ⟨⟨m', p'⟩, h1, rfl⟩ := hstep
  obtain ⟨m1', g1, g2, g3, -, -⟩ := act_local (m1 := s1.mem) (hs.only t) (hs.own t) (hs1.own t)
    (fun r hr => (h.mem r (by simpa using hr)).symm) h1
  refine ⟨⟨m1', s1.setTh t p'⟩, by rw [step_act, ← h.th t rfl, g1]; rfl, ⟨fun u hu => ?_, fun r hr => ?_⟩, ⟨fun u hu => ?_, fun r hr => ?_⟩,
    ⟨fun u hu => ?_, fun r hr => ?_⟩⟩
  · simp only [Sys.setTh]
    split
    · rfl
    · exact h.th u hu
  · exact (g2 r (by simp [hr])).symm
  · have : u ≠ t := fun e => by rw [e] at hu; cases h : A t <;> simp [h] at hu
    exact (Sys.setTh_ne _ _ this).symm
  · exact (g3 r (by cases h : A t <;> simp_all)).2.symm
  · have : u ≠ t := fun e => by rw [e] at hu; cases h : A t <;> simp [h] at hu
    exact (Sys.setTh_ne _ _ this).symm
  · exact (g3 r (by cases h : A t <;> simp_all)).1.symm

theorem Same.symm {A G : Nat → Bool} {b : Bool} {s s' : Sys α} (h : Same A G b s s') : Same A G b s' s :=
  ⟨fun t ht => (h.th t ht).symm, fun r hr => (h.mem r hr).symm⟩

theorem Same.trans {A G : Nat → Bool} {b : Bool} {s s' s'' : Sys α} (h : Same A G b s s') (h' : Same A G b s' s'') : Same A G b s s'' :=
  ⟨fun t ht => (h.th t ht).trans (h'.th t ht), fun r hr => (h.mem r hr).trans (h'.mem r hr)⟩

theorem Same.beside {A G : Nat → Bool} {s s1 s2 : Sys α} (h1 : Same A G true s s1) (h2 : Same A G false s s2) : s = beside A G s1 s2 := by
  obtain ⟨mem, th⟩ := s
  simp only [Spec.beside, Sys.mk.injEq]
  refine ⟨funext fun r => ?_, funext fun t => ?_⟩
  · cases e : G r
    · simpa [e] using h2.mem r e
    · simpa [e] using h1.mem r e
  · cases e : A t
    · simpa [e] using h2.th t e
    · simpa [e] using h1.th t e

/-- A thread that has returned stays so. -/
theorem ret_stays {s s' : Sys α} (hr : Sys.Reach s s') {t : Nat} {a : α} (h : s.th t = .ret a) : s'.th t = .ret a := by
  induction hr with
  | refl => exact h
  | @step s1 s2 u _ hs ih =>
    by_cases e : t = u
    · subst e; simp [Sys.step, ih] at hs
    · rw [step_act, Option.map_eq_some_iff] at hs
      obtain ⟨x, -, rfl⟩ := hs
      simp only [Sys.setTh_ne _ _ e]; exact ih

theorem shared_only {A G : Nat → Bool} {cs : Nat → Client α} (hn : NothingShared A G cs) (B : Nat → Bool) (a : α) :
    NothingShared A G (onlyThreads B a cs) := by
  intro t r h
  simp only [onlyThreads] at h
  split at h
  · exact hn t r h
  · exact h.elim

/-- One group goes on alone, and then can in the whole. -/
theorem follow {A G : Nat → Bool} (b : Bool) {s0 s1 s1' : Sys α} (hs : Sides A G s0) (hs1 : Sides A G s1) (h : Same A G b s0 s1)
    (hret : ∀ t, A t ≠ b → ∃ a, s1.th t = .ret a) (hr : Sys.Reach s1 s1') :
    ∃ s0', Sys.Reach s0 s0' ∧ Same A G b s0' s1' ∧ Same A G (!b) s0 s0' := by
  induction hr with
  | refl => exact ⟨s0, .refl, h, ⟨fun _ _ => rfl, fun _ _ => rfl⟩⟩
  | @step s2 s3 t hr' hst ih =>
    obtain ⟨s0', h1, h2, h3⟩ := ih
    by_cases e : A t = b
    · subst e
      obtain ⟨s4, g1, g2, -, g4⟩ := h2.symm.step (hs1.reach hr') (hs.reach h1) hst
      exact ⟨s4, .step t h1 g1, g2.symm, h3.trans g4⟩
    · obtain ⟨a, ha⟩ := hret t e
      simp [Sys.step, ret_stays hr' ha] at hst

/-- The parts of a reachable state. -/
theorem parts {A G : Nat → Bool} {s0 sA sB s : Sys α} (h0 : Sides A G s0) (hA : Sides A G sA) (hB : Sides A G sB) (h1 : Same A G true s0 sA)
    (h2 : Same A G false s0 sB) (hr : Sys.Reach s0 s) :
    ∃ sA' sB', Sys.Reach sA sA' ∧ Sys.Reach sB sB' ∧ Same A G true s sA' ∧ Same A G false s sB' := by
  induction hr with
  | refl => exact ⟨sA, sB, .refl, .refl, h1, h2⟩
  | @step s1 s2 t hr' hst ih =>
    obtain ⟨sA', sB', r1, r2, g1, g2⟩ := ih
    cases e : A t with
    | true =>
      obtain ⟨x, k1, k2, k3, -⟩ := (e ▸ g1 : Same A G (A t) s1 sA').step (h0.reach hr') (hA.reach r1) hst
      rw [e] at k2 k3
      exact ⟨x, sB', .step t r1 k1, r2, k2, k3.symm.trans g2⟩
    | false =>
      obtain ⟨x, k1, k2, k3, -⟩ := (e ▸ g2 : Same A G (A t) s1 sB').step (h0.reach hr') (hB.reach r2) hst
      rw [e] at k2 k3
      exact ⟨sA', x, r1, .step t r2 k1, k3.symm.trans g1, k2⟩

end

section
variable {α : Type} (chk : Bool) (m : Store) (hf : ∀ r, (m r).owner = none) (cs : Nat → Client α) (A G : Nat → Bool)
  (hn : NothingShared A G cs) (a : α)
include hf hn

/-- **C118**: if the threads in `A` use only headers in `G` and the others only others, then what can happen to all of them
is exactly what can happen to the ones alone, side by side with what can happen to the others alone. -/
theorem C118_independent (s : Sys α) :
    Sys.Reach ⟨m, fun t => (cs t).prog chk⟩ s ↔ ∃ s1 s2, Sys.Reach ⟨m, fun t => (onlyThreads A a cs t).prog chk⟩ s1 ∧
      Sys.Reach ⟨m, fun t => (onlyThreads (fun t => !A t) a cs t).prog chk⟩ s2 ∧ s = beside A G s1 s2 := by
  have h0 := sides_start chk hf hn
  have hA := sides_start chk hf (shared_only hn A a)
  have hB := sides_start chk hf (shared_only hn (fun t => !A t) a)
  have e1 : Same A G true (⟨m, fun t => (cs t).prog chk⟩ : Sys α) ⟨m, fun t => (onlyThreads A a cs t).prog chk⟩ :=
    ⟨fun t ht => by simp [onlyThreads, ht], fun _ _ => rfl⟩
  have e2 : Same A G false (⟨m, fun t => (cs t).prog chk⟩ : Sys α) ⟨m, fun t => (onlyThreads (fun t => !A t) a cs t).prog chk⟩ :=
    ⟨fun t ht => by simp [onlyThreads, ht], fun _ _ => rfl⟩
  constructor
  · intro hr
    obtain ⟨s1, s2, r1, r2, g1, g2⟩ := parts h0 hA hB e1 e2 hr
    exact ⟨s1, s2, r1, r2, g1.beside g2⟩
  · rintro ⟨s1, s2, r1, r2, rfl⟩
    obtain ⟨x, k1, k2, k3⟩ := follow true h0 hA e1 (fun t ht => ⟨a, by simp [onlyThreads, ht, Client.prog]⟩) r1
    obtain ⟨y, l1, l2, l3⟩ := follow false (h0.reach k1) hB (k3.symm.trans e2)
      (fun t ht => ⟨a, by simp [onlyThreads, show A t = true by simpa using ht, Client.prog]⟩) r2
    rw [← (l3.symm.trans k2).beside l2]
    exact k1.tail l1

/-- **C118** (no thread waits for another group): in such a state a thread can go on if and only if it can in the state of its
group alone. -/
theorem C118_waits (s1 s2 : Sys α) (h1 : Sys.Reach ⟨m, fun t => (onlyThreads A a cs t).prog chk⟩ s1)
    (h2 : Sys.Reach ⟨m, fun t => (onlyThreads (fun t => !A t) a cs t).prog chk⟩ s2) (t : Nat) (ht : A t = true) :
    (beside A G s1 s2).step t = none ↔ s1.step t = none := by
  have hr := (C118_independent chk m hf cs A G hn a _).2 ⟨s1, s2, h1, h2, rfl⟩
  have h0 := (sides_start chk hf hn).reach hr
  have hA := (sides_start chk hf (shared_only hn A a)).reach h1
  have e : Same A G true (beside A G s1 s2) s1 := ⟨fun t ht => by simp [beside, ht], fun r hr => by simp [beside, hr]⟩
  rw [← ht] at e
  constructor
  · intro h
    cases hs : s1.step t with
    | none => rfl
    | some x => obtain ⟨y, hy, -⟩ := e.symm.step hA h0 hs; rw [h] at hy; cases hy
  · intro h
    cases hs : (beside A G s1 s2).step t with
    | none => rfl
    | some x => obtain ⟨y, hy, -⟩ := e.step h0 hA hs; rw [h] at hy; cases hy

/-- **C118** (results): what a thread can return or die of, with what bytes in its headers, does not depend on the others. -/
theorem C118_results (t : Nat) (ht : A t = true) (p : Prog α) (M : Nat → Cell) :
    (∃ s, Sys.Reach ⟨m, fun t => (cs t).prog chk⟩ s ∧ s.th t = p ∧ ∀ r, G r = true → s.mem r = M r) ↔
      ∃ s, Sys.Reach ⟨m, fun t => (onlyThreads A a cs t).prog chk⟩ s ∧ s.th t = p ∧ ∀ r, G r = true → s.mem r = M r := by
  constructor
  · rintro ⟨s, hr, rfl, hM⟩
    obtain ⟨s1, s2, r1, r2, rfl⟩ := (C118_independent chk m hf cs A G hn a s).1 hr
    exact ⟨s1, r1, by simp [beside, ht], fun r hr => by rw [← hM r hr]; simp [beside, hr]⟩
  · rintro ⟨s, hr, rfl, hM⟩
    exact ⟨_, (C118_independent chk m hf cs A G hn a _).2 ⟨s, _, hr, .refl, rfl⟩, by simp [beside, ht],
      fun r hr => by rw [← hM r hr]; simp [beside, hr]⟩

end

/-- The three threads of the chain, and a fourth that sets the etype of header 3. -/
def apartClients (t : Nat) : Client Unit := if t = 3 then .set 3 Ether.etype 0x86dd#64 (.done ()) else chainClients 2 Ether.etype t

theorem apart_sample : NothingShared (fun t => t == 3) (fun r => r == 3) apartClients := by
  intro t r h
  unfold apartClients at h
  split at h
  · next e => simp [MayUse] at h; simp [e, h]
  · next e =>
    unfold chainClients at h
    split at h
    · simp [MayUse] at h
      have : r ≠ 3 := by omega
      show (r == 3) = (t == 3)
      rw [beq_eq_false_iff_ne.2 this, beq_eq_false_iff_ne.2 e]
    · split at h
      · simp [MayUse] at h; simp [h, e]
      · exact h.elim

/-- The chain can spoil headers 0 to 2 at any moment of the fourth thread's call. -/
example (s1 : Sys Unit) (h1 : Sys.Reach ⟨taintStore, fun t => (onlyThreads (fun t => t == 3) () apartClients t).prog false⟩ s1) :
    ∃ s, Sys.Reach ⟨taintStore, fun t => (apartClients t).prog false⟩ s ∧ s.th 3 = s1.th 3 ∧ s.mem 3 = s1.mem 3 := by
  exact ⟨_, (C118_independent false taintStore (fun _ => rfl) _ _ _ apart_sample () _).2 ⟨s1, _, h1, .refl, rfl⟩, rfl, rfl⟩

/-- The fourth thread waits before its call in no state of the others. -/
example (s2 : Sys Unit) (h2 : Sys.Reach ⟨taintStore, fun t => (onlyThreads (fun t => !(t == 3)) () apartClients t).prog false⟩ s2) :
    (beside (fun t => t == 3) (fun r => r == 3) ⟨taintStore, fun t => (onlyThreads (fun t => t == 3) () apartClients t).prog false⟩ s2).step 3 ≠ none := by
  rw [Ne, C118_waits false taintStore (fun _ => rfl) _ _ _ apart_sample () _ s2 .refl h2 3 rfl]
  exact nofun

/-- It dies of the index (header 3 is empty) with the chain if and only if it does so without. -/
example := C118_results false taintStore (fun _ => rfl) _ _ _ apart_sample () 3 rfl (.died .index) fun _ => ⟨[], true, none⟩

/-- **C118, the assumption is needed**: thread 0 of the chain, alone, never dies of poison; with thread 2, which makes no call on
a header thread 0 uses, and thread 1, it can. -/
theorem C118_shared :
    (∀ s, Sys.Reach ⟨taintStore, fun t => (onlyThreads (fun t => t == 0) () (chainClients 2 Ether.etype) t).prog false⟩ s →
      s.th 0 ≠ .died .poisoned) ∧
    ∃ s, Sys.Reach ⟨taintStore, fun t => (chainClients 2 Ether.etype t).prog false⟩ s ∧ s.th 0 = .died .poisoned := by
  refine ⟨fun s hs hd => ?_, ?_⟩
  · obtain ⟨o, -, h⟩ := C117_died false taintStore (fun _ => rfl) _ s hs 0 hd
    obtain ⟨t, x, -, -, j, hj, -⟩ := C117_origin false taintStore (fun _ => rfl) _ (fun _ => rfl) s hs o h
    unfold onlyThreads at hj
    split at hj
    · next e => obtain rfl : t = 0 := by simpa using e
                simp [chainClients, MayTouch] at hj
    · exact hj
  · obtain ⟨s, h, -, -, h', -⟩ := C117_chain false 2 Ether.etype (by decide) taintStore (fun _ => ⟨rfl, rfl⟩) (by decide)
    exact ⟨s, h, (h' 0 (by omega)).2⟩

end PacketRs
