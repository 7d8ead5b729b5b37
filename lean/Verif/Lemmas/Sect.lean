import Verif.Conc
import Verif.Lemmas.Prog
/-!
# Critical sections

Every accessor except `replace` is a sequence of critical sections, each on one mutex.  For threads
made of such programs a schedule of single steps can be replaced by a schedule of whole sections.
-/
namespace PacketRs
open Spec
open Prog hiding bind

section
variable {α β : Type}

/-- Run a critical section on `r` from contents `d` up to the unlock or panic: what the thread does
next, the contents, and whether the mutex is poisoned. -/
def finish (r : Nat) : Prog α → Bytes → Option (Prog α × Bytes × Bool)
  | .load r' k, d => if r' = r then finish r (k d) d else none
  | .store r' b k, _ => if r' = r then finish r k b else none
  | .unlock r' k, d => if r' = r then some (k, d, false) else none
  | .panic f, d => some (.died f, d, true)
  | .ret _, _ => none
  | .died _, _ => none
  | .lock _ _, _ => none

/-- A sequence of critical sections on mutexes in `S`. -/
inductive Acc (S : Nat → Prop) : Prog α → Prop where
  | ret (a : α) : Acc S (.ret a)
  | panic (f : Fault) : Acc S (.panic f)
  | died (f : Fault) : Acc S (.died f)
  | sect {r : Nat} {k : Prog α} (hr : S r) (k' : Bytes → Prog α) (d' : Bytes → Bytes) (b : Bytes → Bool)
      (h : ∀ d, finish r k d = some (k' d, d' d, b d)) (hb : ∀ d, b d = true → ∃ f, k' d = .died f)
      (hk : ∀ d, Acc S (k' d)) : Acc S (.lock r k)

theorem finish_bind {r : Nat} {k : Prog α} {d d' : Bytes} {k' : Prog α} {b : Bool} (f : α → Prog β)
    (h : finish r k d = some (k', d', b)) : finish r (k.bind f) d = some (k'.bind f, d', b) := by
  induction k generalizing d with
  | ret a => simp [finish] at h
  | panic e => simp [finish] at h; obtain ⟨rfl, rfl, rfl⟩ := h; rfl
  | died e => simp [finish] at h
  | lock r' k ih => simp [finish] at h
  | load r' k ih =>
    simp only [finish, bind_load] at h ⊢
    split at h
    · rw [if_pos ‹_›]; exact ih _ h
    · simp at h
  | store r' b' k ih =>
    simp only [finish, bind_store] at h ⊢
    split at h
    · rw [if_pos ‹_›]; exact ih h
    · simp at h
  | unlock r' k ih =>
    simp only [finish, bind_unlock] at h ⊢
    split at h
    · rw [if_pos ‹_›]; simp at h; obtain ⟨rfl, rfl, rfl⟩ := h; rfl
    · simp at h

theorem Acc.bind {S : Nat → Prop} {p : Prog α} {f : α → Prog β} (hp : Acc S p) (hf : ∀ a, Acc S (f a)) :
    Acc S (p.bind f) := by
  induction hp with
  | ret a => exact hf a
  | panic e => exact .panic e
  | died e => exact .died e
  | sect hr k' d' b h hb hk ih =>
    refine .sect hr (fun d => (k' d).bind f) d' b (fun d => finish_bind f (h d)) ?_ ih
    intro d hd
    obtain ⟨e, he⟩ := hb d hd
    exact ⟨e, by simp [he, Prog.bind]⟩

theorem Acc.mono {S S' : Nat → Prop} (hS : ∀ r, S r → S' r) {p : Prog α} (hp : Acc S p) : Acc S' p := by
  induction hp with
  | ret a => exact .ret a
  | panic e => exact .panic e
  | died e => exact .died e
  | sect hr k' d' b h hb hk ih => exact .sect (hS _ hr) k' d' b h hb ih

theorem Acc.foldlM {S : Nat → Prop} {γ : Type} {f : β → γ → Prog β} (hf : ∀ b c, Acc S (f b c)) (l : List γ) (b : β) :
    Acc S (l.foldlM f b) := by
  induction l generalizing b with
  | nil => exact .ret b
  | cons c l ih => rw [List.foldlM_cons]; exact (hf b c).bind (fun b' => ih b')

theorem Acc.ofR {S : Nat → Prop} (x : R α) : Acc S (ofR x) := by
  cases x with
  | ok a => exact .ret a
  | error e => exact .panic e

/-- Outcome of a section that computes `x`, continues with `g` after storing `y`, and panics with
unchanged contents `d` when `x` fails. -/
def sectRes {γ : Type} (x : R γ) (g : γ → Prog β) (y : γ → Bytes) (d : Bytes) : Prog β × Bytes × Bool :=
  match x with
  | .ok v => (g v, y v, false)
  | .error e => (.died e, d, true)

/-- `bitRangeStepP` followed by `f` is one section. -/
theorem bitRangeStepP_sect (r : Nat) (v : U64) (i : Nat) (f : U64 → Prog β) :
    ∃ k, (bitRangeStepP r v i).bind f = .lock r k ∧
      ∀ d, finish r k d = some (sectRes (bitRangeStep d v i) f (fun _ => d) d) := by
  refine ⟨_, rfl, ?_⟩
  intro d
  simp only [loadM, unlockM, bind_ret, bind_def, bind_load, pure_def, finish, if_true]
  unfold bitRangeStep sectRes
  cases e : index d (i / 8) with
  | error e => simp [ofR, finish, bind, Except.bind]
  | ok b => simp [ofR, finish, bind, Except.bind, pure, Except.pure]

/-- `setBitStepP` followed by `f` is one section. -/
theorem setBitStepP_sect (r : Nat) (v : U64) (i : Nat) (f : U64 → Prog β) :
    ∃ k, (setBitStepP r v i).bind f = .lock r k ∧
      ∀ d, finish r k d = some (sectRes (setBitStep (d, v) i) (fun x => f x.2) Prod.fst d) := by
  refine ⟨_, rfl, ?_⟩
  intro d
  simp only [loadM, unlockM, storeM, bind_ret, bind_def, bind_load, bind_store, pure_def, finish, if_true]
  unfold setBitStep sectRes
  cases e : index d (i / 8) with
  | error e' => simp [ofR, finish, bind, Except.bind, e]
  | ok b =>
    have hlt : i / 8 < d.length := by
      refine Nat.lt_of_not_le fun hn => ?_
      rw [index_err _ _ hn] at e; cases e
    have e2 := index_ok (d.set (i / 8) (b &&& ~~~(1#8 <<< (8 - i % 8 - 1)))) (i / 8) (by simpa using hlt)
    simp only [e, e2, ofR, finish, bind_ret, bind_unlock, bind_store, bind_load, bind, Except.bind, pure, Except.pure, if_true]

theorem acc_of_sect {S : Nat → Prop} {r : Nat} {p : Prog β} (hr : S r) {γ : Type} (x : Bytes → R γ) (g : γ → Prog β)
    (y : Bytes → γ → Bytes)
    (h : ∃ k, p = .lock r k ∧ ∀ d, finish r k d = some (sectRes (x d) g (y d) d))
    (hg : ∀ v, Acc S (g v)) : Acc S p := by
  obtain ⟨k, rfl, hk⟩ := h
  refine .sect hr (fun d => (sectRes (x d) g (y d) d).1) (fun d => (sectRes (x d) g (y d) d).2.1)
    (fun d => (sectRes (x d) g (y d) d).2.2) hk ?_ ?_
  · intro d; cases x d with
    | ok v => simp [sectRes]
    | error e => exact fun _ => ⟨e, rfl⟩
  · intro d; cases x d with
    | ok v => exact hg v
    | error e => exact .died e

theorem acc_bitRangeStepP {S : Nat → Prop} {r : Nat} (hr : S r) (v : U64) (i : Nat) : Acc S (bitRangeStepP r v i) := by
  have := bitRangeStepP_sect r v i (fun v => Prog.ret v)
  rw [bind_ret_right] at this
  exact acc_of_sect hr (fun d => bitRangeStep d v i) (fun v => Prog.ret v) (fun d _ => d) this (fun v => .ret v)

theorem acc_setBitStepP {S : Nat → Prop} {r : Nat} (hr : S r) (v : U64) (i : Nat) : Acc S (setBitStepP r v i) := by
  have := setBitStepP_sect r v i (fun v => Prog.ret v)
  rw [bind_ret_right] at this
  exact acc_of_sect hr (fun d => setBitStep (d, v) i) (fun x => Prog.ret x.2) (fun _ x => x.1) this (fun v => .ret _)

theorem acc_bitRangeP {S : Nat → Prop} {r : Nat} (hr : S r) (chk : Bool) (msb lsb : Nat) :
    Acc S (bitRangeP chk r msb lsb) :=
  (Acc.foldlM (fun v i => acc_bitRangeStepP hr v i) _ _).bind fun _ => Acc.ofR _

theorem acc_setBitRangeP {S : Nat → Prop} {r : Nat} (hr : S r) (msb lsb : Nat) (v : U64) :
    Acc S (setBitRangeP r msb lsb v) :=
  (Acc.foldlM (fun v i => acc_setBitStepP hr v i) _ _).bind fun _ => .ret ()

theorem acc_toVecP {S : Nat → Prop} {r : Nat} (hr : S r) : Acc S (toVecP r) := by
  refine .sect hr (fun d => .ret d) (fun d => d) (fun _ => false) ?_ ?_ ?_
  · intro d; simp [loadM, unlockM, bind_def, pure_def, finish]
  · intro d h; cases h
  · intro d; exact .ret d

theorem acc_bytesP {S : Nat → Prop} {r : Nat} (hr : S r) (chk : Bool) (msb lsb : Nat) : Acc S (bytesP chk r msb lsb) := by
  rw [bytesP_split]
  refine (Acc.ofR _).bind fun w => ?_
  split
  · exact .panic _
  · exact Acc.foldlM (fun b i => (acc_bitRangeP hr _ _ _).bind fun v => .ret _) _ _

theorem acc_setBytesP {S : Nat → Prop} {r : Nat} (hr : S r) (chk : Bool) (msb lsb : Nat) (v : Bytes) :
    Acc S (setBytesP chk r msb lsb v) := by
  rw [setBytesP_split]
  refine (Acc.ofR _).bind fun w => ?_
  split
  · exact .panic _
  · refine (Acc.foldlM (fun n i => ?_) _ _).bind fun v => .ret _
    exact (Acc.ofR _).bind fun b => (acc_setBitRangeP hr _ _ _).bind fun _ => .ret _

/-! ## Running sections without interference -/

/-- No mutex is held. -/
def AllFree (s : Store) : Prop := ∀ x, (s x).owner = none

theorem AllFree.idle {s : Store} (h : AllFree s) (t : Nat) : Idle t s := by intro x; rw [h x]; simp

theorem run_finish {t : Nat} {s : Store} (hs : AllFree s) {r : Nat} {k k' : Prog α} {d d' : Bytes} {b : Bool}
    (h : finish r k d = some (k', d', b)) :
    run t k (s.put r ⟨d, false, some t⟩) = run t k' (s.put r ⟨d', b, none⟩) := by
  induction k generalizing d with
  | ret a => simp [finish] at h
  | panic e =>
    simp [finish] at h; obtain ⟨rfl, rfl, rfl⟩ := h
    simp only [run, unwind_put (hs.idle t)]
  | died e => simp [finish] at h
  | lock r' k ih => simp [finish] at h
  | load r' k ih =>
    simp only [finish] at h
    split at h
    · next e => subst e; simp only [run, put_same]; exact ih _ h
    · simp at h
  | store r' b' k ih =>
    simp only [finish] at h
    split at h
    · next e => subst e; simp only [run, put_same, put_put]; exact ih h
    · simp at h
  | unlock r' k ih =>
    simp only [finish] at h
    split at h
    · next e => subst e; simp at h; obtain ⟨rfl, rfl, rfl⟩ := h; simp [run]
    · simp at h

theorem run_sect {t : Nat} {s : Store} (hs : AllFree s) {r : Nat} {k k' : Prog α} {d' : Bytes} {b : Bool}
    (hp : (s r).poisoned = false) (h : finish r k (s r).bytes = some (k', d', b)) :
    run t (.lock r k) s = run t k' (s.put r ⟨d', b, none⟩) := by
  rw [run_lock_clean _ ⟨hs r, hp⟩, run_finish hs h]

theorem run_lock_poisoned {t : Nat} {s : Store} (hs : AllFree s) {r : Nat} (k : Prog α) (hp : (s r).poisoned = true) :
    run t (.lock r k) s = (.error .poisoned, s) := by
  simp only [run]
  rw [if_neg (by simp [hs r]), if_pos hp, unwind_idle (hs.idle t)]

theorem AllFree.put {s : Store} (h : AllFree s) {r : Nat} {c : Cell} (hc : c.owner = none) : AllFree (s.put r c) := by
  intro x
  by_cases hx : x = r
  · subst hx; simpa using hc
  · rw [put_ne _ _ hx]; exact h x

/-- What a sequence of sections on `S` leaves behind: mutexes are free again, storage outside `S` and
poisoned storage is unchanged; it does not hang. -/
theorem Acc.run {S : Nat → Prop} {p : Prog α} (hp : Acc S p) (t : Nat) {s : Store} (hs : AllFree s) :
    AllFree (run t p s).2 ∧ (∀ x, ¬ S x → (PacketRs.run t p s).2 x = s x) ∧
      (∀ x, (s x).poisoned = true → (PacketRs.run t p s).2 x = s x) := by
  induction hp generalizing s with
  | ret a => exact ⟨hs, fun _ _ => rfl, fun _ _ => rfl⟩
  | panic e =>
    have : PacketRs.run t (Prog.panic e : Prog α) s = (.error e, s) := by simp only [PacketRs.run, unwind_idle (hs.idle t)]
    rw [this]; exact ⟨hs, fun _ _ => rfl, fun _ _ => rfl⟩
  | died e => exact ⟨hs, fun _ _ => rfl, fun _ _ => rfl⟩
  | @sect r k hr k' d' b h hb hk ih =>
    cases hpo : (s r).poisoned with
    | true => rw [run_lock_poisoned hs k hpo]; exact ⟨hs, fun _ _ => rfl, fun _ _ => rfl⟩
    | false =>
      rw [run_sect hs hpo (h _)]
      obtain ⟨h1, h2, h3⟩ := ih (s r).bytes (s := s.put r ⟨d' (s r).bytes, b (s r).bytes, none⟩) (hs.put rfl)
      have hx : ∀ x, x ≠ r → (s.put r ⟨d' (s r).bytes, b (s r).bytes, none⟩) x = s x := fun x hx => put_ne _ _ hx
      refine ⟨h1, ?_, ?_⟩
      · intro x hxS
        have : x ≠ r := fun e => hxS (e ▸ hr)
        rw [h2 x hxS, hx x this]
      · intro x hxp
        have : x ≠ r := fun e => by rw [e, hpo] at hxp; cases hxp
        rw [h3 x (by rw [hx x this]; exact hxp), hx x this]

/-- The result and what is written depend only on the storage in `S`. -/
theorem Acc.run_congr {S : Nat → Prop} {p : Prog α} (hp : Acc S p) (t : Nat) {s s' : Store} (hs : AllFree s)
    (hs' : AllFree s') (he : ∀ x, S x → s x = s' x) :
    (PacketRs.run t p s).1 = (PacketRs.run t p s').1 ∧
      ∀ x, S x → (PacketRs.run t p s).2 x = (PacketRs.run t p s').2 x := by
  induction hp generalizing s s' with
  | ret a => exact ⟨rfl, he⟩
  | panic e => simp only [PacketRs.run, unwind_idle (hs.idle t), unwind_idle (hs'.idle t)]; exact ⟨by trivial, he⟩
  | died e => exact ⟨rfl, he⟩
  | @sect r k hr k' d' b h hb hk ih =>
    have er := he r hr
    cases hpo : (s r).poisoned with
    | true =>
      rw [run_lock_poisoned hs k hpo, run_lock_poisoned hs' k (by rw [← er]; exact hpo)]
      exact ⟨rfl, he⟩
    | false =>
      rw [run_sect hs hpo (h _), run_sect hs' (by rw [← er]; exact hpo) (h _), ← er]
      refine ih (s r).bytes (hs.put rfl) (hs'.put rfl) ?_
      intro x hx
      simp only [Store.put]
      split
      · rfl
      · exact he x hx

end
end PacketRs
