import Verif.Lemmas.Prog
import Verif.Spec.Mutex
import Verif.Samples
/-!
# C70: the bytes of a header are only ever touched under its mutex

Nothing is assumed of the threads: any accessors, any bit ranges (also invalid ones that panic), any contents, poisoned
or not.
-/
namespace PacketRs
open Spec
open Prog hiding bind

section
variable {α β : Type}

/-- Running `p` with the mutexes `h` held touches only those, and ends with `h'` held. -/
def Disc : List Nat → Prog α → List Nat → Prop
  | h, .ret _, h' => h = h'
  | _, .panic _, _ => True
  | h, .died _, _ => h = []
  | h, .lock r k, h' => h.length ≤ 1 ∧ Disc (r :: h) k h'
  | h, .load r k, h' => r ∈ h ∧ ∀ d, Disc h (k d) h'
  | h, .store r _ k, h' => r ∈ h ∧ Disc h k h'
  | h, .unlock r k, h' => r ∈ h ∧ Disc (h.erase r) k h'

theorem Disc.bind {h m h' : List Nat} {p : Prog α} {f : α → Prog β} (hp : Disc h p m) (hf : ∀ a, Disc m (f a) h') :
    Disc h (p.bind f) h' := by
  induction p generalizing h with
  | ret a => cases hp; exact hf a
  | panic e => trivial
  | died e => exact hp
  | lock r k ih => exact ⟨hp.1, ih hp.2⟩
  | load r k ih => exact ⟨hp.1, fun d => ih d (hp.2 d)⟩
  | store r b k ih => exact ⟨hp.1, ih hp.2⟩
  | unlock r k ih => exact ⟨hp.1, ih hp.2⟩

theorem Disc.foldlM {γ : Type} {f : β → γ → Prog β} (hf : ∀ b c, Disc [] (f b c) []) (l : List γ) (b : β) :
    Disc [] (l.foldlM f b) [] := by
  induction l generalizing b with
  | nil => rfl
  | cons c l ih => rw [List.foldlM_cons]; exact (hf b c).bind fun b' => ih b'

theorem disc_ofR {γ : Type} (h : List Nat) (x : R γ) : Disc h (ofR x) h := by cases x <;> simp [ofR, Disc]

theorem disc_bitRangeStepP (r : Nat) (v : U64) (i : Nat) : Disc [] (bitRangeStepP r v i) [] := by
  unfold bitRangeStepP
  simp only [bind_def, pure_def, lockM, loadM, unlockM, bind_lock, bind_load, bind_ret]
  refine ⟨by simp, by simp, fun d => (disc_ofR [r] _).bind fun b => ?_⟩
  simp [Disc]

theorem disc_bitRangeP (chk : Bool) (r msb lsb : Nat) : Disc [] (bitRangeP chk r msb lsb) [] := by
  unfold bitRangeP
  exact Disc.bind (Disc.foldlM (disc_bitRangeStepP r) _ _) fun v => disc_ofR [] _

theorem disc_setBitStepP (r : Nat) (v : U64) (i : Nat) : Disc [] (setBitStepP r v i) [] := by
  unfold setBitStepP
  simp only [bind_def, pure_def, lockM, loadM, storeM, unlockM, bind_lock, bind_load, bind_store, bind_unlock, bind_ret]
  refine ⟨by simp, by simp, fun d => (disc_ofR [r] _).bind fun b => ?_⟩
  refine ⟨by simp, by simp, fun d => (disc_ofR [r] _).bind fun b => ?_⟩
  simp [Disc]

theorem disc_setBitRangeP (r msb lsb : Nat) (v : U64) : Disc [] (setBitRangeP r msb lsb v) [] := by
  unfold setBitRangeP
  exact Disc.bind (Disc.foldlM (disc_setBitStepP r) _ _) fun v => rfl

theorem disc_bytesP (chk : Bool) (r msb lsb : Nat) : Disc [] (bytesP chk r msb lsb) [] := by
  unfold bytesP
  refine Disc.bind (disc_ofR [] _) fun w => ?_
  split
  · trivial
  · refine Disc.foldlM (fun v i => ?_) _ _
    exact Disc.bind (disc_bitRangeP chk r _ _) fun x => by simp [pure_def, Disc]

theorem disc_setBytesP (chk : Bool) (r msb lsb : Nat) (v : Bytes) : Disc [] (setBytesP chk r msb lsb v) [] := by
  unfold setBytesP
  refine Disc.bind (disc_ofR [] _) fun w => ?_
  split
  · trivial
  · refine Disc.bind (Disc.foldlM (fun n i => ?_) _ _) fun _ => rfl
    exact Disc.bind (disc_ofR [] _) fun b => Disc.bind (disc_setBitRangeP r _ _ _) fun _ => rfl

theorem disc_toVecP (r : Nat) : Disc [] (toVecP r) [] := by
  simp [toVecP, bind_def, pure_def, lockM, loadM, unlockM, Disc]

theorem disc_replaceP (r o : Nat) : Disc [] (replaceP r o) [] := by
  simp [replaceP, bind_def, lockM, loadM, storeM, unlockM, Disc]

theorem disc_client (chk : Bool) : (c : Client α) → Disc [] (c.prog chk) []
  | .done _ => rfl
  | .get r f k => (disc_bitRangeP chk r f.hi f.lo).bind fun v => disc_client chk (k v)
  | .set r f v k => (disc_setBitRangeP r f.hi f.lo v).bind fun _ => disc_client chk k
  | .bytes r msb lsb k => (disc_bytesP chk r msb lsb).bind fun v => disc_client chk (k v)
  | .setBytes r msb lsb v k => (disc_setBytesP chk r msb lsb v).bind fun _ => disc_client chk k
  | .toVec r k => (disc_toVecP r).bind fun v => disc_client chk (k v)
  | .replace r o k => (disc_replaceP r o).bind fun _ => disc_client chk k

/-- The mutexes of thread `t` are `h`, and its program keeps to them. -/
structure Keeps (s : Sys α) (t : Nat) (h : List Nat) : Prop where
  nodup : h.Nodup
  own : ∀ r, (s.mem r).owner = some t ↔ r ∈ h
  two : h.length ≤ 2
  disc : Disc h (s.th t) []

theorem Keeps.other {s s' : Sys α} {u : Nat} {h : List Nat} (hk : Keeps s u h)
    (ho : ∀ r, (s'.mem r).owner = some u ↔ (s.mem r).owner = some u) (ht : s'.th u = s.th u) : Keeps s' u h :=
  ⟨hk.nodup, fun r => (ho r).trans (hk.own r), hk.two, ht ▸ hk.disc⟩

theorem owner_put (m : Store) (r : Nat) (c : Cell) (x : Nat) : (m.put r c x).owner = if x = r then c.owner else (m x).owner := by
  unfold Store.put; split <;> rfl

theorem keeps_step {s s' : Sys α} (hk : ∀ t, ∃ h, Keeps s t h) {t : Nat} (hs : s.step t = some s') :
    ∀ u, ∃ h, Keeps s' u h := by
  obtain ⟨h, hn, ho, h2, hd⟩ := hk t
  unfold Sys.step at hs
  generalize hp : s.th t = p at hs hd
  cases p with
  | ret a => simp at hs
  | died e => simp at hs
  | panic e =>
    simp only [Option.some.injEq] at hs
    subst hs
    intro u
    by_cases hu : u = t
    · subst hu
      refine ⟨[], List.nodup_nil, ?_, by simp, by simp [Sys.setTh, Disc]⟩
      intro r
      simp only [Store.unwind]
      split <;> simp_all
    · obtain ⟨h', hk'⟩ := hk u
      refine ⟨h', hk'.other ?_ (by simp [Sys.setTh, hu])⟩
      intro r
      simp only [Store.unwind]
      split
      · next e => simp [e, show ¬ t = u from fun q => hu q.symm]
      · rfl
  | lock r k =>
    simp only at hs
    split at hs
    · simp at hs
    · next hfree =>
      have hfree : (s.mem r).owner = none := Classical.byContradiction hfree
      split at hs
      · simp only [Option.some.injEq] at hs
        subst hs
        intro u
        by_cases hu : u = t
        · subst hu
          exact ⟨h, hn, ho, h2, by simp [Sys.setTh, Disc]⟩
        · obtain ⟨h', hk'⟩ := hk u
          exact ⟨h', hk'.other (fun _ => Iff.rfl) (by simp [Sys.setTh, hu])⟩
      · simp only [Option.some.injEq] at hs
        subst hs
        have hr : r ∉ h := fun hm => by simp [(ho r).2 hm] at hfree
        intro u
        by_cases hu : u = t
        · subst hu
          refine ⟨r :: h, List.nodup_cons.2 ⟨hr, hn⟩, ?_, by have := hd.1; simp; omega, by simpa [Sys.setTh] using hd.2⟩
          intro x
          rw [owner_put, List.mem_cons, ← ho x]
          split
          · next e => simp [e]
          · next e => simp [e]
        · obtain ⟨h', hk'⟩ := hk u
          refine ⟨h', hk'.other ?_ (by simp [Sys.setTh, hu])⟩
          intro x
          rw [owner_put]
          split
          · next e => subst e; simp [hfree, show ¬ t = u from fun q => hu q.symm]
          · rfl
  | load r k =>
    simp only [Option.some.injEq] at hs
    subst hs
    intro u
    by_cases hu : u = t
    · subst hu
      exact ⟨h, hn, ho, h2, by simpa [Sys.setTh] using hd.2 _⟩
    · obtain ⟨h', hk'⟩ := hk u
      exact ⟨h', hk'.other (fun _ => Iff.rfl) (by simp [Sys.setTh, hu])⟩
  | store r b k =>
    simp only [Option.some.injEq] at hs
    subst hs
    have hown : ∀ x, ((s.mem.put r { s.mem r with bytes := b }) x).owner = (s.mem x).owner := by
      intro x; rw [owner_put]; split
      · next e => rw [e]
      · rfl
    intro u
    by_cases hu : u = t
    · subst hu
      exact ⟨h, hn, fun x => by rw [hown, ho], h2, by simpa [Sys.setTh] using hd.2⟩
    · obtain ⟨h', hk'⟩ := hk u
      exact ⟨h', hk'.other (fun x => by rw [hown]) (by simp [Sys.setTh, hu])⟩
  | unlock r k =>
    simp only [Option.some.injEq] at hs
    subst hs
    have hr : (s.mem r).owner = some t := (ho r).2 hd.1
    intro u
    by_cases hu : u = t
    · subst hu
      refine ⟨h.erase r, hn.erase r, ?_, Nat.le_trans List.length_erase_le h2, by simpa [Sys.setTh] using hd.2⟩
      intro x
      rw [owner_put, hn.mem_erase_iff, ← ho x]
      split
      · next e => simp [e]
      · next e => simp [e]
    · obtain ⟨h', hk'⟩ := hk u
      refine ⟨h', hk'.other ?_ (by simp [Sys.setTh, hu])⟩
      intro x
      rw [owner_put]
      split
      · next e => subst e; simp [hr, show ¬ t = u from fun q => hu q.symm]
      · rfl

theorem keeps_reach {s s' : Sys α} (hk : ∀ t, ∃ h, Keeps s t h) (hr : Sys.Reach s s') : ∀ t, ∃ h, Keeps s' t h := by
  induction hr with
  | refl => exact hk
  | step t _ hs ih => exact keeps_step ih hs

theorem keeps_client (chk : Bool) (m : Store) (hf : ∀ r, (m r).owner = none) (cs : Nat → Client α) :
    ∀ t, ∃ h, Keeps (⟨m, fun t => (cs t).prog chk⟩ : Sys α) t h :=
  fun t => ⟨[], List.nodup_nil, fun r => by simp [hf r], by simp, disc_client chk (cs t)⟩

end

/-- **C70.** Threads calling any accessors of any headers, from any contents, poisoned or not, in any schedule: whoever is
about to read or write the bytes of a header, or to drop its guard, holds its mutex. -/
theorem C70_under_lock {α : Type} (chk : Bool) (m : Store) (hf : ∀ r, (m r).owner = none) (cs : Nat → Client α)
    (s : Sys α) (hs : Sys.Reach ⟨m, fun t => (cs t).prog chk⟩ s) (t r : Nat)
    (h : Touches (s.th t) r ∨ Drops (s.th t) r) : HoldsMutex s t r := by
  obtain ⟨l, hk⟩ := keeps_reach (keeps_client chk m hf cs) hs t
  refine (hk.own r).2 ?_
  have hd := hk.disc
  rcases h with (⟨k, e⟩ | ⟨b, k, e⟩) | ⟨k, e⟩ <;> (rw [e] at hd; exact hd.1)

/-- **C70, no data race.** Two threads are never both about to touch the bytes of one header. -/
theorem C70_no_data_race {α : Type} (chk : Bool) (m : Store) (hf : ∀ r, (m r).owner = none) (cs : Nat → Client α)
    (s : Sys α) (hs : Sys.Reach ⟨m, fun t => (cs t).prog chk⟩ s) (t u r : Nat)
    (ht : Touches (s.th t) r) (hu : Touches (s.th u) r) : t = u := by
  have h1 := C70_under_lock chk m hf cs s hs t r (.inl ht)
  have h2 := C70_under_lock chk m hf cs s hs u r (.inl hu)
  simpa [HoldsMutex] using h1.symm.trans h2

/-- **C70, no guard is kept.** A thread that has returned or died holds no mutex; no thread ever holds more than two. -/
theorem C70_guards {α : Type} (chk : Bool) (m : Store) (hf : ∀ r, (m r).owner = none) (cs : Nat → Client α)
    (s : Sys α) (hs : Sys.Reach ⟨m, fun t => (cs t).prog chk⟩ s) (t : Nat) :
    ((s.th t).Finished → ∀ r, ¬ HoldsMutex s t r) ∧
    (∀ a b c, HoldsMutex s t a → HoldsMutex s t b → HoldsMutex s t c → a = b ∨ b = c ∨ a = c) := by
  obtain ⟨l, hn, ho, h2, hd⟩ := keeps_reach (keeps_client chk m hf cs) hs t
  constructor
  · intro hfin r hr
    have hm : r ∈ l := (ho r).1 hr
    generalize s.th t = p at hd hfin
    cases p with
    | ret a => cases hd; simp at hm
    | died e => cases hd; simp at hm
    | _ => exact hfin
  · intro a b c ha hb hc
    have ha := (ho a).1 ha
    have hb := (ho b).1 hb
    have hc := (ho c).1 hc
    match l, h2 with
    | [], _ => simp at ha
    | [x], _ => simp at ha hb; left; rw [ha, hb]
    | [x, y], _ =>
      simp only [List.mem_cons, List.not_mem_nil, or_false] at ha hb hc
      rcases ha with rfl | rfl <;> rcases hb with rfl | rfl <;> rcases hc with rfl | rfl <;> simp

/-- Two threads set the etype of one Ethernet header; thread 0 has taken the mutex. -/
def mutexCase : Sys Unit :=
  let s : Sys Unit := ⟨fun _ => ⟨Ether.dflt, false, none⟩, fun t => (if t < 2 then .set 0 Ether.etype 0x86dd#64 (.done ()) else .done () : Client Unit).prog false⟩
  (s.step 0).getD s

example : Touches (mutexCase.th 0) 0 ∧ HoldsMutex mutexCase 0 0 ∧ mutexCase.step 1 = none :=
  ⟨.inl ⟨_, rfl⟩, rfl, rfl⟩

/-- A thread that reads without taking the mutex (no accessor does) is about to touch bytes it does not hold. -/
example : let s : Sys Bytes := ⟨fun _ => ⟨Ether.dflt, false, none⟩, fun _ => .load 0 .ret⟩
    Touches (s.th 0) 0 ∧ Touches (s.th 1) 0 ∧ ¬ HoldsMutex s 0 0 :=
  ⟨.inl ⟨_, rfl⟩, .inl ⟨_, rfl⟩, by simp [HoldsMutex]⟩

/-- `replace` in progress holds two mutexes. -/
example : let s0 : Sys Unit := ⟨fun _ => ⟨Ether.dflt, false, none⟩, fun _ => (.replace 3 5 (.done ()) : Client Unit).prog false⟩
    ∀ s1 s2 s3, s0.step 0 = some s1 → s1.step 0 = some s2 → s2.step 0 = some s3 → HoldsMutex s3 0 3 ∧ HoldsMutex s3 0 5 := by
  intro s0 s1 s2 s3 h1 h2 h3
  cases h1; cases h2; cases h3
  exact ⟨rfl, rfl⟩

end PacketRs
