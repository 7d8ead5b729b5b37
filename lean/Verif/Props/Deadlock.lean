import Verif.Lemmas.Race
import Verif.Spec.Deadlock
import Verif.Props.Conc
/-!
# C66: deadlock comes from a cycle of `replace` calls and from nothing else
-/
namespace PacketRs
open Spec
open Prog hiding bind

section
variable {α β : Type} {Rel : Nat → Nat → Prop}

/-- Sections and `replace` calls allowed by `Rel`. -/
inductive RTxn (Rel : Nat → Nat → Prop) : Prog α → Prop where
  | ret (a : α) : RTxn Rel (.ret a)
  | panic (f : Fault) : RTxn Rel (.panic f)
  | died (f : Fault) : RTxn Rel (.died f)
  | sect {r : Nat} {k : Prog α} (k' : Bytes → Prog α) (d' : Bytes → Bytes) (b : Bytes → Bool)
      (h : ∀ d, finish r k d = some (k' d, d' d, b d)) (hk : ∀ d, RTxn Rel (k' d)) : RTxn Rel (.lock r k)
  | repl (r o : Nat) {k : Prog α} (hr : Rel r o) (hk : RTxn Rel k) : RTxn Rel (.lock r (replRest r o k))

theorem Acc.bind_rtxn {S : Nat → Prop} {p : Prog β} {f : β → Prog α} (hp : Acc S p) (hf : ∀ a, RTxn Rel (f a)) :
    RTxn Rel (p.bind f) := by
  induction hp with
  | ret a => exact hf a
  | panic e => exact .panic e
  | died e => exact .died e
  | sect hr k' d' b h hb hk ih =>
    exact .sect (fun d => (k' d).bind f) d' b (fun d => finish_bind f (h d)) ih

theorem rtxn_client (chk : Bool) : (c : Client α) → Replaces Rel c → RTxn Rel (c.prog chk)
  | .done a, _ => .ret a
  | .get r f k, h => (acc_bitRangeP (S := fun _ => True) (r := r) trivial chk f.hi f.lo).bind_rtxn fun v => rtxn_client chk (k v) (h v)
  | .set r f v k, h => (acc_setBitRangeP (S := fun _ => True) (r := r) trivial f.hi f.lo v).bind_rtxn fun _ => rtxn_client chk k h
  | .bytes r msb lsb k, h => (acc_bytesP (S := fun _ => True) (r := r) trivial chk msb lsb).bind_rtxn fun v => rtxn_client chk (k v) (h v)
  | .setBytes r msb lsb v k, h =>
    (acc_setBytesP (S := fun _ => True) (r := r) trivial chk msb lsb v).bind_rtxn fun _ => rtxn_client chk k h
  | .toVec r k, h => (acc_toVecP (S := fun _ => True) (r := r) trivial).bind_rtxn fun v => rtxn_client chk (k v) (h v)
  | .replace r o k, h => .repl r o h.1 (rtxn_client chk k h.2)

theorem RTxn.of_repl {r o : Nat} {k : Prog α} (h : RTxn Rel (.lock r (replRest r o k))) : Rel r o ∧ RTxn Rel k := by
  generalize hg : (Prog.lock r (replRest r o k)) = g at h
  cases h with
  | ret => cases hg
  | panic => cases hg
  | died => cases hg
  | @sect r' k' _ _ _ hfin _ =>
    cases hg
    have := hfin []
    simp [replRest, replLock, finish] at this
  | @repl r' o' k' hr hk =>
    simp only [Prog.lock.injEq] at hg
    obtain ⟨rfl, hg⟩ := hg
    obtain ⟨rfl, rfl⟩ := replRest_inj hg
    exact ⟨hr, hk⟩

theorem RTxn.of_sect {r : Nat} {k k' : Prog α} {d d' : Bytes} {b : Bool} (h : RTxn Rel (.lock r k))
    (hf : finish r k d = some (k', d', b)) : RTxn Rel k' := by
  generalize hg : (Prog.lock r k) = g at h
  cases h with
  | ret => cases hg
  | panic => cases hg
  | died => cases hg
  | @sect r' _ k'' _ _ hfin hk =>
    cases hg
    have := hfin d
    rw [hf] at this
    cases this
    exact hk d
  | @repl r' o' _ hr hk =>
    cases hg
    simp [replRest, replLock, finish] at hf

theorem RTxn.treach {Rel : Nat → Nat → Nat → Prop} {s s' : Sys α} (h : ∀ t, RTxn (Rel t) (s.th t)) (hr : Sys.TReach s s') :
    ∀ t, RTxn (Rel t) (s'.th t) := by
  induction hr with
  | refl => exact h
  | @step s1 s2 t _ hs ih =>
    have key : ∀ (m : Store) (q : Prog α), RTxn (Rel t) q → ∀ u, RTxn (Rel u) ((⟨m, s1.setTh t q⟩ : Sys α).th u) := by
      intro m q hq u
      by_cases hu : u = t
      · subst hu; simpa using hq
      · simp only [Sys.setTh_ne _ _ hu]; exact ih u
    have ht := ih t
    cases hs with
    | panic e => exact key _ _ (.died _)
    | poisoned e e' => exact key _ _ (.panic _)
    | sect e e' e'' => rw [e] at ht; exact key _ _ (ht.of_sect e'')
    | repl e => rw [e] at ht; exact key _ _ ht.of_repl.2
    | replPoisoned e => exact key _ _ (.died _)

/-- What a thread that holds a mutex and cannot go on is doing. -/
theorem Sys.TSim.blocked {Rel : Nat → Nat → Prop} {c a : Sys α} (hsim : Sys.TSim c a) {t r : Nat} (ht : RTxn Rel (a.th t))
    (hst : c.step t = none) (ho : (c.mem r).owner = some t) : ∃ o, Rel r o ∧ Blocked c t r o := by
  cases hsim.mode t with
  | idle h1 h2 => exact absurd ho (h1 r)
  | sect r h1 h2 h3 h4 =>
    unfold Sys.step at hst
    cases e : c.th t <;> rw [e] at h4 hst <;> simp [finish] at h4 <;> cases hst
  | pend r' o k h1 h2 h3 h4 h5 h6 =>
    have := (h1 r).1 ho
    subst this
    rw [h5] at ht
    refine ⟨o, ht.of_repl.1, ho, ?_, ?_⟩
    · rcases h6 with h6 | ⟨h6, -⟩
      · simp only [Sys.step, h6, replRest] at hst; cases hst
      · exact ⟨_, h6⟩
    · rcases h6 with h6 | ⟨h6, -⟩
      · simp only [Sys.step, h6, replRest] at hst; cases hst
      · intro hoo
        simp only [Sys.step, h6, replLock, hoo, ne_eq, not_true_eq_false, if_false] at hst
        split at hst <;> cases hst
  | both r' o k h0 h1 h2 h3 h4 h5 h6 h7 =>
    rcases h7 with ⟨h7, -⟩ | ⟨h7, -⟩ | h7 | ⟨h7, -⟩ <;>
      simp only [Sys.step, h7, replBoth, replTail, replUnl] at hst <;> cases hst

/-- In a stuck state some mutex is held. -/
theorem Sys.TSim.held {c a : Sys α} (hsim : Sys.TSim c a) (hst : Stuck c) : ∃ r t, (c.mem r).owner = some t := by
  refine Classical.byContradiction fun hown => ?_
  have hfree : ∀ r, (c.mem r).owner = none := by
    intro r
    cases e : (c.mem r).owner with
    | none => rfl
    | some t => exact absurd ⟨r, t, e⟩ hown
  obtain ⟨t, ht⟩ : ∃ t, ¬ (c.th t).Finished := Classical.not_forall.1 hst.1
  have hth : a.th t = c.th t := by
    cases hsim.mode t with
    | idle h1 h2 => exact h2
    | sect r h1 => exact absurd ((h1 r).2 rfl) (fun e => hown ⟨r, t, e⟩)
    | pend r o k h1 => exact absurd ((h1 r).2 rfl) (fun e => hown ⟨r, t, e⟩)
    | both r o k h0 h1 => exact absurd ((h1 r).2 (.inl rfl)) (fun e => hown ⟨r, t, e⟩)
  have hs := hst.2 t
  have htx := hsim.txn t
  rw [hth] at htx
  unfold Sys.step at hs
  generalize c.th t = p at htx ht hs
  cases htx with
  | ret x => exact ht trivial
  | panic f => cases hs
  | died f => exact ht trivial
  | sect => simp only [hfree, ne_eq, not_true_eq_false, if_false] at hs; split at hs <;> cases hs
  | repl => simp only [hfree, ne_eq, not_true_eq_false, if_false] at hs; split at hs <;> cases hs

/-- **C66**: whatever the threads do, and whatever panics and poisoning happens, in a deadlock some thread is in the
middle of a call `r.replace(&o)`, holding `r` and waiting for `o`, and whoever holds the mutex such a thread waits
for is in the middle of a `replace` in the same way. -/
theorem C66_deadlock_is_a_cycle (chk : Bool) (m : Store) (hm : ∀ r, (m r).owner = none) (c : Nat → Client α)
    (Rel : Nat → Nat → Nat → Prop) (hc : ∀ t, Replaces (Rel t) (c t)) {s : Sys α}
    (hs : Sys.Reach ⟨m, fun t => (c t).prog chk⟩ s) (hst : Stuck s) :
    (∃ t r o, Rel t r o ∧ Blocked s t r o) ∧
    ∀ t r o, Blocked s t r o → ∃ u o', Rel u o o' ∧ Blocked s u o o' := by
  obtain ⟨a, ha, hsim⟩ := Sys.TSim.reach (s := ⟨m, fun t => (c t).prog chk⟩) hm (fun t => txn_client chk (c t)) hs
  have hrt : ∀ t, RTxn (Rel t) (a.th t) := RTxn.treach (Rel := Rel) (fun t => rtxn_client chk (c t) (hc t)) ha
  constructor
  · obtain ⟨r, t, ho⟩ := hsim.held hst
    obtain ⟨o, h1, h2⟩ := hsim.blocked (hrt t) (hst.2 t) ho
    exact ⟨t, r, o, h1, h2⟩
  · intro t r o hb
    cases e : (s.mem o).owner with
    | none => exact absurd e hb.taken
    | some u =>
      obtain ⟨o', h1, h2⟩ := hsim.blocked (hrt u) (hst.2 u) e
      exact ⟨u, o', h1, h2⟩

/-- **C66**: if the headers are numbered so that every `r.replace(&o)` copies from a lower to a higher number, then
finitely many threads never deadlock: no reachable state is stuck, no schedule is infinite, and some schedule ends. -/
theorem C66_ordered_replace (chk : Bool) (m : Store) (hm : ∀ r, (m r).owner = none) (c : Nat → Client α) (rank : Nat → Nat)
    (hc : ∀ t, Replaces (fun r o => rank o < rank r) (c t)) (n : Nat) (hn : ∀ t, n ≤ t → ∃ a, c t = .done a) :
    (∀ s, Sys.Reach ⟨m, fun t => (c t).prog chk⟩ s → ¬ Stuck s) ∧
    (¬ ∃ (σ : Nat → Sys α) (sch : Nat → Nat), σ 0 = ⟨m, fun t => (c t).prog chk⟩ ∧
      ∀ i, (σ i).step (sch i) = some (σ (i + 1))) ∧
    ∃ s, Sys.Reach ⟨m, fun t => (c t).prog chk⟩ s ∧ s.Final := by
  have hfin : ∀ t, n ≤ t → ((⟨m, fun t => (c t).prog chk⟩ : Sys α).th t).Finished := by
    intro t ht
    obtain ⟨a, ha⟩ := hn t ht
    simp only [ha]; trivial
  have hns : ∀ s, Sys.Reach ⟨m, fun t => (c t).prog chk⟩ s → ¬ Stuck s := by
    intro s hs hst
    obtain ⟨⟨t, r, o, hr, hb⟩, hnext⟩ := C66_deadlock_is_a_cycle chk m hm c (fun _ r o => rank o < rank r) hc hs hst
    have : ∀ k r o t, rank r ≤ k → Blocked s t r o → rank o < rank r → False := by
      intro k
      induction k with
      | zero => intro r o t h1 _ h3; omega
      | succ k ih =>
        intro r o t h1 h2 h3
        obtain ⟨u, o', h4, h5⟩ := hnext t r o h2
        exact ih o o' u (by omega) h5 h4
    exact this _ r o t (Nat.le_refl _) hb hr
  refine ⟨hns, Sys.no_infinite hfin, ?_⟩
  obtain ⟨s, hr, hst⟩ := Sys.exists_stuck hfin
  exact ⟨s, hr, Classical.byContradiction fun hnf => hns s hr ⟨hnf, hst⟩⟩

end

/-- The threads of a cycle of `n` headers: thread `t < n` replaces header `x t` by header `x (t + 1)`, the last one by
header `x 0`. -/
def cycleThreads (n : Nat) (x : Nat → Nat) (t : Nat) : Client Unit :=
  if t < n then .replace (x t) (x ((t + 1) % n)) (.done ()) else .done ()

/-- **C66** (every cycle): threads that replace the headers of any cycle, also of length one, by each other can
deadlock, each having emptied its target. -/
theorem C66_every_cycle_deadlocks (chk : Bool) (m : Store) (n : Nat) (hn : 0 < n) (x : Nat → Nat)
    (hx : ∀ i j, i < n → j < n → x i = x j → i = j) (hm : ∀ i, i < n → (m (x i)).Clean) :
    ∃ s, Sys.Reach ⟨m, fun t => (cycleThreads n x t).prog chk⟩ s ∧ Stuck s ∧
      ∀ t, t < n → Blocked s t (x t) (x ((t + 1) % n)) ∧ (s.mem (x t)).bytes = [] := by
  -- after `j` threads have taken their own mutex
  have key : ∀ j, j ≤ n → ∃ s, Sys.Reach ⟨m, fun t => (cycleThreads n x t).prog chk⟩ s ∧
      (∀ t, t < j → s.th t = replLock (x t) (x ((t + 1) % n)) (.ret ()) ∧ (s.mem (x t)).owner = some t ∧
        (s.mem (x t)).bytes = []) ∧
      (∀ t, j ≤ t → s.th t = (cycleThreads n x t).prog chk) ∧ ∀ t, j ≤ t → t < n → s.mem (x t) = m (x t) := by
    intro j
    induction j with
    | zero => intro _; exact ⟨_, .refl, fun t ht => absurd ht (by omega), fun _ _ => rfl, fun _ _ _ => rfl⟩
    | succ j ih =>
      intro hj
      obtain ⟨s, h1, h2, h3, h4⟩ := ih (by omega)
      have e0 : s.th j = .lock (x j) (replRest (x j) (x ((j + 1) % n)) (.ret ())) := by
        rw [h3 j (Nat.le_refl _), cycleThreads, if_pos (by omega)]
        rfl
      have hcl : (s.mem (x j)).Clean := by rw [h4 j (Nat.le_refl _) (by omega)]; exact hm j (by omega)
      have s1 := Sys.step_lock e0 hcl
      have s2 : (⟨s.mem.put (x j) { s.mem (x j) with owner := some j }, s.setTh j (replRest (x j) (x ((j + 1) % n)) (.ret ()))⟩ : Sys Unit).step j =
          some ⟨(s.mem.put (x j) { s.mem (x j) with owner := some j }).put (x j)
              { (s.mem.put (x j) { s.mem (x j) with owner := some j }) (x j) with bytes := [] },
            (⟨s.mem.put (x j) { s.mem (x j) with owner := some j }, s.setTh j (replRest (x j) (x ((j + 1) % n)) (.ret ()))⟩ : Sys Unit).setTh j
              (replLock (x j) (x ((j + 1) % n)) (.ret ()))⟩ := by
        unfold Sys.step
        simp only [Sys.setTh_same, replRest]
      refine ⟨_, .step j (.step j h1 s1) s2, ?_, ?_, ?_⟩
      · intro t ht
        by_cases htj : t = j
        · subst htj; simp
        · have hxt : x t ≠ x j := fun e => htj (hx t j (by omega) (by omega) e)
          obtain ⟨g1, g2, g3⟩ := h2 t (by omega)
          simp only [Sys.setTh_ne _ _ htj, put_ne _ _ hxt]
          exact ⟨g1, g2, g3⟩
      · intro t ht
        have htj : t ≠ j := by omega
        simp only [Sys.setTh_ne _ _ htj]
        exact h3 t (by omega)
      · intro t ht htn
        have hxt : x t ≠ x j := fun e => absurd (hx t j (by omega) (by omega) e) (by omega)
        simp only [put_ne _ _ hxt]
        exact h4 t (by omega) htn
  obtain ⟨s, h1, h2, h3, -⟩ := key n (Nat.le_refl _)
  have hb : ∀ t, t < n → Blocked s t (x t) (x ((t + 1) % n)) := by
    intro t ht
    obtain ⟨g1, g2, -⟩ := h2 t ht
    refine ⟨g2, ⟨_, g1⟩, ?_⟩
    rw [(h2 _ (Nat.mod_lt (t + 1) hn)).2.1]; simp
  refine ⟨s, h1, ⟨fun hf => ?_, fun t => ?_⟩, fun t ht => ⟨hb t ht, (h2 t ht).2.2⟩⟩
  · have := hf 0
    rw [(h2 0 hn).1] at this
    exact this
  · by_cases ht : t < n
    · obtain ⟨k, hk⟩ := (hb t ht).waits
      simp only [Sys.step, hk, ne_eq, (hb t ht).taken, not_false_eq_true, if_true]
    · have : s.th t = .ret () := by rw [h3 t (by omega), cycleThreads, if_neg ht]; rfl
      simp only [Sys.step, this]

/-! ## Non-vacuity -/

/-- A cycle of three headers. -/
example : ∃ s, Sys.Reach ⟨sampleStore, fun t => (cycleThreads 3 (fun i => 2 * i) t).prog true⟩ s ∧ Stuck s ∧
    Blocked s 2 4 0 := by
  obtain ⟨s, h1, h2, h3⟩ := C66_every_cycle_deadlocks true sampleStore 3 (by omega) (fun i => 2 * i)
    (fun i j _ _ h => by omega) (fun _ _ => ⟨rfl, rfl⟩)
  exact ⟨s, h1, h2, (h3 2 (by omega)).1⟩

/-- Threads that copy header 2 to 1 while others copy 1 to 0 and 2 to 0, and set fields in all of them, are ordered
(by descending number), although they race. -/
example : ∃ c : Nat → Client Unit, (∀ t, Replaces (fun r o => 10 - o < 10 - r) (c t)) ∧ (∀ t, 3 ≤ t → ∃ a, c t = .done a) ∧
    c 0 = .replace 1 2 (.set 1 IPv4.ttl 7#64 (.done ())) ∧ c 1 = .replace 0 1 (.done ()) ∧
    c 2 = .set 2 IPv4.ttl 9#64 (.replace 0 2 (.done ())) := by
  refine ⟨fun t => match t with
    | 0 => .replace 1 2 (.set 1 IPv4.ttl 7#64 (.done ()))
    | 1 => .replace 0 1 (.done ())
    | 2 => .set 2 IPv4.ttl 9#64 (.replace 0 2 (.done ()))
    | _ => .done (), ?_, ?_, rfl, rfl, rfl⟩
  · intro t
    match t with
    | 0 => exact ⟨by omega, trivial⟩
    | 1 => exact ⟨by omega, trivial⟩
    | 2 => exact ⟨by omega, trivial⟩
    | _ + 3 => exact trivial
  · intro t ht
    match t, ht with
    | _ + 3, _ => exact ⟨(), rfl⟩

end PacketRs
