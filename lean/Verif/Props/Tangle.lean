import Verif.Props.ElectMany
import Verif.Props.Mutex
import Verif.Spec.Tangle
/-!
# C128: exactly when threads can deadlock
-/
namespace PacketRs
open Spec
open Prog hiding bind

/-- Infinitely many into finitely many. -/
theorem pigeons (n : Nat) : ∀ g : Nat → Nat, (∀ i, g i < n) → ∃ i j, i < j ∧ g i = g j := by
  induction n with
  | zero => intro g h; exact absurd (h 0) (by omega)
  | succ n ih =>
    intro g h
    by_cases h1 : ∃ i, g i = n
    · obtain ⟨i, hi⟩ := h1
      by_cases h2 : ∃ j, i < j ∧ g j = n
      · obtain ⟨j, hj, e⟩ := h2
        exact ⟨i, j, hj, by rw [hi, e]⟩
      · obtain ⟨a, b, hab, e⟩ := ih (fun m => g (i + 1 + m)) fun m => by
          have := h (i + 1 + m)
          have : g (i + 1 + m) ≠ n := fun e => h2 ⟨_, by omega, e⟩
          omega
        exact ⟨i + 1 + a, i + 1 + b, by omega, e⟩
    · refine ih g fun m => ?_
      have := h m
      have : g m ≠ n := fun e => h1 ⟨m, e⟩
      omega

/-- A sequence that comes back has a shortest way back. -/
theorem shortest_cycle {x : Nat → Nat} {i j : Nat} (hij : i < j) (e : x i = x j) :
    ∃ i k, 0 < k ∧ x i = x (i + k) ∧ ∀ a b, a < k → b < k → x (i + a) = x (i + b) → a = b := by
  have key : ∀ d, ∀ i, 0 < d → x i = x (i + d) → ∃ i k, 0 < k ∧ x i = x (i + k) ∧ ∀ a b, a < k → b < k → x (i + a) = x (i + b) → a = b := by
    intro d
    induction d using Nat.strongRecOn with
    | _ d ih =>
      intro i hd he
      by_cases hh : ∀ a b, a < d → b < d → x (i + a) = x (i + b) → a = b
      · exact ⟨i, d, hd, he, hh⟩
      · simp only [Classical.not_forall] at hh
        obtain ⟨a, b, ha, hb, hab, hne⟩ := hh
        rcases Nat.lt_or_gt_of_ne hne with h | h
        · exact ih (b - a) (by omega) (i + a) (by omega) (by rw [show i + a + (b - a) = i + b by omega]; exact hab)
        · exact ih (a - b) (by omega) (i + b) (by omega) (by rw [show i + b + (a - b) = i + a by omega]; exact hab.symm)
  exact key (j - i) i (by omega) (by rw [show i + (j - i) = j by omega]; exact e)

section
variable {α : Type} {L : Nat → Nat}

/-- A thread that holds a mutex and cannot go on. -/
theorem Sys.TSim.pending {c a : Sys α} (hsim : Sys.TSim c a) {t r : Nat} (hst : c.step t = none) (ho : (c.mem r).owner = some t) :
    ∃ o k, (∀ z, (c.mem z).owner = some t ↔ z = r) ∧ a.th t = .lock r (replRest r o k) ∧ (c.mem o).owner ≠ none := by
  cases hsim.mode t with
  | idle h1 h2 => exact absurd ho (h1 r)
  | sect r h1 h2 h3 h4 =>
    unfold Sys.step at hst
    cases e : c.th t <;> rw [e] at h4 hst <;> simp [finish] at h4 <;> cases hst
  | pend r' o k h1 h2 h3 h4 h5 h6 =>
    have := (h1 r).1 ho
    subst this
    refine ⟨o, k, h1, h5, ?_⟩
    rcases h6 with h6 | ⟨h6, -⟩
    · simp only [Sys.step, h6, replRest] at hst; cases hst
    · intro hoo
      simp only [Sys.step, h6, replLock, hoo, ne_eq, not_true_eq_false, if_false] at hst
      split at hst <;> cases hst
  | both r' o k h0 h1 h2 h3 h4 h5 h6 h7 =>
    rcases h7 with ⟨h7, -⟩ | ⟨h7, -⟩ | h7 | ⟨h7, -⟩ <;>
      simp only [Sys.step, h7, replBoth, replTail, replUnl] at hst <;> cases hst

theorem Impl.of_repl {r o : Nat} {k : Prog α} {q : Micro α} (h : Impl L (.lock r (replRest r o k)) q) : ∃ q', q = .copy r o q' := by
  have hlen : (List.replicate (L r) (0#8 : Byte)).length = L r := List.length_replicate
  generalize hg : (Prog.lock r (replRest r o k)) = g at h
  cases h with
  | done => cases hg
  | read p h1 h2 =>
    simp only [Prog.lock.injEq] at hg
    obtain ⟨rfl, rfl⟩ := hg
    have := h1 _ hlen
    rw [finish_replRest] at this; cases this
  | write h1 h2 =>
    simp only [Prog.lock.injEq] at hg
    obtain ⟨rfl, rfl⟩ := hg
    obtain ⟨e, -, this⟩ := h1 _ hlen
    rw [finish_replRest] at this; cases this
  | readAll p h1 h2 =>
    simp only [Prog.lock.injEq] at hg
    obtain ⟨rfl, rfl⟩ := hg
    have := h1 _ hlen
    rw [finish_replRest] at this; cases this
  | copy hne hL hk =>
    simp only [Prog.lock.injEq] at hg
    obtain ⟨rfl, hg⟩ := hg
    obtain ⟨rfl, rfl⟩ := replRest_inj hg
    exact ⟨_, rfl⟩

theorem Impl.of_copy {r o : Nat} {q : Micro α} {p : Prog α} (h : Impl L p (.copy r o q)) : ∃ k, p = .lock r (replRest r o k) := by
  cases h with
  | copy => exact ⟨_, rfl⟩

theorem Spec.Machine.Reach.done {w w' : Machine α} (h : Machine.Reach w w') {t : Nat} {a : α} (ht : w.th t = .done a) : w'.th t = .done a := by
  induction h with
  | refl => exact ht
  | step u _ hs ih =>
    by_cases hu : t = u
    · subst hu; exact (hs.of_done ih).elim
    · rw [hs.later.2 t hu]; exact ih

theorem tangle_of_stuck (chk : Bool) (m : Store) (hm : Fresh L m) (c : Nat → Client α) (hc : ∀ t, Inside L (c t)) (n : Nat)
    (hn : ∀ t, n ≤ t → ∃ a, c t = .done a) {s : Sys α} (hs : Sys.Reach ⟨m, fun t => (c t).prog chk⟩ s) (hst : Stuck s) :
    ∃ w, Machine.Reach ⟨fun r => (m r).bytes, fun t => micro (c t)⟩ w ∧ Entangled w := by
  classical
  have h0 : Alike L (⟨m, fun t => (c t).prog chk⟩ : Sys α) ⟨fun r => (m r).bytes, fun t => micro (c t)⟩ :=
    ⟨hm, fun _ => rfl, fun t => impl_client chk (c t) (hc t)⟩
  obtain ⟨a, ha, hsim⟩ := Sys.TSim.reach (s := ⟨m, fun t => (c t).prog chk⟩) hm.free (fun t => txn_client chk (c t)) hs
  obtain ⟨w, hw, hal⟩ := h0.treach ha
  refine ⟨w, hw, ?_⟩
  have next : ∀ r : {r // (s.mem r).owner ≠ none}, ∃ (o : {r // (s.mem r).owner ≠ none}) (t : Nat) (q : Micro α), t < n ∧
      (∀ z, (s.mem z).owner = some t ↔ z = r.1) ∧ w.th t = .copy r.1 o.1 q := by
    rintro ⟨r, hr⟩
    cases e : (s.mem r).owner with
    | none => exact absurd e hr
    | some t =>
      obtain ⟨o, k, g1, g2, g3⟩ := hsim.pending (hst.2 t) e
      have := hal.th t
      rw [g2] at this
      obtain ⟨q, hq⟩ := this.of_repl
      refine ⟨⟨o, g3⟩, t, q, Nat.lt_of_not_le fun hh => ?_, g1, hq⟩
      obtain ⟨b, hb⟩ := hn t hh
      rw [hw.done (t := t) (a := b) (by dsimp only; rw [hb]; rfl)] at hq; cases hq
  obtain ⟨f, hf⟩ := Classical.axiomOfChoice next
  obtain ⟨T, hT⟩ := Classical.axiomOfChoice hf
  obtain ⟨r0, t0, ho⟩ := hsim.held hst
  let y : Nat → {r // (s.mem r).owner ≠ none} := fun i => Nat.rec ⟨r0, by rw [ho]; simp⟩ (fun _ r => f r) i
  have hy : ∀ i, y (i + 1) = f (y i) := fun _ => rfl
  obtain ⟨i, j, hij, he⟩ := pigeons n (fun i => T (y i)) fun i => by
    obtain ⟨-, h, -⟩ := hT (y i)
    exact h
  have hxy : (y i).1 = (y j).1 := by
    obtain ⟨-, -, g1, -⟩ := hT (y i)
    obtain ⟨-, -, g2, -⟩ := hT (y j)
    exact (g2 _).1 (he ▸ (g1 _).2 rfl)
  obtain ⟨i, k, hk, e, hinj⟩ := shortest_cycle (x := fun i => (y i).1) hij hxy
  refine ⟨k, fun a => (y (i + a)).1, fun a => T (y (i + a)), hk, hinj, fun a ha => ?_⟩
  obtain ⟨q, -, -, hq⟩ := hT (y (i + a))
  refine ⟨q, ?_⟩
  rw [hq]
  congr 1
  rw [← hy]
  by_cases h1 : a + 1 < k
  · rw [Nat.mod_eq_of_lt h1]; rfl
  · have h2 : a + 1 = k := by omega
    rw [h2, Nat.mod_self, show i + a + 1 = i + k by omega]
    exact e.symm

/-- A thread that waits for a mutex that another such thread holds. -/
def Jam (k : Nat) (x u : Nat → Nat) (s : Sys α) : Prop :=
  ∀ i, i < k → (∃ q, s.th (u i) = replLock (x i) (x ((i + 1) % k)) q) ∧ (s.mem (x i)).owner = some (u i)

theorem Jam.step {k : Nat} {x u : Nat → Nat} (hk : 0 < k) {s s' : Sys α} (h : Jam k x u s) {t : Nat}
    (hu : ∀ r, Drops (s.th t) r → (s.mem r).owner = some t) (hs : s.step t = some s') : Jam k x u s' := by
  -- not one of the threads in the jam
  have hne : ∀ i, i < k → u i ≠ t := by
    intro i hi e
    subst e
    obtain ⟨⟨q, hq⟩, -⟩ := h i hi
    have hown := (h _ (Nat.mod_lt (i + 1) hk)).2
    simp only [Sys.step, hq, replLock, hown] at hs
    cases hs
  have keep : ∀ (m' : Store) (p : Prog α), s' = ⟨m', s.setTh t p⟩ → (∀ i, i < k → (m' (x i)).owner = (s.mem (x i)).owner) → Jam k x u s' := by
    intro m' p e hm i hi
    subst e
    obtain ⟨⟨q, hq⟩, ho⟩ := h i hi
    refine ⟨⟨q, ?_⟩, (hm i hi).trans ho⟩
    simp only [Sys.setTh_ne _ _ (hne i hi)]; exact hq
  have put : ∀ (r : Nat) (n : Cell), (∀ i, i < k → x i = r → n.owner = (s.mem r).owner) →
      ∀ i, i < k → ((s.mem.put r n) (x i)).owner = (s.mem (x i)).owner := by
    intro r n hn i hi
    by_cases e : x i = r
    · rw [e, put_same]; exact hn i hi e
    · rw [put_ne _ _ e]
  unfold Sys.step at hs
  cases e : s.th t with
  | ret a => rw [e] at hs; cases hs
  | died f => rw [e] at hs; cases hs
  | panic f =>
    rw [e] at hs; cases hs
    refine keep _ _ rfl fun i hi => ?_
    have := (h i hi).2
    have hne' := hne i hi
    unfold Store.unwind
    simp [this, hne']
  | lock r p =>
    rw [e] at hs
    dsimp only at hs
    split at hs
    · cases hs
    · rename_i hfree
      have hfree' : (s.mem r).owner = none := Classical.not_not.1 hfree
      split at hs
      · cases hs; exact keep _ _ rfl fun _ _ => rfl
      · cases hs
        refine keep _ _ rfl (put r _ fun i hi ex => ?_)
        have := (h i hi).2
        rw [ex, hfree'] at this; cases this
  | load r p => rw [e] at hs; cases hs; exact keep _ _ rfl fun _ _ => rfl
  | store r b p => rw [e] at hs; cases hs; exact keep _ _ rfl (put r _ fun _ _ _ => rfl)
  | unlock r p =>
    have ho := hu r ⟨p, e⟩
    rw [e] at hs; cases hs
    refine keep _ _ rfl (put r _ fun i hi ex => ?_)
    have := (h i hi).2
    rw [ex, ho] at this
    exact absurd (Option.some.inj this).symm (hne i hi)

theorem jam_of_tangle {s : Sys α} {k : Nat} {x u : Nat → Nat} (hx : ∀ i j, i < k → j < k → x i = x j → i = j)
    (hu : ∀ i, i < k → ∃ q, s.th (u i) = .lock (x i) (replRest (x i) (x ((i + 1) % k)) q)) (hm : ∀ r, (s.mem r).Clean) :
    ∃ s', Sys.Reach s s' ∧ Jam k x u s' := by
  have huinj : ∀ i j, i < k → j < k → u i = u j → i = j := by
    intro i j hi hj e
    obtain ⟨q, hq⟩ := hu i hi
    obtain ⟨q', hq'⟩ := hu j hj
    rw [e, hq'] at hq
    simp only [Prog.lock.injEq] at hq
    exact hx i j hi hj hq.1.symm
  have key : ∀ j, j ≤ k → ∃ s', Sys.Reach s s' ∧
      (∀ i, i < j → (∃ q, s'.th (u i) = replLock (x i) (x ((i + 1) % k)) q) ∧ (s'.mem (x i)).owner = some (u i)) ∧
      (∀ i, j ≤ i → i < k → s'.th (u i) = s.th (u i) ∧ s'.mem (x i) = s.mem (x i)) := by
    intro j
    induction j with
    | zero => intro _; exact ⟨s, .refl, fun i hi => absurd hi (by omega), fun _ _ _ => ⟨rfl, rfl⟩⟩
    | succ j ih =>
      intro hj
      obtain ⟨s', h1, h2, h3⟩ := ih (by omega)
      obtain ⟨q, hq⟩ := hu j (by omega)
      obtain ⟨g1, g2⟩ := h3 j (Nat.le_refl _) (by omega)
      have e0 := g1.trans hq
      have hcl : (s'.mem (x j)).Clean := by rw [g2]; exact hm _
      have s1 := Sys.step_lock e0 hcl
      have s2 : (⟨s'.mem.put (x j) { s'.mem (x j) with owner := some (u j) }, s'.setTh (u j) (replRest (x j) (x ((j + 1) % k)) q)⟩ : Sys α).step (u j) =
          some ⟨(s'.mem.put (x j) { s'.mem (x j) with owner := some (u j) }).put (x j)
              { (s'.mem.put (x j) { s'.mem (x j) with owner := some (u j) }) (x j) with bytes := [] },
            (⟨s'.mem.put (x j) { s'.mem (x j) with owner := some (u j) }, s'.setTh (u j) (replRest (x j) (x ((j + 1) % k)) q)⟩ : Sys α).setTh (u j)
              (replLock (x j) (x ((j + 1) % k)) q)⟩ := by
        unfold Sys.step
        simp only [Sys.setTh_same, replRest]
      refine ⟨_, .step (u j) (.step (u j) h1 s1) s2, fun i hi => ?_, fun i hi hik => ?_⟩
      · by_cases hij : i = j
        · subst hij; exact ⟨⟨q, by simp⟩, by simp⟩
        · have hxt : x i ≠ x j := fun e => hij (hx i j (by omega) (by omega) e)
          have hut : u i ≠ u j := fun e => hij (huinj i j (by omega) (by omega) e)
          simp only [Sys.setTh_ne _ _ hut, put_ne _ _ hxt]
          exact h2 i (by omega)
      · have hij : i ≠ j := by omega
        have hxt : x i ≠ x j := fun e => hij (hx i j (by omega) (by omega) e)
        have hut : u i ≠ u j := fun e => hij (huinj i j (by omega) (by omega) e)
        simp only [Sys.setTh_ne _ _ hut, put_ne _ _ hxt]
        exact h3 i (by omega) hik
  obtain ⟨s', h1, h2, -⟩ := key k (Nat.le_refl _)
  exact ⟨s', h1, h2⟩

/-- C128.  Finitely many threads, what each does next depending in any way on what it has read, with all calls inside
the buffers: they can come to a deadlock if and only if the machine on which `replace` is one step can come to where the
threads of a cycle are about to call `replace` at the same time. -/
theorem C128_deadlock_iff (chk : Bool) (m : Store) (hm : Fresh L m) (c : Nat → Client α) (hc : ∀ t, Inside L (c t)) (n : Nat)
    (hn : ∀ t, n ≤ t → ∃ a, c t = .done a) :
    (∃ s, Sys.Reach ⟨m, fun t => (c t).prog chk⟩ s ∧ Stuck s) ↔
      ∃ w, Machine.Reach ⟨fun r => (m r).bytes, fun t => micro (c t)⟩ w ∧ Entangled w := by
  constructor
  · rintro ⟨s, hs, hst⟩
    exact tangle_of_stuck chk m hm c hc n hn hs hst
  · rintro ⟨w, hw, k, x, u, hk, hx, hu⟩
    have h0 : Alike L (⟨m, fun t => (c t).prog chk⟩ : Sys α) ⟨fun r => (m r).bytes, fun t => micro (c t)⟩ :=
      ⟨hm, fun _ => rfl, fun t => impl_client chk (c t) (hc t)⟩
    obtain ⟨s1, h1, h2⟩ := h0.mreach hw
    have r1 := (Sys.reach_of_treach hm.free h1).1
    obtain ⟨s2, r2, hj⟩ := jam_of_tangle (s := s1) hx (fun i hi => by
      obtain ⟨q, hq⟩ := hu i hi
      have := h2.th (u i)
      rw [hq] at this
      exact this.of_copy) fun r => ⟨(h2.fresh r).1, (h2.fresh r).2.1⟩
    have r12 := r1.trans r2
    have hfin : ∀ t, n ≤ t → (s2.th t).Finished := by
      intro t ht
      obtain ⟨a, ha⟩ := hn t ht
      have : ∀ s, Sys.Reach ⟨m, fun t => (c t).prog chk⟩ s → s.th t = .ret a := by
        intro s hs
        induction hs with
        | refl => dsimp only; rw [ha]; rfl
        | @step s' s'' v _ hs ih =>
          by_cases hv : t = v
          · subst hv; simp only [Sys.step, ih] at hs; cases hs
          · rw [(Sys.step_next hs).2 t hv]; exact ih
      rw [this s2 r12]; trivial
    obtain ⟨s3, r3, hst⟩ := Sys.exists_stuck hfin
    have hj3 : Jam k x u s3 := by
      have : ∀ s, Sys.Reach s2 s → Sys.Reach ⟨m, fun t => (c t).prog chk⟩ s ∧ Jam k x u s := by
        intro s hs
        induction hs with
        | refl => exact ⟨r12, hj⟩
        | @step s' s'' v _ hs ih =>
          exact ⟨.step v ih.1 hs, ih.2.step hk (fun r hd => C70_under_lock chk m (fun r => (hm r).1) c s' ih.1 v r (.inr hd)) hs⟩
      exact (this s3 r3).2
    refine ⟨s3, r12.trans r3, fun hf => ?_, hst⟩
    obtain ⟨q, hq⟩ := (hj3 0 hk).1
    have := hf (u 0)
    rw [hq] at this
    exact this

/-! ## Threads that make the same calls whatever they read -/

/-- All copies are allowed. -/
def MicroRep (R : Nat → Nat → Prop) : Micro α → Prop
  | .done _ => True
  | .read _ _ k => ∀ b, MicroRep R (k b)
  | .write _ _ _ k => MicroRep R k
  | .readAll _ k => ∀ v, MicroRep R (k v)
  | .copy r o k => R r o ∧ MicroRep R k

variable {R : Nat → Nat → Prop}

theorem microRep_readBits {r : Nat} (n : Nat) : ∀ (lo : Nat) (k : List Bool → Micro α), (∀ bs, MicroRep R (k bs)) →
    MicroRep R (readBits r lo n k) := by
  induction n with
  | zero => intro lo k h; exact h []
  | succ n ih => intro lo k h; exact fun b => ih _ _ fun bs => h _

theorem microRep_writeBits {r hi : Nat} (v : Nat → Bool) (k : Micro α) (hk : MicroRep R k) (n : Nat) :
    ∀ j, MicroRep R (writeBits r hi v k n j) := by
  induction n with
  | zero => intro j; exact hk
  | succ n ih => intro j; exact ih (j + 1)

theorem microRep_readOctets {r : Nat} (n : Nat) : ∀ (lo : Nat) (k : Bytes → Micro α), (∀ v, MicroRep R (k v)) →
    MicroRep R (readOctets r lo n k) := by
  induction n with
  | zero => intro lo k h; exact h []
  | succ n ih => intro lo k h; exact microRep_readBits 8 _ _ fun bs => ih _ _ fun v => h _

theorem microRep_writeOctets {r : Nat} (k : Micro α) (hk : MicroRep R k) (v : Bytes) : ∀ lo, MicroRep R (writeOctets r lo v k) := by
  induction v with
  | nil => intro lo; exact hk
  | cons b v ih => intro lo; exact microRep_writeBits _ _ (ih _) _ _

theorem microRep_micro : (c : Client α) → Replaces R c → MicroRep R (micro c)
  | .done _, _ => trivial
  | .get _ _ k, g => microRep_readBits _ _ _ fun _ => microRep_micro (k _) (g _)
  | .set _ _ _ k, g => microRep_writeBits _ _ (microRep_micro k g) _ _
  | .bytes _ _ _ k, g => microRep_readOctets _ _ _ fun _ => microRep_micro (k _) (g _)
  | .setBytes _ _ _ v k, g => microRep_writeOctets _ (microRep_micro k g) v _
  | .toVec _ k, g => fun v => microRep_micro (k v) (g v)
  | .replace _ _ k, g => ⟨g.1, microRep_micro k g.2⟩

theorem MicroRep.later {q q' : Micro α} (h : MicroRep R q) (hl : Later q' q) : MicroRep R q' := by
  cases hl with
  | read b => exact h b
  | write => exact h
  | readAll v => exact h v
  | copy => exact h.2

theorem callScript_replaces {l : List AccCall} : (l' : List AccCall) → (∀ y ∈ l', y ∈ l) →
    Replaces (fun r o => AccCall.replace r o ∈ l) (callScript l')
  | [], _ => trivial
  | .get _ _ :: l', h => fun _ => callScript_replaces l' fun y hy => h y (.tail _ hy)
  | .set _ _ _ :: l', h => callScript_replaces l' fun y hy => h y (.tail _ hy)
  | .bytes _ _ _ :: l', h => fun _ => callScript_replaces l' fun y hy => h y (.tail _ hy)
  | .setBytes _ _ _ _ :: l', h => callScript_replaces l' fun y hy => h y (.tail _ hy)
  | .toVec _ :: l', h => fun _ => callScript_replaces l' fun y hy => h y (.tail _ hy)
  | .replace _ _ :: l', h => ⟨h _ (.head _), callScript_replaces l' fun y hy => h y (.tail _ hy)⟩

/-- Thread `t` alone can come to `q`. -/
def Goes (L : Nat → Nat) (t : Nat) (w : Machine α) (q : Micro α) : Prop :=
  ∃ w', Machine.Reach w w' ∧ w'.th t = q ∧ (∀ u, u ≠ t → w'.th u = w.th u) ∧ ∀ r, (w'.cont r).length = L r

theorem Goes.trans {t : Nat} {w w1 : Machine α} {q : Micro α} (hs : Machine.Step t w w1) (h : Goes L t w1 q) : Goes L t w q := by
  obtain ⟨w', h1, h2, h3, h4⟩ := h
  exact ⟨w', .append (.step t .refl hs) h1, h2, fun u hu => (h3 u hu).trans (hs.later.2 u hu), h4⟩

theorem Goes.then {t : Nat} {w : Machine α} {q q' : Micro α} (h : Goes L t w q)
    (h' : ∀ w', w'.th t = q → (∀ r, (w'.cont r).length = L r) → Goes L t w' q') : Goes L t w q' := by
  obtain ⟨w', h1, h2, h3, h4⟩ := h
  obtain ⟨w2, g1, g2, g3, g4⟩ := h' w' h2 h4
  exact ⟨w2, h1.append g1, g2, fun u hu => (g3 u hu).trans (h3 u hu), g4⟩

variable {t r : Nat}

theorem goes_readBits (n : Nat) : ∀ (lo : Nat) (k : List Bool → Micro α) (w : Machine α), w.th t = readBits r lo n k →
    (∀ z, (w.cont z).length = L z) → ∃ bs, Goes L t w (k bs) := by
  induction n with
  | zero => intro lo k w h hl; exact ⟨[], w, .refl, h, fun _ _ => rfl, hl⟩
  | succ n ih =>
    intro lo k w h hl
    obtain ⟨bs, hbs⟩ := ih (lo + 1) (fun bs => k (netBit (w.cont r) lo :: bs)) ⟨w.cont, fun z => if z = t then
      readBits r (lo + 1) n (fun bs => k (netBit (w.cont r) lo :: bs)) else w.th z⟩ (if_pos rfl) hl
    exact ⟨_, hbs.trans (Machine.rd h)⟩

theorem goes_writeBits {hi : Nat} (hh : hi < 8 * L r) (v : Nat → Bool) (k : Micro α) (n : Nat) : ∀ (j : Nat) (w : Machine α),
    w.th t = writeBits r hi v k n j → (∀ z, (w.cont z).length = L z) → Goes L t w k := by
  induction n with
  | zero => intro j w h hl; exact ⟨w, .refl, h, fun _ _ => rfl, hl⟩
  | succ n ih =>
    intro j w h hl
    have hlt : hi - j < 8 * (w.cont r).length := by rw [hl]; omega
    refine Goes.trans (Machine.wr h hlt) (ih (j + 1) _ (if_pos rfl) fun z => ?_)
    dsimp only
    split
    · rename_i e; rw [e, putBit_length, hl]
    · exact hl z

theorem goes_readOctets (n : Nat) : ∀ (lo : Nat) (k : Bytes → Micro α) (w : Machine α), w.th t = readOctets r lo n k →
    (∀ z, (w.cont z).length = L z) → ∃ v, Goes L t w (k v) := by
  induction n with
  | zero => intro lo k w h hl; exact ⟨[], w, .refl, h, fun _ _ => rfl, hl⟩
  | succ n ih =>
    intro lo k w h hl
    obtain ⟨bs, w', h1, h2, h3, h4⟩ := goes_readBits 8 lo _ w h hl
    obtain ⟨v, w2, g1, g2, g3, g4⟩ := ih (lo + 8) _ w' h2 h4
    exact ⟨_, w2, h1.append g1, g2, fun u hu => (g3 u hu).trans (h3 u hu), g4⟩

theorem goes_writeOctets (k : Micro α) (v : Bytes) : ∀ (lo : Nat) (w : Machine α), lo + 8 * v.length ≤ 8 * L r →
    w.th t = writeOctets r lo v k → (∀ z, (w.cont z).length = L z) → Goes L t w k := by
  induction v with
  | nil => intro lo w _ h hl; exact ⟨w, .refl, h, fun _ _ => rfl, hl⟩
  | cons b v ih =>
    intro lo w hlo h hl
    rw [List.length_cons] at hlo
    exact (goes_writeBits (by omega) _ _ 8 0 w h hl).then fun w' h1 h2 => ih (lo + 8) w' (by omega) h1 h2

/-- One call. -/
theorem goes_call (y : AccCall) (l : List AccCall) (hin : Inside L (callScript (y :: l))) (w : Machine Unit)
    (h : w.th t = micro (callScript (y :: l))) (hl : ∀ z, (w.cont z).length = L z) :
    Inside L (callScript l) ∧ Goes L t w (micro (callScript l)) := by
  cases y with
  | get r f =>
    obtain ⟨bs, hb⟩ := goes_readBits _ _ _ w h hl
    exact ⟨hin.2.2.2.2 0#64, hb⟩
  | set r f v => exact ⟨hin.2.2.2, goes_writeBits hin.2.1 _ _ _ _ w h hl⟩
  | bytes r msb lsb =>
    obtain ⟨v, hb⟩ := goes_readOctets _ _ _ w h hl
    exact ⟨hin.2.2.2.2.2 [], hb⟩
  | setBytes r msb lsb v =>
    obtain ⟨h1, h2, h3, h4, -, h6⟩ := hin
    exact ⟨h6, goes_writeOctets _ v _ w (by omega) h hl⟩
  | toVec r => exact ⟨hin.2 [], ⟨_, _⟩, .step t .refl (Machine.rdAll h), if_pos rfl, fun u hu => if_neg hu, hl⟩
  | replace r o =>
    obtain ⟨h1, h2, -, -, h5⟩ := hin
    refine ⟨h5, ⟨fun z => if z = r then w.cont o else w.cont z, _⟩, .step t .refl (.copy h (upd_mk _ _ _) (upd_mk _ _ _)), if_pos rfl,
      fun u hu => if_neg hu, fun z => ?_⟩
    dsimp only
    split
    · rename_i e; rw [e, hl, h2]
    · exact hl z

theorem goes_script (l' : List AccCall) : ∀ (l : List AccCall) (w : Machine Unit), Inside L (callScript (l ++ l')) →
    w.th t = micro (callScript (l ++ l')) → (∀ z, (w.cont z).length = L z) → Goes L t w (micro (callScript l'))
  | [], w, _, h, hl => ⟨w, .refl, h, fun _ _ => rfl, hl⟩
  | y :: l, w, hin, h, hl => by
    obtain ⟨h1, h2⟩ := goes_call y (l ++ l') hin w h hl
    exact h2.then fun w' g1 g2 => goes_script l' l w' h1 g1 g2

/-- A cycle of calls of different threads has a part in which the headers are different, too. -/
theorem tight_cycle {E : Nat → Nat → Nat → Prop} (k : Nat) : ∀ x u : Nat → Nat, 0 < k → (∀ i j, i < k → j < k → u i = u j → i = j) →
    (∀ i, i < k → E (u i) (x i) (x ((i + 1) % k))) →
    ∃ (k : Nat) (x u : Nat → Nat), 0 < k ∧ (∀ i j, i < k → j < k → u i = u j → i = j) ∧ (∀ i j, i < k → j < k → x i = x j → i = j) ∧
      ∀ i, i < k → E (u i) (x i) (x ((i + 1) % k)) := by
  induction k using Nat.strongRecOn with
  | _ k ih =>
    intro x u hk hu hE
    by_cases hh : ∀ i j, i < k → j < k → x i = x j → i = j
    · exact ⟨k, x, u, hk, hu, hh, hE⟩
    · simp only [Classical.not_forall] at hh
      obtain ⟨a, b, ha, hb, hab, hne⟩ := hh
      have short : ∀ a b, a < b → b < k → x a = x b → ∃ (k : Nat) (x u : Nat → Nat), 0 < k ∧ (∀ i j, i < k → j < k → u i = u j → i = j) ∧
          (∀ i j, i < k → j < k → x i = x j → i = j) ∧ ∀ i, i < k → E (u i) (x i) (x ((i + 1) % k)) := by
        intro a b hlt hb hab
        refine ih (b - a) (by omega) (fun i => x (a + i)) (fun i => u (a + i)) (by omega) (fun i j hi hj e => ?_) fun i hi => ?_
        · have := hu _ _ (by omega) (by omega) e
          omega
        · have := hE (a + i) (by omega)
          rw [Nat.mod_eq_of_lt (show a + i + 1 < k by omega)] at this
          by_cases h1 : i + 1 < b - a
          · rw [Nat.mod_eq_of_lt h1]; exact this
          · have h2 : i + 1 = b - a := by omega
            rw [h2, Nat.mod_self, Nat.add_zero, hab, show b = a + i + 1 by omega]; exact this
      rcases Nat.lt_or_gt_of_ne hne with h | h
      · exact short a b h hb hab
      · exact short b a h ha hab.symm

/-- C128.  Threads that make given calls in order, whatever they return: they can deadlock if and only if calls of different
threads, one each, form a cycle of `replace`. -/
theorem C128_scripts (chk : Bool) (m : Store) (hm : Fresh L m) (l : Nat → List AccCall) (hc : ∀ t, Inside L (callScript (l t))) (n : Nat)
    (hn : ∀ t, n ≤ t → l t = []) :
    (∃ s, Sys.Reach ⟨m, fun t => (callScript (l t)).prog chk⟩ s ∧ Stuck s) ↔
      ∃ (k : Nat) (x u : Nat → Nat), 0 < k ∧ (∀ i j, i < k → j < k → u i = u j → i = j) ∧
        ∀ i, i < k → AccCall.replace (x i) (x ((i + 1) % k)) ∈ l (u i) := by
  rw [C128_deadlock_iff chk m hm _ hc n fun t ht => ⟨(), by rw [hn t ht]; rfl⟩]
  constructor
  · rintro ⟨w, hw, k, x, u, hk, hx, hu⟩
    have hrep : ∀ t, MicroRep (fun r o => AccCall.replace r o ∈ l t) (w.th t) := by
      clear hu
      induction hw with
      | refl => intro t; exact microRep_micro _ (callScript_replaces (l t) fun _ h => h)
      | step v _ hs ih =>
        intro t
        by_cases htv : t = v
        · subst htv; exact (ih t).later hs.later.1
        · rw [hs.later.2 t htv]; exact ih t
    refine ⟨k, x, u, hk, fun i j hi hj e => ?_, fun i hi => ?_⟩
    · obtain ⟨q, hq⟩ := hu i hi
      obtain ⟨q', hq'⟩ := hu j hj
      rw [e, hq'] at hq
      simp only [Micro.copy.injEq] at hq
      exact hx i j hi hj hq.1.symm
    · obtain ⟨q, hq⟩ := hu i hi
      have := hrep (u i)
      rw [hq] at this
      exact this.1
  · rintro ⟨k, x, u, hk, hu, hE⟩
    obtain ⟨k, x, u, hk, hu, hx, hE⟩ := tight_cycle (E := fun t r o => AccCall.replace r o ∈ l t) k x u hk hu hE
    have key : ∀ j, j ≤ k → ∃ w, Machine.Reach ⟨fun r => (m r).bytes, fun t => micro (callScript (l t))⟩ w ∧ (∀ z, (w.cont z).length = L z) ∧
        (∀ i, i < j → ∃ q, w.th (u i) = .copy (x i) (x ((i + 1) % k)) q) ∧ ∀ i, j ≤ i → i < k → w.th (u i) = micro (callScript (l (u i))) := by
      intro j
      induction j with
      | zero => intro _; exact ⟨_, .refl, fun z => (hm z).2.2, fun i hi => absurd hi (by omega), fun _ _ _ => rfl⟩
      | succ j ih =>
        intro hj
        obtain ⟨w, h1, h2, h3, h4⟩ := ih (by omega)
        obtain ⟨pre, post, hl⟩ := List.append_of_mem (hE j (by omega))
        have h5 := h4 j (Nat.le_refl _) (by omega)
        have h6 := hc (u j)
        rw [hl] at h5 h6
        obtain ⟨w', g1, g2, g3, g4⟩ := goes_script (L := L) _ pre w h6 h5 h2
        refine ⟨w', h1.append g1, g4, fun i hi => ?_, fun i hi hik => ?_⟩
        · by_cases hij : i = j
          · subst hij; exact ⟨_, g2⟩
          · rw [g3 (u i) fun e => hij (hu i j (by omega) (by omega) e)]
            exact h3 i (by omega)
        · rw [g3 (u i) fun e => absurd (hu i j (by omega) (by omega) e) (by omega)]
          exact h4 i (by omega) hik
    obtain ⟨w, h1, -, h3, -⟩ := key k (Nat.le_refl _)
    exact ⟨w, h1, k, x, u, hk, hx, h3⟩

/-- C128.  With any schedule no run is infinite, and the threads can still all finish, however far they have come, if and only
if calls of different threads, one each, form no cycle of `replace`. -/
theorem C128_finish_iff (chk : Bool) (m : Store) (hm : Fresh L m) (l : Nat → List AccCall) (hc : ∀ t, Inside L (callScript (l t))) (n : Nat)
    (hn : ∀ t, n ≤ t → l t = []) :
    (¬ ∃ (σ : Nat → Sys Unit) (sch : Nat → Nat), σ 0 = ⟨m, fun t => (callScript (l t)).prog chk⟩ ∧
      ∀ i, (σ i).step (sch i) = some (σ (i + 1))) ∧
    ((∀ s, Sys.Reach ⟨m, fun t => (callScript (l t)).prog chk⟩ s → ∃ s', Sys.Reach s s' ∧ s'.Final) ↔
      ¬ ∃ (k : Nat) (x u : Nat → Nat), 0 < k ∧ (∀ i j, i < k → j < k → u i = u j → i = j) ∧
        ∀ i, i < k → AccCall.replace (x i) (x ((i + 1) % k)) ∈ l (u i)) := by
  have hret : ∀ t, n ≤ t → ∀ s, Sys.Reach ⟨m, fun t => (callScript (l t)).prog chk⟩ s → s.th t = .ret () := by
    intro t ht s hs
    induction hs with
    | refl => dsimp only; rw [hn t ht]; rfl
    | @step s' s'' v _ hs ih =>
      by_cases hv : t = v
      · subst hv; simp only [Sys.step, ih] at hs; cases hs
      · rw [(Sys.step_next hs).2 t hv]; exact ih
  refine ⟨Sys.no_infinite (n := n) fun t ht => ?_, ?_⟩
  · rw [hret t ht _ .refl]; trivial
  rw [← C128_scripts chk m hm l hc n hn]
  constructor
  · rintro h ⟨s, hs, hnf, hst⟩
    obtain ⟨s', h1, h2⟩ := h s hs
    have : s' = s := by
      clear h2
      induction h1 with
      | refl => rfl
      | step _ _ h ih => rw [ih, hst] at h; cases h
    exact hnf (this ▸ h2)
  · intro h s hs
    obtain ⟨s', h1, h2⟩ := Sys.exists_stuck (s := s) (n := n) fun t ht => by rw [hret t ht s hs]; trivial
    exact ⟨s', h1, Classical.byContradiction fun hnf => h ⟨s', hs.trans h1, hnf, h2⟩⟩

end

/-! ## Non-vacuity -/

/-- One thread copies header 1 to header 0 and back, another sets a bit of header 1 and copies it to header 2. -/
def calmCalls : Nat → List AccCall
  | 0 => [.replace 0 1, .replace 1 0]
  | 1 => [.set 1 (flagBit 3) 1#64, .replace 2 1]
  | _ => []

/-- One thread reads header 2 and copies header 1 to header 0, another copies header 2 to header 1, a third header 0 to
header 2. -/
def jamCalls : Nat → List AccCall
  | 0 => [.toVec 2, .replace 0 1]
  | 1 => [.replace 1 2]
  | 2 => [.replace 2 0]
  | _ => []

theorem calm_inside (t : Nat) : Inside (fun _ => 1) (callScript (calmCalls t)) := by
  match t with
  | 0 => exact ⟨by decide, rfl, fun _ _ => trivial, fun _ _ => .inl trivial, by decide, rfl, fun _ _ => trivial, fun _ _ => .inl trivial, trivial⟩
  | 1 => exact ⟨by decide, by decide, fun _ _ _ => trivial, by decide, rfl, fun _ _ => trivial, fun _ _ => .inl trivial, trivial⟩
  | _ + 2 => trivial

theorem jam_inside (t : Nat) : Inside (fun _ => 1) (callScript (jamCalls t)) := by
  match t with
  | 0 => exact ⟨fun _ _ => .inl trivial, fun _ => ⟨by decide, rfl, fun _ _ => trivial, fun _ _ => .inl trivial, trivial⟩⟩
  | 1 => exact ⟨by decide, rfl, fun _ _ => trivial, fun _ _ => .inl trivial, trivial⟩
  | 2 => exact ⟨by decide, rfl, fun _ _ => trivial, fun _ _ => .inl trivial, trivial⟩
  | _ + 3 => trivial

/-- No calls of different threads among these form a cycle of `replace`. -/
theorem calm_no_cycle : ¬ ∃ (k : Nat) (x u : Nat → Nat), 0 < k ∧ (∀ i j, i < k → j < k → u i = u j → i = j) ∧
    ∀ i, i < k → AccCall.replace (x i) (x ((i + 1) % k)) ∈ calmCalls (u i) := by
  rintro ⟨k, x, u, hk, hu, hE⟩
  have h2 : ∀ i, i < k → u i = 0 ∧ (x i = 0 ∧ x ((i + 1) % k) = 1 ∨ x i = 1 ∧ x ((i + 1) % k) = 0) ∨
      u i = 1 ∧ x i = 2 ∧ x ((i + 1) % k) = 1 := by
    intro i hi
    have := hE i hi
    generalize u i = v at this
    match v with
    | 0 => simpa [calmCalls] using this
    | 1 => simpa [calmCalls] using this
    | v + 2 => simp [calmCalls] at this
  -- nobody copies header 2, so the second thread has no part in it; the first cannot wait for itself
  have h3 : ∀ i, i < k → u ((i + 1) % k) = 0 := by
    intro i hi
    have hlt := Nat.mod_lt (i + 1) hk
    have a1 := h2 i hi
    have a2 := h2 _ hlt
    omega
  have h4 := hu _ _ (Nat.mod_lt (0 + 1) hk) (Nat.mod_lt ((0 + 1) % k + 1) hk) ((h3 0 hk).trans (h3 _ (Nat.mod_lt (0 + 1) hk)).symm)
  have := h2 _ (Nat.mod_lt (0 + 1) hk)
  rw [← h4] at this
  omega

-- no deadlock, although headers 0 and 1 are copied to each other, so that they cannot be numbered as C66 wants
example : ¬ ∃ s, Sys.Reach ⟨ballotStore, fun t => (callScript (calmCalls t)).prog true⟩ s ∧ Stuck s := by
  rw [C128_scripts (L := fun _ => 1) true ballotStore ballot_fresh calmCalls calm_inside 2 fun t ht => match t, ht with | t + 2, _ => rfl]
  exact calm_no_cycle

example (s : Sys Unit) (hs : Sys.Reach ⟨ballotStore, fun t => (callScript (calmCalls t)).prog true⟩ s) : ∃ s', Sys.Reach s s' ∧ s'.Final :=
  (C128_finish_iff (L := fun _ => 1) true ballotStore ballot_fresh calmCalls calm_inside 2 fun t ht => match t, ht with | _ + 2, _ => rfl).2.mpr
    calm_no_cycle s hs

-- three threads
example : ∃ s, Sys.Reach ⟨ballotStore, fun t => (callScript (jamCalls t)).prog true⟩ s ∧ Stuck s := by
  rw [C128_scripts (L := fun _ => 1) true ballotStore ballot_fresh jamCalls jam_inside 3 fun t ht => match t, ht with | t + 3, _ => rfl]
  refine ⟨3, id, id, by decide, fun _ _ _ _ h => h, fun i hi => ?_⟩
  match i, hi with
  | 0, _ => simp [jamCalls]
  | 1, _ => simp [jamCalls]
  | 2, _ => simp [jamCalls]

/-- Two threads that would copy headers 0 and 1 to each other, but look at the first bit of header 2 before: one does it if
the bit is set, the other if it is not. -/
def waryThreads : Nat → Client Unit
  | 0 => .get 2 (flagBit 0) fun v => if v = 0#64 then .done () else .replace 0 1 (.done ())
  | 1 => .get 2 (flagBit 0) fun v => if v = 0#64 then .replace 1 0 (.done ()) else .done ()
  | _ => .done ()

theorem wary_inside (t : Nat) : Inside (fun _ => 1) (waryThreads t) := by
  match t with
  | 0 =>
    refine ⟨Nat.le_refl 0, by decide, by decide, fun _ _ _ => .inl trivial, fun v => ?_⟩
    dsimp only
    split
    · trivial
    · exact ⟨by decide, rfl, fun _ _ => trivial, fun _ _ => .inl trivial, trivial⟩
  | 1 =>
    refine ⟨Nat.le_refl 0, by decide, by decide, fun _ _ _ => .inl trivial, fun v => ?_⟩
    dsimp only
    split
    · exact ⟨by decide, rfl, fun _ _ => trivial, fun _ _ => .inl trivial, trivial⟩
    · trivial
  | _ + 2 => trivial

-- they cannot deadlock: nobody writes header 2, so only one of the calls is ever made
example : ¬ ∃ s, Sys.Reach ⟨ballotStore, fun t => (waryThreads t).prog true⟩ s ∧ Stuck s := by
  rw [C128_deadlock_iff (L := fun _ => 1) true ballotStore ballot_fresh waryThreads wary_inside 2 fun t ht => match t, ht with | t + 2, _ => ⟨(), rfl⟩]
  rintro ⟨w, hw, k, x, u, hk, -, hu⟩
  have e0 : micro (waryThreads 0) = .read 2 0 fun b => if b then .copy 0 1 (.done ()) else .done () := by
    show Micro.read 2 0 _ = Micro.read 2 0 _
    congr 1; funext b; cases b <;> rfl
  have e1 : micro (waryThreads 1) = .read 2 0 fun b => if b then .done () else .copy 1 0 (.done ()) := by
    show Micro.read 2 0 _ = Micro.read 2 0 _
    congr 1; funext b; cases b <;> rfl
  have key : w.cont 2 = [0x00#8] ∧ (w.th 0 = micro (waryThreads 0) ∨ w.th 0 = .done ()) ∧
      (w.th 1 = micro (waryThreads 1) ∨ w.th 1 = .copy 1 0 (.done ()) ∨ w.th 1 = .done ()) ∧ ∀ t, 2 ≤ t → w.th t = .done () := by
    clear hu
    induction hw with
    | refl => exact ⟨rfl, .inl rfl, .inl rfl, fun t ht => match t, ht with | t + 2, _ => rfl⟩
    | @step w w' t _ hs ih =>
      obtain ⟨h1, h2, h3, h4⟩ := ih
      match t with
      | 0 =>
        rcases h2 with h2 | h2
        · rw [hs.of_read (h2.trans e0)]
          refine ⟨h1, .inr ?_, by simpa using h3, fun t ht => (if_neg (by omega)).trans (h4 t ht)⟩
          dsimp only
          rw [if_pos rfl, h1]; rfl
        · exact (hs.of_done h2).elim
      | 1 =>
        rcases h3 with h3 | h3 | h3
        · rw [hs.of_read (h3.trans e1)]
          refine ⟨h1, by simpa using h2, .inr (.inl ?_), fun t ht => (if_neg (by omega)).trans (h4 t ht)⟩
          dsimp only
          rw [if_pos rfl, h1]; rfl
        · rw [hs.of_copy h3]
          exact ⟨by simpa using h1, by simpa using h2, .inr (.inr rfl), fun t ht => (if_neg (by omega)).trans (h4 t ht)⟩
        · exact (hs.of_done h3).elim
      | t + 2 => exact (hs.of_done (h4 _ (by omega))).elim
  obtain ⟨-, h2, h3, h4⟩ := key
  have all : ∀ i, i < k → x i = 1 ∧ x ((i + 1) % k) = 0 := by
    intro i hi
    obtain ⟨q, hq⟩ := hu i hi
    generalize u i = v at hq
    match v with
    | 0 => rcases h2 with h | h <;> rw [h] at hq <;> cases hq
    | 1 =>
      rcases h3 with h | h | h
      · rw [h] at hq; cases hq
      · rw [h] at hq
        simp only [Micro.copy.injEq] at hq
        exact ⟨hq.1.symm, hq.2.1.symm⟩
      · rw [h] at hq; cases hq
    | v + 2 => rw [h4 _ (by omega)] at hq; cases hq
  have a1 := all 0 hk
  have a2 := all _ (Nat.mod_lt (0 + 1) hk)
  omega

end PacketRs
