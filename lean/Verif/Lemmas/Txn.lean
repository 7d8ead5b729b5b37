import Verif.Lemmas.Conc
/-!
# Schedules of whole calls of `replace`

`replace` holds two mutexes, so its sections are not those of `Verif.Lemmas.Conc`.  It is still atomic:
it takes effect at the moment it gets the second lock, and until it is done nobody else can look at the
target.  Here every terminated schedule of single steps is turned into one in which sections and whole
`replace` calls are single steps, and back.
-/
namespace PacketRs
open Spec
open Prog hiding bind

section
variable {α : Type}

/-- `replace` after unlocking has begun. -/
def replUnl (r o : Nat) (k : Prog α) : Prog α := .unlock o (.unlock r k)
/-- `replace` after reading `o`. -/
def replTail (r o : Nat) (d : Bytes) (k : Prog α) : Prog α := .load r fun e => .store r (e ++ d) (replUnl r o k)
/-- `replace` once it holds both. -/
def replBoth (r o : Nat) (k : Prog α) : Prog α := .load o fun d => replTail r o d k
/-- `replace` waiting for `o`. -/
def replLock (r o : Nat) (k : Prog α) : Prog α := .lock o (replBoth r o k)
/-- `replace` once it holds `r`. -/
def replRest (r o : Nat) (k : Prog α) : Prog α := .store r [] (replLock r o k)

theorem replaceP_bind (r o : Nat) (k : Prog α) :
    (replaceP r o).bind (fun _ => k) = .lock r (replRest r o k) := rfl

theorem replRest_inj {r o o' : Nat} {k k' : Prog α} (h : replRest r o k = replRest r o' k') : o = o' ∧ k = k' := by
  simp only [replRest, replLock, replBoth, replTail, replUnl, Prog.store.injEq, Prog.lock.injEq, Prog.load.injEq,
    true_and] at h
  obtain ⟨rfl, -, h⟩ := h
  have h1 := congrFun h []
  simp only [Prog.load.injEq, true_and] at h1
  have h2 := congrFun h1 []
  simp only [Prog.store.injEq, Prog.unlock.injEq, true_and] at h2
  exact ⟨rfl, h2⟩

/-- A sequence of critical sections and calls of `replace`. -/
inductive Txn : Prog α → Prop where
  | ret (a : α) : Txn (.ret a)
  | panic (f : Fault) : Txn (.panic f)
  | died (f : Fault) : Txn (.died f)
  | sect {r : Nat} {k : Prog α} (k' : Bytes → Prog α) (d' : Bytes → Bytes) (b : Bytes → Bool)
      (h : ∀ d, finish r k d = some (k' d, d' d, b d)) (hk : ∀ d, Txn (k' d)) : Txn (.lock r k)
  | repl (r o : Nat) {k : Prog α} (hk : Txn k) : Txn (.lock r (replRest r o k))

theorem Acc.txn {S : Nat → Prop} {p : Prog α} (h : Acc S p) : Txn p := by
  induction h with
  | ret a => exact .ret a
  | panic f => exact .panic f
  | died f => exact .died f
  | sect hr k' d' b h hb hk ih => exact .sect k' d' b h ih

theorem Acc.bind_txn {S : Nat → Prop} {β : Type} {p : Prog β} {f : β → Prog α} (hp : Acc S p) (hf : ∀ a, Txn (f a)) :
    Txn (p.bind f) := by
  induction hp with
  | ret a => exact hf a
  | panic e => exact .panic e
  | died e => exact .died e
  | sect hr k' d' b h hb hk ih =>
    exact .sect (fun d => (k' d).bind f) d' b (fun d => finish_bind f (h d)) ih

namespace Sys

/-- A step of thread `t` that executes a whole section or a whole `replace`. -/
inductive TStep (t : Nat) (s : Sys α) : Sys α → Prop where
  | panic {f : Fault} : s.th t = .panic f → TStep t s ⟨s.mem, s.setTh t (.died f)⟩
  | poisoned {r : Nat} {k : Prog α} : s.th t = .lock r k → (s.mem r).poisoned = true →
      TStep t s ⟨s.mem, s.setTh t (.panic .poisoned)⟩
  | sect {r : Nat} {k k' : Prog α} {d : Bytes} {b : Bool} : s.th t = .lock r k → (s.mem r).poisoned = false →
      finish r k (s.mem r).bytes = some (k', d, b) → TStep t s ⟨s.mem.put r ⟨d, b, none⟩, s.setTh t k'⟩
  | repl {r o : Nat} {k : Prog α} : s.th t = .lock r (replRest r o k) → r ≠ o → (s.mem r).poisoned = false →
      (s.mem o).poisoned = false → TStep t s ⟨s.mem.put r ⟨(s.mem o).bytes, false, none⟩, s.setTh t k⟩
  | replPoisoned {r o : Nat} {k : Prog α} : s.th t = .lock r (replRest r o k) → (s.mem r).poisoned = false →
      (s.mem o).poisoned = true → TStep t s ⟨s.mem.put r ⟨[], true, none⟩, s.setTh t (.died .poisoned)⟩

inductive TReach (s : Sys α) : Sys α → Prop where
  | refl : TReach s s
  | step {s' s'' : Sys α} (t : Nat) : TReach s s' → TStep t s' s'' → TReach s s''

/-- Where thread `t` is in `c` compared to `a`. -/
inductive Mode (c a : Sys α) (t : Nat) : Prop where
  /-- between sections -/
  | idle : (∀ x, (c.mem x).owner ≠ some t) → a.th t = c.th t → Mode c a t
  /-- inside a section, or unwinding; `a` is ahead -/
  | sect (r : Nat) : (∀ x, (c.mem x).owner = some t ↔ x = r) → (c.mem r).poisoned = false → (a.mem r).owner = none →
      finish r (c.th t) (c.mem r).bytes = some (a.th t, (a.mem r).bytes, (a.mem r).poisoned) → Mode c a t
  /-- `replace` holds its target only; `a` is behind -/
  | pend (r o : Nat) (k : Prog α) : (∀ x, (c.mem x).owner = some t ↔ x = r) → (c.mem r).poisoned = false →
      (a.mem r).owner = none → (a.mem r).poisoned = false → a.th t = .lock r (replRest r o k) →
      (c.th t = replRest r o k ∨ c.th t = replLock r o k ∧ (c.mem r).bytes = []) → Mode c a t
  /-- `replace` holds both; `a` is ahead -/
  | both (r o : Nat) (k : Prog α) : r ≠ o → (∀ x, (c.mem x).owner = some t ↔ x = r ∨ x = o) →
      (c.mem r).poisoned = false → a.mem r = ⟨(c.mem o).bytes, false, none⟩ → (c.mem o).poisoned = false →
      a.mem o = ⟨(c.mem o).bytes, false, none⟩ → a.th t = k →
      (c.th t = replBoth r o k ∧ (c.mem r).bytes = [] ∨
        c.th t = replTail r o (c.mem o).bytes k ∧ (c.mem r).bytes = [] ∨
        c.th t = .store r (c.mem o).bytes (replUnl r o k) ∨
        c.th t = replUnl r o k ∧ (c.mem r).bytes = (c.mem o).bytes) → Mode c a t

/-- What another thread does leaves the mode alone. -/
theorem Mode.congr {c a c' a' : Sys α} {u : Nat} (h : Mode c a u) (hc : c'.th u = c.th u) (ha : a'.th u = a.th u)
    (ho : ∀ x, (c'.mem x).owner = some u ↔ (c.mem x).owner = some u)
    (hm : ∀ x, (c.mem x).owner = some u → c'.mem x = c.mem x ∧ a'.mem x = a.mem x) : Mode c' a' u := by
  cases h with
  | idle h1 h2 => exact .idle (fun x hx => h1 x ((ho x).1 hx)) (by rw [ha, hc, h2])
  | sect r h1 h2 h3 h4 =>
    obtain ⟨e1, e2⟩ := hm r ((h1 r).2 rfl)
    exact .sect r (fun x => (ho x).trans (h1 x)) (by rw [e1]; exact h2) (by rw [e2]; exact h3) (by rw [hc, ha, e1, e2]; exact h4)
  | pend r o k h1 h2 h3 h4 h5 h6 =>
    obtain ⟨e1, e2⟩ := hm r ((h1 r).2 rfl)
    exact .pend r o k (fun x => (ho x).trans (h1 x)) (by rw [e1]; exact h2) (by rw [e2]; exact h3) (by rw [e2]; exact h4)
      (by rw [ha]; exact h5) (by rw [hc, e1]; exact h6)
  | both r o k h0 h1 h2 h3 h4 h5 h6 h7 =>
    obtain ⟨e1, e2⟩ := hm r ((h1 r).2 (.inl rfl))
    obtain ⟨e3, e4⟩ := hm o ((h1 o).2 (.inr rfl))
    exact .both r o k h0 (fun x => (ho x).trans (h1 x)) (by rw [e1]; exact h2) (by rw [e2, e3]; exact h3) (by rw [e3]; exact h4)
      (by rw [e4, e3]; exact h5) (by rw [ha]; exact h6) (by rw [hc, e1, e3]; exact h7)

/-- `a` is a state between transactions that `c` is on the way from or to. -/
structure TSim (c a : Sys α) : Prop where
  free : ∀ r, (c.mem r).owner = none → a.mem r = c.mem r
  mode : ∀ t, Mode c a t
  txn : ∀ t, Txn (a.th t)

theorem TSim.init {s : Sys α} (hf : AllFree s.mem) (ha : ∀ t, Txn (s.th t)) : TSim s s :=
  ⟨fun _ _ => rfl, fun _ => .idle (fun x => by rw [hf x]; simp) rfl, ha⟩

/-- A step of `t` that changes, in `c`, only the cell `r` and, in `a`, at most the cell `r'`, neither of them
owned by another thread before or after. -/
theorem TSim.after {c a : Sys α} (h : TSim c a) {t r : Nat} {n ca : Cell} {p q : Prog α}
    (hro : (c.mem r).owner = none ∨ (c.mem r).owner = some t) (hn : n.owner = none ∨ n.owner = some t)
    {r' : Nat} (hro' : (c.mem r').owner = none ∨ (c.mem r').owner = some t)
    (hfree : ∀ x, ((c.mem.put r n) x).owner = none → (a.mem.put r' ca) x = (c.mem.put r n) x)
    (hmode : Mode ⟨c.mem.put r n, c.setTh t p⟩ ⟨a.mem.put r' ca, a.setTh t q⟩ t) (htxn : Txn q) :
    TSim ⟨c.mem.put r n, c.setTh t p⟩ ⟨a.mem.put r' ca, a.setTh t q⟩ := by
  refine ⟨hfree, fun u => ?_, fun u => ?_⟩
  · by_cases hu : u = t
    · subst hu; exact hmode
    · have hne : ∀ (o : Option Nat), o = none ∨ o = some t → o ≠ some u := by
        rintro o (rfl | rfl) e
        · cases e
        · cases e; exact hu rfl
      refine (h.mode u).congr (by simp only [setTh_ne _ _ hu]) (by simp only [setTh_ne _ _ hu]) ?_ ?_
      · intro x
        by_cases hx : x = r
        · subst hx
          simp only [put_same]
          exact ⟨fun e => absurd e (hne _ hn), fun e => absurd e (hne _ hro)⟩
        · simp only [put_ne _ _ hx]
      · intro x hx
        have h1 : x ≠ r := by rintro rfl; exact hne _ hro hx
        have h2 : x ≠ r' := by rintro rfl; exact hne _ hro' hx
        exact ⟨put_ne _ _ h1, put_ne _ _ h2⟩
  · by_cases hu : u = t
    · subst hu; simpa using htxn
    · simp only [setTh_ne _ _ hu]; exact h.txn u

theorem setTh_self (s : Sys α) (t : Nat) : s.setTh t (s.th t) = s.th := by
  funext x
  by_cases hx : x = t
  · subst hx; simp
  · rw [setTh_ne _ _ hx]

/-- The same with `a` unchanged. -/
theorem TSim.same {c a : Sys α} (h : TSim c a) {t r : Nat} {n : Cell} {p : Prog α}
    (hro : (c.mem r).owner = none ∨ (c.mem r).owner = some t) (hn : n.owner = none ∨ n.owner = some t)
    (hfree : n.owner = none → a.mem r = n)
    (hmode : Mode ⟨c.mem.put r n, c.setTh t p⟩ a t) :
    TSim ⟨c.mem.put r n, c.setTh t p⟩ a := by
  have := h.after (t := t) (r := r) (r' := r) (ca := a.mem r) (p := p) (q := a.th t) hro hn hro (by
    intro x hx
    rw [put_eq_self _ rfl]
    by_cases hxr : x = r
    · subst hxr; rw [put_same] at hx ⊢; exact hfree hx
    · rw [put_ne _ _ hxr] at hx ⊢; exact h.free x hx) (by rw [put_eq_self _ rfl, setTh_self]; exact hmode) (h.txn t)
  rwa [put_eq_self _ rfl, setTh_self] at this

theorem TSim.step {c c' a : Sys α} (h : TSim c a) {t : Nat} (hs : c.step t = some c') :
    TSim c' a ∨ ∃ a', TStep t a a' ∧ TSim c' a' := by
  unfold Sys.step at hs
  cases h.mode t with
  | idle hid hth =>
    have htx := h.txn t
    rw [hth] at htx
    generalize hp : c.th t = p at htx hs
    rw [hp] at hth
    cases htx with
    | ret x => cases hs
    | died f => cases hs
    | panic f =>
      simp only [Option.some.injEq] at hs
      subst hs
      refine .inr ⟨_, .panic hth, ?_⟩
      rw [unwind_idle hid]
      refine ⟨h.free, fun u => ?_, fun u => ?_⟩
      · by_cases hu : u = t
        · subst hu; exact .idle hid (by simp)
        · exact (h.mode u).congr (by simp only [setTh_ne _ _ hu]) (by simp only [setTh_ne _ _ hu]) (fun _ => Iff.rfl)
            (fun _ _ => ⟨rfl, rfl⟩)
      · by_cases hu : u = t
        · subst hu; simpa using Txn.died f
        · simp only [setTh_ne _ _ hu]; exact h.txn u
    | @sect r k k' d' b hfin hk =>
      simp only at hs
      split at hs
      · cases hs
      next hno =>
      have ho : (c.mem r).owner = none := by simpa using hno
      have ham := h.free r ho
      split at hs
      · next hpo =>
        cases hs
        refine .inr ⟨_, .poisoned hth (by rw [ham]; exact hpo), ?_⟩
        refine ⟨h.free, fun u => ?_, fun u => ?_⟩
        · by_cases hu : u = t
          · subst hu; exact .idle hid (by simp)
          · exact (h.mode u).congr (by simp only [setTh_ne _ _ hu]) (by simp only [setTh_ne _ _ hu]) (fun _ => Iff.rfl)
              (fun _ _ => ⟨rfl, rfl⟩)
        · by_cases hu : u = t
          · subst hu; simpa using Txn.panic _
          · simp only [setTh_ne _ _ hu]; exact h.txn u
      · next hpo =>
        cases hs
        have hpo : (c.mem r).poisoned = false := by simpa using hpo
        refine .inr ⟨_, .sect hth (by rw [ham]; exact hpo) (hfin _), ?_⟩
        refine h.after (.inl ho) (.inr rfl) (.inl ho) ?_ ?_ (hk _)
        · intro x hx
          by_cases hxr : x = r
          · subst hxr; simp at hx
          · rw [put_ne _ _ hxr] at hx ⊢; rw [put_ne _ _ hxr]; exact h.free x hx
        · refine .sect r ?_ (by simp [hpo]) (by simp) ?_
          · intro x
            by_cases hxr : x = r
            · subst hxr; simp
            · simp only [put_ne _ _ hxr]; exact ⟨fun e => absurd e (hid x), fun e => absurd e hxr⟩
          · simp only [put_same, setTh_same, hfin, ham]
    | @repl r o k hk =>
      simp only at hs
      split at hs
      · cases hs
      next hno =>
      have ho : (c.mem r).owner = none := by simpa using hno
      have ham := h.free r ho
      split at hs
      · next hpo =>
        cases hs
        refine .inr ⟨_, .poisoned hth (by rw [ham]; exact hpo), ?_⟩
        refine ⟨h.free, fun u => ?_, fun u => ?_⟩
        · by_cases hu : u = t
          · subst hu; exact .idle hid (by simp)
          · exact (h.mode u).congr (by simp only [setTh_ne _ _ hu]) (by simp only [setTh_ne _ _ hu]) (fun _ => Iff.rfl)
              (fun _ _ => ⟨rfl, rfl⟩)
        · by_cases hu : u = t
          · subst hu; simpa using Txn.panic _
          · simp only [setTh_ne _ _ hu]; exact h.txn u
      · next hpo =>
        cases hs
        have hpo : (c.mem r).poisoned = false := by simpa using hpo
        refine .inl (h.same (.inl ho) (.inr rfl) (fun e => by cases e) ?_)
        refine .pend r o k ?_ (by simp [hpo]) (by rw [ham]; exact ho) (by rw [ham]; exact hpo) hth (.inl (by simp))
        intro x
        by_cases hxr : x = r
        · subst hxr; simp
        · simp only [put_ne _ _ hxr]; exact ⟨fun e => absurd e (hid x), fun e => absurd e hxr⟩
  | sect r h1 h2 h3 h4 =>
    left
    have ho := (h1 r).2 rfl
    have hown : ∀ (d : Bytes) x, ((c.mem.put r { c.mem r with bytes := d }) x).owner = some t ↔ x = r := by
      intro d x
      by_cases hxr : x = r
      · subst hxr; simp [ho]
      · simp only [put_ne _ _ hxr]; exact h1 x
    have hnone : ∀ (n : Cell), n.owner = none → ∀ x, ((c.mem.put r n) x).owner ≠ some t := by
      intro n hn x
      by_cases hxr : x = r
      · subst hxr; simp [hn]
      · simp only [put_ne _ _ hxr]; exact fun e => hxr ((h1 x).1 e)
    cases e : c.th t with
    | ret x => rw [e] at h4; simp [finish] at h4
    | died f => rw [e] at h4; simp [finish] at h4
    | lock r' k => rw [e] at h4; simp [finish] at h4
    | panic f =>
      rw [e] at h4 hs
      simp only [finish, Option.some.injEq, Prod.mk.injEq] at h4 hs
      subst hs
      have hu : c.mem.unwind t = c.mem.put r ⟨(c.mem r).bytes, true, none⟩ := by
        funext x
        by_cases hxr : x = r
        · subst hxr; simp [Store.unwind, ho]
        · simp only [Store.unwind, put_ne _ _ hxr]
          rw [if_neg fun e => hxr ((h1 x).1 e)]
      rw [hu]
      refine h.same (.inr ho) (.inl rfl) (fun _ => ?_) (.idle (hnone _ rfl) (by simp [h4]))
      cases ha : a.mem r with
      | mk b p o => rw [ha] at h3 h4; simp only at h3 h4; simp [h3, h4]
    | load r' k =>
      rw [e] at h4 hs
      simp only [finish] at h4
      split at h4
      · next er =>
        subst er
        cases hs
        have := h.same (t := t) (r := r') (n := { c.mem r' with bytes := (c.mem r').bytes }) (p := k (c.mem r').bytes) (.inr ho) (.inr ho)
          (fun e => by simp [ho] at e) (.sect r' (hown _) (by simp [h2]) h3 (by simpa using h4))
        rwa [put_eq_self _ rfl] at this
      · cases h4
    | store r' b k =>
      rw [e] at h4 hs
      simp only [finish] at h4
      split at h4
      · next er =>
        subst er
        cases hs
        exact h.same (.inr ho) (.inr ho) (fun e => by simp [ho] at e) (.sect r' (hown _) (by simp [h2]) h3 (by simpa using h4))
      · cases h4
    | unlock r' k =>
      rw [e] at h4 hs
      simp only [finish] at h4
      split at h4
      · next er =>
        subst er
        simp only [Option.some.injEq, Prod.mk.injEq] at h4 hs
        subst hs
        refine h.same (.inr ho) (.inl rfl) (fun _ => ?_) (.idle (hnone _ rfl) (by simp [h4]))
        cases ha : a.mem r' with
        | mk b p o => rw [ha] at h3 h4; simp only at h3 h4; simp [h3, h4, h2]
      · cases h4
  | pend r o k h1 h2 h3 h4 h5 h6 =>
    have ho := (h1 r).2 rfl
    have htx := h.txn t
    rw [h5] at htx
    have hkt : Txn k := by
      generalize hg : (Prog.lock r (replRest r o k)) = g at htx
      cases htx with
      | ret => cases hg
      | panic => cases hg
      | died => cases hg
      | @sect r' k' _ _ _ hfin _ =>
        cases hg
        have := hfin []
        simp [replRest, replLock, finish] at this
      | @repl r' o' k' hk =>
        simp only [Prog.lock.injEq] at hg
        obtain ⟨rfl, hg⟩ := hg
        obtain ⟨-, rfl⟩ := replRest_inj hg
        exact hk
    rcases h6 with h6 | ⟨h6, h7⟩
    · rw [h6] at hs
      cases hs
      refine .inl (h.same (.inr ho) (.inr ho) (fun e => by simp [ho] at e) ?_)
      refine .pend r o k ?_ (by simp [h2]) h3 h4 h5 (.inr ⟨by simp, by simp⟩)
      intro x
      by_cases hxr : x = r
      · subst hxr; simp [ho]
      · simp only [put_ne _ _ hxr]; exact h1 x
    · rw [h6] at hs
      simp only [replLock] at hs
      split at hs
      · cases hs
      next hno =>
      have hoo : (c.mem o).owner = none := by simpa using hno
      have hro : r ≠ o := by rintro rfl; rw [ho] at hoo; cases hoo
      have hao := h.free o hoo
      split at hs
      · next hpo =>
        cases hs
        refine .inr ⟨_, .replPoisoned h5 h4 (by rw [hao]; exact hpo), ?_⟩
        have := h.after (t := t) (r := r) (n := c.mem r) (r' := r) (ca := ⟨[], true, none⟩) (p := .panic .poisoned)
          (q := .died .poisoned) (.inr ho) (.inr ho) (.inr ho) ?_ ?_ (.died _)
        · rwa [put_eq_self _ rfl] at this
        · intro x hx
          rw [put_eq_self _ rfl] at hx ⊢
          have hxr : x ≠ r := by rintro rfl; rw [ho] at hx; cases hx
          rw [put_ne _ _ hxr]; exact h.free x hx
        · rw [put_eq_self _ rfl]
          exact .sect r h1 h2 (by simp) (by simp [finish, h7])
      · next hpo =>
        cases hs
        have hpo : (c.mem o).poisoned = false := by simpa using hpo
        refine .inr ⟨_, .repl h5 hro h4 (by rw [hao]; exact hpo), ?_⟩
        refine h.after (.inl hoo) (.inr rfl) (.inr ho) ?_ ?_ hkt
        · intro x hx
          have hxo : x ≠ o := by rintro rfl; simp at hx
          rw [put_ne _ _ hxo] at hx ⊢
          have hxr : x ≠ r := by rintro rfl; rw [ho] at hx; cases hx
          rw [put_ne _ _ hxr]; exact h.free x hx
        · refine .both r o k hro ?_ ?_ ?_ ?_ ?_ (by simp) (.inl ⟨by simp, ?_⟩)
          · intro x
            by_cases hxo : x = o
            · subst hxo; simp
            · simp only [put_ne _ _ hxo, h1]; simp [hxo]
          · simp only [put_ne _ _ hro]; exact h2
          · simp [hao]
          · simp [hpo]
          · simp only [put_ne _ _ hro.symm, put_same, hao]
            cases hc : c.mem o with
            | mk b p w => rw [hc] at hoo hpo; simp only at hoo hpo; simp [hoo, hpo]
          · simp only [put_ne _ _ hro]; exact h7
  | both r o k h0 h1 h2 h3 h4 h5 h6 h7 =>
    left
    have hr := (h1 r).2 (.inl rfl)
    have ho := (h1 o).2 (.inr rfl)
    have hown : ∀ (d : Bytes) x, ((c.mem.put r { c.mem r with bytes := d }) x).owner = some t ↔ x = r ∨ x = o := by
      intro d x
      by_cases hxr : x = r
      · subst hxr; simp [hr]
      · simp only [put_ne _ _ hxr]; exact h1 x
    rcases h7 with ⟨h7, h8⟩ | ⟨h7, h8⟩ | h7 | ⟨h7, h8⟩
    · rw [h7] at hs
      simp only [replBoth] at hs
      cases hs
      have := h.same (t := t) (r := r) (n := { c.mem r with bytes := (c.mem r).bytes }) (p := replTail r o (c.mem o).bytes k) (.inr hr) (.inr hr)
        (fun e => by simp [hr] at e) (.both r o k h0 (hown _) (by simp [h2]) (by simpa [put_ne _ _ h0.symm] using h3)
          (by simpa [put_ne _ _ h0.symm] using h4) (by simpa [put_ne _ _ h0.symm] using h5) h6
          (.inr (.inl ⟨by simp [put_ne _ _ h0.symm], by simpa using h8⟩)))
      rwa [put_eq_self _ rfl] at this
    · rw [h7] at hs
      simp only [replTail, h8, List.nil_append] at hs
      cases hs
      have := h.same (t := t) (r := r) (n := { c.mem r with bytes := (c.mem r).bytes }) (p := .store r (c.mem o).bytes (replUnl r o k)) (.inr hr) (.inr hr)
        (fun e => by simp [hr] at e) (.both r o k h0 (hown _) (by simp [h2]) (by simpa [put_ne _ _ h0.symm] using h3)
          (by simpa [put_ne _ _ h0.symm] using h4) (by simpa [put_ne _ _ h0.symm] using h5) h6
          (.inr (.inr (.inl (by simp [put_ne _ _ h0.symm])))))
      rwa [put_eq_self _ rfl] at this
    · rw [h7] at hs
      cases hs
      exact h.same (.inr hr) (.inr hr) (fun e => by simp [hr] at e)
        (.both r o k h0 (hown _) (by simp [h2]) (by simpa [put_ne _ _ h0.symm] using h3)
          (by simpa [put_ne _ _ h0.symm] using h4) (by simpa [put_ne _ _ h0.symm] using h5) h6
          (.inr (.inr (.inr ⟨by simp, by simp [put_ne _ _ h0.symm]⟩))))
    · rw [h7] at hs
      simp only [replUnl] at hs
      cases hs
      refine h.same (.inr ho) (.inl rfl) (fun _ => by rw [h5]; simp [h4]) ?_
      refine .sect r ?_ (by simp only [put_ne _ _ h0]; exact h2) (by rw [h3]) ?_
      · intro x
        by_cases hxo : x = o
        · subst hxo; simp [h0.symm]
        · simp only [put_ne _ _ hxo, h1]; simp [hxo]
      · simp only [setTh_same, finish, if_true, put_ne _ _ h0, h3, h6, h8]

theorem TSim.reach {s c : Sys α} (hf : AllFree s.mem) (ha : ∀ t, Txn (s.th t)) (h : Reach s c) :
    ∃ a, TReach s a ∧ TSim c a := by
  induction h with
  | refl => exact ⟨s, .refl, TSim.init hf ha⟩
  | step t _ hs ih =>
    obtain ⟨a, h1, h2⟩ := ih
    rcases h2.step hs with h3 | ⟨a', h3, h4⟩
    · exact ⟨a, h1, h3⟩
    · exact ⟨a', .step t h1 h3, h4⟩

/-- A thread that has finished is the same in both. -/
theorem TSim.finished {c a : Sys α} (h : TSim c a) {t : Nat} (hc : (c.th t).Finished) :
    (∀ x, (c.mem x).owner ≠ some t) ∧ a.th t = c.th t := by
  cases h.mode t with
  | idle h1 h2 => exact ⟨h1, h2⟩
  | sect r h1 h2 h3 h4 => cases e : c.th t <;> rw [e] at h4 hc <;> first | exact hc.elim | simp [finish] at h4
  | pend r o k h1 h2 h3 h4 h5 h6 =>
    rcases h6 with h6 | ⟨h6, -⟩ <;> rw [h6] at hc <;> exact hc.elim
  | both r o k h0 h1 h2 h3 h4 h5 h6 h7 =>
    rcases h7 with ⟨h7, -⟩ | ⟨h7, -⟩ | h7 | ⟨h7, -⟩ <;> rw [h7] at hc <;> exact hc.elim

theorem TSim.final {c a : Sys α} (h : TSim c a) (hc : c.Final) : a = c := by
  have h1 : a.mem = c.mem := by
    funext r
    refine h.free r ?_
    cases e : (c.mem r).owner with
    | none => rfl
    | some t => exact absurd e ((h.finished (hc t)).1 r)
  have h2 : a.th = c.th := by
    funext t
    exact (h.finished (hc t)).2
  cases a; cases c; cases h1; cases h2; rfl

/-- A terminated execution has the outcome of one whose steps are whole sections and `replace` calls. -/
theorem treach_of_reach {s c : Sys α} (hf : AllFree s.mem) (ha : ∀ t, Txn (s.th t)) (h : Reach s c)
    (hc : c.Final) : TReach s c := by
  obtain ⟨a, h1, h2⟩ := TSim.reach hf ha h
  rwa [h2.final hc] at h1

theorem TReach.trans {s s' s'' : Sys α} (h : TReach s s') (h' : TReach s' s'') : TReach s s'' := by
  induction h' with
  | refl => exact h
  | step t _ hs ih => exact .step t ih hs

/-- A whole section or `replace` call is a possible schedule. -/
theorem reach_of_tstep {t : Nat} {s s' : Sys α} (hf : AllFree s.mem) (h : TStep t s s') :
    Reach s s' ∧ AllFree s'.mem := by
  have hset : ∀ (m : Store) (p q : Prog α), (⟨m, s.setTh t p⟩ : Sys α).setTh t q = s.setTh t q := by
    intro m p q; funext x; simp only [setTh]; split <;> rfl
  have one : ∀ (x y : Sys α), x.step t = some y → Reach x y := fun x y hxy => .step t .refl hxy
  cases h with
  | @panic f e => exact reach_of_astep (t := t) hf (by simp only [astep, e])
  | @poisoned r k e hp => exact reach_of_astep (t := t) hf (by simp only [astep, e, hp, if_true])
  | @sect r k k' d b e hp hfin => exact reach_of_astep (t := t) hf (by simp only [astep, e, hp, hfin, Bool.false_eq_true, if_false])
  | @repl r o k e hne hp hpo =>
    refine ⟨?_, hf.put rfl⟩
    have e1 : s.step t = some ⟨s.mem.put r ⟨(s.mem r).bytes, false, some t⟩, s.setTh t (replRest r o k)⟩ := by
      simp only [Sys.step, e, hf r, hp, ne_eq, not_true_eq_false, if_false, Bool.false_eq_true]
    refine (one _ _ e1).trans ?_
    have e2 : (⟨s.mem.put r ⟨(s.mem r).bytes, false, some t⟩, s.setTh t (replRest r o k)⟩ : Sys α).step t =
        some ⟨s.mem.put r ⟨[], false, some t⟩, s.setTh t (replLock r o k)⟩ := by
      simp only [Sys.step, setTh_same, replRest, hset, put_same, put_put]
    refine (one _ _ e2).trans ?_
    have e3 : (⟨s.mem.put r ⟨[], false, some t⟩, s.setTh t (replLock r o k)⟩ : Sys α).step t =
        some ⟨(s.mem.put r ⟨[], false, some t⟩).put o ⟨(s.mem o).bytes, false, some t⟩, s.setTh t (replBoth r o k)⟩ := by
      simp only [Sys.step, setTh_same, replLock, hset, put_ne _ _ hne.symm, hf o, hpo, ne_eq, not_true_eq_false, if_false,
        Bool.false_eq_true]
    refine (one _ _ e3).trans ?_
    have e4 : (⟨(s.mem.put r ⟨[], false, some t⟩).put o ⟨(s.mem o).bytes, false, some t⟩, s.setTh t (replBoth r o k)⟩ : Sys α).step t =
        some ⟨(s.mem.put r ⟨[], false, some t⟩).put o ⟨(s.mem o).bytes, false, some t⟩, s.setTh t (replTail r o (s.mem o).bytes k)⟩ := by
      simp only [Sys.step, setTh_same, replBoth, hset, put_same]
    refine (one _ _ e4).trans ?_
    have e5 : (⟨(s.mem.put r ⟨[], false, some t⟩).put o ⟨(s.mem o).bytes, false, some t⟩, s.setTh t (replTail r o (s.mem o).bytes k)⟩ : Sys α).step t =
        some ⟨(s.mem.put r ⟨[], false, some t⟩).put o ⟨(s.mem o).bytes, false, some t⟩, s.setTh t (.store r (s.mem o).bytes (replUnl r o k))⟩ := by
      simp only [Sys.step, setTh_same, replTail, hset, put_ne _ _ hne, put_same, List.nil_append]
    refine (one _ _ e5).trans ?_
    have e6 : (⟨(s.mem.put r ⟨[], false, some t⟩).put o ⟨(s.mem o).bytes, false, some t⟩, s.setTh t (.store r (s.mem o).bytes (replUnl r o k))⟩ : Sys α).step t =
        some ⟨((s.mem.put r ⟨[], false, some t⟩).put o ⟨(s.mem o).bytes, false, some t⟩).put r ⟨(s.mem o).bytes, false, some t⟩, s.setTh t (replUnl r o k)⟩ := by
      simp only [Sys.step, setTh_same, hset, put_ne _ _ hne, put_same]
    refine (one _ _ e6).trans ?_
    have e7 : (⟨((s.mem.put r ⟨[], false, some t⟩).put o ⟨(s.mem o).bytes, false, some t⟩).put r ⟨(s.mem o).bytes, false, some t⟩, s.setTh t (replUnl r o k)⟩ : Sys α).step t =
        some ⟨(((s.mem.put r ⟨[], false, some t⟩).put o ⟨(s.mem o).bytes, false, some t⟩).put r ⟨(s.mem o).bytes, false, some t⟩).put o ⟨(s.mem o).bytes, false, none⟩, s.setTh t (.unlock r k)⟩ := by
      simp only [Sys.step, setTh_same, replUnl, hset, put_ne _ _ hne.symm, put_same]
    refine (one _ _ e7).trans (one _ _ ?_)
    simp only [Sys.step, setTh_same, hset, put_ne _ _ hne, put_same, Option.some.injEq, Sys.mk.injEq, and_true]
    funext x
    by_cases hxr : x = r
    · subst hxr; simp
    · rw [put_ne _ _ hxr, put_ne _ _ hxr]
      by_cases hxo : x = o
      · subst hxo
        rw [put_same]
        have := hf x
        cases hc : s.mem x with
        | mk b p w => rw [hc] at this hpo; simp only at this hpo; simp [this, hpo]
      · rw [put_ne _ _ hxo, put_ne _ _ hxr, put_ne _ _ hxo, put_ne _ _ hxr]
  | @replPoisoned r o k e hp hpo =>
    refine ⟨?_, hf.put rfl⟩
    have hne : r ≠ o := by rintro rfl; rw [hp] at hpo; cases hpo
    have e1 : s.step t = some ⟨s.mem.put r ⟨(s.mem r).bytes, false, some t⟩, s.setTh t (replRest r o k)⟩ := by
      simp only [Sys.step, e, hf r, hp, ne_eq, not_true_eq_false, if_false, Bool.false_eq_true]
    refine (one _ _ e1).trans ?_
    have e2 : (⟨s.mem.put r ⟨(s.mem r).bytes, false, some t⟩, s.setTh t (replRest r o k)⟩ : Sys α).step t =
        some ⟨s.mem.put r ⟨[], false, some t⟩, s.setTh t (replLock r o k)⟩ := by
      simp only [Sys.step, setTh_same, replRest, hset, put_same, put_put]
    refine (one _ _ e2).trans ?_
    have e3 : (⟨s.mem.put r ⟨[], false, some t⟩, s.setTh t (replLock r o k)⟩ : Sys α).step t =
        some ⟨s.mem.put r ⟨[], false, some t⟩, s.setTh t (.panic .poisoned)⟩ := by
      simp only [Sys.step, setTh_same, replLock, hset, put_ne _ _ hne.symm, hf o, hpo, ne_eq, not_true_eq_false, if_false, if_true]
    refine (one _ _ e3).trans (one _ _ ?_)
    simp only [Sys.step, setTh_same, hset, unwind_put (hf.idle t)]

theorem reach_of_treach {s s' : Sys α} (hf : AllFree s.mem) (h : TReach s s') : Reach s s' ∧ AllFree s'.mem := by
  induction h with
  | refl => exact ⟨.refl, hf⟩
  | step t _ hs ih =>
    obtain ⟨h1, h2⟩ := ih
    obtain ⟨h3, h4⟩ := reach_of_tstep h2 hs
    exact ⟨h1.trans h3, h4⟩

end Sys
end
end PacketRs
