import Verif.Props.Atomic
import Verif.Props.Deadlock
import Verif.Props.Refresh
import Verif.Spec.Cells
/-!
# C125: headers edited in a copy of one's own and published with `replace`
-/
namespace PacketRs
open Spec

section
variable {α : Type} {L : Nat → Nat} {own : Nat → Option Nat}

/-! ## Deadlock -/

theorem Spec.Tidy.replaces {t : Nat} : (c : Client α) → Tidy own t c →
    Replaces (fun r o => r ≠ o ∧ (own r = some t ∧ (own o = some t ∨ own o = none) ∨ own r = none ∧ own o = some t)) c
  | .done _, _ => trivial
  | .get _ _ k, h => fun v => Tidy.replaces (k v) (h.2 v)
  | .set _ _ _ k, h => Tidy.replaces k h.2
  | .bytes _ _ _ k, h => fun v => Tidy.replaces (k v) (h.2 v)
  | .setBytes _ _ _ _ k, h => Tidy.replaces k h.2
  | .toVec _ k, h => fun v => Tidy.replaces (k v) (h.2 v)
  | .replace _ _ k, h => ⟨⟨h.1, h.2.1⟩, Tidy.replaces k h.2.2⟩

/-- C125.  Threads that edit headers of their own and only copy and overwrite the shared ones never deadlock, although
they copy in both directions (so that C66's numbering of the headers does not exist): no reachable state is stuck, no
schedule is infinite, and some schedule ends.  Whatever panics or is poisoned. -/
theorem C125_ends (chk : Bool) (m : Store) (hm : ∀ r, (m r).owner = none) (c : Nat → Client α)
    (hc : ∀ t, Tidy own t (c t)) (n : Nat) (hn : ∀ t, n ≤ t → ∃ a, c t = .done a) :
    (∀ s, Sys.Reach ⟨m, fun t => (c t).prog chk⟩ s → ¬ Stuck s) ∧
    (¬ ∃ (σ : Nat → Sys α) (sch : Nat → Nat), σ 0 = ⟨m, fun t => (c t).prog chk⟩ ∧
      ∀ i, (σ i).step (sch i) = some (σ (i + 1))) ∧
    ∃ s, Sys.Reach ⟨m, fun t => (c t).prog chk⟩ s ∧ s.Final := by
  have hfin : ∀ t, n ≤ t → ((⟨m, fun t => (c t).prog chk⟩ : Sys α).th t).Finished := by
    intro t ht
    obtain ⟨a, ha⟩ := hn t ht
    simp only [ha]; trivial
  have hns : ∀ s, Sys.Reach ⟨m, fun t => (c t).prog chk⟩ s → ¬ Stuck s := by
    intro s hs hst
    obtain ⟨⟨t, r, o, hr, hb⟩, hnext⟩ := C66_deadlock_is_a_cycle chk m hm c
      (fun t r o => r ≠ o ∧ (own r = some t ∧ (own o = some t ∨ own o = none) ∨ own r = none ∧ own o = some t))
      (fun t => Tidy.replaces (c t) (hc t)) hs hst
    -- nobody waits for a header of their own
    have key : ∀ t r o, Blocked s t r o → own o = some t → False := by
      intro t r o hb ho
      obtain ⟨u, o', ⟨h1, h2⟩, h3⟩ := hnext t r o hb
      have hu : u = t := by
        rcases h2 with ⟨h2, -⟩ | ⟨h2, -⟩
        · rw [ho] at h2; exact (Option.some.inj h2).symm
        · rw [ho] at h2; cases h2
      subst hu
      obtain ⟨k, hk⟩ := hb.waits
      obtain ⟨k', hk'⟩ := h3.waits
      rw [hk] at hk'
      exact h1 (Prog.lock.inj hk').1
    rcases hr.2 with ⟨-, ho | ho⟩ | ⟨-, ho⟩
    · exact key t r o hb ho
    · obtain ⟨u, o', ⟨-, h2⟩, h3⟩ := hnext t r o hb
      rcases h2 with ⟨h2, -⟩ | ⟨-, h2⟩
      · rw [ho] at h2; cases h2
      · exact key u o o' h3 h2
    · exact key t r o hb ho
  refine ⟨hns, Sys.no_infinite hfin, ?_⟩
  obtain ⟨s, hr, hst⟩ := Sys.exists_stuck hfin
  exact ⟨s, hr, Classical.byContradiction fun hnf => hns s hr ⟨hnf, hst⟩⟩

/-! ## From bits to cells -/

theorem getMsbD_mask (x : Byte) (b : Bool) (i j : Nat) (hi : i < 8) (hj : j < 8) :
    (if b then x ||| 0x80#8 >>> i else x &&& ~~~(0x80#8 >>> i)).getMsbD j = if j = i then b else x.getMsbD j := by
  have hm : (0x80#8 >>> i).getMsbD j = decide (j = i) := by
    have h1 : i = 0 ∨ i = 1 ∨ i = 2 ∨ i = 3 ∨ i = 4 ∨ i = 5 ∨ i = 6 ∨ i = 7 := by omega
    have h2 : j = 0 ∨ j = 1 ∨ j = 2 ∨ j = 3 ∨ j = 4 ∨ j = 5 ∨ j = 6 ∨ j = 7 := by omega
    rcases h1 with rfl | rfl | rfl | rfl | rfl | rfl | rfl | rfl <;>
      rcases h2 with rfl | rfl | rfl | rfl | rfl | rfl | rfl | rfl <;> rfl
  cases b
  · simp only [Bool.false_eq_true, if_false, BitVec.getMsbD_and, BitVec.getMsbD_not, hm, hj, decide_true, Bool.true_and]
    by_cases h : j = i <;> simp [h]
  · simp only [if_true, BitVec.getMsbD_or, hm]
    by_cases h : j = i <;> simp [h]

theorem putBit_length (d : Bytes) (i : Nat) (b : Bool) : (putBit d i b).length = d.length := by simp [putBit]

theorem putBit_spec (d : Bytes) (i : Nat) (b : Bool) (h : i < 8 * d.length) : BitSet d i b (putBit d i b) := by
  refine ⟨putBit_length d i b, fun j => ?_⟩
  unfold putBit
  rw [netBit_set _ _ _ _ (by omega)]
  by_cases hj : j / 8 = i / 8
  · rw [if_pos hj, getMsbD_mask _ _ _ _ (by omega) (by omega)]
    by_cases h2 : j % 8 = i % 8
    · rw [if_pos h2, if_pos (by omega)]
    · rw [if_neg h2, if_neg (by omega), netBit, hj]
  · rw [if_neg hj, if_neg (by omega)]

/-- `Tidy` and `Inside` for threads of the machine of atomic bits. -/
def TidyM (L : Nat → Nat) (own : Nat → Option Nat) (t : Nat) : Micro α → Prop
  | .done _ => True
  | .read r _ k => own r = some t ∧ ∀ b, TidyM L own t (k b)
  | .write r i _ k => own r = some t ∧ i < 8 * L r ∧ TidyM L own t k
  | .readAll r k => (own r = some t ∨ own r = none) ∧ ∀ v, TidyM L own t (k v)
  | .copy r o k => L r = L o ∧ (own r = some t ∧ (own o = some t ∨ own o = none) ∨ own r = none ∧ own o = some t) ∧
      TidyM L own t k

theorem tidyM_readBits {t r : Nat} (hr : own r = some t) (n : Nat) : ∀ (lo : Nat) (k : List Bool → Micro α),
    (∀ bs, TidyM L own t (k bs)) → TidyM L own t (readBits r lo n k) := by
  induction n with
  | zero => intro lo k h; exact h []
  | succ n ih => intro lo k h; exact ⟨hr, fun b => ih _ _ fun bs => h _⟩

theorem tidyM_writeBits {t r hi : Nat} (hr : own r = some t) (hh : hi < 8 * L r) (v : Nat → Bool) (k : Micro α)
    (hk : TidyM L own t k) (n : Nat) : ∀ j, TidyM L own t (writeBits r hi v k n j) := by
  induction n with
  | zero => intro j; exact hk
  | succ n ih => intro j; exact ⟨hr, by omega, ih _⟩

theorem tidyM_readOctets {t r : Nat} (hr : own r = some t) (n : Nat) : ∀ (lo : Nat) (k : Bytes → Micro α),
    (∀ v, TidyM L own t (k v)) → TidyM L own t (readOctets r lo n k) := by
  induction n with
  | zero => intro lo k h; exact h []
  | succ n ih => intro lo k h; exact tidyM_readBits hr 8 _ _ fun bs => ih _ _ fun v => h _

theorem tidyM_writeOctets {t r : Nat} (hr : own r = some t) (k : Micro α) (hk : TidyM L own t k) (v : Bytes) :
    ∀ lo, lo + 8 * v.length ≤ 8 * L r → TidyM L own t (writeOctets r lo v k) := by
  induction v with
  | nil => intro lo _; exact hk
  | cons b v ih =>
    intro lo h
    rw [List.length_cons] at h
    exact tidyM_writeBits hr (by omega) _ _ (ih _ (by omega)) _ _

theorem tidyM_micro {t : Nat} : (c : Client α) → Inside L c → Tidy own t c → TidyM L own t (micro c)
  | .done _, _, _ => trivial
  | .get _ _ k, h, g => tidyM_readBits g.1 _ _ _ fun _ => tidyM_micro (k _) (h.2.2.2.2 _) (g.2 _)
  | .set _ _ _ k, h, g => tidyM_writeBits g.1 h.2.1 _ _ (tidyM_micro k h.2.2.2 g.2) _ _
  | .bytes _ _ _ k, h, g => tidyM_readOctets g.1 _ _ _ fun _ => tidyM_micro (k _) (h.2.2.2.2.2 _) (g.2 _)
  | .setBytes _ _ _ v k, h, g => by
    obtain ⟨h1, h2, h3, h4, -, h6⟩ := h
    exact tidyM_writeOctets g.1 _ (tidyM_micro k h6 g.2) v _ (by omega)
  | .toVec _ k, h, g => ⟨g.1, fun v => tidyM_micro (k v) (h.2 v) (g.2 v)⟩
  | .replace _ _ k, h, g => ⟨h.2.1, g.2.1, tidyM_micro k h.2.2.2.2 g.2.2⟩

/-- What is seen of a thread depends on its own headers only. -/
theorem cells_congr {t : Nat} : (q : Micro α) → TidyM L own t q → ∀ {p p' : Nat → Bytes},
    (∀ r, own r = some t → p r = p' r) → cells own q p = cells own q p'
  | .done _, _, _, _, _ => rfl
  | .read r i k, h, p, p', e => by
    simp only [cells]; rw [e r h.1]; exact cells_congr (k _) (h.2 _) e
  | .write r i b k, h, p, p', e => by
    simp only [cells]; rw [e r h.1]
    refine cells_congr k h.2.2 fun z hz => ?_
    split
    · rfl
    · exact e z hz
  | .readAll r k, h, p, p', e => by
    simp only [cells]
    by_cases hr : own r = none
    · rw [if_pos hr, if_pos hr]; congr 1; funext v; exact cells_congr (k v) (h.2 v) e
    · rw [if_neg hr, if_neg hr, e r (h.1.resolve_right hr)]; exact cells_congr (k _) (h.2 _) e
  | .copy r o k, h, p, p', e => by
    simp only [cells]
    obtain ⟨-, h1, h2⟩ := h
    by_cases hr : own r = none
    · have ho : own o = some t := by
        rcases h1 with ⟨h1, -⟩ | ⟨-, h1⟩
        · rw [hr] at h1; cases h1
        · exact h1
      rw [if_pos hr, if_pos hr, e o ho, cells_congr k h2 e]
    · rw [if_neg hr, if_neg hr]
      by_cases ho : own o = none
      · rw [if_pos ho, if_pos ho]; congr 1; funext v
        refine cells_congr k h2 fun z hz => ?_
        split
        · rfl
        · exact e z hz
      · have ho' : own o = some t := by
          rcases h1 with ⟨-, h1 | h1⟩ | ⟨h1, -⟩
          · exact h1
          · exact absurd h1 ho
          · exact absurd h1 hr
        rw [if_neg ho, if_neg ho, e o ho']
        refine cells_congr k h2 fun z hz => ?_
        split
        · rfl
        · exact e z hz

/-- The machine of bits and the machine of cells show the same. -/
structure Shown (L : Nat → Nat) (own : Nat → Option Nat) (w : Machine α) (b : Board α) : Prop where
  len : ∀ r, (w.cont r).length = L r
  cont : ∀ r, own r = none → b.cont r = w.cont r
  tidy : ∀ t, TidyM L own t (w.th t)
  th : ∀ t, b.th t = cells own (w.th t) w.cont

/-- A thread has written one of its own headers. -/
theorem Shown.inner {w : Machine α} {b : Board α} (h : Shown L own w b) {t r : Nat} (hr : own r = some t) {d : Bytes}
    (hd : d.length = L r) {q : Micro α} (hq : TidyM L own t q)
    (he : b.th t = cells own q fun z => if z = r then d else w.cont z) :
    Shown L own ⟨fun z => if z = r then d else w.cont z, fun z => if z = t then q else w.th z⟩ b := by
  refine ⟨fun x => ?_, fun x hx => ?_, fun u => ?_, fun u => ?_⟩
  · dsimp only; split
    · rename_i e; subst e; exact hd
    · exact h.len x
  · have : x ≠ r := fun e => by subst e; rw [hr] at hx; cases hx
    simp only [if_neg this]; exact h.cont x hx
  · dsimp only; split
    · rename_i e; subst e; exact hq
    · exact h.tidy u
  · dsimp only; split
    · rename_i e; subst e; exact he
    · rename_i e
      rw [h.th u]
      refine cells_congr _ (h.tidy u) fun z hz => ?_
      have : z ≠ r := fun e' => by subst e'; rw [hr] at hz; exact e (Option.some.inj hz).symm
      rw [if_neg this]

/-- A thread has written nothing. -/
theorem Shown.quiet {w : Machine α} {b : Board α} (h : Shown L own w b) {t : Nat} {q : Micro α} (hq : TidyM L own t q)
    {x : Cells α} (he : x = cells own q w.cont) :
    Shown L own ⟨w.cont, fun z => if z = t then q else w.th z⟩ ⟨b.cont, fun z => if z = t then x else b.th z⟩ := by
  refine ⟨h.len, h.cont, fun u => ?_, fun u => ?_⟩
  · dsimp only; split
    · rename_i e; subst e; exact hq
    · exact h.tidy u
  · dsimp only; split
    · exact he
    · exact h.th u

theorem self_update {β : Type} (f : Nat → β) (t : Nat) {x : β} (h : f t = x) : (fun z => if z = t then x else f z) = f := by
  funext z; split
  · rename_i e; subst e; exact h.symm
  · rfl

/-- A thread has overwritten a shared header. -/
theorem Shown.outer {w : Machine α} {b : Board α} (h : Shown L own w b) {t r : Nat} (hr : own r = none) {d : Bytes}
    (hd : d.length = L r) {q : Micro α} (hq : TidyM L own t q) {x : Cells α} (he : x = cells own q w.cont) :
    Shown L own ⟨fun z => if z = r then d else w.cont z, fun z => if z = t then q else w.th z⟩
      ⟨fun z => if z = r then d else b.cont z, fun z => if z = t then x else b.th z⟩ := by
  have hp : ∀ u (q : Micro α), TidyM L own u q → cells own q w.cont = cells own q fun z => if z = r then d else w.cont z := by
    intro u q hq
    refine cells_congr q hq fun z hz => ?_
    have : z ≠ r := fun e' => by subst e'; rw [hr] at hz; cases hz
    rw [if_neg this]
  refine ⟨fun x => ?_, fun x hx => ?_, fun u => ?_, fun u => ?_⟩
  · dsimp only; split
    · rename_i e; subst e; exact hd
    · exact h.len x
  · dsimp only; split
    · rfl
    · exact h.cont x hx
  · dsimp only; split
    · rename_i e; subst e; exact hq
    · exact h.tidy u
  · dsimp only; split
    · rename_i e; subst e; exact he.trans (hp _ _ hq)
    · exact (h.th u).trans (hp _ _ (h.tidy u))

theorem Spec.Board.rd {b : Board α} {t r : Nat} {k : Bytes → Cells α} (e : b.th t = .read r k) :
    Board.Step t b ⟨b.cont, fun z => if z = t then k (b.cont r) else b.th z⟩ := .read e rfl (upd_mk _ _ _)

theorem Spec.Machine.rd {w : Machine α} {t r i : Nat} {k : Bool → Micro α} (e : w.th t = .read r i k) :
    Machine.Step t w ⟨w.cont, fun z => if z = t then k (netBit (w.cont r) i) else w.th z⟩ := .read e rfl (upd_mk _ _ _)

theorem Spec.Machine.rdAll {w : Machine α} {t r : Nat} {k : Bytes → Micro α} (e : w.th t = .readAll r k) :
    Machine.Step t w ⟨w.cont, fun z => if z = t then k (w.cont r) else w.th z⟩ := .readAll e rfl (upd_mk _ _ _)

theorem Shown.step {w w' : Machine α} {b : Board α} (h : Shown L own w b) {t : Nat} (hs : Machine.Step t w w') :
    ∃ b', Board.Reach b b' ∧ Shown L own w' b' := by
  have ht := h.tidy t
  have hv := h.th t
  obtain ⟨c', th'⟩ := w'
  cases hs with
  | @read r i k e hc hu =>
    rw [e] at ht hv
    dsimp only at hc hu
    rw [hc, hu.eq]
    have := h.quiet (ht.2 _) (x := b.th t) hv
    rw [self_update b.th t rfl] at this
    exact ⟨b, .refl, this⟩
  | @write r i v k d e hb hc hu =>
    rw [e] at ht hv
    dsimp only at hc hu
    rw [hc.eq, hu.eq]
    have hd := bitSet_unique hb (putBit_spec _ i v (by rw [h.len]; exact ht.2.1))
    subst hd
    exact ⟨b, .refl, h.inner ht.1 (hb.1.trans (h.len r)) ht.2.2 hv⟩
  | @readAll r k e hc hu =>
    rw [e] at ht hv
    dsimp only at hc hu
    rw [hc, hu.eq]
    simp only [cells] at hv
    by_cases hr : own r = none
    · rw [if_pos hr] at hv
      exact ⟨_, .step t .refl (Board.rd hv), by rw [h.cont r hr]; exact h.quiet (ht.2 _) rfl⟩
    · rw [if_neg hr] at hv
      have := h.quiet (ht.2 _) (x := b.th t) hv
      rw [self_update b.th t rfl] at this
      exact ⟨b, .refl, this⟩
  | @copy r o k e hc hu =>
    rw [e] at ht hv
    dsimp only at hc hu
    rw [hc.eq, hu.eq]
    obtain ⟨h0, h1, h2⟩ := ht
    have hl : (w.cont o).length = L r := (h.len o).trans h0.symm
    simp only [cells] at hv
    by_cases hr : own r = none
    · rw [if_pos hr] at hv
      exact ⟨_, .step t .refl (.write hv (upd_mk _ _ _) (upd_mk _ _ _)), h.outer hr hl h2 rfl⟩
    · rw [if_neg hr] at hv
      have hr' : own r = some t := by
        rcases h1 with ⟨h1, -⟩ | ⟨h1, -⟩
        · exact h1
        · exact absurd h1 hr
      by_cases ho : own o = none
      · rw [if_pos ho] at hv
        refine ⟨_, .step t .refl (Board.rd hv), ?_⟩
        rw [h.cont o ho]
        -- the thread alone has moved
        refine ⟨fun x => ?_, fun x hx => ?_, fun u => ?_, fun u => ?_⟩
        · dsimp only; split
          · rename_i e; subst e; exact hl
          · exact h.len x
        · have : x ≠ r := fun e => by subst e; exact hr hx
          simp only [if_neg this]; exact h.cont x hx
        · dsimp only; split
          · rename_i e; subst e; exact h2
          · exact h.tidy u
        · dsimp only
          by_cases hut : u = t
          · rw [if_pos hut, if_pos hut]
          · rw [if_neg hut, if_neg hut, h.th u]
            refine cells_congr _ (h.tidy u) fun z hz => ?_
            have : z ≠ r := fun e' => by subst e'; rw [hr'] at hz; exact hut (Option.some.inj hz).symm
            rw [if_neg this]
      · rw [if_neg ho] at hv
        exact ⟨b, .refl, h.inner hr' hl h2 hv⟩

theorem Spec.Board.Reach.trans {a b c : Board α} (h : Board.Reach a b) (g : Board.Reach b c) : Board.Reach a c := by
  induction g with
  | refl => exact h
  | step t _ hs ih => exact .step t ih hs

theorem Spec.Machine.Reach.append {a b c : Machine α} (h : Machine.Reach a b) (g : Machine.Reach b c) : Machine.Reach a c := by
  induction g with
  | refl => exact h
  | step t _ hs ih => exact .step t ih hs

theorem Shown.reach {w w' : Machine α} {b : Board α} (h : Shown L own w b) (hs : Machine.Reach w w') :
    ∃ b', Board.Reach b b' ∧ Shown L own w' b' := by
  induction hs with
  | refl => exact ⟨b, .refl, h⟩
  | step t _ hs ih =>
    obtain ⟨b1, g1, g2⟩ := ih
    obtain ⟨b2, g3, g4⟩ := g2.step hs
    exact ⟨b2, g1.trans g3, g4⟩

/-- The next step of the thread can be seen. -/
def Visible (own : Nat → Option Nat) : Micro α → Prop
  | .done _ => True
  | .read .. => False
  | .write .. => False
  | .readAll r _ => own r = none
  | .copy r o _ => own r = none ∨ own o = none

/-- A thread can do everything it has to do with its own headers, unseen. -/
theorem Shown.settle {t : Nat} {b : Board α} : (q : Micro α) → ∀ {w : Machine α}, Shown L own w b → w.th t = q →
    ∃ w', Machine.Reach w w' ∧ Shown L own w' b ∧ Visible own (w'.th t) ∧ ∀ u, u ≠ t → w'.th u = w.th u
  | .done a, w, h, e => ⟨w, .refl, h, by rw [e]; trivial, fun _ _ => rfl⟩
  | .read r i k, w, h, e => by
    have ht := h.tidy t
    have hv := h.th t
    rw [e] at ht hv
    have h1 := h.quiet (ht.2 (netBit (w.cont r) i)) (x := b.th t) hv
    rw [self_update b.th t rfl] at h1
    obtain ⟨w', g1, g2, g3, g4⟩ := Shown.settle (k _) h1 (if_pos rfl)
    exact ⟨w', Machine.Reach.append (.step t .refl (Machine.rd e)) g1, g2, g3,
      fun u hu => (g4 u hu).trans (if_neg hu)⟩
  | .write r i v k, w, h, e => by
    have ht := h.tidy t
    have hv := h.th t
    rw [e] at ht hv
    have hb := putBit_spec (w.cont r) i v (by rw [h.len]; exact ht.2.1)
    have h1 := h.inner ht.1 (hb.1.trans (h.len r)) ht.2.2 hv
    obtain ⟨w', g1, g2, g3, g4⟩ := Shown.settle k h1 (if_pos rfl)
    exact ⟨w', Machine.Reach.append (.step t .refl (.write e hb (upd_mk _ _ _) (upd_mk _ _ _))) g1, g2, g3,
      fun u hu => (g4 u hu).trans (if_neg hu)⟩
  | .readAll r k, w, h, e => by
    by_cases hr : own r = none
    · exact ⟨w, .refl, h, by rw [e]; exact hr, fun _ _ => rfl⟩
    have ht := h.tidy t
    have hv := h.th t
    rw [e] at ht hv
    simp only [cells, if_neg hr] at hv
    have h1 := h.quiet (ht.2 (w.cont r)) (x := b.th t) hv
    rw [self_update b.th t rfl] at h1
    obtain ⟨w', g1, g2, g3, g4⟩ := Shown.settle (k _) h1 (if_pos rfl)
    exact ⟨w', Machine.Reach.append (.step t .refl (Machine.rdAll e)) g1, g2, g3,
      fun u hu => (g4 u hu).trans (if_neg hu)⟩
  | .copy r o k, w, h, e => by
    by_cases hr : own r = none
    · exact ⟨w, .refl, h, by rw [e]; exact .inl hr, fun _ _ => rfl⟩
    by_cases ho : own o = none
    · exact ⟨w, .refl, h, by rw [e]; exact .inr ho, fun _ _ => rfl⟩
    have ht := h.tidy t
    have hv := h.th t
    rw [e] at ht hv
    simp only [cells, if_neg hr, if_neg ho] at hv
    obtain ⟨h0, h1, h2⟩ := ht
    have hr' : own r = some t := by
      rcases h1 with ⟨h1, -⟩ | ⟨h1, -⟩
      · exact h1
      · exact absurd h1 hr
    have h1 := h.inner hr' ((h.len o).trans h0.symm) h2 hv
    obtain ⟨w', g1, g2, g3, g4⟩ := Shown.settle k h1 (if_pos rfl)
    exact ⟨w', Machine.Reach.append (.step t .refl (.copy e (upd_mk _ _ _) (upd_mk _ _ _))) g1, g2, g3,
      fun u hu => (g4 u hu).trans (if_neg hu)⟩

theorem Shown.back {w : Machine α} {b b' : Board α} (h : Shown L own w b) {t : Nat} (hs : Board.Step t b b') :
    ∃ w', Machine.Reach w w' ∧ Shown L own w' b' := by
  obtain ⟨w1, g1, g2, g3, -⟩ := h.settle (t := t) _ rfl
  obtain ⟨c', th'⟩ := b'
  have ht := g2.tidy t
  have hv := g2.th t
  cases hq : w1.th t with
  | done a =>
    rw [hq] at hv
    cases hs with
    | read e => rw [e] at hv; cases hv
    | write e => rw [e] at hv; cases hv
  | read => rw [hq] at g3; exact g3.elim
  | write => rw [hq] at g3; exact g3.elim
  | readAll r k =>
    rw [hq] at g3 ht hv
    simp only [cells] at hv
    have g3' : own r = none := g3
    rw [if_pos g3'] at hv
    cases hs with
    | read e hc hu =>
      rw [e] at hv
      cases hv
      dsimp only at hc hu
      rw [hc, hu.eq, g2.cont r g3]
      exact ⟨_, .step t g1 (Machine.rdAll hq), g2.quiet (ht.2 _) rfl⟩
    | write e => rw [e] at hv; cases hv
  | copy r o k =>
    rw [hq] at g3 ht hv
    simp only [cells] at hv
    obtain ⟨h0, h1, h2⟩ := ht
    have hl : (w1.cont o).length = L r := (g2.len o).trans h0.symm
    by_cases hr : own r = none
    · rw [if_pos hr] at hv
      cases hs with
      | read e => rw [e] at hv; cases hv
      | write e hc hu =>
        rw [e] at hv
        cases hv
        dsimp only at hc hu
        rw [hc.eq, hu.eq]
        exact ⟨_, .step t g1 (.copy hq (upd_mk _ _ _) (upd_mk _ _ _)), g2.outer hr hl h2 rfl⟩
    · have ho : own o = none := g3.resolve_left hr
      have hr' : own r = some t := by
        rcases h1 with ⟨h1, -⟩ | ⟨h1, -⟩
        · exact h1
        · exact absurd h1 hr
      rw [if_neg hr, if_pos ho] at hv
      cases hs with
      | write e => rw [e] at hv; cases hv
      | read e hc hu =>
        rw [e] at hv
        cases hv
        dsimp only at hc hu
        obtain ⟨b2, s1, s2⟩ := g2.step (w' := ⟨fun z => if z = r then w1.cont o else w1.cont z, fun z => if z = t then k else w1.th z⟩)
          (.copy hq (upd_mk w1.cont r (w1.cont o)) (upd_mk w1.th t k))
        refine ⟨⟨fun z => if z = r then w1.cont o else w1.cont z, fun z => if z = t then k else w1.th z⟩,
          .step t g1 (.copy hq (upd_mk _ _ _) (upd_mk _ _ _)), s2.len, fun x hx => ?_, s2.tidy, fun u => ?_⟩
        · have : x ≠ r := fun e => by subst e; exact hr hx
          simp only [if_neg this, hc]; exact g2.cont x hx
        · dsimp only
          rw [hu.eq]; dsimp only
          by_cases hut : u = t
          · rw [if_pos hut, if_pos hut, g2.cont o ho]
          · rw [if_neg hut, if_neg hut, g2.th u]
            refine cells_congr _ (g2.tidy u) fun z hz => ?_
            have : z ≠ r := fun e' => by subst e'; rw [hr'] at hz; exact hut (Option.some.inj hz).symm
            rw [if_neg this]

theorem Shown.breach {w : Machine α} {b b' : Board α} (h : Shown L own w b) (hs : Board.Reach b b') :
    ∃ w', Machine.Reach w w' ∧ Shown L own w' b' := by
  induction hs with
  | refl => exact ⟨w, .refl, h⟩
  | step t _ hs ih =>
    obtain ⟨b1, g1, g2⟩ := ih
    obtain ⟨b2, g3, g4⟩ := g2.back hs
    exact ⟨b2, g1.append g3, g4⟩

theorem Machine.done_stays {w w' : Machine α} (h : Machine.Reach w w') {t : Nat} {a : α} (ht : w.th t = .done a) :
    w'.th t = .done a := by
  induction h with
  | refl => exact ht
  | step u _ hs ih =>
    cases hs with
    | read e _ hu => exact (hu.2 t fun e' => by subst e'; rw [ih] at e; cases e).trans ih
    | write e _ _ hu => exact (hu.2 t fun e' => by subst e'; rw [ih] at e; cases e).trans ih
    | readAll e _ hu => exact (hu.2 t fun e' => by subst e'; rw [ih] at e; cases e).trans ih
    | copy e _ hu => exact (hu.2 t fun e' => by subst e'; rw [ih] at e; cases e).trans ih

theorem visible_done {q : Micro α} {p : Nat → Bytes} {a : α} (hv : Visible own q) (h : cells own q p = .done a) : q = .done a := by
  cases q with
  | done b => simp only [cells, Cells.done.injEq] at h; rw [h]
  | read => exact hv.elim
  | write => exact hv.elim
  | readAll r k => simp only [cells, if_pos (show own r = none from hv)] at h; cases h
  | copy r o k =>
    simp only [cells] at h
    by_cases hr : own r = none
    · rw [if_pos hr] at h; cases h
    · rw [if_neg hr, if_pos (hv.resolve_left hr)] at h; cases h

/-- C125.  Headers that are edited in copies and published with `replace` are cells that are read and written whole:
what finitely many such threads can return, and leave in the shared headers, is exactly what the threads of `cells`
can, for which to take a copy and to publish one are single steps and everything else is not seen at all. -/
theorem C125_cells (chk : Bool) (m : Store) (hm : Fresh L m) (c : Nat → Client α) (hc : ∀ t, Inside L (c t))
    (ht : ∀ t, Tidy own t (c t)) (n : Nat) (hn : ∀ t, n ≤ t → ∃ a, c t = .done a) (res : Nat → α) (cont : Nat → Bytes) :
    (∃ s, Sys.Reach ⟨m, fun t => (c t).prog chk⟩ s ∧ (∀ t, s.th t = .ret (res t)) ∧
      ∀ r, own r = none → (s.mem r).bytes = cont r) ↔
    ∃ b, Board.Reach ⟨fun r => (m r).bytes, fun t => cells own (micro (c t)) fun r => (m r).bytes⟩ b ∧
      (∀ t, b.th t = .done (res t)) ∧ ∀ r, own r = none → b.cont r = cont r := by
  have h0 : Shown L own (⟨fun r => (m r).bytes, fun t => micro (c t)⟩ : Machine α)
      ⟨fun r => (m r).bytes, fun t => cells own (micro (c t)) fun r => (m r).bytes⟩ :=
    ⟨fun r => (hm r).2.2, fun _ _ => rfl, fun t => tidyM_micro (c t) (hc t) (ht t), fun _ => rfl⟩
  constructor
  · rintro ⟨s, h1, h2, h3⟩
    have h4 := (C65_atomic_bits chk m hm c hc res fun r => (s.mem r).bytes).1 ⟨s, h1, h2, fun _ => rfl⟩
    obtain ⟨b, g1, g2⟩ := h0.reach h4
    exact ⟨b, g1, fun t => g2.th t, fun r hr => (g2.cont r hr).trans (h3 r hr)⟩
  · rintro ⟨b, h1, h2, h3⟩
    obtain ⟨w, g1, g2⟩ := h0.breach h1
    have all : ∀ j, ∃ w', Machine.Reach w w' ∧ Shown L own w' b ∧ ∀ t, t < j → w'.th t = .done (res t) := by
      intro j
      induction j with
      | zero => exact ⟨w, .refl, g2, fun t h => absurd h (Nat.not_lt_zero t)⟩
      | succ j ih =>
        obtain ⟨w1, i1, i2, i3⟩ := ih
        obtain ⟨w2, j1, j2, j3, j4⟩ := i2.settle (t := j) _ rfl
        refine ⟨w2, i1.append j1, j2, fun t htj => ?_⟩
        by_cases e : t = j
        · subst e
          exact visible_done j3 ((j2.th t).symm.trans (h2 t))
        · rw [j4 t e]; exact i3 t (by omega)
    obtain ⟨w1, i1, i2, i3⟩ := all n
    have hfin : ∀ t, w1.th t = .done (res t) := by
      intro t
      by_cases h : t < n
      · exact i3 t h
      · obtain ⟨a, ha⟩ := hn t (by omega)
        have e := Machine.done_stays (g1.append i1) (t := t) (a := a) (by simp only [ha, micro])
        have e2 := i2.th t
        rw [e, h2 t] at e2
        simp only [cells, Cells.done.injEq] at e2
        rw [e, e2]
    have hw : w1 = ⟨w1.cont, fun t => .done (res t)⟩ := by
      obtain ⟨wc, wt⟩ := w1
      simp only [Machine.mk.injEq, true_and]
      exact funext hfin
    have h5 := g1.append i1
    rw [hw] at h5
    obtain ⟨s, k1, k2, k3⟩ := (C65_atomic_bits chk m hm c hc res w1.cont).2 h5
    exact ⟨s, k1, k2, fun r hr => (k3 r).trans ((i2.cont r hr).symm.trans (h3 r hr))⟩

/-- In a state in which all threads have finished, all have returned. -/
theorem all_returned (chk : Bool) (m : Store) (hm : Fresh L m) (c : Nat → Client α) (hc : ∀ t, Inside L (c t))
    {s : Sys α} (hs : Sys.Reach ⟨m, fun t => (c t).prog chk⟩ s) (hf : s.Final) : ∃ res : Nat → α, ∀ t, s.th t = .ret (res t) := by
  refine Classical.axiomOfChoice (r := fun t a => s.th t = .ret a) fun t => ?_
  have h1 := hf t
  cases e : s.th t with
  | ret a => exact ⟨a, rfl⟩
  | died f => exact absurd e ((C65_no_panic chk m hm c hc hs).1 t f).2
  | panic => rw [e] at h1; exact h1.elim
  | lock => rw [e] at h1; exact h1.elim
  | load => rw [e] at h1; exact h1.elim
  | store => rw [e] at h1; exact h1.elim
  | unlock => rw [e] at h1; exact h1.elim

theorem Spec.Board.obeys {I : Nat → Bytes → Prop} {Q : Nat → α → Prop} {b b' : Board α} (h : Board.Reach b b')
    (hI : ∀ r, I r (b.cont r)) (hQ : ∀ t, (b.th t).Obeys I (Q t)) : (∀ r, I r (b'.cont r)) ∧ ∀ t, (b'.th t).Obeys I (Q t) := by
  induction h with
  | refl => exact ⟨hI, hQ⟩
  | @step w w' t _ hs ih =>
    obtain ⟨i1, i2⟩ := ih
    have hi := i2 t
    have hth : ∀ q, Upd w.th t q w'.th → q.Obeys I (Q t) → ∀ u, (w'.th u).Obeys I (Q u) := by
      intro q hu hq u
      by_cases hut : u = t
      · subst hut; rw [hu.1]; exact hq
      · rw [hu.2 u hut]; exact i2 u
    cases hs with
    | read e hc hu =>
      rw [e] at hi
      exact ⟨by rw [hc]; exact i1, hth _ hu (hi _ (i1 _))⟩
    | @write r v k e hc hu =>
      rw [e] at hi
      refine ⟨fun x => ?_, hth _ hu hi.2⟩
      by_cases hx : x = r
      · subst hx; rw [hc.1]; exact hi.1
      · rw [hc.2 x hx]; exact i1 x

/-- C125.  One thread at a time: if each thread, taken alone and being shown any vectors in `I` when it takes a copy,
publishes only vectors in `I` and returns something in `Q`, then so it is when they all run at once. -/
theorem C125_modular (chk : Bool) (m : Store) (hm : Fresh L m) (c : Nat → Client α) (hc : ∀ t, Inside L (c t))
    (ht : ∀ t, Tidy own t (c t)) (n : Nat) (hn : ∀ t, n ≤ t → ∃ a, c t = .done a) (I : Nat → Bytes → Prop) (Q : Nat → α → Prop)
    (hI : ∀ r, I r (m r).bytes) (hQ : ∀ t, (cells own (micro (c t)) fun r => (m r).bytes).Obeys I (Q t))
    {s : Sys α} (hs : Sys.Reach ⟨m, fun t => (c t).prog chk⟩ s) (hf : s.Final) :
    (∀ t, ∃ a, s.th t = .ret a ∧ Q t a) ∧ ∀ r, own r = none → I r (s.mem r).bytes := by
  obtain ⟨res, hres⟩ := all_returned chk m hm c hc hs hf
  obtain ⟨b, h1, h2, h3⟩ := (C125_cells chk m hm c hc ht n hn res fun r => (s.mem r).bytes).1 ⟨s, hs, hres, fun _ _ => rfl⟩
  obtain ⟨g1, g2⟩ := Board.obeys h1 hI hQ
  refine ⟨fun t => ⟨res t, hres t, ?_⟩, fun r hr => ?_⟩
  · have := g2 t
    rw [h2 t] at this
    exact this
  · rw [← h3 r hr]; exact g1 r

/-- What can be seen of any reachable state, finished or not. -/
theorem meanwhile (chk : Bool) (m : Store) (hm : Fresh L m) (c : Nat → Client α) (hc : ∀ t, Inside L (c t))
    (ht : ∀ t, Tidy own t (c t)) {s : Sys α} (hs : Sys.Reach ⟨m, fun t => (c t).prog chk⟩ s) :
    ∃ b, Board.Reach ⟨fun r => (m r).bytes, fun t => cells own (micro (c t)) fun r => (m r).bytes⟩ b ∧
      (∀ t a, s.th t = .ret a → b.th t = .done a) ∧ ∀ r, own r = none → (s.mem r).owner = none → b.cont r = (s.mem r).bytes := by
  have h0 : Shown L own (⟨fun r => (m r).bytes, fun t => micro (c t)⟩ : Machine α)
      ⟨fun r => (m r).bytes, fun t => cells own (micro (c t)) fun r => (m r).bytes⟩ :=
    ⟨fun r => (hm r).2.2, fun _ _ => rfl, fun t => tidyM_micro (c t) (hc t) (ht t), fun _ => rfl⟩
  have h1 : Alike L (⟨m, fun t => (c t).prog chk⟩ : Sys α) ⟨fun r => (m r).bytes, fun t => micro (c t)⟩ :=
    ⟨hm, fun _ => rfl, fun t => impl_client chk (c t) (hc t)⟩
  obtain ⟨a, h2, h3⟩ := Sys.TSim.reach hm.free (fun t => txn_client chk (c t)) hs
  obtain ⟨w, h4, h5⟩ := h1.treach h2
  obtain ⟨b, h6, h7⟩ := h0.reach h4
  refine ⟨b, h6, fun t x hx => ?_, fun r hr ho => ?_⟩
  · have hi := h5.th t
    have hv := h7.th t
    cases h3.mode t with
    | idle g1 g2 =>
      rw [g2, hx] at hi
      generalize w.th t = q at hi hv
      cases hi
      exact hv
    | sect r g1 g2 g3 g4 => rw [hx] at g4; simp [finish] at g4
    | pend r o k g1 g2 g3 g4 g5 g6 => rcases g6 with g6 | ⟨g6, -⟩ <;> rw [hx] at g6 <;> cases g6
    | both r o k g0 g1 g2 g3 g4 g5 g6 g7 =>
      rcases g7 with ⟨g7, -⟩ | ⟨g7, -⟩ | g7 | ⟨g7, -⟩ <;> rw [hx] at g7 <;> cases g7
  · rw [h7.cont r hr, h5.cont r, h3.free r ho]

/-- C125.  The same in the middle of an execution, for infinitely many threads as well: nobody panics, whatever a thread
has returned is in `Q`, and a shared header whose mutex nobody holds has its contents in `I`. -/
theorem C125_always (chk : Bool) (m : Store) (hm : Fresh L m) (c : Nat → Client α) (hc : ∀ t, Inside L (c t))
    (ht : ∀ t, Tidy own t (c t)) (I : Nat → Bytes → Prop) (Q : Nat → α → Prop)
    (hI : ∀ r, I r (m r).bytes) (hQ : ∀ t, (cells own (micro (c t)) fun r => (m r).bytes).Obeys I (Q t))
    {s : Sys α} (hs : Sys.Reach ⟨m, fun t => (c t).prog chk⟩ s) :
    (∀ t f, s.th t ≠ .panic f ∧ s.th t ≠ .died f) ∧ (∀ t a, s.th t = .ret a → Q t a) ∧
      ∀ r, own r = none → (s.mem r).owner = none → I r (s.mem r).bytes := by
  obtain ⟨b, h1, h2, h3⟩ := meanwhile chk m hm c hc ht hs
  obtain ⟨g1, g2⟩ := Board.obeys h1 hI hQ
  refine ⟨(C65_no_panic chk m hm c hc hs).1, fun t a ha => ?_, fun r hr ho => ?_⟩
  · have := g2 t
    rw [h2 t a ha] at this
    exact this
  · rw [← h3 r hr ho]; exact g1 r

/-! ## Editors and viewers -/

theorem cells_writeBits {r hi : Nat} (v : Nat → Bool) (k : Micro α) (n : Nat) : ∀ (j : Nat) (q : Nat → Bytes),
    cells own (writeBits r hi v k n j) q = cells own k fun z => if z = r then putBits hi v n j (q r) else q z := by
  induction n with
  | zero => intro j q; simp only [writeBits, putBits]; rw [self_update q r rfl]
  | succ n ih =>
    intro j q
    simp only [writeBits, cells, putBits]
    rw [ih]
    congr 1; funext z
    by_cases hz : z = r <;> simp [hz]

theorem cells_edit {p : Nat} (hp : own p ≠ none) (k : Client α) (e : Edit) : ∀ q : Nat → Bytes,
    cells own (micro (e.client p k)) q = cells own (micro k) fun z => if z = p then e.apply (q p) else q z := by
  induction e with
  | nil => intro q; simp only [Edit.client, Edit.apply, List.foldr_nil, List.foldl_nil]; rw [self_update q p rfl]
  | cons x e ih =>
    intro q
    have e1 : Edit.client p (x :: e) k = .toVec p fun v => .set p x.1 (x.2 v) (Edit.client p e k) := rfl
    rw [e1]
    simp only [micro, cells, if_neg hp]
    rw [cells_writeBits, ih]
    congr 1; funext z
    by_cases hz : z = p
    · simp only [hz, if_true]; rfl
    · simp only [hz, if_false]

/-- C125.  An editor takes a copy of the shared header in one step and publishes the edited copy in another. -/
theorem cells_editor {s p : Nat} (hs : own s = none) (hp : own p ≠ none) (a : α) (es : List Edit) : ∀ q : Nat → Bytes,
    cells own (micro (editor s p es a)) q = editorCells s es a := by
  induction es with
  | nil => intro q; rfl
  | cons e es ih =>
    intro q
    have e1 : editor s p (e :: es) a = .replace p s (e.client p (.replace s p (editor s p es a))) := rfl
    have e2 : editorCells s (e :: es) a = .read s fun v => .write s (e.apply v) (editorCells s es a) := rfl
    rw [e1, e2]
    simp only [micro, cells, if_neg hp, if_pos hs]
    congr 1; funext v
    rw [cells_edit hp]
    simp only [micro, cells, if_pos hs, if_true]
    rw [ih]

theorem cells_viewer {s : Nat} (hs : own s = none) (n : Nat) : ∀ (acc : List Bytes) (q : Nat → Bytes),
    cells own (micro (viewer s n acc)) q = viewerCells s n acc := by
  induction n with
  | zero => intro acc q; rfl
  | succ n ih =>
    intro acc q
    simp only [viewer, micro, cells, if_pos hs, viewerCells]
    congr 1; funext v
    exact ih _ _

theorem edit_inside {p : Nat} {k : Client α} (hk : Inside L k) (e : Edit) (he : ∀ x ∈ e, x.1.Inside (L p)) :
    Inside L (e.client p k) := by
  induction e with
  | nil => exact hk
  | cons x e ih =>
    have h := he x (by simp)
    exact ⟨fun _ _ => .inl trivial, fun v => ⟨h.1, h.2, fun _ _ _ => trivial, ih fun y hy => he y (by simp [hy])⟩⟩

theorem edit_tidy {t p : Nat} (hp : own p = some t) {k : Client α} (hk : Tidy own t k) (e : Edit) :
    Tidy own t (e.client p k) := by
  induction e with
  | nil => exact hk
  | cons x e ih => exact ⟨.inl hp, fun v => ⟨hp, ih⟩⟩

theorem editor_inside {s p : Nat} (hne : s ≠ p) (hL : L s = L p) (a : α) (es : List Edit)
    (he : ∀ e ∈ es, ∀ x ∈ e, x.1.Inside (L s)) : Inside L (editor s p es a) := by
  induction es with
  | nil => exact trivial
  | cons e es ih =>
    refine ⟨fun h => hne h.symm, hL.symm, fun _ _ => trivial, fun _ _ => .inl trivial, ?_⟩
    refine edit_inside ?_ e (by rw [← hL]; exact he e (by simp))
    exact ⟨hne, hL, fun _ _ => trivial, fun _ _ => .inl trivial, ih fun x hx => he x (by simp [hx])⟩

theorem editor_tidy {t s p : Nat} (hs : own s = none) (hp : own p = some t) (a : α) (es : List Edit) :
    Tidy own t (editor s p es a) := by
  have hne : s ≠ p := fun e => by subst e; rw [hs] at hp; cases hp
  induction es with
  | nil => exact trivial
  | cons e es ih =>
    have h1 : Tidy own t (.replace s p (editor s p es a)) := ⟨hne, .inr ⟨hs, hp⟩, ih⟩
    exact ⟨fun h => hne h.symm, .inl ⟨hp, .inr hs⟩, edit_tidy hp h1 e⟩

theorem viewer_inside (s n : Nat) : ∀ acc, Inside L (viewer s n acc) := by
  induction n with
  | zero => intro acc; exact trivial
  | succ n ih => intro acc; exact ⟨fun _ _ => .inl trivial, fun v => ih _⟩

theorem viewer_tidy {s t : Nat} (hs : own s = none) (n : Nat) : ∀ acc, Tidy own t (viewer s n acc) := by
  induction n with
  | zero => intro acc; exact trivial
  | succ n ih => intro acc; exact ⟨.inr hs, fun v => ih _⟩

/-- Some threads edit and publish the shared header `s`, each with a header `p t` of its own; the others look at it. -/
structure Newsroom (L : Nat → Nat) (own : Nat → Option Nat) (s : Nat) (p : Nat → Nat) (es : Nat → List Edit) (n : Nat → Nat)
    (c : Nat → Client (List Bytes)) : Prop where
  shared : own s = none
  mine : ∀ t, own (p t) = some t
  sizes : ∀ t, L s = L (p t)
  inside : ∀ t, ∀ e ∈ es t, ∀ x ∈ e, x.1.Inside (L s)
  role : ∀ t, c t = editor s (p t) (es t) [] ∨ c t = viewer s (n t) []

theorem Newsroom.ok {s : Nat} {p : Nat → Nat} {es : Nat → List Edit} {n : Nat → Nat} {c : Nat → Client (List Bytes)}
    (h : Newsroom L own s p es n c) (t : Nat) : Inside L (c t) ∧ Tidy own t (c t) := by
  have hne : s ≠ p t := fun e => by have := h.shared; rw [e, h.mine] at this; cases this
  rcases h.role t with e | e
  · rw [e]; exact ⟨editor_inside hne (h.sizes t) _ _ (h.inside t), editor_tidy h.shared (h.mine t) _ _⟩
  · rw [e]; exact ⟨viewer_inside _ _ _, viewer_tidy h.shared _ _⟩

theorem editor_obeys {s : Nat} {I : Bytes → Prop} (es : List Edit) (he : ∀ e ∈ es, ∀ v, I v → I (e.apply v)) {Q : List Bytes → Prop}
    (hQ : Q []) : (editorCells s es []).Obeys (fun r v => r = s → I v) Q := by
  induction es with
  | nil => exact hQ
  | cons e es ih =>
    exact fun v hv => ⟨fun _ => he e (by simp) v (hv rfl), ih fun x hx => he x (by simp [hx])⟩

theorem viewer_obeys {s : Nat} {I : Bytes → Prop} (n : Nat) : ∀ acc, (∀ v ∈ acc, I v) →
    (viewerCells s n acc).Obeys (fun r v => r = s → I v) fun vs => ∀ v ∈ vs, I v := by
  induction n with
  | zero => intro acc h; exact h
  | succ n ih =>
    intro acc h v hv
    refine ih _ fun x hx => ?_
    rcases List.mem_append.mp hx with hx | hx
    · exact h x hx
    · rw [List.mem_singleton.mp hx]; exact hv rfl

/-- C125.  What every edit preserves, everybody sees: if the shared header has a property at the beginning, and every
edit gives a vector with it when made alone to a vector with it, then any number of editors and viewers end, and no
viewer has ever seen the header without it. -/
theorem C125_preserved (chk : Bool) (m : Store) (hm : Fresh L m) {s : Nat} {p : Nat → Nat} {es : Nat → List Edit} {n : Nat → Nat}
    {c : Nat → Client (List Bytes)} (h : Newsroom L own s p es n c) (N : Nat) (hN : ∀ t, N ≤ t → ∃ a, c t = .done a)
    (I : Bytes → Prop) (hI : I (m s).bytes) (he : ∀ t, ∀ e ∈ es t, ∀ v, I v → I (e.apply v)) :
    (¬ ∃ (σ : Nat → Sys (List Bytes)) (sch : Nat → Nat), σ 0 = ⟨m, fun t => (c t).prog chk⟩ ∧
      ∀ i, (σ i).step (sch i) = some (σ (i + 1))) ∧
    (∀ w, Sys.Reach ⟨m, fun t => (c t).prog chk⟩ w → ¬ Stuck w) ∧
    (∀ w, Sys.Reach ⟨m, fun t => (c t).prog chk⟩ w → w.Final →
      I (w.mem s).bytes ∧ ∀ t, ∃ vs, w.th t = .ret vs ∧ ∀ v ∈ vs, I v) ∧
    ∀ w, Sys.Reach ⟨m, fun t => (c t).prog chk⟩ w →
      ((w.mem s).owner = none → I (w.mem s).bytes) ∧ ∀ t vs, w.th t = .ret vs → ∀ v ∈ vs, I v := by
  have hQ : ∀ t, (cells own (micro (c t)) fun r => (m r).bytes).Obeys (fun r v => r = s → I v) fun vs => ∀ v ∈ vs, I v := by
    intro t
    rcases h.role t with e | e
    · rw [e, cells_editor h.shared (by rw [h.mine t]; simp)]
      exact editor_obeys _ (he t) (by simp)
    · rw [e, cells_viewer h.shared]
      exact viewer_obeys _ _ (by simp)
  have hend := C125_ends chk m (fun r => (hm r).1) c (fun t => (h.ok t).2) N hN
  refine ⟨hend.2.1, hend.1, fun w hw hf => ?_, fun w hw => ?_⟩
  · obtain ⟨g1, g2⟩ := C125_modular chk m hm c (fun t => (h.ok t).1) (fun t => (h.ok t).2) N hN (fun r v => r = s → I v)
      (fun _ vs => ∀ v ∈ vs, I v) (fun r e => by rw [e]; exact hI) hQ hw hf
    exact ⟨g2 s h.shared rfl, g1⟩
  · obtain ⟨-, g1, g2⟩ := C125_always chk m hm c (fun t => (h.ok t).1) (fun t => (h.ok t).2) (fun r v => r = s → I v)
      (fun _ vs => ∀ v ∈ vs, I v) (fun r e => by rw [e]; exact hI) hQ hw
    exact ⟨fun ho => g2 s h.shared ho rfl, g1⟩

/-! ## One editor -/

theorem version_zero (es : List Edit) (d : Bytes) : version es d 0 = d := rfl

theorem version_succ (es : List Edit) (d : Bytes) (i : Nat) (e : Edit) (es' : List Edit) (h : es.drop i = e :: es') :
    version es d (i + 1) = e.apply (version es d i) := by
  have hi : es[i]? = some e := by
    have := congrArg (fun l => l[0]?) h
    simpa using this
  unfold version
  rw [List.take_add_one, hi, List.foldl_append]; rfl

/-- Where the editor is: `i` versions published, and the copy of the last one taken or not. -/
inductive EditorAt (s : Nat) (es : List Edit) (d : Bytes) (i : Nat) : Cells (List Bytes) → Prop where
  | out : EditorAt s es d i (editorCells s (es.drop i) [])
  | inn (e : Edit) (es' : List Edit) (h : es.drop i = e :: es') :
      EditorAt s es d i (.write s (e.apply (version es d i)) (editorCells s es' []))

/-- Where a viewer is, when `i` versions have been published: what it has seen are versions, none before an earlier one. -/
def ViewerAt (s : Nat) (es : List Edit) (d : Bytes) (i n : Nat) (q : Cells (List Bytes)) : Prop :=
  ∃ (left : Nat) (is : List Nat), left + is.length = n ∧ is.Pairwise (· ≤ ·) ∧ (∀ x ∈ is, x ≤ i) ∧
    q = viewerCells s left (is.map (version es d))

theorem board_versions {m : Store} {s : Nat} {p : Nat → Nat} {es : Nat → List Edit} {n : Nat → Nat}
    {c : Nat → Client (List Bytes)} (h : Newsroom L own s p es n c)
    (w : Nat) (hw : c w = editor s (p w) (es w) []) (hv : ∀ t, t ≠ w → c t = viewer s (n t) []) :
    ∀ b', Board.Reach ⟨fun r => (m r).bytes, fun t => cells own (micro (c t)) fun r => (m r).bytes⟩ b' →
      ∃ i, i ≤ (es w).length ∧ b'.cont s = version (es w) (m s).bytes i ∧ EditorAt s (es w) (m s).bytes i (b'.th w) ∧
        ∀ t, t ≠ w → ViewerAt s (es w) (m s).bytes i (n t) (b'.th t) := by
  intro b' hb
  induction hb with
  | refl =>
    refine ⟨0, Nat.zero_le _, rfl, ?_, fun t ht => ⟨n t, [], by simp, List.Pairwise.nil, by simp, ?_⟩⟩
    · have e := cells_editor (α := List Bytes) h.shared (show own (p w) ≠ none by rw [h.mine w]; simp) [] (es w) fun r => (m r).bytes
      dsimp only; rw [hw, e]; exact .out
    · dsimp only; rw [hv t ht, cells_viewer h.shared]; rfl
  | @step b1 b2 t _ hs ih =>
    obtain ⟨i, i0, i1, i2, i3⟩ := ih
    by_cases ht : t = w
    · subst ht
      have same : ∀ q, Upd b1.th t q b2.th → ∀ j, i ≤ j → ∀ u, u ≠ t → ViewerAt s (es t) (m s).bytes j (n u) (b2.th u) := by
        intro q hu j hj u hut
        obtain ⟨l, is, j1, j2, j3, j4⟩ := i3 u hut
        exact ⟨l, is, j1, j2, fun x hx => Nat.le_trans (j3 x hx) hj, (hu.2 u hut).trans j4⟩
      generalize hq : b1.th t = q at i2
      cases i2 with
      | out =>
        cases he : (es t).drop i with
        | nil =>
          rw [he] at hq
          cases hs with
          | read e => rw [hq] at e; cases e
          | write e => rw [hq] at e; cases e
        | cons e es' =>
          rw [he] at hq
          have e2 : editorCells s (e :: es') ([] : List Bytes) = .read s fun v => .write s (e.apply v) (editorCells s es' []) := rfl
          rw [e2] at hq
          cases hs with
          | read e3 hc hu =>
            rw [hq] at e3
            cases e3
            refine ⟨i, i0, by rw [hc]; exact i1, ?_, same _ hu i (Nat.le_refl _)⟩
            rw [hu.1, i1]; exact .inn e es' he
          | write e3 => rw [hq] at e3; cases e3
      | inn e es' he =>
        cases hs with
        | read e3 => rw [hq] at e3; cases e3
        | write e3 hc hu =>
          rw [hq] at e3
          cases e3
          have hlen : i < (es t).length := by
            have := congrArg List.length he
            simp at this; omega
          refine ⟨i + 1, hlen, ?_, ?_, same _ hu (i + 1) (by omega)⟩
          · rw [hc.1, version_succ _ _ _ _ _ he]
          · have hd : (es t).drop (i + 1) = es' := by rw [← List.drop_drop, he]; rfl
            rw [hu.1, ← hd]; exact .out
    · obtain ⟨l, is, j1, j2, j3, j4⟩ := i3 t ht
      cases l with
      | zero =>
        cases hs with
        | read e => rw [j4] at e; cases e
        | write e => rw [j4] at e; cases e
      | succ l =>
        have e2 : viewerCells s (l + 1) (is.map (version (es w) (m s).bytes)) =
          .read s fun v => viewerCells s l (is.map (version (es w) (m s).bytes) ++ [v]) := rfl
        rw [e2] at j4
        cases hs with
        | write e => rw [j4] at e; cases e
        | read e hc hu =>
          rw [j4] at e
          cases e
          refine ⟨i, i0, by rw [hc]; exact i1, by rw [hu.2 w fun e => ht e.symm]; exact i2, fun u huw => ?_⟩
          by_cases hut : u = t
          · subst hut
            refine ⟨l, is ++ [i], by rw [List.length_append, List.length_singleton]; omega, ?_, ?_, ?_⟩
            · rw [List.pairwise_append]
              exact ⟨j2, List.pairwise_singleton _ _, fun a ha b hb => by rw [List.mem_singleton.mp hb]; exact j3 a ha⟩
            · intro y hy
              rcases List.mem_append.mp hy with hy | hy
              · exact j3 y hy
              · rw [List.mem_singleton.mp hy]
            · rw [hu.1, i1, List.map_append]; rfl
          · obtain ⟨l', is', k1, k2, k3, k4⟩ := i3 u huw
            exact ⟨l', is', k1, k2, k3, (hu.2 u hut).trans k4⟩

/-- C125.  One editor and any number of viewers: the header goes through the versions that the editor makes one after
the other, every viewer sees versions only, never an older one after a newer one, and the last one stays. -/
theorem C125_versions (chk : Bool) (m : Store) (hm : Fresh L m) {s : Nat} {p : Nat → Nat} {es : Nat → List Edit} {n : Nat → Nat}
    {c : Nat → Client (List Bytes)} (h : Newsroom L own s p es n c) (N : Nat) (hN : ∀ t, N ≤ t → ∃ a, c t = .done a)
    (w : Nat) (hw : c w = editor s (p w) (es w) []) (hv : ∀ t, t ≠ w → c t = viewer s (n t) [])
    {x : Sys (List Bytes)} (hx : Sys.Reach ⟨m, fun t => (c t).prog chk⟩ x) (hf : x.Final) :
    (x.mem s).bytes = version (es w) (m s).bytes (es w).length ∧ x.th w = .ret [] ∧
    ∀ t, t ≠ w → ∃ is : List Nat, is.length = n t ∧ is.Pairwise (· ≤ ·) ∧ (∀ i ∈ is, i ≤ (es w).length) ∧
      x.th t = .ret (is.map (version (es w) (m s).bytes)) := by
  obtain ⟨res, hres⟩ := all_returned chk m hm c (fun t => (h.ok t).1) hx hf
  obtain ⟨b, h1, h2, h3⟩ := (C125_cells chk m hm c (fun t => (h.ok t).1) (fun t => (h.ok t).2) N hN res
    fun r => (x.mem r).bytes).1 ⟨x, hx, hres, fun _ _ => rfl⟩
  have inv := board_versions (m := m) h w hw hv
  obtain ⟨i, i0, i1, i2, i3⟩ := inv b h1
  have hend : i = (es w).length ∧ res w = [] := by
    rw [h2 w] at i2
    generalize hq : (Cells.done (res w) : Cells (List Bytes)) = q at i2
    cases i2 with
    | out =>
      cases he : (es w).drop i with
      | nil =>
        rw [he] at hq
        have := congrArg List.length he
        rw [List.length_drop, List.length_nil] at this
        exact ⟨by omega, Cells.done.inj hq⟩
      | cons e es' => rw [he] at hq; cases hq
    | inn => cases hq
  refine ⟨?_, by rw [hres w, hend.2], fun t ht => ?_⟩
  · rw [← h3 s h.shared, i1, hend.1]
  · obtain ⟨l, is, j1, j2, j3, j4⟩ := i3 t ht
    rw [h2 t] at j4
    cases l with
    | zero => exact ⟨is, by omega, j2, fun y hy => Nat.le_trans (j3 y hy) i0, by rw [hres t, Cells.done.inj j4]⟩
    | succ l => cases j4

/-- C125.  The same in the middle of an execution: if nobody holds the mutex, the header is some version, and no viewer
that has returned has seen a later one. -/
theorem C125_version_now (chk : Bool) (m : Store) (hm : Fresh L m) {s : Nat} {p : Nat → Nat} {es : Nat → List Edit} {n : Nat → Nat}
    {c : Nat → Client (List Bytes)} (h : Newsroom L own s p es n c)
    (w : Nat) (hw : c w = editor s (p w) (es w) []) (hv : ∀ t, t ≠ w → c t = viewer s (n t) [])
    {x : Sys (List Bytes)} (hx : Sys.Reach ⟨m, fun t => (c t).prog chk⟩ x) :
    ∃ k, k ≤ (es w).length ∧ ((x.mem s).owner = none → (x.mem s).bytes = version (es w) (m s).bytes k) ∧
    ∀ t vs, t ≠ w → x.th t = .ret vs → ∃ is : List Nat, is.length = n t ∧ is.Pairwise (· ≤ ·) ∧ (∀ i ∈ is, i ≤ k) ∧
      vs = is.map (version (es w) (m s).bytes) := by
  obtain ⟨b, h1, h2, h3⟩ := meanwhile chk m hm c (fun t => (h.ok t).1) (fun t => (h.ok t).2) hx
  obtain ⟨i, i0, i1, -, i3⟩ := board_versions h w hw hv b h1
  refine ⟨i, i0, fun ho => (h3 s h.shared ho).symm.trans i1, fun t vs ht hvs => ?_⟩
  obtain ⟨l, is, j1, j2, j3, j4⟩ := i3 t ht
  rw [h2 t vs hvs] at j4
  cases l with
  | zero => exact ⟨is, by omega, j2, j3, Cells.done.inj j4⟩
  | succ l => cases j4

/-- A viewer looks `j` times in a row. -/
theorem Spec.Board.see {s t l : Nat} (j : Nat) : ∀ (b : Board (List Bytes)) (acc : List Bytes),
    b.th t = viewerCells s (j + l) acc →
    Board.Reach b ⟨b.cont, fun z => if z = t then viewerCells s l (acc ++ List.replicate j (b.cont s)) else b.th z⟩ := by
  induction j with
  | zero =>
    intro b acc h
    rw [Nat.zero_add] at h
    rw [self_update b.th t (by rw [h]; simp)]
    exact .refl
  | succ j ih =>
    intro b acc h
    rw [Nat.add_right_comm] at h
    have h' : b.th t = .read s fun v => viewerCells s (j + l) (acc ++ [v]) := h
    have h1 := ih ⟨b.cont, fun z => if z = t then viewerCells s (j + l) (acc ++ [b.cont s]) else b.th z⟩ (acc ++ [b.cont s]) (if_pos rfl)
    refine Board.Reach.trans (.step t .refl (Board.rd h')) ?_
    have e : (fun z => if z = t then viewerCells s l (acc ++ List.replicate (j + 1) (b.cont s)) else b.th z) =
        fun z => if z = t then viewerCells s l (acc ++ [b.cont s] ++ List.replicate j (b.cont s))
          else (fun z => if z = t then viewerCells s (j + l) (acc ++ [b.cont s]) else b.th z) z := by
      funext z
      by_cases hz : z = t
      · rw [if_pos hz, if_pos hz, List.append_assoc]; rfl
      · simp only [if_neg hz]
    rw [e]
    exact h1

/-- So do all viewers among the first `N` threads. -/
theorem Spec.Board.seeAll {s w : Nat} (b : Board (List Bytes)) (a l : Nat → Nat) (acc : Nat → List Bytes)
    (h : ∀ t, t ≠ w → b.th t = viewerCells s (a t + l t) (acc t)) (N : Nat) :
    Board.Reach b ⟨b.cont, fun z => if z < N ∧ z ≠ w then viewerCells s (l z) (acc z ++ List.replicate (a z) (b.cont s)) else b.th z⟩ := by
  induction N with
  | zero =>
    have e : (fun z => if z < 0 ∧ z ≠ w then viewerCells s (l z) (acc z ++ List.replicate (a z) (b.cont s)) else b.th z) = b.th := by
      funext z; rw [if_neg (by omega)]
    rw [e]; exact .refl
  | succ N ih =>
    refine Board.Reach.trans ih ?_
    by_cases hN : N = w
    · have e : (fun z => if z < N + 1 ∧ z ≠ w then viewerCells s (l z) (acc z ++ List.replicate (a z) (b.cont s)) else b.th z) =
          fun z => if z < N ∧ z ≠ w then viewerCells s (l z) (acc z ++ List.replicate (a z) (b.cont s)) else b.th z := by
        funext z
        by_cases hz : z < N ∧ z ≠ w
        · rw [if_pos hz, if_pos (by omega)]
        · rw [if_neg hz, if_neg (by omega)]
      rw [e]; exact .refl
    · have h1 := Board.see (s := s) (t := N) (l := l N) (a N)
        ⟨b.cont, fun z => if z < N ∧ z ≠ w then viewerCells s (l z) (acc z ++ List.replicate (a z) (b.cont s)) else b.th z⟩ (acc N)
        (by dsimp only; rw [if_neg (by omega)]; exact h N hN)
      have e : (fun z => if z < N + 1 ∧ z ≠ w then viewerCells s (l z) (acc z ++ List.replicate (a z) (b.cont s)) else b.th z) =
          fun z => if z = N then viewerCells s (l N) (acc N ++ List.replicate (a N) (b.cont s)) else
            (fun z => if z < N ∧ z ≠ w then viewerCells s (l z) (acc z ++ List.replicate (a z) (b.cont s)) else b.th z) z := by
        funext z
        by_cases hz : z = N
        · subst hz; rw [if_pos (by omega), if_pos rfl]
        · rw [if_neg hz]
          dsimp only
          by_cases hz2 : z < N ∧ z ≠ w
          · rw [if_pos hz2, if_pos (by omega)]
          · rw [if_neg hz2, if_neg (by omega)]
      rw [e]; exact h1

theorem sorted_split (i : Nat) : ∀ is : List Nat, is.Pairwise (· ≤ ·) → (∀ x ∈ is, i ≤ x) →
    ∃ a rest, is = List.replicate a i ++ rest ∧ rest.Pairwise (· ≤ ·) ∧ ∀ x ∈ rest, i + 1 ≤ x
  | [], _, _ => ⟨0, [], rfl, List.Pairwise.nil, by simp⟩
  | y :: ys, hs, hi => by
    by_cases hy : y = i
    · subst hy
      obtain ⟨a, rest, h1, h2, h3⟩ := sorted_split y ys hs.of_cons fun x hx => hi x (by simp [hx])
      exact ⟨a + 1, rest, by rw [h1]; rfl, h2, h3⟩
    · refine ⟨0, y :: ys, rfl, hs, fun x hx => ?_⟩
      have h1 := hi y (by simp)
      rcases List.mem_cons.mp hx with rfl | hx
      · omega
      · have := List.rel_of_pairwise_cons hs hx; omega

theorem board_views {s w N : Nat} (es : List Edit) (d : Bytes) (r : Nat) : ∀ (i : Nat) (is : Nat → List Nat) (acc : Nat → List Bytes)
    (b : Board (List Bytes)), i + r = es.length → b.cont s = version es d i → b.th w = editorCells s (es.drop i) [] →
    (∀ t, t ≠ w → b.th t = viewerCells s (is t).length (acc t)) → (∀ t, (is t).Pairwise (· ≤ ·)) →
    (∀ t, ∀ x ∈ is t, i ≤ x ∧ x ≤ es.length) → (∀ t, N ≤ t → is t = []) →
    ∃ b', Board.Reach b b' ∧ b'.cont s = version es d es.length ∧ b'.th w = .done [] ∧
      ∀ t, t ≠ w → b'.th t = .done (acc t ++ (is t).map (version es d)) := by
  induction r with
  | zero =>
    intro i is acc b hi hc hw hv _ hx hN
    have hii : i = es.length := by omega
    have hr : ∀ t, is t = List.replicate (is t).length i := fun t =>
      List.eq_replicate_iff.mpr ⟨rfl, fun x hxx => by have := hx t x hxx; omega⟩
    refine ⟨_, Board.seeAll (s := s) (w := w) b (fun t => (is t).length) (fun _ => 0) acc hv N, ?_, ?_, fun t ht => ?_⟩
    · rw [← hii]; exact hc
    · dsimp only
      rw [if_neg (by omega), hw, hii, List.drop_length]; rfl
    · dsimp only
      by_cases htN : t < N
      · rw [if_pos ⟨htN, ht⟩, hc]
        have : (is t).map (version es d) = List.replicate (is t).length (version es d i) := by
          conv => lhs; rw [hr t]
          rw [List.map_replicate]
        rw [this]; rfl
      · rw [if_neg (by omega), hv t ht, hN t (by omega)]; simp [viewerCells]
  | succ r ih =>
    intro i is acc b hi hc hw hv hs hx hN
    have hsp := fun t => sorted_split i (is t) (hs t) fun x hxx => (hx t x hxx).1
    choose a rest h1 h2 h3 using hsp
    have hrl : ∀ t, (is t).length = a t + (rest t).length := fun t => by
      have := congrArg List.length (h1 t)
      rw [List.length_append, List.length_replicate] at this
      exact this
    have r1 := Board.seeAll (s := s) (w := w) b a (fun t => (rest t).length) acc (fun t ht => by rw [hv t ht, hrl t]) N
    cases he : es.drop i with
    | nil =>
      have := congrArg List.length he
      rw [List.length_drop, List.length_nil] at this; omega
    | cons e es' =>
      rw [he] at hw
      have hw' : b.th w = .read s fun v => .write s (e.apply v) (editorCells s es' []) := hw
      let b1 : Board (List Bytes) := ⟨b.cont, fun z => if z < N ∧ z ≠ w then viewerCells s (rest z).length (acc z ++ List.replicate (a z) (b.cont s)) else b.th z⟩
      have hw1 : b1.th w = .read s fun v => .write s (e.apply v) (editorCells s es' []) := by
        show (if w < N ∧ w ≠ w then _ else b.th w) = _
        rw [if_neg (by omega)]; exact hw'
      let b2 : Board (List Bytes) := ⟨b1.cont, fun z => if z = w then .write s (e.apply (b1.cont s)) (editorCells s es' []) else b1.th z⟩
      let b3 : Board (List Bytes) := ⟨fun z => if z = s then e.apply (b1.cont s) else b2.cont z, fun z => if z = w then editorCells s es' [] else b2.th z⟩
      have s2 : Board.Step w b1 b2 := Board.rd hw1
      have s3 : Board.Step w b2 b3 := .write (w := b2) (w' := b3) (r := s) (v := e.apply (b1.cont s)) (k := editorCells s es' [])
        (if_pos rfl) (upd_mk _ _ _) (upd_mk _ _ _)
      have hd : es.drop (i + 1) = es' := by rw [← List.drop_drop, he]; rfl
      obtain ⟨b4, k1, k2, k3, k4⟩ := ih (i + 1) rest (fun t => acc t ++ List.replicate (a t) (version es d i)) b3 (by omega)
        (by show (if s = s then e.apply (b.cont s) else _) = _
            rw [if_pos rfl, hc, version_succ _ _ _ _ _ he])
        (by show (if w = w then editorCells s es' [] else _) = _
            rw [if_pos rfl, hd])
        (fun t ht => by
          show (if t = w then _ else if t = w then _ else if t < N ∧ t ≠ w then viewerCells s (rest t).length (acc t ++ List.replicate (a t) (b.cont s)) else b.th t) = _
          rw [if_neg ht, if_neg ht]
          by_cases htN : t < N
          · rw [if_pos ⟨htN, ht⟩, hc]
          · have hnil := hN t (by omega)
            have hl := hrl t
            rw [hnil, List.length_nil] at hl
            have ha : a t = 0 := by omega
            have hrr : (rest t).length = 0 := by omega
            rw [if_neg (by omega), hv t ht, hnil, ha, hrr]; simp)
        h2 (fun t x hxx => ⟨h3 t x hxx, (hx t x (by rw [h1 t]; simp [hxx])).2⟩)
        (fun t ht => by
          have hl := hrl t
          rw [hN t ht, List.length_nil] at hl
          exact List.eq_nil_of_length_eq_zero (by omega))
      refine ⟨b4, Board.Reach.trans (.step w (.step w r1 s2) s3) k1, k2, k3, fun t ht => ?_⟩
      rw [k4 t ht]
      conv => rhs; rw [h1 t]
      rw [List.map_append, List.map_replicate, List.append_assoc]

/-- C125.  And nothing more can be said: whatever versions the viewers are to see, each no older one after a newer one,
some execution shows them just these. -/
theorem C125_any_views (chk : Bool) (m : Store) (hm : Fresh L m) {s : Nat} {p : Nat → Nat} {es : Nat → List Edit} {n : Nat → Nat}
    {c : Nat → Client (List Bytes)} (h : Newsroom L own s p es n c) (N : Nat) (hN : ∀ t, N ≤ t → ∃ a, c t = .done a)
    (w : Nat) (hw : c w = editor s (p w) (es w) []) (hv : ∀ t, t ≠ w → c t = viewer s (n t) [])
    (is : Nat → List Nat) (h1 : ∀ t, t ≠ w → (is t).length = n t) (h2 : ∀ t, (is t).Pairwise (· ≤ ·))
    (h3 : ∀ t, ∀ i ∈ is t, i ≤ (es w).length) :
    ∃ x, Sys.Reach ⟨m, fun t => (c t).prog chk⟩ x ∧ x.Final ∧
      ∀ t, t ≠ w → x.th t = .ret ((is t).map (version (es w) (m s).bytes)) := by
  have hnil : ∀ t, N ≤ t → t ≠ w → is t = [] := by
    intro t ht htw
    obtain ⟨a, ha⟩ := hN t ht
    have hl := h1 t htw
    have e := hv t htw
    cases hn : n t with
    | zero => rw [hn] at hl; exact List.eq_nil_of_length_eq_zero hl
    | succ k => rw [hn, ha] at e; cases e
  obtain ⟨b, k1, -, k3, k4⟩ := board_views (s := s) (w := w) (N := N) (es w) (m s).bytes (es w).length 0
    (fun t => if t = w then [] else is t) (fun _ => [])
    ⟨fun r => (m r).bytes, fun t => cells own (micro (c t)) fun r => (m r).bytes⟩ (Nat.zero_add _) rfl
    (by dsimp only; rw [hw, cells_editor h.shared (by rw [h.mine w]; simp)]; rfl)
    (fun t ht => by dsimp only; rw [hv t ht, cells_viewer h.shared, if_neg ht, h1 t ht])
    (fun t => by
      split
      · exact List.Pairwise.nil
      · exact h2 t)
    (fun t x hx => by
      by_cases ht : t = w
      · rw [if_pos ht] at hx; cases hx
      · rw [if_neg ht] at hx; exact ⟨Nat.zero_le _, h3 t x hx⟩)
    (fun t ht => by
      by_cases htw : t = w
      · rw [if_pos htw]
      · rw [if_neg htw]; exact hnil t ht htw)
  obtain ⟨x, x1, x2, -⟩ := (C125_cells chk m hm c (fun t => (h.ok t).1) (fun t => (h.ok t).2) N hN
    (fun t => if t = w then [] else (is t).map (version (es w) (m s).bytes)) b.cont).2
    ⟨b, k1, fun t => by
      by_cases ht : t = w
      · rw [if_pos ht, ht]; exact k3
      · rw [if_neg ht, k4 t ht, if_neg ht]; rfl, fun _ _ => rfl⟩
  exact ⟨x, x1, fun t => by rw [x2 t]; trivial, fun t ht => by rw [x2 t, if_neg ht]⟩

/-! ## Fields of a copy -/

theorem putBits_spec (hi : Nat) (v : Nat → Bool) (n : Nat) : ∀ (j : Nat) (d : Bytes), hi < 8 * d.length → j + n ≤ hi + 1 →
    (putBits hi v n j d).length = d.length ∧
      ∀ i, netBit (putBits hi v n j d) i = if hi + 1 ≤ i + j + n ∧ i + j ≤ hi then v (hi - i) else netBit d i := by
  induction n with
  | zero => intro j d _ _; exact ⟨rfl, fun i => by rw [if_neg (by omega)]; rfl⟩
  | succ n ih =>
    intro j d hd hj
    obtain ⟨b1, b2⟩ := putBit_spec d (hi - j) (v j) (by omega)
    obtain ⟨h1, h2⟩ := ih (j + 1) (putBit d (hi - j) (v j)) (by rw [b1]; exact hd) (by omega)
    refine ⟨h1.trans b1, fun i => ?_⟩
    simp only [putBits]
    rw [h2, b2]
    by_cases h3 : hi + 1 ≤ i + (j + 1) + n ∧ i + (j + 1) ≤ hi
    · rw [if_pos h3, if_pos (by omega)]
    · rw [if_neg h3]
      by_cases h4 : i = hi - j
      · rw [if_pos h4, if_pos (by omega)]; congr 1; omega
      · rw [if_neg h4, if_neg (by omega)]

/-- C125.  Setting a field of a copy: the bits of the field are those of the value, the others stay. -/
theorem putField_spec (d : Bytes) (f : Field) (v : U64) (hf : f.Inside d.length) : (putField d f v).length = d.length ∧
    ∀ i, netBit (putField d f v) i = if f.lo ≤ i ∧ i ≤ f.hi then v.getLsbD (f.hi - i) else netBit d i := by
  have h1 := hf.1
  obtain ⟨g1, g2⟩ := putBits_spec f.hi v.getLsbD (f.hi + 1 - f.lo) 0 d hf.2 (by omega)
  refine ⟨g1, fun i => ?_⟩
  unfold putField
  rw [g2]
  by_cases h : f.lo ≤ i ∧ i ≤ f.hi
  · rw [if_pos h, if_pos (by omega)]
  · rw [if_neg h, if_neg (by omega)]

/-- It is what the crate's setter does. -/
theorem putField_set (h : Hdr) (f : Field) (v : U64) (hf : f.Inside h.data.length) :
    h.set f v = .ok ⟨h.ty, putField h.data f v⟩ := by
  obtain ⟨h', e, ht, hl, hb⟩ := set_bits h f v hf
  obtain ⟨g1, g2⟩ := putField_spec h.data f v hf
  have : h'.data = putField h.data f v := netBit_inj hl g1 fun i _ => by rw [hb, g2]
  rw [e]; cases h'; simp only at ht this; rw [ht, this]

theorem apply_length (e : Edit) (d : Bytes) (he : ∀ x ∈ e, x.1.Inside d.length) : (e.apply d).length = d.length := by
  induction e generalizing d with
  | nil => rfl
  | cons x e ih =>
    have h1 := (putField_spec d x.1 (x.2 d) (he x (by simp))).1
    have e1 : Edit.apply (x :: e) d = Edit.apply e (putField d x.1 (x.2 d)) := rfl
    rw [e1, ih _ (by rw [h1]; exact fun y hy => he y (by simp [hy])), h1]

/-! ## The checksum of a shared IPv4 header -/

/-- Fields are set, and then the checksum that `Packet::ipv4_checksum` gives for the copy. -/
def refreshing (chk : Bool) (fs : Edit) : Edit :=
  fs ++ [(IPv4.header_checksum, fun d => match Packet.ipv4_checksum chk d with | .ok c => c.setWidth 64 | .error _ => 0#64)]

/-- The twenty octets carry the checksum that folding the sum once gives (which is the right one unless that carries,
C39). -/
def FreshSum (d : Bytes) : Prop :=
  d.length = 20 ∧ fieldVal d 80 95 = 65535 - (plainSum d / 65536 + plainSum d) % 65536

theorem plainSum_stored (d : Bytes) (c : Nat) : plainSum (putChecksum d c) = plainSum d := by
  unfold plainSum putChecksum
  congr 2
  simp only [List.set_comm _ _ (show (11 : Nat) ≠ 10 by decide), List.set_set]

theorem refreshing_fresh (chk : Bool) (fs : Edit) (hfs : ∀ x ∈ fs, x.1.Inside 20) (d : Bytes) (hd : d.length = 20) :
    FreshSum ((refreshing chk fs).apply d) := by
  have e1 : (refreshing chk fs).apply d = putField (fs.apply d) IPv4.header_checksum
      (match Packet.ipv4_checksum chk (fs.apply d) with | .ok c => c.setWidth 64 | .error _ => 0#64) := by
    simp only [refreshing, Edit.apply, List.foldl_append, List.foldl_cons, List.foldl_nil]
  have hl : (fs.apply d).length = 20 := by rw [apply_length _ _ (by rw [hd]; exact hfs), hd]
  rw [e1]
  generalize fs.apply d = g at hl
  obtain ⟨c, hc, hval⟩ := C39_value chk g (by rw [hl]) (by rw [hl]; decide)
  rw [hc]
  dsimp only
  have hin : IPv4.header_checksum.Inside g.length := ⟨by decide, by rw [hl]; decide⟩
  have hp := putField_set ⟨IPv4, g⟩ IPv4.header_checksum (c.setWidth 64) hin
  rw [set_checksum ⟨IPv4, g⟩ hl c] at hp
  have hp' : putField g IPv4.header_checksum (c.setWidth 64) = putChecksum g c.toNat := by
    simpa using (Except.ok.inj hp).symm
  obtain ⟨p1, p2⟩ := putField_spec g IPv4.header_checksum (c.setWidth 64) hin
  refine ⟨p1.trans hl, ?_⟩
  have hfv : fieldVal (putField g IPv4.header_checksum (c.setWidth 64)) 80 95 = c.toNat := by
    apply Nat.eq_of_testBit_eq
    intro j
    rw [testBit_fieldVal _ _ _ (by rw [p1, hl]; decide)]
    by_cases hj : j < 16
    · rw [p2, if_pos ⟨show 80 ≤ 95 - j by omega, show 95 - j ≤ 95 by omega⟩,
        show IPv4.header_checksum.hi - (95 - j) = j from (by show 95 - (95 - j) = j; omega), BitVec.getLsbD_setWidth, BitVec.getLsbD]
      rw [decide_eq_true (show j < 95 + 1 - 80 by omega), decide_eq_true (show j < 64 by omega)]; simp only [Bool.true_and]
    · rw [decide_eq_false (show ¬ j < 95 + 1 - 80 by omega), Bool.false_and]
      exact (Nat.testBit_lt_two_pow (Nat.lt_of_lt_of_le c.isLt (Nat.pow_le_pow_right (by omega) (by omega)))).symm
  rw [hfv, hp', plainSum_stored]
  exact hval

/-- C125.  A shared IPv4 header edited by any number of threads, each in a copy of its own in which it refreshes the
checksum: whoever looks at the header sees the checksum that belongs to what else they see. -/
theorem C125_checksum (chk : Bool) (m : Store) (hm : Fresh L m) {s : Nat} {p : Nat → Nat} {fs : Nat → List Edit} {n : Nat → Nat}
    {c : Nat → Client (List Bytes)} (h : Newsroom L own s p (fun t => (fs t).map (refreshing chk)) n c)
    (N : Nat) (hN : ∀ t, N ≤ t → ∃ a, c t = .done a) (hI : FreshSum (m s).bytes)
    {w : Sys (List Bytes)} (hw : Sys.Reach ⟨m, fun t => (c t).prog chk⟩ w) (hf : w.Final) :
    FreshSum (w.mem s).bytes ∧ ∀ t, ∃ vs, w.th t = .ret vs ∧ ∀ v ∈ vs, FreshSum v := by
  refine (C125_preserved chk m hm h N hN FreshSum hI fun t e he v hv => ?_).2.2.1 w hw hf
  obtain ⟨g, hg, rfl⟩ := List.mem_map.mp he
  have hL : L s = 20 := by rw [← (hm s).2.2]; exact hI.1
  refine refreshing_fresh chk g (fun x hx => ?_) v hv.1
  rw [← hL]
  exact h.inside t _ he x (by unfold refreshing; simp [hx])

/-- C125.  What editing copies does not give: of the edits of two threads one can be lost. -/
theorem C125_lost (chk : Bool) (m : Store) (hm : Fresh L m) {s : Nat} {p : Nat → Nat} {es : Nat → List Edit} {n : Nat → Nat}
    {c : Nat → Client (List Bytes)} (h : Newsroom L own s p es n c) (hN : ∀ t, 2 ≤ t → c t = .done [])
    (e0 e1 : Edit) (h0 : c 0 = editor s (p 0) [e0] []) (h1 : c 1 = editor s (p 1) [e1] []) :
    ∃ x, Sys.Reach ⟨m, fun t => (c t).prog chk⟩ x ∧ x.Final ∧ (x.mem s).bytes = e1.apply (m s).bytes := by
  have g0 : cells own (micro (c 0)) (fun r => (m r).bytes) = .read s fun v => .write s (e0.apply v) (.done []) := by
    rw [h0, cells_editor h.shared (by rw [h.mine 0]; simp)]; rfl
  have g1 : cells own (micro (c 1)) (fun r => (m r).bytes) = .read s fun v => .write s (e1.apply v) (.done []) := by
    rw [h1, cells_editor h.shared (by rw [h.mine 1]; simp)]; rfl
  have g2 : ∀ t, 2 ≤ t → cells own (micro (c t)) (fun r => (m r).bytes) = .done [] := fun t ht => by rw [hN t ht]; rfl
  let b0 : Board (List Bytes) := ⟨fun r => (m r).bytes, fun t => cells own (micro (c t)) fun r => (m r).bytes⟩
  let b1 : Board (List Bytes) := ⟨b0.cont, fun z => if z = 0 then .write s (e0.apply (m s).bytes) (.done []) else b0.th z⟩
  let b2 : Board (List Bytes) := ⟨b0.cont, fun z => if z = 1 then .write s (e1.apply (m s).bytes) (.done []) else b1.th z⟩
  let b3 : Board (List Bytes) := ⟨fun z => if z = s then e0.apply (m s).bytes else b2.cont z, fun z => if z = 0 then .done [] else b2.th z⟩
  let b4 : Board (List Bytes) := ⟨fun z => if z = s then e1.apply (m s).bytes else b3.cont z, fun z => if z = 1 then .done [] else b3.th z⟩
  have r1 : Board.Step 0 b0 b1 := .read (w := b0) (w' := b1) g0 rfl (upd_mk _ _ _)
  have r2 : Board.Step 1 b1 b2 := .read (w := b1) (w' := b2) (r := s) (k := fun v => .write s (e1.apply v) (.done [])) g1 rfl (upd_mk _ _ _)
  have r3 : Board.Step 0 b2 b3 := .write (w := b2) (w' := b3) (r := s) (v := e0.apply (m s).bytes) (k := .done []) rfl (upd_mk _ _ _) (upd_mk _ _ _)
  have r4 : Board.Step 1 b3 b4 := .write (w := b3) (w' := b4) (r := s) (v := e1.apply (m s).bytes) (k := .done []) rfl (upd_mk _ _ _) (upd_mk _ _ _)
  have hfin : ∀ t, b4.th t = .done [] := by
    intro t
    match t with
    | 0 => rfl
    | 1 => rfl
    | t + 2 => exact g2 (t + 2) (by omega)
  obtain ⟨x, x1, x2, x3⟩ := (C125_cells chk m hm c (fun t => (h.ok t).1) (fun t => (h.ok t).2) 2 (fun t ht => ⟨_, hN t ht⟩)
    (fun _ => []) b4.cont).2 ⟨b4, .step 1 (.step 0 (.step 1 (.step 0 .refl r1) r2) r3) r4, hfin, fun _ _ => rfl⟩
  refine ⟨x, x1, fun t => by rw [x2 t]; trivial, ?_⟩
  rw [x3 s h.shared]
  exact if_pos rfl

end

/-! ## Non-vacuity -/

/-- Header 0 is shared, header `t + 1` belongs to thread `t`. -/
def pressOwn : Nat → Option Nat
  | 0 => none
  | t + 1 => some t

/-- An IPv4 header with its checksum, in the shared header and in all others. -/
def pressStore : Store := fun _ => ⟨[0x45#8, 0x00#8, 0x00#8, 0x73#8, 0x00#8, 0x00#8, 0x40#8, 0x00#8, 0x40#8, 0x11#8, 0xb8#8, 0x61#8,
    0xc0#8, 0xa8#8, 0x00#8, 0x01#8, 0xc0#8, 0xa8#8, 0x00#8, 0xc7#8], false, none⟩

/-- Threads 0 and 1 set the time to live, and the source address or the type of service. -/
def pressEdits : Nat → List Edit
  | 0 => [[(IPv4.ttl, fun _ => 63#64), (IPv4.src, fun _ => 0x0a000001#64)]]
  | 1 => [[(IPv4.ttl, fun d => BitVec.ofNat 64 (fieldVal d 64 71 - 1)), (IPv4.diffserv, fun _ => 4#64)]]
  | _ => []

/-- Thread 2 looks three times. -/
def pressThreads : Nat → Client (List Bytes)
  | 0 => editor 0 1 ((pressEdits 0).map (refreshing true)) []
  | 1 => editor 0 2 ((pressEdits 1).map (refreshing true)) []
  | 2 => viewer 0 3 []
  | _ => .done []

theorem press_newsroom : Newsroom (fun _ => 20) pressOwn 0 (fun t => t + 1) (fun t => (pressEdits t).map (refreshing true))
    (fun t => if t = 2 then 3 else 0) pressThreads where
  shared := rfl
  mine _ := rfl
  sizes _ := rfl
  inside t := by
    match t with
    | 0 => intro e he x hx; simp only [pressEdits, refreshing, List.map_cons, List.map_nil, List.mem_singleton] at he; subst he
           simp only [List.cons_append, List.nil_append, List.mem_cons, List.not_mem_nil, or_false] at hx
           rcases hx with rfl | rfl | rfl <;> exact ⟨by decide, by decide⟩
    | 1 => intro e he x hx; simp only [pressEdits, refreshing, List.map_cons, List.map_nil, List.mem_singleton] at he; subst he
           simp only [List.cons_append, List.nil_append, List.mem_cons, List.not_mem_nil, or_false] at hx
           rcases hx with rfl | rfl | rfl <;> exact ⟨by decide, by decide⟩
    | t + 2 => intro e he; simp [pressEdits] at he
  role t := by
    match t with
    | 0 => exact .inl rfl
    | 1 => exact .inl rfl
    | 2 => exact .inr rfl
    | t + 3 => exact .inl rfl

theorem press_fresh : Fresh (fun _ => 20) pressStore := fun _ => ⟨rfl, rfl, rfl⟩

/-- The hypotheses of `C125_checksum` are met by threads that race for one header, and an execution ends. -/
example : FreshSum (pressStore 0).bytes ∧
    ∃ w, Sys.Reach ⟨pressStore, fun t => (pressThreads t).prog true⟩ w ∧ w.Final ∧ FreshSum (w.mem 0).bytes := by
  have hI : FreshSum (pressStore 0).bytes := ⟨rfl, by decide +kernel⟩
  have hN : ∀ t, 3 ≤ t → ∃ a, pressThreads t = .done a := fun t ht => by
    match t, ht with
    | t + 3, _ => exact ⟨[], rfl⟩
  obtain ⟨-, -, w, hw, hf⟩ := C125_ends true pressStore (fun _ => rfl) pressThreads (fun t => (press_newsroom.ok t).2) 3 hN
  exact ⟨hI, w, hw, hf, (C125_checksum true pressStore press_fresh (fs := pressEdits) press_newsroom 3 hN hI hw hf).1⟩

/-- What one edit publishes: both fields and the checksum have changed. -/
example : (refreshing true [(IPv4.ttl, fun _ => 63#64), (IPv4.src, fun _ => 0x0a000001#64)]).apply (pressStore 0).bytes =
    [0x45#8, 0x00#8, 0x00#8, 0x73#8, 0x00#8, 0x00#8, 0x40#8, 0x00#8, 0x3f#8, 0x11#8, 0x70#8, 0x0a#8,
      0x0a#8, 0x00#8, 0x00#8, 0x01#8, 0xc0#8, 0xa8#8, 0x00#8, 0xc7#8] := by decide +kernel

/-- Thread 0 publishes two versions, thread 1 looks three times. -/
def pressOne : Nat → Client (List Bytes)
  | 0 => editor 0 1 [[(IPv4.ttl, fun _ => 63#64)], [(IPv4.ttl, fun _ => 62#64)]] []
  | 1 => viewer 0 3 []
  | _ => .done []

theorem press_one : Newsroom (fun _ => 20) pressOwn 0 (fun t => t + 1)
    (fun t => if t = 0 then [[(IPv4.ttl, fun _ => 63#64)], [(IPv4.ttl, fun _ => 62#64)]] else [])
    (fun t => if t = 1 then 3 else 0) pressOne where
  shared := rfl
  mine _ := rfl
  sizes _ := rfl
  inside t e he x hx := by
    by_cases ht : t = 0
    · simp only [ht, if_true, List.mem_cons, List.not_mem_nil, or_false] at he
      rcases he with rfl | rfl <;> (rw [List.mem_singleton.mp hx]; exact ⟨by decide, by decide⟩)
    · simp only [ht, if_false, List.not_mem_nil] at he
  role t := by
    match t with
    | 0 => exact .inl rfl
    | 1 => exact .inr rfl
    | t + 2 => exact .inr rfl

/-- The viewer can see the first version, then the last one twice, with 64 and 62 hops left. -/
example : ∃ x, Sys.Reach ⟨pressStore, fun t => (pressOne t).prog true⟩ x ∧ x.Final ∧
    ∃ vs, x.th 1 = .ret vs ∧ vs.map (fun v => fieldVal v 64 71) = [64, 62, 62] := by
  obtain ⟨x, h1, h2, h3⟩ := C125_any_views true pressStore press_fresh press_one 2
    (fun t ht => by match t, ht with | t + 2, _ => exact ⟨[], rfl⟩) 0 rfl
    (fun t ht => by
      match t, ht with
      | 1, _ => rfl
      | t + 2, _ => rfl)
    (fun t => if t = 1 then [0, 2, 2] else [])
    (fun t _ => by by_cases ht : t = 1 <;> simp [ht]) (fun t => by by_cases ht : t = 1 <;> simp [ht])
    (fun t i hi => by
      by_cases ht : t = 1
      · simp only [ht, if_true, List.mem_cons, List.not_mem_nil, or_false] at hi
        simp only [if_true, List.length_cons, List.length_nil]; omega
      · simp only [ht, if_false, List.not_mem_nil] at hi)
  exact ⟨x, h1, h2, _, h3 1 (by decide), by decide +kernel⟩

/-- Threads 0 and 1 publish one edit each. -/
def pressTwo : Nat → Client (List Bytes)
  | 0 => editor 0 1 [[(IPv4.ttl, fun _ => 63#64)]] []
  | 1 => editor 0 2 [[(IPv4.diffserv, fun _ => 4#64)]] []
  | _ => .done []

theorem press_two : Newsroom (fun _ => 20) pressOwn 0 (fun t => t + 1)
    (fun t => if t = 0 then [[(IPv4.ttl, fun _ => 63#64)]] else if t = 1 then [[(IPv4.diffserv, fun _ => 4#64)]] else [])
    (fun _ => 0) pressTwo where
  shared := rfl
  mine _ := rfl
  sizes _ := rfl
  inside t e he x hx := by
    match t with
    | 0 => rw [List.mem_singleton.mp he] at hx; rw [List.mem_singleton.mp hx]; exact ⟨by decide, by decide⟩
    | 1 => rw [List.mem_singleton.mp he] at hx; rw [List.mem_singleton.mp hx]; exact ⟨by decide, by decide⟩
    | t + 2 => cases he
  role t := by
    match t with
    | 0 => exact .inl rfl
    | 1 => exact .inl rfl
    | t + 2 => exact .inr rfl

/-- The time to live that thread 0 has set can be lost. -/
example : ∃ x, Sys.Reach ⟨pressStore, fun t => (pressTwo t).prog true⟩ x ∧ x.Final ∧
    fieldVal (x.mem 0).bytes 64 71 = 64 ∧ fieldVal (x.mem 0).bytes 8 15 = 4 := by
  obtain ⟨x, h1, h2, h3⟩ := C125_lost true pressStore press_fresh press_two
    (fun t ht => by match t, ht with | t + 2, _ => rfl) _ _ rfl rfl
  refine ⟨x, h1, h2, ?_, ?_⟩ <;> (rw [h3]; decide +kernel)

end PacketRs
