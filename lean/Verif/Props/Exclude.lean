import Verif.Props.Publish
import Verif.Spec.Exclude
/-!
# C126: edits in place under flags are neither mixed nor lost
-/
namespace PacketRs
open Spec

section
variable {L : Nat → Nat} {g s N : Nat} {e : Nat → Edit}

theorem micro_flag {α : Type} (t : Nat) (v : U64) (k : Client α) :
    micro (.set g (flagBit t) v k) = .write g t (v.getLsbD 0) (micro k) := by
  have : (flagBit t).hi + 1 - (flagBit t).lo = 1 := by show t + 1 - t = 1; omega
  simp only [micro, this, writeBits]; rfl

theorem micro_check {α : Type} (u : Nat) (us : List Nat) (ok fail : Client α) :
    micro (checkFlags g (u :: us) ok fail) = .read g u fun b => if b then micro fail else micro (checkFlags g us ok fail) := by
  have h1 : (flagBit u).hi + 1 - (flagBit u).lo = 1 := by show u + 1 - u = 1; omega
  simp only [checkFlags, micro, h1, readBits]
  show Micro.read g u _ = Micro.read g u _
  congr 1; funext b
  cases b <;> rfl

/-- A thread in the middle of its edit: it reads and writes `s`, and then takes its flag down. -/
inductive InEdit (L : Nat → Nat) (g s t : Nat) : Micro Bool → Prop where
  | fin : InEdit L g s t (.write g t false (.done true))
  | all {k : Bytes → Micro Bool} : (∀ v, InEdit L g s t (k v)) → InEdit L g s t (.readAll s k)
  | wr {i : Nat} {b : Bool} {k : Micro Bool} : i < 8 * L s → InEdit L g s t k → InEdit L g s t (.write s i b k)

/-- What the edit makes of the contents of `s`. -/
def afterEdit (g : Nat) : Micro Bool → Bytes → Bytes
  | .write r i b k, d => if r = g then d else afterEdit g k (putBit d i b)
  | .readAll _ k, d => afterEdit g (k d) d
  | _, d => d

theorem inEdit_writeBits {t hi : Nat} (hh : hi < 8 * L s) (v : Nat → Bool) (k : Micro Bool) (hk : InEdit L g s t k) (n : Nat) :
    ∀ j, InEdit L g s t (writeBits s hi v k n j) := by
  induction n with
  | zero => intro j; exact hk
  | succ n ih => intro j; exact .wr (by omega) (ih _)

theorem inEdit_client {t : Nat} (k : Client Bool) (hk : InEdit L g s t (micro k)) (x : Edit) (hx : ∀ y ∈ x, y.1.Inside (L s)) :
    InEdit L g s t (micro (x.client s k)) := by
  induction x with
  | nil => exact hk
  | cons y x ih =>
    exact .all fun v => inEdit_writeBits (hx y (by simp)).2 _ _ (ih fun z hz => hx z (by simp [hz])) _ _

theorem after_writeBits (hne : s ≠ g) {hi : Nat} (v : Nat → Bool) (k : Micro Bool) (n : Nat) : ∀ (j : Nat) (d : Bytes),
    afterEdit g (writeBits s hi v k n j) d = afterEdit g k (putBits hi v n j d) := by
  induction n with
  | zero => intro j d; rfl
  | succ n ih => intro j d; simp only [writeBits, afterEdit, if_neg hne, putBits]; exact ih _ _

theorem after_client (hne : s ≠ g) (k : Client Bool) (x : Edit) : ∀ d, afterEdit g (micro (x.client s k)) d =
    afterEdit g (micro k) (x.apply d) := by
  induction x with
  | nil => intro d; rfl
  | cons y x ih =>
    intro d
    have e1 : Edit.client s (y :: x) k = .toVec s fun v => .set s y.1 (y.2 v) (Edit.client s x k) := rfl
    rw [e1]
    simp only [micro, afterEdit]
    rw [after_writeBits hne, ih]; rfl

/-- Where a thread is. -/
inductive Spot where
  /-- flag down, `k + 1` attempts left -/
  | away (k : Nat)
  /-- flag up, these flags still to be looked at -/
  | look (k : Nat) (us : List Nat)
  /-- flag up, editing -/
  | inside
  /-- flag up, giving up this attempt -/
  | back (k : Nat)
  | over (b : Bool)

def Spot.flag : Spot → Bool
  | .away _ => false
  | .look .. => true
  | .inside => true
  | .back _ => true
  | .over _ => false

/-- The thread `t` has seen the flag of `u` down since it put up its own. -/
def Spot.Saw (N t : Nat) : Spot → Nat → Prop
  | .look _ us, u => u < N ∧ u ≠ t ∧ u ∉ us
  | .inside, u => u < N ∧ u ≠ t
  | _, _ => False

def Spot.Is (L : Nat → Nat) (g s N t : Nat) (x : Edit) : Spot → Micro Bool → Prop
  | .away k, q => q = micro (guarded g s N t x (k + 1))
  | .look k us, q => us ≠ [] ∧ (∀ u ∈ us, u < N ∧ u ≠ t) ∧ q = micro (checkFlags g us
      (x.client s (.set g (flagBit t) 0#64 (.done true))) (.set g (flagBit t) 0#64 (guarded g s N t x k)))
  | .inside, q => InEdit L g s t q
  | .back k, q => q = .write g t false (micro (guarded g s N t x k))
  | .over b, q => q = .done b

theorem mem_rivals {t u : Nat} : u ∈ rivals N t ↔ u < N ∧ u ≠ t := by
  simp [rivals]

/-- The invariant. -/
structure Orderly (L : Nat → Nat) (g s N : Nat) (e : Nat → Edit) (d0 : Bytes) (w : Machine Bool) (at' : Nat → Spot) (order : List Nat) : Prop where
  lenS : (w.cont s).length = L s
  lenG : (w.cont g).length = L g
  spot : ∀ t, (at' t).Is L g s N t (e t) (w.th t)
  out : ∀ t, N ≤ t → at' t = .over false
  flags : ∀ t, t < N → netBit (w.cont g) t = (at' t).flag
  excl : ∀ t u, t ≠ u → ¬ ((at' t).Saw N t u ∧ (at' u).Saw N u t)
  nodup : order.Nodup
  mem : ∀ t, t ∈ order ↔ at' t = .over true
  calm : (∀ t, at' t ≠ .inside) → w.cont s = editsInOrder e d0 order
  busy : ∀ t, at' t = .inside → afterEdit g (w.th t) (w.cont s) = (e t).apply (editsInOrder e d0 order)

theorem Orderly.lt {d0 : Bytes} {w : Machine Bool} {at' : Nat → Spot} {order : List Nat} (h : Orderly L g s N e d0 w at' order)
    {t : Nat} (ht : at' t ≠ .over false) : t < N :=
  Nat.lt_of_not_le fun h1 => ht (h.out t h1)

/-- At most one thread is editing. -/
theorem Orderly.one {d0 : Bytes} {w : Machine Bool} {at' : Nat → Spot} {order : List Nat} (h : Orderly L g s N e d0 w at' order)
    {t u : Nat} (ht : at' t = .inside) (hu : at' u = .inside) : t = u := by
  refine Classical.byContradiction fun hne => h.excl t u hne ?_
  have h1 := h.lt (t := t) (by rw [ht]; simp)
  have h2 := h.lt (t := u) (by rw [hu]; simp)
  rw [ht, hu]
  exact ⟨⟨h2, fun x => hne x.symm⟩, h1, hne⟩

/-- Thread `t` moves to `a`. -/
theorem Orderly.core {d0 : Bytes} {w : Machine Bool} {at' : Nat → Spot} {order : List Nat} (h : Orderly L g s N e d0 w at' order)
    {t : Nat} (ht : t < N) {a : Spot} {q : Micro Bool} {cont : Nat → Bytes} {order' : List Nat}
    (hls : (cont s).length = L s) (hlg : (cont g).length = L g) (hq : a.Is L g s N t (e t) q)
    (hb : ∀ u, u < N → netBit (cont g) u = if u = t then a.flag else netBit (w.cont g) u)
    (hx : ∀ u, u ≠ t → ¬ (a.Saw N t u ∧ (at' u).Saw N u t))
    (hnd : order'.Nodup) (hm : ∀ u, u ∈ order' ↔ if u = t then a = .over true else u ∈ order)
    (hcalm : (∀ u, u ≠ t → at' u ≠ .inside) → a ≠ .inside → cont s = editsInOrder e d0 order')
    (hbusy : a = .inside → afterEdit g q (cont s) = (e t).apply (editsInOrder e d0 order'))
    (hothers : ∀ u, u ≠ t → at' u = .inside → cont s = w.cont s ∧ order' = order) :
    Orderly L g s N e d0 ⟨cont, fun z => if z = t then q else w.th z⟩ (fun z => if z = t then a else at' z) order' := by
  refine ⟨hls, hlg, fun u => ?_, fun u hu => ?_, fun u hu => ?_, fun u v huv => ?_, hnd, fun u => ?_, fun hn => ?_, fun u hu => ?_⟩
  · dsimp only
    by_cases hut : u = t
    · subst hut; simpa using hq
    · simpa [hut] using h.spot u
  · rw [if_neg (by omega)]; exact h.out u hu
  · dsimp only
    rw [hb u hu]
    by_cases hut : u = t
    · simp [hut]
    · simp only [if_neg hut]; exact h.flags u hu
  · by_cases hut : u = t
    · subst hut
      rw [if_pos rfl, if_neg (fun x => huv x.symm)]; exact hx v fun x => huv x.symm
    · rw [if_neg hut]
      by_cases hvt : v = t
      · subst hvt; rw [if_pos rfl]; exact fun hh => hx u huv ⟨hh.2, hh.1⟩
      · rw [if_neg hvt]; exact h.excl u v huv
  · rw [hm u]
    by_cases hut : u = t
    · rw [if_pos hut, if_pos hut]
    · rw [if_neg hut, if_neg hut]; exact h.mem u
  · dsimp only at hn ⊢
    refine hcalm (fun u hut => ?_) ?_
    · have := hn u; rwa [if_neg hut] at this
    · have := hn t; rwa [if_pos rfl] at this
  · dsimp only at hu ⊢
    by_cases hut : u = t
    · subst hut; rw [if_pos rfl] at hu ⊢; exact hbusy hu
    · rw [if_neg hut] at hu ⊢
      obtain ⟨h1, h2⟩ := hothers u hut hu
      rw [h1, h2]; exact h.busy u hu

/-- Thread `t` moves, leaving `s` alone, and neither from, to nor within its edit. -/
theorem Orderly.move {d0 : Bytes} {w : Machine Bool} {at' : Nat → Spot} {order : List Nat} (h : Orderly L g s N e d0 w at' order)
    {t : Nat} (ht : t < N) {a : Spot} {q : Micro Bool} {cont : Nat → Bytes} (hs : cont s = w.cont s)
    (hlg : (cont g).length = L g) (hq : a.Is L g s N t (e t) q)
    (hb : ∀ u, u < N → netBit (cont g) u = if u = t then a.flag else netBit (w.cont g) u)
    (hx : ∀ u, u ≠ t → ¬ (a.Saw N t u ∧ (at' u).Saw N u t))
    (h1 : at' t ≠ .inside) (h2 : a ≠ .inside) (h3 : at' t ≠ .over true) (h4 : a ≠ .over true) :
    Orderly L g s N e d0 ⟨cont, fun z => if z = t then q else w.th z⟩ (fun z => if z = t then a else at' z) order := by
  refine h.core ht (hs ▸ h.lenS) hlg hq hb hx h.nodup (fun u => ?_) (fun hn _ => ?_) (fun x => absurd x h2) fun _ _ _ => ⟨hs, rfl⟩
  · by_cases hut : u = t
    · subst hut; rw [if_pos rfl, h.mem u]; exact ⟨fun x => absurd x h3, fun x => absurd x h4⟩
    · rw [if_neg hut]
  · rw [hs]
    refine h.calm fun u => ?_
    by_cases hut : u = t
    · subst hut; exact h1
    · exact hn u hut

/-- Thread `t` has seen all other flags down and goes in. -/
theorem Orderly.enter {d0 : Bytes} {w : Machine Bool} {at' : Nat → Spot} {order : List Nat} (h : Orderly L g s N e d0 w at' order)
    (hne : s ≠ g) {t : Nat} (ht : t < N) {cont : Nat → Bytes} (hs : cont s = w.cont s) (he : ∀ y ∈ e t, y.1.Inside (L s))
    (hlg : (cont g).length = L g) (hb : ∀ u, u < N → netBit (cont g) u = if u = t then true else netBit (w.cont g) u)
    (hx : ∀ u, u ≠ t → u < N → ¬ (at' u).Saw N u t) (h1 : at' t ≠ .inside) (h3 : at' t ≠ .over true) :
    Orderly L g s N e d0 ⟨cont, fun z => if z = t then micro ((e t).client s (.set g (flagBit t) 0#64 (.done true))) else w.th z⟩
      (fun z => if z = t then .inside else at' z) order := by
  have hnone : ∀ u, u ≠ t → at' u ≠ .inside := by
    intro u hut hu
    have h2 := h.lt (t := u) (by rw [hu]; simp)
    refine hx u hut h2 ?_
    rw [hu]; exact ⟨ht, fun x => hut x.symm⟩
  have hfin : InEdit L g s t (micro (.set g (flagBit t) 0#64 (.done true))) := by
    rw [micro_flag]; exact .fin
  refine h.core ht (hs ▸ h.lenS) hlg (inEdit_client _ hfin _ he) hb (fun u hut hh => hx u hut hh.1.1 hh.2) h.nodup (fun u => ?_)
    (fun _ x => absurd rfl x) (fun _ => ?_) fun _ _ _ => ⟨hs, rfl⟩
  · by_cases hut : u = t
    · subst hut; rw [if_pos rfl, h.mem u]; exact ⟨fun x => absurd x h3, fun x => by cases x⟩
    · rw [if_neg hut]
  · rw [after_client hne, micro_flag, hs, h.calm fun u => ?_]
    · simp [afterEdit]
    · by_cases hut : u = t
      · subst hut; exact h1
      · exact hnone u hut

/-- A flag that is up shows. -/
theorem Spot.Saw.up {t u : Nat} : {a : Spot} → a.Saw N t u → a.flag = true
  | .look _ _, _ => rfl
  | .inside, _ => rfl

/-- The next of the flags, or in. -/
theorem Orderly.further {d0 : Bytes} {w : Machine Bool} {at' : Nat → Spot} {order : List Nat} (h : Orderly L g s N e d0 w at' order)
    (hne : s ≠ g) {t : Nat} (ht : t < N) {cont : Nat → Bytes} (hs : cont s = w.cont s) (he : ∀ y ∈ e t, y.1.Inside (L s))
    (hlg : (cont g).length = L g) (hb : ∀ u, u < N → netBit (cont g) u = if u = t then true else netBit (w.cont g) u)
    {us : List Nat} (hus : ∀ u ∈ us, u < N ∧ u ≠ t) (k : Nat)
    (hx : ∀ u, u ≠ t → u < N → u ∉ us → ¬ (at' u).Saw N u t) (h1 : at' t ≠ .inside) (h3 : at' t ≠ .over true) :
    ∃ a, Orderly L g s N e d0 ⟨cont, fun z => if z = t then micro (checkFlags g us
        ((e t).client s (.set g (flagBit t) 0#64 (.done true))) (.set g (flagBit t) 0#64 (guarded g s N t (e t) k))) else w.th z⟩
      (fun z => if z = t then a else at' z) order := by
  match us, hus, hx with
  | [], _, hx =>
    exact ⟨.inside, h.enter hne ht hs he hlg hb (fun u hut hu => hx u hut hu (by simp)) h1 h3⟩
  | u :: us, hus, hx =>
    exact ⟨.look k (u :: us), h.move ht hs hlg ⟨by simp, hus, rfl⟩ hb (fun v hv hh => hx v hv hh.1.1 hh.1.2.2 hh.2)
      h1 (by simp) h3 (by simp)⟩

theorem Spec.Machine.Step.of_write {α : Type} {w w' : Machine α} {t r i : Nat} {b : Bool} {k : Micro α} (hs : Machine.Step t w w')
    (e1 : w.th t = .write r i b k) (hi : i < 8 * (w.cont r).length) :
    w' = ⟨fun z => if z = r then putBit (w.cont r) i b else w.cont z, fun z => if z = t then k else w.th z⟩ := by
  obtain ⟨c', th'⟩ := w'
  cases hs with
  | read e2 => rw [e1] at e2; cases e2
  | write e2 hb hc hu =>
    rw [e1] at e2; cases e2
    dsimp only at hc hu
    rw [hc.eq, hu.eq, bitSet_unique hb (putBit_spec _ i b hi)]
  | readAll e2 => rw [e1] at e2; cases e2
  | copy e2 => rw [e1] at e2; cases e2

theorem Spec.Machine.Step.of_read {α : Type} {w w' : Machine α} {t r i : Nat} {k : Bool → Micro α} (hs : Machine.Step t w w')
    (e1 : w.th t = .read r i k) :
    w' = ⟨w.cont, fun z => if z = t then k (netBit (w.cont r) i) else w.th z⟩ := by
  obtain ⟨c', th'⟩ := w'
  cases hs with
  | read e2 hc hu =>
    rw [e1] at e2; cases e2
    dsimp only at hc hu
    rw [hc, hu.eq]
  | write e2 => rw [e1] at e2; cases e2
  | readAll e2 => rw [e1] at e2; cases e2
  | copy e2 => rw [e1] at e2; cases e2

theorem Spec.Machine.Step.of_readAll {α : Type} {w w' : Machine α} {t r : Nat} {k : Bytes → Micro α} (hs : Machine.Step t w w')
    (e1 : w.th t = .readAll r k) :
    w' = ⟨w.cont, fun z => if z = t then k (w.cont r) else w.th z⟩ := by
  obtain ⟨c', th'⟩ := w'
  cases hs with
  | read e2 => rw [e1] at e2; cases e2
  | write e2 => rw [e1] at e2; cases e2
  | readAll e2 hc hu =>
    rw [e1] at e2; cases e2
    dsimp only at hc hu
    rw [hc, hu.eq]
  | copy e2 => rw [e1] at e2; cases e2

theorem Spec.Machine.Step.of_done {α : Type} {w w' : Machine α} {t : Nat} {b : α} (hs : Machine.Step t w w') (e1 : w.th t = .done b) : False := by
  cases hs with
  | read e2 => rw [e1] at e2; cases e2
  | write e2 => rw [e1] at e2; cases e2
  | readAll e2 => rw [e1] at e2; cases e2
  | copy e2 => rw [e1] at e2; cases e2

theorem Orderly.step {d0 : Bytes} {w w' : Machine Bool} {at' : Nat → Spot} {order : List Nat} (h : Orderly L g s N e d0 w at' order)
    (hne : s ≠ g) (hN : N ≤ 8 * L g) (he : ∀ t, ∀ y ∈ e t, y.1.Inside (L s)) {t : Nat} (hs : Machine.Step t w w') :
    ∃ at'' order', Orderly L g s N e d0 w' at'' order' := by
  have hsp := h.spot t
  have ht : t < N := by
    refine h.lt fun hc => ?_
    rw [hc] at hsp
    exact hs.of_done hsp
  have hbit : t < 8 * (w.cont g).length := by rw [h.lenG]; omega
  have hput : ∀ b u, netBit (putBit (w.cont g) t b) u = if u = t then b else netBit (w.cont g) u := fun b => (putBit_spec _ t b hbit).2
  have hlen : ∀ b, (putBit (w.cont g) t b).length = L g := fun b => (putBit_length _ _ _).trans h.lenG
  generalize hat : at' t = a at hsp
  match a, hat, hsp with
  | .over b, hat, hsp => exact (hs.of_done hsp).elim
  | .away k, hat, hsp =>
    have e1 : w.th t = .write g t true (micro (checkFlags g (rivals N t)
        ((e t).client s (.set g (flagBit t) 0#64 (.done true))) (.set g (flagBit t) 0#64 (guarded g s N t (e t) k)))) :=
      hsp.trans (micro_flag t 1#64 _)
    rw [hs.of_write e1 hbit]
    obtain ⟨a, ha⟩ := h.further (cont := fun z => if z = g then putBit (w.cont g) t true else w.cont z) hne ht (if_neg hne) (he t)
      (by simpa using hlen true) (fun u _ => by simpa using hput true u) (us := rivals N t) (fun u hu => mem_rivals.1 hu) k
      (fun u hut hu hn => absurd (mem_rivals.2 ⟨hu, hut⟩) hn) (by rw [hat]; simp) (by rw [hat]; simp)
    exact ⟨_, _, ha⟩
  | .look k [], hat, hsp => exact absurd rfl hsp.1
  | .look k (u :: us), hat, ⟨_, hus, hsp⟩ =>
    rw [micro_check] at hsp
    rw [hs.of_read hsp]
    have hu := hus u (by simp)
    rw [h.flags u hu.1]
    have hself : netBit (w.cont g) t = true := by rw [h.flags t ht, hat]; rfl
    have hb : ∀ v, v < N → netBit (w.cont g) v = if v = t then true else netBit (w.cont g) v := by
      intro v _
      by_cases hv : v = t
      · subst hv; rw [if_pos rfl]; exact hself
      · rw [if_neg hv]
    by_cases hf : (at' u).flag = true
    · rw [if_pos hf, micro_flag]
      exact ⟨_, _, h.move (a := .back k) ht rfl h.lenG rfl hb (fun v _ hh => hh.1) (by rw [hat]; simp) (by simp) (by rw [hat]; simp) (by simp)⟩
    · rw [if_neg hf]
      obtain ⟨a, ha⟩ := h.further hne ht (cont := w.cont) rfl (he t) h.lenG hb (us := us) (fun v hv => hus v (by simp [hv])) k
        (fun v hvt hv hn hh => by
          by_cases hvu : v = u
          · subst hvu; exact hf hh.up
          · refine h.excl t v (fun x => hvt x.symm) ⟨?_, hh⟩
            rw [hat]
            refine ⟨hv, hvt, ?_⟩
            simp only [List.mem_cons, not_or]
            exact ⟨hvu, hn⟩) (by rw [hat]; simp) (by rw [hat]; simp)
      exact ⟨_, _, ha⟩
  | .back k, hat, hsp =>
    rw [hs.of_write hsp hbit]
    match k with
    | 0 =>
      exact ⟨_, _, h.move (a := .over false) (cont := fun z => if z = g then putBit (w.cont g) t false else w.cont z) ht (if_neg hne)
        (by simpa using hlen false) rfl (fun u _ => by rw [if_pos rfl]; exact hput false u) (fun v _ hh => hh.1)
        (by rw [hat]; simp) (by simp) (by rw [hat]; simp) (by simp)⟩
    | k + 1 =>
      exact ⟨_, _, h.move (a := .away k) (cont := fun z => if z = g then putBit (w.cont g) t false else w.cont z) ht (if_neg hne)
        (by simpa using hlen false) rfl (fun u _ => by rw [if_pos rfl]; exact hput false u) (fun v _ hh => hh.1)
        (by rw [hat]; simp) (by simp) (by rw [hat]; simp) (by simp)⟩
  | .inside, hat, hsp =>
    have hself : netBit (w.cont g) t = true := by rw [h.flags t ht, hat]; rfl
    have hb : ∀ v, v < N → netBit (w.cont g) v = if v = t then true else netBit (w.cont g) v := by
      intro v _
      by_cases hv : v = t
      · subst hv; rw [if_pos rfl]; exact hself
      · rw [if_neg hv]
    have hbusy := h.busy t hat
    have hno : ∀ u, u ≠ t → at' u ≠ .inside := fun u hut hu => hut (h.one hu hat)
    have hsaw : ∀ u, u ≠ t → ¬ (Spot.inside.Saw N t u ∧ (at' u).Saw N u t) := fun u hut hh =>
      h.excl t u (fun x => hut x.symm) ⟨by rw [hat]; exact hh.1, hh.2⟩
    have hmem : ∀ u, u ∈ order ↔ if u = t then Spot.inside = .over true else u ∈ order := by
      intro u
      by_cases hut : u = t
      · subst hut; rw [if_pos rfl, h.mem u, hat]
      · rw [if_neg hut]
    generalize hq : w.th t = q at hsp hbusy
    cases hsp with
    | fin =>
      rw [hs.of_write hq hbit]
      have hnt : t ∉ order := by rw [h.mem t, hat]; simp
      simp only [afterEdit, if_true] at hbusy
      refine ⟨_, order ++ [t], h.core (a := .over true) (cont := fun z => if z = g then putBit (w.cont g) t false else w.cont z) ht
        (by simpa [hne] using h.lenS) (by simpa using hlen false) rfl (fun u _ => by rw [if_pos rfl]; exact hput false u)
        (fun v _ hh => hh.1) ?_ (fun u => ?_) (fun _ _ => ?_) (fun x => by cases x) fun u hut hu => absurd hu (hno u hut)⟩
      · rw [List.nodup_append]
        exact ⟨h.nodup, by simp, fun a ha b hb' hab => hnt (by simp at hb'; rw [← hb', ← hab]; exact ha)⟩
      · by_cases hut : u = t
        · simp [hut]
        · simp [hut]
      · rw [if_neg hne, hbusy]; simp [editsInOrder]
    | all hk =>
      rw [hs.of_readAll hq]
      exact ⟨_, order, h.core (a := .inside) ht h.lenS h.lenG (hk _) hb hsaw h.nodup hmem (fun _ x => absurd rfl x)
        (fun _ => hbusy) fun u hut hu => absurd hu (hno u hut)⟩
    | @wr i b k hi hk =>
      rw [hs.of_write hq (by rw [h.lenS]; exact hi)]
      simp only [afterEdit, if_neg hne] at hbusy
      refine ⟨_, order, h.core (a := .inside) ht ?_ ?_ hk ?_ hsaw h.nodup hmem (fun _ x => absurd rfl x)
        (fun _ => ?_) fun u hut hu => absurd hu (hno u hut)⟩
      · rw [if_pos rfl, putBit_length]; exact h.lenS
      · rw [if_neg fun x => hne x.symm]; exact h.lenG
      · intro u hu; rw [if_neg fun x => hne x.symm]; exact hb u hu
      · rw [if_pos rfl]; exact hbusy

theorem Orderly.reach {d0 : Bytes} {w w' : Machine Bool} {at' : Nat → Spot} {order : List Nat} (h : Orderly L g s N e d0 w at' order)
    (hne : s ≠ g) (hN : N ≤ 8 * L g) (he : ∀ t, ∀ y ∈ e t, y.1.Inside (L s)) (hs : Machine.Reach w w') :
    ∃ at'' order', Orderly L g s N e d0 w' at'' order' := by
  induction hs with
  | refl => exact ⟨_, _, h⟩
  | step t _ hs ih =>
    obtain ⟨a, o, ih⟩ := ih
    exact ih.step hne hN he hs

/-! ## The calls -/

theorem checkFlags_inside {us : List Nat} (hus : ∀ u ∈ us, u < 8 * L g) {ok fail : Client Bool} (h1 : Inside L ok)
    (h2 : Inside L fail) : Inside L (checkFlags g us ok fail) := by
  induction us with
  | nil => exact h1
  | cons u us ih =>
    refine ⟨Nat.le_refl u, hus u (by simp), by show u - u < 64; omega, fun _ _ _ => .inl trivial, fun v => ?_⟩
    dsimp only
    split
    · exact ih fun x hx => hus x (by simp [hx])
    · exact h2

theorem flag_inside {t : Nat} (ht : t < 8 * L g) (v : U64) {c : Client Bool} (h : Inside L c) : Inside L (.set g (flagBit t) v c) :=
  ⟨Nat.le_refl t, ht, fun _ _ _ => trivial, h⟩

theorem guarded_inside {t : Nat} (ht : t < N) (hN : N ≤ 8 * L g) (x : Edit) (hx : ∀ y ∈ x, y.1.Inside (L s)) (k : Nat) :
    Inside L (guarded g s N t x k) := by
  induction k with
  | zero => exact trivial
  | succ k ih =>
    have ht' : t < 8 * L g := by omega
    exact flag_inside ht' _ (checkFlags_inside (fun u hu => by have := (mem_rivals.1 hu).1; omega)
      (edit_inside (k := .set g (flagBit t) 0#64 (.done true)) (flag_inside (c := .done true) ht' _ trivial) x hx) (flag_inside ht' _ ih))

theorem team_inside (hN : N ≤ 8 * L g) (he : ∀ t, ∀ y ∈ e t, y.1.Inside (L s)) (k : Nat → Nat) (t : Nat) :
    Inside L (team g s N e k t) := by
  unfold team; split
  · rename_i ht; exact guarded_inside ht hN _ (he t) _
  · trivial

theorem checkFlags_replaces {Rel : Nat → Nat → Prop} {us : List Nat} {ok fail : Client Bool} (h1 : Replaces Rel ok)
    (h2 : Replaces Rel fail) : Replaces Rel (checkFlags g us ok fail) := by
  induction us with
  | nil => exact h1
  | cons u us ih =>
    intro v
    dsimp only
    split
    · exact ih
    · exact h2

theorem edit_replaces {Rel : Nat → Nat → Prop} {c : Client Bool} (h : Replaces Rel c) (x : Edit) : Replaces Rel (x.client s c) := by
  induction x with
  | nil => exact h
  | cons y x ih => exact fun v => ih

theorem guarded_replaces {Rel : Nat → Nat → Prop} {t : Nat} (x : Edit) (k : Nat) : Replaces Rel (guarded g s N t x k) := by
  induction k with
  | zero => exact trivial
  | succ k ih => exact checkFlags_replaces (edit_replaces (c := .set g (flagBit t) 0#64 (.done true)) trivial x) ih

/-- C126.  The threads never deadlock, no schedule is infinite, and some schedule ends. -/
theorem C126_ends (chk : Bool) (m : Store) (hm : ∀ r, (m r).owner = none) (g s N : Nat) (e : Nat → Edit) (k : Nat → Nat) :
    (∀ x, Sys.Reach ⟨m, fun t => (team g s N e k t).prog chk⟩ x → ¬ Stuck x) ∧
    (¬ ∃ (σ : Nat → Sys Bool) (sch : Nat → Nat), σ 0 = ⟨m, fun t => (team g s N e k t).prog chk⟩ ∧
      ∀ i, (σ i).step (sch i) = some (σ (i + 1))) ∧
    ∃ x, Sys.Reach ⟨m, fun t => (team g s N e k t).prog chk⟩ x ∧ x.Final := by
  refine C66_ordered_replace chk m hm (team g s N e k) (fun _ => 0) (fun t => ?_) N fun t ht => ⟨false, if_neg (by omega)⟩
  unfold team; split
  · exact guarded_replaces _ _
  · trivial

theorem Orderly.start {m : Store} (hm : Fresh L m) (hdown : ∀ t, t < N → netBit (m g).bytes t = false) (k : Nat → Nat) :
    ∃ a, Orderly L g s N e (m s).bytes ⟨fun r => (m r).bytes, fun t => micro (team g s N e k t)⟩ a [] := by
  refine ⟨fun t => if t < N then (match k t with | 0 => .over false | j + 1 => .away j) else .over false,
    (hm s).2.2, (hm g).2.2, fun t => ?_, fun t ht => if_neg (by omega), fun t ht => ?_, fun t u _ h => ?_, by simp, fun t => ?_,
    fun _ => rfl, fun t ht => ?_⟩
  · dsimp only [team]
    by_cases ht : t < N
    · rw [if_pos ht, if_pos ht]
      cases k t <;> rfl
    · rw [if_neg ht, if_neg ht]; rfl
  · rw [if_pos ht, hdown t ht]
    cases k t <;> rfl
  · have h1 := h.1
    split at h1
    · cases hk : k t <;> rw [hk] at h1 <;> exact h1
    · exact h1
  · split
    · cases k t <;> simp
    · simp
  · exfalso
    split at ht
    · cases hk : k t <;> rw [hk] at ht <;> cases ht
    · cases ht

theorem Spot.Is.of_done {t : Nat} {x : Edit} {b : Bool} : {a : Spot} → a.Is L g s N t x (.done b) → a = .over b
  | .over b, h => by cases h; rfl
  | .away k, h => by
    have h1 : Micro.done b = micro (guarded g s N t x (k + 1)) := h
    simp only [guarded] at h1
    rw [micro_flag] at h1; cases h1
  | .look k [], h => absurd rfl h.1
  | .look k (u :: us), h => by have := h.2.2; rw [micro_check] at this; cases this
  | .inside, h => by cases h
  | .back k, h => by cases h

/-- The machine behind a reachable state. -/
theorem behind (chk : Bool) (m : Store) (hm : Fresh L m) (c : Nat → Client Bool) (hc : ∀ t, Inside L (c t))
    {x : Sys Bool} (hs : Sys.Reach ⟨m, fun t => (c t).prog chk⟩ x) :
    ∃ w, Machine.Reach ⟨fun r => (m r).bytes, fun t => micro (c t)⟩ w ∧
      (∀ t a, x.th t = .ret a → w.th t = .done a) ∧ ∀ r, (x.mem r).owner = none → w.cont r = (x.mem r).bytes := by
  have h1 : Alike L (⟨m, fun t => (c t).prog chk⟩ : Sys Bool) ⟨fun r => (m r).bytes, fun t => micro (c t)⟩ :=
    ⟨hm, fun _ => rfl, fun t => impl_client chk (c t) (hc t)⟩
  obtain ⟨a, h2, h3⟩ := Sys.TSim.reach hm.free (fun t => txn_client chk (c t)) hs
  obtain ⟨w, h4, h5⟩ := h1.treach h2
  refine ⟨w, h4, fun t b hx => ?_, fun r ho => ?_⟩
  · have hi := h5.th t
    cases h3.mode t with
    | idle g1 g2 =>
      rw [g2, hx] at hi
      generalize w.th t = q at hi
      cases hi
      rfl
    | sect r g1 g2 g3 g4 => rw [hx] at g4; simp [finish] at g4
    | pend r o k g1 g2 g3 g4 g5 g6 => rcases g6 with g6 | ⟨g6, -⟩ <;> rw [hx] at g6 <;> cases g6
    | both r o k g0 g1 g2 g3 g4 g5 g6 g7 =>
      rcases g7 with ⟨g7, -⟩ | ⟨g7, -⟩ | g7 | ⟨g7, -⟩ <;> rw [hx] at g7 <;> cases g7
  · rw [h5.cont r, h3.free r ho]

/-- C126.  At every moment at which no flag is up (and nobody is in the middle of a call on the two headers), the shared
header holds whole edits, made one after the other: those of all threads that have returned `true`, and of no thread
that has returned `false`. -/
theorem C126_always (chk : Bool) (m : Store) (hm : Fresh L m) (hne : s ≠ g) (hN : N ≤ 8 * L g) (he : ∀ t, ∀ y ∈ e t, y.1.Inside (L s))
    (hdown : ∀ t, t < N → netBit (m g).bytes t = false) (k : Nat → Nat) {x : Sys Bool}
    (hs : Sys.Reach ⟨m, fun t => (team g s N e k t).prog chk⟩ x) (hg : (x.mem g).owner = none) (hx : (x.mem s).owner = none)
    (hq : ∀ t, t < N → netBit (x.mem g).bytes t = false) :
    ∃ order : List Nat, order.Nodup ∧ (∀ t ∈ order, t < N ∧ x.th t ≠ .ret false) ∧ (∀ t, x.th t = .ret true → t ∈ order) ∧
      (x.mem s).bytes = editsInOrder e (m s).bytes order := by
  obtain ⟨w, h1, h2, h3⟩ := behind chk m hm _ (team_inside hN he k) hs
  obtain ⟨a, h0⟩ := Orderly.start (s := s) (e := e) hm hdown k
  obtain ⟨a, order, h⟩ := h0.reach hne hN he h1
  refine ⟨order, h.nodup, fun t ht => ⟨?_, fun hr => ?_⟩, fun t ht => ?_, ?_⟩
  · refine h.lt ?_
    rw [(h.mem t).1 ht]; simp
  · have h4 := h.spot t
    rw [(h.mem t).1 ht, h2 t _ hr] at h4
    cases h4
  · have h4 := h.spot t
    rw [h2 t _ ht] at h4
    rw [h.mem t, h4.of_done]
  · rw [← h3 s hx]
    refine h.calm fun t ht => ?_
    have h4 := h.lt (t := t) (by rw [ht]; simp)
    have h5 := h.flags t h4
    rw [h3 g hg, hq t h4, ht] at h5
    cases h5

/-- C126.  When all have finished: nobody has panicked, all flags are down, and the shared header holds the edits of
exactly the threads that have returned `true`, made one after the other.  None is lost and none is mixed with another,
although the edits are made in place, over many calls. -/
theorem C126_final (chk : Bool) (m : Store) (hm : Fresh L m) (hne : s ≠ g) (hN : N ≤ 8 * L g) (he : ∀ t, ∀ y ∈ e t, y.1.Inside (L s))
    (hdown : ∀ t, t < N → netBit (m g).bytes t = false) (k : Nat → Nat) {x : Sys Bool}
    (hs : Sys.Reach ⟨m, fun t => (team g s N e k t).prog chk⟩ x) (hf : x.Final) :
    ∃ (res : Nat → Bool) (order : List Nat), (∀ t, x.th t = .ret (res t)) ∧ (∀ t, t < N → netBit (x.mem g).bytes t = false) ∧
      order.Nodup ∧ (∀ t, t ∈ order ↔ res t = true) ∧ (∀ t ∈ order, t < N) ∧ (x.mem s).bytes = editsInOrder e (m s).bytes order := by
  obtain ⟨res, hres⟩ := all_returned chk m hm _ (team_inside hN he k) hs hf
  have h1 := (C65_atomic_bits chk m hm _ (team_inside hN he k) res fun r => (x.mem r).bytes).1 ⟨x, hs, hres, fun _ => rfl⟩
  obtain ⟨a, h0⟩ := Orderly.start (s := s) (e := e) hm hdown k
  obtain ⟨a, order, h⟩ := h0.reach hne hN he h1
  have hov : ∀ t, a t = .over (res t) := fun t => (h.spot t).of_done
  refine ⟨res, order, hres, fun t ht => ?_, h.nodup, fun t => ?_, fun t ht => ?_, h.calm fun t => ?_⟩
  · have := h.flags t ht
    rw [hov t] at this
    exact this
  · rw [h.mem t, hov t]; simp
  · refine h.lt ?_
    rw [(h.mem t).1 ht]; simp
  · rw [hov t]; simp

theorem countUp_value (f : Field) (d : Bytes) (hf : f.Inside d.length) (hw : f.width ≤ 64) :
    fieldVal ((countUp f).apply d) f.lo f.hi = (fieldVal d f.lo f.hi + 1) % 2 ^ f.width ∧ ((countUp f).apply d).length = d.length := by
  have e1 : (countUp f).apply d = putField d f (BitVec.ofNat 64 (fieldVal d f.lo f.hi + 1)) := rfl
  obtain ⟨g1, -⟩ := putField_spec d f (BitVec.ofNat 64 (fieldVal d f.lo f.hi + 1)) hf
  refine ⟨?_, by rw [e1]; exact g1⟩
  obtain ⟨h', r, h1, h2, h3⟩ := C02_set_get true ⟨IPv4, d⟩ f (BitVec.ofNat 64 (fieldVal d f.lo f.hi + 1)) hf hw
  rw [putField_set ⟨IPv4, d⟩ f _ hf] at h1
  obtain rfl := Except.ok.inj h1
  obtain ⟨v, h4, h5, -⟩ := C01_getter_value true ⟨IPv4, putField d f (BitVec.ofNat 64 (fieldVal d f.lo f.hi + 1))⟩ f (by dsimp only; rw [g1]; exact hf) hw
  rw [h4] at h2
  obtain rfl := Except.ok.inj h2
  rw [e1, ← h5, h3, BitVec.toNat_ofNat]
  exact Nat.mod_mod_of_dvd _ (Nat.pow_dvd_pow 2 hw)

theorem countUps_value (f : Field) (order : List Nat) : ∀ (d : Bytes), f.Inside d.length → f.width ≤ 64 →
    fieldVal (editsInOrder (fun _ => countUp f) d order) f.lo f.hi = (fieldVal d f.lo f.hi + order.length) % 2 ^ f.width := by
  induction order with
  | nil =>
    intro d hf _
    have h1 : f.width = f.hi + 1 - f.lo := by have := hf.1; unfold Field.width; omega
    rw [h1]
    exact (Nat.mod_eq_of_lt (fieldVal_lt d f.lo f.hi)).symm
  | cons t o ih =>
    intro d hf hw
    obtain ⟨h1, h2⟩ := countUp_value f d hf hw
    have := ih _ (h2 ▸ hf) hw
    show fieldVal (editsInOrder (fun _ => countUp f) ((countUp f).apply d) o) f.lo f.hi = _
    rw [this, h1, List.length_cons, Nat.mod_add_mod]
    congr 1; omega

/-- C126.  A counter in a header: if every thread adds one to a field, the field ends up higher by the number of threads
that have returned `true` (modulo what fits). -/
theorem C126_counter (chk : Bool) (m : Store) (hm : Fresh L m) (hne : s ≠ g) (hN : N ≤ 8 * L g) (f : Field) (hf : f.Inside (L s))
    (hw : f.width ≤ 64) (hdown : ∀ t, t < N → netBit (m g).bytes t = false) (k : Nat → Nat) {x : Sys Bool}
    (hs : Sys.Reach ⟨m, fun t => (team g s N (fun _ => countUp f) k t).prog chk⟩ x) (hfin : x.Final) :
    ∃ res : Nat → Bool, (∀ t, x.th t = .ret (res t)) ∧
      fieldVal (x.mem s).bytes f.lo f.hi = (fieldVal (m s).bytes f.lo f.hi + ((List.range N).filter res).length) % 2 ^ f.width := by
  have he : ∀ t : Nat, ∀ y ∈ (fun _ => countUp f) t, y.1.Inside (L s) := by
    intro t y hy
    simp only [countUp, List.mem_singleton] at hy
    subst hy; exact hf
  obtain ⟨res, order, h1, h2, h3, h4, h6, h5⟩ := C126_final (e := fun _ => countUp f) chk m hm hne hN he hdown k hs hfin
  refine ⟨res, h1, ?_⟩
  rw [h5, countUps_value f order _ (by rw [(hm s).2.2]; exact hf) hw]
  have hp : order.Perm ((List.range N).filter res) := by
    refine (List.perm_ext_iff_of_nodup h3 (List.Nodup.filter _ List.nodup_range)).2 fun t => ?_
    rw [List.mem_filter, List.mem_range]
    exact ⟨fun hr => ⟨h6 t hr, (h4 t).1 hr⟩, fun hr => (h4 t).2 hr.2⟩
  rw [hp.length_eq]

/-! ## Executions -/

theorem two_updates {β : Type} (f : Nat → β) (t : Nat) (x y : β) :
    (fun z => if z = t then y else if z = t then x else f z) = fun z => if z = t then y else f z := by
  funext z; split <;> rfl

theorem Spec.Machine.wr {α : Type} {w : Machine α} {t r i : Nat} {b : Bool} {k : Micro α} (e1 : w.th t = .write r i b k)
    (hi : i < 8 * (w.cont r).length) :
    Machine.Step t w ⟨fun z => if z = r then putBit (w.cont r) i b else w.cont z, fun z => if z = t then k else w.th z⟩ :=
  .write e1 (putBit_spec _ i b hi) (upd_mk _ _ _) (upd_mk _ _ _)

/-- The rest of an edit, without interruption. -/
theorem run_edit (hne : s ≠ g) {t : Nat} (ht : t < 8 * L g) {q : Micro Bool} (hq : InEdit L g s t q) : ∀ (w : Machine Bool),
    w.th t = q → (w.cont s).length = L s → (w.cont g).length = L g →
    ∃ cont, Machine.Reach w ⟨cont, fun z => if z = t then .done true else w.th z⟩ ∧
      cont s = afterEdit g q (w.cont s) ∧ cont g = putBit (w.cont g) t false ∧ (cont s).length = L s := by
  induction hq with
  | fin =>
    intro w e1 hs hg
    refine ⟨_, .step t .refl (Machine.wr e1 (by rw [hg]; exact ht)), ?_, ?_, ?_⟩
    · simp [afterEdit, hne]
    · simp
    · simpa [hne] using hs
  | all hk ih =>
    intro w e1 hs hg
    obtain ⟨c, h1, h2, h3, h4⟩ := ih (w.cont s) ⟨w.cont, fun z => if z = t then _ else w.th z⟩ (if_pos rfl) hs hg
    dsimp only at h1
    rw [two_updates] at h1
    exact ⟨c, .append (.step t .refl (Machine.rdAll e1)) h1, h2, h3, h4⟩
  | @wr i b k hi hk ih =>
    intro w e1 hs hg
    obtain ⟨c, h1, h2, h3, h4⟩ := ih ⟨fun z => if z = s then putBit (w.cont s) i b else w.cont z, fun z => if z = t then k else w.th z⟩
      (if_pos rfl) (by dsimp only; rw [if_pos rfl, putBit_length]; exact hs) (by dsimp only; rw [if_neg fun x => hne x.symm]; exact hg)
    dsimp only at h1
    rw [two_updates] at h1
    refine ⟨c, .append (.step t .refl (Machine.wr e1 (by rw [hs]; exact hi))) h1, ?_, ?_, h4⟩
    · rw [h2]; simp [afterEdit, hne]
    · rw [h3]; simp only [if_neg (show g ≠ s from fun x => hne x.symm)]

theorem run_check {t : Nat} {us : List Nat} {ok fail : Client Bool} : ∀ (w : Machine Bool), w.th t = micro (checkFlags g us ok fail) →
    (∀ u ∈ us, netBit (w.cont g) u = false) → Machine.Reach w ⟨w.cont, fun z => if z = t then micro ok else w.th z⟩ := by
  induction us with
  | nil =>
    intro w e1 _
    have e2 : w.th t = micro ok := e1
    rw [self_update w.th t e2]; exact .refl
  | cons u us ih =>
    intro w e1 hu
    rw [micro_check] at e1
    have h1 := Machine.rd e1
    rw [hu u (by simp)] at h1
    have h2 := ih ⟨w.cont, fun z => if z = t then micro (checkFlags g us ok fail) else w.th z⟩ (if_pos rfl) fun v hv => hu v (by simp [hv])
    dsimp only at h2
    rw [two_updates] at h2
    exact .append (.step t .refl h1) h2

/-- A thread that finds all flags down, without interruption. -/
theorem run_guarded (hne : s ≠ g) (hN : N ≤ 8 * L g) {t : Nat} (ht : t < N) {x : Edit} (hx : ∀ y ∈ x, y.1.Inside (L s)) (k : Nat)
    (w : Machine Bool) (e1 : w.th t = micro (guarded g s N t x (k + 1))) (hs : (w.cont s).length = L s)
    (hg : (w.cont g).length = L g) (hd : ∀ u, u < N → netBit (w.cont g) u = false) :
    ∃ cont, Machine.Reach w ⟨cont, fun z => if z = t then .done true else w.th z⟩ ∧ cont s = x.apply (w.cont s) ∧
      (cont s).length = L s ∧ (cont g).length = L g ∧ ∀ u, u < N → netBit (cont g) u = false := by
  have ht' : t < 8 * L g := by omega
  have e2 : w.th t = .write g t true _ := e1.trans (micro_flag t 1#64 _)
  have hb := putBit_spec (w.cont g) t true (by rw [hg]; exact ht')
  have r1 := Machine.wr e2 (by rw [hg]; exact ht')
  have r2 := run_check (g := g) (t := t) ⟨fun z => if z = g then putBit (w.cont g) t true else w.cont z, fun z => if z = t then
    micro (checkFlags g (rivals N t) (x.client s (.set g (flagBit t) 0#64 (.done true)))
      (.set g (flagBit t) 0#64 (guarded g s N t x k))) else w.th z⟩ (if_pos rfl) (fun u hu => by
        dsimp only
        have := mem_rivals.1 hu
        rw [if_pos rfl, hb.2, if_neg this.2]; exact hd u this.1)
  dsimp only at r2
  rw [two_updates] at r2
  have hfin : InEdit L g s t (micro (.set g (flagBit t) 0#64 (.done true))) := by
    rw [micro_flag]; exact .fin
  obtain ⟨c, r3, c1, c2, c3⟩ := run_edit hne ht' (inEdit_client _ hfin x hx)
    ⟨fun z => if z = g then putBit (w.cont g) t true else w.cont z, fun z => if z = t then
      micro (x.client s (.set g (flagBit t) 0#64 (.done true))) else w.th z⟩ (if_pos rfl)
      (by dsimp only; rw [if_neg hne]; exact hs) (by dsimp only; rw [if_pos rfl, hb.1]; exact hg)
  dsimp only at r3 c1 c2
  rw [two_updates] at r3
  rw [if_pos rfl] at c2
  have hb2 := putBit_spec (putBit (w.cont g) t true) t false (by rw [hb.1, hg]; exact ht')
  refine ⟨c, .append (.append (.step t .refl r1) r2) r3, ?_, c3, by rw [c2, hb2.1, hb.1]; exact hg, fun u hu => ?_⟩
  · rw [c1, if_neg hne, after_client hne, micro_flag]; simp [afterEdit]
  · rw [c2, hb2.2]
    split
    · rfl
    · rename_i hut; rw [hb.2, if_neg hut]; exact hd u hu

/-- C126.  All can succeed, in any order. -/
theorem C126_any_order (chk : Bool) (m : Store) (hm : Fresh L m) (hne : s ≠ g) (hN : N ≤ 8 * L g) (he : ∀ t, ∀ y ∈ e t, y.1.Inside (L s))
    (hdown : ∀ t, t < N → netBit (m g).bytes t = false) (k : Nat → Nat) (hk : ∀ t, t < N → 0 < k t) (order : List Nat)
    (hnd : order.Nodup) (ho : ∀ t, t ∈ order ↔ t < N) :
    ∃ x, Sys.Reach ⟨m, fun t => (team g s N e k t).prog chk⟩ x ∧ (∀ t, x.th t = .ret (decide (t < N))) ∧
      (x.mem s).bytes = editsInOrder e (m s).bytes order := by
  have key : ∀ (o : List Nat) (w : Machine Bool), o.Nodup → (∀ t ∈ o, t < N ∧ w.th t = micro (guarded g s N t (e t) (k t))) →
      (w.cont s).length = L s → (w.cont g).length = L g → (∀ u, u < N → netBit (w.cont g) u = false) →
      ∃ cont, Machine.Reach w ⟨cont, fun z => if z ∈ o then .done true else w.th z⟩ ∧ cont s = editsInOrder e (w.cont s) o := by
    intro o
    induction o with
    | nil => intro w _ _ _ _ _; exact ⟨w.cont, by simpa using .refl, rfl⟩
    | cons t o ih =>
      intro w hn hw hs hg hd
      obtain ⟨ht, e1⟩ := hw t (by simp)
      obtain ⟨j, hj⟩ : ∃ j, k t = j + 1 := ⟨k t - 1, by have := hk t ht; omega⟩
      rw [hj] at e1
      obtain ⟨c, r1, c1, c2, c3, c4⟩ := run_guarded hne hN ht (he t) j w e1 hs hg hd
      rw [List.nodup_cons] at hn
      obtain ⟨c', r2, c5⟩ := ih ⟨c, fun z => if z = t then .done true else w.th z⟩ hn.2 (fun u hu => by
        have hut : u ≠ t := fun h => by subst h; exact hn.1 hu
        dsimp only
        rw [if_neg hut]
        exact hw u (by simp [hu])) c2 c3 c4
      refine ⟨c', ?_, by rw [c5]; dsimp only; rw [c1]; rfl⟩
      have : (fun z => if z ∈ t :: o then Micro.done true else w.th z) =
          fun z => if z ∈ o then Micro.done true else if z = t then .done true else w.th z := by
        funext z
        simp only [List.mem_cons]
        by_cases h1 : z = t <;> by_cases h2 : z ∈ o <;> simp [h1, h2]
      rw [this]
      exact r1.append r2
  obtain ⟨c, r, c1⟩ := key order ⟨fun r => (m r).bytes, fun t => micro (team g s N e k t)⟩ hnd (fun t ht => by
    have := (ho t).1 ht
    exact ⟨this, by simp [team, this]⟩) (hm s).2.2 (hm g).2.2 hdown
  have hth : (fun z => if z ∈ order then Micro.done true else micro (team g s N e k z)) = fun z => .done (decide (z < N)) := by
    funext z
    by_cases hz : z < N
    · rw [if_pos ((ho z).2 hz), decide_eq_true hz]
    · rw [if_neg fun h => hz ((ho z).1 h), decide_eq_false hz]
      simp [team, hz, micro]
  dsimp only at r
  rw [hth] at r
  obtain ⟨x, x1, x2, x3⟩ := (C65_atomic_bits chk m hm _ (team_inside hN he k) _ c).2 r
  exact ⟨x, x1, x2, by rw [x3 s, c1]⟩

/-- Two threads at `x` and `y`, with the flags `D`. -/
def duel (g : Nat) (w : Machine Bool) (D : Bytes) (x y : Micro Bool) : Machine Bool :=
  ⟨fun z => if z = g then D else w.cont z, fun z => if z = 0 then x else if z = 1 then y else w.th z⟩

theorem duel_upd0 {w : Machine Bool} {D D' : Bytes} {x y x' : Micro Bool} : Upd (duel g w D x y).th 0 x' (duel g w D' x' y).th :=
  ⟨rfl, fun z hz => by simp only [duel, if_neg hz]⟩

theorem duel_upd1 {w : Machine Bool} {D D' : Bytes} {x y y' : Micro Bool} : Upd (duel g w D x y).th 1 y' (duel g w D' x y').th :=
  ⟨rfl, fun z hz => by simp only [duel, if_neg hz]⟩

theorem duel_updg {w : Machine Bool} {D D' : Bytes} {x y x' y' : Micro Bool} : Upd (duel g w D x y).cont g D' (duel g w D' x' y').cont :=
  ⟨if_pos rfl, fun z hz => by simp only [duel, if_neg hz]⟩

theorem duel_cont {w : Machine Bool} {D : Bytes} {x y : Micro Bool} : (duel g w D x y).cont g = D := if_pos rfl

theorem duel_write0 {w : Machine Bool} {D : Bytes} {x y x' : Micro Bool} {i : Nat} {b : Bool} (hx : x = .write g i b x')
    (hb : BitSet D i b (putBit D i b)) : Machine.Step 0 (duel g w D x y) (duel g w (putBit D i b) x' y) :=
  .write (show (duel g w D x y).th 0 = _ from hx) (by rw [duel_cont]; exact hb) duel_updg duel_upd0

theorem duel_write1 {w : Machine Bool} {D : Bytes} {x y y' : Micro Bool} {i : Nat} {b : Bool} (hy : y = .write g i b y')
    (hb : BitSet D i b (putBit D i b)) : Machine.Step 1 (duel g w D x y) (duel g w (putBit D i b) x y') :=
  .write (show (duel g w D x y).th 1 = _ from hy) (by rw [duel_cont]; exact hb) duel_updg duel_upd1

theorem duel_read0 {w : Machine Bool} {D : Bytes} {y : Micro Bool} {i : Nat} {k : Bool → Micro Bool} :
    Machine.Step 0 (duel g w D (.read g i k) y) (duel g w D (k (netBit D i)) y) :=
  .read (r := g) (i := i) (k := k) rfl rfl (by rw [duel_cont]; exact duel_upd0)

theorem duel_read1 {w : Machine Bool} {D : Bytes} {x : Micro Bool} {i : Nat} {k : Bool → Micro Bool} :
    Machine.Step 1 (duel g w D x (.read g i k)) (duel g w D x (k (netBit D i))) :=
  .read (r := g) (i := i) (k := k) rfl rfl (by rw [duel_cont]; exact duel_upd1)

/-- C126.  Nothing makes an attempt succeed: of two threads with equally many attempts both can give up, however many
they have. -/
theorem C126_all_may_give_up (chk : Bool) (m : Store) (hm : Fresh L m) (hne : s ≠ g) (hN : 2 ≤ 8 * L g)
    (he : ∀ t, ∀ y ∈ e t, y.1.Inside (L s)) (hdown : ∀ t, t < 2 → netBit (m g).bytes t = false) (n : Nat) :
    ∃ x, Sys.Reach ⟨m, fun t => (team g s 2 e (fun _ => n) t).prog chk⟩ x ∧ (∀ t, x.th t = .ret false) ∧
      (x.mem s).bytes = (m s).bytes := by
  have key : ∀ (n : Nat) (w : Machine Bool), w.th 0 = micro (guarded g s 2 0 (e 0) n) → w.th 1 = micro (guarded g s 2 1 (e 1) n) →
      (w.cont g).length = L g → netBit (w.cont g) 0 = false → netBit (w.cont g) 1 = false →
      ∃ w', Machine.Reach w w' ∧ w'.th 0 = .done false ∧ w'.th 1 = .done false ∧ (∀ t, 2 ≤ t → w'.th t = w.th t) ∧ w'.cont s = w.cont s := by
    intro n
    induction n with
    | zero => intro w h0 h1 _ _ _; exact ⟨w, .refl, h0, h1, fun _ _ => rfl, rfl⟩
    | succ n ih =>
      intro w h0 h1 hg b0 b1
      have i0 : ∀ d : Bytes, d.length = L g → 0 < 8 * d.length := by intro d hd; rw [hd]; omega
      have i1 : ∀ d : Bytes, d.length = L g → 1 < 8 * d.length := by intro d hd; rw [hd]; omega
      -- what each thread does after putting up its flag
      let f0 : Micro Bool := .write g 0 false (micro (guarded g s 2 0 (e 0) n))
      let f1 : Micro Bool := .write g 1 false (micro (guarded g s 2 1 (e 1) n))
      let ok0 : Micro Bool := micro (checkFlags g [] ((e 0).client s (.set g (flagBit 0) 0#64 (.done true))) (.set g (flagBit 0) 0#64 (guarded g s 2 0 (e 0) n)))
      let ok1 : Micro Bool := micro (checkFlags g [] ((e 1).client s (.set g (flagBit 1) 0#64 (.done true))) (.set g (flagBit 1) 0#64 (guarded g s 2 1 (e 1) n)))
      have e0 : w.th 0 = .write g 0 true (.read g 1 fun b => if b then f0 else ok0) := by
        rw [h0]
        refine (micro_flag 0 1#64 _).trans ?_
        rw [show rivals 2 0 = [1] from rfl, micro_check, micro_flag]; rfl
      have e1 : w.th 1 = .write g 1 true (.read g 0 fun b => if b then f1 else ok1) := by
        rw [h1]
        refine (micro_flag 1 1#64 _).trans ?_
        rw [show rivals 2 1 = [0] from rfl, micro_check, micro_flag]; rfl
      have z0 : w = duel g w (w.cont g) (w.th 0) (w.th 1) := by
        obtain ⟨c, th⟩ := w
        simp only [duel, Machine.mk.injEq]
        refine ⟨(self_update c g rfl).symm, ?_⟩
        funext z
        by_cases h2 : z = 0
        · simp [h2]
        · by_cases h3 : z = 1 <;> simp [h2, h3]
      have p1 := putBit_spec (w.cont g) 0 true (i0 _ hg)
      have l1 := p1.1.trans hg
      have p2 := putBit_spec _ 1 true (i1 _ l1)
      have l2 := p2.1.trans l1
      have p3 := putBit_spec _ 0 false (i0 _ l2)
      have l3 := p3.1.trans l2
      have p4 := putBit_spec _ 1 false (i1 _ l3)
      have l4 := p4.1.trans l3
      have s1 := duel_write0 (w := w) (D := w.cont g) (y := w.th 1) e0 p1
      have s2 := duel_write1 (w := w) (x := .read g 1 fun b => if b then f0 else ok0) e1 p2
      have s3 := duel_read0 (w := w) (D := putBit (putBit (w.cont g) 0 true) 1 true) (g := g)
        (k := fun b => if b then f0 else ok0) (y := .read g 0 fun b => if b then f1 else ok1) (i := 1)
      have s4 := duel_read1 (w := w) (D := putBit (putBit (w.cont g) 0 true) 1 true) (g := g)
        (k := fun b => if b then f1 else ok1) (x := f0) (i := 0)
      rw [show netBit (putBit (putBit (w.cont g) 0 true) 1 true) 1 = true from by rw [p2.2]; rfl] at s3
      rw [show netBit (putBit (putBit (w.cont g) 0 true) 1 true) 0 = true from by rw [p2.2, p1.2]; rfl] at s4
      have s5 := duel_write0 (w := w) (x := f0) (y := f1) rfl p3
      have s6 := duel_write1 (w := w) (x := micro (guarded g s 2 0 (e 0) n)) (y := f1) rfl p4
      obtain ⟨w', r, g0, g1, g2, g3⟩ := ih (duel g w _ _ _) rfl rfl (by rw [duel_cont]; exact l4)
        (by simp only [duel, if_true]; rw [p4.2, p3.2]; rfl) (by simp only [duel, if_true]; rw [p4.2]; rfl)
      have hr := Machine.Reach.step 1 (.step 0 (.step 1 (.step 0 (.step 1 (.step 0 .refl s1) s2) s3) s4) s5) s6
      rw [← z0] at hr
      refine ⟨w', .append hr r, g0, g1, fun t ht => ?_, ?_⟩
      · rw [g2 t ht]
        simp only [duel]
        rw [if_neg (by omega), if_neg (by omega)]
      · rw [g3]
        exact if_neg hne
  obtain ⟨w', r, g0, g1, g2, g3⟩ := key n ⟨fun r => (m r).bytes, fun t => micro (team g s 2 e (fun _ => n) t)⟩ rfl rfl (hm g).2.2
    (hdown 0 (by omega)) (hdown 1 (by omega))
  have hth : w' = ⟨w'.cont, fun _ => .done false⟩ := by
    obtain ⟨c, th⟩ := w'
    simp only [Machine.mk.injEq, true_and]
    funext t
    match t with
    | 0 => exact g0
    | 1 => exact g1
    | t + 2 =>
      refine (g2 (t + 2) (by omega)).trans ?_
      dsimp only
      rw [team, if_neg (by omega)]; rfl
  rw [hth] at r
  obtain ⟨x, x1, x2, x3⟩ := (C65_atomic_bits chk m hm _ (team_inside hN he _) (fun _ => false) w'.cont).2 r
  exact ⟨x, x1, x2, by rw [x3 s, g3]⟩

/-- The bits of a setter, without interruption. -/
theorem run_writeBits {t r hi : Nat} (v : Nat → Bool) (q : Micro Bool) (n : Nat) : ∀ (j : Nat) (w : Machine Bool),
    w.th t = writeBits r hi v q n j → hi < 8 * (w.cont r).length →
    Machine.Reach w ⟨fun z => if z = r then putBits hi v n j (w.cont r) else w.cont z, fun z => if z = t then q else w.th z⟩ := by
  induction n with
  | zero =>
    intro j w e1 _
    have e2 : w.th t = q := e1
    simp only [putBits]
    rw [self_update w.th t e2, self_update w.cont r rfl]; exact .refl
  | succ n ih =>
    intro j w e1 h
    have s1 := Machine.wr (w := w) (t := t) (r := r) (i := hi - j) (b := v j) (k := writeBits r hi v q n (j + 1)) e1 (by omega)
    have r1 := ih (j + 1) ⟨fun z => if z = r then putBit (w.cont r) (hi - j) (v j) else w.cont z,
      fun z => if z = t then writeBits r hi v q n (j + 1) else w.th z⟩ (if_pos rfl) (by dsimp only; rw [if_pos rfl, putBit_length]; exact h)
    dsimp only at r1
    rw [two_updates, two_updates, if_pos rfl] at r1
    exact .append (.step t .refl s1) r1

/-- C126.  Without the flags an edit in place can be lost: two threads add one to a field, and it is higher by one. -/
theorem C126_without_flags (chk : Bool) (m : Store) (hm : Fresh L m) (s : Nat) (f : Field) (hf : f.Inside (L s)) (hw : f.width ≤ 64) :
    ∃ x, Sys.Reach ⟨m, fun t => ((if t < 2 then (countUp f).client s (.done true) else .done false : Client Bool)).prog chk⟩ x ∧
      (∀ t, x.th t = .ret (decide (t < 2))) ∧
      fieldVal (x.mem s).bytes f.lo f.hi = (fieldVal (m s).bytes f.lo f.hi + 1) % 2 ^ f.width := by
  have hin : ∀ t, Inside L (if t < 2 then (countUp f).client s (.done true) else .done false : Client Bool) := by
    intro t
    split
    · refine edit_inside (k := .done true) trivial _ fun y hy => ?_
      simp only [countUp, List.mem_singleton] at hy
      subst hy; exact hf
    · trivial
  have hl := (hm s).2.2
  let v : Bytes → U64 := fun d => BitVec.ofNat 64 (fieldVal d f.lo f.hi + 1)
  let q : Bytes → Micro Bool := fun d => writeBits s f.hi (v d).getLsbD (.done true) (f.hi + 1 - f.lo) 0
  let D := (m s).bytes
  let D1 := putField D f (v D)
  let w0 : Machine Bool := ⟨fun r => (m r).bytes, fun t => micro (if t < 2 then (countUp f).client s (.done true) else .done false : Client Bool)⟩
  let w1 : Machine Bool := ⟨w0.cont, fun z => if z = 0 then q D else w0.th z⟩
  let w2 : Machine Bool := ⟨w0.cont, fun z => if z = 1 then q D else w1.th z⟩
  let w3 : Machine Bool := ⟨fun z => if z = s then D1 else w2.cont z, fun z => if z = 0 then .done true else w2.th z⟩
  let w4 : Machine Bool := ⟨fun z => if z = s then putField D1 f (v D) else w3.cont z, fun z => if z = 1 then .done true else w3.th z⟩
  have s1 : Machine.Step 0 w0 w1 := .readAll (r := s) (k := q) rfl rfl (upd_mk _ _ _)
  have s2 : Machine.Step 1 w1 w2 := .readAll (r := s) (k := q) rfl rfl (upd_mk _ _ _)
  have g1 := putField_spec D f (v D) (by rw [show D.length = L s from hl]; exact hf)
  have s3 : Machine.Reach w2 w3 := run_writeBits (t := 0) (r := s) (hi := f.hi) (v D).getLsbD (.done true) (f.hi + 1 - f.lo) 0 w2 rfl
    (by show f.hi < 8 * D.length; rw [show D.length = L s from hl]; exact hf.2)
  have s4 : Machine.Reach w3 w4 := by
    have := run_writeBits (t := 1) (r := s) (hi := f.hi) (v D).getLsbD (.done true) (f.hi + 1 - f.lo) 0 w3 rfl
      (by show f.hi < 8 * List.length (if s = s then D1 else _); rw [if_pos rfl, g1.1, show D.length = L s from hl]; exact hf.2)
    rw [show w3.cont s = D1 from if_pos rfl] at this
    exact this
  have hth : w4 = ⟨w4.cont, fun t => .done (decide (t < 2))⟩ := by
    simp only [w4, Machine.mk.injEq, true_and]
    funext t
    match t with
    | 0 => rfl
    | 1 => rfl
    | t + 2 =>
      show micro (if t + 2 < 2 then (countUp f).client s (.done true) else .done false : Client Bool) = _
      rw [if_neg (by omega), decide_eq_false (by omega)]; rfl
  have hr := ((Machine.Reach.step 1 (.step 0 .refl s1) s2).append s3).append s4
  rw [hth] at hr
  obtain ⟨x, x1, x2, x3⟩ := (C65_atomic_bits chk m hm _ hin (fun t => decide (t < 2)) w4.cont).2 hr
  refine ⟨x, x1, x2, ?_⟩
  rw [x3 s, show w4.cont s = putField D1 f (v D) from if_pos rfl]
  have hD1 : putField D1 f (v D) = D1 := by
    have g2 := putField_spec D1 f (v D) (by rw [g1.1, show D.length = L s from hl]; exact hf)
    refine netBit_inj g2.1 rfl fun i _ => ?_
    rw [g2.2]
    split
    · rename_i h; rw [g1.2, if_pos h]
    · rfl
  rw [hD1]
  exact (countUp_value f D (by rw [show D.length = L s from hl]; exact hf) hw).1

end

/-! ## Non-vacuity -/

/-- Header 0 holds the flags, the others an IPv4 header with 64 hops to go. -/
def clubStore : Store := fun r => ⟨if r = 0 then [0x00#8] else [0x45#8, 0x00#8, 0x00#8, 0x14#8, 0x00#8, 0x00#8, 0x00#8, 0x00#8,
  0x40#8, 0x06#8, 0x00#8, 0x00#8, 0x0a#8, 0x00#8, 0x00#8, 0x01#8, 0x0a#8, 0x00#8, 0x00#8, 0x02#8], false, none⟩

def clubSize : Nat → Nat := fun r => if r = 0 then 1 else 20

theorem club_fresh : Fresh clubSize clubStore := by
  intro r
  refine ⟨rfl, rfl, ?_⟩
  simp only [clubStore, clubSize]
  split <;> rfl

-- three threads make room for one more hop each; the order is any, and none is lost
example : ∃ x, Sys.Reach ⟨clubStore, fun t => (team 0 1 3 (fun _ => countUp IPv4.ttl) (fun _ => 5) t).prog true⟩ x ∧
    (∀ t, x.th t = .ret (decide (t < 3))) ∧ (x.mem 1).bytes = editsInOrder (fun _ => countUp IPv4.ttl) (clubStore 1).bytes [2, 0, 1] :=
  C126_any_order (L := clubSize) true clubStore club_fresh (by decide) (by decide)
    (fun _ y hy => by simp only [countUp, List.mem_singleton] at hy; subst hy; exact ⟨by decide, by decide⟩)
    (fun t ht => by
      have : t = 0 ∨ t = 1 ∨ t = 2 := by omega
      rcases this with rfl | rfl | rfl <;> decide) _ (fun _ _ => by decide) [2, 0, 1] (by decide)
    (fun t => by simp; omega)

example : fieldVal (editsInOrder (fun _ => countUp IPv4.ttl) (clubStore 1).bytes [2, 0, 1]) 64 71 = 67 := by decide +kernel

-- two threads change different fields of the same octet; each edit reads what the other wrote
example : editsInOrder (fun t => if t = 0 then [(IPv4.version, fun _ => 6#64)] else [(IPv4.ihl, fun d => BitVec.ofNat 64 (fieldVal d 0 3))])
    (clubStore 1).bytes [0, 1] ≠ editsInOrder (fun t => if t = 0 then [(IPv4.version, fun _ => 6#64)] else
      [(IPv4.ihl, fun d => BitVec.ofNat 64 (fieldVal d 0 3))]) (clubStore 1).bytes [1, 0] := by decide +kernel

-- both give up, all five times
example : ∃ x, Sys.Reach ⟨clubStore, fun t => (team 0 1 2 (fun _ => countUp IPv4.ttl) (fun _ => 5) t).prog true⟩ x ∧
    (∀ t, x.th t = .ret false) ∧ (x.mem 1).bytes = (clubStore 1).bytes :=
  C126_all_may_give_up (L := clubSize) true clubStore club_fresh (by decide) (by decide)
    (fun _ y hy => by simp only [countUp, List.mem_singleton] at hy; subst hy; exact ⟨by decide, by decide⟩)
    (fun t ht => by
      have : t = 0 ∨ t = 1 := by omega
      rcases this with rfl | rfl <;> decide) 5

end PacketRs
