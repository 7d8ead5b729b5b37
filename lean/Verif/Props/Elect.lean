import Verif.Props.Exclude
import Verif.Spec.Elect
/-!
# C127: threads can decide among themselves with `replace` and with nothing else
-/
namespace PacketRs
open Spec

section
variable {α β : Type} {L : Nat → Nat}

/-! ## Threads without `replace` end -/

inductive Later : Micro α → Micro α → Prop where
  | read {r i : Nat} {k : Bool → Micro α} (b : Bool) : Later (k b) (.read r i k)
  | write {r i : Nat} {b : Bool} {k : Micro α} : Later k (.write r i b k)
  | readAll {r : Nat} {k : Bytes → Micro α} (v : Bytes) : Later (k v) (.readAll r k)
  | copy {r o : Nat} {k : Micro α} : Later k (.copy r o k)

/-- One of the threads below `n` has made a step. -/
def LaterAt (n : Nat) (f' f : Nat → Micro α) : Prop := ∃ t, t < n ∧ Later (f' t) (f t) ∧ ∀ u, u ≠ t → f' u = f u

theorem acc_laterAt (n : Nat) : ∀ f : Nat → Micro α, _root_.Acc (LaterAt n) f := by
  induction n with
  | zero => intro f; exact ⟨_, fun f' ⟨t, ht, _⟩ => absurd ht (by omega)⟩
  | succ n ih =>
    have key : ∀ q : Micro α, (∀ q', Later q' q → ∀ f : Nat → Micro α, f n = q' → _root_.Acc (LaterAt (n + 1)) f) →
        ∀ f : Nat → Micro α, f n = q → _root_.Acc (LaterAt (n + 1)) f := by
      intro q hq f
      have hf := ih f
      induction hf with
      | intro f _ ih2 =>
        intro e
        refine ⟨_, fun f' ⟨t, ht, hl, hu⟩ => ?_⟩
        by_cases htn : t = n
        · subst htn
          exact hq _ (e ▸ hl) f' rfl
        · exact ih2 f' ⟨t, by omega, hl, hu⟩ ((hu n fun h => htn h.symm).trans e)
    have all : ∀ q : Micro α, ∀ f : Nat → Micro α, f n = q → _root_.Acc (LaterAt (n + 1)) f := by
      intro q
      induction q with
      | done a => exact key _ fun q' h => by cases h
      | read r i k ih => exact key _ fun q' h => by cases h; exact ih _
      | write r i b k ih => exact key _ fun q' h => by cases h; exact ih
      | readAll r k ih => exact key _ fun q' h => by cases h; exact ih _
      | copy r o k ih => exact key _ fun q' h => by cases h; exact ih
    intro f; exact all _ f rfl

/-! ## Steps without `replace` -/

/-- No `replace`, and all bits inside. -/
def NoCopy (L : Nat → Nat) : Micro α → Prop
  | .done _ => True
  | .read _ _ k => ∀ b, NoCopy L (k b)
  | .write r i _ k => i < 8 * L r ∧ NoCopy L k
  | .readAll _ k => ∀ v, NoCopy L (k v)
  | .copy _ _ _ => False

theorem noCopy_readBits {r : Nat} (n : Nat) : ∀ (lo : Nat) (k : List Bool → Micro α), (∀ bs, NoCopy L (k bs)) →
    NoCopy L (readBits r lo n k) := by
  induction n with
  | zero => intro lo k h; exact h []
  | succ n ih => intro lo k h; exact fun b => ih _ _ fun bs => h _

theorem noCopy_writeBits {r hi : Nat} (hh : hi < 8 * L r) (v : Nat → Bool) (k : Micro α) (hk : NoCopy L k) (n : Nat) :
    ∀ j, NoCopy L (writeBits r hi v k n j) := by
  induction n with
  | zero => intro j; exact hk
  | succ n ih => intro j; exact ⟨by omega, ih _⟩

theorem noCopy_readOctets {r : Nat} (n : Nat) : ∀ (lo : Nat) (k : Bytes → Micro α), (∀ v, NoCopy L (k v)) →
    NoCopy L (readOctets r lo n k) := by
  induction n with
  | zero => intro lo k h; exact h []
  | succ n ih => intro lo k h; exact noCopy_readBits 8 _ _ fun bs => ih _ _ fun v => h _

theorem noCopy_writeOctets {r : Nat} (k : Micro α) (hk : NoCopy L k) (v : Bytes) : ∀ lo, lo + 8 * v.length ≤ 8 * L r →
    NoCopy L (writeOctets r lo v k) := by
  induction v with
  | nil => intro lo _; exact hk
  | cons b v ih =>
    intro lo h
    rw [List.length_cons] at h
    exact noCopy_writeBits (by omega) _ _ (ih _ (by omega)) _ _

theorem noCopy_micro : (c : Client α) → Inside L c → NoReplace c → NoCopy L (micro c)
  | .done _, _, _ => trivial
  | .get _ _ k, h, g => noCopy_readBits _ _ _ fun _ => noCopy_micro (k _) (h.2.2.2.2 _) (g _)
  | .set _ _ _ k, h, g => noCopy_writeBits h.2.1 _ _ (noCopy_micro k h.2.2.2 g) _ _
  | .bytes _ _ _ k, h, g => noCopy_readOctets _ _ _ fun _ => noCopy_micro (k _) (h.2.2.2.2.2 _) (g _)
  | .setBytes _ _ _ v k, h, g => by
    obtain ⟨h1, h2, h3, h4, -, h6⟩ := h
    exact noCopy_writeOctets _ (noCopy_micro k h6 g) v _ (by omega)
  | .toVec _ k, h, g => fun v => noCopy_micro (k v) (h.2 v) (g v)

/-- One bit of the contents is written. -/
def storeBitAt (c : Nat → Bytes) (r i : Nat) (b : Bool) : Nat → Bytes := fun z => if z = r then putBit (c r) i b else c z

/-- What a thread does next: the contents and the rest of it after that. -/
inductive Acts (c : Nat → Bytes) : Micro α → (Nat → Bytes) → Micro α → Prop where
  | read {r i : Nat} {k : Bool → Micro α} : Acts c (.read r i k) c (k (netBit (c r) i))
  | write {r i : Nat} {b : Bool} {k : Micro α} : Acts c (.write r i b k) (storeBitAt c r i b) k
  | readAll {r : Nat} {k : Bytes → Micro α} : Acts c (.readAll r k) c (k (c r))

theorem Acts.later {c c' : Nat → Bytes} {q q' : Micro α} (h : Acts c q c' q') : Later q' q := by
  cases h
  · exact .read _
  · exact .write
  · exact .readAll _

theorem Acts.det {c c1 c2 : Nat → Bytes} {q q1 q2 : Micro α} (h : Acts c q c1 q1) (g : Acts c q c2 q2) : c1 = c2 ∧ q1 = q2 := by
  cases h <;> cases g <;> exact ⟨rfl, rfl⟩

/-- The thread `t` is at `q`. -/
def Spec.Machine.goto (w : Machine α) (c : Nat → Bytes) (t : Nat) (q : Micro α) : Machine α := ⟨c, fun z => if z = t then q else w.th z⟩

structure Plain (L : Nat → Nat) (w : Machine α) : Prop where
  len : ∀ r, (w.cont r).length = L r
  th : ∀ t, NoCopy L (w.th t)

theorem Acts.plain {c c' : Nat → Bytes} {q q' : Micro α} (h : Acts c q c' q') (hq : NoCopy L q) (hc : ∀ r, (c r).length = L r) :
    NoCopy L q' ∧ ∀ r, (c' r).length = L r := by
  cases h with
  | read => exact ⟨hq _, hc⟩
  | @write r i b =>
    refine ⟨hq.2, fun z => ?_⟩
    unfold storeBitAt
    split
    · rename_i e; subst e; rw [putBit_length]; exact hc z
    · exact hc z
  | readAll => exact ⟨hq _, hc⟩

theorem Plain.goto {w : Machine α} (h : Plain L w) {c : Nat → Bytes} {t : Nat} {q : Micro α} (ha : Acts w.cont (w.th t) c q) :
    Plain L (w.goto c t q) := by
  obtain ⟨h1, h2⟩ := ha.plain (h.th t) h.len
  refine ⟨h2, fun u => ?_⟩
  simp only [Machine.goto]
  split
  · exact h1
  · exact h.th u

/-- The steps of the machine are what the threads do. -/
theorem Plain.step_iff {w w' : Machine α} (h : Plain L w) {t : Nat} :
    Machine.Step t w w' ↔ ∃ c q, Acts w.cont (w.th t) c q ∧ w' = w.goto c t q := by
  constructor
  · intro hs
    have ht := h.th t
    obtain ⟨c', th'⟩ := w'
    cases hs with
    | read e hc hu => dsimp only at hc hu; rw [e, hc, hu.eq]; exact ⟨_, _, .read, rfl⟩
    | @write r i b k d e hb hc hu =>
      rw [e] at ht
      dsimp only at hc hu
      rw [e, hc.eq, hu.eq, bitSet_unique hb (putBit_spec _ i b (by rw [h.len]; exact ht.1))]
      exact ⟨_, _, .write, rfl⟩
    | readAll e hc hu => dsimp only at hc hu; rw [e, hc, hu.eq]; exact ⟨_, _, .readAll, rfl⟩
    | copy e hc hu => rw [e] at ht; exact ht.elim
  · rintro ⟨c, q, ha, rfl⟩
    have ht := h.th t
    generalize e : w.th t = p at ha ht
    cases ha with
    | read => exact Machine.rd e
    | write => exact .write e (putBit_spec _ _ _ (by rw [h.len]; exact ht.1)) (upd_mk _ _ _) (upd_mk _ _ _)
    | readAll => exact Machine.rdAll e

theorem Plain.reach {w w' : Machine α} (h : Plain L w) (hr : Machine.Reach w w') : Plain L w' := by
  induction hr with
  | refl => exact h
  | step t _ hs ih =>
    obtain ⟨c, q, ha, rfl⟩ := ih.step_iff.1 hs
    exact ih.goto ha

theorem Spec.Machine.Reach.head {w w' : Machine α} (h : Machine.Reach w w') : w = w' ∨ ∃ t w1, Machine.Step t w w1 ∧ Machine.Reach w1 w' := by
  induction h with
  | refl => exact .inl rfl
  | step t _ hs ih =>
    rcases ih with rfl | ⟨u, w1, h1, h2⟩
    · exact .inr ⟨t, _, hs, .refl⟩
    · exact .inr ⟨u, w1, h1, .step t h2 hs⟩

/-- A thread that has returned stays. -/
theorem Plain.stays {w w' : Machine α} (h : Plain L w) (hr : Machine.Reach w w') {t : Nat} {a : α} (ht : w.th t = .done a) :
    w'.th t = .done a := by
  induction hr with
  | refl => exact ht
  | @step w1 w2 u h1 hs ih =>
    obtain ⟨c, q, ha, rfl⟩ := (h.reach h1).step_iff.1 hs
    simp only [Machine.goto]
    split
    · rename_i e; subst e; rw [ih] at ha; cases ha
    · exact ih

/-- A thread that has not returned can go on. -/
theorem NoCopy.acts {q : Micro α} (h : NoCopy L q) (c : Nat → Bytes) : (∃ a, q = .done a) ∨ ∃ c' q', Acts c q c' q' := by
  cases q with
  | done a => exact .inl ⟨a, rfl⟩
  | read r i k => exact .inr ⟨_, _, .read⟩
  | write r i b k => exact .inr ⟨_, _, .write⟩
  | readAll r k => exact .inr ⟨_, _, .readAll⟩
  | copy => exact h.elim

/-- All threads below `n` have returned. -/
def Ended (w : Machine α) : Prop := ∀ t, ∃ a, w.th t = .done a

/-- From everywhere the end can be reached. -/
theorem Plain.ends {n : Nat} {w : Machine α} (h : Plain L w) (hn : ∀ t, n ≤ t → ∃ a, w.th t = .done a) :
    ∃ w', Machine.Reach w w' ∧ Ended w' := by
  obtain ⟨c, th⟩ := w
  have hacc := acc_laterAt n th
  induction hacc generalizing c with
  | intro th _ ih =>
    by_cases hE : Ended (⟨c, th⟩ : Machine α)
    · exact ⟨_, .refl, hE⟩
    · simp only [Ended, Classical.not_forall] at hE
      obtain ⟨t, ht⟩ := hE
      rcases (h.th t).acts c with ⟨a, ha⟩ | ⟨c', q', ha⟩
      · exact absurd ⟨a, ha⟩ ht
      · have htn : t < n := Nat.lt_of_not_le fun hh => ht (hn t hh)
        obtain ⟨w', r, hw⟩ := ih (fun z => if z = t then q' else th z) ⟨t, htn, by simpa using ha.later, fun u hu => if_neg hu⟩ c'
          (h.goto ha) (fun u hu => by
            dsimp only
            rw [if_neg (by omega)]; exact hn u hu)
        exact ⟨w', .append (.step t .refl (h.step_iff.2 ⟨c', q', ha, rfl⟩)) r, hw⟩

/-- A thread alone: what it returns depends on what is left of it and on the contents. -/
theorem solo (j : Nat) : ∀ (q : Micro α) (c : Nat → Bytes), NoCopy L q → (∀ r, (c r).length = L r) →
    ∃ a, ∀ w : Machine α, w.cont = c → w.th j = q → Plain L w → ∃ w', Machine.Reach w w' ∧ w'.th j = .done a ∧ ∀ t, t ≠ j → w'.th t = w.th t := by
  have key : ∀ (q : Micro α) (c : Nat → Bytes), NoCopy L q → (∀ c' q', Acts c q c' q' → ∃ a, ∀ w : Machine α, w.cont = c' →
      w.th j = q' → Plain L w → ∃ w', Machine.Reach w w' ∧ w'.th j = .done a ∧ ∀ t, t ≠ j → w'.th t = w.th t) →
      ∃ a, ∀ w : Machine α, w.cont = c → w.th j = q → Plain L w → ∃ w', Machine.Reach w w' ∧ w'.th j = .done a ∧
        ∀ t, t ≠ j → w'.th t = w.th t := by
    intro q c hq hn
    rcases hq.acts c with ⟨a, rfl⟩ | ⟨c', q', ha⟩
    · exact ⟨a, fun w _ h2 _ => ⟨w, .refl, h2, fun _ _ => rfl⟩⟩
    · obtain ⟨a, h⟩ := hn c' q' ha
      refine ⟨a, fun w h1 h2 h3 => ?_⟩
      have ha' : Acts w.cont (w.th j) c' q' := by rw [h1, h2]; exact ha
      obtain ⟨w', r, g1, g2⟩ := h (w.goto c' j q') rfl (if_pos rfl) (h3.goto ha')
      exact ⟨w', .append (.step j .refl (h3.step_iff.2 ⟨c', q', ha', rfl⟩)) r, g1, fun t ht => (g2 t ht).trans (if_neg ht)⟩
  intro q
  induction q with
  | done a => intro c hq hc; exact key _ c hq fun c' q' h => by cases h
  | read r i k ih => intro c hq hc; exact key _ c hq fun c' q' h => by cases h; exact ih _ _ (hq _) hc
  | write r i b k ih =>
    intro c hq hc
    refine key _ c hq fun c' q' h => ?_
    have := (h.plain hq hc).2
    cases h; exact ih _ hq.2 this
  | readAll r k ih => intro c hq hc; exact key _ c hq fun c' q' h => by cases h; exact ih _ _ (hq _) hc
  | copy r o k ih => intro c hq hc; exact hq.elim

/-! ## No choice -/

/-- Wherever it ends, the threads below `n` agree. -/
def Unanimous (n : Nat) (v : Nat → α → β) (w : Machine α) : Prop :=
  ∀ w', Machine.Reach w w' → Ended w' → ∀ t u a b, t < n → u < n → w'.th t = .done a → w'.th u = .done b → v t a = v u b

/-- It can end with `x`. -/
def CanEnd (n : Nat) (v : Nat → α → β) (w : Machine α) (x : β) : Prop :=
  ∃ w', Machine.Reach w w' ∧ Ended w' ∧ ∀ t a, t < n → w'.th t = .done a → v t a = x

theorem Unanimous.reach {n : Nat} {v : Nat → α → β} {w w' : Machine α} (h : Unanimous n v w) (hr : Machine.Reach w w') : Unanimous n v w' :=
  fun _ h1 => h _ (hr.append h1)

theorem Spec.Machine.goto_done {w : Machine α} {c : Nat → Bytes} {t n : Nat} {q : Micro α} (ht : t < n)
    (hn : ∀ u, n ≤ u → ∃ a, w.th u = .done a) : ∀ u, n ≤ u → ∃ a, (w.goto c t q).th u = .done a := by
  intro u hu
  simp only [Machine.goto]
  rw [if_neg (by omega)]; exact hn u hu

/-- If a thread `j` is at the same place in two states with the same contents, the two can end alike. -/
theorem common_end {n : Nat} {v : Nat → α → β} {w1 w2 : Machine α} (h1 : Plain L w1) (h2 : Plain L w2) (a1 : Unanimous n v w1)
    (a2 : Unanimous n v w2) (n1 : ∀ u, n ≤ u → ∃ a, w1.th u = .done a) (n2 : ∀ u, n ≤ u → ∃ a, w2.th u = .done a) {j : Nat} (hj : j < n)
    (hc : w1.cont = w2.cont) (ht : w1.th j = w2.th j) : ∃ x, CanEnd n v w1 x ∧ CanEnd n v w2 x := by
  obtain ⟨a, ha⟩ := solo (L := L) j (w1.th j) w1.cont (h1.th j) h1.len
  have fin : ∀ w : Machine α, Plain L w → Unanimous n v w → (∀ u, n ≤ u → ∃ a, w.th u = .done a) → w.cont = w1.cont → w.th j = w1.th j →
      CanEnd n v w (v j a) := by
    intro w hw hA hn hc ht
    obtain ⟨w', r, g1, g2⟩ := ha w hc ht hw
    obtain ⟨w'', r2, hE⟩ := (hw.reach r).ends (n := n) fun u hu => by rw [g2 u (by omega)]; exact hn u hu
    refine ⟨w'', r.append r2, hE, fun t b htn hb => ?_⟩
    exact hA w'' (r.append r2) hE t j b a htn hj hb ((hw.reach r).stays r2 g1)
  exact ⟨v j a, fin w1 h1 a1 n1 rfl rfl, fin w2 h2 a2 n2 hc.symm ht.symm⟩

theorem storeBitAt_comm (c : Nat → Bytes) (hc : ∀ r, (c r).length = L r) {r i r' i' : Nat} {b b' : Bool} (hi : i < 8 * L r) (hi' : i' < 8 * L r')
    (hne : ¬ (r = r' ∧ i = i')) : storeBitAt (storeBitAt c r i b) r' i' b' = storeBitAt (storeBitAt c r' i' b') r i b := by
  funext z
  by_cases hr : r = r'
  · subst hr
    have hne' : i ≠ i' := fun h => hne ⟨rfl, h⟩
    simp only [storeBitAt, if_true]
    by_cases hz : z = r
    · rw [if_pos hz, if_pos hz]
      have p1 := putBit_spec (c r) i b (by rw [hc]; exact hi)
      have p2 := putBit_spec (putBit (c r) i b) i' b' (by rw [p1.1, hc]; exact hi')
      have p3 := putBit_spec (c r) i' b' (by rw [hc]; exact hi')
      have p4 := putBit_spec (putBit (c r) i' b') i b (by rw [p3.1, hc]; exact hi)
      refine netBit_inj (n := L r) (by rw [p2.1, p1.1, hc]) (by rw [p4.1, p3.1, hc]) fun j _ => ?_
      rw [p2.2, p1.2, p4.2, p3.2]
      by_cases h1 : j = i
      · have : j ≠ i' := fun h => hne' (h1 ▸ h)
        simp [h1, hne']
      · by_cases h2 : j = i' <;> simp [h1, h2, Ne.symm hne']
    · simp [hz]
  · simp only [storeBitAt, if_neg hr, if_neg (show r' ≠ r from fun h => hr h.symm)]
    by_cases h1 : z = r
    · have : z ≠ r' := fun h => hr (h1 ▸ h)
      simp [h1, hr]
    · by_cases h2 : z = r' <;> simp [h1, h2, show r' ≠ r from fun h => hr h.symm]

theorem storeBitAt_over (c : Nat → Bytes) (hc : ∀ r, (c r).length = L r) {r i : Nat} {b b' : Bool} (hi : i < 8 * L r) :
    storeBitAt (storeBitAt c r i b) r i b' = storeBitAt c r i b' := by
  funext z
  simp only [storeBitAt, if_true]
  by_cases hz : z = r
  · rw [if_pos hz, if_pos hz]
    have p1 := putBit_spec (c r) i b (by rw [hc]; exact hi)
    have p2 := putBit_spec (putBit (c r) i b) i b' (by rw [p1.1, hc]; exact hi)
    have p3 := putBit_spec (c r) i b' (by rw [hc]; exact hi)
    refine netBit_inj (n := L r) (by rw [p2.1, p1.1, hc]) (by rw [p3.1, hc]) fun j _ => ?_
    rw [p2.2, p1.2, p3.2]
    by_cases h : j = i <;> simp [h]
  · simp [hz]

theorem goto_comm (w : Machine α) (c c1 c2 : Nat → Bytes) {i j : Nat} (hij : i ≠ j) (p q : Micro α) :
    (w.goto c1 i p).goto c j q = (w.goto c2 j q).goto c i p := by
  simp only [Machine.goto, Machine.mk.injEq, true_and]
  funext z
  by_cases h1 : z = i
  · have : z ≠ j := fun h => hij (h1 ▸ h)
    simp [h1, hij]
  · by_cases h2 : z = j <;> simp [h1, h2, Ne.symm hij]

/-- Two steps of different threads leave a common end. -/
theorem Plain.pair {n : Nat} {v : Nat → α → β} {w : Machine α} (h : Plain L w) (hA : Unanimous n v w) (hn : ∀ u, n ≤ u → ∃ a, w.th u = .done a)
    {i j : Nat} (hi : i < n) (hj : j < n) (hij : i ≠ j) {ci cj : Nat → Bytes} {qi qj : Micro α} (ai : Acts w.cont (w.th i) ci qi)
    (aj : Acts w.cont (w.th j) cj qj) : ∃ x, CanEnd n v (w.goto ci i qi) x ∧ CanEnd n v (w.goto cj j qj) x := by
  have reach1 : ∀ {w : Machine α} {t : Nat} {c q}, Plain L w → Acts w.cont (w.th t) c q → Machine.Reach w (w.goto c t q) :=
    fun h ha => .step _ .refl (h.step_iff.2 ⟨_, _, ha, rfl⟩)
  -- what `j` does after a step of `i` that it cannot see afterwards
  have over : ∀ {i j : Nat}, i < n → j < n → i ≠ j → ∀ {ci cj : Nat → Bytes} {qi qj : Micro α}, Acts w.cont (w.th i) ci qi →
      Acts w.cont (w.th j) cj qj → Acts ci (w.th j) cj qj → ∃ x, CanEnd n v (w.goto ci i qi) x ∧ CanEnd n v (w.goto cj j qj) x := by
    intro i j hi hj hij ci cj qi qj ai aj aj'
    have hwi := h.goto ai
    have hwj := h.goto aj
    have aj'' : Acts (w.goto ci i qi).cont ((w.goto ci i qi).th j) cj qj := by
      simp only [Machine.goto]; rw [if_neg fun x => hij x.symm]; exact aj'
    have hwij := hwi.goto aj''
    have r1 := reach1 h ai
    have r2 := reach1 hwi aj''
    obtain ⟨x, ⟨w', g1, g2, g3⟩, hx⟩ := common_end hwij hwj (hA.reach (r1.append r2)) (hA.reach (reach1 h aj))
      (Machine.goto_done hj (Machine.goto_done hi hn)) (Machine.goto_done hj hn) hj rfl
      (by simp only [Machine.goto, if_true])
    exact ⟨x, ⟨w', r2.append g1, g2, g3⟩, hx⟩
  have pi := h.th i
  have pj := h.th j
  generalize ei : w.th i = mi at ai pi
  generalize ej : w.th j = mj at aj pj
  have ai0 : Acts w.cont (w.th i) ci qi := ei ▸ ai
  have aj0 : Acts w.cont (w.th j) cj qj := ej ▸ aj
  have swap : (∃ x, CanEnd n v (w.goto cj j qj) x ∧ CanEnd n v (w.goto ci i qi) x) →
      ∃ x, CanEnd n v (w.goto ci i qi) x ∧ CanEnd n v (w.goto cj j qj) x := fun ⟨x, a, b⟩ => ⟨x, b, a⟩
  cases ai with
  | read => exact over hi hj hij ai0 aj0 aj0
  | readAll => exact over hi hj hij ai0 aj0 aj0
  | @write r p b k =>
    cases aj with
    | read => exact swap (over hj hi (fun x => hij x.symm) aj0 ai0 ai0)
    | readAll => exact swap (over hj hi (fun x => hij x.symm) aj0 ai0 ai0)
    | @write r' p' b' k' =>
      by_cases hsame : r = r' ∧ p = p'
      · obtain ⟨rfl, rfl⟩ := hsame
        refine over hi hj hij ai0 aj0 ?_
        rw [ej, ← storeBitAt_over w.cont h.len (b := b) (b' := b') pi.1]
        exact .write
      · -- they commute
        have hwi := h.goto ai0
        have hwj := h.goto aj0
        have aj'' : Acts (w.goto (storeBitAt w.cont r p b) i qi).cont ((w.goto (storeBitAt w.cont r p b) i qi).th j)
            (storeBitAt (storeBitAt w.cont r p b) r' p' b') qj := by
          simp only [Machine.goto]; rw [if_neg fun x => hij x.symm, ej]; exact .write
        have ai'' : Acts (w.goto (storeBitAt w.cont r' p' b') j qj).cont ((w.goto (storeBitAt w.cont r' p' b') j qj).th i)
            (storeBitAt (storeBitAt w.cont r p b) r' p' b') qi := by
          simp only [Machine.goto]; rw [if_neg hij, ei, storeBitAt_comm w.cont h.len pi.1 pj.1 hsame]; exact .write
        have r2 := reach1 hwi aj''
        have r3 := reach1 hwj ai''
        rw [← goto_comm w _ (storeBitAt w.cont r p b) _ hij] at r3
        have hend := (hwi.goto aj'').ends (n := n) (Machine.goto_done hj (Machine.goto_done hi hn))
        obtain ⟨w', g1, g2⟩ := hend
        obtain ⟨a, ha⟩ := g2 i
        have hval : ∀ t b, t < n → w'.th t = .done b → v t b = v i a := fun t b ht hb =>
          hA w' ((reach1 h ai0).append (r2.append g1)) g2 t i b a ht hi hb ha
        exact ⟨v i a, ⟨w', r2.append g1, g2, hval⟩, ⟨w', r3.append g1, g2, hval⟩⟩

/-- If the threads always agree, there is only one thing to agree on. -/
theorem Plain.no_choice {n : Nat} (hpos : 0 < n) {v : Nat → α → β} {w : Machine α} (h : Plain L w) (hA : Unanimous n v w)
    (hn : ∀ u, n ≤ u → ∃ a, w.th u = .done a) {x y : β} (hx : CanEnd n v w x) (hy : CanEnd n v w y) : x = y := by
  obtain ⟨c, th⟩ := w
  have hacc := acc_laterAt n th
  induction hacc generalizing c x y with
  | intro th _ ih =>
    obtain ⟨wx, rx, ex, vx⟩ := hx
    obtain ⟨wy, ry, ey, vy⟩ := hy
    rcases rx.head with rfl | ⟨i, wi, si, ri⟩
    · obtain ⟨a, ha⟩ := ex 0
      have := h.stays ry ha
      rw [← vx 0 a hpos ha, ← vy 0 a hpos this]
    · rcases ry.head with rfl | ⟨j, wj, sj, rj⟩
      · obtain ⟨a, ha⟩ := ey 0
        have := h.stays rx ha
        rw [← vx 0 a hpos this, ← vy 0 a hpos ha]
      · obtain ⟨ci, qi, ai, rfl⟩ := h.step_iff.1 si
        obtain ⟨cj, qj, aj, rfl⟩ := h.step_iff.1 sj
        have lt : ∀ {t : Nat} {c' q'}, Acts c (th t) c' q' → t < n := by
          intro t c' q' ha
          refine Nat.lt_of_not_le fun hh => ?_
          obtain ⟨a, e⟩ := hn t hh
          dsimp only at e
          rw [e] at ha; cases ha
        have one : ∀ {t : Nat} {c' q'}, Acts c (th t) c' q' → ∀ {x y : β},
            CanEnd n v ((⟨c, th⟩ : Machine α).goto c' t q') x → CanEnd n v ((⟨c, th⟩ : Machine α).goto c' t q') y → x = y := by
          intro t c' q' ha x y hx hy
          refine ih (fun z => if z = t then q' else th z) ⟨t, lt ha, by simpa using ha.later, fun u hu => if_neg hu⟩ c' (h.goto ha)
            (hA.reach (.step t .refl (h.step_iff.2 ⟨_, _, ha, rfl⟩))) (Machine.goto_done (lt ha) hn) hx hy
        have hxi : CanEnd n v ((⟨c, th⟩ : Machine α).goto ci i qi) x := ⟨wx, ri, ex, vx⟩
        have hyj : CanEnd n v ((⟨c, th⟩ : Machine α).goto cj j qj) y := ⟨wy, rj, ey, vy⟩
        by_cases hij : i = j
        · subst hij
          obtain ⟨rfl, rfl⟩ := ai.det aj
          exact one ai hxi hyj
        · obtain ⟨z, z1, z2⟩ := h.pair hA hn (lt ai) (lt aj) hij ai aj
          rw [one ai hxi z1, one aj hyj z2]

/-- C127.  Any number of threads that do not call `replace`, each free to do whatever it likes with what it reads: if in
every execution all of them come to the same decision, it is the same decision in every execution.  (What thread `t`
takes its result for is `v t`.) -/
theorem C127_no_choice (chk : Bool) (m : Store) (hm : Fresh L m) (c : Nat → Client α) (hc : ∀ t, Inside L (c t))
    (hr : ∀ t, NoReplace (c t)) (n : Nat) (hpos : 0 < n) (hn : ∀ t, n ≤ t → ∃ a, c t = .done a) (v : Nat → α → β)
    (hA : ∀ x, Sys.Reach ⟨m, fun t => (c t).prog chk⟩ x → x.Final → ∀ t u a b, t < n → u < n → x.th t = .ret a → x.th u = .ret b →
      v t a = v u b) :
    ∃ y, ∀ x, Sys.Reach ⟨m, fun t => (c t).prog chk⟩ x → x.Final → ∀ t a, t < n → x.th t = .ret a → v t a = y := by
  have h0 : Plain L (⟨fun r => (m r).bytes, fun t => micro (c t)⟩ : Machine α) :=
    ⟨fun r => (hm r).2.2, fun t => noCopy_micro (c t) (hc t) (hr t)⟩
  have hn' : ∀ t, n ≤ t → ∃ a, (⟨fun r => (m r).bytes, fun t => micro (c t)⟩ : Machine α).th t = .done a := by
    intro t ht
    obtain ⟨a, ha⟩ := hn t ht
    exact ⟨a, by dsimp only; rw [ha]; rfl⟩
  -- from the machine to the code
  have down : ∀ w', Machine.Reach ⟨fun r => (m r).bytes, fun t => micro (c t)⟩ w' → Ended w' →
      ∃ x, Sys.Reach ⟨m, fun t => (c t).prog chk⟩ x ∧ x.Final ∧ ∀ t a, w'.th t = .done a → x.th t = .ret a := by
    intro w' hw hE
    obtain ⟨res, hres⟩ := Classical.axiomOfChoice hE
    have hw' : w' = ⟨w'.cont, fun t => .done (res t)⟩ := by
      obtain ⟨wc, wt⟩ := w'
      simp only [Machine.mk.injEq, true_and]
      exact funext hres
    rw [hw'] at hw
    obtain ⟨x, x1, x2, -⟩ := (C65_atomic_bits chk m hm c hc res w'.cont).2 hw
    refine ⟨x, x1, fun t => by rw [x2 t]; trivial, fun t a ha => ?_⟩
    rw [hres t] at ha; cases ha; exact x2 t
  have hAm : Unanimous n v (⟨fun r => (m r).bytes, fun t => micro (c t)⟩ : Machine α) := by
    intro w' hw hE t u a b ht hu ha hb
    obtain ⟨x, x1, x2, x3⟩ := down w' hw hE
    exact hA x x1 x2 t u a b ht hu (x3 t a ha) (x3 u b hb)
  obtain ⟨we, r1, hE⟩ := h0.ends hn'
  obtain ⟨a, ha⟩ := hE 0
  have hy : CanEnd n v (⟨fun r => (m r).bytes, fun t => micro (c t)⟩ : Machine α) (v 0 a) :=
    ⟨we, r1, hE, fun t b ht hb => hAm we r1 hE t 0 b a ht hpos hb ha⟩
  refine ⟨v 0 a, fun x hx hf t b ht hb => ?_⟩
  obtain ⟨res, hres⟩ := all_returned chk m hm c hc hx hf
  have hw := (C65_atomic_bits chk m hm c hc res fun r => (x.mem r).bytes).1 ⟨x, hx, hres, fun _ => rfl⟩
  have hEx : Ended (⟨fun r => (x.mem r).bytes, fun t => .done (res t)⟩ : Machine α) := fun t => ⟨res t, rfl⟩
  refine h0.no_choice hpos hAm hn' ⟨_, hw, hEx, fun u d hu hd => ?_⟩ hy
  have hb' : res t = b := by rw [hres t] at hb; cases hb; rfl
  exact hAm _ hw hEx u t d b hu ht hd (by dsimp only; rw [hb'])

/-- C127.  Of two threads without `replace`: if in every execution exactly one of them returns `true`, it is always the
same one. -/
theorem C127_no_election (chk : Bool) (m : Store) (hm : Fresh L m) (c0 c1 : Client Bool) (h0 : Inside L c0) (h1 : Inside L c1)
    (r0 : NoReplace c0) (r1 : NoReplace c1)
    (hone : ∀ x, Sys.Reach ⟨m, fun t => (twoThreads c0 c1 (.done false) t).prog chk⟩ x → x.Final →
      ∃ b, x.th 0 = .ret b ∧ x.th 1 = .ret (!b)) :
    ∃ b, ∀ x, Sys.Reach ⟨m, fun t => (twoThreads c0 c1 (.done false) t).prog chk⟩ x → x.Final →
      x.th 0 = .ret b ∧ x.th 1 = .ret (!b) := by
  obtain ⟨y, hy⟩ := C127_no_choice chk m hm (twoThreads c0 c1 (.done false))
    (fun t => match t with | 0 => h0 | 1 => h1 | _ + 2 => trivial) (fun t => match t with | 0 => r0 | 1 => r1 | _ + 2 => trivial) 2 (by omega)
    (fun t ht => match t, ht with | t + 2, _ => ⟨false, rfl⟩) (fun t a => if t = 0 then a else !a) (by
      intro x hx hf
      obtain ⟨b, b0, b1⟩ := hone x hx hf
      have key : ∀ t a, t < 2 → x.th t = .ret a → (if t = 0 then a else !a) = b := by
        intro t a ht ha
        match t, ht with
        | 0, _ => rw [b0] at ha; cases ha; rfl
        | 1, _ => rw [b1] at ha; cases ha; simp
      intro t u a d ht hu ha hd
      rw [key t a ht ha, key u d hu hd])
  refine ⟨y, fun x hx hf => ?_⟩
  obtain ⟨b, b0, b1⟩ := hone x hx hf
  have := hy x hx hf 0 b (by omega) b0
  rw [if_pos rfl] at this
  subst this
  exact ⟨b0, b1⟩

/-! ## Two threads decide with `replace` -/

/-- Where the two electors can be. -/
inductive Contest (a b c : Nat) (A B C : Bytes) (w : Machine Bool) : Prop where
  | start (h0 : w.th 0 = micro (elector c b c B true)) (h1 : w.th 1 = micro (elector b a c B false)) (hb : w.cont b = B) (hc : w.cont c = C)
  | zero (hc : w.cont c = B) (h0 : w.th 0 = .readAll c (fun v => .done ((v == B) == true)) ∨ w.th 0 = .done true)
      (h1 : w.th 1 = micro (elector b a c B false) ∨ w.th 1 = .readAll c (fun v => .done ((v == B) == false)) ∨ w.th 1 = .done false)
  | one (hb : w.cont b = A) (h1 : w.th 1 = .readAll c (fun v => .done ((v == B) == false)) ∨ w.th 1 = .done true)
      (h0 : (w.th 0 = micro (elector c b c B true) ∧ w.cont c = C) ∨
        (w.th 0 = .readAll c (fun v => .done ((v == B) == true)) ∨ w.th 0 = .done false) ∧ w.cont c = A)

theorem Spec.Machine.Step.of_copy {w w' : Machine α} {t r o : Nat} {k : Micro α} (hs : Machine.Step t w w')
    (e1 : w.th t = .copy r o k) :
    w' = ⟨fun z => if z = r then w.cont o else w.cont z, fun z => if z = t then k else w.th z⟩ := by
  obtain ⟨c', th'⟩ := w'
  cases hs with
  | read e2 => rw [e1] at e2; cases e2
  | write e2 => rw [e1] at e2; cases e2
  | readAll e2 => rw [e1] at e2; cases e2
  | copy e2 hc hu =>
    rw [e1] at e2; cases e2
    dsimp only at hc hu
    rw [hc.eq, hu.eq]

theorem Contest.step {a b c : Nat} {A B C : Bytes} (hab : a ≠ b) (hac : a ≠ c) (hbc : b ≠ c) (hAB : A ≠ B) (hCB : C ≠ B)
    {w w' : Machine Bool} (h : Contest a b c A B C w) (ha : w.cont a = A) (hd : ∀ t, 2 ≤ t → w.th t = .done false) {t : Nat}
    (hs : Machine.Step t w w') : Contest a b c A B C w' ∧ w'.cont a = A ∧ ∀ t, 2 ≤ t → w'.th t = .done false := by
  have fAB : (A == B) = false := by simpa using hAB
  have fCB : (C == B) = false := by simpa using hCB
  have e0 : micro (elector c b c B true) = .copy c b (.readAll c fun v => .done ((v == B) == true)) := rfl
  have e1 : micro (elector b a c B false) = .copy b a (.readAll c fun v => .done ((v == B) == false)) := rfl
  have ht : t = 0 ∨ t = 1 := by
    refine Classical.byContradiction fun hh => ?_
    exact hs.of_done (hd t (by omega))
  -- a step of either thread: contents of `a`, and the idle threads
  have rest : ∀ {cont : Nat → Bytes} {q : Micro Bool}, cont a = A → w' = ⟨cont, fun z => if z = t then q else w.th z⟩ →
      w'.cont a = A ∧ ∀ t, 2 ≤ t → w'.th t = .done false := by
    intro cont q h1 h2
    subst h2
    refine ⟨h1, fun u hu => ?_⟩
    dsimp only
    rw [if_neg (by omega)]; exact hd u hu
  rcases ht with rfl | rfl
  · cases h with
    | start h0 h1 hb hc =>
      have hw := hs.of_copy (h0.trans e0)
      refine ⟨?_, rest (by rw [if_neg hac]; exact ha) hw⟩
      subst hw
      exact .zero (by dsimp only; rw [if_pos rfl]; exact hb) (.inl rfl) (.inl h1)
    | zero hc h0 h1 =>
      rcases h0 with h0 | h0
      · have hw := hs.of_readAll h0
        refine ⟨?_, rest ha hw⟩
        subst hw
        exact .zero hc (.inr (by dsimp only; rw [if_pos rfl, hc]; simp)) h1
      · exact (hs.of_done h0).elim
    | one hb h1 h0 =>
      rcases h0 with ⟨h0, hc⟩ | ⟨h0 | h0, hc⟩
      · have hw := hs.of_copy (h0.trans e0)
        refine ⟨?_, rest (by rw [if_neg hac]; exact ha) hw⟩
        subst hw
        exact .one (by dsimp only; rw [if_neg hbc]; exact hb) h1 (.inr ⟨.inl rfl, by dsimp only; rw [if_pos rfl]; exact hb⟩)
      · have hw := hs.of_readAll h0
        refine ⟨?_, rest ha hw⟩
        subst hw
        exact .one hb h1 (.inr ⟨.inr (by dsimp only; rw [if_pos rfl, hc, fAB]; rfl), hc⟩)
      · exact (hs.of_done h0).elim
  · cases h with
    | start h0 h1 hb hc =>
      have hw := hs.of_copy (h1.trans e1)
      refine ⟨?_, rest (by rw [if_neg hab]; exact ha) hw⟩
      subst hw
      exact .one (by dsimp only; rw [if_pos rfl]; exact ha) (.inl rfl) (.inl ⟨h0, by dsimp only; rw [if_neg fun x => hbc x.symm]; exact hc⟩)
    | zero hc h0 h1 =>
      rcases h1 with h1 | h1 | h1
      · have hw := hs.of_copy (h1.trans e1)
        refine ⟨?_, rest (by rw [if_neg hab]; exact ha) hw⟩
        subst hw
        exact .zero (by dsimp only; rw [if_neg fun x => hbc x.symm]; exact hc) h0 (.inr (.inl rfl))
      · have hw := hs.of_readAll h1
        refine ⟨?_, rest ha hw⟩
        subst hw
        exact .zero hc h0 (.inr (.inr (by dsimp only; rw [if_pos rfl, hc]; simp)))
      · exact (hs.of_done h1).elim
    | one hb h1 h0 =>
      rcases h1 with h1 | h1
      · have hw := hs.of_readAll h1
        refine ⟨?_, rest ha hw⟩
        subst hw
        refine .one hb (.inr ?_) h0
        dsimp only
        rw [if_pos rfl]
        rcases h0 with ⟨-, hc⟩ | ⟨-, hc⟩
        · rw [hc, fCB]; rfl
        · rw [hc, fAB]; rfl
      · exact (hs.of_done h1).elim

/-- The two electors. -/
def electors (m : Store) (a b c : Nat) : Nat → Client Bool :=
  twoThreads (elector c b c (m b).bytes true) (elector b a c (m b).bytes false) (.done false)

theorem electors_inside (m : Store) {a b c : Nat} (hab : a ≠ b) (hbc : b ≠ c) (hL : L a = L b) (hL' : L b = L c) (t : Nat) :
    Inside L (electors m a b c t) := by
  match t with
  | 0 => exact ⟨fun h => hbc h.symm, hL'.symm, fun _ _ => trivial, fun _ _ => .inl trivial, fun _ _ => .inl trivial, fun _ => trivial⟩
  | 1 => exact ⟨fun h => hab h.symm, hL.symm, fun _ _ => trivial, fun _ _ => .inl trivial, fun _ _ => .inl trivial, fun _ => trivial⟩
  | _ + 2 => trivial

/-- C127.  With `replace` two threads can decide which of them is first: one makes `c` a copy of `b`, the other makes `b`
a copy of `a`, and both look at `c`.  They never deadlock and always end; exactly one returns `true`; and either can be
that one. -/
theorem C127_replace_elects (chk : Bool) (m : Store) (hm : Fresh L m) {a b c : Nat} (hab : a ≠ b) (hac : a ≠ c) (hbc : b ≠ c)
    (hL : L a = L b) (hL' : L b = L c) (hA : (m a).bytes ≠ (m b).bytes) (hC : (m c).bytes ≠ (m b).bytes) :
    (∀ x, Sys.Reach ⟨m, fun t => (electors m a b c t).prog chk⟩ x → ¬ Stuck x) ∧
    (¬ ∃ (σ : Nat → Sys Bool) (sch : Nat → Nat), σ 0 = ⟨m, fun t => (electors m a b c t).prog chk⟩ ∧
      ∀ i, (σ i).step (sch i) = some (σ (i + 1))) ∧
    (∀ x, Sys.Reach ⟨m, fun t => (electors m a b c t).prog chk⟩ x → x.Final → ∃ w, x.th 0 = .ret w ∧ x.th 1 = .ret (!w)) ∧
    ∀ w, ∃ x, Sys.Reach ⟨m, fun t => (electors m a b c t).prog chk⟩ x ∧ x.Final ∧ x.th 0 = .ret w ∧ x.th 1 = .ret (!w) := by
  have hin := electors_inside m (L := L) hab hbc hL hL'
  obtain ⟨f1, f2, -⟩ := C66_ordered_replace chk m (fun r => (hm r).1) (electors m a b c)
    (fun z => if z = c then 2 else if z = b then 1 else 0) (fun t => by
      match t with
      | 0 => exact ⟨by simp [hbc], fun _ => trivial⟩
      | 1 => exact ⟨by simp [hab, hac, hbc], fun _ => trivial⟩
      | _ + 2 => trivial) 2 (fun t ht => match t, ht with | t + 2, _ => ⟨false, rfl⟩)
  refine ⟨f1, f2, fun x hx hf => ?_, fun w => ?_⟩
  · obtain ⟨res, hres⟩ := all_returned chk m hm _ hin hx hf
    have hw := (C65_atomic_bits chk m hm _ hin res fun r => (x.mem r).bytes).1 ⟨x, hx, hres, fun _ => rfl⟩
    have key : ∀ w', Machine.Reach ⟨fun r => (m r).bytes, fun t => micro (electors m a b c t)⟩ w' →
        Contest a b c (m a).bytes (m b).bytes (m c).bytes w' ∧ w'.cont a = (m a).bytes ∧ ∀ t, 2 ≤ t → w'.th t = .done false := by
      intro w' hr
      induction hr with
      | refl => exact ⟨.start rfl rfl rfl rfl, rfl, fun t ht => match t, ht with | t + 2, _ => rfl⟩
      | step t _ hs ih => exact ih.1.step hab hac hbc hA hC ih.2.1 ih.2.2 hs
    refine ⟨res 0, hres 0, ?_⟩
    rw [hres 1]
    cases (key _ hw).1 with
    | start h0 => cases h0
    | zero hc h0 h1 =>
      rcases h0 with h0 | h0
      · cases h0
      · rcases h1 with h1 | h1 | h1
        · cases h1
        · cases h1
        · rw [Micro.done.inj h0, Micro.done.inj h1]; rfl
    | one hb h1 h0 =>
      rcases h1 with h1 | h1
      · cases h1
      · rcases h0 with ⟨h0, -⟩ | ⟨h0 | h0, -⟩
        · cases h0
        · cases h0
        · rw [Micro.done.inj h0, Micro.done.inj h1]; rfl
  · let R0 : Micro Bool := .readAll c fun v => .done ((v == (m b).bytes) == true)
    let R1 : Micro Bool := .readAll c fun v => .done ((v == (m b).bytes) == false)
    let w0 : Machine Bool := ⟨fun r => (m r).bytes, fun t => micro (electors m a b c t)⟩
    have close : ∀ w4 : Machine Bool, Machine.Reach w0 w4 → w4.th 0 = .done w → w4.th 1 = .done (!w) → (∀ t, 2 ≤ t → w4.th t = .done false) →
        ∃ x, Sys.Reach ⟨m, fun t => (electors m a b c t).prog chk⟩ x ∧ x.Final ∧ x.th 0 = .ret w ∧ x.th 1 = .ret (!w) := by
      intro w4 hr t0 t1 t2
      have hw4 : w4 = ⟨w4.cont, fun t => .done (if t = 0 then w else if t = 1 then !w else false)⟩ := by
        obtain ⟨wc, wt⟩ := w4
        simp only [Machine.mk.injEq, true_and]
        funext t
        match t with
        | 0 => exact t0
        | 1 => exact t1
        | t + 2 => exact t2 (t + 2) (by omega)
      rw [hw4] at hr
      obtain ⟨x, x1, x2, -⟩ := (C65_atomic_bits chk m hm _ hin _ w4.cont).2 hr
      exact ⟨x, x1, fun t => by rw [x2 t]; trivial, by rw [x2 0]; rfl, by rw [x2 1]; rfl⟩
    cases w with
    | true =>
      let w1 : Machine Bool := ⟨fun z => if z = c then w0.cont b else w0.cont z, fun z => if z = 0 then R0 else w0.th z⟩
      let w2 : Machine Bool := ⟨w1.cont, fun z => if z = 0 then .done ((w1.cont c == (m b).bytes) == true) else w1.th z⟩
      let w3 : Machine Bool := ⟨fun z => if z = b then w2.cont a else w2.cont z, fun z => if z = 1 then R1 else w2.th z⟩
      let w4 : Machine Bool := ⟨w3.cont, fun z => if z = 1 then .done ((w3.cont c == (m b).bytes) == false) else w3.th z⟩
      have s1 : Machine.Step 0 w0 w1 := .copy (r := c) (o := b) (k := R0) rfl (upd_mk _ _ _) (upd_mk _ _ _)
      have s2 : Machine.Step 0 w1 w2 := .readAll (r := c) (k := fun v => .done ((v == (m b).bytes) == true)) rfl rfl (upd_mk _ _ _)
      have s3 : Machine.Step 1 w2 w3 := .copy (r := b) (o := a) (k := R1) rfl (upd_mk _ _ _) (upd_mk _ _ _)
      have s4 : Machine.Step 1 w3 w4 := .readAll (r := c) (k := fun v => .done ((v == (m b).bytes) == false)) rfl rfl (upd_mk _ _ _)
      have v1 : w1.cont c = (m b).bytes := if_pos rfl
      have v3 : w3.cont c = (m b).bytes := (if_neg fun x => hbc x.symm).trans v1
      refine close w4 (.step 1 (.step 1 (.step 0 (.step 0 .refl s1) s2) s3) s4) ?_ ?_ fun t ht => ?_
      · show Micro.done ((w1.cont c == (m b).bytes) == true) = _
        rw [v1]; simp
      · show Micro.done ((w3.cont c == (m b).bytes) == false) = _
        rw [v3]; simp
      · match t, ht with
        | t + 2, _ => rfl
    | false =>
      let w1 : Machine Bool := ⟨fun z => if z = b then w0.cont a else w0.cont z, fun z => if z = 1 then R1 else w0.th z⟩
      let w2 : Machine Bool := ⟨w1.cont, fun z => if z = 1 then .done ((w1.cont c == (m b).bytes) == false) else w1.th z⟩
      let w3 : Machine Bool := ⟨fun z => if z = c then w2.cont b else w2.cont z, fun z => if z = 0 then R0 else w2.th z⟩
      let w4 : Machine Bool := ⟨w3.cont, fun z => if z = 0 then .done ((w3.cont c == (m b).bytes) == true) else w3.th z⟩
      have s1 : Machine.Step 1 w0 w1 := .copy (r := b) (o := a) (k := R1) rfl (upd_mk _ _ _) (upd_mk _ _ _)
      have s2 : Machine.Step 1 w1 w2 := .readAll (r := c) (k := fun v => .done ((v == (m b).bytes) == false)) rfl rfl (upd_mk _ _ _)
      have s3 : Machine.Step 0 w2 w3 := .copy (r := c) (o := b) (k := R0) rfl (upd_mk _ _ _) (upd_mk _ _ _)
      have s4 : Machine.Step 0 w3 w4 := .readAll (r := c) (k := fun v => .done ((v == (m b).bytes) == true)) rfl rfl (upd_mk _ _ _)
      have v1 : w1.cont c = (m c).bytes := if_neg fun x => hbc x.symm
      have v2 : w1.cont b = (m a).bytes := if_pos rfl
      have v3 : w3.cont c = (m a).bytes := (if_pos rfl).trans v2
      refine close w4 (.step 0 (.step 0 (.step 1 (.step 1 .refl s1) s2) s3) s4) ?_ ?_ fun t ht => ?_
      · show Micro.done ((w3.cont c == (m b).bytes) == true) = _
        rw [v3, show ((m a).bytes == (m b).bytes) = false by simpa using hA]; rfl
      · show Micro.done ((w1.cont c == (m b).bytes) == false) = _
        rw [v1, show ((m c).bytes == (m b).bytes) = false by simpa using hC]; rfl
      · match t, ht with
        | t + 2, _ => rfl

end
/-! ## Non-vacuity -/

/-- Three headers with the octets 1, 2 and 0. -/
def ballotStore : Store := fun r => ⟨[if r = 0 then 0x01#8 else if r = 1 then 0x02#8 else 0x00#8], false, none⟩

theorem ballot_fresh : Fresh (fun _ => 1) ballotStore := fun _ => ⟨rfl, rfl, rfl⟩

example := C127_replace_elects (L := fun _ => 1) true ballotStore ballot_fresh (a := 0) (b := 1) (c := 2) (by decide) (by decide)
  (by decide) rfl rfl (by decide) (by decide)

-- two threads that do agree: both return the first octet, which nobody writes; it is always 1
example : ∃ y, ∀ x, Sys.Reach ⟨ballotStore, fun t => ((if t < 2 then .toVec 0 fun v => .done v else .done [] : Client Bytes)).prog true⟩ x →
    x.Final → ∀ t a, t < 2 → x.th t = .ret a → a = y := by
  refine C127_no_choice (L := fun _ => 1) true ballotStore ballot_fresh (fun t => if t < 2 then .toVec 0 fun v => .done v else .done [])
    (fun t => ?_) (fun t => ?_) 2 (by decide) (fun t ht => ⟨[], if_neg (by omega)⟩) (fun _ a => a) ?_
  · split
    · exact ⟨fun _ _ => .inl trivial, fun _ => trivial⟩
    · trivial
  · split
    · exact fun _ => trivial
    · trivial
  · intro x hx hf t u a b ht hu ha hb
    have hin : ∀ t, Inside (fun _ => 1) (if t < 2 then .toVec 0 fun v => .done v else .done [] : Client Bytes) := by
      intro t; split
      · exact ⟨fun _ _ => .inl trivial, fun _ => trivial⟩
      · trivial
    obtain ⟨res, hres⟩ := all_returned true ballotStore ballot_fresh _ hin hx hf
    have hw := (C65_atomic_bits true ballotStore ballot_fresh _ hin res fun r => (x.mem r).bytes).1 ⟨x, hx, hres, fun _ => rfl⟩
    have key : ∀ w, Machine.Reach ⟨fun r => (ballotStore r).bytes, fun t => micro (if t < 2 then .toVec 0 fun v => .done v else .done [] : Client Bytes)⟩ w →
        w.cont 0 = [0x01#8] ∧ ∀ t, t < 2 → w.th t = .readAll 0 (fun v => .done v) ∨ w.th t = .done [0x01#8] := by
      intro w hr
      induction hr with
      | refl => exact ⟨rfl, fun t ht => .inl (by dsimp only; rw [if_pos ht]; rfl)⟩
      | @step w1 w2 u h1 hs ih =>
        have hpl : Plain (fun _ => 1) w1 := Plain.reach (L := fun _ => 1) ⟨fun _ => rfl, fun t => noCopy_micro _ (hin t) (by
          split
          · exact fun _ => trivial
          · trivial)⟩ h1
        obtain ⟨c, q, hact, rfl⟩ := hpl.step_iff.1 hs
        have hu2 : u < 2 := by
          refine Nat.lt_of_not_le fun hh => ?_
          have := Plain.stays (L := fun _ => 1) (w := ⟨fun r => (ballotStore r).bytes, fun t => micro (if t < 2 then .toVec 0 fun v => .done v else .done [] : Client Bytes)⟩)
            ⟨fun _ => rfl, fun t => noCopy_micro _ (hin t) (by
              split
              · exact fun _ => trivial
              · trivial)⟩ h1 (t := u) (a := []) (by dsimp only; rw [if_neg (by omega)]; rfl)
          rw [this] at hact; cases hact
        rcases ih.2 u hu2 with h2 | h2
        · rw [h2] at hact
          cases hact
          refine ⟨ih.1, fun t ht => ?_⟩
          simp only [Machine.goto]
          by_cases htu : t = u
          · rw [if_pos htu, ih.1]; exact .inr rfl
          · rw [if_neg htu]; exact ih.2 t ht
        · rw [h2] at hact; cases hact
    have one : ∀ t a, t < 2 → x.th t = .ret a → a = [0x01#8] := by
      intro t a ht ha
      rw [hres t] at ha; cases ha
      rcases (key _ hw).2 t ht with h | h
      · cases h
      · exact Micro.done.inj h
    rw [one t a ht ha, one u b hu hb]

end PacketRs
