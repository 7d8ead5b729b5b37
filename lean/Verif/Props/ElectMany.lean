import Verif.Props.Elect
/-!
# C127, continued: any number of threads decide with `replace`
-/
namespace PacketRs
open Spec

/-- Where a voter is. -/
inductive Booth where
  | fresh
  /-- it has made its copy; the next to clear is `j` -/
  | clear (j : Nat)
  /-- the next to look at is `i - 1` -/
  | look (i : Nat)
  | over (w : Nat)

def Booth.Moved : Booth → Prop
  | .fresh => False
  | _ => True

/-- It has cleared `k`. -/
def Booth.Cleared : Booth → Nat → Prop
  | .fresh, _ => False
  | .clear j, k => k < j
  | _, _ => True

/-- What comes after the copy and `j` clears. -/
def Booth.next (n j : Nat) : Booth := if j < n then .clear j else .look n

theorem Booth.next_moved (n j : Nat) : (Booth.next n j).Moved := by
  unfold Booth.next; split <;> trivial

theorem Booth.next_cleared {n j k : Nat} (hk : k < n) : (Booth.next n j).Cleared k ↔ k < j := by
  unfold Booth.next; split
  · exact Iff.rfl
  · exact ⟨fun _ => by omega, fun _ => trivial⟩

theorem Booth.Cleared.moved {k : Nat} : {p : Booth} → p.Cleared k → p.Moved
  | .clear _, _ => trivial
  | .look _, _ => trivial
  | .over _, _ => trivial

/-- The bit of `b j` will not change any more. -/
def Settled (x : Nat → Bool) (ph : Nat → Booth) (j : Nat) : Prop := (ph j).Moved ∨ x j = false

/-- All from `i` on are settled, and clear. -/
def ClearFrom (n : Nat) (x y : Nat → Bool) (ph : Nat → Booth) (i : Nat) : Prop :=
  ∀ j, i ≤ j → j < n → Settled x ph j ∧ y j = false

/-- The invariant: `x` and `y` are the first bits of the headers `a` and `b`. -/
structure Poll (n : Nat) (x y : Nat → Bool) (ph : Nat → Booth) : Prop where
  idle : ∀ t, t < n → ¬ (ph t).Moved → y t = false
  whom : ∀ i, i < n → x i = false → ∃ q, q < i ∧ (ph q).Cleared i
  down : ∀ q k, q < k → k < n → (ph q).Cleared k → x k = false
  copied : ∀ t, t < n → (ph t).Moved → y t = false → x t = false
  clear : ∀ t j, t < n → ph t = .clear j → t < j ∧ j < n
  look : ∀ t i, t < n → ph t = .look i → 0 < i ∧ i ≤ n ∧ ClearFrom n x y ph i
  over : ∀ t w, t < n → ph t = .over w → w < n ∧ y w = true ∧ ClearFrom n x y ph (w + 1)

section
variable {n : Nat} {x y : Nat → Bool} {ph : Nat → Booth}

/-- If all from `i + 1` on are settled and clear and one of them or `i` has moved, `i` is settled. -/
theorem Poll.settled (h : Poll n x y ph) {t i : Nat} (ht : t < n) (hi : i < n) (hm : ∀ k, t < k → k < n → (ph t).Cleared k)
    (hmt : (ph t).Moved) (hc : ClearFrom n x y ph (i + 1)) : Settled x ph i := by
  rcases Nat.lt_trichotomy t i with hlt | heq | hgt
  · exact .inr (h.down t i hlt hi (hm i hlt hi))
  · subst heq; exact .inl hmt
  · obtain ⟨h1, h2⟩ := hc (i + 1) (Nat.le_refl _) (by omega)
    have hx : x (i + 1) = false := by
      rcases h1 with h1 | h1
      · exact h.copied _ (by omega) h1 h2
      · exact h1
    obtain ⟨q, hq, hcl⟩ := h.whom (i + 1) (by omega) hx
    by_cases hqi : q = i
    · subst hqi; exact .inl hcl.moved
    · right
      refine h.down q i (by omega) hi ?_
      generalize ph q = p at hcl
      cases p with
      | fresh => exact hcl
      | clear j => have : i + 1 < j := hcl; show i < j; omega
      | look i => trivial
      | over w => trivial

/-- One voter goes from `ph t` to `p`, all others stay. -/
def step1 (ph : Nat → Booth) (t : Nat) (p : Booth) : Nat → Booth := fun z => if z = t then p else ph z

theorem step1_same {t : Nat} {p : Booth} : step1 ph t p t = p := if_pos rfl

theorem step1_other {t u : Nat} {p : Booth} (h : u ≠ t) : step1 ph t p u = ph u := if_neg h

theorem Poll.move (h : Poll n x y ph) {t : Nat} (ht : t < n) (hp : ph t = .fresh) :
    Poll n x (fun z => if z = t then x t else y z) (step1 ph t (Booth.next n (t + 1))) := by
  have hy : y t = false := h.idle t ht (by rw [hp]; exact id)
  have hset : ∀ j, Settled x ph j → Settled x (step1 ph t (Booth.next n (t + 1))) j := by
    intro j hj
    by_cases hjt : j = t
    · subst hjt; left; rw [step1_same]; exact Booth.next_moved _ _
    · rcases hj with hj | hj
      · left; rw [step1_other hjt]; exact hj
      · exact .inr hj
  have hcf : ∀ i, ClearFrom n x y ph i → ClearFrom n x (fun z => if z = t then x t else y z) (step1 ph t (Booth.next n (t + 1))) i := by
    intro i hi j h1 h2
    obtain ⟨g1, g2⟩ := hi j h1 h2
    refine ⟨hset j g1, ?_⟩
    by_cases hjt : j = t
    · subst hjt
      dsimp only
      rw [if_pos rfl]
      rcases g1 with g1 | g1
      · rw [hp] at g1; exact g1.elim
      · exact g1
    · dsimp only
      rw [if_neg hjt]; exact g2
  refine ⟨fun u hu hm => ?_, fun i hi hx => ?_, fun q k hqk hk hc => ?_, fun u hu hm hyu => ?_, fun u j hu he => ?_, fun u i hu he => ?_,
    fun u w hu he => ?_⟩
  · by_cases hut : u = t
    · subst hut; rw [step1_same] at hm; exact absurd (Booth.next_moved _ _) hm
    · rw [step1_other hut] at hm; rw [if_neg hut]; exact h.idle u hu hm
  · obtain ⟨q, h1, h2⟩ := h.whom i hi hx
    have hqt : q ≠ t := fun e => by subst e; rw [hp] at h2; exact h2
    exact ⟨q, h1, by rw [step1_other hqt]; exact h2⟩
  · by_cases hqt : q = t
    · subst hqt
      rw [step1_same, Booth.next_cleared hk] at hc; omega
    · rw [step1_other hqt] at hc; exact h.down q k hqk hk hc
  · by_cases hut : u = t
    · subst hut; rw [if_pos rfl] at hyu; exact hyu
    · rw [step1_other hut] at hm; rw [if_neg hut] at hyu; exact h.copied u hu hm hyu
  · by_cases hut : u = t
    · subst hut
      rw [step1_same, Booth.next] at he
      split at he
      · cases he; omega
      · cases he
    · rw [step1_other hut] at he; exact h.clear u j hu he
  · by_cases hut : u = t
    · subst hut
      rw [step1_same, Booth.next] at he
      split at he
      · cases he
      · cases he; exact ⟨by omega, Nat.le_refl _, fun j h1 h2 => absurd h2 (by omega)⟩
    · rw [step1_other hut] at he
      obtain ⟨g1, g2, g3⟩ := h.look u i hu he
      exact ⟨g1, g2, hcf i g3⟩
  · by_cases hut : u = t
    · subst hut
      rw [step1_same, Booth.next] at he
      split at he <;> cases he
    · rw [step1_other hut] at he
      obtain ⟨g1, g2, g3⟩ := h.over u w hu he
      refine ⟨g1, ?_, hcf _ g3⟩
      have : w ≠ t := fun e => by subst e; rw [hy] at g2; cases g2
      rw [if_neg this]; exact g2

theorem Poll.wipe (h : Poll n x y ph) {t j : Nat} (ht : t < n) (hp : ph t = .clear j) :
    Poll n (fun z => if z = j then false else x z) y (step1 ph t (Booth.next n (j + 1))) := by
  obtain ⟨htj, hjn⟩ := h.clear t j ht hp
  have hmov : ∀ u, (step1 ph t (Booth.next n (j + 1)) u).Moved ↔ (ph u).Moved := by
    intro u
    by_cases hut : u = t
    · subst hut; rw [step1_same, hp]; exact ⟨fun _ => trivial, fun _ => Booth.next_moved _ _⟩
    · rw [step1_other hut]
  have hset : ∀ k, Settled x ph k → Settled (fun z => if z = j then false else x z) (step1 ph t (Booth.next n (j + 1))) k := by
    intro k hk
    rcases hk with hk | hk
    · exact .inl ((hmov k).2 hk)
    · right
      by_cases hkj : k = j
      · simp [hkj]
      · simpa [hkj] using hk
  have hcf : ∀ i, ClearFrom n x y ph i → ClearFrom n (fun z => if z = j then false else x z) y (step1 ph t (Booth.next n (j + 1))) i :=
    fun i hi k h1 h2 => ⟨hset k (hi k h1 h2).1, (hi k h1 h2).2⟩
  refine ⟨fun u hu hm => ?_, fun i hi hx => ?_, fun q k hqk hk hc => ?_, fun u hu hm hyu => ?_, fun u i hu he => ?_, fun u i hu he => ?_,
    fun u w hu he => ?_⟩
  · exact h.idle u hu fun hm' => hm ((hmov u).2 hm')
  · by_cases hij : i = j
    · subst hij
      exact ⟨t, htj, by rw [step1_same, Booth.next_cleared hi]; omega⟩
    · rw [if_neg hij] at hx
      obtain ⟨q, h1, h2⟩ := h.whom i hi hx
      refine ⟨q, h1, ?_⟩
      by_cases hqt : q = t
      · subst hqt
        rw [hp] at h2
        have : i < j := h2
        rw [step1_same, Booth.next_cleared hi]; omega
      · rw [step1_other hqt]; exact h2
  · by_cases hkj : k = j
    · simp [hkj]
    · rw [if_neg hkj]
      by_cases hqt : q = t
      · subst hqt
        rw [step1_same, Booth.next_cleared hk] at hc
        exact h.down q k hqk hk (by rw [hp]; show k < j; omega)
      · rw [step1_other hqt] at hc; exact h.down q k hqk hk hc
  · have := h.copied u hu ((hmov u).1 hm) hyu
    by_cases huj : u = j
    · simp [huj]
    · simpa [huj] using this
  · by_cases hut : u = t
    · subst hut
      rw [step1_same, Booth.next] at he
      split at he
      · cases he; omega
      · cases he
    · rw [step1_other hut] at he; exact h.clear u i hu he
  · by_cases hut : u = t
    · subst hut
      rw [step1_same, Booth.next] at he
      split at he
      · cases he
      · cases he; exact ⟨by omega, Nat.le_refl _, fun j h1 h2 => absurd h2 (by omega)⟩
    · rw [step1_other hut] at he
      obtain ⟨g1, g2, g3⟩ := h.look u i hu he
      exact ⟨g1, g2, hcf i g3⟩
  · by_cases hut : u = t
    · subst hut
      rw [step1_same, Booth.next] at he
      split at he <;> cases he
    · rw [step1_other hut] at he
      obtain ⟨g1, g2, g3⟩ := h.over u w hu he
      exact ⟨g1, g2, hcf _ g3⟩

theorem Poll.see (h : Poll n x y ph) {t i : Nat} (ht : t < n) (hp : ph t = .look (i + 1)) :
    (y i = false → 0 < i) ∧ Poll n x y (step1 ph t (if y i then .over i else .look i)) := by
  obtain ⟨-, hin, hcl⟩ := h.look t (i + 1) ht hp
  have hst : Settled x ph i := h.settled ht (by omega) (fun k _ _ => by rw [hp]; trivial) (by rw [hp]; trivial) hcl
  have h0 : y i = false → 0 < i := by
    intro hy
    refine Nat.pos_of_ne_zero fun hi => ?_
    subst hi
    have hx : x 0 = false := by
      rcases hst with hs | hs
      · exact h.copied 0 (by omega) hs hy
      · exact hs
    obtain ⟨q, hq, -⟩ := h.whom 0 (by omega) hx
    omega
  refine ⟨h0, ?_⟩
  generalize hnew : (if y i then Booth.over i else .look i) = p
  have hpm : p.Moved := by rw [← hnew]; split <;> trivial
  have hpc : ∀ k, p.Cleared k := by intro k; rw [← hnew]; split <;> trivial
  have hmov : ∀ u, (step1 ph t p u).Moved ↔ (ph u).Moved := by
    intro u
    by_cases hut : u = t
    · subst hut; rw [step1_same, hp]; exact ⟨fun _ => trivial, fun _ => hpm⟩
    · rw [step1_other hut]
  have hclr : ∀ u k, (step1 ph t p u).Cleared k ↔ (ph u).Cleared k := by
    intro u k
    by_cases hut : u = t
    · subst hut; rw [step1_same, hp]; exact ⟨fun _ => trivial, fun _ => hpc k⟩
    · rw [step1_other hut]
  have hcf : ∀ i, ClearFrom n x y ph i → ClearFrom n x y (step1 ph t p) i := by
    intro i hi k h1 h2
    obtain ⟨g1, g2⟩ := hi k h1 h2
    exact ⟨g1.imp (hmov k).2 id, g2⟩
  refine ⟨fun u hu hm => h.idle u hu fun hm' => hm ((hmov u).2 hm'), fun i hi hx => ?_, fun q k hqk hk hc => h.down q k hqk hk ((hclr q k).1 hc),
    fun u hu hm hyu => h.copied u hu ((hmov u).1 hm) hyu, fun u j hu he => ?_, fun u j hu he => ?_, fun u w hu he => ?_⟩
  · obtain ⟨q, h1, h2⟩ := h.whom i hi hx
    exact ⟨q, h1, (hclr q i).2 h2⟩
  · by_cases hut : u = t
    · subst hut
      rw [step1_same, ← hnew] at he
      split at he <;> cases he
    · rw [step1_other hut] at he; exact h.clear u j hu he
  · by_cases hut : u = t
    · subst hut
      rw [step1_same, ← hnew] at he
      split at he
      · cases he
      · rename_i hy
        cases he
        have hy' : y i = false := by simpa using hy
        refine ⟨h0 hy', by omega, hcf i fun j h1 h2 => ?_⟩
        by_cases hji : j = i
        · subst hji; exact ⟨hst, hy'⟩
        · exact hcl j (by omega) h2
    · rw [step1_other hut] at he
      obtain ⟨g1, g2, g3⟩ := h.look u j hu he
      exact ⟨g1, g2, hcf j g3⟩
  · by_cases hut : u = t
    · subst hut
      rw [step1_same, ← hnew] at he
      split at he
      · rename_i hy
        cases he
        exact ⟨by omega, hy, hcf _ hcl⟩
      · cases he
    · rw [step1_other hut] at he
      obtain ⟨g1, g2, g3⟩ := h.over u w hu he
      exact ⟨g1, g2, hcf _ g3⟩

/-- All that have decided have decided alike. -/
theorem Poll.same (h : Poll n x y ph) {t u w w' : Nat} (ht : t < n) (hu : u < n) (h1 : ph t = .over w) (h2 : ph u = .over w') : w = w' := by
  obtain ⟨a1, a2, a3⟩ := h.over t w ht h1
  obtain ⟨b1, b2, b3⟩ := h.over u w' hu h2
  rcases Nat.lt_trichotomy w w' with hlt | heq | hgt
  · have := (a3 w' hlt b1).2
    rw [b2] at this; cases this
  · exact heq
  · have := (b3 w hgt a1).2
    rw [a2] at this; cases this

/-- One step of voter `t`. -/
inductive PollStep (n t : Nat) (x y : Nat → Bool) (ph : Nat → Booth) : (Nat → Bool) → (Nat → Bool) → (Nat → Booth) → Prop where
  | move : ph t = .fresh → PollStep n t x y ph x (fun z => if z = t then x t else y z) (step1 ph t (Booth.next n (t + 1)))
  | wipe {j : Nat} : ph t = .clear j → PollStep n t x y ph (fun z => if z = j then false else x z) y (step1 ph t (Booth.next n (j + 1)))
  | see {i : Nat} : ph t = .look (i + 1) → PollStep n t x y ph x y (step1 ph t (if y i then .over i else .look i))

theorem Poll.step (h : Poll n x y ph) {t : Nat} (ht : t < n) {x' y' : Nat → Bool} {ph' : Nat → Booth} (hs : PollStep n t x y ph x' y' ph') :
    Poll n x' y' ph' := by
  cases hs with
  | move hp => exact h.move ht hp
  | wipe hp => exact h.wipe ht hp
  | see hp => exact (h.see ht hp).2

/-- The one that will win, once it has cleared all above. -/
structure Winner (n v : Nat) (x y : Nat → Bool) (ph : Nat → Booth) : Prop where
  moved : (ph v).Moved
  set : y v = true
  above : ∀ k, v < k → k < n → x k = false ∧ y k = false

theorem Winner.step {v : Nat} (h : Winner n v x y ph) {t : Nat} {x' y' : Nat → Bool} {ph' : Nat → Booth} (hs : PollStep n t x y ph x' y' ph') :
    Winner n v x' y' ph' := by
  have hm : ∀ p : Booth, p.Moved → (step1 ph t p v).Moved := by
    intro p hp
    by_cases hvt : v = t
    · subst hvt; rw [step1_same]; exact hp
    · rw [step1_other hvt]; exact h.moved
  cases hs with
  | move hp =>
    have hvt : v ≠ t := fun e => by subst e; have := h.moved; rw [hp] at this; exact this
    refine ⟨hm _ (Booth.next_moved _ _), by rw [if_neg hvt]; exact h.set, fun k h1 h2 => ⟨(h.above k h1 h2).1, ?_⟩⟩
    split
    · rename_i e; subst e; exact (h.above k h1 h2).1
    · exact (h.above k h1 h2).2
  | wipe hp =>
    refine ⟨hm _ (Booth.next_moved _ _), h.set, fun k h1 h2 => ⟨?_, (h.above k h1 h2).2⟩⟩
    split
    · rfl
    · exact (h.above k h1 h2).1
  | see hp => exact ⟨hm _ (by split <;> trivial), h.set, h.above⟩

theorem Winner.wins {v t w : Nat} (h : Winner n v x y ph) (hP : Poll n x y ph) (hv : v < n) (ht : t < n) (hp : ph t = .over w) : w = v := by
  obtain ⟨a1, a2, a3⟩ := hP.over t w ht hp
  rcases Nat.lt_trichotomy w v with hlt | heq | hgt
  · have := (a3 v hlt hv).2
    rw [h.set] at this; cases this
  · exact heq
  · have := (h.above w hgt a1).2
    rw [a2] at this; cases this

end

/-! ## The threads -/

section
variable {L : Nat → Nat} {a b : Nat → Nat} {n : Nat}

def boothMicro (a b : Nat → Nat) (n t : Nat) : Booth → Micro (Option Nat)
  | .fresh => micro (voter a b n t)
  | .clear j => micro (clearFrom a j (n - j) (highest b n))
  | .look i => micro (highest b i)
  | .over w => .done (some w)

theorem boothMicro_next {t j : Nat} : micro (clearFrom a j (n - j) (highest b n)) = boothMicro a b n t (Booth.next n j) := by
  unfold Booth.next
  split
  · rfl
  · rw [show n - j = 0 by omega]; rfl

theorem booth_fresh {t : Nat} : boothMicro a b n t .fresh = .copy (b t) (a t) (boothMicro a b n t (Booth.next n (t + 1))) := by
  rw [← boothMicro_next]; rfl

theorem booth_clear {t j : Nat} (hj : j < n) :
    boothMicro a b n t (.clear j) = .write (a j) 0 false (boothMicro a b n t (Booth.next n (j + 1))) := by
  rw [← boothMicro_next]
  show micro (clearFrom a j (n - j) (highest b n)) = _
  rw [show n - j = (n - (j + 1)) + 1 by omega]
  exact micro_flag 0 0#64 _

theorem booth_look {t i : Nat} :
    boothMicro a b n t (.look (i + 1)) = .read (b i) 0 fun v => boothMicro a b n t (if v then .over i else .look i) := by
  show micro (.get (b i) (flagBit 0) fun v => if v = 0#64 then highest b i else .done (some i)) = _
  have h1 : (flagBit 0).hi + 1 - (flagBit 0).lo = 1 := rfl
  simp only [micro, h1, readBits]
  show Micro.read (b i) 0 _ = Micro.read (b i) 0 _
  congr 1; funext v
  cases v <;> rfl

/-- The first bits of these headers. -/
def firstBits (a : Nat → Nat) (w : Machine (Option Nat)) : Nat → Bool := fun i => netBit (w.cont (a i)) 0

structure Polls (L : Nat → Nat) (a b : Nat → Nat) (n : Nat) (w : Machine (Option Nat)) (ph : Nat → Booth) : Prop where
  len : ∀ r, (w.cont r).length = L r
  th : ∀ t, t < n → w.th t = boothMicro a b n t (ph t)
  out : ∀ t, n ≤ t → w.th t = .done none
  poll : Poll n (firstBits a w) (firstBits b w) ph

/-- The headers of the vote: all different, two and two of the same length, none empty. -/
structure Ballot (L : Nat → Nat) (a b : Nat → Nat) (n : Nat) : Prop where
  injA : ∀ i j, a i = a j → i = j
  injB : ∀ i j, b i = b j → i = j
  apart : ∀ i j, a i ≠ b j
  same : ∀ i, i < n → L (a i) = L (b i)
  pos : ∀ i, i < n → 0 < L (a i)

theorem Polls.th_step {w : Machine (Option Nat)} {ph : Nat → Booth} (h : Polls L a b n w ph) {t : Nat} (p : Booth) :
    (∀ u, u < n → (if u = t then boothMicro a b n t p else w.th u) = boothMicro a b n u (step1 ph t p u)) := by
  intro u hu
  by_cases hut : u = t
  · subst hut; rw [if_pos rfl, step1_same]
  · rw [if_neg hut, step1_other hut]; exact h.th u hu

theorem Polls.step (hB : Ballot L a b n) {w w' : Machine (Option Nat)} {ph : Nat → Booth} (h : Polls L a b n w ph) {t : Nat}
    (hs : Machine.Step t w w') :
    ∃ ph', PollStep n t (firstBits a w) (firstBits b w) ph (firstBits a w') (firstBits b w') ph' ∧ Polls L a b n w' ph' := by
  have ht : t < n := Nat.lt_of_not_le fun hh => hs.of_done (h.out t hh)
  have hth := h.th t ht
  have fin : ∀ {cont : Nat → Bytes} {p : Booth}, w' = ⟨cont, fun z => if z = t then boothMicro a b n t p else w.th z⟩ →
      (∀ r, (cont r).length = L r) →
      PollStep n t (firstBits a w) (firstBits b w) ph (firstBits a w') (firstBits b w') (step1 ph t p) →
      ∃ ph', PollStep n t (firstBits a w) (firstBits b w) ph (firstBits a w') (firstBits b w') ph' ∧ Polls L a b n w' ph' := by
    intro cont p e hl hps
    refine ⟨_, hps, ?_, ?_, ?_, h.poll.step ht hps⟩
    · rw [e]; exact hl
    · rw [e]; exact h.th_step p
    · intro u hu
      rw [e]
      dsimp only
      rw [if_neg (by omega)]; exact h.out u hu
  cases hp : ph t with
  | fresh =>
    rw [hp, booth_fresh] at hth
    have e := hs.of_copy hth
    refine fin e (fun r => ?_) ?_
    · split
      · rename_i e; rw [e, h.len, hB.same t ht]
      · exact h.len r
    · have e1 : firstBits a w' = firstBits a w := by
        rw [e]; funext i
        simp only [firstBits, if_neg (hB.apart i t)]
      have e2 : firstBits b w' = fun z => if z = t then firstBits a w t else firstBits b w z := by
        rw [e]; funext i
        by_cases hi : i = t
        · simp [firstBits, hi]
        · have : b i ≠ b t := fun x => hi (hB.injB _ _ x)
          simp [firstBits, hi, this]
      rw [e1, e2]; exact .move hp
  | clear j =>
    obtain ⟨-, hj⟩ := h.poll.clear t j ht hp
    rw [hp, booth_clear hj] at hth
    have hi : 0 < 8 * (w.cont (a j)).length := by have := hB.pos j hj; rw [h.len]; omega
    have e := hs.of_write hth hi
    have hps := putBit_spec (w.cont (a j)) 0 false hi
    refine fin e (fun r => ?_) ?_
    · split
      · rename_i e; rw [e, hps.1, h.len]
      · exact h.len r
    · have e1 : firstBits a w' = fun z => if z = j then false else firstBits a w z := by
        rw [e]; funext i
        by_cases hi : i = j
        · simp [firstBits, hi, hps.2]
        · have : a i ≠ a j := fun x => hi (hB.injA _ _ x)
          simp [firstBits, hi, this]
      have e2 : firstBits b w' = firstBits b w := by
        rw [e]; funext i
        simp only [firstBits, if_neg fun x => hB.apart j i (Eq.symm x)]
      rw [e1, e2]; exact .wipe hp
  | look i =>
    obtain ⟨hi, -⟩ := h.poll.look t i ht hp
    obtain ⟨i, rfl⟩ : ∃ k, i = k + 1 := ⟨i - 1, by omega⟩
    rw [hp, booth_look] at hth
    have e := hs.of_read hth
    refine fin e h.len ?_
    have e1 : firstBits a w' = firstBits a w := by rw [e]; rfl
    have e2 : firstBits b w' = firstBits b w := by rw [e]; rfl
    rw [e1, e2]; exact .see hp
  | over v =>
    rw [hp] at hth
    exact (hs.of_done hth).elim

/-- A voter that has not decided can go on. -/
theorem Polls.progress (hB : Ballot L a b n) {w : Machine (Option Nat)} {ph : Nat → Booth} (h : Polls L a b n w ph) {t : Nat} (ht : t < n) :
    (∃ v, ph t = .over v) ∨ ∃ w', Machine.Step t w w' := by
  have hth := h.th t ht
  cases hp : ph t with
  | fresh =>
    rw [hp, booth_fresh] at hth
    exact .inr ⟨⟨_, _⟩, .copy hth (upd_mk _ _ _) (upd_mk _ _ _)⟩
  | clear j =>
    obtain ⟨-, hj⟩ := h.poll.clear t j ht hp
    rw [hp, booth_clear hj] at hth
    exact .inr ⟨_, Machine.wr hth (by have := hB.pos j hj; rw [h.len]; omega)⟩
  | look i =>
    obtain ⟨hi, -⟩ := h.poll.look t i ht hp
    obtain ⟨i, rfl⟩ : ∃ k, i = k + 1 := ⟨i - 1, by omega⟩
    rw [hp, booth_look] at hth
    exact .inr ⟨_, Machine.rd hth⟩
  | over v => exact .inl ⟨v, rfl⟩

theorem Spec.Machine.Step.later {α : Type} {w w' : Machine α} {t : Nat} (hs : Machine.Step t w w') :
    Later (w'.th t) (w.th t) ∧ ∀ u, u ≠ t → w'.th u = w.th u := by
  cases hs with
  | read e hc hu => rw [e, hu.1]; exact ⟨.read _, hu.2⟩
  | write e hb hc hu => rw [e, hu.1]; exact ⟨.write, hu.2⟩
  | readAll e hc hu => rw [e, hu.1]; exact ⟨.readAll _, hu.2⟩
  | copy e hc hu => rw [e, hu.1]; exact ⟨.copy, hu.2⟩

/-- From everywhere the end can be reached; who has won keeps winning. -/
theorem Polls.ends (hB : Ballot L a b n) {v : Nat} {w : Machine (Option Nat)} {ph : Nat → Booth} (h : Polls L a b n w ph)
    (hv : Winner n v (firstBits a w) (firstBits b w) ph) :
    ∃ w' ph', Machine.Reach w w' ∧ Polls L a b n w' ph' ∧ Winner n v (firstBits a w') (firstBits b w') ph' ∧
      ∀ t, t < n → ∃ u, ph' t = .over u := by
  have hacc := acc_laterAt n w.th
  generalize hf : w.th = f at hacc
  induction hacc generalizing w ph with
  | intro f _ ih =>
    by_cases hE : ∀ t, t < n → ∃ u, ph t = .over u
    · exact ⟨w, ph, .refl, h, hv, hE⟩
    · simp only [Classical.not_forall] at hE
      obtain ⟨t, ht, hnt⟩ := hE
      rcases h.progress hB ht with hh | ⟨w1, hs⟩
      · exact absurd hh hnt
      · obtain ⟨ph1, hps, h1⟩ := h.step hB hs
        obtain ⟨g1, g2⟩ := hs.later
        obtain ⟨w', ph', r, rest⟩ := ih w1.th ⟨t, ht, by rw [← hf]; exact g1, by rw [← hf]; exact g2⟩ h1 (hv.step hps) rfl
        exact ⟨w', ph', .append (.step t .refl hs) r, rest⟩

theorem Polls.reach (hB : Ballot L a b n) {w w' : Machine (Option Nat)} {ph : Nat → Booth} (h : Polls L a b n w ph)
    (hr : Machine.Reach w w') : ∃ ph', Polls L a b n w' ph' := by
  induction hr with
  | refl => exact ⟨ph, h⟩
  | step t _ hs ih =>
    obtain ⟨ph1, h1⟩ := ih
    obtain ⟨ph2, -, h2⟩ := h1.step hB hs
    exact ⟨ph2, h2⟩

/-- Any voter can win, if it is quick. -/
theorem Polls.quick (hB : Ballot L a b n) {v : Nat} (hv : v < n) {w : Machine (Option Nat)} {ph : Nat → Booth} (h : Polls L a b n w ph)
    (hp : ∀ t, ph t = .fresh) (hx : firstBits a w v = true) :
    ∃ w' ph', Machine.Reach w w' ∧ Polls L a b n w' ph' ∧ Winner n v (firstBits a w') (firstBits b w') ph' := by
  have key : ∀ m, v + 1 + m ≤ n → ∃ w' ph', Machine.Reach w w' ∧ Polls L a b n w' ph' ∧ ph' v = Booth.next n (v + 1 + m) ∧
      firstBits b w' v = true ∧ (∀ k, v < k → k < n → firstBits b w' k = false) ∧
      ∀ k, v < k → k < v + 1 + m → firstBits a w' k = false := by
    intro m
    induction m with
    | zero =>
      intro _
      rcases h.progress hB hv with ⟨u, hu⟩ | ⟨w1, hs⟩
      · rw [hp v] at hu; cases hu
      · obtain ⟨ph1, hps, h1⟩ := h.step hB hs
        refine ⟨w1, ph1, .step v .refl hs, h1, ?_⟩
        generalize firstBits a w1 = x1 at hps ⊢
        generalize firstBits b w1 = y1 at hps ⊢
        cases hps with
        | move _ =>
          refine ⟨step1_same, by dsimp only; rw [if_pos rfl]; exact hx, fun k h1 h2 => ?_, fun k h1 h2 => by omega⟩
          dsimp only
          rw [if_neg (by omega)]
          exact h.poll.idle k h2 (by rw [hp k]; exact id)
        | wipe e => rw [hp v] at e; cases e
        | see e => rw [hp v] at e; cases e
    | succ m ih =>
      intro hm
      obtain ⟨w', ph', r, h1, g1, g2, g3, g4⟩ := ih (by omega)
      rw [Booth.next, if_pos (by omega)] at g1
      rcases h1.progress hB hv with ⟨u, hu⟩ | ⟨w1, hs⟩
      · rw [g1] at hu; cases hu
      · obtain ⟨ph1, hps, h2⟩ := h1.step hB hs
        refine ⟨w1, ph1, .step v r hs, h2, ?_⟩
        generalize firstBits a w1 = x1 at hps ⊢
        generalize firstBits b w1 = y1 at hps ⊢
        cases hps with
        | move e => rw [g1] at e; cases e
        | wipe e =>
          rw [g1] at e; cases e
          refine ⟨step1_same, g2, g3, fun k h1 h2 => ?_⟩
          dsimp only
          split
          · rfl
          · exact g4 k h1 (by omega)
        | see e => rw [g1] at e; cases e
  obtain ⟨w', ph', r, h1, g1, g2, g3, g4⟩ := key (n - (v + 1)) (by omega)
  rw [show v + 1 + (n - (v + 1)) = n by omega] at g1 g4
  exact ⟨w', ph', r, h1, by rw [g1]; exact Booth.next_moved _ _, g2, fun k h2 h3 => ⟨g4 k h2 h3, g3 k h2 h3⟩⟩

/-- The `n` voters, and nobody else. -/
def voters (a b : Nat → Nat) (n t : Nat) : Client (Option Nat) := if t < n then voter a b n t else .done none

theorem highest_inside (hB : Ballot L a b n) : (i : Nat) → i ≤ n → Inside L (highest b i)
  | 0, _ => trivial
  | i + 1, h => by
    have h1 := hB.pos i h
    have h2 := hB.same i h
    refine ⟨Nat.le_refl 0, (by show 0 < 8 * L (b i); omega), by decide, fun _ _ _ => .inl trivial, fun v => ?_⟩
    dsimp only
    split
    · exact highest_inside hB i (by omega)
    · trivial

theorem clearFrom_inside (hB : Ballot L a b n) {k : Client (Option Nat)} (hk : Inside L k) : (m j : Nat) → j + m ≤ n →
    Inside L (clearFrom a j m k)
  | 0, _, _ => hk
  | m + 1, j, h => by
    have h1 := hB.pos j (by omega)
    exact ⟨Nat.le_refl 0, (by show 0 < 8 * L (a j); omega), fun _ _ _ => trivial, clearFrom_inside hB hk m (j + 1) (by omega)⟩

theorem voters_inside (hB : Ballot L a b n) (t : Nat) : Inside L (voters a b n t) := by
  unfold voters
  split
  · rename_i ht
    exact ⟨fun e => hB.apart t t e.symm, (hB.same t ht).symm, fun _ _ => trivial, fun _ _ => .inl trivial,
      clearFrom_inside hB (highest_inside hB n (Nat.le_refl _)) _ _ (by omega)⟩
  · trivial

theorem voters_replaces {Rel : Nat → Nat → Prop} (h : ∀ i, Rel (b i) (a i)) (t : Nat) : Replaces Rel (voters a b n t) := by
  have h1 : ∀ i, Replaces Rel (highest b i) := by
    intro i
    induction i with
    | zero => trivial
    | succ i ih =>
      intro v
      dsimp only
      split
      · exact ih
      · trivial
  have h2 : ∀ m j, Replaces Rel (clearFrom a j m (highest b n)) := by
    intro m
    induction m with
    | zero => intro j; exact h1 n
    | succ m ih => intro j; exact ih (j + 1)
  unfold voters
  split
  · exact ⟨h t, h2 _ _⟩
  · trivial

/-- C127.  With `replace` any number of threads can decide: thread `t` makes `b t`, whose first bit is 0, a copy of `a t`,
whose first bit is 1, clears the first bits of all `a` above `t`, and takes the highest `b` with a 1.  They never deadlock
and always end; all return the same, and it is the number of one of them; and every one of them can be it. -/
theorem C127_any_number (chk : Bool) (m : Store) (hm : Fresh L m) (hB : Ballot L a b n)
    (hA : ∀ i, i < n → netBit (m (a i)).bytes 0 = true) (hZ : ∀ i, i < n → netBit (m (b i)).bytes 0 = false) (hpos : 0 < n) :
    (∀ x, Sys.Reach ⟨m, fun t => (voters a b n t).prog chk⟩ x → ¬ Stuck x) ∧
    (¬ ∃ (σ : Nat → Sys (Option Nat)) (sch : Nat → Nat), σ 0 = ⟨m, fun t => (voters a b n t).prog chk⟩ ∧
      ∀ i, (σ i).step (sch i) = some (σ (i + 1))) ∧
    (∀ x, Sys.Reach ⟨m, fun t => (voters a b n t).prog chk⟩ x → x.Final → ∃ v, v < n ∧ ∀ t, t < n → x.th t = .ret (some v)) ∧
    ∀ v, v < n → ∃ x, Sys.Reach ⟨m, fun t => (voters a b n t).prog chk⟩ x ∧ x.Final ∧ ∀ t, t < n → x.th t = .ret (some v) := by
  classical
  have hin := voters_inside hB
  obtain ⟨f1, f2, -⟩ := C66_ordered_replace chk m (fun r => (hm r).1) (voters a b n) (fun z => if ∃ i, z = b i then 1 else 0)
    (voters_replaces fun i => by
      rw [if_neg fun ⟨j, e⟩ => hB.apart i j e, if_pos ⟨i, rfl⟩]; omega) n (fun t ht => ⟨none, if_neg (by omega)⟩)
  have h0 : Polls L a b n (⟨fun r => (m r).bytes, fun t => micro (voters a b n t)⟩ : Machine (Option Nat)) (fun _ => .fresh) := by
    refine ⟨fun r => (hm r).2.2, fun t ht => ?_, fun t ht => ?_, fun t ht _ => hZ t ht, fun i hi hx => ?_, fun q k _ _ h => h.elim,
      fun t _ h _ => h.elim, fun t j _ h => (nomatch h), fun t j _ h => (nomatch h), fun t j _ h => (nomatch h)⟩
    · dsimp only [voters]; rw [if_pos ht]; rfl
    · dsimp only [voters]; rw [if_neg (by omega)]; rfl
    · have := hA i hi
      rw [show netBit (m (a i)).bytes 0 = false from hx] at this; cases this
  refine ⟨f1, f2, fun x hx hf => ?_, fun v hv => ?_⟩
  · obtain ⟨res, hres⟩ := all_returned chk m hm _ hin hx hf
    have hw := (C65_atomic_bits chk m hm _ hin res fun r => (x.mem r).bytes).1 ⟨x, hx, hres, fun _ => rfl⟩
    obtain ⟨ph, h⟩ := h0.reach hB hw
    have all : ∀ t, t < n → ∃ u, ph t = .over u ∧ res t = some u := by
      intro t ht
      have e := h.th t ht
      dsimp only at e
      rcases h.progress hB ht with ⟨u, hu⟩ | ⟨w', hs⟩
      · rw [hu] at e; exact ⟨u, hu, Micro.done.inj e⟩
      · exact (hs.of_done rfl).elim
    obtain ⟨v, hv, -⟩ := all 0 hpos
    refine ⟨v, (h.poll.over 0 v hpos hv).1, fun t ht => ?_⟩
    obtain ⟨u, hu, hr⟩ := all t ht
    rw [hres t, hr, h.poll.same ht hpos hu hv]
  · obtain ⟨w1, ph1, r1, h1, k1⟩ := h0.quick hB hv (fun _ => rfl) (hA v hv)
    obtain ⟨w2, ph2, r2, h2, k2, hE⟩ := h1.ends hB k1
    have hw2 : w2 = ⟨w2.cont, fun t => .done (if t < n then some v else none)⟩ := by
      obtain ⟨wc, wt⟩ := w2
      simp only [Machine.mk.injEq, true_and]
      funext t
      split
      · rename_i ht
        obtain ⟨u, hu⟩ := hE t ht
        have := h2.th t ht
        rw [hu, k2.wins h2.poll hv ht hu] at this
        exact this
      · exact h2.out t (by omega)
    have hr := r1.append r2
    rw [hw2] at hr
    obtain ⟨x, x1, x2, -⟩ := (C65_atomic_bits chk m hm _ hin _ w2.cont).2 hr
    exact ⟨x, x1, fun t => by rw [x2 t]; trivial, fun t ht => by rw [x2 t, if_pos ht]⟩

end

/-! ## Non-vacuity -/

/-- The even headers start with a 1, the odd ones with a 0. -/
def urn : Store := fun r => ⟨[if r % 2 = 0 then 0x80#8 else 0x00#8], false, none⟩

example := C127_any_number (L := fun _ => 1) (a := fun i => 2 * i) (b := fun i => 2 * i + 1) (n := 5) true urn
  (fun _ => ⟨rfl, rfl, rfl⟩) ⟨fun i j h => by omega, fun i j h => by omega,
    fun i j h => by omega, fun _ _ => rfl, fun _ _ => by decide⟩
  (fun i _ => by simp only [urn, Nat.mul_mod_right]; rfl)
  (fun i _ => by simp only [urn, show (2 * i + 1) % 2 = 1 by omega]; rfl) (by decide)

end PacketRs
