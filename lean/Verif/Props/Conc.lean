import Verif.Lemmas.Term
import Verif.Lemmas.Attain
import Verif.Lemmas.Split
import Verif.Props.Fields
/-!
# Threads sharing header storage: C50, C51, C52 and the two-thread part of C54

A system starts with threads at the beginning of their programs and unlocked, unpoisoned storage.
`Reach` quantifies over all schedules of single lock / load / store / unlock steps.
-/
namespace PacketRs
open Spec
open Prog hiding bind

section C50
variable {α : Type}

/-- **C50** (any calls): threads without data races do not interfere.  When all have finished, every
thread has returned what it returns when running alone on the initial storage, every bit it may write
holds what the thread leaves there when running alone, and all other bits are unchanged. -/
theorem C50_no_interference (chk : Bool) {L : Nat → Nat} {Wr Rd : Nat → Bits} (hrace : RaceFree Wr Rd)
    (m : Store) (hm : Fresh L m) (c : Nat → Client α) (hc : ∀ t, Within L (Wr t) (Rd t) (c t))
    (s : Sys α) (hr : Sys.Reach ⟨m, fun t => (c t).prog chk⟩ s) (hs : s.Final) :
    Fresh L s.mem ∧
    (∀ t, ∃ a, s.th t = .ret a ∧ (run t ((c t).prog chk) m).1 = .ok a ∧
      ∀ r i, Wr t r i → netBit (s.mem r).bytes i = netBit ((run t ((c t).prog chk) m).2 r).bytes i) ∧
    ∀ r i, (∀ t, ¬ Wr t r i) → netBit (s.mem r).bytes i = netBit (m r).bytes i := by
  have ha := Sys.treach_of_reach hm.free (fun t => txn_client chk (c t)) hr hs
  have h := Apart.treach hrace hm (fun t => resp_client chk (c t) (hc t)) ha
  refine ⟨h.fresh, fun t => ?_, h.same⟩
  obtain ⟨mt, h1, h2, h3⟩ := h.solo t
  have hresp := h.resp t
  have hfin := hs t
  generalize hp : s.th t = p at hresp hfin h2
  cases hresp with
  | ret a =>
    refine ⟨a, rfl, ?_, ?_⟩
    · rw [← h2]; rfl
    · intro r i hw
      rw [← h2]
      exact (h3 r i (.inl hw)).symm
  | sect => exact hfin.elim
  | repl => exact hfin.elim

/-- **C50** (one outcome): a race-free system has at most one terminated state. -/
theorem C50_deterministic (chk : Bool) {L : Nat → Nat} {Wr Rd : Nat → Bits} (hrace : RaceFree Wr Rd)
    (m : Store) (hm : Fresh L m) (c : Nat → Client α) (hc : ∀ t, Within L (Wr t) (Rd t) (c t))
    (s s' : Sys α) (hr : Sys.Reach ⟨m, fun t => (c t).prog chk⟩ s) (hs : s.Final)
    (hr' : Sys.Reach ⟨m, fun t => (c t).prog chk⟩ s') (hs' : s'.Final) : s = s' := by
  obtain ⟨f1, t1, o1⟩ := C50_no_interference chk hrace m hm c hc s hr hs
  obtain ⟨f2, t2, o2⟩ := C50_no_interference chk hrace m hm c hc s' hr' hs'
  have hth : s.th = s'.th := by
    funext t
    obtain ⟨a, ha, ra, -⟩ := t1 t
    obtain ⟨b, hb, rb, -⟩ := t2 t
    rw [ra] at rb; cases rb
    rw [ha, hb]
  have hmem : s.mem = s'.mem := by
    funext r
    have hb : (s.mem r).bytes = (s'.mem r).bytes := by
      refine netBit_inj (f1 r).2.2 (f2 r).2.2 fun i _ => ?_
      by_cases hw : ∃ t, Wr t r i
      · obtain ⟨t, hw⟩ := hw
        obtain ⟨_, _, _, h1⟩ := t1 t
        obtain ⟨_, _, _, h2⟩ := t2 t
        rw [h1 r i hw, h2 r i hw]
      · have hno : ∀ t, ¬ Wr t r i := fun t ht => hw ⟨t, ht⟩
        rw [o1 r i hno, o2 r i hno]
    have a := f1 r
    have b := f2 r
    cases e1 : s.mem r with
    | mk b1 p1 o1 =>
      cases e2 : s'.mem r with
      | mk b2 p2 o2 =>
        rw [e1] at hb a
        rw [e2] at hb b
        simp only at hb a b
        rw [hb, a.1, a.2.1, b.1, b.2.1]
  cases s; cases s'; cases hth; cases hmem; rfl

/-- **C50** (termination, racing or not): whatever accessors other than `replace` finitely many threads call, no schedule is
infinite, no reachable state is stuck unless all threads have finished, and some schedule finishes. -/
theorem C50_always_ends (chk : Bool) (m : Store) (hm : ∀ r, (m r).owner = none) (c : Nat → Client α) (n : Nat)
    (hn : ∀ t, n ≤ t → ∃ a, c t = .done a) (hnr : ∀ t, NoReplace (c t)) :
    (¬ ∃ (σ : Nat → Sys α) (sch : Nat → Nat), σ 0 = ⟨m, fun t => (c t).prog chk⟩ ∧
      ∀ i, (σ i).step (sch i) = some (σ (i + 1))) ∧
    (∀ s, Sys.Reach ⟨m, fun t => (c t).prog chk⟩ s → (∀ t, s.step t = none) → s.Final) ∧
    ∃ s, Sys.Reach ⟨m, fun t => (c t).prog chk⟩ s ∧ s.Final := by
  have hfin : ∀ t, n ≤ t → ((⟨m, fun t => (c t).prog chk⟩ : Sys α).th t).Finished := by
    intro t ht
    obtain ⟨a, ha⟩ := hn t ht
    simp only [ha]; trivial
  have hstuck : ∀ s, Sys.Reach ⟨m, fun t => (c t).prog chk⟩ s → (∀ t, s.step t = none) → s.Final := by
    intro s hr hst
    obtain ⟨a, -, hsim⟩ := Sys.Sim.reach (s := ⟨m, fun t => (c t).prog chk⟩) hm (fun t => acc_client chk (c t) (hnr t)) hr
    refine Classical.byContradiction fun hnf => ?_
    obtain ⟨t, c', h⟩ := hsim.progress hnf
    rw [hst t] at h; cases h
  refine ⟨Sys.no_infinite hfin, hstuck, ?_⟩
  obtain ⟨s, hr, hst⟩ := Sys.exists_stuck hfin
  exact ⟨s, hr, hstuck s hr hst⟩

/-- **C50** (termination, race-free): finitely many threads without data races that may also call `replace`
cannot deadlock: no schedule is infinite, no reachable state is stuck unless all threads have finished,
and some schedule finishes.  (With races `replace` can deadlock, `C54_cross_replace_deadlock`.) -/
theorem C50_race_free_ends (chk : Bool) {L : Nat → Nat} (hL : ∀ r, 0 < L r) {Wr Rd : Nat → Bits} (hrace : RaceFree Wr Rd)
    (m : Store) (hm : Fresh L m) (c : Nat → Client α) (hc : ∀ t, Within L (Wr t) (Rd t) (c t)) (n : Nat)
    (hn : ∀ t, n ≤ t → ∃ a, c t = .done a) :
    (¬ ∃ (σ : Nat → Sys α) (sch : Nat → Nat), σ 0 = ⟨m, fun t => (c t).prog chk⟩ ∧
      ∀ i, (σ i).step (sch i) = some (σ (i + 1))) ∧
    (∀ s, Sys.Reach ⟨m, fun t => (c t).prog chk⟩ s → (∀ t, s.step t = none) → s.Final) ∧
    ∃ s, Sys.Reach ⟨m, fun t => (c t).prog chk⟩ s ∧ s.Final := by
  have hfin : ∀ t, n ≤ t → ((⟨m, fun t => (c t).prog chk⟩ : Sys α).th t).Finished := by
    intro t ht
    obtain ⟨a, ha⟩ := hn t ht
    simp only [ha]; trivial
  have hstuck : ∀ s, Sys.Reach ⟨m, fun t => (c t).prog chk⟩ s → (∀ t, s.step t = none) → s.Final := by
    intro s hr hst
    obtain ⟨a, ha, hsim⟩ := Sys.TSim.reach (s := ⟨m, fun t => (c t).prog chk⟩) hm.free (fun t => txn_client chk (c t)) hr
    have hap := Apart.treach hrace hm (fun t => resp_client chk (c t) (hc t)) ha
    refine Classical.byContradiction fun hnf => ?_
    obtain ⟨t, c', h⟩ := hap.progress hL hrace hsim hnf
    rw [hst t] at h; cases h
  refine ⟨Sys.no_infinite hfin, hstuck, ?_⟩
  obtain ⟨s, hr, hst⟩ := Sys.exists_stuck hfin
  exact ⟨s, hr, hstuck s hr hst⟩

end C50

section calls
variable {L : Nat → Nat}

theorem call_final {chk : Bool} {calls : Nat → Call} (hok : ∀ t, (calls t).Ok L) {m : Store} (hm : Fresh L m)
    {s : Sys (Option U64)} (hr : Sys.Reach ⟨m, fun t => (calls t).client.prog chk⟩ s) (hs : s.Final) :
    ∃ left, Mixed L chk calls m s left :=
  Mixed.areach hok hm (Sys.areach_of_reach hm.free (fun _ => acc_client chk _ (noReplace_call _)) hr hs)

/-- **C50** (setters): any number of threads each set one field, the fields that belong to the same
storage being pairwise disjoint.  When all have finished, every field holds its value truncated to the
field's width, all other bits are unchanged, every setter has returned and nothing is poisoned. -/
theorem C50_disjoint_setters (chk : Bool) (m : Store) (hm : Fresh L m) (calls : Nat → Call) (hok : ∀ t, (calls t).Ok L)
    (hset : ∀ t r f, calls t ≠ .get r f)
    (hdisj : ∀ t u, t ≠ u → ∀ r f v g w, calls t = .set r f v → calls u = .set r g w → f.Disjoint g)
    (s : Sys (Option U64)) (hr : Sys.Reach ⟨m, fun t => (calls t).client.prog chk⟩ s) (hs : s.Final) :
    (∀ t, s.th t = .ret none) ∧ Fresh L s.mem ∧
    (∀ t r f v, calls t = .set r f v → f.width ≤ 64 →
      fieldVal (s.mem r).bytes f.lo f.hi = v.toNat % 2 ^ f.width) ∧
    ∀ r i, (∀ t f v, calls t = .set r f v → ¬ (f.lo ≤ i ∧ i ≤ f.hi)) →
      netBit (s.mem r).bytes i = netBit (m r).bytes i := by
  obtain ⟨left, h⟩ := call_final hok hm hr hs
  obtain ⟨hb, hth⟩ := h.final hok hs
  refine ⟨fun t => ?_, h.fresh, ?_, ?_⟩
  · have := hth t
    cases e : calls t with
    | get r f => exact absurd e (hset t r f)
    | set r f v => rw [e] at this; exact this
    | rest => rw [e] at this; exact this
  · intro t r f v e hw
    have hokt := hok t
    rw [e] at hokt
    have hbit : ∀ i, f.lo ≤ i → i ≤ f.hi → netBit (s.mem r).bytes i = v.getLsbD (f.hi - i) := by
      intro i h1 h2
      have hwt : (calls t).writes r i = some (v.getLsbD (f.hi - i)) := by
        rw [e]; simp only [Call.writes, h1, h2, and_self, if_true]
      rcases hb r i with ⟨u, hu⟩ | ⟨-, hno⟩
      · by_cases hut : u = t
        · subst hut
          rw [hwt] at hu
          simp only [Option.some.injEq] at hu
          exact hu.symm
        · cases eu : calls u with
          | get r' g => exact absurd eu (hset u r' g)
          | rest => rw [eu] at hu; cases hu
          | set r' g w =>
            rw [eu] at hu
            simp only [Call.writes] at hu
            split at hu
            · next hc =>
              obtain ⟨rfl, h3, h4⟩ := hc
              have := hdisj t u (Ne.symm hut) r f v g w e eu
              unfold Field.Disjoint at this
              omega
            · cases hu
      · rw [hno t] at hwt; cases hwt
    obtain ⟨ho1, ho2⟩ := hokt
    have hl := (h.fresh r).2.2
    apply Nat.eq_of_testBit_eq
    intro j
    rw [testBit_fieldVal _ _ _ (by omega), Nat.testBit_mod_two_pow, BitVec.testBit_toNat]
    unfold Field.width at hw ⊢
    by_cases hj : j < f.hi - f.lo + 1
    · rw [hbit _ (by omega) (by omega), show f.hi - (f.hi - j) = j from by omega]
      have : j < f.hi + 1 - f.lo := by omega
      simp [this, hj]
    · have : ¬ j < f.hi + 1 - f.lo := by omega
      simp [this, hj]
  · intro r i hno
    rcases hb r i with ⟨u, hu⟩ | ⟨h1, -⟩
    · cases eu : calls u with
      | get r' g => exact absurd eu (hset u r' g)
      | rest => rw [eu] at hu; cases hu
      | set r' g w =>
        rw [eu] at hu
        simp only [Call.writes] at hu
        split at hu
        · next hc =>
          obtain ⟨rfl, h3, h4⟩ := hc
          exact absurd ⟨h3, h4⟩ (hno u g w eu)
        · cases hu
    · exact h1

/-- **C51**: any number of threads set fields of any overlap (or read fields).  When all have finished,
every bit that some setter covers holds the bit of one of the setters covering it; every other bit is
unchanged; nothing panicked. -/
theorem C51_per_bit (chk : Bool) (m : Store) (hm : Fresh L m) (calls : Nat → Call) (hok : ∀ t, (calls t).Ok L)
    (s : Sys (Option U64)) (hr : Sys.Reach ⟨m, fun t => (calls t).client.prog chk⟩ s) (hs : s.Final) :
    (∀ t, ∃ o, s.th t = .ret o) ∧ Fresh L s.mem ∧
    ∀ r i, (∃ t, (calls t).writes r i = some (netBit (s.mem r).bytes i)) ∨
      ((∀ t, (calls t).writes r i = none) ∧ netBit (s.mem r).bytes i = netBit (m r).bytes i) := by
  obtain ⟨left, h⟩ := call_final hok hm hr hs
  obtain ⟨hb, hth⟩ := h.final hok hs
  refine ⟨fun t => ?_, h.fresh, fun r i => (hb r i).imp id And.symm⟩
  have := hth t
  cases e : calls t with
  | get r f => rw [e] at this; obtain ⟨v, hv, -⟩ := this; exact ⟨_, hv⟩
  | set r f v => rw [e] at this; exact ⟨_, this⟩
  | rest => rw [e] at this; exact ⟨_, this⟩

/-- **C51** (exactly): for finitely many setters, the contents some schedule can end with are exactly
the per-bit mixtures: each covered bit taken from any of the setters covering it, independently. -/
theorem C51_exactly (chk : Bool) (m : Store) (hm : Fresh L m) (calls : Nat → Call) (hok : ∀ t, (calls t).Ok L)
    (hset : ∀ t r f, calls t ≠ .get r f) (n : Nat) (hn : ∀ t, n ≤ t → calls t = .rest) (d : Nat → Bytes) :
    (∃ s, Sys.Reach ⟨m, fun t => (calls t).client.prog chk⟩ s ∧ s.Final ∧ ∀ r, (s.mem r).bytes = d r) ↔
    ∀ r, (d r).length = L r ∧ ∀ i, i < 8 * L r → (∃ t, (calls t).writes r i = some (netBit (d r) i)) ∨
      ((∀ t, (calls t).writes r i = none) ∧ netBit (d r) i = netBit (m r).bytes i) := by
  constructor
  · rintro ⟨s, hr, hs, hd⟩ r
    obtain ⟨-, h2, h3⟩ := C51_per_bit chk m hm calls hok s hr hs
    rw [← hd]
    exact ⟨(h2 r).2.2, fun i _ => h3 r i⟩
  · intro h
    have hex : ∀ r i, ∃ u, i < 8 * L r → ((∃ t, (calls t).writes r i ≠ none) → (calls u).writes r i = some (netBit (d r) i)) := by
      intro r i
      by_cases hi : i < 8 * L r
      · rcases (h r).2 i hi with ⟨t, ht⟩ | ⟨h1, -⟩
        · exact ⟨t, fun _ _ => ht⟩
        · exact ⟨0, fun _ ⟨t, ht⟩ => absurd (h1 t) ht⟩
      · exact ⟨0, fun h => absurd h hi⟩
    let ch : Nat → Nat → Nat := fun r i => (hex r i).choose
    have hch : ∀ r i, i < 8 * L r → (∃ t, (calls t).writes r i ≠ none) → (calls (ch r i)).writes r i = some (netBit (d r) i) :=
      fun r i => (hex r i).choose_spec
    have hlt : ∀ t r i, (calls t).writes r i ≠ none → i < 8 * L r := by
      intro t r i hw
      have hokt := hok t
      cases e : calls t with
      | get r' g => rw [e] at hw; exact absurd rfl hw
      | rest => rw [e] at hw; exact absurd rfl hw
      | set r' g w =>
        rw [e] at hw hokt
        simp only [Call.writes] at hw
        split at hw
        · next hc =>
          obtain ⟨rfl, h3, h4⟩ := hc
          have := hokt.2
          omega
        · exact absurd rfl hw
    obtain ⟨s, hr, hs, hf, hb⟩ := attain (chk := chk) hok hset hn ch
      (fun x i t ht => by rw [hch x i (hlt t x i ht) ⟨t, ht⟩]; simp) hm
    refine ⟨s, (Sys.reach_of_areach hm.free hr).1, hs, fun r => ?_⟩
    refine netBit_inj (hf r).2.2 (h r).1 fun i hi => ?_
    rw [hb]
    rcases (h r).2 i hi with ⟨t, ht⟩ | ⟨h1, h2⟩
    · rw [hch r i hi ⟨t, by rw [ht]; simp⟩]; rfl
    · rw [h1, h2]; rfl

/-- **C51** (lost and mixed values): two threads setting the same field to values that differ in at
least two bits of the field can leave a value that neither wrote. -/
theorem C51_neither (chk : Bool) (m : Store) (hm : Fresh L m) (r : Nat) (f : Field) (u v : U64)
    (hok : f.lo ≤ f.hi ∧ f.hi < 8 * L r) (i j : Nat) (hi : f.lo ≤ i ∧ i ≤ f.hi) (hj : f.lo ≤ j ∧ j ≤ f.hi) (hij : i ≠ j)
    (hdi : u.getLsbD (f.hi - i) ≠ v.getLsbD (f.hi - i)) (hdj : u.getLsbD (f.hi - j) ≠ v.getLsbD (f.hi - j)) :
    ∃ s, Sys.Reach ⟨m, fun t => (match t with
        | 0 => Call.set r f u
        | 1 => Call.set r f v
        | _ => Call.rest).client.prog chk⟩ s ∧ s.Final ∧
      netBit (s.mem r).bytes i = u.getLsbD (f.hi - i) ∧ netBit (s.mem r).bytes j = v.getLsbD (f.hi - j) ∧
      (∃ k, f.lo ≤ k ∧ k ≤ f.hi ∧ netBit (s.mem r).bytes k ≠ u.getLsbD (f.hi - k)) ∧
      (∃ k, f.lo ≤ k ∧ k ≤ f.hi ∧ netBit (s.mem r).bytes k ≠ v.getLsbD (f.hi - k)) := by
  let calls : Nat → Call := fun t => match t with
    | 0 => .set r f u
    | 1 => .set r f v
    | _ => .rest
  have hokc : ∀ t, (calls t).Ok L := by
    intro t
    match t with
    | 0 => exact hok
    | 1 => exact hok
    | _ + 2 => trivial
  have hwr : ∀ x k t, (calls t).writes x k ≠ none → x = r ∧ f.lo ≤ k ∧ k ≤ f.hi := by
    intro x k t ht
    match t with
    | 0 => simp only [calls, Call.writes] at ht; split at ht; assumption; exact absurd rfl ht
    | 1 => simp only [calls, Call.writes] at ht; split at ht; assumption; exact absurd rfl ht
    | _ + 2 => exact absurd rfl ht
  obtain ⟨s, hr, hs, hf, hb⟩ := attain (chk := chk) (calls := calls) hokc (by
      intro t r' f'
      match t with
      | 0 => intro h; cases h
      | 1 => intro h; cases h
      | _ + 2 => intro h; cases h) (n := 2) (by
      intro t ht
      match t, ht with
      | _ + 2, _ => rfl) (fun _ k => if k = i then 0 else 1) (by
      intro x k t ht
      have hc := hwr x k t ht
      by_cases hk : k = i
      · simp only [hk, if_true, calls, Call.writes]
        rw [if_pos (by rw [← hk]; exact hc)]; simp
      · simp only [hk, if_false, calls, Call.writes]
        rw [if_pos hc]; simp) hm
  have hbi : netBit (s.mem r).bytes i = u.getLsbD (f.hi - i) := by
    rw [hb]; simp only [if_true, calls, Call.writes, hi, and_self, Option.getD_some]
  have hbj : netBit (s.mem r).bytes j = v.getLsbD (f.hi - j) := by
    rw [hb]; simp only [if_neg (Ne.symm hij), calls, Call.writes, hj, and_self, if_true, Option.getD_some]
  refine ⟨s, (Sys.reach_of_areach hm.free hr).1, hs, hbi, hbj, ⟨j, hj.1, hj.2, ?_⟩, ⟨i, hi.1, hi.2, ?_⟩⟩
  · rw [hbj]; exact Ne.symm hdj
  · rw [hbi]; exact hdi

/-- **C52** (any number of setters and getters, any overlap): a getter that runs concurrently with
setters returns a value each bit of which is the bit in the initial contents or the bit some setter
writes there; the bits beyond the field's width are zero. -/
theorem C52_no_invented_bits (chk : Bool) (m : Store) (hm : Fresh L m) (calls : Nat → Call) (hok : ∀ t, (calls t).Ok L)
    (s : Sys (Option U64)) (hr : Sys.Reach ⟨m, fun t => (calls t).client.prog chk⟩ s) (hs : s.Final)
    (t r : Nat) (f : Field) (ht : calls t = .get r f) :
    ∃ x, s.th t = .ret (some x) ∧ x.toNat < 2 ^ f.width ∧ ∀ j, j < f.width →
      x.getLsbD j = netBit (m r).bytes (f.hi - j) ∨ ∃ u, (calls u).writes r (f.hi - j) = some (x.getLsbD j) := by
  obtain ⟨left, h⟩ := call_final hok hm hr hs
  obtain ⟨-, hth⟩ := h.final hok hs
  have := hth t
  rw [ht] at this
  obtain ⟨x, hx, hb⟩ := this
  have hokt := hok t
  rw [ht] at hokt
  have hw : f.width ≤ 64 := by have := hokt.2.2; unfold Field.width; omega
  refine ⟨x, hx, ?_, ?_⟩
  · apply Nat.lt_pow_two_of_testBit
    intro j hj
    rw [BitVec.testBit_toNat]
    by_cases hj64 : j < 64
    · have := hb j hj64
      rw [if_neg (by omega)] at this
      exact this
    · exact BitVec.getLsbD_of_ge _ _ (by omega)
  · intro j hj
    have := hb j (by omega)
    rw [if_pos hj] at this
    exact this

/-- **C52** (exactly): one getter of `g` and one setter of `f` on the same storage.  The values the
getter can return are exactly those obtained by splitting its field at some bit `k`: the bits before
`k` (the more significant ones) are the old ones, the bits from `k` on are the new ones.  In particular
old and new value are possible (`k` after or at the start of the field), and all torn values. -/
theorem C52_exactly (chk : Bool) (m : Store) (hm : Fresh L m) (r : Nat) (f g : Field) (v : U64)
    (hf : f.lo ≤ f.hi ∧ f.hi < 8 * L r) (hg : g.lo ≤ g.hi ∧ g.hi < 8 * L r) (hw : g.width ≤ 64)
    (calls : Nat → Call) (hc : calls = fun t => match t with
      | 0 => .get r g
      | 1 => .set r f v
      | _ => .rest) (x : U64) :
    (∃ s, Sys.Reach ⟨m, fun t => (calls t).client.prog chk⟩ s ∧ s.Final ∧ s.th 0 = .ret (some x)) ↔
    ∃ k, g.lo ≤ k ∧ k ≤ g.hi + 1 ∧ ∀ j, j < 64 → x.getLsbD j = (decide (j < g.width) &&
      if g.hi - j < k then netBit (m r).bytes (g.hi - j)
      else ((Call.set r f v).writes r (g.hi - j)).getD (netBit (m r).bytes (g.hi - j))) := by
  subst hc
  have hg3 : g.hi - g.lo < 64 := by unfold Field.width at hw; omega
  constructor
  · rintro ⟨s, hr, hs, hx⟩
    have ha := Sys.areach_of_reach hm.free (fun t => acc_client chk _ (noReplace_call _)) hr hs
    obtain ⟨n, q, k, a, h⟩ := Torn.areach (L := L) (chk := chk) hm (r := r) (f := f) (g := g) (v := v) (ts := 1) (tg := 0)
      (by omega) hf.1 hf.2 hg.1 hg.2 hg3 rfl (set_prog chk r f v) (get_prog chk r g hg.1) (by
        intro t h1 h2
        match t, h1, h2 with
        | _ + 2, _, _ => rfl) ha
    obtain ⟨y, hy, hb⟩ := torn_final hg.1 hg3 h hs
    rw [hx] at hy
    cases hy
    exact ⟨k, h.hk.1, by have := h.hk.2; omega, hb⟩
  · rintro ⟨k, hk1, hk2, hb⟩
    obtain ⟨s, y, hr, hs, hy, hby⟩ := torn_attained (L := L) (chk := chk) (r := r) (f := f) (g := g) (v := v) (ts := 1) (tg := 0)
      (by omega) hf.1 hf.2 hg.1 hg.2 hg3 (s := ⟨m, fun t => (match t with
        | 0 => Call.get r g
        | 1 => Call.set r f v
        | _ => Call.rest).client.prog chk⟩) hm (set_prog chk r f v) (get_prog chk r g hg.1) (by
        intro t h1 h2
        match t, h1, h2 with
        | _ + 2, _, _ => rfl) k ⟨hk1, hk2⟩
    refine ⟨s, (Sys.reach_of_areach hm.free hr).1, hs, ?_⟩
    rw [hy]
    congr 2
    apply BitVec.eq_of_getLsbD_eq
    intro j hj
    rw [hb j hj, hby j hj]
    rfl

end calls

theorem Sys.step_lock {α : Type} {s : Sys α} {t r : Nat} {k : Prog α} (h : s.th t = .lock r k) (hc : (s.mem r).Clean) :
    s.step t = some ⟨s.mem.put r { s.mem r with owner := some t }, s.setTh t k⟩ := by
  simp only [Sys.step, h, hc.1, hc.2, ne_eq, not_true_eq_false, if_false, Bool.false_eq_true]

/-- **C54** (two threads): `a.replace(&b)` in one thread and `b.replace(&a)` in another, on different
storages, can deadlock: there is a schedule after which each thread holds its own mutex and waits for
the other's; both have already emptied their target; no step is possible. -/
theorem C54_cross_replace_deadlock (m : Store) (a b : Nat) (hab : a ≠ b) (ha : (m a).Clean) (hb : (m b).Clean) :
    ∃ s, Sys.Reach ⟨m, fun t => match t with
        | 0 => replaceP a b
        | 1 => replaceP b a
        | _ => .ret ()⟩ s ∧
      (∀ t, s.step t = none) ∧ ¬ (s.th 0).Finished ∧ ¬ (s.th 1).Finished ∧
      (s.mem a).owner = some 0 ∧ (s.mem b).owner = some 1 ∧ (s.mem a).bytes = [] ∧ (s.mem b).bytes = [] := by
  let K : Nat → Nat → Prog Unit := fun self other =>
    .lock other (.load other fun o => .load self fun map => .store self (map ++ o) (.unlock other (.unlock self (.ret ()))))
  have hrep : ∀ x y, replaceP x y = .lock x (.store x [] (K x y)) := fun x y => rfl
  let th : Prog Unit → Prog Unit → Nat → Prog Unit := fun p q t => match t with
    | 0 => p
    | 1 => q
    | _ => .ret ()
  have set0 : ∀ mm p q p', (⟨mm, th p q⟩ : Sys Unit).setTh 0 p' = th p' q := by
    intro mm p q p'; funext t
    match t with
    | 0 => rfl
    | 1 => rfl
    | _ + 2 => rfl
  have set1 : ∀ mm p q q', (⟨mm, th p q⟩ : Sys Unit).setTh 1 q' = th p q' := by
    intro mm p q p'; funext t
    match t with
    | 0 => rfl
    | 1 => rfl
    | _ + 2 => rfl
  let m1 := m.put a { m a with owner := some 0 }
  let m2 := m1.put a { m1 a with bytes := [] }
  let m3 := m2.put b { m2 b with owner := some 1 }
  let m4 := m3.put b { m3 b with bytes := [] }
  have hm2b : m2 b = m b := by simp only [m2, m1]; rw [put_ne _ _ (Ne.symm hab), put_ne _ _ (Ne.symm hab)]
  have e1 : (⟨m, th (replaceP a b) (replaceP b a)⟩ : Sys Unit).step 0 =
      some ⟨m1, th (.store a [] (K a b)) (replaceP b a)⟩ := by
    exact (Sys.step_lock (hrep a b) ha).trans (by rw [set0])
  have e2 : (⟨m1, th (.store a [] (K a b)) (replaceP b a)⟩ : Sys Unit).step 0 =
      some ⟨m2, th (K a b) (replaceP b a)⟩ := by
    show some (Sys.mk m2 _) = _
    rw [set0]
  have e3 : (⟨m2, th (K a b) (replaceP b a)⟩ : Sys Unit).step 1 =
      some ⟨m3, th (K a b) (.store b [] (K b a))⟩ := by
    exact (Sys.step_lock (hrep b a) (by simp only [hm2b]; exact hb)).trans (by rw [set1])
  have e4 : (⟨m3, th (K a b) (.store b [] (K b a))⟩ : Sys Unit).step 1 =
      some ⟨m4, th (K a b) (K b a)⟩ := by
    show some (Sys.mk m4 _) = _
    rw [set1]
  have hm4a : m4 a = { m a with owner := some 0, bytes := [] } := by
    simp only [m4, m3, m2, m1]
    rw [put_ne _ _ hab, put_ne _ _ hab, put_same, put_same]
  have hm4b : m4 b = { m b with owner := some 1, bytes := [] } := by
    simp only [m4, m3]
    rw [put_same, put_same, hm2b]
  have hfun : (fun t => match t with
        | 0 => replaceP a b
        | 1 => replaceP b a
        | _ => .ret () : Nat → Prog Unit) = th (replaceP a b) (replaceP b a) := by
    funext t
    match t with
    | 0 => rfl
    | 1 => rfl
    | _ + 2 => rfl
  rw [hfun]
  refine ⟨⟨m4, th (K a b) (K b a)⟩, .step 1 (.step 1 (.step 0 (.step 0 .refl e1) e2) e3) e4, ?_, id, id,
    by simp only [hm4a], by simp only [hm4b], by simp only [hm4a], by simp only [hm4b]⟩
  intro t
  match t with
  | 0 => simp [Sys.step, th, K, hm4b]
  | 1 => simp [Sys.step, th, K, hm4a]
  | _ + 2 => rfl

/-! ## Concrete systems -/

/-- All storage holds a default IPv4 header. -/
def sampleStore : Store := fun _ => ⟨(IPv4.new).data, false, none⟩

theorem sampleStore_fresh : Fresh (fun _ => 20) sampleStore := fun _ => ⟨rfl, rfl, rfl⟩

/-- Three threads set different fields of the header in storage 0. -/
def sampleSetters : Nat → Call
  | 0 => .set 0 IPv4.ttl 0x11#64
  | 1 => .set 0 IPv4.identification 0xABCD#64
  | 2 => .set 0 IPv4.frag_startset 0xFFFFF#64
  | _ => .rest

/-- The hypotheses of `C50_disjoint_setters` hold, a final state exists, and it holds the three values. -/
example : ∃ s, Sys.Reach ⟨sampleStore, fun t => (sampleSetters t).client.prog true⟩ s ∧ s.Final ∧
    fieldVal (s.mem 0).bytes IPv4.ttl.lo IPv4.ttl.hi = 0x11 ∧
    fieldVal (s.mem 0).bytes IPv4.identification.lo IPv4.identification.hi = 0xABCD ∧
    fieldVal (s.mem 0).bytes IPv4.frag_startset.lo IPv4.frag_startset.hi = 0x1FFF := by
  obtain ⟨-, -, s, hr, hs⟩ := C50_always_ends true sampleStore (fun r => (sampleStore_fresh r).1)
    (fun t => (sampleSetters t).client) 3 (by
      intro t ht
      match t, ht with
      | _ + 3, _ => exact ⟨none, rfl⟩) (fun t => noReplace_call _)
  obtain ⟨-, -, h, -⟩ := C50_disjoint_setters true sampleStore sampleStore_fresh sampleSetters (by
      intro t
      match t with
      | 0 => exact ⟨by decide, by decide⟩
      | 1 => exact ⟨by decide, by decide⟩
      | 2 => exact ⟨by decide, by decide⟩
      | _ + 3 => trivial) (by
      intro t r f
      match t with
      | 0 => intro h; cases h
      | 1 => intro h; cases h
      | 2 => intro h; cases h
      | _ + 3 => intro h; cases h) (by
      intro t u htu r f v g w h1 h2
      match t, u, htu with
      | 0, 0, h => exact absurd rfl h
      | 1, 1, h => exact absurd rfl h
      | 2, 2, h => exact absurd rfl h
      | 0, 1, _ => cases h1; cases h2; unfold Field.Disjoint; decide
      | 0, 2, _ => cases h1; cases h2; unfold Field.Disjoint; decide
      | 1, 0, _ => cases h1; cases h2; unfold Field.Disjoint; decide
      | 1, 2, _ => cases h1; cases h2; unfold Field.Disjoint; decide
      | 2, 0, _ => cases h1; cases h2; unfold Field.Disjoint; decide
      | 2, 1, _ => cases h1; cases h2; unfold Field.Disjoint; decide
      | _ + 3, _, _ => cases h1
      | _, _ + 3, _ => cases h2) s hr hs
  refine ⟨s, hr, hs, ?_, ?_, ?_⟩
  · exact h 0 0 IPv4.ttl _ rfl (by decide)
  · exact h 1 0 IPv4.identification _ rfl (by decide)
  · exact h 2 0 IPv4.frag_startset _ rfl (by decide)

/-- The hypotheses of `C50_no_interference` hold for two threads that do more than one call each, one
of them acting on what it read: thread 0 copies the ttl of storage 0 into its id field, thread 1
replaces the source address of storage 0, serializes storage 1 and copies it over storage 2. -/
example : ∃ (Wr Rd : Nat → Bits) (c : Nat → Client Bytes), RaceFree Wr Rd ∧
    (∀ t, Within (fun _ => 20) (Wr t) (Rd t) (c t)) ∧
    c 0 = .get 0 IPv4.ttl (fun v => .set 0 IPv4.identification v (.done [])) ∧
    c 1 = .setBytes 0 127 96 [1#8, 2#8, 3#8, 4#8] (.toVec 1 fun b => .replace 2 1 (.done b)) := by
  refine ⟨fun t r i => (t = 0 ∧ r = 0 ∧ 32 ≤ i ∧ i ≤ 47) ∨ (t = 1 ∧ r = 0 ∧ 96 ≤ i ∧ i ≤ 127) ∨ (t = 1 ∧ r = 2),
    fun t r i => (t = 0 ∧ r = 0 ∧ 64 ≤ i ∧ i ≤ 71) ∨ (t = 1 ∧ r = 1), fun t => match t with
      | 0 => .get 0 IPv4.ttl (fun v => .set 0 IPv4.identification v (.done []))
      | 1 => .setBytes 0 127 96 [1#8, 2#8, 3#8, 4#8] (.toVec 1 fun b => .replace 2 1 (.done b))
      | _ => .done [], ?_, ?_, rfl, rfl⟩
  · intro t u h r i hw
    refine ⟨fun hw' => ?_, fun hr => ?_⟩ <;> omega
  · intro t
    match t with
    | 0 =>
      refine ⟨by decide, by decide, by decide, fun i h1 h2 => ?_, fun v => ⟨by decide, by decide, fun i h1 h2 => ?_, trivial⟩⟩
      · simp only [IPv4.ttl] at h1 h2; omega
      · simp only [IPv4.identification] at h1 h2; omega
    | 1 =>
      exact ⟨by decide, by decide, by decide, rfl, fun i h1 h2 => (by omega), fun i hi => (by omega), fun v =>
        ⟨by decide, rfl, fun i hi => (by omega), fun i hi => (by omega), trivial⟩⟩
    | _ + 2 => trivial

/-- Two threads set the ttl to 0x0F and 0xF0; some schedule leaves 0xFF, another 0x00. -/
example (x : Nat) (hx : x = 0xFF ∨ x = 0) : ∃ s, Sys.Reach ⟨sampleStore, fun t => (match t with
      | 0 => Call.set 0 IPv4.ttl 0x0F#64
      | 1 => Call.set 0 IPv4.ttl 0xF0#64
      | _ => Call.rest).client.prog false⟩ s ∧ s.Final ∧
    fieldVal (s.mem 0).bytes IPv4.ttl.lo IPv4.ttl.hi = x := by
  let calls : Nat → Call := fun t => match t with
      | 0 => Call.set 0 IPv4.ttl 0x0F#64
      | 1 => Call.set 0 IPv4.ttl 0xF0#64
      | _ => Call.rest
  let d : Nat → Bytes := fun r => if r = 0 then (IPv4.new).data.set 8 (BitVec.ofNat 8 x) else (IPv4.new).data
  have hwr : ∀ t r i, r ≠ 0 → (calls t).writes r i = none := by
    intro t r i hr
    match t with
    | 0 => simp [calls, Call.writes, hr]
    | 1 => simp [calls, Call.writes, hr]
    | _ + 2 => rfl
  obtain ⟨s, hr, hs, hd⟩ := (C51_exactly false sampleStore sampleStore_fresh calls (by
      intro t
      match t with
      | 0 => exact ⟨by decide, by decide⟩
      | 1 => exact ⟨by decide, by decide⟩
      | _ + 2 => trivial) (by
      intro t r f
      match t with
      | 0 => intro h; cases h
      | 1 => intro h; cases h
      | _ + 2 => intro h; cases h) 2 (by
      intro t ht
      match t, ht with
      | _ + 2, _ => rfl) d).2 (by
      intro r
      by_cases h0 : r = 0
      · subst h0
        have key : ∀ i, i < 160 → (((calls 0).writes 0 i = some (netBit (d 0) i)) ∨ ((calls 1).writes 0 i = some (netBit (d 0) i))) ∨
            (((calls 0).writes 0 i = none ∧ (calls 1).writes 0 i = none) ∧ netBit (d 0) i = netBit (IPv4.new).data i) := by
          rcases hx with rfl | rfl <;> decide +kernel
        refine ⟨by simp only [d, if_true, List.length_set]; rfl, fun i hi => ?_⟩
        rcases key i (by omega) with (h | h) | ⟨⟨h1, h2⟩, h3⟩
        · exact .inl ⟨0, h⟩
        · exact .inl ⟨1, h⟩
        · refine .inr ⟨fun t => ?_, h3⟩
          match t with
          | 0 => exact h1
          | 1 => exact h2
          | _ + 2 => rfl
      · simp only [d, if_neg h0]
        exact ⟨rfl, fun i _ => .inr ⟨fun t => hwr t r i h0, rfl⟩⟩)
  refine ⟨s, hr, hs, ?_⟩
  rw [hd]
  rcases hx with rfl | rfl <;> decide +kernel

/-- The ttl is 0 and a thread sets it to 0xFF; a concurrent getter may see 0x0F, but not 0xF0. -/
example : (∃ s, Sys.Reach ⟨fun _ => ⟨List.replicate 20 0#8, false, none⟩, fun t => (match t with
      | 0 => Call.get 0 IPv4.ttl
      | 1 => Call.set 0 IPv4.ttl 0xFF#64
      | _ => Call.rest).client.prog true⟩ s ∧ s.Final ∧ s.th 0 = .ret (some 0x0F#64)) ∧
    ¬ (∃ s, Sys.Reach ⟨fun _ => ⟨List.replicate 20 0#8, false, none⟩, fun t => (match t with
      | 0 => Call.get 0 IPv4.ttl
      | 1 => Call.set 0 IPv4.ttl 0xFF#64
      | _ => Call.rest).client.prog true⟩ s ∧ s.Final ∧ s.th 0 = .ret (some 0xF0#64)) := by
  have h := fun x => C52_exactly (L := fun _ => 20) true (fun _ => ⟨List.replicate 20 0#8, false, none⟩)
    (fun r => ⟨rfl, rfl, rfl⟩) 0 IPv4.ttl IPv4.ttl 0xFF#64 (by decide) (by decide) (by decide) _ rfl x
  constructor
  · refine (h 0x0F#64).2 ⟨68, by decide, by decide, by decide +kernel⟩
  · intro hh
    obtain ⟨k, h1, h2, h3⟩ := (h 0xF0#64).1 hh
    have a := h3 7 (by decide)
    have b := h3 0 (by decide)
    have h71 : netBit (List.replicate 20 0#8) 71 = false := by decide
    have h64 : netBit (List.replicate 20 0#8) 64 = false := by decide
    generalize List.replicate 20 0#8 = z at a b h71 h64
    simp only [IPv4.ttl, Field.width, Call.writes] at a b h1 h2
    by_cases hk : 71 < k
    · simp [show 64 < k from by omega, h64] at a
    · simp [hk] at b

/-- The storages of two default headers satisfy the hypotheses of `C54_cross_replace_deadlock`. -/
example : (0 : Nat) ≠ 1 ∧ (sampleStore 0).Clean ∧ (sampleStore 1).Clean := ⟨by decide, ⟨rfl, rfl⟩, ⟨rfl, rfl⟩⟩

end PacketRs
