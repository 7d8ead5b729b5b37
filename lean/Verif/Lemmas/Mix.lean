import Verif.Lemmas.Race
/-!
# Threads that write and read the same bits
-/
namespace PacketRs
open Spec
open Prog hiding bind

/-- The rest of a setter thread that still has to write bits `lo..lo+n-1`. -/
def setRest (r lo n : Nat) (v : U64) : Prog (Option U64) :=
  ((List.range' lo n).reverse.foldlM (setBitStepP r) v).bind fun _ => .ret none

/-- The rest of a getter thread that still has to read the last `n` bits. -/
def getRest (chk : Bool) (r : Nat) (f : Field) (n : Nat) (a : U64) : Prog (Option U64) :=
  ((List.range' (f.hi + 1 - n) n).foldlM (bitRangeStepP r) a).bind fun v =>
    (ofR (bitRangeEnd chk f.hi f.lo v)).bind fun v => .ret (some v)

theorem setRest_zero (r lo : Nat) (v : U64) : setRest r lo 0 v = .ret none := rfl

theorem getRest_zero {chk : Bool} {r : Nat} {f : Field} (h1 : f.lo ≤ f.hi) (h2 : f.hi - f.lo < 64) (a : U64) :
    getRest chk r f 0 a = .ret (some ((a <<< (64 - (f.hi - f.lo + 1))) >>> (64 - (f.hi - f.lo + 1)))) := by
  unfold getRest
  simp only [List.range'_zero, List.foldlM_nil, pure_def, bind_ret, bitRangeEnd_ok chk h1 h2, ofR]

theorem set_prog (chk : Bool) (r : Nat) (f : Field) (v : U64) :
    (Call.set r f v).client.prog chk = setRest r f.lo (f.hi + 1 - f.lo) v := by
  simp only [Call.client, Client.prog, setP, setBitRangeP, setRest, bind_def, bind_assoc', inclRange_eq]
  rfl

theorem get_prog (chk : Bool) (r : Nat) (f : Field) (h : f.lo ≤ f.hi) :
    (Call.get r f).client.prog chk = getRest chk r f (f.hi + 1 - f.lo) 0#64 := by
  have : f.hi + 1 - (f.hi + 1 - f.lo) = f.lo := by omega
  simp only [Call.client, Client.prog, getP, bitRangeP, getRest, bind_def, bind_assoc', inclRange_eq, this]

section
variable {L : Nat → Nat}

theorem astep_set {s : Sys (Option U64)} (hf : Fresh L s.mem) {t r lo n : Nat} {v : U64}
    (hth : s.th t = setRest r lo (n + 1) v) (hin : lo + n < 8 * L r) :
    ∃ d, d.length = L r ∧ (∀ j, netBit d j = if j = lo + n then v.getLsbD 0 else netBit (s.mem r).bytes j) ∧
      s.astep t = some ⟨s.mem.put r ⟨d, false, none⟩, s.setTh t (setRest r lo n (v >>> 1))⟩ := by
  have hl := (hf r).2.2
  obtain ⟨d, e, l, b⟩ := setBitStep_ok (s.mem r).bytes v (lo + n) (by omega)
  refine ⟨d, by omega, b, ?_⟩
  have hsplit : setRest r lo (n + 1) v = (setBitStepP r v (lo + n)).bind fun v => setRest r lo n v := by
    unfold setRest
    rw [List.range'_concat, List.reverse_append]
    simp only [List.reverse_cons, List.reverse_nil, List.nil_append, List.cons_append, List.foldlM_cons, Nat.one_mul]
    rw [bind_def, bind_assoc']
  obtain ⟨k, ek, hk⟩ := setBitStepP_sect r v (lo + n) (fun v => setRest r lo n v)
  rw [hsplit, ek] at hth
  simp only [Sys.astep, hth, (hf r).2.1, Bool.false_eq_true, if_false, hk, e, sectRes]

theorem astep_get {chk : Bool} {s : Sys (Option U64)} (hf : Fresh L s.mem) {t r n : Nat} {f : Field} {a : U64}
    (hth : s.th t = getRest chk r f (n + 1) a) (hn : n ≤ f.hi) (hin : f.hi - n < 8 * L r) :
    ∃ a', (∀ j, j < 64 → a'.getLsbD j = if j = 0 then netBit (s.mem r).bytes (f.hi - n) else a.getLsbD (j - 1)) ∧
      s.astep t = some ⟨s.mem, s.setTh t (getRest chk r f n a')⟩ := by
  have hl := (hf r).2.2
  obtain ⟨a', e, b⟩ := bitRangeStep_ok (s.mem r).bytes a (f.hi - n) (by omega)
  refine ⟨a', b, ?_⟩
  have hsplit : getRest chk r f (n + 1) a = (bitRangeStepP r a (f.hi - n)).bind fun v => getRest chk r f n v := by
    unfold getRest
    rw [List.range'_succ, List.foldlM_cons, bind_def, bind_assoc']
    have e1 : f.hi + 1 - (n + 1) = f.hi - n := by omega
    have e2 : f.hi - n + 1 = f.hi + 1 - n := by omega
    rw [e1, e2]
  obtain ⟨k, ek, hk⟩ := bitRangeStepP_sect r a (f.hi - n) (fun v => getRest chk r f n v)
  rw [hsplit, ek] at hth
  simp only [Sys.astep, hth, (hf r).2.1, Bool.false_eq_true, if_false, hk, e, sectRes]
  rw [put_eq_self]
  have h1 := (hf r).1
  have h2 := (hf r).2.1
  cases hc : s.mem r with
  | mk b p o => rw [hc] at h1 h2; simp only at h1 h2; subst h1; subst h2; rfl

/-- The bits a call has written when it still has to write the lowest `n` bits of its field. -/
def wrote : Call → Nat → Nat → Nat → Option Bool
  | .set r f v, n, x, i => if x = r ∧ f.lo + n ≤ i ∧ i ≤ f.hi then some (v.getLsbD (f.hi - i)) else none
  | .get _ _, _, _, _ => none
  | .rest, _, _, _ => none

theorem wrote_zero (c : Call) (x i : Nat) : wrote c 0 x i = c.writes x i := by
  cases c <;> rfl

theorem wrote_writes {c : Call} {n x i : Nat} {b : Bool} (h : wrote c n x i = some b) : c.writes x i = some b := by
  cases c with
  | set r f v =>
    simp only [wrote] at h
    split at h
    · simp only [Call.writes]; rw [if_pos (by omega)]; exact h
    · cases h
  | get r f => cases h
  | rest => cases h

/-- Possible contents of a bit: what it was, or what some call writes. -/
def Allowed (calls : Nat → Call) (m : Store) (x i : Nat) (b : Bool) : Prop :=
  b = netBit (m x).bytes i ∨ ∃ t, (calls t).writes x i = some b

/-- The state of one thread with `n` bits left. -/
def At (chk : Bool) (calls : Nat → Call) (m : Store) (c : Call) (n : Nat) (p : Prog (Option U64)) : Prop :=
  match c with
  | .set r f v => n ≤ f.hi + 1 - f.lo ∧ p = setRest r f.lo n (v >>> (f.hi + 1 - f.lo - n))
  | .get r f => n ≤ f.hi + 1 - f.lo ∧ ∃ a, p = getRest chk r f n a ∧
      ∀ j, j < f.hi + 1 - f.lo - n → Allowed calls m r (f.hi - n - j) (a.getLsbD j)
  | .rest => p = .ret none

/-- What holds in the middle of an execution of single calls. -/
structure Mixed (L : Nat → Nat) (chk : Bool) (calls : Nat → Call) (m : Store) (s : Sys (Option U64)) (left : Nat → Nat) :
    Prop where
  fresh : Fresh L s.mem
  here : ∀ t, At chk calls m (calls t) (left t) (s.th t)
  bits : ∀ x i, (∃ t, wrote (calls t) (left t) x i = some (netBit (s.mem x).bytes i)) ∨
    (netBit (s.mem x).bytes i = netBit (m x).bytes i ∧ ∀ t, wrote (calls t) (left t) x i = none)

theorem Mixed.allowed {chk : Bool} {calls : Nat → Call} {m : Store} {s : Sys (Option U64)} {left : Nat → Nat}
    (h : Mixed L chk calls m s left) (x i : Nat) : Allowed calls m x i (netBit (s.mem x).bytes i) := by
  rcases h.bits x i with ⟨t, ht⟩ | ⟨h1, -⟩
  · exact .inr ⟨t, wrote_writes ht⟩
  · exact .inl h1

theorem Mixed.init {chk : Bool} {calls : Nat → Call} (hok : ∀ t, (calls t).Ok L) {m : Store} (hm : Fresh L m) :
    ∃ left, Mixed L chk calls m ⟨m, fun t => (calls t).client.prog chk⟩ left := by
  refine ⟨fun t => match calls t with
    | .set r f v => f.hi + 1 - f.lo
    | .get r f => f.hi + 1 - f.lo
    | .rest => 0, hm, ?_, ?_⟩
  · intro t
    have := hok t
    cases e : calls t with
    | set r f v =>
      simp only [At, Nat.sub_self]
      exact ⟨Nat.le_refl _, by rw [e, set_prog]; simp⟩
    | get r f =>
      rw [e] at this
      simp only [At, Nat.sub_self]
      exact ⟨Nat.le_refl _, _, by rw [e]; exact get_prog chk r f this.1, fun j hj => by omega⟩
    | rest => simp only [At, e]; rfl
  · intro x i
    refine .inr ⟨rfl, fun t => ?_⟩
    have := hok t
    cases e : calls t with
    | set r f v =>
      rw [e] at this
      obtain ⟨h1, -⟩ := this
      simp only [wrote]
      rw [if_neg (by omega)]
    | get r f => rfl
    | rest => rfl

theorem Mixed.step {chk : Bool} {calls : Nat → Call} (hok : ∀ t, (calls t).Ok L) {m : Store} {s s' : Sys (Option U64)}
    {left : Nat → Nat} (h : Mixed L chk calls m s left) {t : Nat} (hs : s.astep t = some s') :
    left t ≠ 0 ∧ Mixed L chk calls m s' (fun u => if u = t then left t - 1 else left u) := by
  have ht := h.here t
  have hokt := hok t
  generalize hl : left t = n at ht
  generalize hp : s.th t = p at ht
  cases e : calls t with
  | rest =>
    rw [e] at ht
    simp only [At] at ht
    rw [Sys.astep, hp, ht] at hs; cases hs
  | set r f v =>
    rw [e] at ht hokt
    obtain ⟨h1, h2⟩ := hokt
    obtain ⟨hn, rfl⟩ := ht
    cases n with
    | zero => rw [setRest_zero] at hp; rw [Sys.astep, hp] at hs; cases hs
    | succ n =>
      obtain ⟨d, hd, hb, ha⟩ := astep_set h.fresh hp (by omega)
      rw [ha] at hs
      cases hs
      have hv : (v >>> (f.hi + 1 - f.lo - (n + 1))).getLsbD 0 = v.getLsbD (f.hi - (f.lo + n)) := by
        rw [BitVec.getLsbD_ushiftRight]; congr 1; omega
      refine ⟨by omega, h.fresh.put hd, ?_, ?_⟩
      · intro u
        by_cases hu : u = t
        · subst hu
          rw [e]
          simp only [if_true, Sys.setTh_same, At, Nat.add_sub_cancel]
          refine ⟨by omega, ?_⟩
          rw [← BitVec.shiftRight_add, show f.hi + 1 - f.lo - (n + 1) + 1 = f.hi + 1 - f.lo - n from by omega]
        · simp only [if_neg hu, Sys.setTh_ne _ _ hu]; exact h.here u
      · intro x i
        by_cases hw : x = r ∧ i = f.lo + n
        · obtain ⟨rfl, rfl⟩ := hw
          refine .inl ⟨t, ?_⟩
          have hin : f.lo + n ≤ f.hi := by omega
          simp only [if_true, put_same, e, wrote, hb, hv, Nat.add_sub_cancel, Nat.le_refl, hin, and_self]
        · have hbit : netBit ((s.mem.put r ⟨d, false, none⟩) x).bytes i = netBit (s.mem x).bytes i := by
            by_cases hx : x = r
            · subst hx
              rw [put_same]
              simp only [hb]
              rw [if_neg (fun hi => hw ⟨rfl, hi⟩)]
            · rw [put_ne _ _ hx]
          have hwr : ∀ u, wrote (calls u) (if u = t then n + 1 - 1 else left u) x i = wrote (calls u) (left u) x i := by
            intro u
            by_cases hu : u = t
            · subst hu
              rw [if_pos rfl, e, hl]
              simp only [wrote, Nat.add_sub_cancel]
              congr 1
              simp only [eq_iff_iff]
              omega
            · rw [if_neg hu]
          simp only [hbit, hwr]
          exact h.bits x i
  | get r f =>
    rw [e] at ht hokt
    obtain ⟨h1, h2, h3⟩ := hokt
    obtain ⟨hn, a, rfl, hal⟩ := ht
    cases n with
    | zero => rw [getRest_zero h1 h3] at hp; rw [Sys.astep, hp] at hs; cases hs
    | succ n =>
      obtain ⟨a', hb, ha⟩ := astep_get h.fresh hp (by omega) (by omega)
      rw [ha] at hs
      cases hs
      refine ⟨by omega, h.fresh, ?_, ?_⟩
      · intro u
        by_cases hu : u = t
        · subst hu
          rw [e]
          simp only [if_true, Sys.setTh_same, At, Nat.add_sub_cancel]
          refine ⟨by omega, a', rfl, ?_⟩
          intro j hj
          rw [hb j (by omega)]
          by_cases hj0 : j = 0
          · subst hj0; rw [if_pos rfl]; exact h.allowed r _
          · rw [if_neg hj0]
            have := hal (j - 1) (by omega)
            rwa [show f.hi - (n + 1) - (j - 1) = f.hi - n - j from by omega] at this
        · simp only [if_neg hu, Sys.setTh_ne _ _ hu]; exact h.here u
      · intro x i
        have hwr : ∀ u, wrote (calls u) (if u = t then n + 1 - 1 else left u) x i = wrote (calls u) (left u) x i := by
          intro u
          by_cases hu : u = t
          · subst hu; rw [e]; rfl
          · rw [if_neg hu]
        simp only [hwr]
        exact h.bits x i

theorem Mixed.areach {chk : Bool} {calls : Nat → Call} (hok : ∀ t, (calls t).Ok L) {m : Store} (hm : Fresh L m)
    {s : Sys (Option U64)} (h : Sys.AReach ⟨m, fun t => (calls t).client.prog chk⟩ s) :
    ∃ left, Mixed L chk calls m s left := by
  induction h with
  | refl => exact Mixed.init hok hm
  | step t _ hs ih =>
    obtain ⟨left, h⟩ := ih
    exact ⟨_, (h.step hok hs).2⟩

theorem setRest_finished {r lo n : Nat} {v : U64} (h : (setRest r lo n v).Finished) : n = 0 := by
  cases n with
  | zero => rfl
  | succ n =>
    exfalso
    unfold setRest at h
    rw [List.range'_concat, List.reverse_append] at h
    exact h

theorem getRest_finished {chk : Bool} {r n : Nat} {f : Field} {a : U64} (h : (getRest chk r f n a).Finished) : n = 0 := by
  cases n with
  | zero => rfl
  | succ n =>
    exfalso
    unfold getRest at h
    rw [List.range'_succ] at h
    exact h

/-- The outcome of every terminated schedule of single calls. -/
theorem Mixed.final {chk : Bool} {calls : Nat → Call} (hok : ∀ t, (calls t).Ok L) {m : Store}
    {s : Sys (Option U64)} {left : Nat → Nat} (h : Mixed L chk calls m s left) (hs : s.Final) :
    (∀ x i, (∃ t, (calls t).writes x i = some (netBit (s.mem x).bytes i)) ∨
      (netBit (s.mem x).bytes i = netBit (m x).bytes i ∧ ∀ t, (calls t).writes x i = none)) ∧
    (∀ t, match calls t with
      | .get r f => ∃ v, s.th t = .ret (some v) ∧ ∀ j, j < 64 →
          if j < f.width then Allowed calls m r (f.hi - j) (v.getLsbD j) else v.getLsbD j = false
      | _ => s.th t = .ret none) := by
  have hz : ∀ t x i, wrote (calls t) (left t) x i = (calls t).writes x i := by
    intro t x i
    have h1 := h.here t
    have h2 := hs t
    cases e : calls t with
    | rest => rfl
    | get r f => rfl
    | set r f v =>
      rw [e] at h1
      obtain ⟨-, h1⟩ := h1
      rw [h1] at h2
      rw [setRest_finished h2, wrote_zero]
  refine ⟨?_, ?_⟩
  · intro x i
    have := h.bits x i
    simp only [hz] at this
    exact this
  · intro t
    have h1 := h.here t
    have h2 := hs t
    have h3 := hok t
    cases e : calls t with
    | rest => rw [e] at h1; exact h1
    | set r f v =>
      rw [e] at h1
      obtain ⟨-, h1⟩ := h1
      rw [h1] at h2 ⊢
      rw [setRest_finished h2, setRest_zero]
    | get r f =>
      rw [e] at h1 h3
      obtain ⟨h4, h5, h6⟩ := h3
      obtain ⟨-, a, h1, hal⟩ := h1
      rw [h1] at h2
      have hz := getRest_finished h2
      rw [hz] at hal h1
      refine ⟨_, h1.trans (getRest_zero h4 h6 a), ?_⟩
      intro j hj
      simp only [Field.width]
      simp only [BitVec.getLsbD_ushiftRight, BitVec.getLsbD_shiftLeft]
      by_cases hjn : j < f.hi - f.lo + 1
      · rw [if_pos hjn]
        have a1 : 64 - (f.hi - f.lo + 1) + j < 64 := by omega
        have a2 : ¬ (64 - (f.hi - f.lo + 1) + j < 64 - (f.hi - f.lo + 1)) := by omega
        have a3 : 64 - (f.hi - f.lo + 1) + j - (64 - (f.hi - f.lo + 1)) = j := by omega
        simp only [a1, a2, a3, decide_true, decide_false, Bool.not_false, Bool.true_and]
        simpa using hal j (by omega)
      · rw [if_neg hjn]
        have a1 : ¬ 64 - (f.hi - f.lo + 1) + j < 64 := by omega
        simp only [a1, decide_false, Bool.false_and]

end
end PacketRs
