import Verif.Lemmas.Txn
import Verif.Lemmas.Heap
import Verif.Spec.Race
import Verif.Lemmas.Bytes
/-!
# Threads that do not race do not interfere
-/
namespace PacketRs
open Spec
open Prog hiding bind

section
variable {α β : Type}

/-- A sequence of sections that touches only the bits in `Wr` and `Rd` and never panics. -/
inductive Resp (L : Nat → Nat) (Wr Rd : Bits) : Prog α → Prop where
  | ret (a : α) : Resp L Wr Rd (.ret a)
  | sect {r : Nat} {k : Prog α} (k' : Bytes → Prog α) (d' : Bytes → Bytes)
      (h : ∀ d, d.length = L r → finish r k d = some (k' d, d' d, false))
      (hlen : ∀ d, d.length = L r → (d' d).length = L r)
      (hout : ∀ d, d.length = L r → ∀ i, ¬ Wr r i → netBit (d' d) i = netBit d i)
      (hdep : ∀ d e, d.length = L r → e.length = L r → (∀ i, Wr r i ∨ Rd r i → netBit d i = netBit e i) →
        k' d = k' e ∧ ∀ i, Wr r i → netBit (d' d) i = netBit (d' e) i)
      (hk : ∀ d, d.length = L r → Resp L Wr Rd (k' d)) : Resp L Wr Rd (.lock r k)
  | repl {r o : Nat} {k : Prog α} (hne : r ≠ o) (hL : L r = L o) (hw : ∀ i, i < 8 * L r → Wr r i)
      (hr : ∀ i, i < 8 * L o → Rd o i ∨ Wr o i) (hk : Resp L Wr Rd k) : Resp L Wr Rd (.lock r (replRest r o k))

variable {L : Nat → Nat} {Wr Rd : Bits}

theorem Resp.bind {p : Prog α} {f : α → Prog β} (hp : Resp L Wr Rd p) (hf : ∀ a, Resp L Wr Rd (f a)) :
    Resp L Wr Rd (p.bind f) := by
  induction hp with
  | ret a => exact hf a
  | sect k' d' h hlen hout hdep hk ih =>
    refine .sect (fun d => (k' d).bind f) d' (fun d hd => finish_bind f (h d hd)) hlen hout ?_ ih
    intro d e hd he hag
    obtain ⟨h1, h2⟩ := hdep d e hd he hag
    exact ⟨by simp only [h1], h2⟩
  | repl hne hL hw hr hk ih => exact .repl hne hL hw hr ih

theorem Resp.foldlM {γ : Type} {f : β → γ → Prog β} (l : List γ) (hf : ∀ b, ∀ c ∈ l, Resp L Wr Rd (f b c)) (b : β) :
    Resp L Wr Rd (l.foldlM f b) := by
  induction l generalizing b with
  | nil => exact .ret b
  | cons c l ih =>
    rw [List.foldlM_cons]
    exact (hf b c (by simp)).bind (fun b' => ih (fun b c hc => hf b c (by simp [hc])) b')

theorem resp_bitRangeStepP {r i : Nat} (hi : i < 8 * L r) (h : Rd r i ∨ Wr r i) (v : U64) :
    Resp L Wr Rd (bitRangeStepP r v i) := by
  have := bitRangeStepP_sect r v i (fun v => Prog.ret v)
  rw [bind_ret_right] at this
  obtain ⟨k, e, hk⟩ := this
  rw [e]
  have ok : ∀ d : Bytes, d.length = L r → ∃ x, bitRangeStep d v i = .ok x ∧
      ∀ j, j < 64 → x.getLsbD j = if j = 0 then netBit d i else v.getLsbD (j - 1) :=
    fun d hd => bitRangeStep_ok d v i (by omega)
  refine .sect (fun d => (sectRes (bitRangeStep d v i) (fun v => Prog.ret v) (fun _ => d) d).1) (fun d => d) ?_
    (fun d hd => hd) (fun d _ j _ => rfl) ?_ ?_
  · intro d hd
    obtain ⟨x, hx, -⟩ := ok d hd
    rw [hk, hx]; rfl
  · intro d e hd he hag
    obtain ⟨x, hx, bx⟩ := ok d hd
    obtain ⟨y, hy, yx⟩ := ok e he
    have hxy : x = y := by
      apply BitVec.eq_of_getLsbD_eq
      intro j hj
      rw [bx j hj, yx j hj, hag i h.symm]
    refine ⟨by rw [hx, hy, hxy]; rfl, fun j hj => hag j (.inl hj)⟩
  · intro d hd
    obtain ⟨x, hx, -⟩ := ok d hd
    rw [hx]; exact .ret _

theorem resp_setBitStepP {r i : Nat} (hi : i < 8 * L r) (h : Wr r i) (v : U64) :
    Resp L Wr Rd (setBitStepP r v i) := by
  have := setBitStepP_sect r v i (fun v => Prog.ret v)
  rw [bind_ret_right] at this
  obtain ⟨k, e, hk⟩ := this
  rw [e]
  have ok : ∀ d : Bytes, d.length = L r → ∃ d', setBitStep (d, v) i = .ok (d', v >>> 1) ∧ d'.length = d.length ∧
      ∀ k, netBit d' k = if k = i then v.getLsbD 0 else netBit d k :=
    fun d hd => setBitStep_ok d v i (by omega)
  refine .sect (fun _ => Prog.ret (v >>> 1)) (fun d => (sectRes (setBitStep (d, v) i) (fun x => (Prog.ret x.2 : Prog U64)) Prod.fst d).2.1) ?_ ?_ ?_ ?_
    (fun d _ => .ret _)
  · intro d hd
    obtain ⟨x, hx, -, -⟩ := ok d hd
    rw [hk, hx]; rfl
  · intro d hd
    obtain ⟨x, hx, hl, -⟩ := ok d hd
    rw [hx]; exact hl.trans hd
  · intro d hd j hj
    obtain ⟨x, hx, -, hb⟩ := ok d hd
    rw [hx]
    have : j ≠ i := by rintro rfl; exact hj h
    simp only [sectRes, hb, if_neg this]
  · intro d e hd he hag
    obtain ⟨x, hx, -, bx⟩ := ok d hd
    obtain ⟨y, hy, -, yx⟩ := ok e he
    refine ⟨rfl, fun j hj => ?_⟩
    rw [hx, hy]
    simp only [sectRes, bx, yx]
    split
    · rfl
    · exact hag j (.inl hj)

theorem bitRangeEnd_ok (chk : Bool) {lo hi : Nat} (h1 : lo ≤ hi) (h2 : hi - lo < 64) (v : U64) :
    bitRangeEnd chk hi lo v = .ok ((v <<< (64 - (hi - lo + 1))) >>> (64 - (hi - lo + 1))) := by
  have es : 64 - (hi - lo + 1) < 64 := by omega
  simp only [bitRangeEnd, usizeSub_ok chk hi lo h1,
      usizeAdd_ok chk (hi - lo) 1 (by omega), usizeSub_ok chk 64 (hi - lo + 1) (by omega),
      shl64, shr64, es, if_true, bind, Except.bind]

theorem mem_inclRange {lo hi i : Nat} (h : i ∈ inclRange lo hi) : lo ≤ i ∧ i ≤ hi := by
  rw [inclRange_eq, List.mem_range'_1] at h; omega

theorem resp_bitRangeP {r lo hi : Nat} (chk : Bool) (h1 : lo ≤ hi) (h2 : hi - lo < 64) (h3 : hi < 8 * L r)
    (h : ∀ i, lo ≤ i → i ≤ hi → Rd r i ∨ Wr r i) : Resp L Wr Rd (bitRangeP chk r hi lo) := by
  refine (Resp.foldlM _ (fun v i hi' => ?_) _).bind fun v => ?_
  · obtain ⟨a, b⟩ := mem_inclRange hi'
    exact resp_bitRangeStepP (by omega) (h i a b) v
  · rw [bitRangeEnd_ok chk h1 h2]; exact .ret _

theorem resp_setBitRangeP {r lo hi : Nat} (h3 : hi < 8 * L r)
    (h : ∀ i, lo ≤ i → i ≤ hi → Wr r i) (v : U64) : Resp L Wr Rd (setBitRangeP r hi lo v) := by
  refine (Resp.foldlM _ (fun v i hi' => ?_) _).bind fun v => .ret _
  obtain ⟨a, b⟩ := mem_inclRange (List.mem_reverse.1 hi')
  exact resp_setBitStepP (by omega) (h i a b) v

theorem rangeWidth_eq (chk : Bool) {lo hi : Nat} (h1 : lo ≤ hi) (h2 : hi + 1 < 2 ^ 64) :
    rangeWidth chk hi lo = .ok (hi + 1 - lo) := by
  simp only [rangeWidth, usizeSub_ok chk hi lo h1, bind, Except.bind]
  rw [usizeAdd_ok chk _ _ (by omega)]
  congr 1; omega

theorem mem_inclRangeStep8 {lo hi i : Nat} (h : i ∈ inclRangeStep8 lo hi) (hw : (hi + 1 - lo) % 8 = 0) :
    lo ≤ i ∧ i + 7 ≤ hi := by
  rw [inclRangeStep8, List.mem_range'] at h
  obtain ⟨j, hj, rfl⟩ := h
  omega

theorem resp_bytesP {r lo hi : Nat} (chk : Bool) (h1 : lo ≤ hi) (h3 : hi < 8 * L r) (h4 : hi + 1 < 2 ^ 64)
    (hw : (hi + 1 - lo) % 8 = 0) (h : ∀ i, lo ≤ i → i ≤ hi → Rd r i ∨ Wr r i) : Resp L Wr Rd (bytesP chk r hi lo) := by
  rw [bytesP_split, rangeWidth_eq chk h1 h4]
  simp only [ofR, bind_ret]
  rw [if_neg (by omega)]
  refine Resp.foldlM _ (fun v i hi' => ?_) _
  obtain ⟨a, b⟩ := mem_inclRangeStep8 hi' hw
  exact (resp_bitRangeP chk (by omega) (by omega) (by omega) (fun j hj1 hj2 => h j (by omega) (by omega))).bind
    fun v => .ret _

theorem resp_setBytesP {r lo hi : Nat} (chk : Bool) (h1 : lo ≤ hi) (h3 : hi < 8 * L r) (h4 : hi + 1 < 2 ^ 64)
    (v : Bytes) (hw : v.length * 8 = hi + 1 - lo) (h : ∀ i, lo ≤ i → i ≤ hi → Wr r i) :
    Resp L Wr Rd (setBytesP chk r hi lo v) := by
  rw [setBytesP_split, rangeWidth_eq chk h1 h4]
  simp only [ofR, bind_ret]
  rw [if_neg (by omega)]
  have key : ∀ (l : List Nat) (n : Nat), n + l.length ≤ v.length → (∀ i ∈ l, lo ≤ i ∧ i + 7 ≤ hi) →
      Resp L Wr Rd (l.foldlM (setBytesBodyP r v) n) := by
    intro l
    induction l with
    | nil => intro n _ _; exact .ret n
    | cons i l ih =>
      intro n hn hl
      rw [List.foldlM_cons]
      have hb : setBytesBodyP r v n i = (ofR (index v n)).bind fun b =>
        (setBitRangeP r (i + 7) i (b.setWidth 64)).bind fun _ => .ret (n + 1) := rfl
      have hnv : n < v.length := by simp at hn; omega
      rw [hb, index_ok _ _ hnv]
      simp only [ofR, bind_ret]
      obtain ⟨a, b⟩ := hl i (by simp)
      rw [bind_def, bind_assoc']
      refine (resp_setBitRangeP (by omega) (fun j hj1 hj2 => h j (by omega) (by omega)) _).bind fun _ => ?_
      exact ih (n + 1) (by simp at hn; omega) (fun i hi' => hl i (by simp [hi']))
  refine (key _ 0 ?_ ?_).bind fun _ => .ret ()
  · simp only [inclRangeStep8, List.length_range']; omega
  · intro i hi'; exact mem_inclRangeStep8 hi' (by omega)

theorem netBit_inj {d e : Bytes} {n : Nat} (hd : d.length = n) (he : e.length = n)
    (h : ∀ i, i < 8 * n → netBit d i = netBit e i) : d = e :=
  eq_of_netBit d e (by omega) (by rw [hd]; exact h)

theorem resp_toVecP {r : Nat} (h : ∀ i, i < 8 * L r → Rd r i ∨ Wr r i) : Resp L Wr Rd (toVecP r) := by
  refine .sect (fun d => .ret d) (fun d => d) ?_ (fun d hd => hd) (fun _ _ _ _ => rfl) ?_ (fun d _ => .ret d)
  · intro d _; simp [loadM, unlockM, bind_def, pure_def, finish]
  · intro d e hd he hag
    have : d = e := netBit_inj hd he (fun i hi => hag i (h i hi).symm)
    subst this
    exact ⟨rfl, fun _ _ => rfl⟩

theorem resp_client (chk : Bool) : (c : Client α) → Within L Wr Rd c → Resp L Wr Rd (c.prog chk)
  | .done a, _ => .ret a
  | .get _ _ k, h => (resp_bitRangeP chk h.1 h.2.2.1 h.2.1 h.2.2.2.1).bind fun v => resp_client chk (k v) (h.2.2.2.2 v)
  | .set _ _ v k, h => (resp_setBitRangeP h.2.1 h.2.2.1 v).bind fun _ => resp_client chk k h.2.2.2
  | .bytes _ _ _ k, h =>
    (resp_bytesP chk h.1 h.2.1 h.2.2.1 h.2.2.2.1 h.2.2.2.2.1).bind fun v => resp_client chk (k v) (h.2.2.2.2.2 v)
  | .setBytes _ _ _ v k, h =>
    (resp_setBytesP chk h.1 h.2.1 h.2.2.1 v h.2.2.2.1 h.2.2.2.2.1).bind fun _ => resp_client chk k h.2.2.2.2.2
  | .toVec _ k, h => (resp_toVecP h.1).bind fun v => resp_client chk (k v) (h.2 v)
  | .replace _ _ k, h => .repl h.1 h.2.1 h.2.2.1 h.2.2.2.1 (resp_client chk k h.2.2.2.2)

theorem acc_client (chk : Bool) : (c : Client α) → NoReplace c → Acc (fun _ => True) (c.prog chk)
  | .done a, _ => .ret a
  | .get _ f k, h => (acc_bitRangeP trivial chk f.hi f.lo).bind fun v => acc_client chk (k v) (h v)
  | .set _ f v k, h => (acc_setBitRangeP trivial f.hi f.lo v).bind fun _ => acc_client chk k h
  | .bytes _ msb lsb k, h => (acc_bytesP trivial chk msb lsb).bind fun v => acc_client chk (k v) (h v)
  | .setBytes _ msb lsb v k, h => (acc_setBytesP trivial chk msb lsb v).bind fun _ => acc_client chk k h
  | .toVec _ k, h => (acc_toVecP trivial).bind fun v => acc_client chk (k v) (h v)

theorem txn_client (chk : Bool) : (c : Client α) → Txn (c.prog chk)
  | .done a => .ret a
  | .get r f k => (acc_bitRangeP (S := fun _ => True) (r := r) trivial chk f.hi f.lo).bind_txn fun v => txn_client chk (k v)
  | .set r f v k => (acc_setBitRangeP (S := fun _ => True) (r := r) trivial f.hi f.lo v).bind_txn fun _ => txn_client chk k
  | .bytes r msb lsb k => (acc_bytesP (S := fun _ => True) (r := r) trivial chk msb lsb).bind_txn fun v => txn_client chk (k v)
  | .setBytes r msb lsb v k => (acc_setBytesP (S := fun _ => True) (r := r) trivial chk msb lsb v).bind_txn fun _ => txn_client chk k
  | .toVec r k => (acc_toVecP (S := fun _ => True) (r := r) trivial).bind_txn fun v => txn_client chk (k v)
  | .replace r o k => .repl r o (txn_client chk k)

theorem noReplace_call (c : Call) : NoReplace c.client := by
  cases c <;> simp [Call.client, NoReplace]

theorem Spec.Fresh.free {m : Store} (h : Fresh L m) : AllFree m := fun r => (h r).1

theorem Spec.Fresh.put {m : Store} (h : Fresh L m) {r : Nat} {d : Bytes} (hd : d.length = L r) :
    Fresh L (m.put r ⟨d, false, none⟩) := by
  intro x
  by_cases hx : x = r
  · subst hx; simp [hd]
  · rw [put_ne _ _ hx]; exact h x

/-- What holds in the middle of a race-free execution: each thread is where it would be alone, and sees
the bits it would see alone. -/
structure Apart (L : Nat → Nat) (Wr Rd : Nat → Bits) (s s' : Sys α) : Prop where
  fresh : Fresh L s'.mem
  resp : ∀ t, Resp L (Wr t) (Rd t) (s'.th t)
  same : ∀ r i, (∀ t, ¬ Wr t r i) → netBit (s'.mem r).bytes i = netBit (s.mem r).bytes i
  solo : ∀ t, ∃ m, Fresh L m ∧ run t (s'.th t) m = run t (s.th t) s.mem ∧
    ∀ r i, Wr t r i ∨ Rd t r i → netBit (m r).bytes i = netBit (s'.mem r).bytes i

theorem Apart.step {Wr Rd : Nat → Bits} (hrace : RaceFree Wr Rd) {s s' s'' : Sys α} (h : Apart L Wr Rd s s') {t : Nat}
    (hs : Sys.TStep t s' s'') : Apart L Wr Rd s s'' := by
  have hr := h.resp t
  obtain ⟨m, hm, hrun, hag⟩ := h.solo t
  generalize hp : s'.th t = p at hr
  -- what is common to both kinds of step
  have key : ∀ (r : Nat) (d e : Bytes) (q : Prog α), s'' = ⟨s'.mem.put r ⟨d, false, none⟩, s'.setTh t q⟩ → d.length = L r →
      e.length = L r → (∀ i, ¬ Wr t r i → netBit d i = netBit (s'.mem r).bytes i) →
      (∀ i, ¬ Wr t r i → netBit e i = netBit (m r).bytes i) →
      (∀ i, Wr t r i → netBit e i = netBit d i) → Resp L (Wr t) (Rd t) q →
      run t p m = run t q (m.put r ⟨e, false, none⟩) → Apart L Wr Rd s s'' := by
    rintro r d e q rfl hd he hout hout' hin hq hrun'
    have hw : ∀ x i, ¬ Wr t x i →
        netBit ((s'.mem.put r ⟨d, false, none⟩) x).bytes i = netBit (s'.mem x).bytes i := by
      intro x i hx
      by_cases hxr : x = r
      · subst hxr; rw [put_same]; exact hout i hx
      · rw [put_ne _ _ hxr]
    refine ⟨h.fresh.put hd, ?_, ?_, ?_⟩
    · intro u
      by_cases hu : u = t
      · subst hu; simpa using hq
      · simp only [Sys.setTh_ne _ _ hu]; exact h.resp u
    · intro x i hx
      rw [hw x i (hx t)]; exact h.same x i hx
    · intro u
      by_cases hu : u = t
      · subst hu
        refine ⟨m.put r ⟨e, false, none⟩, hm.put he, ?_, ?_⟩
        · rw [← hrun, hp, hrun']
          simp
        · intro x i hi
          by_cases hxr : x = r
          · subst hxr
            simp only [put_same]
            by_cases hwi : Wr u x i
            · exact hin i hwi
            · rw [hout i hwi, hout' i hwi]; exact hag x i hi
          · simp only [put_ne _ _ hxr]; exact hag x i hi
      · obtain ⟨mu, h1, h2, h3⟩ := h.solo u
        refine ⟨mu, h1, by simp only [Sys.setTh_ne _ _ hu]; exact h2, ?_⟩
        intro x i hi
        rw [hw x i ?_]
        · exact h3 x i hi
        · intro hwt
          obtain ⟨n1, n2⟩ := hrace t u (Ne.symm hu) x i hwt
          exact hi.elim n1 n2
  cases hr with
  | ret a =>
    cases hs with
    | panic e => rw [hp] at e; cases e
    | poisoned e => rw [hp] at e; cases e
    | sect e => rw [hp] at e; cases e
    | repl e => rw [hp] at e; cases e
    | replPoisoned e => rw [hp] at e; cases e
  | @sect r k k' d' hfin hlen hout hdep hk =>
    have hl := (h.fresh r).2.2
    have hlm := (hm r).2.2
    obtain ⟨hd1, hd2⟩ := hdep _ _ hlm hl (fun i hi => hag r i hi)
    have hs' : s'' = ⟨s'.mem.put r ⟨d' (s'.mem r).bytes, false, none⟩, s'.setTh t (k' (s'.mem r).bytes)⟩ := by
      cases hs with
      | panic e => rw [hp] at e; cases e
      | poisoned e e' => rw [hp] at e; cases e; rw [(h.fresh r).2.1] at e'; cases e'
      | sect e e' e'' =>
        rw [hp] at e; cases e
        rw [hfin _ hl] at e''; cases e''; rfl
      | repl e =>
        rw [hp] at e; cases e
        have := hfin _ hl
        simp [replRest, replLock, finish] at this
      | replPoisoned e =>
        rw [hp] at e; cases e
        have := hfin _ hl
        simp [replRest, replLock, finish] at this
    refine key r _ (d' (m r).bytes) _ hs' (hlen _ hl) (hlen _ hlm) (hout _ hl) (hout _ hlm) hd2 (hk _ hl) ?_
    rw [run_sect hm.free (hm r).2.1 (hfin _ hlm), hd1]
  | @repl r o k hne hL hw hr hk =>
    have hs' : s'' = ⟨s'.mem.put r ⟨(s'.mem o).bytes, false, none⟩, s'.setTh t k⟩ := by
      cases hs with
      | panic e => rw [hp] at e; cases e
      | poisoned e e' => rw [hp] at e; cases e; rw [(h.fresh r).2.1] at e'; cases e'
      | sect e e' e'' =>
        rw [hp] at e; cases e
        simp [replRest, replLock, finish] at e''
      | repl e =>
        rw [hp] at e
        simp only [Prog.lock.injEq] at e
        obtain ⟨rfl, e⟩ := e
        obtain ⟨rfl, rfl⟩ := replRest_inj e
        rfl
      | replPoisoned e e' e'' =>
        rw [hp] at e
        simp only [Prog.lock.injEq] at e
        obtain ⟨rfl, e⟩ := e
        obtain ⟨rfl, rfl⟩ := replRest_inj e
        rw [(h.fresh o).2.1] at e''; cases e''
    have hout : ∀ (x y : Store) (hx : Fresh L x) (hy : Fresh L y) (i : Nat), ¬ Wr t r i → netBit (x o).bytes i = netBit (y r).bytes i := by
      intro x y hx hy i hi
      have : 8 * L r ≤ i := Nat.le_of_not_lt fun hlt => hi (hw i hlt)
      rw [netBit_ge _ _ (by rw [(hx o).2.2]; omega), netBit_ge _ _ (by rw [(hy r).2.2]; omega)]
    refine key r _ (m o).bytes _ hs' (by rw [(h.fresh o).2.2, hL]) (by rw [(hm o).2.2, hL]) (hout _ _ h.fresh h.fresh)
      (hout _ _ hm hm) ?_ hk ?_
    · intro i _
      by_cases hlt : i < 8 * L o
      · exact hag o i (hr i hlt).symm
      · rw [netBit_ge _ _ (by rw [(hm o).2.2]; omega), netBit_ge _ _ (by rw [(h.fresh o).2.2]; omega)]
    · rw [← replaceP_bind, run_bind, run_replaceP_ok hm.free hne (hm r).2.1 (hm o).2.1]

theorem Apart.treach {Wr Rd : Nat → Bits} (hrace : RaceFree Wr Rd) {s s' : Sys α} (hf : Fresh L s.mem)
    (hp : ∀ t, Resp L (Wr t) (Rd t) (s.th t)) (h : Sys.TReach s s') : Apart L Wr Rd s s' := by
  induction h with
  | refl => exact ⟨hf, hp, fun _ _ _ => rfl, fun t => ⟨s.mem, hf, rfl, fun _ _ _ => rfl⟩⟩
  | step t _ hs ih => exact ih.step hrace hs

/-- A thread that holds a mutex can go on. -/
theorem Apart.holder {Wr Rd : Nat → Bits} (hL : ∀ r, 0 < L r) (hrace : RaceFree Wr Rd) {s c a : Sys α}
    (h : Apart L Wr Rd s a) (hsim : Sys.TSim c a) {x t : Nat} (ho : (c.mem x).owner = some t) :
    ∃ u c', c.step u = some c' := by
  -- a thread whose mode is not `pend` with the second mutex taken
  have go : ∀ u, (∃ y, (c.mem y).owner = some u) →
      (∃ c', c.step u = some c') ∨ ∃ r o k, (∀ y, (c.mem y).owner = some u ↔ y = r) ∧
        a.th u = .lock r (replRest r o k) ∧ (c.mem o).owner ≠ none := by
    rintro u ⟨y, hy⟩
    cases hsim.mode u with
    | idle h1 h2 => exact absurd hy (h1 y)
    | sect r h1 h2 h3 h4 =>
      left
      unfold Sys.step
      cases e : c.th u <;> rw [e] at h4 <;> simp [finish] at h4 <;> exact ⟨_, rfl⟩
    | pend r o k h1 h2 h3 h4 h5 h6 =>
      rcases h6 with h6 | ⟨h6, -⟩
      · left; simp only [Sys.step, h6, replRest]; exact ⟨_, rfl⟩
      · by_cases hoo : (c.mem o).owner = none
        · left
          simp only [Sys.step, h6, replLock, hoo, ne_eq, not_true_eq_false, if_false]
          split <;> exact ⟨_, rfl⟩
        · exact .inr ⟨r, o, k, h1, h5, hoo⟩
    | both r o k h0 h1 h2 h3 h4 h5 h6 h7 =>
      left
      rcases h7 with ⟨h7, -⟩ | ⟨h7, -⟩ | h7 | ⟨h7, -⟩ <;>
        simp only [Sys.step, h7, replBoth, replTail, replUnl] <;> exact ⟨_, rfl⟩
  rcases go t ⟨x, ho⟩ with ⟨c', h1⟩ | ⟨r, o, k, h1, h2, h3⟩
  · exact ⟨t, c', h1⟩
  · have hres := h.resp t
    rw [h2] at hres
    have hread : r ≠ o ∧ ∀ i, i < 8 * L o → Rd t o i ∨ Wr t o i := by
      generalize hg : (Prog.lock r (replRest r o k)) = g at hres
      cases hres with
      | ret => cases hg
      | @sect r' k' _ d' hfin _ _ _ _ =>
        cases hg
        have := hfin _ (h.fresh r).2.2
        simp [replRest, replLock, finish] at this
      | @repl r' o' k' hne hL hw hr hk =>
        simp only [Prog.lock.injEq] at hg
        obtain ⟨rfl, hg⟩ := hg
        obtain ⟨rfl, rfl⟩ := replRest_inj hg
        exact ⟨hne, hr⟩
    cases eu : (c.mem o).owner with
    | none => exact absurd eu h3
    | some u =>
      have hut : u ≠ t := by
        rintro rfl
        exact hread.1 ((h1 o).1 eu).symm
      rcases go u ⟨o, eu⟩ with ⟨c', g1⟩ | ⟨r', o', k', g1, g2, -⟩
      · exact ⟨u, c', g1⟩
      · have : o = r' := (g1 o).1 eu
        subst this
        have hres := h.resp u
        rw [g2] at hres
        have hwrite : ∀ i, i < 8 * L o → Wr u o i := by
          generalize hg : (Prog.lock o (replRest o o' k')) = g at hres
          cases hres with
          | ret => cases hg
          | @sect r' k' _ d' hfin _ _ _ _ =>
            cases hg
            have := hfin _ (h.fresh o).2.2
            simp [replRest, replLock, finish] at this
          | @repl r' o' k' hne hL hw hr hk =>
            simp only [Prog.lock.injEq] at hg
            obtain ⟨rfl, hg⟩ := hg
            obtain ⟨rfl, rfl⟩ := replRest_inj hg
            exact hw
        have h0 : 0 < 8 * L o := by have := hL o; omega
        obtain ⟨n1, n2⟩ := hrace u t hut o 0 (hwrite 0 h0)
        exact ((hread.2 0 h0).elim n2 n1).elim

theorem Apart.progress {Wr Rd : Nat → Bits} (hL : ∀ r, 0 < L r) (hrace : RaceFree Wr Rd) {s c a : Sys α}
    (h : Apart L Wr Rd s a) (hsim : Sys.TSim c a) (hnf : ¬ c.Final) : ∃ t c', c.step t = some c' := by
  by_cases hown : ∃ r t, (c.mem r).owner = some t
  · obtain ⟨r, t, ho⟩ := hown
    exact h.holder hL hrace hsim ho
  · have hfree : ∀ r, (c.mem r).owner = none := by
      intro r
      cases e : (c.mem r).owner with
      | none => rfl
      | some t => exact absurd ⟨r, t, e⟩ hown
    obtain ⟨t, ht⟩ : ∃ t, ¬ (c.th t).Finished := Classical.not_forall.1 hnf
    have hth : a.th t = c.th t := by
      cases hsim.mode t with
      | idle h1 h2 => exact h2
      | sect r h1 => exact absurd ((h1 r).2 rfl) (fun e => hown ⟨r, t, e⟩)
      | pend r o k h1 => exact absurd ((h1 r).2 rfl) (fun e => hown ⟨r, t, e⟩)
      | both r o k h0 h1 => exact absurd ((h1 r).2 (.inl rfl)) (fun e => hown ⟨r, t, e⟩)
    have hres := h.resp t
    rw [hth] at hres
    refine ⟨t, ?_⟩
    unfold Sys.step
    generalize c.th t = p at hres ht
    cases hres with
    | ret x => exact absurd trivial ht
    | sect =>
      simp only [hfree, ne_eq, not_true_eq_false, if_false]
      split <;> exact ⟨_, rfl⟩
    | repl =>
      simp only [hfree, ne_eq, not_true_eq_false, if_false]
      split <;> exact ⟨_, rfl⟩

end
end PacketRs
