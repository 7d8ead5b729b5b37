import Verif.Spec.Snapshot
import Verif.Lemmas.Split
/-!
# A reader of whole packets against a writer of bits
-/
namespace PacketRs
open Spec
open Prog hiding bind

/-- A program that writes exactly these bits, one critical section each. -/
inductive Writer {α : Type} (L : Nat → Nat) : Prog α → List BitWrite → Prop where
  | done (a : α) : Writer L (.ret a) []
  | step {r i : Nat} {b : Bool} {k p' : Prog α} {ws : List BitWrite} (d' : Bytes → Bytes)
      (h : ∀ d, d.length = L r → finish r k d = some (p', d' d, false))
      (hl : ∀ d, d.length = L r → (d' d).length = L r)
      (hb : ∀ d, d.length = L r → ∀ j, netBit (d' d) j = if j = i then b else netBit d j)
      (hw : Writer L p' ws) : Writer L (.lock r k) (⟨r, i, b⟩ :: ws)

theorem writer_set {α : Type} {L : Nat → Nat} {r lo n : Nat} (hin : n ≠ 0 → lo + n - 1 < 8 * L r) (v : U64) {k : Prog α} {ws : List BitWrite}
    (hk : Writer L k ws) :
    Writer L (((List.range' lo n).reverse.foldlM (setBitStepP r) v).bind fun _ => k)
      ((List.range n).map (fun j => ⟨r, lo + n - 1 - j, v.getLsbD j⟩) ++ ws) := by
  induction n generalizing v with
  | zero => exact hk
  | succ n ih =>
    have hin' := hin (by omega)
    have hsplit : (((List.range' lo (n + 1)).reverse.foldlM (setBitStepP r) v).bind fun _ => k) =
        (setBitStepP r v (lo + n)).bind fun v => ((List.range' lo n).reverse.foldlM (setBitStepP r) v).bind fun _ => k := by
      rw [List.range'_concat, List.reverse_append]
      simp only [List.reverse_cons, List.reverse_nil, List.nil_append, List.cons_append, List.foldlM_cons, Nat.one_mul]
      rw [bind_def, bind_assoc']
    rw [hsplit]
    obtain ⟨k', ek, hk'⟩ := setBitStepP_sect r v (lo + n)
      (fun v => ((List.range' lo n).reverse.foldlM (setBitStepP r) v).bind fun _ => k)
    rw [ek, List.range_succ_eq_map, List.map_cons, List.map_map, List.cons_append]
    have e0 : lo + (n + 1) - 1 - 0 = lo + n := by omega
    have e1 : (List.range n).map ((fun j => (⟨r, lo + (n + 1) - 1 - j, v.getLsbD j⟩ : BitWrite)) ∘ Nat.succ) =
        (List.range n).map (fun j => ⟨r, lo + n - 1 - j, (v >>> 1).getLsbD j⟩) := by
      refine List.map_congr_left fun j hj => ?_
      simp only [Function.comp, BitVec.getLsbD_ushiftRight, BitWrite.mk.injEq]
      refine ⟨trivial, by omega, ?_⟩
      congr 1; omega
    rw [e0, e1]
    have hstep : ∀ d : Bytes, d.length = L r → ∃ d', setBitStep (d, v) (lo + n) = .ok (d', v >>> 1) ∧ d'.length = d.length ∧
        ∀ k, netBit d' k = if k = lo + n then v.getLsbD 0 else netBit d k :=
      fun d hd => setBitStep_ok d v (lo + n) (by omega)
    refine .step (fun d => match setBitStep (d, v) (lo + n) with
      | .ok x => x.1
      | .error _ => d) ?_ ?_ ?_ (ih (fun _ => by omega) (v >>> 1))
    · intro d hd
      obtain ⟨d', e, -, -⟩ := hstep d hd
      rw [hk', e]; rfl
    · intro d hd
      obtain ⟨d', e, l, -⟩ := hstep d hd
      simp only [e]; omega
    · intro d hd
      obtain ⟨d', e, -, b⟩ := hstep d hd
      simp only [e]; exact b

theorem writer_setAll {α : Type} {L : Nat → Nat} (chk : Bool) (a : α) (calls : List SetCall) (h : ∀ c ∈ calls, c.Ok L) :
    Writer L ((setAll a calls).prog chk) (calls.flatMap SetCall.writes) := by
  induction calls with
  | nil => exact .done a
  | cons c cs ih =>
    have hc := h c (by simp)
    have := writer_set (L := L) (r := c.ref) (lo := c.field.lo) (n := c.field.hi + 1 - c.field.lo)
      (fun _ => by have := hc.1; have := hc.2; omega) c.val (ih fun c hc => h c (by simp [hc]))
    rw [List.flatMap_cons]
    have e : c.writes = (List.range (c.field.hi + 1 - c.field.lo)).map
        (fun j => ⟨c.ref, c.field.lo + (c.field.hi + 1 - c.field.lo) - 1 - j, c.val.getLsbD j⟩) := by
      unfold SetCall.writes
      refine List.map_congr_left fun j hj => ?_
      have := hc.1
      have e : c.field.lo + (c.field.hi + 1 - c.field.lo) - 1 - j = c.field.hi - j := by omega
      rw [e]
    rw [e]
    simp only [setAll, Client.prog, setP, setBitRangeP, bind_def, bind_assoc', inclRange_eq]
    exact this

theorem noReplace_setAll {α : Type} (a : α) : (calls : List SetCall) → NoReplace (setAll a calls)
  | [] => trivial
  | _ :: cs => noReplace_setAll a cs

/-- The rest of a thread that serialises a packet. -/
def pktRest (hs : List HRef) (acc pl : Bytes) : Prog Bytes :=
  (hs.foldlM (fun r (s : HRef) => (toVecP s.ref).bind fun v => .ret (r ++ v)) acc).bind fun r => .ret (r ++ pl)

theorem pktToVecP_rest (p : PRef) : pktToVecP p = pktRest p.hdrs [] p.payload := rfl

theorem pktRest_cons (h : HRef) (hs : List HRef) (acc pl : Bytes) :
    ∃ k, pktRest (h :: hs) acc pl = .lock h.ref k ∧
      ∀ d, finish h.ref k d = some (pktRest hs (acc ++ d) pl, d, false) := by
  refine ⟨_, rfl, fun d => ?_⟩
  simp [finish, loadM, unlockM, bind_def, pure_def, pktRest]

theorem acc_pktRest (hs : List HRef) (acc pl : Bytes) : Acc (fun _ => True) (pktRest hs acc pl) :=
  (Acc.foldlM (fun _ _ => (acc_toVecP trivial).bind fun _ => .ret _) hs acc).bind fun _ => .ret _

theorem Spec.Snapshots.mono {m : Store} {ws : List BitWrite} {p q : Nat} {rs : List Nat} {v : Bytes} (h : p ≤ q)
    (hs : Snapshots m ws q rs v) : Snapshots m ws p rs v := by
  cases hs with
  | nil => exact .nil _
  | cons h1 h2 h3 h4 => exact .cons (by omega) h2 h3 h4

theorem bitAfter_take_succ (m : Store) (ws : List BitWrite) {q : Nat} {w : BitWrite} {todo : List BitWrite}
    (h : ws.drop q = w :: todo) (r i : Nat) :
    bitAfter m (ws.take (q + 1)) r i = if w.ref = r ∧ w.bit = i then w.val else bitAfter m (ws.take q) r i := by
  have : ws.take (q + 1) = ws.take q ++ [w] := by
    have hlt : q < ws.length := by
      refine Nat.lt_of_not_le fun hn => ?_
      rw [List.drop_of_length_le hn] at h; cases h
    rw [List.take_add_one]
    have : ws[q]? = some w := by
      have := congrArg (·[0]?) h
      simpa using this
    rw [this]; rfl
  rw [this]
  simp [bitAfter, List.foldl_append]

/-- A program that only reads: which vectors, in what order, depends on what it has read. -/
inductive Looks {α : Type} (L : Nat → Nat) : Prog α → Look α → Prop where
  | done (a : α) : Looks L (.ret a) (.done a)
  | look {r : Nat} {k : Prog α} {kk : Bytes → Look α} (p' : Bytes → Prog α)
      (h : ∀ d, d.length = L r → finish r k d = some (p' d, d, false))
      (hk : ∀ d, d.length = L r → Looks L (p' d) (kk d)) : Looks L (.lock r k) (.look r kk)

theorem Spec.Answers.mono {α : Type} {m : Store} {ws : List BitWrite} {p q : Nat} {k : Look α} {a : α} (h : p ≤ q)
    (hs : Answers m ws q k a) : Answers m ws p k a := by
  cases hs with
  | done => exact .done _ _
  | look h1 h2 h3 h4 => exact .look (by omega) h2 h3 h4

/-- What holds in the middle of a run: `q` bits have been written; the reader still has to read `k`. -/
structure RW {α : Type} (L : Nat → Nat) (m : Store) (all : List BitWrite) (q : Nat) (k : Look α) (s : Sys α) : Prop where
  fresh : Fresh L s.mem
  le : q ≤ all.length
  writer : Writer L (s.th 1) (all.drop q)
  bits : ∀ r i, netBit (s.mem r).bytes i = bitAfter m (all.take q) r i
  reader : Looks L (s.th 0) k
  others : ∀ t, t ≠ 0 → t ≠ 1 → ∃ a, s.th t = .ret a

section
variable {α : Type} {L : Nat → Nat} {m : Store} {all : List BitWrite} {q : Nat} {k : Look α} {s : Sys α}

theorem RW.holds (hm : Fresh L m) (h : RW L m all q k s) (r : Nat) : Holds m (all.take q) r (s.mem r).bytes :=
  ⟨by rw [(h.fresh r).2.2, (hm r).2.2], fun i _ => h.bits r i⟩

theorem fresh_cell {m : Store} (h : Fresh L m) (r : Nat) : m r = ⟨(m r).bytes, false, none⟩ := by
  have h1 := (h r).1
  have h2 := (h r).2.1
  cases hc : m r with
  | mk b p o => rw [hc] at h1 h2; simp only at h1 h2; subst h1; subst h2; rfl

/-- The reader reads the next vector. -/
theorem RW.read {r : Nat} {kk : Bytes → Look α} (hr : RW L m all q (.look r kk) s) :
    ∃ s', s.astep 0 = some s' ∧ RW L m all q (kk (s.mem r).bytes) s' := by
  have hrd := hr.reader
  generalize e1 : s.th 0 = pr at hrd
  cases hrd with
  | @look _ k _ p' h hk =>
    have hlen := (hr.fresh r).2.2
    refine ⟨⟨s.mem.put r ⟨(s.mem r).bytes, false, none⟩, s.setTh 0 (p' (s.mem r).bytes)⟩,
      by simp only [Sys.astep, e1, (hr.fresh r).2.1, Bool.false_eq_true, if_false, h _ hlen], ?_⟩
    rw [put_eq_self _ (fresh_cell hr.fresh r).symm]
    refine ⟨hr.fresh, hr.le, ?_, hr.bits, by simpa using hk _ hlen, ?_⟩
    · simp only [Sys.setTh_ne _ _ (show 1 ≠ 0 by omega)]; exact hr.writer
    · intro t h0 h1; simp only [Sys.setTh_ne _ _ h0]; exact hr.others t h0 h1

/-- The writer writes the next bit. -/
theorem RW.write (hr : RW L m all q k s) (hq : q < all.length) :
    ∃ s', s.astep 1 = some s' ∧ RW L m all (q + 1) k s' := by
  have hw := hr.writer
  generalize e1 : s.th 1 = pr at hw
  generalize e2 : all.drop q = todo at hw
  cases hw with
  | done => rw [List.drop_eq_nil_iff] at e2; omega
  | @step r i b k p' ws d' h hl hb hw =>
    have hlen := (hr.fresh r).2.2
    refine ⟨⟨s.mem.put r ⟨d' (s.mem r).bytes, false, none⟩, s.setTh 1 p'⟩,
      by simp only [Sys.astep, e1, (hr.fresh r).2.1, Bool.false_eq_true, if_false, h _ hlen], ?_⟩
    refine ⟨hr.fresh.put (hl _ hlen), hq, ?_, ?_, ?_, ?_⟩
    · have : all.drop (q + 1) = ws := by
        rw [← List.drop_drop, e2]; rfl
      rw [this]; simpa using hw
    · intro x j
      rw [bitAfter_take_succ m all e2]
      by_cases hx : x = r
      · subst hx
        simp only [put_same, hb _ hlen]
        by_cases hj : j = i
        · subst hj; simp
        · rw [if_neg hj, if_neg (by rintro ⟨-, rfl⟩; exact hj rfl)]; exact hr.bits x j
      · simp only [put_ne _ _ hx]; rw [if_neg (by rintro ⟨rfl, -⟩; exact hx rfl)]; exact hr.bits x j
    · simp only [Sys.setTh_ne _ _ (show 0 ≠ 1 by omega)]; exact hr.reader
    · intro t h0 h1; simp only [Sys.setTh_ne _ _ h1]; exact hr.others t h0 h1

theorem RW.areach (hm : Fresh L m) {s0 : Sys α} {k0 : Look α} (h0 : RW L m all 0 k0 s0) {s : Sys α} (h : Sys.AReach s0 s) :
    ∃ q k, RW L m all q k s ∧ ∀ a, Answers m all q k a → Answers m all 0 k0 a := by
  induction h with
  | refl => exact ⟨0, _, h0, fun v hv => hv⟩
  | @step s' s'' t _ hst ih =>
    obtain ⟨q, k, hr, hv⟩ := ih
    by_cases ht0 : t = 0
    · subst ht0
      cases k with
      | done a =>
        have := hr.reader
        generalize e : s'.th 0 = pr at this
        cases this
        simp [Sys.astep, e] at hst
      | look r kk =>
        obtain ⟨s1, e, hr'⟩ := hr.read
        rw [e] at hst; cases hst
        exact ⟨q, _, hr', fun a ha => hv _ (.look (Nat.le_refl _) hr.le (hr.holds hm _) ha)⟩
    · by_cases ht1 : t = 1
      · subst ht1
        by_cases hq : q < all.length
        · obtain ⟨s1, e, hr'⟩ := hr.write hq
          rw [e] at hst; cases hst
          exact ⟨q + 1, k, hr', fun v hs' => hv v (hs'.mono (by omega))⟩
        · have hw := hr.writer
          rw [List.drop_of_length_le (by omega)] at hw
          generalize e : s'.th 1 = pr at hw
          cases hw
          simp [Sys.astep, e] at hst
      · obtain ⟨a, ha⟩ := hr.others t ht0 ht1
        simp [Sys.astep, ha] at hst

/-- The writer runs up to the `q`-th bit. -/
theorem RW.upto (q' : Nat) (hr : RW L m all q k s) (hq : q ≤ q') (hq' : q' ≤ all.length) :
    ∃ s', Sys.AReach s s' ∧ RW L m all q' k s' := by
  induction q' with
  | zero => cases Nat.le_zero.1 hq; exact ⟨s, .refl, hr⟩
  | succ n ih =>
    by_cases e : q = n + 1
    · subst e; exact ⟨s, .refl, hr⟩
    · obtain ⟨s1, h1, h2⟩ := ih (by omega) (by omega)
      obtain ⟨s2, h3, h4⟩ := h2.write (by omega)
      exact ⟨s2, h1.trans (.step 1 .refl h3), h4⟩

theorem RW.attain (hm : Fresh L m) {a : α} (hr : RW L m all q k s) (hv : Answers m all q k a) :
    ∃ s', Sys.AReach s s' ∧ s'.th 0 = .ret a := by
  induction k generalizing q s with
  | done b =>
    cases hv
    have := hr.reader
    generalize e : s.th 0 = pr at this
    cases this
    exact ⟨s, .refl, e⟩
  | look r kk ih =>
    cases hv with
    | @look _ q' _ _ d _ h1 h2 h3 h4 =>
      obtain ⟨s1, r1, w1⟩ := hr.upto q' h1 h2
      obtain ⟨s2, e2, w2⟩ := w1.read
      have : (s1.mem r).bytes = d := by
        refine netBit_inj (n := L r) (w1.fresh r).2.2 (by rw [h3.1]; exact (hm r).2.2) fun i hi => ?_
        rw [w1.bits, h3.2 i (by rw [h3.1, (hm r).2.2]; exact hi)]
      rw [this] at w2
      obtain ⟨s3, r3, e3⟩ := ih d w2 h4
      exact ⟨s3, r1.trans (Sys.AReach.trans (.step 0 .refl e2) r3), e3⟩

/-- The answers of a thread that only reads, against a thread that only writes. -/
theorem answers_iff (hm : Fresh L m) (hacc : ∀ t, Acc (fun _ => True) (s.th t)) (h0 : RW L m all 0 k s) (hmem : s.mem = m) (a : α) :
    (∃ c, Sys.Reach s c ∧ c.th 0 = .ret a) ↔ Answers m all 0 k a := by
  have hf : Fresh L s.mem := hmem ▸ hm
  constructor
  · rintro ⟨c, hr, hv⟩
    obtain ⟨b, ha, hsim⟩ := Sys.Sim.reach hf.free hacc hr
    obtain ⟨q, k', hrw, hsn⟩ := RW.areach hm h0 ha
    have hid : b.th 0 = .ret a := by
      rw [hsim.idle 0, hv]
      intro r ho
      have := (hsim.held r 0 ho).2.2
      rw [hv] at this; cases this
    have hrd := hrw.reader
    rw [hid] at hrd
    cases hrd
    exact hsn _ (.done _ _)
  · intro hw
    obtain ⟨c, hr, hs⟩ := h0.attain hm hw
    exact ⟨c, (Sys.reach_of_areach hf.free hr).1, hs⟩

end

/-- Reading all of `hs` and then going on with what was read. -/
def lookHdrs {α : Type} (hs : List HRef) (acc : Bytes) (k : Bytes → Look α) : Look α :=
  match hs with
  | [] => k acc
  | h :: hs => .look h.ref fun d => lookHdrs hs (acc ++ d) k

theorem reads_pkt {α : Type} {L : Nat → Nat} (hs : List HRef) (acc pl : Bytes) (f : Bytes → Prog α) (g : Bytes → Look α)
    (hk : ∀ d, d.length = acc.length + ((hs.map HRef.ref).map L).sum → Looks L (f (d ++ pl)) (g d)) :
    Looks L ((pktRest hs acc pl).bind f) (lookHdrs hs acc g) := by
  induction hs generalizing acc with
  | nil => exact hk acc (by simp)
  | cons h hs ih =>
    obtain ⟨k, e, hf⟩ := pktRest_cons h hs acc pl
    rw [e]
    refine .look (fun d => (pktRest hs (acc ++ d) pl).bind f) (fun d _ => finish_bind f (hf d)) fun d hd => ih _ fun x hx => hk x ?_
    simp only [hx, List.length_append, hd, List.map_cons, List.sum_cons]; omega

theorem answers_lookHdrs {α : Type} {m : Store} {ws : List BitWrite} {q : Nat} (hs : List HRef) (acc : Bytes) (g : Bytes → Look α) (a : α)
    (hq : q ≤ ws.length) :
    Answers m ws q (lookHdrs hs acc g) a ↔
      ∃ q' v, q' ≤ ws.length ∧ SnapshotsTo m ws q (hs.map HRef.ref) v q' ∧ Answers m ws q' (g (acc ++ v)) a := by
  induction hs generalizing acc q with
  | nil =>
    constructor
    · intro h; exact ⟨q, [], hq, .nil _, by simpa [lookHdrs] using h⟩
    · rintro ⟨q', v, -, hs, h⟩
      cases hs
      simpa [lookHdrs] using h
  | cons h hs ih =>
    constructor
    · intro ha
      cases ha with
      | @look _ q1 _ _ d _ h1 h2 h3 h4 =>
        obtain ⟨q', v, hq', hv, ha⟩ := (ih (acc ++ d) h2).1 h4
        exact ⟨q', d ++ v, hq', .cons h1 h2 h3 hv, by simpa using ha⟩
    · rintro ⟨q', v, hq', hv, ha⟩
      cases hv with
      | @cons _ q1 _ _ _ d v h1 h2 h3 h4 =>
        exact .look h1 h2 h3 ((ih (acc ++ d) h2).2 ⟨q', v, hq', h4, by simpa using ha⟩)

theorem snapshotsTo_iff {m : Store} {ws : List BitWrite} {q : Nat} {rs : List Nat} {v : Bytes} (hq : q ≤ ws.length) :
    (∃ q', q' ≤ ws.length ∧ SnapshotsTo m ws q rs v q') ↔ Snapshots m ws q rs v := by
  constructor
  · rintro ⟨q', -, h⟩
    induction h with
    | nil => exact .nil _
    | cons h1 h2 h3 _ ih => exact .cons h1 h2 h3 (ih h2)
  · intro h
    induction h with
    | nil p => exact ⟨p, hq, .nil _⟩
    | cons h1 h2 h3 _ ih =>
      obtain ⟨q', hq', h⟩ := ih h2
      exact ⟨q', hq', .cons h1 h2 h3 h⟩

end PacketRs
