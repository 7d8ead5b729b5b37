import Verif.Props.Snapshot
import Verif.Props.Container
/-!
# C79: `compare` while another thread sets fields

`compare` serialises its argument and then, if the lengths agree, the packet it is called on
(/repo/src/packet.rs:326-358); nothing keeps other threads from writing in between.
-/
namespace PacketRs
open Spec
open Prog hiding bind

variable {L : Nat → Nat}

theorem snapshotsTo_length {m : Store} {ws : List BitWrite} {a e : Nat} {rs : List Nat} {v : Bytes} (hm : Fresh L m)
    (h : SnapshotsTo m ws a rs v e) : v.length = (rs.map L).sum := by
  induction h with
  | nil => rfl
  | @cons _ q r _ _ d _ h1 h2 h3 _ ih => simp [ih, h3.1, (hm r).2.2]

theorem bitAfter_concat (m : Store) (ws : List BitWrite) (w : BitWrite) (r i : Nat) :
    bitAfter m (ws ++ [w]) r i = if w.ref = r ∧ w.bit = i then w.val else bitAfter m ws r i := by
  simp [bitAfter, List.foldl_append]

theorem holds_exists (m : Store) (ws : List BitWrite) (r : Nat) : ∃ d, Holds m ws r d := by
  have key : ∀ n, ∃ d, Holds m (ws.take n) r d := by
    intro n
    induction n with
    | zero => exact ⟨(m r).bytes, rfl, fun i _ => rfl⟩
    | succ n ih =>
      obtain ⟨d, hl, hd⟩ := ih
      by_cases hn : n < ws.length
      · have e : ws.take (n + 1) = ws.take n ++ [ws[n]] := List.take_succ_eq_append_getElem hn
        rw [e]
        by_cases hr : ws[n].ref = r ∧ ws[n].bit < 8 * d.length
        · obtain ⟨d', -, h2, h3⟩ := setBitStep_ok d (if ws[n].val then 1#64 else 0#64) ws[n].bit (by omega)
          refine ⟨d', by omega, fun i hi => ?_⟩
          rw [bitAfter_concat, h3 i]
          by_cases hi' : i = ws[n].bit
          · rw [if_pos hi', if_pos (⟨hr.1, hi'.symm⟩ : ws[n].ref = r ∧ ws[n].bit = i)]; cases ws[n].val <;> rfl
          · rw [if_neg hi', if_neg (by rintro ⟨-, e⟩; exact hi' e.symm), hd i (by omega)]
        · refine ⟨d, hl, fun i hi => ?_⟩
          rw [bitAfter_concat, if_neg (by rintro ⟨e1, rfl⟩; exact hr ⟨e1, hi⟩), hd i hi]
      · have e : ws.take (n + 1) = ws.take n := by
          rw [List.take_of_length_le (by omega), List.take_of_length_le (by omega)]
        rw [e]; exact ⟨d, hl, hd⟩
  have := key ws.length
  rwa [List.take_length] at this

theorem holds_unique {m : Store} {ws : List BitWrite} {r : Nat} {d d' : Bytes} (h : Holds m ws r d) (h' : Holds m ws r d') : d = d' :=
  netBit_inj h.1 h'.1 fun i hi => by rw [h.2 i (by rw [h.1]; exact hi), h'.2 i (by rw [h'.1]; exact hi)]

theorem snapshotsTo_at {m : Store} {ws : List BitWrite} {a q : Nat} (hq : a ≤ q) (hl : q ≤ ws.length) (rs : List Nat) (f : Nat → Bytes)
    (hf : ∀ r ∈ rs, Holds m (ws.take q) r (f r)) : ∃ e, e ≤ q ∧ SnapshotsTo m ws a rs (rs.map f).flatten e := by
  induction rs generalizing a with
  | nil => exact ⟨a, hq, .nil _⟩
  | cons r rs ih =>
    obtain ⟨e, he, h⟩ := ih (Nat.le_refl q) fun r hr => hf r (by simp [hr])
    exact ⟨e, he, .cons hq hl (hf r (by simp)) h⟩

theorem snapshots_at {m : Store} {ws : List BitWrite} {a q : Nat} (hq : a ≤ q) (hl : q ≤ ws.length) (rs : List Nat) (f : Nat → Bytes)
    (hf : ∀ r ∈ rs, Holds m (ws.take q) r (f r)) : Snapshots m ws a rs (rs.map f).flatten := by
  obtain ⟨e, he, h⟩ := snapshotsTo_at hq hl rs f hf
  exact (snapshotsTo_iff (by omega)).1 ⟨e, by omega, h⟩

theorem snapshotsTo_le {m : Store} {ws : List BitWrite} {a e : Nat} {rs : List Nat} {v : Bytes} (h : SnapshotsTo m ws a rs v e)
    (ha : a ≤ ws.length) : e ≤ ws.length := by
  induction h with
  | nil => exact ha
  | cons _ h2 _ _ ih => exact ih h2

/-- What the comparison answers once both packets have been read. -/
theorem compare_answer (p : PRef) (a b : Bytes) :
    (if p.len ≠ ((a.zip b).filter (fun x => x.1 == x.2)).length ∨ b.length ≠ ((a.zip b).filter (fun x => x.1 == x.2)).length
      then false else true) = decide (p.len = b.length ∧ b <+: a) := by
  have hz := zip_matching a b
  generalize ((a.zip b).filter (fun x => x.1 == x.2)).length = n at hz
  split
  · rename_i h
    rw [eq_comm, decide_eq_false_iff_not]
    rintro ⟨h1, h2⟩
    have := hz.2 h2
    omega
  · rename_i h
    rw [eq_comm, decide_eq_true_iff]
    have h1 : n = b.length := by omega
    exact ⟨by omega, hz.1 h1⟩

theorem reads_compare (p q : PRef) :
    Looks L (compareP p q) (lookHdrs q.hdrs [] fun vq =>
      if p.len = (vq ++ q.payload).length then
        lookHdrs p.hdrs [] fun vp => .done (decide (p.len = (vq ++ q.payload).length ∧ (vq ++ q.payload) <+: (vp ++ p.payload)))
      else .done false) := by
  show Looks L ((pktRest q.hdrs [] q.payload).bind fun a => compareSliceP p a) _
  refine reads_pkt _ _ _ _ _ fun vq _ => ?_
  generalize vq ++ q.payload = b
  unfold compareSliceP
  by_cases h : p.len = b.length
  · rw [if_pos h]
    simp only [ne_eq, h, not_true_eq_false, if_false, true_and]
    show Looks L ((pktRest p.hdrs [] p.payload).bind _) _
    refine reads_pkt _ _ _ _ _ fun vp _ => ?_
    have := compare_answer p (vp ++ p.payload) b
    simp only [h, ne_eq, true_and] at this
    rw [← this]
    split
    · exact .done _
    · exact .done _
  · rw [if_neg h]
    simp only [ne_eq, h, not_false_eq_true, if_true]
    exact .done _

theorem acc_compareP (p q : PRef) : Acc (fun _ => True) (compareP p q) := by
  refine (acc_pktRest q.hdrs [] q.payload).bind fun b => ?_
  unfold compareSliceP
  dsimp only
  split
  · exact .ret _
  · refine (acc_pktRest p.hdrs [] p.payload).bind fun a => ?_
    split <;> exact .ret _

/-- **C79**: thread 0 computes `p.compare(&q)` while thread 1 makes any list of setter calls.  The answers it can give are exactly
those of comparing a string `vq` in which each header of `q` is shown as at one moment, with a string `vp` in which each
header of `p` is shown as at one moment, all moments in reading order: first the headers of `q`, then those of `p`. -/
theorem C79_compare (chk : Bool) (m : Store) (hm : Fresh L m) (p q : PRef) (calls : List SetCall) (hc : ∀ c ∈ calls, c.Ok L) (b : Bool) :
    (∃ s, Sys.Reach (compareWrite chk m p q calls) s ∧ s.th 0 = .ret b) ↔
    ∃ e vq vp, SnapshotsTo m (calls.flatMap SetCall.writes) 0 (q.hdrs.map HRef.ref) vq e ∧
      Snapshots m (calls.flatMap SetCall.writes) e (p.hdrs.map HRef.ref) vp ∧
      (b = true ↔ p.len = (vq ++ q.payload).length ∧ (vq ++ q.payload) <+: (vp ++ p.payload)) := by
  generalize hws : calls.flatMap SetCall.writes = ws
  have h0 : RW L m ws 0 (lookHdrs q.hdrs [] fun vq =>
      if p.len = (vq ++ q.payload).length then
        lookHdrs p.hdrs [] fun vp => .done (decide (p.len = (vq ++ q.payload).length ∧ (vq ++ q.payload) <+: (vp ++ p.payload)))
      else .done false) (compareWrite chk m p q calls) := by
    refine ⟨hm, Nat.zero_le _, ?_, fun r i => rfl, reads_compare p q, ?_⟩
    · rw [← hws]; exact writer_setAll chk false calls hc
    · intro t h0 h1
      match t, h0, h1 with
      | t + 2, _, _ => exact ⟨_, rfl⟩
  have hacc : ∀ t, Acc (fun _ => True) ((compareWrite chk m p q calls).th t) := by
    intro t
    simp only [compareWrite]
    split
    · exact acc_compareP p q
    · exact acc_client chk _ (noReplace_setAll false calls)
    · exact .ret _
  rw [answers_iff hm hacc h0 rfl, answers_lookHdrs _ _ _ _ (Nat.zero_le _)]
  simp only [List.nil_append]
  constructor
  · rintro ⟨e, vq, he, hq, ha⟩
    by_cases hl : p.len = (vq ++ q.payload).length
    · rw [if_pos hl, answers_lookHdrs _ _ _ _ he] at ha
      obtain ⟨e', vp, he', hp, ha⟩ := ha
      cases ha
      exact ⟨e, vq, vp, hq, (snapshotsTo_iff he).1 ⟨e', he', hp⟩, by simp⟩
    · rw [if_neg hl] at ha
      cases ha
      refine ⟨e, vq, _, hq, snapshots_at (Nat.le_refl e) he (p.hdrs.map HRef.ref)
        (fun r => (holds_exists m (ws.take e) r).choose) (fun r _ => (holds_exists m (ws.take e) r).choose_spec), ?_⟩
      simp only [Bool.false_eq_true, false_iff]
      exact fun h => hl h.1
  · rintro ⟨e, vq, vp, hq, hp, hb⟩
    have he := snapshotsTo_le hq (Nat.zero_le _)
    refine ⟨e, vq, he, hq, ?_⟩
    by_cases hl : p.len = (vq ++ q.payload).length
    · rw [if_pos hl, answers_lookHdrs _ _ _ _ he]
      obtain ⟨e', he', hp⟩ := (snapshotsTo_iff he).2 hp
      refine ⟨e', vp, he', hp, ?_⟩
      have : b = decide (p.len = (vq ++ q.payload).length ∧ (vq ++ q.payload) <+: (vp ++ p.payload)) := by
        rw [Bool.eq_iff_iff, hb]; simp
      rw [this, List.nil_append]; exact .done _ _
    · rw [if_neg hl]
      have : b = false := by rw [← Bool.not_eq_true, hb]; exact fun h => hl h.1
      rw [this]; exact .done _ _

theorem map_ref_flatten (p : PRef) (f : Nat → Bytes) : (p.hdrs.map fun h => f h.ref).flatten = ((p.hdrs.map HRef.ref).map f).flatten := by
  rw [List.map_map]; rfl

theorem sum_sized {p : PRef} (hp : Sized L p) : p.len = ((p.hdrs.map HRef.ref).map L).sum + p.payload.length := by
  unfold PRef.len
  rw [List.map_map]
  congr 2
  exact List.map_congr_left fun h hh => (hp h hh).symm

/-- With declared sizes the answer is equality of the two strings that were read. -/
theorem answer_sized {m : Store} (hm : Fresh L m) {ws : List BitWrite} {p : PRef} (hp : Sized L p) {a e : Nat} {vp x : Bytes}
    (h : SnapshotsTo m ws a (p.hdrs.map HRef.ref) vp e) : (p.len = x.length ∧ x <+: vp ++ p.payload) ↔ vp ++ p.payload = x := by
  have hl : p.len = (vp ++ p.payload).length := by rw [sum_sized hp, List.length_append, snapshotsTo_length hm h]
  rw [hl]
  constructor
  · rintro ⟨h1, h2⟩; exact (h2.eq_of_length h1.symm).symm
  · rintro rfl; exact ⟨rfl, List.prefix_refl _⟩

/-- Nothing changes: every snapshot is the initial contents. -/
theorem snapshotsTo_quiet {m : Store} {ws : List BitWrite} {a e : Nat} {rs : List Nat} {v : Bytes} (hn : ¬ Changes m ws rs)
    (h : SnapshotsTo m ws a rs v e) : v = (rs.map fun r => (m r).bytes).flatten := by
  have key : ∀ n, n ≤ ws.length → ∀ r ∈ rs, ∀ i, bitAfter m (ws.take n) r i = netBit (m r).bytes i := by
    intro n
    induction n with
    | zero => intro _ r _ i; rfl
    | succ n ih =>
      intro hn' r hr i
      have hlt : n < ws.length := hn'
      rw [List.take_succ_eq_append_getElem hlt, bitAfter_concat]
      split
      · rename_i hw
        obtain ⟨rfl, rfl⟩ := hw
        rw [← ih (by omega) _ hr]
        by_cases hd : bitAfter m (ws.take n) ws[n].ref ws[n].bit = ws[n].val
        · exact hd.symm
        · exact absurd ⟨n, ws[n], List.getElem?_eq_getElem hlt, hr, hd⟩ hn
      · exact ih (by omega) r hr i
  clear hn
  induction h with
  | nil => rfl
  | @cons _ q r _ rs d v h1 h2 h3 _ ih =>
    rw [ih fun n hn r hr => key n hn r (by simp [hr])]
    have : d = (m r).bytes := netBit_inj h3.1 rfl fun i hi => by
      rw [h3.2 i (by rw [h3.1]; exact hi), key q h2 r (by simp)]
    rw [this]; rfl

theorem flatten_map_inj {f g : Nat → Bytes} (rs : List Nat) (hl : ∀ r ∈ rs, (f r).length = (g r).length)
    (h : (rs.map f).flatten = (rs.map g).flatten) : ∀ r ∈ rs, f r = g r := by
  induction rs with
  | nil => intro r hr; cases hr
  | cons r rs ih =>
    simp only [List.map_cons, List.flatten_cons] at h
    obtain ⟨h1, h2⟩ := List.append_inj h (hl r (by simp))
    intro x hx
    rcases List.mem_cons.1 hx with rfl | hx
    · exact h1
    · exact ih (fun r hr => hl r (by simp [hr])) h2 x hx

theorem writes_in_range {calls : List SetCall} (hc : ∀ c ∈ calls, c.Ok L) {w : BitWrite} (h : w ∈ calls.flatMap SetCall.writes) :
    w.bit < 8 * L w.ref := by
  obtain ⟨c, hcm, hw⟩ := List.mem_flatMap.1 h
  have hok := hc c hcm
  simp only [SetCall.writes, List.mem_map] at hw
  obtain ⟨j, -, rfl⟩ := hw
  have := hok.2
  show c.field.hi - j < 8 * L c.ref
  omega

/-- **C79**, undisturbed: if no write to a header of either packet changes a bit, the answer is the one of the packets as they are,
whatever the schedule. -/
theorem C79_undisturbed (chk : Bool) (m : Store) (hm : Fresh L m) (p q : PRef) (hp : Sized L p) (calls : List SetCall)
    (hc : ∀ c ∈ calls, c.Ok L)
    (hn : ¬ Changes m (calls.flatMap SetCall.writes) (q.hdrs.map HRef.ref ++ p.hdrs.map HRef.ref)) (b : Bool) :
    (∃ s, Sys.Reach (compareWrite chk m p q calls) s ∧ s.th 0 = .ret b) ↔
    (b = true ↔ (p.hdrs.map fun h => (m h.ref).bytes).flatten ++ p.payload = (q.hdrs.map fun h => (m h.ref).bytes).flatten ++ q.payload) := by
  have hnq : ¬ Changes m (calls.flatMap SetCall.writes) (q.hdrs.map HRef.ref) := fun ⟨n, w, h1, h2, h3⟩ =>
    hn ⟨n, w, h1, List.mem_append_left _ h2, h3⟩
  have hnp : ¬ Changes m (calls.flatMap SetCall.writes) (p.hdrs.map HRef.ref) := fun ⟨n, w, h1, h2, h3⟩ =>
    hn ⟨n, w, h1, List.mem_append_right _ h2, h3⟩
  rw [C79_compare chk m hm p q calls hc, map_ref_flatten p (fun r => (m r).bytes), map_ref_flatten q (fun r => (m r).bytes)]
  constructor
  · rintro ⟨e, vq, vp, hq, hpp, hb⟩
    have he := snapshotsTo_le hq (Nat.zero_le _)
    obtain ⟨e', he', hp'⟩ := (snapshotsTo_iff he).2 hpp
    rw [hb, answer_sized hm hp hp', snapshotsTo_quiet hnq hq, snapshotsTo_quiet hnp hp']
  · intro hb
    obtain ⟨e, he, h⟩ := snapshotsTo_at (m := m) (ws := calls.flatMap SetCall.writes) (Nat.le_refl 0) (Nat.zero_le _)
      (q.hdrs.map HRef.ref) (fun r => (m r).bytes) (fun r _ => ⟨rfl, fun i _ => rfl⟩)
    cases Nat.le_zero.1 he
    have h2 := snapshotsTo_at (m := m) (ws := calls.flatMap SetCall.writes) (Nat.le_refl 0) (Nat.zero_le _)
      (p.hdrs.map HRef.ref) (fun r => (m r).bytes) (fun r _ => ⟨rfl, fun i _ => rfl⟩)
    obtain ⟨e2, he2, h2⟩ := h2
    cases Nat.le_zero.1 he2
    exact ⟨0, _, _, h, (snapshotsTo_iff (Nat.zero_le _)).1 ⟨0, Nat.zero_le _, h2⟩, by rw [hb, answer_sized hm hp h2]⟩

/-- **C79**, a packet and its clone (same storage, same payload): at every moment they are equal and `true` is always a possible
answer; `false` is possible iff some single-bit write to one of their headers changes the bit. -/
theorem C79_clone (chk : Bool) (m : Store) (hm : Fresh L m) (p : PRef) (hp : Sized L p) (calls : List SetCall)
    (hc : ∀ c ∈ calls, c.Ok L) :
    (∃ s, Sys.Reach (compareWrite chk m p p calls) s ∧ s.th 0 = .ret true) ∧
    ((∃ s, Sys.Reach (compareWrite chk m p p calls) s ∧ s.th 0 = .ret false) ↔
      Changes m (calls.flatMap SetCall.writes) (p.hdrs.map HRef.ref)) := by
  simp only [C79_compare chk m hm p p calls hc]
  constructor
  · obtain ⟨e, he, h⟩ := snapshotsTo_at (m := m) (ws := calls.flatMap SetCall.writes) (Nat.le_refl 0) (Nat.zero_le _)
      (p.hdrs.map HRef.ref) (fun r => (m r).bytes) (fun r _ => ⟨rfl, fun i _ => rfl⟩)
    cases Nat.le_zero.1 he
    exact ⟨0, _, _, h, (snapshotsTo_iff (Nat.zero_le _)).1 ⟨0, Nat.zero_le _, h⟩, by rw [answer_sized hm hp h]; simp⟩
  · constructor
    · rintro ⟨e, vq, vp, hq, hpp, hb⟩
      by_cases hn : Changes m (calls.flatMap SetCall.writes) (p.hdrs.map HRef.ref)
      · exact hn
      · have he := snapshotsTo_le hq (Nat.zero_le _)
        obtain ⟨e', he', hp'⟩ := (snapshotsTo_iff he).2 hpp
        rw [answer_sized hm hp hp', snapshotsTo_quiet hn hq, snapshotsTo_quiet hn hp'] at hb
        simp at hb
    · rintro ⟨n, w, hw, hr, hd⟩
      generalize hws : calls.flatMap SetCall.writes = ws at hw hd
      obtain ⟨hn, hwn⟩ := List.getElem?_eq_some_iff.1 hw
      have hin : w.bit < 8 * L w.ref := writes_in_range hc (by rw [hws, ← hwn]; exact List.getElem_mem _)
      obtain ⟨e, he, h1⟩ := snapshotsTo_at (m := m) (ws := ws) (Nat.zero_le n) (Nat.le_of_lt hn)
        (p.hdrs.map HRef.ref) (fun r => (holds_exists m (ws.take n) r).choose) (fun r _ => (holds_exists m (ws.take n) r).choose_spec)
      obtain ⟨e', he', h2⟩ := snapshotsTo_at (m := m) (ws := ws) (show e ≤ n + 1 by omega) hn
        (p.hdrs.map HRef.ref) (fun r => (holds_exists m (ws.take (n + 1)) r).choose)
        (fun r _ => (holds_exists m (ws.take (n + 1)) r).choose_spec)
      refine ⟨e, _, _, h1, (snapshotsTo_iff (by omega)).1 ⟨e', by omega, h2⟩, ?_⟩
      rw [answer_sized hm hp h2]
      simp only [Bool.false_eq_true, false_iff]
      intro heq
      have heq := List.append_cancel_right heq
      have hl : ∀ k r, (holds_exists m (ws.take k) r).choose.length = L r := fun k r => by
        rw [(holds_exists m (ws.take k) r).choose_spec.1, (hm r).2.2]
      have := flatten_map_inj _ (fun r _ => by rw [hl, hl]) heq w.ref hr
      have hb := congrArg (fun d => netBit d w.bit) this
      rw [(holds_exists m (ws.take (n + 1)) w.ref).choose_spec.2 _ (by rw [hl]; exact hin),
        (holds_exists m (ws.take n) w.ref).choose_spec.2 _ (by rw [hl]; exact hin),
        List.take_succ_eq_append_getElem hn, bitAfter_concat, hwn, if_pos ⟨rfl, rfl⟩] at hb
      exact hd hb.symm

/-- **C79**, one setter call on a header of the packet: comparing the packet with its clone meanwhile can answer `false` iff the call
changes the field. -/
theorem C79_one_setter (chk : Bool) (m : Store) (hm : Fresh L m) (p : PRef) (hp : Sized L p) (c : SetCall) (hc : c.Ok L)
    (hr : c.ref ∈ p.hdrs.map HRef.ref) :
    (∃ s, Sys.Reach (compareWrite chk m p p [c]) s ∧ s.th 0 = .ret false) ↔
      ∃ i, c.field.lo ≤ i ∧ i ≤ c.field.hi ∧ netBit (m c.ref).bytes i ≠ c.val.getLsbD (c.field.hi - i) := by
  rw [(C79_clone chk m hm p hp [c] (by simpa using hc)).2]
  simp only [List.flatMap_cons, List.flatMap_nil, List.append_nil]
  have hlo := hc.1
  have hget : ∀ n, n < c.field.hi + 1 - c.field.lo → c.writes[n]? = some ⟨c.ref, c.field.hi - n, c.val.getLsbD n⟩ := by
    intro n hn
    simp [SetCall.writes, hn]
  have hbit : ∀ n, n < c.field.hi + 1 - c.field.lo → bitAfter m (c.writes.take n) c.ref (c.field.hi - n) = netBit (m c.ref).bytes (c.field.hi - n) := by
    intro n hn
    rw [bitAfter_writes m hlo, if_neg (by omega)]
  constructor
  · rintro ⟨n, w, hw, -, hd⟩
    have hn : n < c.field.hi + 1 - c.field.lo := by
      rw [← length_writes]
      exact (List.getElem?_eq_some_iff.1 hw).1
    rw [hget n hn] at hw
    cases hw
    refine ⟨c.field.hi - n, by omega, by omega, ?_⟩
    rw [hbit n hn] at hd
    have e : c.field.hi - (c.field.hi - n) = n := by omega
    rw [e]; exact hd
  · rintro ⟨i, h1, h2, hd⟩
    have hn : c.field.hi - i < c.field.hi + 1 - c.field.lo := by omega
    refine ⟨c.field.hi - i, _, hget _ hn, hr, ?_⟩
    rw [hbit _ hn]
    have e : c.field.hi - (c.field.hi - i) = i := by omega
    simp only [e]
    exact hd

/-- Two VLAN tags: cell 0 has `vid = 1`, every other cell is all zero. -/
def twoTags : Store := fun r => if r = 0 then ⟨[0, 1, 0, 0], false, none⟩ else ⟨[0, 0, 0, 0], false, none⟩

theorem twoTags_fresh : Fresh (fun _ => 4) twoTags := by
  intro r
  unfold twoTags
  split <;> exact ⟨rfl, rfl, rfl⟩

/-- The other thread sets the drop bit of `q`'s tag and then clears the `vid` of `p`'s. -/
def tagCalls : List SetCall := [⟨1, Vlan.cfi, 1#64⟩, ⟨0, Vlan.vid, 0#64⟩]

theorem tagCalls_ok : ∀ c ∈ tagCalls, c.Ok (fun _ => 4) := by
  intro c hc
  simp only [tagCalls, List.mem_cons, List.not_mem_nil, or_false] at hc
  rcases hc with rfl | rfl <;> exact ⟨by decide, by decide⟩

/-- **C79**, `true` for packets that are never equal: at every moment the serializations of `p` and `q` differ, yet `p.compare(&q)` can
answer `true`. -/
theorem C79_true_never_equal (chk : Bool) :
    let p : PRef := ⟨[⟨Vlan, 0⟩], []⟩
    let q : PRef := ⟨[⟨Vlan, 1⟩], []⟩
    (∀ n, n ≤ (tagCalls.flatMap SetCall.writes).length → ∀ vp vq, PktHolds twoTags ((tagCalls.flatMap SetCall.writes).take n) p vp →
      PktHolds twoTags ((tagCalls.flatMap SetCall.writes).take n) q vq → vp ≠ vq) ∧
    ∃ s, Sys.Reach (compareWrite chk twoTags p q tagCalls) s ∧ s.th 0 = .ret true := by
  intro p q
  constructor
  · rintro n hn vp vq ⟨f, hf, rfl⟩ ⟨g, hg, rfl⟩ heq
    have hf := hf ⟨Vlan, 0⟩ (by simp [p])
    have hg := hg ⟨Vlan, 1⟩ (by simp [q])
    simp only [p, q, List.map_cons, List.map_nil, List.flatten_cons, List.flatten_nil, List.append_nil] at heq
    simp only at hf hg
    rw [heq] at hf
    have l : (g 1).length = 4 := hg.1
    have e := fun i (hi : i < 32) => (hf.2 i (by omega)).symm.trans (hg.2 i (by omega))
    have hn : n < 14 := Nat.lt_succ_of_le hn
    have key : ∀ n, n < 14 →
        bitAfter twoTags ((tagCalls.flatMap SetCall.writes).take n) 0 15 ≠ bitAfter twoTags ((tagCalls.flatMap SetCall.writes).take n) 1 15 ∨
        bitAfter twoTags ((tagCalls.flatMap SetCall.writes).take n) 0 3 ≠ bitAfter twoTags ((tagCalls.flatMap SetCall.writes).take n) 1 3 := by
      decide +kernel
    rcases key n hn with h | h
    · exact h (e 15 (by omega))
    · exact h (e 3 (by omega))
  · refine (C79_compare chk twoTags twoTags_fresh p q tagCalls tagCalls_ok true).2 ⟨0, [0, 0, 0, 0] ++ [], [0, 0, 0, 0] ++ [],
      .cons (Nat.le_refl 0) (Nat.zero_le _) (by unfold Holds; decide +kernel) (.nil _),
      .cons (q := 13) (by omega) (by decide +kernel) (by unfold Holds; decide +kernel) (.nil _), by decide⟩

-- the hypotheses of the theorems above are met: setting `vid` to another value can be seen, to the same value cannot
example :
    (∃ s, Sys.Reach (compareWrite true twoTags ⟨[⟨Vlan, 1⟩, ⟨Vlan, 0⟩], [7#8]⟩ ⟨[⟨Vlan, 1⟩, ⟨Vlan, 0⟩], [7#8]⟩ [⟨0, Vlan.vid, 2#64⟩]) s ∧
      s.th 0 = .ret false) ∧
    ¬ ∃ s, Sys.Reach (compareWrite true twoTags ⟨[⟨Vlan, 1⟩, ⟨Vlan, 0⟩], [7#8]⟩ ⟨[⟨Vlan, 1⟩, ⟨Vlan, 0⟩], [7#8]⟩ [⟨0, Vlan.vid, 0x1001#64⟩]) s ∧
      s.th 0 = .ret false := by
  have hs : Sized (fun _ => 4) ⟨[⟨Vlan, 1⟩, ⟨Vlan, 0⟩], [7#8]⟩ := by intro h hh; simp at hh; rcases hh with rfl | rfl <;> rfl
  rw [C79_one_setter true twoTags twoTags_fresh _ hs ⟨0, Vlan.vid, 2#64⟩ ⟨by decide, by decide⟩ (by decide),
    C79_one_setter true twoTags twoTags_fresh _ hs ⟨0, Vlan.vid, 0x1001#64⟩ ⟨by decide, by decide⟩ (by decide)]
  refine ⟨⟨15, by decide, by decide, by decide +kernel⟩, ?_⟩
  rintro ⟨i, h1, h2, h3⟩
  have h1 : 4 ≤ i := h1
  have h2 : i < 16 := Nat.lt_succ_of_le h2
  revert h3
  have : ∀ i, i < 16 → 4 ≤ i → ¬ netBit (twoTags 0).bytes i ≠ (0x1001#64 : U64).getLsbD (15 - i) := by decide +kernel
  exact this i h2 h1

-- an undisturbed comparison: the other thread writes a third header
example : ∃ s, Sys.Reach (compareWrite false twoTags ⟨[⟨Vlan, 1⟩], []⟩ ⟨[⟨Vlan, 2⟩], []⟩ [⟨0, Vlan.vid, 2#64⟩]) s ∧ s.th 0 = .ret true := by
  refine (C79_undisturbed false twoTags twoTags_fresh ⟨[⟨Vlan, 1⟩], []⟩ ⟨[⟨Vlan, 2⟩], []⟩
    (by intro h hh; simp at hh; subst hh; rfl) [⟨0, Vlan.vid, 2#64⟩]
    (by intro c hc; simp at hc; subst hc; exact ⟨by decide, by decide⟩) ?_ true).2 (by decide +kernel)
  rintro ⟨n, w, hw, hr, -⟩
  have : w ∈ ([⟨0, Vlan.vid, 2#64⟩] : List SetCall).flatMap SetCall.writes := List.mem_of_getElem? hw
  simp only [List.flatMap_cons, List.flatMap_nil, List.append_nil] at this
  rw [writes_ref this] at hr
  exact absurd hr (by decide)

end PacketRs
