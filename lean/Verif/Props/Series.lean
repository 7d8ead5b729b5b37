import Verif.Spec.Series
import Verif.Props.Heap
import Verif.Props.Writes
import Verif.Props.BuildersShape
/-!
# C107: a series of packets made from one template
-/
namespace PacketRs
open Spec
open Prog hiding bind

theorem perform_append (chk : Bool) (w : World) (a b : List Op) :
    perform chk w (a ++ b) =
      ((perform chk (perform chk w a).1 b).1, (perform chk w a).2 ++ (perform chk (perform chk w a).1 b).2) := by
  induction a generalizing w with
  | nil => rfl
  | cons o os ih => simp only [List.cons_append, perform, ih]

theorem sentFrames_append (a b : List (R Val)) : sentFrames (a ++ b) = sentFrames a ++ sentFrames b := by
  simp only [sentFrames, List.filterMap_append]

theorem shot_to_vec (s : Shot) (pk : Packet) : (⟨pk.hdrs, pk.payload ++ s.body⟩ : Packet).to_vec = s.frame pk := by
  simp only [Packet.to_vec, Hdr.to_vec, foldl_append_map, Shot.frame]
  simp

theorem withHeaderMut_payload {pk pk' : Packet} {T : HeaderDef} {name : String} {f : Hdr → R Hdr}
    (h : pk.withHeaderMut T name f = .ok pk') (d : Bytes) :
    pk'.payload = pk.payload ∧ (⟨pk.hdrs, d⟩ : Packet).withHeaderMut T name f = .ok ⟨pk'.hdrs, d⟩ := by
  unfold Packet.withHeaderMut at h ⊢
  obtain ⟨hs, e, h⟩ := bind_ok h
  cases h
  exact ⟨rfl, by simp only [e]; rfl⟩

theorem Spec.Change.all_payload {pk pk' : Packet} {cs : List Change} (h : Change.all pk cs = .ok pk') (d : Bytes) :
    pk'.payload = pk.payload ∧ Change.all ⟨pk.hdrs, d⟩ cs = .ok ⟨pk'.hdrs, d⟩ := by
  induction cs generalizing pk with
  | nil => cases h; exact ⟨rfl, rfl⟩
  | cons c cs ih =>
    simp only [Change.all, List.foldlM_cons] at h
    obtain ⟨p1, e, h⟩ := bind_ok h
    obtain ⟨a1, a2⟩ := withHeaderMut_payload e d
    obtain ⟨b1, b2⟩ := ih h
    refine ⟨b1.trans a1, ?_⟩
    simp only [Change.all, List.foldlM_cons, a2]
    exact b2

theorem Spec.Change.all_append {pk : Packet} {a b : List Change} :
    Change.all pk (a ++ b) = (Change.all pk a >>= fun p => Change.all p b) := by
  simp only [Change.all, List.foldlM_append]

/-- A successful `set` through a packet whose headers have storage of their own, in full. -/
theorem set_step (chk : Bool) (w : World) (hw : w.Reachable chk) (p : Nat) (q : PRef) (hq : w.pkt? p = some q)
    (hn : (q.hdrs.map HRef.ref).Nodup) (hp : ∀ h ∈ q.hdrs, (w.mem h.ref).poisoned = false) (c : Change) (pk : Packet)
    (hv : (q.view w.mem).withHeaderMut c.T c.name (fun h => h.set c.f c.v) = .ok pk) :
    let r := w.step chk (.set (.inPkt p c.name c.T) c.f c.v)
    r.2 = .ok .unit ∧ r.1.Reachable chk ∧ r.1.ps = w.ps ∧ r.1.next = w.next ∧ q.view r.1.mem = pk ∧
      (∀ h ∈ q.hdrs, (r.1.mem h.ref).poisoned = false) ∧ ∀ n, n ∉ q.hdrs.map HRef.ref → r.1.mem n = w.mem n := by
  intro r
  obtain ⟨c1, c2⟩ := C56_set_in_packet chk w hw p q hq hn hp c.name c.T c.f c.v
  simp only [hv] at c1 c2
  have hok : r.2 = .ok .unit := c1
  have hr : r.1.Reachable chk := hw.step (by rw [show (w.step chk _).2 = .ok .unit from hok]; simp)
  have hps : r.1.ps = w.ps := by
    rcases World.step_target chk w (.set (.inPkt p c.name c.T) c.f c.v) _ rfl with ⟨e, he, -⟩ | ⟨a, o, -, -, he⟩ <;>
      simp only [r, he]
  have hnx : r.1.next = w.next := by
    rcases World.step_target chk w (.set (.inPkt p c.name c.T) c.f c.v) _ rfl with ⟨e, he, -⟩ | ⟨a, o, -, -, he⟩ <;>
      simp only [r, he]
  have hq' : r.1.pkt? p = some q := by simp only [World.pkt?, hps]; exact hq
  have hview : q.view r.1.mem = pk := by
    have := c2 pk rfl
    rw [show (w.step chk (.set (.inPkt p c.name c.T) c.f c.v)).1 = r.1 from rfl, hq'] at this
    exact Option.some.inj this
  refine ⟨hok, hr, hps, hnx, hview, ?_⟩
  cases hfind : q.hdrs.find? (fun h => h.ty.name = c.name) with
  | none =>
    exfalso
    have hres : w.resolve (.inPkt p c.name c.T) = .error .unwrapNone := by simp only [World.resolve, hq, hfind]
    have hr : r = (w, .error .unwrapNone) := by simp only [r, World.step, World.accessAt, hres]
    rw [hr] at hok; cases hok
  | some a =>
    have hmem := List.mem_of_find?_eq_some hfind
    by_cases hT : a.ty = c.T
    · have hres : w.resolve (.inPkt p c.name c.T) = .ok a := by simp only [World.resolve, hq, hfind, if_pos hT]
      have hr : r = _ := World.step_ok chk w (.set (.inPkt p c.name c.T) c.f c.v) a rfl hres (fun y h => by cases h)
      rw [hr] at hok ⊢
      simp only [World.prog, setP, run_bind, run_setBitRangeP (t := 0) ⟨hw.free a.ref, hp a hmem⟩ (hw.free.idle 0)] at hok ⊢
      cases e : setBitRange (w.mem a.ref).bytes c.f.hi c.f.lo c.v with
      | error g => rw [e] at hok; cases hok
      | ok d =>
        simp only [run]
        refine ⟨fun h hh => ?_, fun n hne => put_ne _ _ fun e => hne (List.mem_map.2 ⟨a, hmem, e.symm⟩)⟩
        by_cases hx : h.ref = a.ref
        · rw [hx, put_same]; exact hp a hmem
        · rw [put_ne _ _ hx]; exact hp h hh
    · exfalso
      have hres : w.resolve (.inPkt p c.name c.T) = .error .downcast := by simp only [World.resolve, hq, hfind, if_neg hT]
      have hr : r = (w, .error .downcast) := by simp only [r, World.step, World.accessAt, hres]
      rw [hr] at hok; cases hok

theorem sets_run (chk : Bool) (p : Nat) (q : PRef) (hn : (q.hdrs.map HRef.ref).Nodup) (cs : List Change) :
    ∀ (w : World) (_ : w.Reachable chk) (_ : w.pkt? p = some q) (_ : ∀ h ∈ q.hdrs, (w.mem h.ref).poisoned = false)
      (pk : Packet) (_ : Change.all (q.view w.mem) cs = .ok pk),
    let r := perform chk w (cs.map fun c => .set (.inPkt p c.name c.T) c.f c.v)
    r.2 = List.replicate cs.length (.ok .unit) ∧ r.1.Reachable chk ∧ r.1.ps = w.ps ∧ r.1.next = w.next ∧ q.view r.1.mem = pk ∧
      (∀ h ∈ q.hdrs, (r.1.mem h.ref).poisoned = false) ∧ ∀ n, n ∉ q.hdrs.map HRef.ref → r.1.mem n = w.mem n := by
  induction cs with
  | nil =>
    intro w hw hq hp pk h
    cases h
    exact ⟨rfl, hw, rfl, rfl, rfl, hp, fun _ _ => rfl⟩
  | cons c cs ih =>
    intro w hw hq hp pk h
    simp only [Change.all, List.foldlM_cons] at h
    obtain ⟨p1, e, h⟩ := bind_ok h
    obtain ⟨s1, s2, s3, s4, s5, s6, s7⟩ := set_step chk w hw p q hq hn hp c p1 e
    obtain ⟨t1, t2, t3, t4, t5, t6, t7⟩ := ih _ s2 (by simp only [World.pkt?, s3]; exact hq) s6 pk (by rw [s5]; exact h)
    intro r
    simp only [r, List.map_cons, perform]
    refine ⟨?_, t2, t3.trans s3, t4.trans s4, t5, t6, fun n hne => (t7 n hne).trans (s7 n hne)⟩
    rw [t1, s1]; rfl

/-- The calls that finish packet `k`. -/
theorem finish_run (chk : Bool) (w : World) (hw : w.Reachable chk) (k : Nat) (q : PRef) (hq : w.pkt? k = some q)
    (hn : (q.hdrs.map HRef.ref).Nodup) (hp : ∀ h ∈ q.hdrs, (w.mem h.ref).poisoned = false) (s : Shot) (pk : Packet)
    (hv : Change.all (q.view w.mem) s.changes = .ok pk) :
    let r := perform chk w (s.finish k)
    (∀ x ∈ r.2, ∃ v, x = .ok v) ∧ sentFrames r.2 = [s.frame pk] ∧ r.1.Reachable chk ∧
      r.1.ps = w.ps.set k (some ⟨q.hdrs, q.payload ++ s.body⟩) ∧ r.1.next = w.next ∧ q.view r.1.mem = pk ∧
      (∀ h ∈ q.hdrs, (r.1.mem h.ref).poisoned = false) ∧ ∀ n, n ∉ q.hdrs.map HRef.ref → r.1.mem n = w.mem n := by
  obtain ⟨t1, t2, t3, t4, t5, t6, t7⟩ := sets_run chk k q hn s.changes w hw hq hp pk hv
  intro r
  simp only [r, Shot.finish, perform_append]
  generalize perform chk w (s.changes.map fun c => Op.set (.inPkt k c.name c.T) c.f c.v) = m at t1 t2 t3 t4 t5 t6 t7
  have hqm : m.1.pkt? k = some q := by simp only [World.pkt?, t3]; exact hq
  have hlt : k < w.ps.length := by
    unfold World.pkt? at hq
    cases e : w.ps[k]? with
    | none => rw [e] at hq; cases hq
    | some y => rw [List.getElem?_eq_some_iff] at e; exact e.1
  have h1 : m.1.step chk (.setPayload k s.body) =
      ({ m.1 with ps := m.1.ps.set k (some ⟨q.hdrs, q.payload ++ s.body⟩) }, .ok .unit) := by
    simp only [World.step, World.updPkt, hqm]
  have hr1 : (m.1.step chk (.setPayload k s.body)).1.Reachable chk := t2.step (by rw [h1]; simp)
  rw [h1] at hr1
  have hq1 : ({ m.1 with ps := m.1.ps.set k (some ⟨q.hdrs, q.payload ++ s.body⟩) } : World).pkt? k =
      some ⟨q.hdrs, q.payload ++ s.body⟩ := by
    simp [World.pkt?, t3, hlt]
  have hany : (q.hdrs.any fun h => (m.1.mem h.ref).poisoned) = false := by
    rw [List.any_eq_false]; intro h hh; simp [t6 h hh]
  have hvec : (⟨q.hdrs, q.payload ++ s.body⟩ : PRef).view m.1.mem = ⟨pk.hdrs, pk.payload ++ s.body⟩ := by
    rw [← t5]; rfl
  have h2 : ({ m.1 with ps := m.1.ps.set k (some ⟨q.hdrs, q.payload ++ s.body⟩) } : World).step chk (.pktToVec k) =
      ({ m.1 with ps := m.1.ps.set k (some ⟨q.hdrs, q.payload ++ s.body⟩) }, .ok (.bytes (s.frame pk))) := by
    simp only [World.step, hq1, World.access, run_bind, run_pktToVecP t2.free, hany, Bool.false_eq_true, if_false, run, hvec,
      shot_to_vec]
  simp only [perform, h1, h2]
  refine ⟨?_, ?_, hr1, by rw [t3], t4, t5, t6, t7⟩
  · intro x hx
    rw [t1, List.mem_append] at hx
    rcases hx with hx | hx
    · exact ⟨_, List.eq_of_mem_replicate hx⟩
    · simp only [List.mem_cons, List.not_mem_nil, or_false] at hx
      rcases hx with rfl | rfl <;> exact ⟨_, rfl⟩
  · rw [sentFrames_append, t1]
    have : ∀ n, sentFrames (List.replicate n (.ok .unit)) = [] := by
      intro n
      simp [sentFrames]
    rw [this]; rfl

/-- **C107**: a series made by cloning a template.  No call panics and one frame comes out per packet.  Frame `k` has the payload
of the template followed by the payload added for packet `k`; but its headers are those of the template with all fields set
that were set for packets `0` to `k`.  In the end all packets of the series, and the template, have the same headers: those with
all fields set of the whole series. -/
theorem C107_by_clone (chk : Bool) (w : World) (hw : w.Reachable chk) (p : Nat) (q : PRef) (hq : w.pkt? p = some q)
    (hn : (q.hdrs.map HRef.ref).Nodup) (hp : ∀ h ∈ q.hdrs, (w.mem h.ref).poisoned = false) (ss : List Shot) (pk : Packet)
    (hv : Change.all (q.view w.mem) (ss.map Shot.changes).flatten = .ok pk) :
    let r := perform chk w (byClone p w.ps.length ss)
    (∀ x ∈ r.2, ∃ v, x = .ok v) ∧ (sentFrames r.2).length = ss.length ∧
    (∀ k s, ss[k]? = some s → ∃ pk', Change.all (q.view w.mem) (soFar ss k) = .ok pk' ∧
      (sentFrames r.2)[k]? = some (s.frame pk')) ∧
    r.1.serialize chk p = .ok (.bytes pk.to_vec) ∧
    ∀ k s, ss[k]? = some s → r.1.serialize chk (w.ps.length + k) = .ok (.bytes (s.frame pk)) := by
  -- the state between two packets
  suffices H : ∀ (ss : List Shot) (w : World) (_ : w.Reachable chk) (_ : w.pkt? p = some q)
      (_ : ∀ h ∈ q.hdrs, (w.mem h.ref).poisoned = false) (pk : Packet)
      (_ : Change.all (q.view w.mem) (ss.map Shot.changes).flatten = .ok pk),
      let r := perform chk w (byClone p w.ps.length ss)
      (∀ x ∈ r.2, ∃ v, x = .ok v) ∧ (sentFrames r.2).length = ss.length ∧
      (∀ k s, ss[k]? = some s → ∃ pk', Change.all (q.view w.mem) (soFar ss k) = .ok pk' ∧
        (sentFrames r.2)[k]? = some (s.frame pk')) ∧ r.1.Reachable chk ∧
      r.1.ps = w.ps ++ ss.map (fun s => some ⟨q.hdrs, q.payload ++ s.body⟩) ∧ q.view r.1.mem = pk ∧
      (∀ h ∈ q.hdrs, (r.1.mem h.ref).poisoned = false) by
    have a := H ss w hw hq hp pk hv
    simp only at a ⊢
    generalize perform chk w (byClone p w.ps.length ss) = r at a ⊢
    obtain ⟨a1, a2, a3, a4, a5, a6, a7⟩ := a
    have hany : (q.hdrs.any fun h => (r.1.mem h.ref).poisoned) = false := by
      rw [List.any_eq_false]; intro h hh; simp [a7 h hh]
    refine ⟨a1, a2, a3, ?_, ?_⟩
    · have hq' : r.1.pkt? p = some q := by
        simp only [World.pkt?, a5]
        cases e : w.ps[p]? with
        | none => simp only [World.pkt?, e] at hq; cases hq
        | some y =>
          have hlt : p < w.ps.length := by rw [List.getElem?_eq_some_iff] at e; exact e.1
          rw [List.getElem?_append_left hlt]; exact hq
      rw [World.serialize_eq a4.free hq']
      simp only [hany, a6, Bool.false_eq_true, if_false]
    · intro k s hk
      have hq' : r.1.pkt? (w.ps.length + k) = some ⟨q.hdrs, q.payload ++ s.body⟩ := by
        simp only [World.pkt?, a5]
        rw [List.getElem?_append_right (by omega), Nat.add_sub_cancel_left, List.getElem?_map, hk]; rfl
      rw [World.serialize_eq a4.free hq']
      simp only [hany, Bool.false_eq_true, if_false]
      have : (⟨q.hdrs, q.payload ++ s.body⟩ : PRef).view r.1.mem = ⟨pk.hdrs, pk.payload ++ s.body⟩ := by rw [← a6]; rfl
      rw [this, shot_to_vec]
  intro ss
  induction ss with
  | nil =>
    intro w hw hq hp pk hv
    cases hv
    exact ⟨by simp [perform, byClone], rfl, by simp, hw, by simp [perform, byClone], rfl, hp⟩
  | cons s ss ih =>
    intro w hw hq hp pk hv r
    simp only [List.map_cons, List.flatten_cons, Change.all_append] at hv
    obtain ⟨p1, e1, hv⟩ := bind_ok hv
    have hc : w.step chk (.pktClone p) = ({ w with ps := w.ps ++ [some q] }, .ok .unit) := by
      simp only [World.step, hq]
    have hr0 : (w.step chk (.pktClone p)).1.Reachable chk := hw.step (by rw [hc]; simp)
    rw [hc] at hr0
    have hq0 : ({ w with ps := w.ps ++ [some q] } : World).pkt? w.ps.length = some q := by simp [World.pkt?]
    obtain ⟨f1, f2, f3, f4, f5, f6, f7, f8⟩ := finish_run chk _ hr0 w.ps.length q hq0 hn hp s p1 e1
    simp only [r, byClone, List.cons_append, perform, hc, perform_append]
    generalize perform chk { w with ps := w.ps ++ [some q] } (s.finish w.ps.length) = m at f1 f2 f3 f4 f5 f6 f7 f8
    have hps : m.1.ps = w.ps ++ [some ⟨q.hdrs, q.payload ++ s.body⟩] := by rw [f4]; simp
    have hqm : m.1.pkt? p = some q := by
      simp only [World.pkt?, hps]
      exact World.pkt?_append hq
    have hlen : m.1.ps.length = w.ps.length + 1 := by rw [hps]; simp
    obtain ⟨a1, a2, a3, a4, a5, a6, a7⟩ := ih m.1 f3 hqm f7 pk (by rw [f6]; exact hv)
    rw [hlen] at a1 a2 a3 a4 a5 a6 a7
    rw [f6] at a3
    refine ⟨?_, ?_, ?_, a4, ?_, a6, a7⟩
    · intro x hx
      simp only [List.mem_cons, List.mem_append] at hx
      rcases hx with rfl | hx | hx
      · exact ⟨_, rfl⟩
      · exact f1 x hx
      · exact a1 x hx
    · rw [← List.singleton_append, sentFrames_append, sentFrames_append, f2, List.length_append, List.length_append, a2]
      simp [sentFrames, Nat.add_comm]
    · have hsf : ∀ l : List (R Val), sentFrames (.ok .unit :: (m.2 ++ l)) = s.frame p1 :: sentFrames l := by
        intro l
        rw [← List.singleton_append, sentFrames_append, sentFrames_append, f2]
        simp [sentFrames]
      intro k t hk
      rw [hsf]
      cases k with
      | zero =>
        simp only [List.getElem?_cons_zero, Option.some.injEq] at hk
        subst hk
        refine ⟨p1, ?_, by simp⟩
        simpa [soFar] using e1
      | succ k =>
        simp only [List.getElem?_cons_succ] at hk ⊢
        obtain ⟨pk', e, h⟩ := a3 k t hk
        refine ⟨pk', ?_, h⟩
        have : soFar (s :: ss) (k + 1) = s.changes ++ soFar ss k := by simp [soFar]
        rw [this, Change.all_append, e1]
        exact e
    · rw [a5, hps]; simp

/-- **C107**: a series made by making each packet anew: no call panics, frame `k` has the fields set of packet `k` and no others, and
the packets still serialize to their frames in the end. -/
theorem C107_by_making (chk : Bool) (w : World) (hw : w.Reachable chk) (pk : Packet) (ss : List Shot)
    (hv : ∀ s ∈ ss, ∃ pk', Change.all pk s.changes = .ok pk') :
    let r := perform chk w (byMaking pk w.ps.length ss)
    (∀ x ∈ r.2, ∃ v, x = .ok v) ∧ (sentFrames r.2).length = ss.length ∧
    ∀ k s, ss[k]? = some s → ∃ pk', Change.all pk s.changes = .ok pk' ∧ (sentFrames r.2)[k]? = some (s.frame pk') ∧
      r.1.serialize chk (w.ps.length + k) = .ok (.bytes (s.frame pk')) := by
  suffices H : ∀ (ss : List Shot) (w : World) (_ : w.Reachable chk) (_ : ∀ s ∈ ss, ∃ pk', Change.all pk s.changes = .ok pk'),
      let r := perform chk w (byMaking pk w.ps.length ss)
      (∀ x ∈ r.2, ∃ v, x = .ok v) ∧ (sentFrames r.2).length = ss.length ∧ r.1.Reachable chk ∧
      (∀ i q, w.pkt? i = some q → r.1.pkt? i = some q) ∧ (∀ n, n < w.next → r.1.mem n = w.mem n) ∧
      ∀ k s, ss[k]? = some s → ∃ pk' q, Change.all pk s.changes = .ok pk' ∧ (sentFrames r.2)[k]? = some (s.frame pk') ∧
        r.1.pkt? (w.ps.length + k) = some q ∧ (∀ h ∈ q.hdrs, (r.1.mem h.ref).poisoned = false) ∧
        (q.view r.1.mem).to_vec = s.frame pk' by
    have a := H ss w hw hv
    simp only at a ⊢
    generalize perform chk w (byMaking pk w.ps.length ss) = r at a ⊢
    obtain ⟨a1, a2, a3, -, -, a6⟩ := a
    refine ⟨a1, a2, fun k s hk => ?_⟩
    obtain ⟨pk', q, e, hf, hq, hp, hv⟩ := a6 k s hk
    have hany : (q.hdrs.any fun h => (r.1.mem h.ref).poisoned) = false := by
      rw [List.any_eq_false]; intro h hh; simp [hp h hh]
    refine ⟨pk', e, hf, ?_⟩
    rw [World.serialize_eq a3.free hq]
    simp only [hany, Bool.false_eq_true, if_false, hv]
  intro ss
  induction ss with
  | nil =>
    intro w hw hv
    exact ⟨by simp [perform, byMaking], rfl, hw, fun _ _ h => h, fun _ _ => rfl, by simp⟩
  | cons s ss ih =>
    intro w hw hv r
    obtain ⟨p1, e1⟩ := hv s (by simp)
    obtain ⟨w1, hw1⟩ : ∃ w1, (w.step chk (.adopt pk)) = (w1, .ok .unit) := ⟨_, rfl⟩
    have hr0 : (w.step chk (.adopt pk)).1.Reachable chk := hw.step (by rw [hw1]; simp)
    obtain ⟨e1', -, e3, e4, e5, -, e7⟩ := World.allocAll_props pk.hdrs w
    have hs1 : w.step chk (.adopt pk) = ({ (w.allocAll pk.hdrs).1 with
        ps := w.ps ++ [some ⟨pk.hdrs.mapIdx (fun i h => ⟨h.ty, w.next + i⟩), pk.payload⟩] }, .ok .unit) := by
      simp only [World.step, e3, e4]
    rw [hw1] at hs1 hr0
    obtain rfl : w1 = _ := congrArg Prod.fst hs1
    let q : PRef := ⟨pk.hdrs.mapIdx (fun i h => ⟨h.ty, w.next + i⟩), pk.payload⟩
    let w1 : World := { (w.allocAll pk.hdrs).1 with ps := w.ps ++ [some q] }
    have hq0 : w1.pkt? w.ps.length = some q := by simp [w1, World.pkt?]
    have hrefs : q.hdrs.map HRef.ref = List.range' w.next pk.hdrs.length := by
      refine List.ext_getElem (by simp [q]) fun j h1 h2 => ?_
      simp [q]
    have hmemq : ∀ h ∈ q.hdrs, ∃ i, ∃ hi : i < pk.hdrs.length, h = ⟨pk.hdrs[i].ty, w.next + i⟩ := by
      intro h hh
      obtain ⟨i, hi, rfl⟩ := List.mem_mapIdx.1 hh
      exact ⟨i, hi, rfl⟩
    have hview : q.view w1.mem = pk := by
      cases pk with
      | mk hdrs payload =>
        simp only [PRef.view, q, w1, Packet.mk.injEq, and_true]
        refine List.ext_getElem (by simp) fun j h1 h2 => ?_
        simp only [List.getElem_map, List.getElem_mapIdx]
        rw [e7 j h2]
    have hp0 : ∀ h ∈ q.hdrs, (w1.mem h.ref).poisoned = false := by
      intro h hh
      obtain ⟨i, hi, rfl⟩ := hmemq h hh
      simp only [w1, e7 i hi]
    obtain ⟨f1, f2, f3, f4, f5, f6, f7, f8⟩ := finish_run chk w1 hr0 w.ps.length q hq0
      (by rw [hrefs]; exact List.nodup_range') hp0 s p1 (by rw [hview]; exact e1)
    simp only [r, byMaking, List.cons_append, perform, hw1, perform_append]
    change let m := perform chk w1 (s.finish w.ps.length); _
    intro m
    have hps : m.1.ps = w.ps ++ [some ⟨q.hdrs, q.payload ++ s.body⟩] := by
      simp only [m, f4, w1]; simp
    have hlen : m.1.ps.length = w.ps.length + 1 := by rw [hps]; simp
    have hmem : ∀ n, n < w.next → m.1.mem n = w.mem n := by
      intro n hlt
      rw [show m.1.mem n = w1.mem n from f8 n (by rw [hrefs, List.mem_range'_1]; omega)]
      exact e5 n hlt
    have hnx : m.1.next = w.next + pk.hdrs.length := by
      rw [show m.1.next = w1.next from f5]; exact e1'
    obtain ⟨a1, a2, a3, a4, a5, a6⟩ := ih m.1 f3 (fun t ht => hv t (by simp [ht]))
    rw [hlen] at a1 a2 a3 a4 a5 a6
    have hsf : ∀ l : List (R Val), sentFrames (.ok .unit :: (m.2 ++ l)) = s.frame p1 :: sentFrames l := by
      intro l
      rw [← List.singleton_append, sentFrames_append, sentFrames_append, show sentFrames m.2 = _ from f2]
      simp [sentFrames]
    refine ⟨?_, ?_, a3, ?_, ?_, ?_⟩
    · intro x hx
      simp only [List.mem_cons, List.mem_append] at hx
      rcases hx with rfl | hx | hx
      · exact ⟨_, rfl⟩
      · exact f1 x hx
      · exact a1 x hx
    · rw [hsf, List.length_cons, a2, List.length_cons]
    · intro i x hx
      refine a4 i x ?_
      simp only [World.pkt?, hps]
      exact World.pkt?_append hx
    · intro n hlt
      rw [a5 n (by rw [hnx]; omega), hmem n hlt]
    · intro k t hk
      rw [hsf]
      cases k with
      | zero =>
        simp only [List.getElem?_cons_zero, Option.some.injEq] at hk
        subst hk
        have hqm : m.1.pkt? w.ps.length = some ⟨q.hdrs, q.payload ++ s.body⟩ := by simp [World.pkt?, hps]
        have hsame : ∀ h ∈ q.hdrs, (perform chk m.1 (byMaking pk (w.ps.length + 1) ss)).1.mem h.ref = m.1.mem h.ref := by
          intro h hh
          obtain ⟨i, hi, rfl⟩ := hmemq h hh
          exact a5 _ (by rw [hnx]; simp only; omega)
        refine ⟨p1, _, e1, by simp, a4 _ _ hqm, ?_, ?_⟩
        · intro h hh
          rw [hsame h hh]
          exact f7 h hh
        · have : (⟨q.hdrs, q.payload ++ s.body⟩ : PRef).view (perform chk m.1 (byMaking pk (w.ps.length + 1) ss)).1.mem =
              ⟨p1.hdrs, p1.payload ++ s.body⟩ := by
            rw [← (show q.view m.1.mem = p1 from f6)]
            simp only [PRef.view, Packet.mk.injEq, and_true]
            exact List.map_congr_left fun h hh => by rw [hsame h hh]
          rw [this, shot_to_vec]
      | succ k =>
        simp only [List.getElem?_cons_succ] at hk ⊢
        obtain ⟨pk', x, e, h1, h2, h3, h4⟩ := a6 k t hk
        exact ⟨pk', x, e, h1, by rw [show w.ps.length + (k + 1) = w.ps.length + 1 + k from by omega]; exact h2, h3, h4⟩

/-! ## When the two series are the same -/

theorem modifyFirst_at {name : String} {f : Hdr → R Hdr} {hs hs' : List Hdr} (h : Packet.modifyFirst name f hs = .ok hs') :
    ∃ x x', hs[hs.findIdx (fun h => h.name = name)]? = some x ∧ f x = .ok x' ∧
      hs' = hs.set (hs.findIdx (fun h => h.name = name)) x' := by
  induction hs generalizing hs' with
  | nil => cases h
  | cons a l ih =>
    unfold Packet.modifyFirst at h
    by_cases hn : a.name = name
    · rw [if_pos hn] at h
      obtain ⟨x', e, h⟩ := bind_ok h
      cases h
      exact ⟨a, x', by simp [List.findIdx_cons, hn], e, by simp [List.findIdx_cons, hn]⟩
    · rw [if_neg hn] at h
      obtain ⟨l', e, h⟩ := bind_ok h
      cases h
      obtain ⟨x, x', h1, h2, h3⟩ := ih e
      refine ⟨x, x', by simp [List.findIdx_cons, hn, h1], h2, by simp [List.findIdx_cons, hn, h3]⟩

theorem findIdx_set_name (hs : List Hdr) (i : Nat) (x : Hdr) (h : ∀ y, hs[i]? = some y → x.name = y.name) (name : String) :
    (hs.set i x).findIdx (fun h => h.name = name) = hs.findIdx (fun h => h.name = name) := by
  induction hs generalizing i with
  | nil => rfl
  | cons a l ih =>
    cases i with
    | zero => simp only [List.set_cons_zero, List.findIdx_cons, h a (by simp)]
    | succ i =>
      simp only [List.set_cons_succ, List.findIdx_cons]
      rw [ih i (fun y hy => h y (by simpa using hy))]

/-- **C107**: what the changes make of a packet: every header gets the writes that go to it, in order (for what those make of it see
C90); header types, number of headers and payload stay. -/
theorem C107_changes (chk : Bool) (cs : List Change) : ∀ (pk v : Packet) (_ : Change.all pk cs = .ok v),
    v.payload = pk.payload ∧ v.hdrs.length = pk.hdrs.length ∧
    ∀ i h, pk.hdrs[i]? = some h → ∃ h', v.hdrs[i]? = some h' ∧ h'.ty = h.ty ∧
      writeAll chk h (writesTo pk.hdrs i cs) = .ok h' := by
  induction cs with
  | nil =>
    intro pk v h
    cases h
    exact ⟨rfl, rfl, fun i h hi => ⟨h, hi, rfl, rfl⟩⟩
  | cons c cs ih =>
    intro pk v h
    simp only [Change.all, List.foldlM_cons] at h
    obtain ⟨p1, e, h⟩ := bind_ok h
    unfold Packet.withHeaderMut at e
    obtain ⟨hs, e2, e'⟩ := bind_ok e
    cases e'
    obtain ⟨x, x', h1, h2, rfl⟩ := modifyFirst_at e2
    obtain ⟨b1, b2, b3⟩ := ih _ v h
    split at h2
    case isFalse => cases h2
    have hty : x'.ty = x.ty := by
      unfold Hdr.set at h2
      obtain ⟨d, -, h2⟩ := bind_ok h2
      cases h2; rfl
    have hnm : ∀ name, (pk.hdrs.set (pk.hdrs.findIdx fun h => h.name = c.name) x').findIdx (fun h => h.name = name) =
        pk.hdrs.findIdx fun h => h.name = name := by
      refine findIdx_set_name _ _ _ fun y hy => ?_
      rw [h1] at hy; cases hy
      simp only [Hdr.name, hty]
    have hwt : ∀ i, writesTo (pk.hdrs.set (pk.hdrs.findIdx fun h => h.name = c.name) x') i cs = writesTo pk.hdrs i cs := by
      intro i; simp only [writesTo, hnm]
    simp only [hwt] at b3
    refine ⟨b1, b2.trans (by simp), fun i g hi => ?_⟩
    by_cases hc : pk.hdrs.findIdx (fun h => h.name = c.name) = i
    · subst hc
      rw [h1] at hi; cases hi
      have hlt := (List.getElem?_eq_some_iff.1 h1).1
      obtain ⟨h', k1, k2, k3⟩ := b3 (pk.hdrs.findIdx fun h => h.name = c.name) x' (by simp [hlt])
      refine ⟨h', k1, k2.trans hty, ?_⟩
      simp only [writesTo, List.filter_cons, decide_true, if_true, List.map_cons, writeAll, List.foldlM_cons, Write.call, h2]
      exact k3
    · obtain ⟨h', k1, k2, k3⟩ := b3 i g (by rw [List.getElem?_set_ne hc]; exact hi)
      refine ⟨h', k1, k2, ?_⟩
      have : writesTo pk.hdrs i (c :: cs) = writesTo pk.hdrs i cs := by
        simp only [writesTo, List.filter_cons, hc, decide_false, Bool.false_eq_true, if_false]
      rw [this]; exact k3

theorem writesTo_append (hs : List Hdr) (i : Nat) (a b : List Change) :
    writesTo hs i (a ++ b) = writesTo hs i a ++ writesTo hs i b := by
  simp only [writesTo, List.filter_append, List.map_append]

/-- **C107**: fields set for earlier packets (`a`) do not show in a packet for which the fields `b` are set iff they changed no bit
that setting `b` does not write.  (`m` is the template as the earlier packets left it.) -/
theorem C107_same_iff (pk m u v : Packet) (a b : List Change) (hpr : ∀ c ∈ a ++ b, c.f.lo ≤ c.f.hi)
    (hm : Change.all pk a = .ok m) (hu : Change.all pk b = .ok u) (hv : Change.all pk (a ++ b) = .ok v) :
    v = u ↔ ∀ i h g, pk.hdrs[i]? = some h → m.hdrs[i]? = some g → ∀ k, k < 8 * h.data.length →
      (∀ x ∈ writesTo pk.hdrs i b, ¬ x.Covers k) → netBit g.data k = netBit h.data k := by
  obtain ⟨m1, m2, m3⟩ := C107_changes true a pk m hm
  obtain ⟨u1, u2, u3⟩ := C107_changes true b pk u hu
  obtain ⟨v1, v2, v3⟩ := C107_changes true (a ++ b) pk v hv
  -- what happens to one header
  have key : ∀ i h, pk.hdrs[i]? = some h → ∃ g x y, m.hdrs[i]? = some g ∧ u.hdrs[i]? = some x ∧ v.hdrs[i]? = some y ∧
      x.ty = y.ty ∧ x.data.length = h.data.length ∧ y.data.length = h.data.length ∧
      (∀ k, BitAfter (writesTo pk.hdrs i b) k (netBit h.data k) (netBit x.data k)) ∧
      (∀ k, BitAfter (writesTo pk.hdrs i b) k (netBit g.data k) (netBit y.data k)) := by
    intro i h hi
    obtain ⟨g, g1, g2, g3⟩ := m3 i h hi
    obtain ⟨x, x1, x2, x3⟩ := u3 i h hi
    obtain ⟨y, y1, y2, y3⟩ := v3 i h hi
    have hp : ∀ w ∈ writesTo pk.hdrs i (a ++ b), w.Proper := by
      intro w hw
      simp only [writesTo, List.mem_map, List.mem_filter] at hw
      obtain ⟨c, ⟨hc, -⟩, rfl⟩ := hw
      exact hpr c hc
    have hf : ∀ w ∈ writesTo pk.hdrs i (a ++ b), w.stop ≤ 8 * h.data.length := by
      intro w hw
      apply Classical.byContradiction
      intro hlt
      have := (C90_panics true h _ hp).1.2 ⟨w, hw, by omega⟩
      rw [this] at y3; cases y3
    rw [writesTo_append] at y3 hp hf
    obtain ⟨x', e, -, lx, bx⟩ := C90_history true h (writesTo pk.hdrs i b) (fun w hw => hp w (by simp [hw]))
      (fun w hw => hf w (by simp [hw]))
    obtain rfl := Except.ok.inj (x3.symm.trans e)
    obtain ⟨g', e, -, lg, -⟩ := C90_history true h (writesTo pk.hdrs i a) (fun w hw => hp w (by simp [hw]))
      (fun w hw => hf w (by simp [hw]))
    obtain rfl := Except.ok.inj (g3.symm.trans e)
    obtain ⟨y', e, -, ly, bY⟩ := C90_history true g (writesTo pk.hdrs i b) (fun w hw => hp w (by simp [hw]))
      (fun w hw => by rw [lg]; exact hf w (by simp [hw]))
    have hy : writeAll true h (writesTo pk.hdrs i a ++ writesTo pk.hdrs i b) = .ok y' := by
      simp only [writeAll, List.foldlM_append]
      rw [show List.foldlM (fun h w => Write.call true h w) h (writesTo pk.hdrs i a) = .ok g from g3]
      exact e
    obtain rfl := Except.ok.inj (y3.symm.trans hy)
    exact ⟨g, x, y, g1, x1, y1, x2.trans y2.symm, lx, ly.trans lg, bx, bY⟩
  constructor
  · rintro rfl i h g hi hg k hk hnc
    obtain ⟨g', x, y, k1, k2, k3, -, -, -, bx, bY⟩ := key i h hi
    obtain rfl := Option.some.inj (hg.symm.trans k1)
    obtain rfl := Option.some.inj (k2.symm.trans k3)
    rcases bx k with ⟨w, hw, -⟩ | ⟨-, e1⟩
    · exact absurd hw.mem.2 (hnc w hw.mem.1)
    · rcases bY k with ⟨w, hw, -⟩ | ⟨-, e2⟩
      · exact absurd hw.mem.2 (hnc w hw.mem.1)
      · exact e2.symm.trans e1
  · intro H
    obtain ⟨vh, vp⟩ := v
    obtain ⟨uh, up⟩ := u
    simp only [Packet.mk.injEq]
    refine ⟨List.ext_getElem? fun i => ?_, v1.trans u1.symm⟩
    cases hi : pk.hdrs[i]? with
    | none =>
      have hle := List.getElem?_eq_none_iff.1 hi
      simp only at u2 v2
      rw [List.getElem?_eq_none (by omega), List.getElem?_eq_none (by omega)]
    | some h =>
      obtain ⟨g, x, y, k1, k2, k3, kt, lx, ly, bx, bY⟩ := key i h hi
      simp only at k2 k3
      rw [k2, k3]
      obtain ⟨tx, dx⟩ := x
      obtain ⟨ty, dy⟩ := y
      simp only [Option.some.injEq, Hdr.mk.injEq]
      refine ⟨kt.symm, eq_of_netBit _ _ (by simp only at lx ly; omega) fun k hk => ?_⟩
      simp only at lx ly bx bY hk
      rcases lastWriter_or (writesTo pk.hdrs i b) k with ⟨w, hw⟩ | hn
      · have e1 : netBit dx k = w.bit k := C90_determined _ k (netBit h.data k) _ _ (bx k) (.inl ⟨w, hw, rfl⟩)
        have e2 : netBit dy k = w.bit k := C90_determined _ k (netBit g.data k) _ _ (bY k) (.inl ⟨w, hw, rfl⟩)
        rw [e1, e2]
      · have e1 : netBit dx k = netBit h.data k := C90_determined _ k _ _ _ (bx k) (.inr ⟨hn, rfl⟩)
        have e2 : netBit dy k = netBit g.data k := C90_determined _ k _ _ _ (bY k) (.inr ⟨hn, rfl⟩)
        rw [e1, e2]
        exact H i h g hi k1 k (by omega) hn

theorem lengths_of_changes (pk v : Packet) (cs : List Change) (hpr : ∀ c ∈ cs, c.f.lo ≤ c.f.hi) (hv : Change.all pk cs = .ok v) :
    (v.hdrs.map Hdr.data).map List.length = (pk.hdrs.map Hdr.data).map List.length := by
  obtain ⟨v1, v2, v3⟩ := C107_changes true cs pk v hv
  refine List.ext_getElem? fun i => ?_
  simp only [List.getElem?_map]
  cases hi : pk.hdrs[i]? with
  | none =>
    have hle := List.getElem?_eq_none_iff.1 hi
    rw [List.getElem?_eq_none (by omega)]
  | some h =>
    obtain ⟨y, y1, y2, y3⟩ := v3 i h hi
    have hp : ∀ w ∈ writesTo pk.hdrs i cs, w.Proper := by
      intro w hw
      simp only [writesTo, List.mem_map, List.mem_filter] at hw
      obtain ⟨c, ⟨hc, -⟩, rfl⟩ := hw
      exact hpr c hc
    have hf : ∀ w ∈ writesTo pk.hdrs i cs, w.stop ≤ 8 * h.data.length := by
      intro w hw
      apply Classical.byContradiction
      intro hlt
      have := (C90_panics true h _ hp).1.2 ⟨w, hw, by omega⟩
      rw [this] at y3; cases y3
    obtain ⟨y', e, -, ly, -⟩ := C90_history true h _ hp hf
    obtain rfl := Except.ok.inj (y3.symm.trans e)
    rw [y1]
    simp only [Option.map_some, ly]

theorem types_of_changes (pk v : Packet) (cs : List Change) (hv : Change.all pk cs = .ok v) :
    v.hdrs.map Hdr.ty = pk.hdrs.map Hdr.ty := by
  obtain ⟨v1, v2, v3⟩ := C107_changes true cs pk v hv
  refine List.ext_getElem? fun i => ?_
  simp only [List.getElem?_map]
  cases hi : pk.hdrs[i]? with
  | none =>
    have hle := List.getElem?_eq_none_iff.1 hi
    rw [List.getElem?_eq_none (by omega)]
  | some h =>
    obtain ⟨y, y1, y2, -⟩ := v3 i h hi
    rw [y1]
    simp only [Option.map_some, y2]

theorem frame_inj (s : Shot) (pk u v : Packet) (a b : List Change) (ha : ∀ c ∈ a, c.f.lo ≤ c.f.hi) (hb : ∀ c ∈ b, c.f.lo ≤ c.f.hi)
    (hu : Change.all pk a = .ok u) (hv : Change.all pk b = .ok v) : s.frame u = s.frame v ↔ u = v := by
  refine ⟨fun h => ?_, fun h => by rw [h]⟩
  have hpu : u.payload = pk.payload := (C107_changes true a pk u hu).1
  have hpv : v.payload = pk.payload := (C107_changes true b pk v hv).1
  have hl : (u.hdrs.map Hdr.data).map List.length = (v.hdrs.map Hdr.data).map List.length :=
    (lengths_of_changes pk u a ha hu).trans (lengths_of_changes pk v b hb hv).symm
  have ht : u.hdrs.map Hdr.ty = v.hdrs.map Hdr.ty := (types_of_changes pk u a hu).trans (types_of_changes pk v b hv).symm
  simp only [Shot.frame, hpu, hpv, List.append_assoc, List.append_cancel_right_eq] at h
  have hd : u.hdrs.map Hdr.data = v.hdrs.map Hdr.data := List.eq_iff_flatten_eq.2 ⟨h, hl⟩
  obtain ⟨uh, up⟩ := u
  obtain ⟨vh, vp⟩ := v
  simp only at ht hd hpu hpv
  simp only [Packet.mk.injEq]
  refine ⟨List.ext_getElem? fun i => ?_, by rw [hpu, hpv]⟩
  have t1 : (uh.map Hdr.ty)[i]? = (vh.map Hdr.ty)[i]? := by rw [ht]
  have t2 : (uh.map Hdr.data)[i]? = (vh.map Hdr.data)[i]? := by rw [hd]
  simp only [List.getElem?_map] at t1 t2
  cases hx : uh[i]? with
  | none =>
    cases hy : vh[i]? with
    | none => rfl
    | some y => rw [hx, hy] at t1; cases t1
  | some x =>
    cases hy : vh[i]? with
    | none => rw [hx, hy] at t1; cases t1
    | some y =>
      rw [hx, hy] at t1 t2
      obtain ⟨tx, dx⟩ := x
      obtain ⟨ty, dy⟩ := y
      simp only [Option.map_some, Option.some.injEq] at t1 t2
      rw [t1, t2]

/-- **C107**: cloning the template and making each packet anew give the same frames iff for every packet of the series setting its
fields leaves the same packet on the template as on the template changed for all packets before (`C107_same_iff` says when
that is). -/
theorem C107_agree_iff (chk : Bool) (w : World) (hw : w.Reachable chk) (p : Nat) (q : PRef) (hq : w.pkt? p = some q)
    (hn : (q.hdrs.map HRef.ref).Nodup) (hp : ∀ h ∈ q.hdrs, (w.mem h.ref).poisoned = false) (ss : List Shot) (pk : Packet)
    (hv : Change.all (q.view w.mem) (ss.map Shot.changes).flatten = .ok pk)
    (hs : ∀ s ∈ ss, ∃ pk', Change.all (q.view w.mem) s.changes = .ok pk')
    (hpr : ∀ s ∈ ss, ∀ c ∈ s.changes, c.f.lo ≤ c.f.hi) :
    sentFrames (perform chk w (byClone p w.ps.length ss)).2 =
      sentFrames (perform chk w (byMaking (q.view w.mem) w.ps.length ss)).2 ↔
    ∀ k s, ss[k]? = some s → Change.all (q.view w.mem) (soFar ss k) = Change.all (q.view w.mem) s.changes := by
  obtain ⟨-, a2, a3, -⟩ := C107_by_clone chk w hw p q hq hn hp ss pk hv
  obtain ⟨-, b2, b3⟩ := C107_by_making chk w hw (q.view w.mem) ss hs
  generalize sentFrames (perform chk w (byClone p w.ps.length ss)).2 = A at a2 a3 ⊢
  generalize perform chk w (byMaking (q.view w.mem) w.ps.length ss) = r at b2 b3 ⊢
  have hsf : ∀ k, ∀ c ∈ soFar ss k, c.f.lo ≤ c.f.hi := by
    intro k c hc
    simp only [soFar, List.mem_flatten, List.mem_map] at hc
    obtain ⟨l, ⟨s, hs, rfl⟩, hc⟩ := hc
    exact hpr s (List.mem_of_mem_take hs) c hc
  constructor
  · intro h k s hk
    obtain ⟨x, x1, x2⟩ := a3 k s hk
    obtain ⟨y, y1, y2, -⟩ := b3 k s hk
    rw [h, y2] at x2
    rw [x1, y1, (frame_inj s _ y x _ _ (hpr s (List.mem_of_getElem? hk)) (hsf k) y1 x1).1 (Option.some.inj x2)]
  · intro h
    refine List.ext_getElem? fun k => ?_
    cases hk : ss[k]? with
    | none =>
      have := List.getElem?_eq_none_iff.1 hk
      rw [List.getElem?_eq_none (by omega), List.getElem?_eq_none (by omega)]
    | some s =>
      obtain ⟨x, x1, x2⟩ := a3 k s hk
      obtain ⟨y, y1, y2, -⟩ := b3 k s hk
      obtain rfl := Except.ok.inj (x1.symm.trans ((h k s hk).trans y1))
      rw [x2, y2]

/-! ## Samples -/

/-- A world with a template of three headers in packet variable 0. -/
def seriesWorld : World := sampleWorld [.adopt ⟨[⟨Ether, Ether.dflt⟩, ⟨IPv4, IPv4.dflt⟩, ⟨UDP, List.replicate 8 0#8⟩], []⟩]

/-- Packet 0 is for source port 1, packet 1 for destination port 2. -/
def seriesMixed : List Shot := [⟨[⟨"UDP", UDP, UDP.src, 1#64⟩], [0xaa#8]⟩, ⟨[⟨"UDP", UDP, UDP.dst, 2#64⟩], [0xbb#8]⟩]

/-- Three packets for three destination ports. -/
def seriesPorts : List Shot := [⟨[⟨"UDP", UDP, UDP.dst, 1#64⟩], []⟩, ⟨[⟨"UDP", UDP, UDP.dst, 2#64⟩], []⟩, ⟨[⟨"UDP", UDP, UDP.dst, 3#64⟩], []⟩]

-- the hypotheses of `C107_by_clone` and `C107_agree_iff` hold
example : seriesWorld.ps.length = 1 ∧ seriesWorld.pkt? 0 = some ⟨[⟨Ether, 0⟩, ⟨IPv4, 1⟩, ⟨UDP, 2⟩], []⟩ ∧
    (∀ i ∈ [0, 1, 2], (seriesWorld.mem i).poisoned = false) ∧
    (∀ ss ∈ [seriesMixed, seriesPorts],
      (∃ pk, Change.all ((⟨[⟨Ether, 0⟩, ⟨IPv4, 1⟩, ⟨UDP, 2⟩], []⟩ : PRef).view seriesWorld.mem) (ss.map Shot.changes).flatten = .ok pk) ∧
      ∀ s ∈ ss, ∃ pk, Change.all ((⟨[⟨Ether, 0⟩, ⟨IPv4, 1⟩, ⟨UDP, 2⟩], []⟩ : PRef).view seriesWorld.mem) s.changes = .ok pk) := by
  refine ⟨by decide +kernel, by decide +kernel, by decide +kernel, ?_⟩
  have ok : ∀ x : R Packet, (match x with | .ok _ => true | .error _ => false) = true → ∃ pk, x = .ok pk := by
    intro x h; cases x with
    | ok a => exact ⟨a, rfl⟩
    | error e => cases h
  simp only [List.mem_cons, List.not_mem_nil, or_false, forall_eq_or_imp, forall_eq, seriesMixed, seriesPorts]
  refine ⟨⟨ok _ (by decide +kernel), ok _ (by decide +kernel), ok _ (by decide +kernel)⟩,
    ⟨ok _ (by decide +kernel), ok _ (by decide +kernel), ok _ (by decide +kernel), ok _ (by decide +kernel)⟩⟩

-- frame 1 of the mixed series has source port 1 if made by cloning, 0 if made anew; the payloads are right both times
example :
    let c := sentFrames (perform true seriesWorld (byClone 0 1 seriesMixed)).2
    let m := sentFrames (perform true seriesWorld (byMaking ⟨[⟨Ether, Ether.dflt⟩, ⟨IPv4, IPv4.dflt⟩, ⟨UDP, List.replicate 8 0#8⟩], []⟩ 1 seriesMixed)).2
    c.map (fun b => (b.drop 34).take 4) = [[0#8, 1#8, 0#8, 0#8], [0#8, 1#8, 0#8, 2#8]] ∧
    m.map (fun b => (b.drop 34).take 4) = [[0#8, 1#8, 0#8, 0#8], [0#8, 0#8, 0#8, 2#8]] ∧
    c.map (List.drop 42) = [[0xaa#8], [0xbb#8]] ∧ m.map (List.drop 42) = [[0xaa#8], [0xbb#8]] := by decide +kernel

-- the series of destination ports comes out as meant while it is made, but in the end all three clones have port 3
example :
    let r := perform true seriesWorld (byClone 0 1 seriesPorts)
    (sentFrames r.2).map (fun b => (b.drop 36).take 2) = [[0#8, 1#8], [0#8, 2#8], [0#8, 3#8]] ∧
    r.1.serialize true 1 = r.1.serialize true 3 ∧ r.1.serialize true 2 = r.1.serialize true 3 ∧
    r.1.serialize true 0 = r.1.serialize true 3 := by decide +kernel

end PacketRs
