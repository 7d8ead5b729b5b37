import Verif.Spec.Drop
import Verif.Lemmas.Heap
/-!
# Lemmas for C93: reference counts along a history
-/
namespace PacketRs
open Spec

/-! ## Events -/

theorem ArcEv.run_append (a : Arcs) (es fs : List ArcEv) :
    ArcEv.run a (es ++ fs) = (ArcEv.run a es).bind fun a => ArcEv.run a fs := by
  induction es generalizing a with
  | nil => rfl
  | cons e es ih =>
    simp only [List.cons_append, ArcEv.run]
    cases e.step a with
    | none => rfl
    | some b => exact ih b

theorem ArcEv.run_use (a : Arcs) (l : List Nat) (h : ∀ r ∈ l, a r ≠ 0) : ArcEv.run a (l.map .use) = some a := by
  induction l with
  | nil => rfl
  | cons r l ih =>
    simp only [List.map_cons, ArcEv.run, ArcEv.step, if_neg (h r (by simp)), Option.bind_some]
    exact ih fun x hx => h x (by simp [hx])

theorem ArcEv.run_clone (a : Arcs) (l : List Nat) (h : ∀ r ∈ l, a r ≠ 0) :
    ∃ b, ArcEv.run a (l.map .clone) = some b ∧ ∀ r, b r = a r + l.count r := by
  induction l generalizing a with
  | nil => exact ⟨a, rfl, fun r => by simp⟩
  | cons r l ih =>
    simp only [List.map_cons, ArcEv.run, ArcEv.step, if_neg (h r (by simp)), Option.bind_some]
    obtain ⟨b, e, hb⟩ := ih (fun x => if x = r then a x + 1 else a x) (by
      intro x hx
      have := h x (by simp [hx])
      split <;> omega)
    refine ⟨b, e, fun x => ?_⟩
    rw [hb, List.count_cons]
    by_cases hx : x = r
    · subst hx; simp; omega
    · rw [if_neg hx, if_neg (by simpa using fun e => hx e.symm)]; rfl

theorem ArcEv.run_drop (a : Arcs) (l : List Nat) (h : ∀ r, l.count r ≤ a r) :
    ∃ b, ArcEv.run a (l.map .drop) = some b ∧ ∀ r, b r + l.count r = a r := by
  induction l generalizing a with
  | nil => exact ⟨a, rfl, fun r => by simp⟩
  | cons r l ih =>
    have hr := h r
    rw [List.count_cons_self] at hr
    simp only [List.map_cons, ArcEv.run, ArcEv.step, if_neg (show a r ≠ 0 by omega), Option.bind_some]
    obtain ⟨b, e, hb⟩ := ih (fun x => if x = r then a x - 1 else a x) (by
      intro x
      have := h x
      rw [List.count_cons] at this
      split
      · next e => subst e; omega
      · next e => rw [if_neg (by simpa using fun e' => e e'.symm)] at this; exact this)
    refine ⟨b, e, fun x => ?_⟩
    have := hb x
    rw [List.count_cons]
    by_cases hx : x = r
    · subst hx; simp at this ⊢; omega
    · rw [if_neg hx] at this
      rw [if_neg (by simpa using fun e => hx e.symm)]; exact this

theorem ArcEv.run_new (a : Arcs) (n k : Nat) (h : ∀ r, n ≤ r → a r = 0) :
    ∃ b, ArcEv.run a ((List.range' n k).map .new) = some b ∧ ∀ r, b r = a r + (List.range' n k).count r := by
  induction k generalizing a n with
  | zero => exact ⟨a, rfl, fun r => by simp⟩
  | succ k ih =>
    simp only [List.range'_succ, List.map_cons, ArcEv.run, ArcEv.step, if_pos (h n (Nat.le_refl n)), Option.bind_some]
    obtain ⟨b, e, hb⟩ := ih (fun x => if x = n then 1 else a x) (n + 1) (by
      intro r hr
      rw [if_neg (by omega)]; exact h r (by omega))
    refine ⟨b, e, fun x => ?_⟩
    rw [hb, List.count_cons]
    by_cases hx : x = n
    · subst hx; simp [h x (Nat.le_refl x)]; omega
    · rw [if_neg hx, if_neg (by simpa using fun e => hx e.symm)]; rfl

/-! ## Variables -/

theorem count_set {γ : Type} (f : Option γ → List Nat) (l : List (Option γ)) (i : Nat) (old new : Option γ)
    (h : l[i]? = some old) (r : Nat) :
    ((l.set i new).flatMap f).count r + (f old).count r = (l.flatMap f).count r + (f new).count r := by
  induction l generalizing i with
  | nil => simp at h
  | cons x l ih =>
    cases i with
    | zero =>
      simp at h; subst h
      simp [List.count_append]; omega
    | succ i =>
      have := ih i (by simpa using h)
      simp only [List.set_cons_succ, List.flatMap_cons, List.count_append]
      omega

theorem World.hdr?_get {w : World} {h : Nat} {x : HRef} (e : w.hdr? h = some x) : w.hs[h]? = some (some x) := by
  unfold World.hdr? at e
  cases hh : w.hs[h]? with
  | none => rw [hh] at e; cases e
  | some y => rw [hh] at e; simpa using e

theorem World.pkt?_get {w : World} {p : Nat} {q : PRef} (e : w.pkt? p = some q) : w.ps[p]? = some (some q) := by
  unfold World.pkt? at e
  cases hh : w.ps[p]? with
  | none => rw [hh] at e; cases e
  | some y => rw [hh] at e; simpa using e

theorem count_held_hs (w : World) (l : List (Option HRef)) (r : Nat) :
    (held { w with hs := l }).count r = (l.flatMap heldH).count r + (w.ps.flatMap heldP).count r := by
  simp [held, List.count_append]

theorem mem_held_hdr {w : World} {h : Nat} {x : HRef} (e : w.hdr? h = some x) : x.ref ∈ held w := by
  have := List.mem_of_getElem? (World.hdr?_get e)
  simp only [held, List.mem_append, List.mem_flatMap]
  exact .inl ⟨_, this, by simp [heldH]⟩

theorem mem_held_pkt {w : World} {p : Nat} {q : PRef} (e : w.pkt? p = some q) : ∀ x ∈ q.hdrs, x.ref ∈ held w := by
  have := List.mem_of_getElem? (World.pkt?_get e)
  intro x hx
  simp only [held, List.mem_append, List.mem_flatMap]
  exact .inr ⟨_, this, by simpa [heldP] using ⟨x, hx, rfl⟩⟩

theorem mem_held_place {w : World} {x : Place} {h : HRef} (e : w.resolve x = .ok h) : h.ref ∈ held w := by
  cases x with
  | var v =>
    simp only [World.resolve] at e
    split at e
    · next y hy => cases e; exact mem_held_hdr hy
    · cases e
  | inPkt p name T =>
    simp only [World.resolve] at e
    split at e
    · cases e
    · next q hq =>
      split at e
      · cases e
      · next g hg =>
        split at e
        · cases e; exact mem_held_pkt hq _ (List.mem_of_find?_eq_some hg)
        · cases e

/-- The counts are right. -/
structure Counts (w : World) (a : Arcs) : Prop where
  count : ∀ r, a r = (held w).count r
  lt : ∀ r ∈ held w, r < w.next

theorem Counts.ne {w : World} {a : Arcs} (h : Counts w a) {r : Nat} (hr : r ∈ held w) : a r ≠ 0 := by
  rw [h.count]
  exact Nat.pos_iff_ne_zero.mp (List.count_pos_iff.mpr hr)

theorem Counts.fresh {w : World} {a : Arcs} (h : Counts w a) {r : Nat} (hr : w.next ≤ r) : a r = 0 := by
  rw [h.count, List.count_eq_zero]
  intro hm
  have := h.lt r hm
  omega

/-- Only the variables and the allocation pointer matter. -/
theorem Counts.congr {w w' : World} {a a' : Arcs} (h : Counts w a) (hn : w.next ≤ w'.next)
    (hc : ∀ r, a' r = (held w').count r) (hm : ∀ r ∈ held w', r ∈ held w ∨ r < w'.next) : Counts w' a' :=
  ⟨hc, fun r hr => (hm r hr).elim (fun k => Nat.lt_of_lt_of_le (h.lt r k) hn) id⟩

theorem access_held (w : World) (p : Prog Val) : held (w.access p).1 = held w ∧ (w.access p).1.next = w.next := ⟨rfl, rfl⟩

theorem accessAt_same (w : World) (x : Place) (p : HRef → Prog Val) :
    held (w.accessAt x p).1 = held w ∧ (w.accessAt x p).1.next = w.next := by
  unfold World.accessAt
  split <;> exact ⟨rfl, rfl⟩

theorem Counts.same {w w' : World} {a : Arcs} (h : Counts w a) (e : held w' = held w ∧ w'.next = w.next) : Counts w' a :=
  ⟨fun r => by rw [e.1]; exact h.count r, fun r hr => by rw [e.2]; rw [e.1] at hr; exact h.lt r hr⟩

theorem Counts.useAt {w : World} {a : Arcs} (h : Counts w a) (x : Place) : ArcEv.run a (w.useAt x) = some a := by
  unfold World.useAt
  split
  · next g e => exact ArcEv.run_use a [g.ref] (by simpa using h.ne (mem_held_place e))
  · rfl

/-- Replacing a packet variable. -/
theorem count_held_setP (w : World) (p : Nat) (q : PRef) (e : w.pkt? p = some q) (n : Option PRef) (r : Nat) :
    (held { w with ps := w.ps.set p n }).count r + (refsOf q.hdrs).count r = (held w).count r + (heldP n).count r := by
  have := count_set heldP w.ps p (some q) n (World.pkt?_get e) r
  simp only [held, List.count_append] at *
  have e2 : heldP (some q) = refsOf q.hdrs := rfl
  rw [e2] at this
  omega

/-- Replacing a header variable. -/
theorem count_held_setH (w : World) (h : Nat) (x : HRef) (e : w.hdr? h = some x) (n : Option HRef) (r : Nat) :
    (held { w with hs := w.hs.set h n }).count r + [x.ref].count r = (held w).count r + (heldH n).count r := by
  have := count_set heldH w.hs h (some x) n (World.hdr?_get e) r
  simp only [held, List.count_append] at *
  have e2 : heldH (some x) = [x.ref] := rfl
  rw [e2] at this
  omega

theorem Counts.mk' {w w' : World} {a a' : Arcs} (h : Counts w a) (hn : w.next ≤ w'.next)
    (hc : ∀ r, a' r = (held w').count r)
    (hm : ∀ r, (held w').count r ≠ 0 → (held w).count r ≠ 0 ∨ r < w'.next) : Counts w' a' := by
  refine ⟨hc, fun r hr => ?_⟩
  rcases hm r (Nat.pos_iff_ne_zero.mp (List.count_pos_iff.mpr hr)) with k | k
  · exact Nat.lt_of_lt_of_le (h.lt r (List.count_pos_iff.mp (Nat.pos_of_ne_zero k))) hn
  · exact k

theorem count_le_pkt {w : World} {p : Nat} {q : PRef} (e : w.pkt? p = some q) (r : Nat) :
    (refsOf q.hdrs).count r ≤ (held w).count r := by
  have := count_held_setP w p q e none r
  simp [heldP] at this
  omega

theorem count_le_hdr {w : World} {h : Nat} {x : HRef} (e : w.hdr? h = some x) (r : Nat) :
    [x.ref].count r ≤ (held w).count r := by
  have := count_held_setH w h x e none r
  simp only [heldH, List.count_nil] at this
  omega

theorem Counts.uses {w : World} {a : Arcs} (h : Counts w a) {p : Nat} {q : PRef} (e : w.pkt? p = some q) :
    ArcEv.run a ((refsOf q.hdrs).map .use) = some a := by
  apply ArcEv.run_use
  intro r hr
  obtain ⟨x, hx, rfl⟩ := List.mem_map.mp hr
  exact h.ne (mem_held_pkt e x hx)

theorem count_split (l : List HRef) (n : Nat) (r : Nat) :
    (refsOf (l.eraseIdx n)).count r + (refsOf ((l.drop n).take 1)).count r = (refsOf l).count r := by
  induction l generalizing n with
  | nil => simp [refsOf]
  | cons x l ih =>
    cases n with
    | zero => simp [refsOf, List.count_cons]
    | succ n =>
      have := ih n
      simp only [refsOf, List.eraseIdx_cons_succ, List.map_cons, List.count_cons, List.drop_succ_cons] at *
      omega

theorem count_last (l : List HRef) (r : Nat) :
    (refsOf l.dropLast).count r + (refsOf (l.drop (l.length - 1))).count r = (refsOf l).count r := by
  have : l = l.dropLast ++ l.drop (l.length - 1) := by
    rw [List.dropLast_eq_take, List.take_append_drop]
  conv => rhs; rw [this]
  simp [refsOf, List.count_append]

theorem count_assignFirst (name : String) (x : HRef) (l : List HRef) (g : HRef)
    (hg : l.find? (fun g => g.ty.name = name) = some g) (r : Nat) :
    (refsOf (World.assignFirst name x l)).count r + [g.ref].count r = (refsOf l).count r + [x.ref].count r := by
  induction l with
  | nil => simp at hg
  | cons y l ih =>
    rw [List.find?_cons] at hg
    by_cases hy : y.ty.name = name
    · simp [hy] at hg; subst hg
      simp only [World.assignFirst, if_pos hy, refsOf, List.map_cons, List.count_cons, List.count_nil]
      omega
    · simp [hy] at hg
      have := ih (by simpa using hg)
      simp only [World.assignFirst, if_neg hy, refsOf, List.map_cons, List.count_cons, List.count_nil] at *
      omega

theorem refs_allocAll (w : World) (hs : List Hdr) : refsOf (w.allocAll hs).2 = List.range' w.next hs.length := by
  obtain ⟨-, -, -, h, -⟩ := World.allocAll_props hs w
  rw [h]
  apply List.ext_getElem
  · simp [refsOf]
  · intro i h1 h2
    simp [refsOf]

/-- A packet's headers get shorter. -/
theorem Counts.shrink {w : World} {a : Arcs} (hc : Counts w a) {p : Nat} {q : PRef} (e : w.pkt? p = some q)
    (l d : List HRef) (b : Bytes) (hl : ∀ r, (refsOf l).count r + (refsOf d).count r = (refsOf q.hdrs).count r) :
    ∃ a', ArcEv.run a ((refsOf d).map .drop) = some a' ∧ Counts { w with ps := w.ps.set p (some ⟨l, b⟩) } a' := by
  obtain ⟨a', e1, ha⟩ := ArcEv.run_drop a (refsOf d) (fun r => by
    have h1 := hl r
    have h2 := count_le_pkt e r
    rw [hc.count]; omega)
  have cnt : ∀ r, (held { w with ps := w.ps.set p (some ⟨l, b⟩) }).count r + (refsOf d).count r = (held w).count r := by
    intro r
    have h1 := count_held_setP w p q e (some ⟨l, b⟩) r
    have h2 : heldP (some ⟨l, b⟩) = refsOf l := rfl
    rw [h2] at h1
    have := hl r
    omega
  refine ⟨a', e1, hc.mk' (Nat.le_refl _) (fun r => ?_) (fun r hr => ?_)⟩
  · have := cnt r; have := ha r; rw [hc.count] at this; omega
  · have := cnt r; left; omega

/-- A header variable moves into a packet, and headers of the packet are dropped. -/
theorem Counts.moveIn {w : World} {a : Arcs} (hc : Counts w a) {p h : Nat} {q : PRef} {x : HRef} (e : w.pkt? p = some q)
    (eh : w.hdr? h = some x) (l d : List HRef) (b : Bytes)
    (hl : ∀ r, (refsOf l).count r + (refsOf d).count r = (refsOf q.hdrs).count r + [x.ref].count r) :
    ∃ a', ArcEv.run a ((refsOf d).map .drop) = some a' ∧
      Counts { w with hs := w.hs.set h none, ps := w.ps.set p (some ⟨l, b⟩) } a' := by
  have cnt : ∀ r, (held { w with hs := w.hs.set h none, ps := w.ps.set p (some ⟨l, b⟩) }).count r + (refsOf d).count r
      = (held w).count r := by
    intro r
    have h1 := count_held_setP w p q e (some ⟨l, b⟩) r
    have h2 : heldP (some ⟨l, b⟩) = refsOf l := rfl
    rw [h2] at h1
    have h3 := count_held_setH w h x eh none r
    simp only [held, List.count_append, heldH, List.count_nil] at h1 h3 ⊢
    have := hl r
    omega
  obtain ⟨a', e1, ha⟩ := ArcEv.run_drop a (refsOf d) (fun r => by
    have h1 := cnt r
    rw [hc.count]; omega)
  refine ⟨a', e1, hc.mk' (Nat.le_refl _) (fun r => ?_) (fun r hr => ?_)⟩
  · have := cnt r; have := ha r; rw [hc.count] at this; omega
  · have := cnt r; left; omega

/-- A header variable is dropped. -/
theorem Counts.dropHdr {w : World} {a : Arcs} (hc : Counts w a) {h : Nat} {x : HRef} (eh : w.hdr? h = some x) :
    ∃ a', ArcEv.run a [.drop x.ref] = some a' ∧ Counts { w with hs := w.hs.set h none } a' := by
  have cnt := fun r => count_held_setH w h x eh none r
  simp only [heldH, List.count_nil] at cnt
  obtain ⟨a', e1, ha⟩ := ArcEv.run_drop a [x.ref] (fun r => by
    have h1 := cnt r
    rw [hc.count]; omega)
  refine ⟨a', e1, hc.mk' (Nat.le_refl _) (fun r => ?_) (fun r hr => ?_)⟩
  · have := cnt r; have := ha r; rw [hc.count] at this; omega
  · have := cnt r; left; omega

/-- A packet variable is dropped. -/
theorem Counts.dropPkt {w : World} {a : Arcs} (hc : Counts w a) (p : Nat) :
    ∃ a', ArcEv.run a (w.dropPkt p).2 = some a' ∧ Counts (w.dropPkt p).1 a' := by
  unfold World.dropPkt
  cases e : w.pkt? p with
  | none => exact ⟨a, rfl, hc⟩
  | some q =>
    dsimp only
    have cnt := fun r => count_held_setP w p q e none r
    simp only [heldP, List.count_nil] at cnt
    obtain ⟨a', e1, ha⟩ := ArcEv.run_drop a (refsOf q.hdrs) (fun r => by
      have h1 := cnt r
      rw [hc.count]; omega)
    refine ⟨a', e1, hc.mk' (Nat.le_refl _) (fun r => ?_) (fun r hr => ?_)⟩
    · have := cnt r; have := ha r; rw [hc.count] at this; omega
    · have := cnt r; left; omega

/-- One call keeps the counts right. -/
theorem Counts.call {w : World} {a : Arcs} (hc : Counts w a) (chk : Bool) (o : Op) :
    ∃ a', ArcEv.run a (w.events o) = some a' ∧ Counts (w.step chk o).1 a' := by
  have acc : ∀ (x : Place) (p : HRef → Prog Val),
      ∃ a', ArcEv.run a (w.useAt x) = some a' ∧ Counts (w.accessAt x p).1 a' :=
    fun x p => ⟨a, hc.useAt x, hc.same (accessAt_same w x p)⟩
  have same : ∃ a', ArcEv.run a [] = some a' ∧ Counts w a' := ⟨a, rfl, hc⟩
  have alloc : ∀ (T : HeaderDef) (b : Bytes), ∃ a', ArcEv.run a [.new w.next] = some a' ∧
      Counts { (w.alloc T b).1 with hs := w.hs ++ [some (w.alloc T b).2] } a' := by
    intro T b
    obtain ⟨a', e, ha⟩ := ArcEv.run_new a w.next 1 (fun r hr => hc.fresh hr)
    have cnt : ∀ r, (held { (w.alloc T b).1 with hs := w.hs ++ [some (w.alloc T b).2] }).count r
        = (held w).count r + [w.next].count r := by
      intro r
      simp only [held, World.alloc, List.flatMap_append, List.count_append, List.flatMap_cons, List.flatMap_nil, heldH,
        List.append_nil]
      omega
    refine ⟨a', e, hc.mk' (by simp [World.alloc]) (fun r => ?_) (fun r hr => ?_)⟩
    · rw [cnt, ha, hc.count]; simp
    · rw [cnt] at hr
      by_cases hz : (held w).count r = 0
      · right
        rw [hz] at hr
        have : r ∈ [w.next] := List.count_pos_iff.mp (by omega)
        simp at this
        simp [World.alloc, this]
      · exact .inl hz
  cases o with
  | new T => exact alloc T _
  | ofVec T b => exact alloc T b
  | clone x =>
    simp only [World.events, World.step]
    cases e : w.resolve x with
    | error f => exact same
    | ok h =>
      obtain ⟨a', e1, ha⟩ := ArcEv.run_clone a [h.ref] (by simpa using hc.ne (mem_held_place e))
      have cnt : ∀ r, (held { w with hs := w.hs ++ [some h] }).count r = (held w).count r + [h.ref].count r := by
        intro r
        simp only [held, List.flatMap_append, List.count_append, List.flatMap_cons, List.flatMap_nil, heldH, List.append_nil]
        omega
      refine ⟨a', e1, hc.mk' (Nat.le_refl _) (fun r => by rw [cnt, ha, hc.count]) (fun r hr => ?_)⟩
      rw [cnt] at hr
      by_cases hz : [h.ref].count r = 0
      · left; omega
      · left
        have : r ∈ [h.ref] := List.count_pos_iff.mp (by omega)
        simp at this
        subst this
        exact Nat.pos_iff_ne_zero.mp (List.count_pos_iff.mpr (mem_held_place e))
  | get x f => exact acc x _
  | set x f v => exact acc x _
  | bytes x m l => exact acc x _
  | setBytes x m l v => exact acc x _
  | toVec x => exact acc x _
  | replace x y =>
    simp only [World.events, World.step]
    cases e : w.resolve x with
    | error f => exact same
    | ok h =>
      refine ⟨a, ?_, hc.same (accessAt_same w y _)⟩
      rw [ArcEv.run_append, hc.useAt x, Option.bind_some, hc.useAt y]
  | pktNew => exact ⟨a, rfl, hc.same ⟨by simp [held, World.step, heldP], rfl⟩⟩
  | adopt q =>
    obtain ⟨a', e, ha⟩ := ArcEv.run_new a w.next q.hdrs.length (fun r hr => hc.fresh hr)
    obtain ⟨h1, h2, h3, -⟩ := World.allocAll_props q.hdrs w
    have cnt : ∀ r, (held (w.step chk (.adopt q)).1).count r
        = (held w).count r + (List.range' w.next q.hdrs.length).count r := by
      intro r
      have : heldP (some ⟨(w.allocAll q.hdrs).2, q.payload⟩) = List.range' w.next q.hdrs.length := refs_allocAll w q.hdrs
      simp only [held, World.step, h2, h3, List.flatMap_append, List.count_append, List.flatMap_cons, List.flatMap_nil,
        List.append_nil, this]
      omega
    refine ⟨a', e, hc.mk' (by simp only [World.step, h1]; omega) (fun r => by rw [cnt, ha, hc.count]) (fun r hr => ?_)⟩
    rw [cnt] at hr
    by_cases hz : (held w).count r = 0
    · right
      have : r ∈ List.range' w.next q.hdrs.length := List.count_pos_iff.mp (by omega)
      simp only [List.mem_range'_1] at this
      simp only [World.step, h1]
      omega
    · exact .inl hz
  | push p h =>
    simp only [World.events, World.step]
    cases eh : w.hdr? h with
    | none => exact same
    | some x =>
      cases e : w.pkt? p with
      | none => exact same
      | some q => exact hc.moveIn e eh _ [] _ (fun r => by simp [refsOf, List.count_append])
  | insert p h =>
    simp only [World.events, World.step]
    cases eh : w.hdr? h with
    | none => exact same
    | some x =>
      cases e : w.pkt? p with
      | none => exact same
      | some q => exact hc.moveIn e eh _ [] _ (fun r => by simp [refsOf, List.count_cons])
  | pop p =>
    simp only [World.events, World.step, World.updPkt]
    cases e : w.pkt? p with
    | none => exact same
    | some q => exact hc.shrink e _ _ _ (count_last q.hdrs)
  | remove p i =>
    simp only [World.events, World.step, World.updPkt]
    cases e : w.pkt? p with
    | none => exact same
    | some q => exact hc.shrink e _ _ _ (count_split q.hdrs i)
  | setPayload p b =>
    simp only [World.events, World.step, World.updPkt]
    cases e : w.pkt? p with
    | none => exact same
    | some q => exact hc.shrink e _ [] _ (fun r => by simp [refsOf])
  | pktClone p =>
    simp only [World.events, World.step]
    cases e : w.pkt? p with
    | none => exact same
    | some q =>
      obtain ⟨a', e1, ha⟩ := ArcEv.run_clone a (refsOf q.hdrs) (fun r hr => by
        obtain ⟨x, hx, rfl⟩ := List.mem_map.mp hr
        exact hc.ne (mem_held_pkt e x hx))
      have cnt : ∀ r, (held { w with ps := w.ps ++ [some ⟨q.hdrs, q.payload⟩] }).count r
          = (held w).count r + (refsOf q.hdrs).count r := by
        intro r
        have h2 : heldP (some ⟨q.hdrs, q.payload⟩) = refsOf q.hdrs := rfl
        simp only [held, List.flatMap_append, List.count_append, List.flatMap_cons, List.flatMap_nil, h2, List.append_nil]
        omega
      refine ⟨a', e1, hc.mk' (Nat.le_refl _) (fun r => by rw [cnt, ha, hc.count]) (fun r hr => ?_)⟩
      rw [cnt] at hr
      have := count_le_pkt e r
      left; omega
  | add p q =>
    simp only [World.events, World.step]
    by_cases hpq : p = q
    · simp only [if_pos hpq]; exact same
    simp only [if_neg hpq]
    cases e : w.pkt? p with
    | none => exact same
    | some x =>
      cases e' : w.pkt? q with
      | none => exact same
      | some y =>
        obtain ⟨a', e1, ha⟩ := ArcEv.run_clone a (refsOf y.hdrs) (fun r hr => by
          obtain ⟨z, hz, rfl⟩ := List.mem_map.mp hr
          exact hc.ne (mem_held_pkt e' z hz))
        obtain ⟨a'', e2, ha'⟩ := ArcEv.run_drop a' (refsOf y.hdrs) (fun r => by rw [ha]; omega)
        have cnt : ∀ r, (held { w with ps := ((w.ps.set p none).set q none) ++ [some ⟨x.hdrs ++ y.hdrs, x.payload⟩] }).count r
            = (held w).count r := by
          intro r
          have h1 := count_set heldP w.ps p (some x) none (World.pkt?_get e) r
          have h2 := count_set heldP (w.ps.set p none) q (some y) none
            (by rw [List.getElem?_set_ne hpq]; exact World.pkt?_get e') r
          simp only [heldP, List.count_nil] at h1 h2
          simp only [held, List.flatMap_append, List.count_append, List.flatMap_cons, List.flatMap_nil, List.append_nil, heldP,
            List.map_append]
          omega
        refine ⟨a'', ?_, hc.mk' (Nat.le_refl _) (fun r => ?_) (fun r hr => ?_)⟩
        · rw [ArcEv.run_append, e1]; exact e2
        · rw [cnt, ← hc.count]; have := ha r; have := ha' r; omega
        · rw [cnt] at hr; exact .inl hr
  | pktToVec p =>
    simp only [World.events, World.step]
    cases e : w.pkt? p with
    | none => exact same
    | some q => exact ⟨a, hc.uses e, hc.same (access_held w _)⟩
  | compare p q =>
    simp only [World.events, World.step]
    cases e : w.pkt? p with
    | none => exact same
    | some x =>
      cases e' : w.pkt? q with
      | none => exact same
      | some y =>
        refine ⟨a, ?_, hc.same (access_held w _)⟩
        simp only [ArcEv.run_append, hc.uses e', Option.bind_some, hc.uses e]
  | assign p name h =>
    simp only [World.events, World.step]
    cases eh : w.hdr? h with
    | none => exact same
    | some x =>
      cases e : w.pkt? p with
      | none => exact same
      | some q =>
        cases ef : q.hdrs.find? (fun g => g.ty.name = name) with
        | some g =>
          have : q.hdrs.any (fun g => g.ty.name = name) = true := by
            rw [List.any_eq_true]
            exact ⟨g, List.mem_of_find?_eq_some ef, by simpa using List.find?_some ef⟩
          simp only [this, if_true, ef]
          exact hc.moveIn e eh _ [g] _ (count_assignFirst name x q.hdrs g ef)
        | none =>
          have : q.hdrs.any (fun g => g.ty.name = name) = false := by
            rw [List.any_eq_false]
            exact List.find?_eq_none.mp ef
          simp only [this, Bool.false_eq_true, if_false, ef]
          exact hc.dropHdr eh
  | compareSlice p b =>
    simp only [World.events, World.step]
    cases e : w.pkt? p with
    | none => exact same
    | some q => exact ⟨a, hc.uses e, hc.same (access_held w _)⟩
  | pktLen p =>
    simp only [World.events, World.step]
    cases e : w.pkt? p with
    | none => exact same
    | some q => exact same

/-- One statement keeps the counts right. -/
theorem Counts.stmt {w : World} {a : Arcs} (hc : Counts w a) (chk : Bool) (s : Stmt) :
    ∃ a', ArcEv.run a (w.stmt chk s).2.2 = some a' ∧ Counts (w.stmt chk s).1 a' := by
  cases s with
  | call o => exact hc.call chk o
  | dropHdr h =>
    simp only [World.stmt]
    cases eh : w.hdr? h with
    | none => exact ⟨a, rfl, hc⟩
    | some x => exact hc.dropHdr eh
  | dropPkt p => exact hc.dropPkt p
  | build p e =>
    simp only [World.stmt]
    cases ep : w.pkt? p with
    | none => exact ⟨a, rfl, hc⟩
    | some q =>
      dsimp only
      obtain ⟨a1, r1, c1⟩ := hc.call chk (.pktToVec p)
      revert c1
      rcases hw : w.step chk (.pktToVec p) with ⟨w1, v⟩
      intro c1
      have fin : ∀ (y : R Val), ∃ a', ArcEv.run a (w.events (.pktToVec p) ++ (w1.dropPkt p).2) = some a' ∧
          Counts (w1.dropPkt p).1 a' := by
        intro _
        obtain ⟨a2, r2, c2⟩ := c1.dropPkt p
        exact ⟨a2, by rw [ArcEv.run_append, r1]; exact r2, c2⟩
      split
      · next w2 v' heq =>
        obtain ⟨rfl, rfl⟩ := Prod.mk.inj heq
        split
        · exact fin (.ok .unit)
        · next o _ =>
          obtain ⟨a2, r2, c2⟩ := c1.call chk (.adopt o)
          split
          · obtain ⟨a3, r3, c3⟩ := c2.call chk (.add w1.ps.length p)
            exact ⟨a3, by simp only [ArcEv.run_append, r1, Option.bind_some, r2]; exact r3, c3⟩
          · obtain ⟨a3, r3, c3⟩ := c2.dropPkt p
            exact ⟨a3, by simp only [ArcEv.run_append, r1, Option.bind_some, r2]; exact r3, c3⟩
      · next w2 v' heq =>
        obtain ⟨rfl, rfl⟩ := Prod.mk.inj heq
        exact fin (.ok .unit)

/-! ## Allocations -/

/-- The cells allocated, in order. -/
def news (es : List ArcEv) : List Nat := es.filterMap fun e => match e with | .new r => some r | _ => none

theorem news_append (es fs : List ArcEv) : news (es ++ fs) = news es ++ news fs := List.filterMap_append

theorem news_map (f : Nat → ArcEv) (h : ∀ r s, f r ≠ .new s) (l : List Nat) : news (l.map f) = [] := by
  induction l with
  | nil => rfl
  | cons x l ih =>
    unfold news at *
    rw [List.map_cons, List.filterMap_cons, ih]
    cases e : f x with
    | new r => exact absurd e (h x r)
    | clone r => rfl
    | use r => rfl
    | drop r => rfl

theorem news_new (l : List Nat) : news (l.map .new) = l := by
  induction l with
  | nil => rfl
  | cons x l ih =>
    unfold news at *
    rw [List.map_cons, List.filterMap_cons, ih]

theorem news_useAt (w : World) (x : Place) : news (w.useAt x) = [] := by
  unfold World.useAt
  split <;> rfl

theorem news_dropPkt (w : World) (p : Nat) : news (w.dropPkt p).2 = [] ∧ (w.dropPkt p).1.next = w.next := by
  unfold World.dropPkt
  split
  · exact ⟨news_map .drop (by simp) _, rfl⟩
  · exact ⟨rfl, rfl⟩

theorem news_call (chk : Bool) (w : World) (o : Op) :
    ∃ k, news (w.events o) = List.range' w.next k ∧ (w.step chk o).1.next = w.next + k := by
  have acc : ∀ (x : Place) (p : HRef → Prog Val),
      ∃ k, news (w.useAt x) = List.range' w.next k ∧ (w.accessAt x p).1.next = w.next + k :=
    fun x p => ⟨0, news_useAt w x, (accessAt_same w x p).2⟩
  have none : ∀ es, news es = [] → ∃ k, news es = List.range' w.next k ∧ w.next = w.next + k := fun es h => ⟨0, h, rfl⟩
  cases o with
  | new T => exact ⟨1, rfl, rfl⟩
  | ofVec T b => exact ⟨1, rfl, rfl⟩
  | clone x => simp only [World.events, World.step]; cases w.resolve x <;> exact none _ rfl
  | get x f => exact acc x _
  | set x f v => exact acc x _
  | bytes x m l => exact acc x _
  | setBytes x m l v => exact acc x _
  | toVec x => exact acc x _
  | replace x y =>
    simp only [World.events, World.step]
    cases e : w.resolve x with
    | error f => exact none _ rfl
    | ok h => exact ⟨0, by simp [news_append, news_useAt], (accessAt_same w y _).2⟩
  | pktNew => exact none _ rfl
  | adopt q => exact ⟨q.hdrs.length, news_new _, (World.allocAll_props q.hdrs w).1⟩
  | push p h => simp only [World.events, World.step]; cases w.hdr? h <;> cases w.pkt? p <;> exact none _ rfl
  | insert p h => simp only [World.events, World.step]; cases w.hdr? h <;> cases w.pkt? p <;> exact none _ rfl
  | pop p =>
    simp only [World.events, World.step, World.updPkt]
    cases w.pkt? p with
    | none => exact none _ rfl
    | some q => exact none _ (news_map .drop (by simp) _)
  | remove p i =>
    simp only [World.events, World.step, World.updPkt]
    cases w.pkt? p with
    | none => exact none _ rfl
    | some q => exact none _ (news_map .drop (by simp) _)
  | setPayload p b => simp only [World.events, World.step, World.updPkt]; cases w.pkt? p <;> exact none _ rfl
  | pktClone p =>
    simp only [World.events, World.step]
    cases w.pkt? p with
    | none => exact none _ rfl
    | some q => exact none _ (news_map .clone (by simp) _)
  | add p q =>
    simp only [World.events, World.step]
    split
    · exact none _ rfl
    · cases w.pkt? p with
      | none => exact none _ rfl
      | some x =>
        cases w.pkt? q with
        | none => exact none _ rfl
        | some y => exact none _ (by rw [news_append, news_map .clone (by simp), news_map .drop (by simp)]; rfl)
  | pktToVec p =>
    simp only [World.events, World.step]
    cases w.pkt? p with
    | none => exact none _ rfl
    | some q => exact none _ (news_map .use (by simp) _)
  | compare p q =>
    simp only [World.events, World.step]
    cases w.pkt? p with
    | none => exact none _ rfl
    | some x =>
      cases w.pkt? q with
      | none => exact none _ rfl
      | some y => exact none _ (by rw [news_append, news_map .use (by simp), news_map .use (by simp)]; rfl)
  | assign p name h =>
    simp only [World.events, World.step]
    cases w.hdr? h with
    | none => exact none _ rfl
    | some x =>
      cases w.pkt? p with
      | none => exact none _ rfl
      | some q =>
        refine ⟨0, ?_, ?_⟩
        · dsimp only; split <;> rfl
        · dsimp only; split <;> rfl
  | compareSlice p b =>
    simp only [World.events, World.step]
    cases w.pkt? p with
    | none => exact none _ rfl
    | some q => exact none _ (news_map .use (by simp) _)
  | pktLen p => simp only [World.events, World.step]; cases w.pkt? p <;> exact none _ rfl

theorem news_stmt (chk : Bool) (w : World) (s : Stmt) :
    ∃ k, news (w.stmt chk s).2.2 = List.range' w.next k ∧ (w.stmt chk s).1.next = w.next + k := by
  cases s with
  | call o => exact news_call chk w o
  | dropHdr h => simp only [World.stmt]; cases w.hdr? h <;> exact ⟨0, rfl, rfl⟩
  | dropPkt p => exact ⟨0, (news_dropPkt w p).1, (news_dropPkt w p).2⟩
  | build p e =>
    simp only [World.stmt]
    cases ep : w.pkt? p with
    | none => exact ⟨0, rfl, rfl⟩
    | some q =>
      dsimp only
      have n1 : news (w.events (.pktToVec p)) = [] := by
        simp only [World.events, ep]; exact news_map .use (by simp) _
      have x1 : (w.step chk (.pktToVec p)).1.next = w.next := by
        simp only [World.step, ep]; exact (access_held w _).2
      rcases hw : w.step chk (.pktToVec p) with ⟨w1, v⟩
      rw [hw] at x1
      dsimp only at x1
      have fin : ∃ k, news (w.events (.pktToVec p) ++ (w1.dropPkt p).2) = List.range' w.next k ∧
          (w1.dropPkt p).1.next = w.next + k :=
        ⟨0, by rw [news_append, n1, (news_dropPkt w1 p).1]; rfl, by rw [(news_dropPkt w1 p).2, x1]; rfl⟩
      split
      · next w2 v' heq =>
        obtain ⟨rfl, rfl⟩ := Prod.mk.inj heq
        split
        · exact fin
        · next o _ =>
          obtain ⟨k, n2, x2⟩ := news_call chk w1 (.adopt o)
          split
          · refine ⟨k, ?_, ?_⟩
            · have : news ((w1.step chk (.adopt o)).1.events (.add w1.ps.length p)) = [] := by
                simp only [World.events]
                split
                · rfl
                · split
                  · rw [news_append, news_map .clone (by simp), news_map .drop (by simp)]; rfl
                  · rfl
              rw [news_append, news_append, n1, n2, this, x1]; simp
            · have : ((w1.step chk (.adopt o)).1.step chk (.add w1.ps.length p)).1.next
                  = (w1.step chk (.adopt o)).1.next := by
                simp only [World.step]
                split
                · rfl
                · split
                  · rfl
                  · split <;> rfl
              exact this.trans (by rw [x2, x1])
          · refine ⟨k, ?_, ?_⟩
            · rw [news_append, news_append, n1, n2, (news_dropPkt _ p).1, x1]; simp
            · exact (news_dropPkt _ p).2.trans (by rw [x2, x1])
      · next w2 v' heq =>
        obtain ⟨rfl, rfl⟩ := Prod.mk.inj heq
        exact fin

theorem ArcEv.run_lt {a a' : Arcs} {es : List ArcEv} {n k : Nat} (hz : ∀ r, n ≤ r → a r = 0)
    (hr : ArcEv.run a es = some a') (hn : news es = List.range' n k) : ∀ x ∈ es, cellOf x < n + k := by
  induction es generalizing a n k with
  | nil => simp
  | cons e es ih =>
    simp only [ArcEv.run] at hr
    cases hs : e.step a with
    | none => rw [hs] at hr; cases hr
    | some b =>
      rw [hs, Option.bind_some] at hr
      have other : ∀ r, cellOf e = r → a r ≠ 0 → (∀ s, s ≠ r → b s = a s) → news (e :: es) = news es →
          ∀ x ∈ e :: es, cellOf x < n + k := by
        intro r hc ha hb hne x hx
        have hlt : r < n := by
          apply Nat.lt_of_not_le
          intro hle
          exact ha (hz r hle)
        rw [hne] at hn
        rcases List.mem_cons.mp hx with rfl | hx
        · omega
        · exact ih (fun s hs => by rw [hb s (by omega)]; exact hz s hs) hr hn x hx
      cases e with
      | new r =>
        have e1 : news (.new r :: es) = r :: news es := rfl
        rw [e1] at hn
        cases k with
        | zero => simp at hn
        | succ k =>
          rw [List.range'_succ] at hn
          obtain ⟨rfl, hn⟩ := List.cons.inj hn
          simp only [ArcEv.step] at hs
          rw [if_pos (hz r (Nat.le_refl r))] at hs
          have hb := Option.some.inj hs
          intro x hx
          rcases List.mem_cons.mp hx with rfl | hx
          · simp only [cellOf]; omega
          · have := ih (n := r + 1) (fun s hs => by
              rw [← hb]; dsimp only; rw [if_neg (by omega)]; exact hz s (by omega)) hr hn x hx
            omega
      | clone r =>
        simp only [ArcEv.step] at hs
        split at hs
        · cases hs
        · next h0 =>
          have hb := Option.some.inj hs
          exact other r rfl h0 (fun s hs => by rw [← hb]; exact if_neg hs) rfl
      | use r =>
        simp only [ArcEv.step] at hs
        split at hs
        · cases hs
        · next h0 =>
          have hb := Option.some.inj hs
          exact other r rfl h0 (fun s hs => by rw [← hb]) rfl
      | drop r =>
        simp only [ArcEv.step] at hs
        split at hs
        · cases hs
        · next h0 =>
          have hb := Option.some.inj hs
          exact other r rfl h0 (fun s hs => by rw [← hb]; exact if_neg hs) rfl

theorem ArcEv.run_count {a a' : Arcs} {es : List ArcEv} (hr : ArcEv.run a es = some a') (r : Nat) :
    a' r + ended es r = a r + made es r := by
  induction es generalizing a with
  | nil => simp [ArcEv.run] at hr; subst hr; rfl
  | cons e es ih =>
    simp only [ArcEv.run] at hr
    cases hs : e.step a with
    | none => rw [hs] at hr; cases hr
    | some b =>
      rw [hs, Option.bind_some] at hr
      have := ih hr
      unfold made ended at *
      simp only [List.count_cons]
      cases e with
      | new s =>
        simp only [ArcEv.step] at hs
        split at hs
        · next h0 =>
          have hb := Option.some.inj hs
          rw [← hb] at this
          by_cases h : r = s
          · subst h; simp at this ⊢; omega
          · have h' : ¬ s = r := fun e => h e.symm
            simp [h, h'] at this ⊢; omega
        · cases hs
      | clone s =>
        simp only [ArcEv.step] at hs
        split at hs
        · cases hs
        · next h0 =>
          have hb := Option.some.inj hs
          rw [← hb] at this
          by_cases h : r = s
          · subst h; simp at this ⊢; omega
          · have h' : ¬ s = r := fun e => h e.symm
            simp [h, h'] at this ⊢; omega
      | use s =>
        simp only [ArcEv.step] at hs
        split at hs
        · cases hs
        · next h0 =>
          have hb := Option.some.inj hs
          rw [← hb] at this
          simp; omega
      | drop s =>
        simp only [ArcEv.step] at hs
        split at hs
        · cases hs
        · next h0 =>
          have hb := Option.some.inj hs
          rw [← hb] at this
          by_cases h : r = s
          · subst h; simp at this ⊢; omega
          · have h' : ¬ s = r := fun e => h e.symm
            simp [h, h'] at this ⊢; omega

theorem ArcEv.run_safe {a' : Arcs} {es : List ArcEv} {k : Nat} (hr : ArcEv.run (fun _ => 0) es = some a')
    (hn : news es = List.range' 0 k) : Safe es := by
  intro before e after hes
  subst hes
  rw [ArcEv.run_append] at hr
  cases hb : ArcEv.run (fun _ => 0) before with
  | none => rw [hb] at hr; cases hr
  | some b =>
    rw [hb, Option.bind_some] at hr
    have hc := fun r => ArcEv.run_count hb r
    simp only [ArcEv.run] at hr
    have alive : ∀ r, b r ≠ 0 → ended before r < made before r := fun r h => by have := hc r; omega
    cases hs : e.step b with
    | none => rw [hs] at hr; cases hr
    | some c =>
      cases e with
      | new r =>
        have e1 : news (before ++ .new r :: after) = news before ++ r :: news after := news_append _ _
        rw [e1] at hn
        obtain ⟨j, hj, h1, h2⟩ := List.range'_eq_append_iff.mp hn.symm
        have hrj : r = j := by
          cases hk : k - j with
          | zero => rw [hk] at h2; cases h2
          | succ m =>
            rw [hk, List.range'_succ] at h2
            have := (List.cons.inj h2).1
            omega
        intro x hx
        have := ArcEv.run_lt (fun _ _ => rfl) hb h1 x hx
        omega
      | clone r =>
        apply alive
        intro h0; simp [ArcEv.step, h0] at hs
      | use r =>
        apply alive
        intro h0; simp [ArcEv.step, h0] at hs
      | drop r =>
        apply alive
        intro h0; simp [ArcEv.step, h0] at hs

/-- The counts along a history. -/
theorem Counts.history {w : World} {a : Arcs} (hc : Counts w a) (chk : Bool) (ss : List Stmt) {w' : World} {es : List ArcEv}
    (hr : w.runStmts chk ss = some (w', es)) :
    ∃ a' k, ArcEv.run a es = some a' ∧ Counts w' a' ∧ news es = List.range' w.next k ∧ w'.next = w.next + k := by
  induction ss generalizing w a es with
  | nil =>
    obtain ⟨rfl, rfl⟩ := Prod.mk.inj (Option.some.inj hr)
    exact ⟨a, 0, rfl, hc, rfl, rfl⟩
  | cons s ss ih =>
    simp only [World.runStmts] at hr
    obtain ⟨a1, r1, c1⟩ := hc.stmt chk s
    obtain ⟨k, n1, x1⟩ := news_stmt chk w s
    rcases hw : w.stmt chk s with ⟨w1, v, es1⟩
    rw [hw] at r1 c1 n1 x1 hr
    dsimp only at r1 c1 n1 x1
    split at hr
    · cases hr
    · next _ _ _ _ heq =>
      obtain ⟨rfl, h2⟩ := Prod.mk.inj heq
      obtain ⟨rfl, rfl⟩ := Prod.mk.inj h2
      cases h3 : w1.runStmts chk ss with
      | none => rw [h3] at hr; cases hr
      | some z =>
        obtain ⟨w2, es2⟩ := z
        rw [h3] at hr
        obtain ⟨rfl, rfl⟩ := Prod.mk.inj (Option.some.inj hr)
        obtain ⟨a2, k2, r2, c2, n2, x2⟩ := ih c1 h3
        refine ⟨a2, k + k2, by rw [ArcEv.run_append, r1]; exact r2, c2, ?_, by omega⟩
        rw [news_append, n1, n2, x1, List.range'_append_1]

theorem Counts.init : Counts World.init (fun _ => 0) := ⟨fun r => by simp [held, World.init], fun r hr => by simp [held, World.init] at hr⟩

/-! ## A variable that is not mentioned does not matter -/

section frame
variable {H P : List Nat} {w w' : World}

theorem Spec.SameExcept.hdr? (s : SameExcept H P w w') {h : Nat} (hh : h ∉ H) : w'.hdr? h = w.hdr? h := by
  unfold World.hdr?; rw [s.hdr h hh]

theorem Spec.SameExcept.pkt? (s : SameExcept H P w w') {p : Nat} (hp : p ∉ P) : w'.pkt? p = w.pkt? p := by
  unfold World.pkt?; rw [s.pkt p hp]

theorem Spec.SameExcept.resolve (s : SameExcept H P w w') {x : Place} (hx : (∀ h ∈ (placeVars x).1, h ∉ H) ∧
    ∀ p ∈ (placeVars x).2, p ∉ P) : w'.resolve x = w.resolve x := by
  cases x with
  | var h => simp only [World.resolve]; rw [s.hdr? (hx.1 h (by simp [placeVars]))]
  | inPkt p n T => simp only [World.resolve]; rw [s.pkt? (hx.2 p (by simp [placeVars]))]

theorem Spec.SameExcept.setMem (s : SameExcept H P w w') (m : Store) :
    SameExcept H P { w with mem := m } { w' with mem := m } := ⟨rfl, s.next, s.hlen, s.plen, s.hdr, s.pkt⟩

theorem getElem?_set_congr {γ : Type} {l l' : List γ} (hl : l'.length = l.length) (i j : Nat) (x : γ) (e : l'[j]? = l[j]?) :
    (l'.set i x)[j]? = (l.set i x)[j]? := by
  rw [List.getElem?_set, List.getElem?_set, hl, e]

theorem getElem?_append_congr {γ : Type} {l l' : List γ} (hl : l'.length = l.length) (m : List γ) (j : Nat)
    (e : l'[j]? = l[j]?) : (l' ++ m)[j]? = (l ++ m)[j]? := by
  rw [List.getElem?_append, List.getElem?_append, hl, e]

theorem Spec.SameExcept.setP (s : SameExcept H P w w') (p : Nat) (x : Option PRef) :
    SameExcept H P { w with ps := w.ps.set p x } { w' with ps := w'.ps.set p x } :=
  ⟨s.mem, s.next, s.hlen, by simp [s.plen], s.hdr, fun j hj => getElem?_set_congr s.plen p j x (s.pkt j hj)⟩

theorem Spec.SameExcept.setH (s : SameExcept H P w w') (h : Nat) (x : Option HRef) :
    SameExcept H P { w with hs := w.hs.set h x } { w' with hs := w'.hs.set h x } :=
  ⟨s.mem, s.next, by simp [s.hlen], s.plen, fun j hj => getElem?_set_congr s.hlen h j x (s.hdr j hj), s.pkt⟩

theorem Spec.SameExcept.appP (s : SameExcept H P w w') (x : List (Option PRef)) :
    SameExcept H P { w with ps := w.ps ++ x } { w' with ps := w'.ps ++ x } :=
  ⟨s.mem, s.next, s.hlen, by simp [s.plen], s.hdr, fun j hj => getElem?_append_congr s.plen x j (s.pkt j hj)⟩

theorem Spec.SameExcept.appH (s : SameExcept H P w w') (x : List (Option HRef)) :
    SameExcept H P { w with hs := w.hs ++ x } { w' with hs := w'.hs ++ x } :=
  ⟨s.mem, s.next, by simp [s.hlen], s.plen, fun j hj => getElem?_append_congr s.hlen x j (s.hdr j hj), s.pkt⟩

theorem Spec.SameExcept.alloc (s : SameExcept H P w w') (T : HeaderDef) (b : Bytes) :
    SameExcept H P (w.alloc T b).1 (w'.alloc T b).1 ∧ (w'.alloc T b).2 = (w.alloc T b).2 := by
  refine ⟨⟨?_, ?_, s.hlen, s.plen, s.hdr, s.pkt⟩, ?_⟩
  · simp only [World.alloc, s.mem, s.next]
  · simp only [World.alloc, s.next]
  · simp only [World.alloc, s.next]

theorem Spec.SameExcept.allocAll (l : List Hdr) : ∀ {w w' : World}, SameExcept H P w w' →
    SameExcept H P (w.allocAll l).1 (w'.allocAll l).1 ∧ (w'.allocAll l).2 = (w.allocAll l).2 := by
  induction l with
  | nil => intro w w' s; exact ⟨s, rfl⟩
  | cons h l ih =>
    intro w w' s
    obtain ⟨s1, e1⟩ := s.alloc h.ty h.data
    obtain ⟨s2, e2⟩ := ih s1
    refine ⟨s2, ?_⟩
    simp only [World.allocAll]
    rw [e1, e2]

theorem Spec.SameExcept.access (s : SameExcept H P w w') (p : Prog Val) :
    SameExcept H P (w.access p).1 (w'.access p).1 ∧ (w'.access p).2 = (w.access p).2 := by
  unfold World.access
  rw [s.mem]
  exact ⟨s.setMem _, rfl⟩

theorem Spec.SameExcept.accessAt (s : SameExcept H P w w') {x : Place} (hx : (∀ h ∈ (placeVars x).1, h ∉ H) ∧
    ∀ p ∈ (placeVars x).2, p ∉ P) (p : HRef → Prog Val) :
    SameExcept H P (w.accessAt x p).1 (w'.accessAt x p).1 ∧ (w'.accessAt x p).2 = (w.accessAt x p).2 := by
  unfold World.accessAt
  rw [s.resolve hx]
  cases w.resolve x with
  | error f => exact ⟨s, rfl⟩
  | ok h => exact s.access _

theorem Spec.SameExcept.useAt (s : SameExcept H P w w') {x : Place} (hx : (∀ h ∈ (placeVars x).1, h ∉ H) ∧
    ∀ p ∈ (placeVars x).2, p ∉ P) : w'.useAt x = w.useAt x := by
  unfold World.useAt
  rw [s.resolve hx]

theorem Spec.SameExcept.call (s : SameExcept H P w w') (chk : Bool) {o : Op} (ho : (∀ h ∈ (opVars o).1, h ∉ H) ∧
    ∀ p ∈ (opVars o).2, p ∉ P) : SameExcept H P (w.step chk o).1 (w'.step chk o).1 ∧
      (w'.step chk o).2 = (w.step chk o).2 ∧ w'.events o = w.events o := by
  have acc : ∀ {x : Place} (hx : (∀ h ∈ (placeVars x).1, h ∉ H) ∧ ∀ p ∈ (placeVars x).2, p ∉ P) (p : HRef → Prog Val),
      SameExcept H P (w.accessAt x p).1 (w'.accessAt x p).1 ∧ (w'.accessAt x p).2 = (w.accessAt x p).2 ∧
        w'.useAt x = w.useAt x := fun hx p => ⟨(s.accessAt hx p).1, (s.accessAt hx p).2, s.useAt hx⟩
  cases o with
  | new T =>
    obtain ⟨s1, e1⟩ := s.alloc T T.dflt
    refine ⟨?_, rfl, by simp only [World.events, s.next]⟩
    simp only [World.step]; rw [e1]; exact s1.appH _
  | ofVec T b =>
    obtain ⟨s1, e1⟩ := s.alloc T b
    refine ⟨?_, rfl, by simp only [World.events, s.next]⟩
    simp only [World.step]; rw [e1]; exact s1.appH _
  | clone x =>
    simp only [World.step, World.events]
    rw [s.resolve ho]
    cases w.resolve x with
    | error f => exact ⟨s, by trivial, by trivial⟩
    | ok h => exact ⟨s.appH _, by trivial, by trivial⟩
  | get x f => exact acc ho _
  | set x f v => exact acc ho _
  | bytes x m l => exact acc ho _
  | setBytes x m l v => exact acc ho _
  | toVec x => exact acc ho _
  | replace x y =>
    have hx : (∀ h ∈ (placeVars x).1, h ∉ H) ∧ ∀ p ∈ (placeVars x).2, p ∉ P :=
      ⟨fun h hh => ho.1 h (List.mem_append_left _ hh), fun p hp => ho.2 p (List.mem_append_left _ hp)⟩
    have hy : (∀ h ∈ (placeVars y).1, h ∉ H) ∧ ∀ p ∈ (placeVars y).2, p ∉ P :=
      ⟨fun h hh => ho.1 h (List.mem_append_right _ hh), fun p hp => ho.2 p (List.mem_append_right _ hp)⟩
    simp only [World.step, World.events]
    rw [s.resolve hx, s.useAt hx, s.useAt hy]
    cases w.resolve x with
    | error f => exact ⟨s, by trivial, by trivial⟩
    | ok h => exact ⟨(s.accessAt hy _).1, (s.accessAt hy _).2, by trivial⟩
  | pktNew => exact ⟨s.appP _, by trivial, by trivial⟩
  | adopt q =>
    obtain ⟨s1, e1⟩ := Spec.SameExcept.allocAll q.hdrs s
    refine ⟨?_, rfl, by simp only [World.events, s.next]⟩
    simp only [World.step]; rw [e1]; exact s1.appP _
  | push p h =>
    simp only [World.step, World.events]
    rw [s.hdr? (ho.1 h (by simp [opVars])), s.pkt? (ho.2 p (by simp [opVars]))]
    cases w.hdr? h <;> cases w.pkt? p <;> first | exact ⟨s, by trivial, by trivial⟩ | exact ⟨(s.setH h none).setP p _, by trivial, by trivial⟩
  | insert p h =>
    simp only [World.step, World.events]
    rw [s.hdr? (ho.1 h (by simp [opVars])), s.pkt? (ho.2 p (by simp [opVars]))]
    cases w.hdr? h <;> cases w.pkt? p <;> first | exact ⟨s, by trivial, by trivial⟩ | exact ⟨(s.setH h none).setP p _, by trivial, by trivial⟩
  | pop p =>
    simp only [World.step, World.events, World.updPkt]
    rw [s.pkt? (ho.2 p (by simp [opVars]))]
    cases w.pkt? p <;> first | exact ⟨s, by trivial, by trivial⟩ | exact ⟨s.setP p _, by trivial, by trivial⟩
  | remove p i =>
    simp only [World.step, World.events, World.updPkt]
    rw [s.pkt? (ho.2 p (by simp [opVars]))]
    cases w.pkt? p <;> first | exact ⟨s, by trivial, by trivial⟩ | exact ⟨s.setP p _, by trivial, by trivial⟩
  | setPayload p b =>
    simp only [World.step, World.events, World.updPkt]
    rw [s.pkt? (ho.2 p (by simp [opVars]))]
    cases w.pkt? p <;> first | exact ⟨s, by trivial, by trivial⟩ | exact ⟨s.setP p _, by trivial, by trivial⟩
  | pktClone p =>
    simp only [World.step, World.events]
    rw [s.pkt? (ho.2 p (by simp [opVars]))]
    cases w.pkt? p <;> first | exact ⟨s, by trivial, by trivial⟩ | exact ⟨s.appP _, by trivial, by trivial⟩
  | add p q =>
    simp only [World.step, World.events]
    rw [s.pkt? (ho.2 p (by simp [opVars])), s.pkt? (ho.2 q (by simp [opVars]))]
    by_cases hpq : p = q
    · simp only [if_pos hpq]; exact ⟨s, by trivial, by trivial⟩
    · simp only [if_neg hpq]
      cases w.pkt? p <;> cases w.pkt? q <;>
        first | exact ⟨s, by trivial, by trivial⟩ | exact ⟨((s.setP p none).setP q none).appP _, by trivial, by trivial⟩
  | pktToVec p =>
    simp only [World.step, World.events]
    rw [s.pkt? (ho.2 p (by simp [opVars]))]
    cases w.pkt? p <;> first | exact ⟨s, by trivial, by trivial⟩ | exact ⟨(s.access _).1, (s.access _).2, by trivial⟩
  | compare p q =>
    simp only [World.step, World.events]
    rw [s.pkt? (ho.2 p (by simp [opVars])), s.pkt? (ho.2 q (by simp [opVars]))]
    cases w.pkt? p <;> cases w.pkt? q <;> first | exact ⟨s, by trivial, by trivial⟩ | exact ⟨(s.access _).1, (s.access _).2, by trivial⟩
  | assign p name h =>
    simp only [World.step, World.events]
    rw [s.hdr? (ho.1 h (by simp [opVars])), s.pkt? (ho.2 p (by simp [opVars]))]
    cases w.hdr? h with
    | none => exact ⟨s, by trivial, by trivial⟩
    | some x =>
      cases w.pkt? p with
      | none => exact ⟨s, by trivial, by trivial⟩
      | some q =>
        dsimp only
        split
        · exact ⟨(s.setH h none).setP p _, by trivial, by trivial⟩
        · exact ⟨s.setH h none, by trivial, by trivial⟩
  | compareSlice p b =>
    simp only [World.step, World.events]
    rw [s.pkt? (ho.2 p (by simp [opVars]))]
    cases w.pkt? p <;> first | exact ⟨s, by trivial, by trivial⟩ | exact ⟨(s.access _).1, (s.access _).2, by trivial⟩
  | pktLen p =>
    simp only [World.step, World.events]
    rw [s.pkt? (ho.2 p (by simp [opVars]))]
    cases w.pkt? p <;> exact ⟨s, by trivial, by trivial⟩

theorem Spec.SameExcept.dropPkt (s : SameExcept H P w w') {p : Nat} (hp : p ∉ P) :
    SameExcept H P (w.dropPkt p).1 (w'.dropPkt p).1 ∧ (w'.dropPkt p).2 = (w.dropPkt p).2 := by
  unfold World.dropPkt
  rw [s.pkt? hp]
  cases w.pkt? p with
  | none => exact ⟨s, rfl⟩
  | some q => exact ⟨s.setP p none, rfl⟩

theorem Spec.SameExcept.stmt (s : SameExcept H P w w') (chk : Bool) {o : Stmt} (ho : (∀ h ∈ (stmtVars o).1, h ∉ H) ∧
    ∀ p ∈ (stmtVars o).2, p ∉ P) (hlt : ∀ p ∈ P, p < w.ps.length) :
    SameExcept H P (w.stmt chk o).1 (w'.stmt chk o).1 ∧ (w'.stmt chk o).2 = (w.stmt chk o).2 := by
  cases o with
  | call o =>
    obtain ⟨s1, e1, e2⟩ := s.call chk (o := o) ho
    refine ⟨s1, ?_⟩
    simp only [World.stmt]
    rw [e1, e2]
  | dropHdr h =>
    simp only [World.stmt]
    rw [s.hdr? (ho.1 h (by simp [stmtVars]))]
    cases w.hdr? h with
    | none => exact ⟨s, rfl⟩
    | some x => exact ⟨s.setH h none, rfl⟩
  | dropPkt p =>
    obtain ⟨s1, e1⟩ := s.dropPkt (ho.2 p (by simp [stmtVars]))
    refine ⟨s1, ?_⟩
    simp only [World.stmt]
    rw [e1]
  | build p e =>
    have hp : p ∉ P := ho.2 p (by simp [stmtVars])
    simp only [World.stmt]
    rw [s.pkt? hp]
    cases ep : w.pkt? p with
    | none => exact ⟨s, rfl⟩
    | some q =>
      dsimp only
      obtain ⟨s1, e1, e2⟩ := s.call chk (o := .pktToVec p) ⟨by simp [opVars], by simpa [opVars] using hp⟩
      have pl : (w.step chk (.pktToVec p)).1.ps = w.ps := by simp only [World.step, ep]; rfl
      rw [e2]
      revert s1 e1 pl
      rcases w.step chk (.pktToVec p) with ⟨w1, v⟩
      rcases w'.step chk (.pktToVec p) with ⟨w1', v'⟩
      intro s1 e1 pl
      dsimp only at s1 e1 pl
      subst e1
      have fin := s1.dropPkt hp
      cases v' with
      | error f =>
        dsimp only
        exact ⟨fin.1, by rw [fin.2]⟩
      | ok v =>
        cases v with
        | bytes b =>
          dsimp only
          cases e.outer b q.len with
          | error f => exact ⟨fin.1, by dsimp only; rw [fin.2]⟩
          | ok o =>
            dsimp only
            obtain ⟨s2, -, e3⟩ := s1.call chk (o := .adopt o) ⟨by simp [opVars], by simp [opVars]⟩
            rw [e3, s1.plen]
            have hn : w1.ps.length ∉ P := fun hm => by
              have := hlt _ hm
              rw [pl] at this
              omega
            split
            · obtain ⟨s3, e4, e5⟩ := s2.call chk (o := .add w1.ps.length p)
                ⟨by simp [opVars], by simpa [opVars] using ⟨hn, hp⟩⟩
              exact ⟨s3, by dsimp only; rw [e4, e5]⟩
            · have s3 := s2.dropPkt hp
              exact ⟨s3.1, by dsimp only; rw [s3.2]⟩
        | unit => exact ⟨fin.1, by dsimp only; rw [fin.2]⟩
        | word x => exact ⟨fin.1, by dsimp only; rw [fin.2]⟩
        | bool x => exact ⟨fin.1, by dsimp only; rw [fin.2]⟩
        | num x => exact ⟨fin.1, by dsimp only; rw [fin.2]⟩

end frame

theorem ps_grow_call (chk : Bool) (w : World) (o : Op) : w.ps.length ≤ (w.step chk o).1.ps.length := by
  have acc : ∀ (x : Place) (p : HRef → Prog Val), w.ps.length ≤ (w.accessAt x p).1.ps.length := by
    intro x p
    unfold World.accessAt
    split <;> exact Nat.le_refl _
  cases o with
  | new T => exact Nat.le_refl _
  | ofVec T b => exact Nat.le_refl _
  | clone x => simp only [World.step]; split <;> exact Nat.le_refl _
  | get x f => exact acc x _
  | set x f v => exact acc x _
  | bytes x m l => exact acc x _
  | setBytes x m l v => exact acc x _
  | toVec x => exact acc x _
  | replace x y =>
    simp only [World.step]
    split
    · exact Nat.le_refl _
    · exact acc y _
  | pktNew => simp [World.step]
  | adopt q => simp [World.step, (World.allocAll_props q.hdrs w).2.2.1]
  | push p h => simp only [World.step]; split <;> (try split) <;> simp
  | insert p h => simp only [World.step]; split <;> (try split) <;> simp
  | pop p => simp only [World.step, World.updPkt]; split <;> simp
  | remove p i => simp only [World.step, World.updPkt]; split <;> simp
  | setPayload p b => simp only [World.step, World.updPkt]; split <;> simp
  | pktClone p => simp only [World.step]; split <;> simp
  | add p q => simp only [World.step]; split <;> (try split) <;> (try split) <;> simp
  | pktToVec p => simp only [World.step]; split <;> simp [World.access]
  | compare p q => simp only [World.step]; split <;> (try split) <;> simp [World.access]
  | assign p name h => simp only [World.step]; split <;> (try split) <;> (try split) <;> simp
  | compareSlice p b => simp only [World.step]; split <;> simp [World.access]
  | pktLen p => simp only [World.step]; split <;> simp

theorem ps_dropPkt (w : World) (p : Nat) : (w.dropPkt p).1.ps.length = w.ps.length := by
  unfold World.dropPkt
  split <;> simp

theorem ps_grow (chk : Bool) (w : World) (s : Stmt) : w.ps.length ≤ (w.stmt chk s).1.ps.length := by
  cases s with
  | call o => exact ps_grow_call chk w o
  | dropHdr h => simp only [World.stmt]; split <;> exact Nat.le_refl _
  | dropPkt p => exact Nat.le_of_eq (ps_dropPkt w p).symm
  | build p e =>
    simp only [World.stmt]
    split
    · exact Nat.le_refl _
    · have h1 := ps_grow_call chk w (.pktToVec p)
      revert h1
      rcases w.step chk (.pktToVec p) with ⟨w1, v⟩
      intro h1
      split
      · next w2 v' heq =>
        obtain ⟨rfl, rfl⟩ := Prod.mk.inj heq
        split
        · dsimp only; rw [ps_dropPkt]; exact h1
        · next o _ =>
          have h2 := ps_grow_call chk w1 (.adopt o)
          dsimp only at h1
          split
          · have h3 := ps_grow_call chk (w1.step chk (.adopt o)).1 (.add w1.ps.length p)
            dsimp only; omega
          · dsimp only; rw [ps_dropPkt]; omega
      · next w2 v' heq =>
        obtain ⟨rfl, rfl⟩ := Prod.mk.inj heq
        dsimp only; rw [ps_dropPkt]; exact h1

end PacketRs
