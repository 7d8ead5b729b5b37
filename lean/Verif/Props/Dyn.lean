import Verif.Spec.Dyn
import Verif.Props.Container
/-!
# C78: slice headers in packets

`Packet.hdrs` has room for slice headers, but several of their methods are `unimplemented!()`.
-/
namespace PacketRs
open Spec
open Fast (SHdr Win)

/-! ## The loops -/

open Classical in
theorem clones (ds acc : List Dyn) :
    ds.foldlM (fun hs s => do
      let c ← Dyn.clone s
      pure (hs ++ [c])) acc = if ∀ d ∈ ds, ¬ IsSlice d then (.ok (acc ++ ds) : R (List Dyn)) else .error .unimplemented := by
  induction ds generalizing acc with
  | nil => simp [pure, Except.pure]
  | cons d ds ih =>
    rw [List.foldlM_cons]
    cases d with
    | owned h =>
      have : ¬ IsSlice (.owned h) := by rintro ⟨s, hs⟩; cases hs
      simp [Dyn.clone, bind, Except.bind, pure, Except.pure] at ih ⊢
      rw [ih]
      simp [this]
    | slice s =>
      have : IsSlice (.slice s) := ⟨s, rfl⟩
      simp [Dyn.clone, bind, Except.bind, this]

open Classical in
theorem dyn_vecs (ds : List Dyn) (acc : Bytes) :
    ds.foldlM (fun r s => do
      let v ← Dyn.to_vec s
      pure (r ++ v)) acc =
    if ∀ s, Dyn.slice s ∈ ds → s.win.InBounds then
      (.ok (acc ++ (ds.map (fun d => match d with | .owned h => h.data | .slice s => s.win.bytes)).flatten) : R Bytes)
    else .error .ub := by
  induction ds generalizing acc with
  | nil => simp [pure, Except.pure]
  | cons d ds ih =>
    rw [List.foldlM_cons]
    cases d with
    | owned h =>
      simp only [Dyn.to_vec, Hdr.to_vec, bind, Except.bind, pure, Except.pure] at ih ⊢
      rw [ih]
      simp
    | slice s =>
      by_cases hs : s.win.off + s.win.len ≤ s.win.base.length
      · simp only [Dyn.to_vec, hs, if_true, bind, Except.bind, pure, Except.pure] at ih ⊢
        rw [ih]
        have : s.win.InBounds := hs
        simp [this]
      · simp only [Dyn.to_vec, hs, if_false, bind, Except.bind]
        have : ¬ s.win.InBounds := hs
        rw [if_neg]
        intro h
        exact this (h s (by simp))

/-! ## The calls -/

/-- **C78**, which methods of the trait are usable: `as_slice` only of slice headers; `clone`, `to_owned`, `as_any` only of
owned ones. -/
theorem C78_methods (d : Dyn) :
    (d.as_slice = .error .unimplemented ↔ ¬ IsSlice d) ∧ (d.clone = .error .unimplemented ↔ IsSlice d) ∧
    (d.to_owned = .error .unimplemented ↔ IsSlice d) ∧ (d.as_any = .error .unimplemented ↔ IsSlice d) := by
  cases d with
  | owned h => simp [Dyn.as_slice, Dyn.clone, Dyn.to_owned, Dyn.as_any, IsSlice]
  | slice s => simp [Dyn.as_slice, Dyn.clone, Dyn.to_owned, Dyn.as_any, IsSlice]

/-- **C78**: `push` and `insert` of a slice header panic, of an owned header they do not. -/
theorem C78_push (p : DPacket) (d : Dyn) :
    (IsSlice d → p.push d = .error .unimplemented ∧ p.insert d = .error .unimplemented) ∧
    (¬ IsSlice d → p.push d = .ok { p with hdrs := p.hdrs ++ [d] } ∧ p.insert d = .ok { p with hdrs := [d] ++ p.hdrs }) := by
  cases d with
  | owned h =>
    simp [IsSlice, DPacket.push, DPacket.insert, Dyn.to_owned, bind, Except.bind, pure, Except.pure]
  | slice s =>
    simp [IsSlice, DPacket.push, DPacket.insert, Dyn.to_owned, bind, Except.bind]

/-- **C78**: assignment takes any header: it fails only if there is no header of that name, and replaces the first one
otherwise. -/
theorem C78_assign (p : DPacket) (name : String) (d : Dyn) :
    ((∀ g ∈ p.hdrs, g.name ≠ name) → p.assign name d = .error .unwrapNone) ∧
    (∀ pre g post, p.hdrs = pre ++ g :: post → (∀ x ∈ pre, x.name ≠ name) → g.name = name →
      p.assign name d = .ok { p with hdrs := pre ++ d :: post }) := by
  constructor
  · intro h
    have : DPacket.assignFirst name d p.hdrs = .error .unwrapNone := by
      generalize p.hdrs = l at h
      induction l with
      | nil => rfl
      | cons g gs ih =>
        rw [DPacket.assignFirst, if_neg (h g (by simp)), ih (fun x hx => h x (by simp [hx]))]
        rfl
    simp only [DPacket.assign, this, bind, Except.bind]
  · intro pre g post e hpre hg
    have : DPacket.assignFirst name d p.hdrs = .ok (pre ++ d :: post) := by
      rw [e]
      clear e
      induction pre with
      | nil => simp [DPacket.assignFirst, hg]
      | cons x xs ih =>
        rw [List.cons_append, DPacket.assignFirst, if_neg (hpre x (by simp)), ih (fun y hy => hpre y (by simp [hy]))]
        rfl
    simp only [DPacket.assign, this, bind, Except.bind, pure, Except.pure]

/-- **C78**: `clone` of a packet panics iff it holds a slice header; `p + q` iff `q` does. -/
theorem C78_clone_add (p q : DPacket) :
    ((∃ d ∈ p.hdrs, IsSlice d) → p.clone_me = .error .unimplemented) ∧
    ((∀ d ∈ p.hdrs, ¬ IsSlice d) → p.clone_me = .ok p) ∧
    ((∃ d ∈ q.hdrs, IsSlice d) → p.add q = .error .unimplemented) ∧
    ((∀ d ∈ q.hdrs, ¬ IsSlice d) → p.add q = .ok { hdrs := p.hdrs ++ q.hdrs, payload := p.payload }) := by
  refine ⟨?_, ?_, ?_, ?_⟩
  · rintro ⟨d, hd, hs⟩
    rw [DPacket.clone_me, clones, if_neg (fun h => h d hd hs)]
    rfl
  · intro h
    rw [DPacket.clone_me, clones, if_pos h]
    rfl
  · rintro ⟨d, hd, hs⟩
    rw [DPacket.add, clones, if_neg (fun h => h d hd hs)]
    rfl
  · intro h
    rw [DPacket.add, clones, if_pos h]
    rfl

theorem find_firstDyn (name : String) (d : Dyn) (ds : List Dyn) :
    ds.find? (fun x => x.name = name) = some d ↔ FirstNamed name d ds := by
  induction ds with
  | nil => constructor <;> intro h <;> cases h
  | cons g gs ih =>
    by_cases hg : g.name = name
    · simp only [List.find?_cons, hg, decide_true, Option.some.injEq]
      constructor
      · rintro rfl; exact .here hg
      · intro h
        cases h with
        | here _ => rfl
        | later h _ => exact absurd hg h
    · simp only [List.find?_cons, hg, decide_false]
      rw [ih]
      constructor
      · exact .later hg
      · intro h
        cases h with
        | here h => exact absurd h hg
        | later _ h => exact h

/-- **C78**: looking up a header panics with `unimplemented!()` iff the first header of that name is a slice header, whatever
type is asked for: `get_header` does not return its error.  Otherwise the result is that of the owned header. -/
theorem C78_lookup (p : DPacket) (T : HeaderDef) (name : String) :
    (∀ s, FirstNamed name (.slice s) p.hdrs →
      p.get_header T name = .error .unimplemented ∧ p.convert T name = .error .unimplemented) ∧
    (∀ h, FirstNamed name (.owned h) p.hdrs →
      p.get_header T name = .ok (if h.ty = T then some h else none) ∧
      p.convert T name = if h.ty = T then .ok h else .error .downcast) ∧
    ((∀ d ∈ p.hdrs, d.name ≠ name) → p.get_header T name = .ok none ∧ p.convert T name = .error .unwrapNone) := by
  refine ⟨?_, ?_, ?_⟩
  · intro s hs
    have := (find_firstDyn _ _ _).mpr hs
    simp only [DPacket.get_header, DPacket.convert, DPacket.indexName, this, Dyn.as_any, bind, Except.bind, and_self]
  · intro h hh
    have := (find_firstDyn _ _ _).mpr hh
    simp only [DPacket.get_header, DPacket.convert, DPacket.indexName, this, Dyn.as_any, bind, Except.bind, pure,
      Except.pure, true_and, throw, throwThe, MonadExceptOf.throw]
  · intro h
    have : p.hdrs.find? (fun d => d.name = name) = none := by
      rw [List.find?_eq_none]
      intro d hd
      simpa using h d hd
    simp only [DPacket.get_header, DPacket.convert, DPacket.indexName, this, bind, Except.bind, and_self]

/-- **C78**: serializing does not care about the kind of the headers. -/
theorem C78_to_vec (p : DPacket) (hb : ∀ s, Dyn.slice s ∈ p.hdrs → s.win.InBounds) :
    p.to_vec = .ok ((p.hdrs.map (fun d => match d with | .owned h => h.data | .slice s => s.win.bytes)).flatten ++ p.payload) := by
  rw [DPacket.to_vec, dyn_vecs, if_pos hb]
  rfl

/-- **C78**: reading a packet as a whole does not depend on the kind of its headers: length, serialization and comparison are
those of the packet in which every slice header is replaced by an owned one with the same octets.  So the length counts a slice
header with its declared size, whatever it covers. -/
theorem C78_whole (p q : DPacket) (b : Bytes) (hp : ∀ s, Dyn.slice s ∈ p.hdrs → s.win.InBounds)
    (hq : ∀ s, Dyn.slice s ∈ q.hdrs → s.win.InBounds) :
    p.len = (allOwned p).len ∧ p.to_vec = .ok (allOwned p).to_vec ∧
    p.compare_with_slice b = .ok ((allOwned p).compare_with_slice b) ∧ p.compare q = .ok ((allOwned p).compare (allOwned q)) := by
  have len : p.len = (allOwned p).len := by
    simp only [DPacket.len, Packet.len, allOwned, List.map_map]
    congr 2
    apply List.map_congr_left
    intro d _
    cases d <;> rfl
  have vec : ∀ p : DPacket, (∀ s, Dyn.slice s ∈ p.hdrs → s.win.InBounds) → p.to_vec = .ok (allOwned p).to_vec := by
    intro p hp
    rw [C78_to_vec p hp, C10_to_vec, allOwned]
    simp only [List.map_map]
    congr 3
    apply List.map_congr_left
    intro d _
    cases d <;> rfl
  have cmp : ∀ b, p.compare_with_slice b = .ok ((allOwned p).compare_with_slice b) := by
    intro b
    rw [DPacket.compare_with_slice, Packet.compare_with_slice, vec p hp, ← len]
    split <;> rfl
  refine ⟨len, vec p hp, cmp b, ?_⟩
  rw [DPacket.compare, vec q hq]
  exact cmp _

/-! ## Histories -/

theorem assign_mem {p p' : DPacket} {name : String} {d : Dyn} (h : p.assign name d = .ok p') :
    ∀ x ∈ p'.hdrs, x = d ∨ x ∈ p.hdrs := by
  have key : ∀ l l', DPacket.assignFirst name d l = .ok l' → ∀ x ∈ l', x = d ∨ x ∈ l := by
    intro l
    induction l with
    | nil => intro l' h; cases h
    | cons g gs ih =>
      intro l' h
      rw [DPacket.assignFirst] at h
      split at h
      · cases h
        intro x hx
        simp only [List.mem_cons] at hx ⊢
        rcases hx with rfl | hx
        · exact .inl rfl
        · exact .inr (.inr hx)
      · cases e : DPacket.assignFirst name d gs with
        | error e' => rw [e] at h; cases h
        | ok gs' =>
          rw [e] at h
          cases h
          intro x hx
          simp only [List.mem_cons] at hx ⊢
          rcases hx with rfl | hx
          · exact .inr (.inl rfl)
          · rcases ih _ e x hx with h | h
            · exact .inl h
            · exact .inr (.inr h)
  cases e : DPacket.assignFirst name d p.hdrs with
  | error e' => simp [DPacket.assign, e, bind, Except.bind] at h
  | ok l =>
    simp only [DPacket.assign, e, bind, Except.bind, pure, Except.pure, Except.ok.injEq] at h
    subst h
    exact key _ _ e

/-- **C78**: a slice header in a packet was put there by an assignment `pkt[name] = Box::new(s)`; nothing else can. -/
theorem C78_only_by_assignment {A : List SHdr} {p : DPacket} (h : Built A p) (s : SHdr) (hs : Dyn.slice s ∈ p.hdrs) : s ∈ A := by
  induction h with
  | new => simp [DPacket.new] at hs
  | made q => simp [ofOwned] at hs
  | @push A p p' d hp hok ih =>
    by_cases hd : IsSlice d
    · rw [((C78_push p d).1 hd).1] at hok; cases hok
    · rw [((C78_push p d).2 hd).1] at hok
      cases hok
      simp only [List.mem_append, List.mem_singleton] at hs
      rcases hs with hs | hs
      · exact ih hs
      · exact absurd ⟨s, hs.symm⟩ hd
  | @insert A p p' d hp hok ih =>
    by_cases hd : IsSlice d
    · rw [((C78_push p d).1 hd).2] at hok; cases hok
    · rw [((C78_push p d).2 hd).2] at hok
      cases hok
      simp only [List.mem_append, List.mem_singleton] at hs
      rcases hs with hs | hs
      · exact absurd ⟨s, hs.symm⟩ hd
      · exact ih hs
  | pop hp ih => exact ih ((List.dropLast_sublist _).subset hs)
  | remove i hp ih => exact ih ((List.eraseIdx_sublist _ _).subset hs)
  | setPayload b hp ih => exact ih hs
  | assignOwned name g hp hok ih =>
    rcases assign_mem hok _ hs with h | h
    · cases h
    · exact ih h
  | assignSlice name t hp hok ih =>
    rcases assign_mem hok _ hs with h | h
    · cases h; simp
    · exact List.mem_cons_of_mem _ (ih h)
  | @clone A p p' hp hok ih =>
    by_cases hd : ∃ d ∈ p.hdrs, IsSlice d
    · rw [(C78_clone_add p p).1 hd] at hok; cases hok
    · rw [(C78_clone_add p p).2.1 (fun d hd' hs => hd ⟨d, hd', hs⟩)] at hok
      cases hok
      exact ih hs
  | @add A B p q r hp hq hok ihp ihq =>
    by_cases hd : ∃ d ∈ q.hdrs, IsSlice d
    · rw [(C78_clone_add p q).2.2.1 hd] at hok; cases hok
    · rw [(C78_clone_add p q).2.2.2 (fun d hd' hs => hd ⟨d, hd', hs⟩)] at hok
      cases hok
      simp only [List.mem_append] at hs ⊢
      rcases hs with hs | hs
      · exact .inl (ihp hs)
      · exact .inr (ihq hs)

/-- **C78**: as long as no slice header is assigned, the packet is one of the value model, in which all headers are owned. -/
theorem C78_owned {p : DPacket} (h : Built [] p) : ∃ q, p = ofOwned q := by
  have hs := C78_only_by_assignment h
  obtain ⟨ds, pl⟩ := p
  have : ∃ l : List Hdr, ds = l.map Dyn.owned := by
    clear h
    induction ds with
    | nil => exact ⟨[], rfl⟩
    | cons d ds ih =>
      obtain ⟨l, hl⟩ := ih (fun s h => hs s (List.mem_cons_of_mem _ h))
      cases d with
      | owned h => exact ⟨h :: l, by simp [hl]⟩
      | slice s => exact absurd (hs s (by simp)) (by simp)
  obtain ⟨l, hl⟩ := this
  exact ⟨⟨l, pl⟩, by simp [ofOwned, hl]⟩

theorem owned_notSlice (q : Packet) : ∀ d ∈ (ofOwned q).hdrs, ¬ IsSlice d := by
  simp [ofOwned, IsSlice]

theorem owned_find (q : Packet) (name : String) :
    (ofOwned q).hdrs.find? (fun d => d.name = name) = (q.hdrs.find? (fun h => h.name = name)).map Dyn.owned := by
  simp only [ofOwned, List.find?_map]
  rfl

/-- **C78**: on packets of owned headers the calls are those of the value model (`Verif.Packet`), which C10 to C17 are about. -/
theorem C78_refines (q r : Packet) :
    (∀ h, (ofOwned q).push (.owned h) = .ok (ofOwned (q.push h))) ∧
    (∀ h, (ofOwned q).insert (.owned h) = .ok (ofOwned (q.insert h))) ∧
    (q.pop = .ok ⟨q.hdrs.dropLast, q.payload⟩ ∧ (ofOwned q).pop = ofOwned ⟨q.hdrs.dropLast, q.payload⟩) ∧
    (∀ i, q.remove i = .ok ⟨q.hdrs.eraseIdx i, q.payload⟩ ∧ (ofOwned q).remove i = ofOwned ⟨q.hdrs.eraseIdx i, q.payload⟩) ∧
    (∀ b, (ofOwned q).set_payload b = ofOwned (q.set_payload b)) ∧
    (∀ name h, (ofOwned q).assign name (.owned h) = (q.assign name h).map ofOwned) ∧
    (ofOwned q).clone_me = .ok (ofOwned q.clone_me) ∧
    (ofOwned q).add (ofOwned r) = .ok (ofOwned (q.add r)) ∧
    (ofOwned q).to_vec = .ok q.to_vec ∧
    (ofOwned q).len = q.len ∧
    (∀ name, (ofOwned q).indexName name = (q.indexName name).map Dyn.owned) ∧
    (∀ T name, (ofOwned q).get_header T name = .ok (q.get_header T name)) := by
  refine ⟨fun h => ?_, fun h => ?_, ⟨?_, ?_⟩, fun i => ⟨?_, ?_⟩, fun b => rfl, fun name h => ?_, ?_, ?_, ?_, ?_, fun name => ?_,
    fun T name => ?_⟩
  · simp [DPacket.push, Dyn.to_owned, ofOwned, Packet.push, bind, Except.bind, pure, Except.pure]
  · simp [DPacket.insert, Dyn.to_owned, ofOwned, Packet.insert, bind, Except.bind, pure, Except.pure]
  · have := PktOp.run_spec q .pop
    simpa [PktOp.run, PktOp.spec, PktOp.added, List.dropLast_eq_take] using this
  · simp [DPacket.pop, ofOwned, List.map_dropLast]
  · have := PktOp.run_spec q (.remove i)
    simpa [PktOp.run, PktOp.spec, PktOp.added, List.eraseIdx_eq_take_drop_succ] using this
  · simp [DPacket.remove, ofOwned, List.eraseIdx_eq_take_drop_succ]
  · have key : ∀ l : List Hdr, DPacket.assignFirst name (.owned h) (l.map Dyn.owned) =
        (Packet.modifyFirst name (fun _ => .ok h) l).map (List.map Dyn.owned) := by
      intro l
      induction l with
      | nil => rfl
      | cons g gs ih =>
        rw [List.map_cons, DPacket.assignFirst, Packet.modifyFirst]
        by_cases hg : g.name = name
        · have : (Dyn.owned g).name = name := hg
          rw [if_pos this, if_pos hg]
          rfl
        · have : ¬ (Dyn.owned g).name = name := hg
          rw [if_neg this, if_neg hg, ih]
          cases Packet.modifyFirst name (fun _ => .ok h) gs <;> rfl
    simp only [DPacket.assign, Packet.assign, ofOwned, key]
    cases Packet.modifyFirst name (fun _ => .ok h) q.hdrs <;> rfl
  · exact (C78_clone_add _ (ofOwned q)).2.1 (owned_notSlice q)
  · rw [(C78_clone_add _ _).2.2.2 (owned_notSlice r)]
    simp [ofOwned, Packet.add]
  · rw [C78_to_vec _ (fun s hs => absurd ⟨s, rfl⟩ (owned_notSlice q _ hs)), C10_to_vec]
    simp [ofOwned, Function.comp_def]
  · simp [DPacket.len, Packet.len, ofOwned, Function.comp_def, Dyn.len]
  · simp only [DPacket.indexName, Packet.indexName, owned_find]
    cases q.hdrs.find? (fun h => h.name = name) <;> rfl
  · simp only [DPacket.get_header, Packet.get_header, owned_find]
    cases q.hdrs.find? (fun h => h.name = name) <;> rfl

/-! ## Slice headers on their own -/

/-- **C78**: `set_bit_range` of a slice header neither panics nor does anything: afterwards the getter returns what it returned
before, so it returns the value set iff that was there already. -/
theorem C78_slice_set (chk : Bool) (s : SHdr) (f : Field) (v : U64) (msb lsb : Nat) :
    (s.set_bit_range msb lsb v).win = s.win ∧ (s.set_bit_range msb lsb v).ty = s.ty ∧
    ((s.set_bit_range f.hi f.lo v).get chk f = .ok v ↔ s.get chk f = .ok v) := ⟨rfl, rfl, Iff.rfl⟩

/-- **C78**: `PacketSlice::to_vec` calls `as_slice`, which slice headers have: it does not panic and is what `Verif.Fast` says.
On packets with an owned header among the headers it would panic; the crate makes no such packet. -/
theorem C78_packet_slice (p : Fast.PacketSlice) (ds : List Dyn) (w : Win) :
    Fast.PacketSlice.toVecDyn (p.hdrs.map Dyn.slice) p.payload = .ok p.to_vec ∧
    ((∃ h, Dyn.owned h ∈ ds) → Fast.PacketSlice.toVecDyn ds w = .error .unimplemented) := by
  constructor
  · have key : ∀ (l : List SHdr) (acc : Bytes), (l.map Dyn.slice).foldlM (fun r s => do
        let v ← Dyn.as_slice s
        pure (r ++ v.bytes)) acc = (.ok (l.foldl (fun r s => r ++ s.as_slice.bytes) acc) : R Bytes) := by
      intro l
      induction l with
      | nil => intro acc; rfl
      | cons s l ih =>
        intro acc
        rw [List.map_cons, List.foldlM_cons, List.foldl_cons, ← ih]
        rfl
    rw [Fast.PacketSlice.toVecDyn, key]
    rfl
  · rintro ⟨h, hh⟩
    have key : ∀ acc : Bytes, ds.foldlM (fun r s => do
        let v ← Dyn.as_slice s
        pure (r ++ v.bytes)) acc = (.error .unimplemented : R Bytes) := by
      induction ds with
      | nil => cases hh
      | cons d ds ih =>
        intro acc
        rw [List.foldlM_cons]
        cases d with
        | owned g => rfl
        | slice s =>
          have : Dyn.owned h ∈ ds := by simpa using hh
          simp only [Dyn.as_slice, bind, Except.bind, pure, Except.pure] at ih ⊢
          exact ih this _
    rw [Fast.PacketSlice.toVecDyn, key]
    rfl

/-! ## A case -/

/-- `EtherSlice::from(&BUF)` for a static buffer of sixteen octets. -/
def staticEther : SHdr := SHdr.from Ether (.ofBytes (List.replicate 16 0xEE#8))

/-- A packet `Ether / Vlan` whose Ethernet header is then assigned the slice header. -/
def withSlice : DPacket := ⟨[.slice staticEther, .owned Vlan.new], [7#8]⟩

/-- The assignment is accepted; the packet serializes and its VLAN tag can be found, but it cannot be cloned, its Ethernet
header cannot be looked up (not even with an error), and the same header cannot be pushed. -/
theorem C78_case :
    Built [staticEther] withSlice ∧ withSlice.len = 19 ∧ withSlice.compare withSlice = .ok true ∧
    withSlice.to_vec = .ok (List.replicate 14 0xEE#8 ++ [0#8, 0xa#8, 8#8, 0#8] ++ [7#8]) ∧
    withSlice.get_header Vlan "Vlan" = .ok (some Vlan.new) ∧
    withSlice.clone_me = .error .unimplemented ∧
    DPacket.new.add withSlice = .error .unimplemented ∧
    withSlice.get_header Ether "Ether" = .error .unimplemented ∧
    withSlice.get_header Vlan "Ether" = .error .unimplemented ∧
    withSlice.push (.slice staticEther) = .error .unimplemented := by
  refine ⟨?_, by decide +kernel, by decide +kernel, by decide +kernel, by decide +kernel, by decide +kernel, by decide +kernel,
    by decide +kernel, by decide +kernel, by decide +kernel⟩
  exact .assignSlice (p := ofOwned ⟨[Ether.new, Vlan.new], [7#8]⟩) "Ether" staticEther (.made _) (by decide +kernel)

-- setting a field through a slice header is silently lost
example : (staticEther.get true Ether.etype = .ok 0xEEEE#64) ∧
    ((staticEther.set_bit_range 111 96 0x0800#64).get true Ether.etype = .ok 0xEEEE#64) := by decide +kernel

end PacketRs
