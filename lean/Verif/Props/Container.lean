import Verif.Props.Fields
/-!
# Properties C10 - C17: the packet container (value level)
-/
namespace PacketRs
open Spec

/-- The header's buffer has the size its type declares. -/
def Hdr.WF (h : Hdr) : Prop := h.data.length = h.ty.size

instance (h : Hdr) : Decidable h.WF := inferInstanceAs (Decidable (_ = _))

/-- Every header of the packet has its declared size. -/
def Packet.WF (p : Packet) : Prop := ∀ h ∈ p.hdrs, h.WF

instance (p : Packet) : Decidable p.WF := inferInstanceAs (Decidable (∀ h ∈ p.hdrs, h.WF))

/-! ## C10 -/

theorem foldl_append_flatten (hs : List Hdr) (acc : Bytes) :
    hs.foldl (fun r s => r ++ s.to_vec) acc = acc ++ (hs.map (·.data)).flatten := by
  induction hs generalizing acc with
  | nil => simp
  | cons h hs ih => rw [List.foldl_cons, ih]; simp [Hdr.to_vec]

/-- **C10**: `to_vec` is the concatenation of the headers' bytes in packet order, then the payload. -/
theorem C10_to_vec (p : Packet) : p.to_vec = (p.hdrs.map (·.data)).flatten ++ p.payload := by
  unfold Packet.to_vec
  simp only [foldl_append_flatten, List.nil_append]

example : ((Packet.new.push Vlan.new).push ICMP.new |>.set_payload [7#8]).to_vec =
    [0#8, 0xa#8, 8#8, 0#8] ++ [8#8, 0#8, 0#8, 0#8, 0#8, 0#8] ++ [7#8] := by decide

/-- **C10**: a header made from a byte vector of any length, right or wrong, serializes to that vector, alone and in a
packet; `new()` serializes to the default data of its type. -/
theorem C10_from_vec (T : HeaderDef) (b : Bytes) :
    (T.ofVec b).to_vec = b ∧ (Packet.new.push (T.ofVec b)).to_vec = b ∧ T.new.to_vec = T.dflt := by
  refine ⟨rfl, ?_, rfl⟩
  rw [C10_to_vec]
  simp [Packet.new, Packet.push, HeaderDef.ofVec]

example : (Vlan.ofVec [1, 2, 3, 4, 5, 6]).to_vec = [1, 2, 3, 4, 5, 6] ∧ (Vlan.ofVec [1, 2, 3, 4, 5, 6]).len = 4 := by decide

/-! ## C11 -/

/-- The container operations of `Packet`. -/
inductive PktOp where
  | push (h : Hdr)
  | insert (h : Hdr)
  | pop
  | remove (i : Nat)
  | setPayload (b : Bytes)

/-- Run one operation on the model. -/
def PktOp.run (p : Packet) : PktOp → R Packet
  | .push h => pure (p.push h)
  | .insert h => pure (p.insert h)
  | .pop => p.pop
  | .remove i => p.remove i
  | .setPayload b => pure (p.set_payload b)

/-- Specification of the same operations on a plain sequence of headers. -/
def PktOp.spec (l : List Hdr) : PktOp → List Hdr
  | .push h => l ++ [h]
  | .insert h => [h] ++ l
  | .pop => l.take (l.length - 1)
  | .remove i => l.take i ++ l.drop (i + 1)
  | .setPayload _ => l

/-- The payload bytes added by an operation. -/
def PktOp.added : PktOp → Bytes
  | .setPayload b => b
  | _ => []

theorem PktOp.run_spec (p : Packet) (op : PktOp) :
    op.run p = .ok { hdrs := op.spec p.hdrs, payload := p.payload ++ op.added } := by
  obtain ⟨hs, pl⟩ := p
  cases op with
  | push h => simp [PktOp.run, PktOp.spec, PktOp.added, Packet.push, pure, Except.pure]
  | insert h => simp [PktOp.run, PktOp.spec, PktOp.added, Packet.insert, pure, Except.pure]
  | pop =>
    cases hs with
    | nil => simp [PktOp.run, PktOp.spec, PktOp.added, Packet.pop, pure, Except.pure]
    | cons h hs =>
      simp [PktOp.run, PktOp.spec, PktOp.added, Packet.pop, Packet.vecPopUnwrap, pure, Except.pure, bind,
        Except.bind, List.dropLast_eq_take]
  | remove i =>
    by_cases hi : i < hs.length
    · have : hs.length ≠ 0 := by omega
      simp only [PktOp.run, PktOp.spec, PktOp.added, Packet.remove, Packet.vecRemove, pure, Except.pure, bind,
        Except.bind, hi, this, ne_eq, not_false_eq_true, and_self, if_true, List.append_nil,
        List.eraseIdx_eq_take_drop_succ]
    · have h1 : hs.take i = hs := List.take_of_length_le (by omega)
      have h2 : hs.drop (i + 1) = [] := List.drop_of_length_le (by omega)
      simp [PktOp.run, PktOp.spec, PktOp.added, Packet.remove, pure, Except.pure, hi, h1, h2]
  | setPayload b => simp [PktOp.run, PktOp.spec, PktOp.added, Packet.set_payload, pure, Except.pure]

/-- **C11**: for every history of container operations, from the empty packet, no operation panics,
the headers are those of the list specification, and the payload is what was appended. -/
theorem C11_history (ops : List PktOp) :
    ops.foldlM PktOp.run Packet.new = .ok { hdrs := ops.foldl PktOp.spec [],
                                            payload := (ops.map PktOp.added).flatten } := by
  have gen : ∀ (ops : List PktOp) (p : Packet), ops.foldlM PktOp.run p =
      .ok { hdrs := ops.foldl PktOp.spec p.hdrs, payload := p.payload ++ (ops.map PktOp.added).flatten } := by
    intro ops
    induction ops with
    | nil => intro p; simp [pure, Except.pure]
    | cons op ops ih =>
      intro p
      rw [List.foldlM_cons, PktOp.run_spec]
      simp [bind, Except.bind, ih]
  simpa [Packet.new] using gen ops Packet.new

/-- **C11**, out-of-range and empty cases: `pop` on the empty packet and `remove` past the end do
nothing. -/
theorem C11_no_ops (p : Packet) : (p.hdrs = [] → p.pop = .ok p) ∧
    (∀ i, p.hdrs.length ≤ i → p.remove i = .ok p) := by
  constructor
  · intro h; simp [Packet.pop, h, pure, Except.pure]
  · intro i h
    have : ¬ i < p.hdrs.length := by omega
    simp [Packet.remove, this, pure, Except.pure]

-- a history that uses every operation, including a pop on empty and an out-of-range remove
example : ([PktOp.pop, .push Ether.new, .insert Vlan.new, .push UDP.new, .remove 1, .remove 9,
      .setPayload [1#8], .push TCP.new, .pop].foldlM PktOp.run Packet.new)
    = .ok { hdrs := [Vlan.new, UDP.new], payload := [1#8] } := by decide

/-! ## C12 -/

theorem Packet.to_vec_length (p : Packet) :
    p.to_vec.length = (p.hdrs.map (fun h => h.data.length)).sum + p.payload.length := by
  rw [C10_to_vec]; simp [List.length_flatten, List.map_map, Function.comp_def]

/-- **C12** (a): `len` is the sum of the declared sizes plus the payload length. -/
theorem C12_len (p : Packet) : p.len = (p.hdrs.map (fun h => h.ty.size)).sum + p.payload.length := rfl

/-- **C12** (b): it is the serialized length iff the declared sizes and the actual sizes have the same
sum; in particular whenever every header has its declared size. -/
theorem C12_len_eq_iff (p : Packet) :
    (p.len = p.to_vec.length ↔
      (p.hdrs.map (fun h => h.ty.size)).sum = (p.hdrs.map (fun h => h.data.length)).sum) ∧
    (p.WF → p.len = p.to_vec.length) := by
  rw [Packet.to_vec_length, C12_len]
  refine ⟨by omega, ?_⟩
  intro hwf
  have : p.hdrs.map (fun h => h.ty.size) = p.hdrs.map (fun h => h.data.length) :=
    List.map_congr_left (fun h hh => (hwf h hh).symm)
  rw [this]

/-- **C12** (c): each `ICMP::new()` in a packet of otherwise well-sized headers makes the serialization
two bytes longer than `len()`. -/
theorem C12_icmp_new (p : Packet) (h : ∀ h ∈ p.hdrs, h.WF ∨ h = ICMP.new) :
    p.to_vec.length = p.len + 2 * (p.hdrs.filter (fun h => h = ICMP.new)).length := by
  rw [Packet.to_vec_length, C12_len]
  generalize p.hdrs = hs at h
  suffices (hs.map (fun h => h.data.length)).sum =
      (hs.map (fun h => h.ty.size)).sum + 2 * (hs.filter (fun h => h = ICMP.new)).length by omega
  induction hs with
  | nil => rfl
  | cons x hs ih =>
    have ih' := ih (fun y hy => h y (List.mem_cons_of_mem _ hy))
    by_cases hx : x = ICMP.new
    · subst hx
      have e : (ICMP.new).data.length = (ICMP.new).ty.size + 2 := rfl
      simp only [List.map_cons, List.sum_cons, List.filter_cons, decide_true, if_true, List.length_cons]
      omega
    · have hw : x.data.length = x.ty.size := (h x (List.mem_cons_self)).resolve_right hx
      simp only [List.map_cons, List.sum_cons, List.filter_cons, hx, decide_false, Bool.false_eq_true,
        if_false]
      omega

example : ((Packet.new.push Ether.new).push ICMP.new).len = 18 ∧
    ((Packet.new.push Ether.new).push ICMP.new).to_vec.length = 20 ∧
    ((Packet.new.push Ether.new).push TCP.new).WF := by decide

/-! ## C13 -/

/-- Counting the equal pairs of a zip: all `b.length` of them are equal iff `b` is a prefix of `a`. -/
theorem zip_matching (a b : Bytes) :
    ((a.zip b).filter (fun x => x.1 == x.2)).length = b.length ↔ b <+: a := by
  induction a generalizing b with
  | nil => cases b <;> simp
  | cons x a ih =>
    cases b with
    | nil => simp
    | cons y b =>
      simp only [List.zip_cons_cons, List.filter_cons, List.length_cons, List.cons_prefix_cons]
      by_cases hxy : x = y
      · subst hxy
        simp only [beq_self_eq_true, if_true, List.length_cons, Nat.add_right_cancel_iff, true_and]
        exact ih b
      · have hne : (x == y) = false := by simpa using hxy
        have hne' : ¬ y = x := fun e => hxy e.symm
        simp only [hne, Bool.false_eq_true, if_false, hne', false_and, iff_false]
        have h1 : ((a.zip b).filter (fun x => x.1 == x.2)).length ≤ (a.zip b).length := List.length_filter_le _ _
        have h2 : (a.zip b).length ≤ b.length := by rw [List.length_zip]; omega
        omega

/-- **C13**, exact meaning of `compare_with_slice` for every packet: the slice has `len()` bytes and is
a prefix of the serialization. -/
theorem C13_compare_with_slice (p : Packet) (b : Bytes) :
    p.compare_with_slice b = true ↔ p.len = b.length ∧ b <+: p.to_vec := by
  unfold Packet.compare_with_slice
  by_cases h : p.len = b.length
  · simp only [h, ne_eq, not_true_eq_false, if_false, or_self, true_and]
    rw [← zip_matching]
    constructor
    · intro hh
      by_cases hm : b.length = (List.filter (fun x => x.fst == x.snd) (p.to_vec.zip b)).length
      · exact hm.symm
      · simp [hm] at hh
    · intro hh; simp [hh]
  · simp [h]

/-- **C13** (a): for packets whose headers have their declared size, `compare_with_slice` decides
equality with the serialization. -/
theorem C13_compare_with_slice_wf (p : Packet) (hp : p.WF) (b : Bytes) :
    p.compare_with_slice b = true ↔ p.to_vec = b := by
  rw [C13_compare_with_slice, (C12_len_eq_iff p).2 hp]
  constructor
  · rintro ⟨h1, h2⟩; exact (h2.eq_of_length h1.symm).symm
  · rintro rfl; exact ⟨rfl, List.prefix_refl _⟩

/-- **C13** (b): on such packets `compare` is equality of serializations, hence an equivalence. -/
theorem C13_compare_equivalence (p q r : Packet) (hp : p.WF) (hq : q.WF) :
    (p.compare q = true ↔ p.to_vec = q.to_vec) ∧ p.compare p = true ∧
    (p.compare q = true → q.compare p = true) ∧
    (p.compare q = true → q.compare r = true → p.compare r = true) := by
  simp only [Packet.compare, C13_compare_with_slice_wf p hp, C13_compare_with_slice_wf q hq]
  exact ⟨trivial, trivial, fun h => h.symm, fun h1 h2 => h1.trans h2⟩

/-- **C13** (c): without the hypothesis it fails: a packet holding `ICMP::new()` differs from itself. -/
theorem C13_icmp_new_differs_from_itself :
    ∃ p : Packet, p = Packet.new.push ICMP.new ∧ p.compare p = false := ⟨_, rfl, by decide⟩

-- equal serializations with different header structure compare equal
example : let p := Packet.new.push Vlan.new
    let q := Packet.new.set_payload [0#8, 0xa#8, 8#8, 0#8]
    p.WF ∧ q.WF ∧ p.compare q = true ∧ p.compare (q.set_payload [1#8]) = false := by decide

/-! ## C14 -/

/-- `h` is the first header named `name` in `hs`. -/
def IsFirstNamed (hs : List Hdr) (name : String) (pre : List Hdr) (h : Hdr) (post : List Hdr) : Prop :=
  hs = pre ++ h :: post ∧ h.name = name ∧ ∀ x ∈ pre, x.name ≠ name

theorem find_firstNamed (hs : List Hdr) (name : String) (h : Hdr) :
    hs.find? (fun x => decide (x.name = name)) = some h ↔ ∃ pre post, IsFirstNamed hs name pre h post := by
  rw [List.find?_eq_some_iff_append]
  unfold IsFirstNamed
  constructor
  · rintro ⟨h1, pre, post, h2, h3⟩
    exact ⟨pre, post, h2, by simpa using h1, fun x hx => by simpa using h3 x hx⟩
  · rintro ⟨pre, post, h2, h1, h3⟩
    exact ⟨by simpa using h1, pre, post, h2, fun x hx => by simpa using h3 x hx⟩

/-- **C14** (a): `get_header::<T>(name)` returns `Ok(h)` iff `h` is the first header of that name and
has type `T`. -/
theorem C14_get_header (p : Packet) (T : HeaderDef) (name : String) (h : Hdr) :
    p.get_header T name = some h ↔
      (∃ pre post, IsFirstNamed p.hdrs name pre h post) ∧ h.ty = T := by
  rw [← find_firstNamed]
  unfold Packet.get_header
  split
  · next x hx =>
    rw [hx]
    by_cases hT : x.ty = T
    · simp only [hT, if_true, Option.some.injEq]
      constructor
      · rintro rfl; exact ⟨rfl, hT⟩
      · rintro ⟨rfl, _⟩; rfl
    · simp only [hT, if_false, reduceCtorEq, Option.some.injEq, false_iff, not_and]
      rintro rfl; exact hT
  · next hx => rw [hx]; simp

/-- **C14** (b): `Index` panics iff there is no header of that name, and otherwise returns the first. -/
theorem C14_index (p : Packet) (name : String) :
    (∀ h, p.indexName name = .ok h ↔ ∃ pre post, IsFirstNamed p.hdrs name pre h post) ∧
    ((∃ e, p.indexName name = .error e) ↔ ∀ h ∈ p.hdrs, h.name ≠ name) := by
  constructor
  · intro h
    rw [← find_firstNamed]
    unfold Packet.indexName
    split
    · next x hx => rw [hx]; simp
    · next hx => rw [hx]; simp
  · unfold Packet.indexName
    split
    · next x hx =>
      have h1 := List.mem_of_find?_eq_some hx
      have h2 : x.name = name := by simpa using List.find?_some hx
      constructor
      · rintro ⟨e, he⟩; cases he
      · intro hall; exact absurd h2 (hall x h1)
    · next hx =>
      rw [List.find?_eq_none] at hx
      constructor
      · intro _ h hh; simpa using hx h hh
      · intro _; exact ⟨_, rfl⟩

-- two IPv4 headers (IP-in-IP): the outer one is found; asking for it as another type fails
example : let p := ((Packet.new.push Ether.new).push IPv4.new).push (IPv4.ofVec [1#8])
    p.get_header IPv4 "IPv4" = some IPv4.new ∧ p.get_header IPv6 "IPv4" = none ∧
    p.indexName "TCP" = .error .unwrapNone := by decide +kernel

/-! ## C15 -/

theorem modifyFirst_of_first {hs pre post : List Hdr} {name : String} {h : Hdr}
    (hf : IsFirstNamed hs name pre h post) (f : Hdr → R Hdr) :
    Packet.modifyFirst name f hs = (f h).map (fun h' => pre ++ h' :: post) := by
  obtain ⟨rfl, h1, h2⟩ := hf
  induction pre with
  | nil =>
    simp only [List.nil_append, Packet.modifyFirst, h1, if_true]
    cases f h <;> rfl
  | cons x pre ih =>
    have hx := h2 x (List.mem_cons_self)
    have := ih (fun y hy => h2 y (List.mem_cons_of_mem _ hy))
    simp only [List.cons_append, Packet.modifyFirst, hx, if_false, this]
    cases f h <;> rfl

/-- **C15** (a): through `IndexMut` and the typed conversion, setting a field changes exactly that field
of the first header of that name, for every packet: everything before and after it, the order and the
payload are unchanged. -/
theorem C15_index_mut_set (p : Packet) (T : HeaderDef) (name : String) (pre post : List Hdr) (h : Hdr)
    (f : Field) (v : U64) (hf : IsFirstNamed p.hdrs name pre h post) (hT : h.ty = T)
    (hin : f.Inside h.data.length) :
    ∃ h', p.withHeaderMut T name (fun x => x.set f v) =
        .ok { hdrs := pre ++ h' :: post, payload := p.payload } ∧
      h'.ty = h.ty ∧ h'.data.length = h.data.length ∧
      ∀ i, netBit h'.data i = if f.lo ≤ i ∧ i ≤ f.hi then v.getLsbD (f.hi - i) else netBit h.data i := by
  obtain ⟨h', e, t, l, b⟩ := set_bits h f v hin
  refine ⟨h', ?_, t, l, b⟩
  simp only [Packet.withHeaderMut, modifyFirst_of_first hf, hT, if_true, e, Except.map, bind, Except.bind]
  rfl

/-- **C15** (b): the same through `get_header_mut`; and when it returns `Err` nothing is changed. -/
theorem C15_get_header_mut_set (p : Packet) (T : HeaderDef) (name : String) (f : Field) (v : U64) :
    (∀ pre post h, IsFirstNamed p.hdrs name pre h post → h.ty = T →
      p.getHeaderMut T name (fun x => x.set f v) =
        (p.withHeaderMut T name (fun x => x.set f v)).map some) ∧
    ((∀ pre post h, IsFirstNamed p.hdrs name pre h post → h.ty ≠ T) →
      p.getHeaderMut T name (fun x => x.set f v) = .ok none) := by
  constructor
  · intro pre post h hf hT
    have : p.get_header T name = some h := (C14_get_header p T name h).2 ⟨⟨pre, post, hf⟩, hT⟩
    simp only [Packet.getHeaderMut, this]
    cases p.withHeaderMut T name (fun x => x.set f v) <;> rfl
  · intro hno
    have : p.get_header T name = none := by
      cases hg : p.get_header T name with
      | none => rfl
      | some h =>
        obtain ⟨⟨pre, post, hf⟩, hT⟩ := (C14_get_header p T name h).1 hg
        exact absurd hT (hno pre post h hf)
    simp only [Packet.getHeaderMut, this]

/-- **C15** (c): the typed conversion panics iff the first header of that name has another type. -/
theorem C15_downcast (p : Packet) (T : HeaderDef) (name : String) (pre post : List Hdr) (h : Hdr)
    (f : Hdr → R Hdr) (hf : IsFirstNamed p.hdrs name pre h post) (hT : h.ty ≠ T) :
    p.withHeaderMut T name f = .error .downcast := by
  simp only [Packet.withHeaderMut, modifyFirst_of_first hf, hT, if_false]; rfl

/-- **C14**: assigning a header to `pkt[name]` puts it, whatever its type, in the place of the first header of that
name; without one the call panics. -/
theorem C14_assign (p : Packet) (name : String) (x : Hdr) :
    (∀ pre post h, IsFirstNamed p.hdrs name pre h post →
      p.assign name x = .ok { hdrs := pre ++ x :: post, payload := p.payload }) ∧
    ((∀ h ∈ p.hdrs, h.name ≠ name) → p.assign name x = .error .unwrapNone) := by
  constructor
  · intro pre post h hf
    simp only [Packet.assign, modifyFirst_of_first hf]; rfl
  · intro hno
    have : ∀ l : List Hdr, (∀ h ∈ l, h.name ≠ name) → Packet.modifyFirst name (fun _ => .ok x) l = .error .unwrapNone := by
      intro l
      induction l with
      | nil => intro _; rfl
      | cons a l ih =>
        intro hl
        simp only [Packet.modifyFirst, if_neg (hl a List.mem_cons_self), ih fun h hh => hl h (List.mem_cons_of_mem _ hh)]; rfl
    simp only [Packet.assign, this p.hdrs hno]; rfl

-- an IPv6 header put in the place of the first of two IPv4 headers: the name changes with the header
example : let p := ((Packet.new.push Ether.new).push IPv4.new).push IPv4.new
    (p.assign "IPv4" IPv6.new).map (fun q => q.hdrs.map (·.name)) = .ok ["Ether", "IPv6", "IPv4"] ∧
    p.assign "IPv6" IPv4.new = .error .unwrapNone := by decide +kernel

example : let p := ((Packet.new.push Ether.new).push IPv4.new).push IPv4.new
    IsFirstNamed p.hdrs "IPv4" [Ether.new] IPv4.new [IPv4.new] ∧
    (p.withHeaderMut IPv4 "IPv4" (fun x => x.set IPv4.ttl 9#64) >>= fun q =>
      pure (q.hdrs.map (fun h => (h.name, h.data.getD 8 0#8)))) =
      .ok [("Ether", 8#8), ("IPv4", 9#8), ("IPv4", 0x40#8)] := by
  refine ⟨⟨rfl, rfl, ?_⟩, by decide +kernel⟩
  intro x hx
  simp only [List.mem_singleton] at hx
  subst hx; decide

/-! ## C16 -/

/-- **C16** (a): `set_payload` appends. -/
theorem C16_set_payload_appends (p : Packet) (b : Bytes) :
    (p.set_payload b).payload = p.payload ++ b ∧ (p.set_payload b).hdrs = p.hdrs := ⟨rfl, rfl⟩

/-- **C16** (b): afterwards the payload is what was passed iff the payload was empty before. -/
theorem C16_set_payload_sets_iff (p : Packet) (b : Bytes) :
    (p.set_payload b).payload = b ↔ p.payload = [] := by
  simp [Packet.set_payload]

/-- **C16** (c): after any history of `set_payload` calls the payload is their concatenation. -/
theorem C16_set_payload_history (p : Packet) (bs : List Bytes) :
    (bs.foldl Packet.set_payload p).payload = p.payload ++ bs.flatten := by
  induction bs generalizing p with
  | nil => simp
  | cons b bs ih => simp [ih, Packet.set_payload]

example : ((Packet.new.set_payload [1#8, 2#8]).set_payload [3#8]).payload = [1#8, 2#8, 3#8] := by decide

/-! ## C17 -/

/-- **C17** (a): `a + b` has the headers of `a` then those of `b`, and the payload of `a` only. -/
theorem C17_add (a b : Packet) : (a.add b).hdrs = a.hdrs ++ b.hdrs ∧ (a.add b).payload = a.payload ∧
    (a.add b).to_vec = (a.hdrs.map (·.data)).flatten ++ (b.hdrs.map (·.data)).flatten ++ a.payload := by
  refine ⟨rfl, rfl, ?_⟩
  rw [C10_to_vec]; simp [Packet.add]

/-- **C17** (b): addition is associative. -/
theorem C17_add_assoc (a b c : Packet) : (a.add b).add c = a.add (b.add c) := by
  simp [Packet.add]

/-- **C17** (c): the right payload is dropped: `a + b` does not depend on it. -/
theorem C17_add_drops_right_payload (a b : Packet) (x : Bytes) :
    a.add (b.set_payload x) = a.add b := rfl

example : ((Packet.new.push Vlan.new).set_payload [1#8]).add ((Packet.new.push GREKey.new).set_payload [9#8])
    = { hdrs := [Vlan.new, GREKey.new], payload := [1#8] } := by decide

end PacketRs
