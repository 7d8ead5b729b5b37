import Verif.Props.Guard
import Mathlib.Data.List.Forall2
/-!
# Property C124: every frame written back as it was

`parse` returns the options of a GRE header in the other order, so that `to_vec` does not give back a frame in which a GRE header has two
options or more (C23).  Parsing what `to_vec` wrote, once more, turns the octets back (C57).  A client that parses twice before it edits
therefore writes the right octets for every frame the parser takes.
-/
namespace PacketRs
open Spec Utils

/-! ## The client -/

/-- `let p = parse(&parse(f).to_vec());` -/
def parseTwice (chk : Bool) (f : Bytes) : R Packet := do
  let p ← Slow.parse chk f
  Slow.parse chk p.to_vec

/-- The router of C122 which parses twice. -/
def Router.passTwice (chk : Bool) (r : Router) (f : Bytes) : R (Option Bytes) :=
  match ipInput f with
  | none => pure none
  | some g => do
    match ← tryParse chk f with
    | none => pure none
    | some p => do
      let p ← Slow.parse chk p.to_vec
      let q ← r.forward chk g.v6 p
      pure (q.map Packet.to_vec)

/-- One such router after the other. -/
def alongTwice (chk : Bool) : List Router → Bytes → R (Option Bytes)
  | [], f => pure (some f)
  | r :: rs, f => do
    match ← r.passTwice chk f with
    | none => pure none
    | some f' => alongTwice chk rs f'

/-! ## Which headers change -/

/-- The options of a GRE header. -/
def GreOption (T : HeaderDef) : Prop := T = GREChksumOffset ∨ T = GREKey ∨ T = GRESequenceNum

/-- The same header, or a GRE option of the same type. -/
def SameHdr (a b : Hdr) : Prop := a.ty = b.ty ∧ (a = b ∨ GreOption a.ty)

theorem same_optH (T : HeaderDef) (x y : Bytes) (h : x.length = y.length) (hT : GreOption T) :
    List.Forall₂ SameHdr (optH T x) (optH T y) := by
  have : x = [] ↔ y = [] := by rw [← List.length_eq_zero_iff, h, List.length_eq_zero_iff]
  unfold optH
  by_cases hx : x = []
  · rw [if_pos hx, if_pos (this.1 hx)]
    exact .nil
  · rw [if_neg hx, if_neg (fun h => hx (this.2 h))]
    exact .cons ⟨rfl, .inr hT⟩ .nil

/-- As `Back` of C57, with the headers. -/
def Turned (l : Layer) (b : Bytes) (hs : List Hdr) (pl : Bytes) : Prop :=
  ∃ hs', Dissect l (wire hs pl) hs' pl ∧ wire hs' pl = b ∧ List.Forall₂ SameHdr hs' hs ∧
    (b ≠ [] → wire hs pl ≠ [] ∧ u8At (wire hs pl) 0 = u8At b 0)

theorem Turned.cons {l l' : Layer} {T : HeaderDef} {h r : Bytes} {hs : List Hdr} {pl : Bytes} (hl : h ≠ [])
    (mk : ∀ r hs, Dissect l' r hs pl → Dissect l (h ++ r) (⟨T, h⟩ :: hs) pl) (ih : Turned l' r hs pl) :
    Turned l (h ++ r) (⟨T, h⟩ :: hs) pl := by
  obtain ⟨hs', d, e, t, -⟩ := ih
  refine ⟨⟨T, h⟩ :: hs', by rw [wire_cons]; exact mk _ _ d, by rw [wire_cons, e], .cons ⟨rfl, .inl rfl⟩ t, fun _ => ⟨?_, ?_⟩⟩
  · rw [wire_cons]; simp [hl]
  · rw [wire_cons, u8At_append_left _ _ _ (List.length_pos_iff.mpr hl),
      u8At_append_left _ _ _ (List.length_pos_iff.mpr hl)]

theorem turned_of_Dissect {l : Layer} {b : Bytes} {hs : List Hdr} {pl : Bytes} (h : Dissect l b hs pl) :
    Turned l b hs pl := by
  induction h with
  | payload b => exact ⟨[], by rw [wire_nil]; exact .payload b, wire_nil b, .nil, by rw [wire_nil]; exact fun h => ⟨h, rfl⟩⟩
  | ether hl _ ih => exact ih.cons (ne_nil_of_length hl) fun _ _ d => .ether hl d
  | vlan hl _ ih => exact ih.cons (ne_nil_of_length hl) fun _ _ d => .vlan hl d
  | mpls hl hb _ ih => exact ih.cons (ne_nil_of_length hl) fun _ _ d => .mpls hl hb d
  | mplsLast hl hb _ ih => exact ih.cons (ne_nil_of_length hl) fun _ _ d => .mplsLast hl hb d
  | @mplsBos h r hs pl hl hr d ih =>
    obtain ⟨hs', d, e, t, hne⟩ := ih
    obtain ⟨n1, n2⟩ := hne hr
    have hl' := ne_nil_of_length hl
    refine ⟨⟨MPLS, h⟩ :: hs', ?_, by rw [wire_cons, e], .cons ⟨rfl, .inl rfl⟩ t, fun _ => ⟨?_, ?_⟩⟩
    · rw [wire_cons]
      exact .mplsBos hl n1 (by rw [n2]; exact d)
    · rw [wire_cons]; simp [hl']
    · rw [wire_cons, u8At_append_left _ _ _ (List.length_pos_iff.mpr hl'),
        u8At_append_left _ _ _ (List.length_pos_iff.mpr hl')]
  | ipv4 hl _ ih => exact ih.cons (ne_nil_of_length hl) fun _ _ d => .ipv4 hl d
  | ipv6 hl _ ih => exact ih.cons (ne_nil_of_length hl) fun _ _ d => .ipv6 hl d
  | @gre h c k s r hs pl hl hc hk hss _ ih =>
    obtain ⟨hs', d, e, t, -⟩ := ih
    have hl' := ne_nil_of_length hl
    obtain ⟨c', k', s', e1, e2, l1, l2, l3⟩ := split_opt c k s (wire hs pl) _ _ _ hc hk hss
    have w : ∀ (a b c : Bytes) (hs : List Hdr), wire (⟨GRE, h⟩ :: (optH GRESequenceNum a ++ (optH GREKey b ++
        (optH GREChksumOffset c ++ hs)))) pl = h ++ (a ++ (b ++ (c ++ wire hs pl))) := by
      intro a b c hs
      rw [wire_cons, wire_append, wire_append, wire_append, flatten_optH, flatten_optH, flatten_optH]
    refine ⟨⟨GRE, h⟩ :: (optH GRESequenceNum s' ++ (optH GREKey k' ++ (optH GREChksumOffset c' ++ hs'))), ?_, ?_, ?_,
      fun _ => ?_⟩
    · rw [w, e1]
      exact .gre hl (by rw [l1, hc]) (by rw [l2, hk]) (by rw [l3, hss]) d
    · rw [w, e]
      congr 1
      rw [← List.append_assoc k', ← List.append_assoc s', e2]
      simp
    · exact .cons ⟨rfl, .inl rfl⟩ (List.rel_append (same_optH _ _ _ l3 (.inr (.inr rfl))) (List.rel_append (same_optH _ _ _ l2 (.inr (.inl rfl)))
        (List.rel_append (same_optH _ _ _ l1 (.inl rfl)) t)))
    · rw [w]
      refine ⟨by simp [hl'], ?_⟩
      rw [u8At_append_left _ _ _ (List.length_pos_iff.mpr hl'), u8At_append_left _ _ _ (List.length_pos_iff.mpr hl')]
  | erspan2 hl _ ih => exact ih.cons (ne_nil_of_length hl) fun _ _ d => .erspan2 hl d
  | @erspan3 h p r hs pl hl hp _ ih =>
    obtain ⟨hs', d, e, t, -⟩ := ih
    have hl' := ne_nil_of_length hl
    have w : ∀ (hs : List Hdr), wire (⟨ERSPAN3, h⟩ :: (optH ERSPANPLATFORM p ++ hs)) pl = h ++ (p ++ wire hs pl) := by
      intro hs
      rw [wire_cons, wire_append, flatten_optH]
    refine ⟨⟨ERSPAN3, h⟩ :: (optH ERSPANPLATFORM p ++ hs'), ?_, ?_, ?_, fun _ => ?_⟩
    · rw [w]; exact .erspan3 hl hp d
    · rw [w, e]
    · exact .cons ⟨rfl, .inl rfl⟩ (List.rel_append (List.forall₂_same.mpr fun _ _ => ⟨rfl, .inl rfl⟩) t)
    · rw [w]
      refine ⟨by simp [hl'], ?_⟩
      rw [u8At_append_left _ _ _ (List.length_pos_iff.mpr hl'), u8At_append_left _ _ _ (List.length_pos_iff.mpr hl')]
  | arp hl _ ih => exact ih.cons (ne_nil_of_length hl) fun _ _ d => .arp hl d
  | icmp hl _ ih => exact ih.cons (ne_nil_of_length hl) fun _ _ d => .icmp hl d
  | tcp hl _ ih => exact ih.cons (ne_nil_of_length hl) fun _ _ d => .tcp hl d
  | udp hl hb _ ih => exact ih.cons (ne_nil_of_length hl) fun _ _ d => .udp hl hb d
  | udpVxlan hl hb _ ih => exact ih.cons (ne_nil_of_length hl) fun _ _ d => .udpVxlan hl hb d
  | vxlan hl _ ih => exact ih.cons (ne_nil_of_length hl) fun _ _ d => .vxlan hl d
  | dot3 hl _ ih => exact ih.cons (ne_nil_of_length hl) fun _ _ d => .dot3 hl d
  | llc hl hb _ ih => exact ih.cons (ne_nil_of_length hl) fun _ _ d => .llc hl hb d
  | llcSnap hl _ ih => exact ih.cons (by rw [hl]; simp) fun _ _ d => .llcSnap hl d
  | snap hl _ ih => exact ih.cons (ne_nil_of_length hl) fun _ _ d => .snap hl d

theorem SameHdr.types {a b : List Hdr} (h : List.Forall₂ SameHdr a b) : a.map (·.ty) = b.map (·.ty) := by
  induction h with
  | nil => rfl
  | cons h _ ih => rw [List.map_cons, List.map_cons, h.1, ih]

/-- **C124, parsing twice.** It succeeds iff the first parse does; what it gives serializes to the frame, for every frame; its headers are
those of the first parse in number, order and types, with the same contents but for the options of GRE headers, and the payload is the same. -/
theorem C124_parse (chk : Bool) (f : Bytes) (p : Packet) (h : Slow.parse chk f = .ok p) :
    ∃ q, parseTwice chk f = .ok q ∧ q.to_vec = f ∧ List.Forall₂ SameHdr q.hdrs p.hdrs ∧ q.payload = p.payload := by
  obtain ⟨hb, d⟩ := (C21_parse_frame chk f p.hdrs p.payload).mp h
  obtain ⟨hs', d', e, t, -⟩ := turned_of_Dissect d
  obtain ⟨t1, t2⟩ := head14 (by split <;> simp) d
  refine ⟨⟨hs', p.payload⟩, ?_, by rw [to_vec_eq_wire]; exact e, t, rfl⟩
  simp only [parseTwice, h, bind, Except.bind]
  rw [C21_parse_frame, to_vec_eq_wire]
  refine ⟨t2, ?_⟩
  rw [← u16At_take _ 14 12 (by omega), t1, u16At_take _ 14 12 (by omega)]
  exact d'

/-- **C124**: with no GRE header of two or more options, the second parse changes nothing. -/
theorem C124_same (chk : Bool) (f : Bytes) (p : Packet) (h : Slow.parse chk f = .ok p)
    (hg : ∀ g ∈ p.hdrs, g.ty = GRE → greOptCount g.data ≤ 1) : parseTwice chk f = .ok p := by
  simp only [parseTwice, h, bind, Except.bind, C23_roundtrip_frame chk f p h hg]

/-- **C124**: it panics on nothing else. -/
theorem C124_panics (chk : Bool) (f : Bytes) : (∃ e, parseTwice chk f = .error e) ↔ ∃ e, Slow.parse chk f = .error e := by
  cases h : Slow.parse chk f with
  | error e => simp only [parseTwice, h, bind, Except.bind]
  | ok p =>
    obtain ⟨q, hq, -⟩ := C124_parse chk f p h
    rw [hq]
    exact ⟨fun ⟨_, h⟩ => (nomatch h), fun ⟨_, h⟩ => (nomatch h)⟩

/-- `p` serializes to `f` and has headers of the types, in the order, of the parse of `f`. -/
structure Mirrors (chk : Bool) (f : Bytes) (p : Packet) : Prop where
  vec : p.to_vec = f
  wf : ∀ g ∈ p.hdrs, g.data.length = g.ty.size
  types : ∃ p0, Slow.parse chk f = .ok p0 ∧ p.hdrs.map (·.ty) = p0.hdrs.map (·.ty)

theorem mirrors_twice {chk : Bool} {f : Bytes} {p q : Packet} (h : Slow.parse chk f = .ok p) (hq : Slow.parse chk p.to_vec = .ok q) :
    Mirrors chk f q := by
  obtain ⟨q', e, h1, h2, -⟩ := C124_parse chk f p h
  simp only [parseTwice, h, bind, Except.bind] at e
  obtain rfl := Except.ok.inj (hq.symm.trans e)
  exact ⟨h1, frame_sizes hq, p, h, SameHdr.types h2⟩

/-! ## Editing -/

/-- **C124, getters.** As C67, for every frame: every getter of every header returns the bits of the frame at the place which the sizes of
the headers before give. -/
theorem C124_get (chk : Bool) (f : Bytes) (q : Packet) (h : parseTwice chk f = .ok q) (pre post : List Hdr) (g : Hdr)
    (hs : q.hdrs = pre ++ g :: post) (x : Field) (hin : x.Inside g.ty.size) (hw : x.width ≤ 64) :
    ∃ v, g.get chk x = .ok v ∧ v.toNat = fieldVal f (8 * sizes pre + x.lo) (8 * sizes pre + x.hi) := by
  cases hp : Slow.parse chk f with
  | error e => simp only [parseTwice, hp, bind, Except.bind] at h; cases h
  | ok p =>
    simp only [parseTwice, hp, bind, Except.bind] at h
    have hv := mirrors_twice hp h
    have := C67_get_serialized chk q pre post g hs hv.wf x hin hw
    rwa [hv.vec] at this

/-- **C124, setters.** As C67, for every frame: parse twice, set a field of the first header of a name, serialize: the frame with the bits
of that field changed and nothing else. -/
theorem C124_set (chk : Bool) (f : Bytes) (q : Packet) (h : parseTwice chk f = .ok q) (T : HeaderDef) (name : String)
    (pre post : List Hdr) (g : Hdr) (hs : IsFirstNamed q.hdrs name pre g post) (hT : g.ty = T) (x : Field) (hin : x.Inside g.ty.size) (v : U64) :
    ∃ z, q.withHeaderMut T name (fun y => y.set x v) = .ok z ∧ z.to_vec.length = f.length ∧
      ∀ i, netBit z.to_vec i = if 8 * sizes pre + x.lo ≤ i ∧ i ≤ 8 * sizes pre + x.hi
        then v.getLsbD (8 * sizes pre + x.hi - i) else netBit f i := by
  cases hp : Slow.parse chk f with
  | error e => simp only [parseTwice, hp, bind, Except.bind] at h; cases h
  | ok p =>
    simp only [parseTwice, hp, bind, Except.bind] at h
    have hv := mirrors_twice hp h
    obtain ⟨z, h1, -, -, -, h2, h3⟩ := C67_set_serialized q T name pre post g hs hT hv.wf x hin v
    rw [hv.vec] at h2 h3
    exact ⟨z, h1, h2, h3⟩

/-! ## Routers: as in C74, C99 and C111, with what the packet serializes to in place of the hypothesis on GRE options -/

theorem Mirrors.front {chk : Bool} {f : Bytes} {g : Datagram} {p : Packet} (h : Mirrors chk f p) (hi : ipInput f = some g) :
    ∃ L post, p.hdrs.map (·.ty) = Ether :: L ++ (if g.v6 then IPv6 else IPv4) :: post ∧ ((Ether :: L).map (·.size)).sum = l3At f ∧
      ∀ S ∈ Ether :: L, S = Ether ∨ S = Vlan := by
  obtain ⟨p0, hp, ht⟩ := h.types
  rw [ht]
  exact front_types hi hp

theorem Mirrors.ip4_shape {chk : Bool} {f : Bytes} {g : Datagram} {p : Packet} (h : Mirrors chk f p) (hi : ipInput f = some g)
    (h4 : g.v6 = false) :
    linkInput f = some (0x0800, f.drop (l3At f)) ∧ ip4Input (f.drop (l3At f)) = some g ∧ l3At f ≤ f.length ∧
      u16At f (l3At f - 2) = 0x0800 ∧
      ∃ front ip post, IsFirstNamed p.hdrs "IPv4" front ip post ∧ ip.ty = IPv4 ∧ sizes front = l3At f := by
  obtain ⟨p0, hp, ht⟩ := h.types
  obtain ⟨h1, h2, h3, h5, front, ip, post, ⟨e, -, hn⟩, hty, hsz⟩ := PacketRs.ip4_shape hi h4 hp
  refine ⟨h1, h2, h3, h5, ?_⟩
  rw [e, List.map_append, List.map_cons] at ht
  obtain ⟨a, b, e', ha, hb⟩ := List.map_eq_append_iff.mp ht
  obtain ⟨x, y, rfl, hx, -⟩ := List.map_eq_cons_iff.mp hb
  refine ⟨a, x, y, ⟨e', by rw [Hdr.name, hx, hty]; rfl, fun z hz => ?_⟩, hx.trans hty, ?_⟩
  · have : z.ty ∈ front.map (·.ty) := ha ▸ List.mem_map_of_mem hz
    obtain ⟨w, hw, e⟩ := List.mem_map.mp this
    rw [Hdr.name, ← e]
    exact hn w hw
  · rw [← hsz]
    have : ∀ l : List Hdr, sizes l = ((l.map (·.ty)).map (·.size)).sum := fun l => by rw [List.map_map]; rfl
    rw [this, this, ha]

theorem Mirrors.take_drop {chk : Bool} {b : Bytes} {p : Packet} (h : Mirrors chk b p) {pre post : List Hdr} {g : Hdr}
    (hs : p.hdrs = pre ++ g :: post) :
    (pre.map (·.data)).flatten = b.take (sizes pre) ∧ g.data = (b.drop (sizes pre)).take g.ty.size ∧
      (post.map (·.data)).flatten ++ p.payload = b.drop (sizes pre + g.ty.size) := by
  have hsz := h.wf
  have hb := h.vec
  obtain ⟨hd, pl⟩ := p
  simp only at hs hsz
  subst hs
  rw [wire_split] at hb
  have hpre := sizes_eq (pre := pre) (fun x hx => hsz x (by simp [hx]))
  have hgl : g.data.length = g.ty.size := hsz g (by simp)
  refine ⟨?_, ?_, ?_⟩
  · rw [← hb, List.take_left' hpre]
  · rw [← hb, List.drop_left' hpre, List.take_left' hgl]
  · rw [← hb, ← List.drop_drop, List.drop_left' hpre, List.drop_left' hgl]

theorem Mirrors.refreshed (chk : Bool) (b : Bytes) (p : Packet) (h : Mirrors chk b p) (pre post : List Hdr) (g : Hdr)
    (hs : IsFirstNamed p.hdrs "IPv4" pre g post) (hT : g.ty = IPv4) (f : Field) (hin : f.Inside 20) (v : U64) :
    let n := sizes pre
    ∃ q d, ∃ c : U16, editAndRefresh chk f v p = .ok q ∧ q.hdrs.map (·.ty) = p.hdrs.map (·.ty) ∧ q.payload = p.payload ∧
      d.length = 20 ∧
      (∀ i, i < 160 → netBit d i = if f.lo ≤ i ∧ i ≤ f.hi then v.getLsbD (f.hi - i) else netBit b (8 * n + i)) ∧
      c.toNat = 65535 - (plainSum d / 65536 + plainSum d) % 65536 ∧
      q.to_vec = b.take n ++ (putChecksum d c.toNat ++ b.drop (n + 20)) ∧
      (q.to_vec.drop n).take 20 = putChecksum d c.toNat ∧
      (Verifies ((q.to_vec.drop n).take 20) ↔ plainSum d / 65536 + plainSum d % 65536 < 65536) ∧
      Packet.ipv4_checksum chk ((q.to_vec.drop n).take 20) = .ok c := by
  intro n
  obtain ⟨w1, w2, w3⟩ := h.take_drop hs.1
  have hsize : g.ty.size = 20 := by rw [hT]; rfl
  rw [hsize] at w2 w3
  have hl : g.data.length = 20 := by
    rw [← hsize]; exact h.wf g (by rw [hs.1]; simp)
  obtain ⟨g', c, e, ht, hl', hc, he⟩ := edit_refresh chk p pre post g hs hT hl f hin v
  have hn : (b.take n).length = n := by
    rw [← w1, sizes_eq fun x hx => h.wf x (by rw [hs.1]; simp [hx])]
  have hv : Packet.to_vec ⟨pre ++ ⟨IPv4, putChecksum g'.data c.toNat⟩ :: post, p.payload⟩ =
      b.take n ++ (putChecksum g'.data c.toNat ++ b.drop (n + 20)) := by
    rw [wire_split, w1, w3]
  have hlp : (putChecksum g'.data c.toNat).length = 20 := by simp [putChecksum, hl']
  have hcut : ((Packet.to_vec ⟨pre ++ ⟨IPv4, putChecksum g'.data c.toNat⟩ :: post, p.payload⟩).drop n).take 20 =
      putChecksum g'.data c.toNat := by
    rw [hv, List.drop_left' hn, List.take_left' hlp]
  obtain ⟨c1, hc1, hval⟩ := C39_value chk g'.data (by rw [hl']) (by rw [hl']; decide)
  obtain ⟨c2, hc2, hver⟩ := C39_correct_iff chk g'.data (by rw [hl']) (by rw [hl']; decide) (by rw [hl']; decide)
  rw [hc] at hc1 hc2
  cases hc1; cases hc2
  refine ⟨_, g'.data, c, he, ?_, rfl, hl', ?_, hval, hv, hcut, ?_, ?_⟩
  · rw [hs.1]; simp [hT]
  · intro i hi
    obtain ⟨g2, e2, -, -, hb⟩ := set_bits g f v (by rw [hl]; exact hin)
    rw [e] at e2; cases e2
    rw [hb i]
    by_cases hf : f.lo ≤ i ∧ i ≤ f.hi
    · rw [if_pos hf, if_pos hf]
    · rw [if_neg hf, if_neg hf, w2, netBit_take, decide_eq_true (show i < 8 * 20 by omega), Bool.true_and, netBit_drop]
  · rw [hcut]; exact hver
  · rw [hcut, ← hc]
    refine C40_ignores_checksum_field chk _ _ (by rw [hlp, hl']) ?_
    intro i h1 h2
    rw [putChecksum, List.getElem?_set_ne (Ne.symm h2), List.getElem?_set_ne (Ne.symm h1)]

theorem Mirrors.datagram {chk : Bool} {f : Bytes} {g : Datagram} {p : Packet} (hi : ipInput f = some g) (h4 : g.v6 = false)
    (hp : Mirrors chk f p)
    (x : Field) (v : U64) (a : Nat) (w : Bytes) (hx1 : x.lo = 8 * a) (hx2 : x.hi + 1 = 8 * (a + w.length)) (hw : 0 < w.length)
    (hok : (a = 8 ∧ w.length = 1) ∨ (12 ≤ a ∧ a + w.length ≤ 20))
    (hb : ∀ j, j < 8 * w.length → netBit w j = v.getLsbD (8 * w.length - 1 - j)) :
    let d := putAt (ip4Hdr f) a w
    ∃ q, editAndRefresh chk x v p = .ok q ∧
      ipInput q.to_vec = if RefreshRight d (ip4Opts f) then some { g with src := (d.drop 12).take 4, dst := (d.drop 16).take 4 } else none := by
  obtain ⟨h1, h2, h3, h5, front, ip, post, hfirst, hty, hsz⟩ := hp.ip4_shape hi h4
  obtain ⟨q, d, c, e, -, -, hdl, hbits, hcv, hv, -, -, -⟩ :=
    Mirrors.refreshed chk f p hp front post ip hfirst hty x ⟨by omega, by omega⟩ v
  rw [hsz] at hbits hv
  have hihl : ihl (f.drop (l3At f)) 0 = ihl f (l3At f) := by
    rw [ihl, u8At_drop_add, Nat.add_zero, ihl]
  have hopt : ip4Opts f = ((f.drop (l3At f)).drop 20).take (ihl f (l3At f) - 20) := by rw [ip4Opts, List.drop_drop]
  generalize hbb : f.drop (l3At f) = b at h1 h2 hihl hopt
  have h20 : 20 ≤ b.length := by
    unfold ip4Input at h2
    split at h2
    · next hc => exact hc.1
    · cases h2
  have hhl : (ip4Hdr f).length = 20 := by rw [ip4Hdr, hbb, List.length_take]; omega
  have hd : putAt (ip4Hdr f) a w = d := by
    apply eq_of_netBit
    · rw [putAt_length _ _ _ (by omega), hhl, hdl]
    · rw [putAt_length _ _ _ (by omega), hhl]
      intro i hi'
      rw [hbits i (by omega)]
      have hta : ((ip4Hdr f).take a).length = a := by rw [List.length_take]; omega
      have hold : netBit (ip4Hdr f) i = netBit f (8 * l3At f + i) := by
        rw [ip4Hdr, netBit_take, netBit_drop, decide_eq_true (by omega), Bool.true_and]
      unfold putAt
      by_cases c1 : i < 8 * a
      · rw [netBit_append_left _ _ _ (by omega), netBit_take, if_neg (by omega), ← hold, decide_eq_true c1, Bool.true_and]
      · rw [netBit_append_right _ _ _ (by omega), hta]
        by_cases c2 : i < 8 * (a + w.length)
        · rw [netBit_append_left _ _ _ (by omega), hb _ (by omega), if_pos (by omega)]
          congr 1; omega
        · rw [netBit_append_right _ _ _ (by omega), netBit_drop, if_neg (by omega), ← hold]
          congr 1; omega
  intro d'
  have hd' : d' = d := hd
  refine ⟨q, e, ?_⟩
  have hfr : ipInput q.to_vec = ip4Input (putChecksum d c.toNat ++ b.drop 20) := by
    unfold ipInput
    rw [hv, linkInput_front h1, ← List.drop_drop, hbb]
    rfl
  have hpl : (putChecksum d c.toNat).length = 20 := by simp [putChecksum, hdl]
  have hu : ∀ i, i < 20 → i ≠ 10 → i ≠ 11 → (i < a ∨ a + w.length ≤ i) →
      u8At (putChecksum d c.toNat ++ b.drop 20) i = u8At b i := by
    intro i q1 q2 q3 q4
    rw [u8At_append_left _ _ _ (by omega), putChecksum_u8 _ _ _ q2 q3, ← hd, putAt_u8 _ _ _ (by omega) _ q4, ip4Hdr, hbb,
      u8At_take _ _ _ q1]
  unfold ip4Input at h2
  split at h2
  rotate_left
  · cases h2
  next hc =>
  obtain ⟨c1, c2, c3, c4, c5, c6, c7⟩ := hc
  have e0 := hu 0 (by omega) (by omega) (by omega) (by omega)
  have e9 := hu 9 (by omega) (by omega) (by omega) (by omega)
  have e2 : u16At (putChecksum d c.toNat ++ b.drop 20) 2 = u16At b 2 := by
    rw [u16At, u16At, hu 2 (by omega) (by omega) (by omega) (by omega), hu 3 (by omega) (by omega) (by omega) (by omega)]
  have e6 : u16At (putChecksum d c.toNat ++ b.drop 20) 6 = u16At b 6 := by
    rw [u16At, u16At, hu 6 (by omega) (by omega) (by omega) (by omega), hu 7 (by omega) (by omega) (by omega) (by omega)]
  have ei : ihl (putChecksum d c.toNat ++ b.drop 20) 0 = ihl b 0 := by rw [ihl, e0, ihl]
  have htake : (putChecksum d c.toNat ++ b.drop 20).take (ihl b 0) = putChecksum d c.toNat ++ ip4Opts f := by
    rw [List.take_append, hpl, List.take_of_length_le (by omega), hopt, hihl]
  have hver' : Verifies (putChecksum d c.toNat ++ ip4Opts f) ↔ RefreshRight d (ip4Opts f) :=
    refresh_verifies d _ _ hdl hcv
  have el : (putChecksum d c.toNat ++ b.drop 20).length = b.length := by
    rw [List.length_append, hpl, List.length_drop]; omega
  have hdata : ((putChecksum d c.toNat ++ b.drop 20).take (u16At b 2)).drop (ihl b 0) = (b.take (u16At b 2)).drop (ihl b 0) := by
    rw [List.drop_take, List.drop_take]
    obtain ⟨k, hk⟩ : ∃ k, ihl b 0 = 20 + k := ⟨ihl b 0 - 20, by omega⟩
    rw [hk, drop_add_left _ _ _ _ hpl, List.drop_drop]
  have hsd : ∀ n, 12 ≤ n → n ≤ 16 → ((putChecksum d c.toNat ++ b.drop 20).drop n).take 4 = (d.drop n).take 4 := by
    intro n q1 q2
    rw [List.drop_append_of_le_length (by omega), List.take_append_of_le_length (by rw [List.length_drop]; omega),
      putChecksum_drop _ _ _ q1]
  rw [hfr, ip4Input, e0, e9, e2, e6, ei, el, htake, hsd 12 (by omega) (by omega), hsd 16 (by omega) (by omega),
    hdata, hd', ← Option.some.inj h2]
  by_cases hf : RefreshRight d (ip4Opts f)
  · rw [if_pos ⟨c1, c2, c3, c4, c5, hver'.mpr hf, c7⟩, if_pos hf]
  · rw [if_neg (fun h => hf (hver'.mp h.2.2.2.2.2.1)), if_neg hf]

theorem Mirrors.forward {chk : Bool} {f : Bytes} {g : Datagram} {p : Packet} (hi : ipInput f = some g)
    (h4 : u16At f (l3At f - 2) = 0x0800) (hp : Mirrors chk f p) (v : U64) :
    let d := putAt (ip4Hdr f) 8 [BitVec.ofNat 8 v.toNat]
    ∃ q, editAndRefresh chk IPv4.ttl v p = .ok q ∧
      ipInput q.to_vec = (if RefreshRight d (ip4Opts f) then some g else none) ∧
      hostUdp q.to_vec = (if RefreshRight d (ip4Opts f) then hostUdp f else none) ∧
      hostTcp q.to_vec = (if RefreshRight d (ip4Opts f) then hostTcp f else none) ∧
      hostIcmp q.to_vec = (if RefreshRight d (ip4Opts f) then hostIcmp f else none) := by
  obtain ⟨f1, f2, f3, f4, -⟩ := ip4_fields hi h4
  intro d
  have h1 : [BitVec.ofNat 8 v.toNat].length = 1 := rfl
  obtain ⟨q, e, h⟩ := Mirrors.datagram hi f1 hp IPv4.ttl v 8 [BitVec.ofNat 8 v.toNat] rfl rfl (by omega) (.inl ⟨rfl, rfl⟩) (by
    intro j hj
    simp only [List.length_cons, List.length_nil] at hj
    rw [netBit_cons, if_pos (by omega), BitVec.getMsbD, BitVec.getLsbD_ofNat, decide_eq_true (show j < 8 by omega),
      decide_eq_true (show 8 - 1 - j < 8 by omega)]
    rfl)
  rw [putAt_drop _ _ _ (by omega) _ (by omega), putAt_drop _ _ _ (by omega) _ (by omega), ← f2, ← f3] at h
  have h : ipInput q.to_vec = if RefreshRight d (ip4Opts f) then some g else none := h
  refine ⟨q, e, h, ?_, ?_, ?_⟩
  all_goals
    simp only [hostUdp, hostTcp, hostIcmp, h, hi]
    split <;> rfl

theorem Mirrors.edit {chk : Bool} {f : Bytes} {g : Datagram} {p : Packet} (hi : ipInput f = some g) (hp : Mirrors chk f p) (r : Router) (t : U64) (ht : t.toNat = hopsLeft f) (h1 : 1 < t.toNat) :
    ∃ q, r.edit chk g.v6 t p = .ok q ∧ q.hdrs.map (·.ty) = p.hdrs.map (·.ty) ∧ (∀ x ∈ q.hdrs, x.data.length = x.ty.size) ∧
      Onward f q.to_vec (hopsLeft f - 1) ∧
      ipInput q.to_vec = if u16At f (l3At f - 2) = 0x0800 → r.own = true → RefreshRight (ttlHdr f (hopsLeft f - 1)) (ip4Opts f)
        then some g else none := by
  obtain ⟨hv, hlen, hip, -, -⟩ := v6_type hi
  obtain ⟨L, post, hL, hLs, hLn⟩ := hp.front hi
  have hwf := hp.wf
  have hvec := hp.vec
  have h14 := l3At_ge f
  have h256 : hopsLeft f < 256 := by unfold hopsLeft; exact u8At_lt _ _
  have hsub : (t - 1).toNat = hopsLeft f - 1 := by
    rw [BitVec.toNat_sub_of_le (by rw [BitVec.le_def]; exact Nat.le_of_lt h1), ht]; rfl
  have b8 : ∀ j, j < 8 * [BitVec.ofNat 8 (hopsLeft f - 1)].length →
      netBit [BitVec.ofNat 8 (hopsLeft f - 1)] j = (t - 1).getLsbD (8 * [BitVec.ofNat 8 (hopsLeft f - 1)].length - 1 - j) := by
    intro j hj
    have := netBit_num8 (t - 1) j hj
    rwa [hsub] at this
  cases h6 : g.v6 with
  | true =>
    rw [h6] at hL hv hip
    have h86 := of_decide_eq_true hv.symm
    have hne : u16At f (l3At f - 2) ≠ 0x0800 := by rw [h86]; decide
    obtain ⟨q, e, t1, w1, v1⟩ := edit_types IPv6 IPv6.hop_limit (t - 1) 7 [BitVec.ofNat 8 (hopsLeft f - 1)] rfl rfl Nat.one_pos
      (show 7 + 1 ≤ 40 by decide) b8 p (Ether :: L) post hL (fun S hS => by rcases hLn S hS with rfl | rfl <;> decide) hwf
    rw [hLs, hvec] at v1
    obtain ⟨o1, o2⟩ := onward6 hi h6 (hopsLeft f - 1) (by omega)
    refine ⟨q, by simp only [Router.edit, if_true]; exact e, t1, w1, v1 ▸ o1, ?_⟩
    rw [if_pos fun h => absurd h hne, v1, o2]
  | false =>
    have hs4 := hp.ip4_shape hi h6
    obtain ⟨hli, hbi, -, h08, front, ip, post', hfirst, hty, hsz⟩ := hs4
    rw [h6] at hL hv hip
    rw [hip, if_neg (by decide)] at hlen
    have hLn' : ∀ S ∈ Ether :: L, S.name ≠ IPv4.name := fun S hS => by rcases hLn S hS with rfl | rfl <;> decide
    have h86 := of_decide_eq_false hv.symm
    have htk : (f.take (l3At f)).length = l3At f := by rw [List.length_take]; omega
    have hhop : hopsLeft f = u8At f (l3At f + 8) := by rw [hopsLeft, if_neg h86]
    have n16 : ∀ k, (num16 k).length = 2 := fun _ => rfl
    cases ho : r.own with
    | true =>
      obtain ⟨w1, w2, w3⟩ := hp.take_drop hfirst.1
      rw [hsz, show ip.ty.size = 20 by rw [hty]; rfl] at w2 w3
      have hl : ip.data.length = 20 := by rw [hwf ip (by rw [hfirst.1]; simp), hty]; rfl
      obtain ⟨g', c, e, ht', hl', hc, he⟩ := edit_refresh chk p front post' ip hfirst hty hl IPv4.ttl ⟨by decide, by decide⟩ (t - 1)
      rw [set_whole IPv4 IPv4.ttl (t - 1) 8 [BitVec.ofNat 8 (hopsLeft f - 1)] rfl rfl Nat.one_pos (show 8 + 1 ≤ 20 by decide) b8 ip hty
        hl] at e
      obtain rfl := Except.ok.inj e
      simp only at he hl' hc
      obtain ⟨q, e', hq, -⟩ := Mirrors.forward hi h08 hp (t - 1)
      rw [hsub] at hq
      rw [he] at e'
      obtain rfl := Except.ok.inj e'
      refine ⟨_, by simp only [Router.edit, ho, Bool.false_eq_true, if_false, if_true]; exact he, ?_, ?_, ?_, ?_⟩
      · rw [hfirst.1]; simp [hty]
      · intro x hx
        simp only [List.mem_append, List.mem_cons] at hx
        rcases hx with hx | rfl | hx
        · exact hwf x (by rw [hfirst.1]; simp [hx])
        · rw [length_putChecksum, hl']; rfl
        · exact hwf x (by rw [hfirst.1]; simp [hx])
      · have := onward4 hi h6 (hopsLeft f - 1) c.toNat (by omega)
        rw [putAt_inside f _ _ _ (by omega), putAt_behind _ _ _ _ _ htk] at this
        rw [wire_split, w1, w3, hsz, putChecksum_eq_put _ _ (by rw [hl']; decide), w2]
        have e3 : f.drop (l3At f) = (f.drop (l3At f)).take 20 ++ f.drop (l3At f + 20) := by
          rw [← List.drop_drop, List.take_append_drop]
        have hd20 : ((f.drop (l3At f)).take 20).length = 20 := by rw [List.length_take, List.length_drop]; omega
        rw [e3, putAt_append _ _ _ _ (by rw [hd20]; exact (by decide : 8 + 1 ≤ 20)), putAt_append _ _ _ _ (by
          rw [putAt_length _ _ _ (by rw [hd20]; exact (by decide : 8 + 1 ≤ 20)), hd20, n16]; decide)] at this
        exact this
      · rw [hq]
        refine if_congr ?_ rfl rfl
        exact ⟨fun h _ _ => h, fun h => h h08 rfl⟩
    | false =>
      obtain ⟨pr, r1, o1⟩ := readField_types chk IPv4 IPv4.protocol p (Ether :: L) post hL hLn' hwf ⟨by decide, by decide⟩ (by decide)
      obtain ⟨c, r2, o2⟩ := readField_types chk IPv4 IPv4.header_checksum p (Ether :: L) post hL hLn' hwf ⟨by decide, by decide⟩ (by decide)
      have i20 : IPv4.size = 20 := rfl
      rw [hLs, hvec, show IPv4.protocol.lo = 8 * 9 from rfl, show IPv4.protocol.hi = 8 * 9 + 7 from rfl,
        fieldVal_u8 _ _ (by rw [List.length_take, List.length_drop]; omega), u8At_take _ _ _ (by decide), u8At_drop_add] at o1
      rw [hLs, hvec, show IPv4.header_checksum.lo = 8 * 10 from rfl, show IPv4.header_checksum.hi = 8 * 10 + 15 from rfl,
        read_two _ _ _ (by decide) (by omega)] at o2
      have p9 := u8At_lt f (l3At f + 9)
      obtain ⟨k1, k2, k3⟩ := adjust_sum c.toNat [256 * t.toNat + pr.toNat] [256 * (t - 1).toNat + pr.toNat]
        (by have := u16At_lt f (l3At f + 10); omega) (by
          intro x hx
          obtain rfl := List.mem_singleton.mp hx
          omega)
      generalize hK : adjust c.toNat [256 * t.toNat + pr.toNat] [256 * (t - 1).toNat + pr.toNat] = K at k1 k2 k3
      obtain ⟨q1, e1, t1, w1, v1⟩ := edit_types IPv4 IPv4.ttl (t - 1) 8 [BitVec.ofNat 8 (hopsLeft f - 1)] rfl rfl Nat.one_pos
        (show 8 + 1 ≤ 20 by decide) b8 p (Ether :: L) post hL hLn' hwf
      obtain ⟨q2, e2, t2, w2, v2⟩ := edit_types IPv4 IPv4.header_checksum (BitVec.ofNat 64 K) 10 (num16 K) rfl rfl (by rw [n16]; decide)
        (by rw [n16]; decide) (by
          intro j hj
          have := netBit_num16 (BitVec.ofNat 64 K) j (by rw [n16] at hj; omega)
          rwa [BitVec.toNat_ofNat, Nat.mod_eq_of_lt (by omega)] at this) q1 (Ether :: L) post (by rw [t1, hL]; rfl) hLn' w1
      rw [hLs, hvec] at v1
      rw [hLs, v1] at v2
      refine ⟨q2, ?_, by rw [t2, t1], w2, v2 ▸ onward4 hi h6 (hopsLeft f - 1) K (by omega), ?_⟩
      · simp only [Router.edit, ho, Bool.false_eq_true, if_false, r1, r2, e1, hK, bind, Except.bind]
        exact e2
      · rw [if_pos (fun _ h => (nomatch h)), v2, putAt_inside f _ _ _ (by omega), putAt_behind _ _ _ _ _ htk]
        unfold ipInput
        rw [linkInput_front hli]
        simp only [if_true]
        refine ip4Input_ttl hbi _ _ (by omega) k1 k2 ?_
        simp only [List.sum_cons, List.sum_nil, Nat.add_zero] at k3
        rw [u8At_drop_add, u16At_drop_add, u16At_drop_add, ← o1, ← o2, ← hsub, k3, u16At, ← hhop, ← ht, o1]

theorem Mirrors.hops {chk : Bool} {f : Bytes} {g : Datagram} {p : Packet} (hi : ipInput f = some g) (hp : Mirrors chk f p) :
    ∃ t : U64, readHops chk g.v6 p = .ok t ∧ t.toNat = hopsLeft f := by
  unfold readHops
  obtain ⟨hv, hlen, hip, -, -⟩ := v6_type hi
  obtain ⟨L, post, hL, hLs, hLn⟩ := hp.front hi
  have hwf := hp.wf
  have hvec := hp.vec
  cases h6 : g.v6 with
  | true =>
    rw [h6] at hL hv hip
    rw [hip, if_pos rfl] at hlen
    have h86 := of_decide_eq_true hv.symm
    obtain ⟨t, r1, o1⟩ := readField_types chk IPv6 IPv6.hop_limit p (Ether :: L) post hL
      (fun S hS => by rcases hLn S hS with rfl | rfl <;> decide) hwf ⟨by decide, by decide⟩ (by decide)
    have i40 : IPv6.size = 40 := rfl
    rw [hLs, hvec, show IPv6.hop_limit.lo = 8 * 7 from rfl, show IPv6.hop_limit.hi = 8 * 7 + 7 from rfl,
      fieldVal_u8 _ _ (by rw [List.length_take, List.length_drop]; omega), u8At_take _ _ _ (by decide), u8At_drop_add] at o1
    exact ⟨t, r1, by rw [o1, hopsLeft, if_pos h86]⟩
  | false =>
    rw [h6] at hL hv hip
    rw [hip, if_neg (by decide)] at hlen
    have h86 := of_decide_eq_false hv.symm
    obtain ⟨t, r1, o1⟩ := readField_types chk IPv4 IPv4.ttl p (Ether :: L) post hL
      (fun S hS => by rcases hLn S hS with rfl | rfl <;> decide) hwf ⟨by decide, by decide⟩ (by decide)
    have i20 : IPv4.size = 20 := rfl
    rw [hLs, hvec, show IPv4.ttl.lo = 8 * 8 from rfl, show IPv4.ttl.hi = 8 * 8 + 7 from rfl,
      fieldVal_u8 _ _ (by rw [List.length_take, List.length_drop]; omega), u8At_take _ _ _ (by decide), u8At_drop_add] at o1
    exact ⟨t, r1, by rw [o1, hopsLeft, if_neg h86]⟩

/-! ## One router, and any number of them -/

/-- **C124, one router.** It panics on nothing, drops the fatal frames of C121, and does with every other right datagram, whatever it
carries, what C111 says of datagrams with at most one option in each GRE header. -/
theorem C124_router (chk : Bool) (f : Bytes) (r : Router) (hr : r.Ok) : ∃ x, r.passTwice chk f = .ok x ∧ (ipInput f = none → x = none) ∧
    (Fatal f → x = none) ∧ ∀ g, ipInput f = some g → ¬ Fatal f → (hopsLeft f ≤ 1 → x = none) ∧
      (1 < hopsLeft f → ∃ f', x = some f' ∧ Onward f f' (hopsLeft f - 1) ∧ f'.take 12 = r.dst ++ r.src ∧
        ipInput f' = if u16At f (l3At f - 2) = 0x0800 → r.own = true → RefreshRight (ttlHdr f (hopsLeft f - 1)) (ip4Opts f)
          then some g else none) := by
  cases hi : ipInput f with
  | none =>
    refine ⟨none, by simp only [Router.passTwice, hi]; rfl, fun _ => rfl, fun _ => rfl, fun _ h => (nomatch h)⟩
  | some g =>
    obtain ⟨o, e, h1, h2⟩ := C122_parse chk f
    have hf := (C121_station hi chk).1
    cases o with
    | none =>
      refine ⟨none, by simp only [Router.passTwice, hi, e, bind, Except.bind]; rfl, fun _ => rfl, fun _ => rfl, fun _ _ c => ?_⟩
      exact absurd (hf.mp (h2.mp rfl)) c
    | some p =>
      have hp := (h1 p).mp rfl
      have hnf : ¬ Fatal f := fun c => by
        obtain ⟨y, hy⟩ := hf.mpr c
        rw [hp] at hy
        cases hy
      obtain ⟨q, hq, -⟩ := C124_parse chk f p hp
      simp only [parseTwice, hp, bind, Except.bind] at hq
      have hv := mirrors_twice hp hq
      obtain ⟨t, et, ht⟩ := hv.hops hi
      by_cases c1 : hopsLeft f ≤ 1
      · refine ⟨none, ?_, fun h => (nomatch h), fun c => absurd c hnf, fun _ _ _ => ⟨fun _ => rfl, fun c => by omega⟩⟩
        simp only [Router.passTwice, hi, e, hq, bind, Except.bind, Router.forward, et, if_pos (show t.toNat ≤ 1 by omega)]
        rfl
      · obtain ⟨q1, e1, t1, w1, o1, i1⟩ := hv.edit hi r t ht (by omega)
        obtain ⟨L, post, hL, -, -⟩ := hv.front hi
        obtain ⟨-, hlen, -⟩ := v6_type hi
        have h14 := l3At_ge f
        have hm : (r.dst ++ r.src).length = 12 := by rw [List.length_append, hr.1, hr.2]
        obtain ⟨q2, e2, -, -, v2⟩ := putIn_types Ether (fun h => h.set_bytes chk 95 0 (r.dst ++ r.src)) 0 (r.dst ++ r.src) (by
            intro g hg hl
            have hl : g.data.length = 14 := hl
            have := setBytes_put chk g.data 0 (r.dst ++ r.src) (fun h => by rw [h] at hm; cases hm) (by omega) (by omega)
            rw [hm] at this
            simp only [Hdr.set_bytes, this, bind, Except.bind, pure, Except.pure, hg])
          q1 [] (L ++ (if g.v6 then IPv6 else IPv4) :: post) (by rw [t1, hL]; rfl) (by simp) w1 (by rw [hm]; decide)
        simp only [List.map_nil, List.sum_nil, Nat.zero_add] at v2
        obtain ⟨l1, l2, l3⟩ := o1.link (by omega) _ hm
        refine ⟨some q2.to_vec, ?_, fun h => (nomatch h), fun c => absurd c hnf, fun g' hg' _ => ⟨fun c => absurd c c1, fun _ => ?_⟩⟩
        · simp only [Router.passTwice, hi, e, hq, bind, Except.bind, Router.forward, et, if_neg (show ¬ t.toNat ≤ 1 by omega), e1, e2]
          rfl
        · obtain rfl := Option.some.inj hg'
          exact ⟨_, rfl, v2 ▸ l1, v2 ▸ l3, by rw [v2, l2, i1]⟩

/-- What is not fatal is not fatal further on. -/
theorem Spec.Onward.fatal {f f' : Bytes} {t : Nat} {g : Datagram} (h : Onward f f' t) (hi : ipInput f = some g) (hi' : ipInput f' = some g) :
    Fatal f' ↔ Fatal f := by
  obtain ⟨-, e2, -, e4⟩ := h.types
  have : 20 ≤ ipLen f := by unfold ipLen; split <;> omega
  have hd : f'.drop (l3At f' + ipLen f') = f.drop (l3At f + ipLen f) := by rw [e2, e4, h.rest _ (by omega)]
  unfold Fatal
  rw [hi, hi', hd]

/-- **C124, a path.** Whatever comes to a path of such routers, nobody panics; a right datagram that is not fatal arrives behind the last of
them iff nothing fails on the way, unchanged but for link addresses, hops left and header checksum, whatever it carries. -/
theorem C124_path (chk : Bool) (f : Bytes) (rs : List Router) (hr : ∀ r ∈ rs, r.Ok) :
    ∃ x, alongTwice chk rs f = .ok x ∧ (rs ≠ [] → ipInput f = none ∨ Fatal f → x = none) ∧ ∀ g, ipInput f = some g → ¬ Fatal f →
      (Passes f (rs.map (·.own)) → ∃ f', x = some f' ∧ ipInput f' = some g ∧ Onward f f' (hopsLeft f - rs.length) ∧
        ∀ z ∈ rs.getLast?, f'.take 12 = z.dst ++ z.src) ∧
      (¬ Passes f (rs.map (·.own)) → x.bind ipInput = none) := by
  induction rs generalizing f with
  | nil =>
    refine ⟨some f, rfl, fun h => absurd rfl h, fun g hi _ => ⟨fun _ => ⟨f, rfl, hi, ⟨rfl, fun _ _ _ _ => rfl, rfl⟩, by simp⟩, fun h => absurd ?_ h⟩⟩
    exact ⟨fun h => absurd rfl h, by simp⟩
  | cons r rs ih =>
    obtain ⟨x, e, a0, a1, a2⟩ := C124_router chk f r (hr r (by simp))
    have ih := fun f => ih f (fun z hz => hr z (by simp [hz]))
    cases x with
    | none =>
      refine ⟨none, by simp only [alongTwice, e, bind, Except.bind]; rfl, fun _ _ => rfl, fun g hi hn => ⟨fun h => ?_, fun _ => rfl⟩⟩
      obtain ⟨-, b2⟩ := a2 g hi hn
      have := h.1 (by simp)
      simp only [List.length_map, List.length_cons] at this
      obtain ⟨f', hf', -⟩ := b2 (by omega)
      cases hf'
    | some f' =>
      obtain ⟨x, ex, x0, x1⟩ := ih f'
      refine ⟨x, by simp only [alongTwice, e, bind, Except.bind]; exact ex, fun _ h => ?_, fun g hi hn => ?_⟩
      · rcases h with h | h
        · cases a0 h
        · cases a1 h
      · obtain ⟨b1, b2⟩ := a2 g hi hn
        have h1 : 1 < hopsLeft f := by
          refine Decidable.byContradiction fun c => ?_
          cases b1 (by omega)
        obtain ⟨f1, hf1, o, hm, hi'⟩ := b2 h1
        obtain rfl := Option.some.inj hf1
        have hps := o.passes h1 (v6_type hi).2.1 r.own (rs.map (·.own))
        by_cases hc : u16At f (l3At f - 2) = 0x0800 → r.own = true → RefreshRight (ttlHdr f (hopsLeft f - 1)) (ip4Opts f)
        · rw [if_pos hc] at hi'
          obtain ⟨x1, x2⟩ := x1 g hi' (fun h => hn ((o.fatal hi hi').mp h))
          refine ⟨fun h => ?_, fun h => x2 fun h' => h (hps.mpr ⟨hc, h'⟩)⟩
          obtain ⟨f'', y1, y2, y3, y4⟩ := x1 (hps.mp h).2
          refine ⟨f'', y1, y2, ?_, ?_⟩
          · have := o.trans y3
            rwa [o.hops, show hopsLeft f - 1 - rs.length = hopsLeft f - (r :: rs).length by simp only [List.length_cons]; omega] at this
          · cases rs with
            | nil =>
              obtain rfl : some f' = x := Except.ok.inj ex
              obtain rfl := Option.some.inj y1
              intro z hz
              obtain rfl : r = z := by simpa using hz
              exact hm
            | cons a b => exact fun z hz => y4 z (by simpa using hz)
        · rw [if_neg hc] at hi'
          refine ⟨fun h => absurd (hps.mp h).1 hc, fun _ => ?_⟩
          cases rs with
          | nil =>
            obtain rfl : some f' = x := Except.ok.inj ex
            exact hi'
          | cons a b => rw [x0 (by simp) (.inl hi')]; rfl

/-- A datagram with a GRE header with key 0x01020304 and sequence number 9, and two octets in it. -/
def greTwo : Bytes := [2, 0, 0, 0, 0, 1, 2, 0, 0, 0, 0, 2, 8, 0, 69, 0, 0, 34, 0, 1, 0, 0, 64, 47, 102, 170, 10, 0, 0, 1, 10, 0, 0, 2, 48, 0, 101, 88, 1, 2, 3, 4, 0, 0, 0, 9, 7, 8]

/-- **C124, the routers of C111.** They do change what a datagram carries if a GRE header in it has several options. -/
theorem C124_once_changes : ∃ f g f', ipInput f = some g ∧ ¬ Fatal f ∧ hopUpdate.pass true f = .ok (some f') ∧
    (∃ g', ipInput f' = some g' ∧ g'.data ≠ g.data) ∧ ¬ ∃ t, Onward f f' t := by
  obtain ⟨g, hg⟩ : ∃ g, ipInput greTwo = some g := Option.isSome_iff_exists.mp (by decide +kernel)
  have hp : ∃ f', hopUpdate.pass true greTwo = .ok (some f') ∧ (ipInput f').map (·.data) = some (greTwo.drop 34 |>.take 4 |>.append
      [0, 0, 0, 9, 1, 2, 3, 4, 7, 8]) ∧ u8At f' 38 = 0 ∧ u8At greTwo 38 = 1 ∧ l3At greTwo = 14 ∧ u16At greTwo 12 = 0x0800 :=
    ⟨((hopUpdate.pass true greTwo).toOption.bind id).getD [], by decide +kernel⟩
  have hd : (ipInput greTwo).map (·.data) = some (greTwo.drop 34) := by decide +kernel
  obtain ⟨f', e, h1, h2, h3, h4, h5⟩ := hp
  obtain ⟨g', hg', e1⟩ := Option.map_eq_some_iff.mp h1
  rw [hg] at hd
  have hd : g.data = greTwo.drop 34 := Option.some.inj hd
  refine ⟨greTwo, g, f', hg, fun c => ?_, e, ⟨g', hg', ?_⟩, ?_⟩
  · obtain ⟨y, hy⟩ := (C121_station hg true).1.mpr c
    have : (Slow.parse true greTwo).toOption.isSome := by decide +kernel
    rw [hy] at this
    cases this
  · rw [e1, hd]; decide
  · rintro ⟨t, o⟩
    have := o.same 38 (by decide) (by rw [h4, h5]; decide) (.inr (by rw [h4]; decide))
    omega

/-! ## Cases -/

-- the frame is written back after two parses, not after one
example : (parseTwice true greTwo).map Packet.to_vec = .ok greTwo ∧ (Slow.parse true greTwo).map Packet.to_vec ≠ .ok greTwo := by decide +kernel
-- the headers: the options have each other's octets
example : (parseTwice true greTwo).map (fun p => p.hdrs.drop 2) =
    .ok [⟨GRE, [0x30, 0, 0x65, 0x58]⟩, ⟨GRESequenceNum, [1, 2, 3, 4]⟩, ⟨GREKey, [0, 0, 0, 9]⟩] ∧
    (Slow.parse true greTwo).map (fun p => p.hdrs.drop 2) =
    .ok [⟨GRE, [0x30, 0, 0x65, 0x58]⟩, ⟨GRESequenceNum, [0, 0, 0, 9]⟩, ⟨GREKey, [1, 2, 3, 4]⟩] := by decide +kernel
-- through three routers of both kinds
example : (alongTwice true [hopUpdate, hopCrate, hopUpdate] greTwo).map (fun x => x.bind ipInput) = .ok (ipInput greTwo) ∧
    (ipInput greTwo).isSome ∧ hopsLeft greTwo = 64 := by decide +kernel
-- fatal frames are dropped
example : hopUpdate.passTwice true fatalUdp = .ok none ∧ hopUpdate.passTwice true [] = .ok none := by decide +kernel

end PacketRs
