import Verif.Props.Container
import Verif.Props.Parser
import Verif.Props.Fields
import Verif.Lemmas.Pieces
/-!
# C67: a parsed packet is a view of the frame
-/
namespace PacketRs
open Spec

/-- The octets in front of a header that comes after the headers `pre`. -/
def sizes (pre : List Hdr) : Nat := (pre.map fun h => h.ty.size).sum

theorem fieldVal_shift (a d c : Bytes) (lo hi : Nat) (hle : lo ≤ hi) (h : hi < 8 * d.length) :
    fieldVal (a ++ (d ++ c)) (8 * a.length + lo) (8 * a.length + hi) = fieldVal d lo hi := by
  rw [fieldVal_append_right _ _ _ _ (by omega) (by omega) (by simp; omega),
    show 8 * a.length + lo - 8 * a.length = lo by omega, show 8 * a.length + hi - 8 * a.length = hi by omega,
    fieldVal_append_left _ _ _ _ h]

theorem wire_split (pre post : List Hdr) (g : Hdr) (pl : Bytes) :
    (⟨pre ++ g :: post, pl⟩ : Packet).to_vec = (pre.map (·.data)).flatten ++ (g.data ++ ((post.map (·.data)).flatten ++ pl)) := by
  rw [to_vec_eq_wire]
  simp [wire]

theorem sizes_eq {pre : List Hdr} (h : ∀ g ∈ pre, g.data.length = g.ty.size) :
    (pre.map (·.data)).flatten.length = sizes pre := by
  induction pre with
  | nil => rfl
  | cons g pre ih =>
    have h1 := h g (by simp)
    have h2 := ih (fun g hg => h g (by simp [hg]))
    simp only [sizes, List.map_cons, List.flatten_cons, List.length_append, List.sum_cons, h1] at h2 ⊢
    rw [h2]

/-- **C67**, for every packet whose headers have their declared sizes: a getter returns the bits of the serialized
packet at the header's offset. -/
theorem C67_get_serialized (chk : Bool) (p : Packet) (pre post : List Hdr) (g : Hdr) (hs : p.hdrs = pre ++ g :: post)
    (hsz : ∀ x ∈ p.hdrs, x.data.length = x.ty.size) (f : Field) (hin : f.Inside g.ty.size) (hw : f.width ≤ 64) :
    ∃ v, g.get chk f = .ok v ∧ v.toNat = fieldVal p.to_vec (8 * sizes pre + f.lo) (8 * sizes pre + f.hi) := by
  obtain ⟨hd, pl⟩ := p
  subst hs
  have hg : g.data.length = g.ty.size := hsz g (by simp)
  rw [← hg] at hin
  obtain ⟨v, h1, h2, -⟩ := C01_getter_value chk g f hin hw
  refine ⟨v, h1, ?_⟩
  rw [wire_split, ← sizes_eq (pre := pre) (fun x hx => hsz x (by simp [hx])), fieldVal_shift _ _ _ _ _ hin.1 hin.2]
  exact h2

/-- **C67**, for every packet whose headers have their declared sizes: a setter changes the bits of the field at the
header's offset in the serialized packet, and nothing else. -/
theorem C67_set_serialized (p : Packet) (T : HeaderDef) (name : String) (pre post : List Hdr) (g : Hdr)
    (hs : IsFirstNamed p.hdrs name pre g post) (hT : g.ty = T)
    (hsz : ∀ x ∈ p.hdrs, x.data.length = x.ty.size) (f : Field) (hin : f.Inside g.ty.size) (v : U64) :
    ∃ q, p.withHeaderMut T name (fun x => x.set f v) = .ok q ∧ (∀ x ∈ q.hdrs, x.data.length = x.ty.size) ∧
      q.hdrs.map (·.ty) = p.hdrs.map (·.ty) ∧ q.payload = p.payload ∧ q.to_vec.length = p.to_vec.length ∧
      ∀ i, netBit q.to_vec i = if 8 * sizes pre + f.lo ≤ i ∧ i ≤ 8 * sizes pre + f.hi
        then v.getLsbD (8 * sizes pre + f.hi - i) else netBit p.to_vec i := by
  have hp := hs.1
  obtain ⟨hd, pl⟩ := p
  simp only at hp hs hsz
  have hg : g.data.length = g.ty.size := hsz g (by rw [hp]; simp)
  obtain ⟨g', e, ht, hl, hb⟩ := C15_index_mut_set ⟨hd, pl⟩ T name pre post g f v hs hT (by rw [hg]; exact hin)
  have hpre := sizes_eq (pre := pre) (fun x hx => hsz x (by rw [hp]; simp [hx]))
  refine ⟨_, e, ?_, by rw [hp]; simp [ht], rfl, ?_, ?_⟩
  · intro x hx
    simp only [List.mem_append, List.mem_cons] at hx
    rcases hx with hx | rfl | hx
    · exact hsz x (by rw [hp]; simp [hx])
    · rw [hl, ht]; exact hg
    · exact hsz x (by rw [hp]; simp [hx])
  · rw [hp, wire_split, wire_split]; simp [hl]
  · intro i
    rw [hp, wire_split, wire_split]
    generalize (pre.map (·.data)).flatten = A at hpre
    generalize (post.map (·.data)).flatten ++ pl = C
    obtain ⟨h1, h2⟩ := hin
    by_cases hA : i < 8 * A.length
    · rw [netBit_append_left A (g'.data ++ C) _ hA, netBit_append_left A (g.data ++ C) _ hA, if_neg (by omega)]
    · rw [netBit_append_right A (g'.data ++ C) _ (by omega), netBit_append_right A (g.data ++ C) _ (by omega)]
      by_cases hG : i - 8 * A.length < 8 * g.data.length
      · rw [netBit_append_left g'.data _ _ (by omega), netBit_append_left g.data _ _ hG, hb]
        by_cases hin' : f.lo ≤ i - 8 * A.length ∧ i - 8 * A.length ≤ f.hi
        · rw [if_pos hin', if_pos (by omega)]; congr 1; omega
        · rw [if_neg hin', if_neg (by omega)]
      · rw [netBit_append_right g'.data _ _ (by omega), netBit_append_right g.data _ _ (by omega), hl, if_neg (by omega)]

theorem frame_sizes {chk : Bool} {b : Bytes} {p : Packet} (h : Slow.parse chk b = .ok p) :
    ∀ g ∈ p.hdrs, g.data.length = g.ty.size := by
  rw [Slow.parse_eq] at h
  split at h
  · exact nomatch h
  · exact (C24_accounts chk _ b p h).1

/-- **C67**: after parsing a frame (in which no GRE header has two options), every getter of every header returns
the bits of the frame at the offset which the sizes of the headers before give. -/
theorem C67_get (chk : Bool) (b : Bytes) (p : Packet) (h : Slow.parse chk b = .ok p)
    (hg : ∀ g ∈ p.hdrs, g.ty = GRE → greOptCount g.data ≤ 1) (pre post : List Hdr) (g : Hdr)
    (hs : p.hdrs = pre ++ g :: post) (f : Field) (hin : f.Inside g.ty.size) (hw : f.width ≤ 64) :
    ∃ v, g.get chk f = .ok v ∧ v.toNat = fieldVal b (8 * sizes pre + f.lo) (8 * sizes pre + f.hi) := by
  have := C67_get_serialized chk p pre post g hs (frame_sizes h) f hin hw
  rwa [C23_roundtrip_frame chk b p h hg] at this

/-- **C67**: parse a frame (in which no GRE header has two options), set a field of the first header of a given name,
serialize: the result is the frame with the bits of that field changed and nothing else. -/
theorem C67_set (chk : Bool) (b : Bytes) (p : Packet) (h : Slow.parse chk b = .ok p)
    (hg : ∀ g ∈ p.hdrs, g.ty = GRE → greOptCount g.data ≤ 1) (T : HeaderDef) (name : String) (pre post : List Hdr) (g : Hdr)
    (hs : IsFirstNamed p.hdrs name pre g post) (hT : g.ty = T) (f : Field) (hin : f.Inside g.ty.size) (v : U64) :
    ∃ q, p.withHeaderMut T name (fun x => x.set f v) = .ok q ∧ q.to_vec.length = b.length ∧
      ∀ i, netBit q.to_vec i = if 8 * sizes pre + f.lo ≤ i ∧ i ≤ 8 * sizes pre + f.hi
        then v.getLsbD (8 * sizes pre + f.hi - i) else netBit b i := by
  obtain ⟨q, h1, -, -, -, h2, h3⟩ := C67_set_serialized p T name pre post g hs hT (frame_sizes h) f hin v
  rw [C23_roundtrip_frame chk b p h hg] at h2 h3
  exact ⟨q, h1, h2, h3⟩

theorem Slow.parse_layer {chk : Bool} {b : Bytes} {p : Packet} (h : Slow.parse chk b = .ok p) :
    ∃ l, Slow.parseL chk l b = .ok p := by
  rw [Slow.parse_eq] at h
  split at h
  · exact nomatch h
  · exact ⟨_, h⟩

theorem Fast.parse_layer {chk : Bool} {w : Fast.Win} (hb : w.InBounds) {p : Fast.PacketSlice}
    (h : Fast.parse chk w = .ok p) : ∃ l, Fast.parseL chk l w = .ok p := by
  rw [Fast.parse_eq _ _ hb] at h
  split at h
  · exact nomatch h
  · exact ⟨_, h⟩

theorem fieldVal_window (b : Bytes) (off len lo hi : Nat) (hle : lo ≤ hi) (h : hi < 8 * len)
    (hb : off + len ≤ b.length) :
    fieldVal ((b.drop off).take len) lo hi = fieldVal b (8 * off + lo) (8 * off + hi) := by
  have e : b = b.take off ++ ((b.drop off).take len ++ (b.drop off).drop len) := by
    rw [List.take_append_drop, List.take_append_drop]
  have h1 : (b.take off).length = off := by simp; omega
  have h2 : ((b.drop off).take len).length = len := by simp; omega
  have := fieldVal_shift (b.take off) ((b.drop off).take len) ((b.drop off).drop len) lo hi hle (by rw [h2]; exact h)
  rw [← e, h1] at this
  exact this.symm

/-- **C67**, whatever options a GRE header has: the getters of the zero-copy headers return the bits of the frame at
the place where the header lies. -/
theorem C67_get_fast (chk : Bool) (b : Bytes) (p : Fast.PacketSlice) (h : Fast.parse chk (.ofBytes b) = .ok p)
    (g : Fast.SHdr) (hgm : g ∈ p.hdrs) (f : Field) (hin : f.Inside g.ty.size) (hw : f.width ≤ 64) :
    g.win.off + g.ty.size ≤ b.length ∧
    ∃ v, g.get chk f = .ok v ∧ v.toNat = fieldVal b (8 * g.win.off + f.lo) (8 * g.win.off + f.hi) := by
  have hb : (Fast.Win.ofBytes b).InBounds := by simp [Fast.Win.ofBytes, Fast.Win.InBounds]
  obtain ⟨l, h⟩ := Fast.parse_layer hb h
  have hlen := (C27_tiles chk l _ hb p h).1 g hgm
  obtain ⟨i1, i2, i3, hwin⟩ := (C27_in_bounds chk l _ hb p h).1 g.win (List.mem_cons_of_mem _ (List.mem_map_of_mem hgm))
  have hbase : g.win.base = b := i1
  have hend : g.win.off + g.ty.size ≤ b.length := by
    rw [← hlen, ← hbase]; exact hwin
  refine ⟨hend, ?_⟩
  have hg : Fast.SHdr.from g.ty g.win = g := by
    cases g with | mk ty win => cases win; simp only at hlen; simp [Fast.SHdr.from, hlen]
  obtain ⟨-, -, c3, -⟩ := C09_slice_header_agrees g.ty g.win hwin (by omega)
  rw [hg] at c3
  rw [c3]
  have hl : (g.win.bytes.take g.ty.size).length = g.ty.size := by
    rw [List.length_take, g.win.length_bytes hwin]; omega
  obtain ⟨v, h1, h2, -⟩ := C01_getter_value chk (g.ty.ofVec (g.win.bytes.take g.ty.size)) f
    (by show f.Inside (g.win.bytes.take g.ty.size).length; rw [hl]; exact hin) hw
  refine ⟨v, h1, ?_⟩
  rw [h2, ← fieldVal_window b g.win.off g.ty.size f.lo f.hi hin.1 hin.2 hend]
  have : g.win.bytes.take g.ty.size = (b.drop g.win.off).take g.ty.size := by
    rw [Fast.Win.bytes, hbase, List.take_take]; congr 1; omega
  show fieldVal (g.win.bytes.take g.ty.size) _ _ = _
  rw [this]

/-- **C67** for the copying parser, whatever options a GRE header has: every header is a copy of a piece of the frame
of its own; the pieces do not overlap. -/
theorem C67_get_any (chk : Bool) (b : Bytes) (p : Packet) (h : Slow.parse chk b = .ok p) :
    ∃ at' : List (HeaderDef × Nat), at'.map (·.1) = p.hdrs.map (·.ty) ∧
      at'.Pairwise (fun x y => x.2 + x.1.size ≤ y.2 ∨ y.2 + y.1.size ≤ x.2) ∧
      ∀ x ∈ at'.zip p.hdrs, x.1.2 + x.1.1.size ≤ b.length ∧ ∀ f : Field, f.Inside x.1.1.size → f.width ≤ 64 →
        ∃ v, x.2.get chk f = .ok v ∧ v.toNat = fieldVal b (8 * x.1.2 + f.lo) (8 * x.1.2 + f.hi) := by
  have hb : (Fast.Win.ofBytes b).InBounds := by simp [Fast.Win.ofBytes, Fast.Win.InBounds]
  have hbb : (Fast.Win.ofBytes b).bytes = b := by simp [Fast.Win.ofBytes, Fast.Win.bytes]
  have hc := C26_parse chk _ hb
  rw [hbb, h] at hc
  cases hq : Fast.parse chk (.ofBytes b) with
  | error e => rw [hq] at hc; exact nomatch hc
  | ok q =>
    rw [hq] at hc
    injection hc with hc
    subst hc
    obtain ⟨l, hl⟩ := Fast.parse_layer hb hq
    have hsz := (C27_tiles chk l _ hb q hl).1
    have hdis := (C27_in_bounds chk l _ hb q hl).2
    have hobs := fun hp => C26_observations chk l _ hb q q.toPacket hl hp
    rw [← C26_fast_eq_slow chk l _ hb, hl] at hobs
    obtain ⟨-, -, -, hobs⟩ := hobs rfl
    refine ⟨q.hdrs.map fun g => (g.ty, g.win.off), ?_, ?_, ?_⟩
    · simp [Fast.PacketSlice.toPacket, Fast.SHdr.toHdr]
    · rw [List.pairwise_cons] at hdis
      have := hdis.2
      rw [List.pairwise_map] at this ⊢
      refine this.imp_of_mem fun hx hy hxy => ?_
      simp only [← hsz _ hx, ← hsz _ hy]
      exact hxy
    · intro x hx
      obtain ⟨i, hi, rfl⟩ := List.getElem_of_mem hx
      simp only [List.getElem_zip, List.getElem_map]
      have hi' : i < q.hdrs.length := by simp at hi; omega
      have hi2 : i < q.toPacket.hdrs.length := by simp at hi; omega
      refine ⟨?_, ?_⟩
      · have := (C27_in_bounds chk l _ hb q hl).1 _ (List.mem_cons_of_mem _ (List.mem_map_of_mem (List.getElem_mem hi')))
        rw [← hsz _ (List.getElem_mem hi')]
        have e : q.hdrs[i].win.base = b := this.1
        have := this.2.2.2
        unfold Fast.Win.InBounds at this
        rwa [e] at this
      · intro f hf hw
        rw [← (hobs i hi' hi2).2.2.1 chk f]
        exact (C67_get_fast chk b q hq _ (List.getElem_mem hi') f hf hw).2

/-- **C67**, negative: with two GRE options the offset is not the one the headers before give. In a frame with three
options, the sequence number is read from where the checksum would be. -/
theorem C67_gre_order : ∃ b p pre post g v, Slow.parse true b = .ok p ∧ p.hdrs = pre ++ g :: post ∧
    g.get true ⟨"word", 0, 31⟩ = .ok v ∧ v.toNat ≠ fieldVal b (8 * sizes pre) (8 * sizes pre + 31) :=
  ⟨exGre, okPkt (Slow.parse true exGre), (okPkt (Slow.parse true exGre)).hdrs.take 3,
    (okPkt (Slow.parse true exGre)).hdrs.drop 4, ((okPkt (Slow.parse true exGre)).hdrs.drop 3).headD (Ether.ofVec []),
    0x03030303, by decide +kernel, by decide +kernel, by decide +kernel, by decide +kernel⟩

-- in `exFrame`, the Vxlan header has 46 octets before it, and the VNI is read from there
example : let p := okPkt (Slow.parse true exFrame)
    Slow.parse true exFrame = .ok p ∧ (∀ g ∈ p.hdrs, g.ty ≠ GRE) ∧ sizes (p.hdrs.take 4) = 46 ∧
    (p.hdrs.drop 4).head?.map (fun g => (g.ty, g.get true Vxlan.vni)) =
      some (Vxlan, .ok (BitVec.ofNat 64 (fieldVal exFrame (8 * 46 + 32) (8 * 46 + 55)))) := by decide +kernel

-- setting the VLAN id changes octets 14 and 15 of the frame
example : let p := okPkt (Slow.parse true exFrame)
    (p.withHeaderMut Vlan "Vlan" (fun x => x.set Vlan.vid 0xABC#64)).map (·.to_vec) =
      .ok (exFrame.take 14 ++ [0x2A#8, 0xBC#8] ++ exFrame.drop 16) := by decide +kernel

end PacketRs
