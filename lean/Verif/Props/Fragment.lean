import Verif.Spec.Fragment
import Verif.Props.Finish
import Verif.Samples
/-!
# Property C108: cutting datagrams into fragments with the crate

A client cuts the datagram of a frame into fragments, as a router does, and sends each in a packet of its own.  Routers may cut
fragments again; the network may bring frames in any order, more than once, or lose them.
-/
namespace PacketRs
open Spec Utils

/-! ## The client -/

/-- The client copies the link headers of a frame. -/
def linkHdrs (f : Bytes) : List Hdr :=
  ⟨Ether, f.take 14⟩ :: if u16At f 12 = 0x8100 then [⟨Vlan, (f.drop 14).take 4⟩] else []

/-- The client makes one fragment of the datagram in the frame `f`: new headers with the octets of the old ones, flags and offset
set, the octets as payload, length and checksum put right (`finishIp`, C105). -/
def fragment (f : Bytes) (o : Nat) (more : Bool) (c : Bytes) : R Packet := do
  let p := ((linkHdrs f).foldl Packet.push Packet.new).push ⟨IPv4, (f.drop (l3At f)).take 20⟩
  let p ← editField IPv4 IPv4.name IPv4.flags (if more then 1 else 0) p
  let p ← editField IPv4 IPv4.name IPv4.frag_startset (BitVec.ofNat 64 (o / 8)) p
  finishIp (l3At f) (p.set_payload c)

/-- One fragment after the other, of `s` octets each, from octet `o` of the datagram on. -/
def fragments (f : Bytes) (s o : Nat) (more : Bool) (d : Bytes) : R (List Packet) :=
  if d.length ≤ s ∨ s = 0 then do
    let p ← fragment f o more d
    pure [p]
  else do
    let p ← fragment f o true (d.take s)
    let ps ← fragments f s (o + s) more (d.drop s)
    pure (p :: ps)
termination_by d.length
decreasing_by simp only [List.length_drop]; omega

/-- The client cuts the datagram or fragment in the frame `f`; its length, flags and offset are read with the getters of the crate. -/
def fragmentAll (chk : Bool) (s : Nat) (f : Bytes) : R (List Packet) := do
  let ip : Hdr := ⟨IPv4, (f.drop (l3At f)).take 20⟩
  let len ← ip.get chk IPv4.total_len
  let fl ← ip.get chk IPv4.flags
  let off ← ip.get chk IPv4.frag_startset
  fragments f s (8 * off.toNat) (fl.toNat % 2 = 1) (((f.drop (l3At f)).take len.toNat).drop 20)

/-! ## Putting together -/

/-- The fragment is one of the datagram `D`. -/
def PieceOf (D : Bytes) (p : Piece) : Prop :=
  p.off + p.data.length ≤ D.length ∧ p.data = (D.drop p.off).take p.data.length ∧
    (p.more = false → p.off + p.data.length = D.length)

theorem mapM_none {α β : Type} {g : α → Option β} {l : List α} (h : ∃ x ∈ l, g x = none) : l.mapM g = none := by
  induction l with
  | nil => simp at h
  | cons a l ih =>
    rw [List.mapM_cons]
    cases e : g a with
    | none => rfl
    | some y =>
      obtain ⟨x, hx, hg⟩ := h
      rcases List.mem_cons.1 hx with rfl | hx
      · rw [hg] at e; cases e
      · rw [ih ⟨x, hx, hg⟩]; rfl

theorem mapM_some {α β : Type} {g : α → Option β} {k : α → β} {l : List α} (h : ∀ x ∈ l, g x = some (k x)) :
    l.mapM g = some (l.map k) := by
  induction l with
  | nil => rfl
  | cons a l ih =>
    rw [List.mapM_cons, h a (by simp), ih fun x hx => h x (by simp [hx])]; rfl

theorem octetOf_eq {D : Bytes} {ps : List Piece} (h : ∀ p ∈ ps, PieceOf D p) (i : Nat) :
    octetOf ps i = if ∃ p ∈ ps, p.off ≤ i ∧ i < p.off + p.data.length then some (D.getD i 0#8) else none := by
  unfold octetOf
  cases e : ps.find? (fun p => decide (p.off ≤ i ∧ i < p.off + p.data.length)) with
  | none =>
    rw [if_neg]
    · rfl
    · rintro ⟨p, hp, hc⟩
      have := List.find?_eq_none.1 e p hp
      simp [hc] at this
  | some p =>
    have hm := List.mem_of_find?_eq_some e
    have hc := List.find?_some e
    simp only [decide_eq_true_eq] at hc
    rw [if_pos ⟨p, hm, hc⟩]
    simp only [Option.map_some, Option.some.injEq]
    obtain ⟨h1, h2, -⟩ := h p hm
    rw [h2]
    simp only [List.getD_eq_getElem?_getD, List.getElem?_take, List.getElem?_drop]
    rw [if_pos (by omega), show p.off + (i - p.off) = i by omega]

theorem range_map_getD (D : Bytes) : (List.range D.length).map (fun i => D.getD i 0#8) = D := by
  refine List.ext_getElem (by simp) fun i h1 h2 => ?_
  simp [h2]

theorem reassemble_eq {D : Bytes} {ps : List Piece} (h : ∀ p ∈ ps, PieceOf D p) :
    reassemble ps = if (∃ p ∈ ps, p.more = false) ∧ ∀ i, i < D.length → ∃ p ∈ ps, p.off ≤ i ∧ i < p.off + p.data.length
      then some D else none := by
  unfold reassemble
  cases e : ps.find? (fun p => decide (p.more = false)) with
  | none =>
    rw [if_neg]
    · rfl
    · rintro ⟨⟨p, hp, hc⟩, -⟩
      have := List.find?_eq_none.1 e p hp
      simp [hc] at this
  | some l =>
    have hm := List.mem_of_find?_eq_some e
    have hc : l.more = false := by simpa using List.find?_some e
    simp only [Option.bind_some, (h l hm).2.2 hc]
    by_cases hall : ∀ i, i < D.length → ∃ p ∈ ps, p.off ≤ i ∧ i < p.off + p.data.length
    · rw [if_pos ⟨⟨l, hm, hc⟩, hall⟩, mapM_some (k := fun i => D.getD i 0#8), range_map_getD]
      intro i hi
      rw [octetOf_eq h, if_pos (hall i (List.mem_range.1 hi))]
    · rw [if_neg fun h => hall h.2]
      simp only [Classical.not_forall] at hall
      obtain ⟨i, hi, hn⟩ := hall
      exact mapM_none ⟨i, List.mem_range.2 hi, by rw [octetOf_eq h, if_neg hn]⟩

/-! ## Cutting -/

/-- What there is to know of a fragment of a fragment. -/
theorem cutUp_mem (s : Nat) (k : FragKey) (D : Bytes) (hs : 0 < s) (h8 : s % 8 = 0) : ∀ (d : Bytes) (o : Nat) (more : Bool)
    (_ : PieceOf D ⟨k, o, more, d⟩) (_ : o % 8 = 0), ∀ x ∈ cutUp s k o more d, x.key = k ∧ PieceOf D x ∧ x.off % 8 = 0 ∧
      x.data.length ≤ s ∧ o ≤ x.off ∧ x.off + x.data.length ≤ o + d.length ∧ (d ≠ [] → x.data ≠ []) := by
  intro d
  induction hn : d.length using Nat.strongRecOn generalizing d with
  | _ n ih =>
    intro o more hp ho x hx
    subst hn
    unfold cutUp at hx
    split at hx
    · next c =>
      obtain rfl := List.mem_singleton.1 hx
      exact ⟨rfl, hp, ho, by simp only; omega, by simp, by simp, fun h => h⟩
    · next c =>
      obtain ⟨p1, p2, p3⟩ := hp
      simp only at p1 p2 p3
      have hlt : (d.take s).length = s := by rw [List.length_take]; omega
      rcases List.mem_cons.1 hx with rfl | hx
      · refine ⟨rfl, ⟨?_, ?_, fun h => by cases h⟩, ho, by simp only [hlt]; omega, by simp, ?_, fun _ h => ?_⟩
        · simp only [hlt]; omega
        · simp only [hlt]
          rw [p2, List.take_take, Nat.min_eq_left (by omega)]
        · simp only [hlt]; omega
        · simp only at h
          rw [h] at hlt
          simp at hlt; omega
      · have hpc : PieceOf D ⟨k, o + s, more, d.drop s⟩ := by
          refine ⟨?_, ?_, fun h => ?_⟩
          · simp only [List.length_drop]; omega
          · simp only [List.length_drop]
            conv_lhs => rw [p2]
            rw [List.drop_take, List.drop_drop]
          · have := p3 h
            simp only [List.length_drop]; omega
        obtain ⟨a1, a2, a3, a4, a5, a6, a7⟩ := ih (d.drop s).length (by rw [List.length_drop]; omega) (d.drop s) rfl (o + s) more hpc
          (by omega) x hx
        rw [List.length_drop] at a6
        refine ⟨a1, a2, a3, a4, by omega, by omega, fun _ => a7 fun h => ?_⟩
        have := congrArg List.length h
        simp only [List.length_drop, List.length_nil] at this
        omega

/-- The fragments have all octets, and one of them is the last if the whole was. -/
theorem cutUp_covers (s : Nat) (k : FragKey) : ∀ (d : Bytes) (o : Nat) (more : Bool),
    (∀ i, o ≤ i → i < o + d.length → ∃ x ∈ cutUp s k o more d, x.off ≤ i ∧ i < x.off + x.data.length) ∧
    ∃ x ∈ cutUp s k o more d, x.more = more := by
  intro d
  induction hn : d.length using Nat.strongRecOn generalizing d with
  | _ n ih =>
    intro o more
    subst hn
    unfold cutUp
    split
    · exact ⟨fun i h1 h2 => ⟨_, List.mem_singleton.2 rfl, h1, h2⟩, _, List.mem_singleton.2 rfl, rfl⟩
    · next c =>
      obtain ⟨a1, x, hx, hm⟩ := ih (d.drop s).length (by rw [List.length_drop]; omega) (d.drop s) rfl (o + s) more
      refine ⟨fun i h1 h2 => ?_, x, List.mem_cons_of_mem _ hx, hm⟩
      by_cases hi : i < o + s
      · refine ⟨_, List.mem_cons_self, h1, ?_⟩
        simp only [List.length_take]; omega
      · obtain ⟨x, hx, h⟩ := a1 i (by omega) (by rw [List.length_drop]; omega)
        exact ⟨x, List.mem_cons_of_mem _ hx, h⟩

/-- They do not overlap. -/
theorem cutUp_apart (s : Nat) (k : FragKey) (D : Bytes) (hs : 0 < s) (h8 : s % 8 = 0) : ∀ (d : Bytes) (o : Nat) (more : Bool)
    (_ : PieceOf D ⟨k, o, more, d⟩) (_ : o % 8 = 0),
    (cutUp s k o more d).Pairwise fun x y => x.off + x.data.length ≤ y.off := by
  intro d
  induction hn : d.length using Nat.strongRecOn generalizing d with
  | _ n ih =>
    intro o more hp ho
    subst hn
    unfold cutUp
    split
    · exact List.pairwise_singleton _ _
    · next c =>
      obtain ⟨p1, p2, p3⟩ := hp
      simp only at p1 p2 p3
      have hpc : PieceOf D ⟨k, o + s, more, d.drop s⟩ := by
        refine ⟨?_, ?_, fun h => ?_⟩
        · simp only [List.length_drop]; omega
        · simp only [List.length_drop]
          conv_lhs => rw [p2]
          rw [List.drop_take, List.drop_drop]
        · have := p3 h
          simp only [List.length_drop]; omega
      refine List.pairwise_cons.2 ⟨fun y hy => ?_, ih _ (by rw [List.length_drop]; omega) (d.drop s) rfl (o + s) more hpc (by omega)⟩
      have := (cutUp_mem s k D hs h8 (d.drop s) (o + s) more hpc (by omega) y hy).2.2.2.2.1
      simp only [List.length_take]; omega

/-- How many there are. -/
theorem cutUp_length (s : Nat) (k : FragKey) (hs : 0 < s) : ∀ (d : Bytes) (o : Nat) (more : Bool), d ≠ [] →
    (cutUp s k o more d).length = (d.length + s - 1) / s := by
  intro d
  induction hn : d.length using Nat.strongRecOn generalizing d with
  | _ n ih =>
    intro o more hd
    subst hn
    have hpos : 0 < d.length := List.length_pos_iff.2 hd
    unfold cutUp
    split
    · next c =>
      rw [List.length_singleton]
      refine (Nat.div_eq_of_lt_le ?_ ?_).symm <;> omega
    · next c =>
      have hne : d.drop s ≠ [] := by
        intro h
        have := congrArg List.length h
        simp only [List.length_drop, List.length_nil] at this
        omega
      rw [List.length_cons, ih _ (by rw [List.length_drop]; omega) (d.drop s) rfl _ _ hne, List.length_drop]
      rw [show d.length + s - 1 = (d.length - s + s - 1) + s by omega, Nat.add_div_right _ hs]

/-! ## One fragment -/

theorem pair_be16 (x y : Byte) : be16 (x ++ y) = [x, y] := by
  simp only [be16, List.cons.injEq, and_true]
  constructor
  · apply BitVec.eq_of_getLsbD_eq
    intro i hi
    simp only [BitVec.getLsbD_setWidth, BitVec.getLsbD_ushiftRight, BitVec.getLsbD_append, hi, decide_true, Bool.true_and]
    rw [if_neg (by omega)]
    congr 1; omega
  · apply BitVec.eq_of_getLsbD_eq
    intro i hi
    simp only [BitVec.getLsbD_setWidth, BitVec.getLsbD_append, hi, decide_true, Bool.true_and, if_true]

/-- Twenty octets that begin with version 4 and five words are a header the builders could have made. -/
theorem header_raw (b : Bytes) (hb : b.length = 20) (h4 : u8At b 0 / 16 = 4) (h5 : u8At b 0 % 16 = 5) :
    ∃ a : Ip4, ∃ len c : U16, a.Ok ∧ a.ihl = 0x05#8 ∧ b = a.raw len c := by
  match b, hb with
  | [b0, b1, b2, b3, b4, b5, b6, b7, b8, b9, b10, b11, b12, b13, b14, b15, b16, b17, b18, b19], _ =>
    refine ⟨⟨0x05#8, b1, b4 ++ b5, b8, b6 ++ b7, b9, [b12, b13, b14, b15], [b16, b17, b18, b19]⟩, b2 ++ b3, b10 ++ b11, ⟨rfl, rfl⟩,
      rfl, ?_⟩
    have h0 : b0 = 0x45#8 := by
      simp only [u8At, List.getD_cons_zero] at h4 h5
      apply BitVec.eq_of_toNat_eq
      simp only [BitVec.toNat_ofNat]
      omega
    simp only [Ip4.raw, ipv4Raw, pair_be16, h0]
    rfl

/-- The header with other flags and offset. -/
def Ip4.withFrag (a : Ip4) (w : U16) : Ip4 := { a with frag := w }

theorem netBit_raw (a : Ip4) (len c : U16) (j : Nat) (hj : j < 16) : netBit (a.raw len c) (48 + j) = a.frag.getLsbD (15 - j) := by
  have e : a.raw len c = ([0x40#8 ||| a.ihl] ++ [a.tos] ++ be16 len ++ be16 a.id) ++ (be16 a.frag ++ ([a.ttl] ++ [a.proto] ++ be16 c ++ a.src ++ a.dst)) := by
    simp [Ip4.raw, ipv4Raw]
  rw [e, netBit_append_right _ _ _ (by simp), netBit_append_left _ _ _ (by simp [be16]; omega)]
  have h := netBit_num16 (a.frag.setWidth 64) j hj
  rw [num16_be16] at h
  rw [show (a.frag.setWidth 64).setWidth 16 = a.frag from by
    apply BitVec.eq_of_toNat_eq; simp only [BitVec.toNat_setWidth]; have := a.frag.isLt; omega, BitVec.getLsbD_setWidth] at h
  rw [show 48 + j - 8 * ([0x40#8 ||| a.ihl] ++ [a.tos] ++ be16 len ++ be16 a.id : Bytes).length = j by simp [be16], h,
    decide_eq_true (by omega : 15 - j < 64), Bool.true_and]

theorem raw_frag (a : Ip4) (len c w : U16) : putAt (a.raw len c) 6 (be16 w) = (a.withFrag w).raw len c := by
  simp [Ip4.raw, ipv4Raw, putAt, be16, Ip4.withFrag]

theorem raw_other (a : Ip4) (ha : a.Ok) (len c w : U16) (i : Nat) (hi : i < 48 ∨ 64 ≤ i) :
    netBit ((a.withFrag w).raw len c) i = netBit (a.raw len c) i := by
  have h20 := a.raw_length ha len c
  rw [← raw_frag]
  unfold putAt
  have hta : ((a.raw len c).take 6).length = 6 := by rw [List.length_take]; omega
  rcases hi with hi | hi
  · rw [netBit_append_left _ _ _ (by omega), netBit_take, decide_eq_true (by omega), Bool.true_and]
  · rw [netBit_append_right _ _ _ (by omega), netBit_append_right _ _ _ (by rw [be16_length]; omega), netBit_drop, be16_length, hta]
    congr 1; omega

theorem frag_bit (F G : U64) (w : U16) (hw : w.toNat = F.toNat % 8 * 8192 + G.toNat % 8192) (m : Nat) :
    w.getLsbD m = if m < 13 then G.getLsbD m else (decide (m - 13 < 3) && F.getLsbD (m - 13)) := by
  have h2 : F.toNat % 8 * 8192 + G.toNat % 8192 = 2 ^ 13 * (F.toNat % 2 ^ 3) + G.toNat % 2 ^ 13 := by omega
  rw [← BitVec.testBit_toNat, hw, h2, Nat.testBit_two_pow_mul_add _ (Nat.mod_lt _ (by decide)), Nat.testBit_mod_two_pow,
    Nat.testBit_mod_two_pow, BitVec.testBit_toNat, BitVec.testBit_toNat]
  by_cases c : m < 13
  · rw [if_pos c, if_pos c, decide_eq_true c, Bool.true_and]
  · rw [if_neg c, if_neg c]

/-- Flags and offset, as the client sets them. -/
theorem set_frag (a : Ip4) (ha : a.Ok) (len c : U16) (F G : U64) (w : U16)
    (hw : w.toNat = F.toNat % 8 * 8192 + G.toNat % 8192) :
    ∃ h1, (⟨IPv4, a.raw len c⟩ : Hdr).set IPv4.flags F = .ok h1 ∧ h1.ty = IPv4 ∧
      h1.set IPv4.frag_startset G = .ok ⟨IPv4, (a.withFrag w).raw len c⟩ := by
  have h20 := a.raw_length ha len c
  have h20' := (a.withFrag w).raw_length ha len c
  obtain ⟨h1, e1, t1, l1, b1⟩ := set_bits ⟨IPv4, a.raw len c⟩ IPv4.flags F ⟨by decide, by simp only [h20]; decide⟩
  obtain ⟨h2, e2, t2, l2, b2⟩ := set_bits h1 IPv4.frag_startset G ⟨by decide, by rw [l1]; simp only [h20]; decide⟩
  refine ⟨h1, e1, t1, ?_⟩
  rw [e2]
  obtain ⟨ty, d⟩ := h2
  simp only at t1 t2 l1 l2 b1 b2
  rw [t1] at t2
  subst t2
  congr 2
  apply eq_of_netBit
  · rw [l2, l1, h20, h20']
  · intro i hi
    rw [b2 i, b1 i]
    simp only [show IPv4.frag_startset.lo = 51 from rfl, show IPv4.frag_startset.hi = 63 from rfl, show IPv4.flags.lo = 48 from rfl,
      show IPv4.flags.hi = 50 from rfl]
    have hbit := frag_bit F G w hw
    by_cases c1 : 51 ≤ i ∧ i ≤ 63
    · rw [if_pos c1]
      have := netBit_raw (a.withFrag w) len c (i - 48) (by omega)
      rw [show 48 + (i - 48) = i by omega] at this
      rw [this, show (a.withFrag w).frag = w from rfl, hbit, if_pos (by omega)]
      congr 1; omega
    · rw [if_neg c1]
      by_cases c2 : 48 ≤ i ∧ i ≤ 50
      · rw [if_pos c2]
        have := netBit_raw (a.withFrag w) len c (i - 48) (by omega)
        rw [show 48 + (i - 48) = i by omega] at this
        rw [this, show (a.withFrag w).frag = w from rfl, hbit, if_neg (by omega), decide_eq_true (by omega), Bool.true_and,
          show 15 - (i - 48) - 13 = 50 - i by omega]
      · rw [if_neg c2]
        exact (raw_other a ha len c w i (by omega)).symm

/-- Flags and offset, as the client reads them. -/
theorem get_frag (chk : Bool) (a : Ip4) (ha : a.Ok) (len c : U16) :
    (∃ v, (⟨IPv4, a.raw len c⟩ : Hdr).get chk IPv4.flags = .ok v ∧ v.toNat = a.frag.toNat / 8192) ∧
    (∃ v, (⟨IPv4, a.raw len c⟩ : Hdr).get chk IPv4.frag_startset = .ok v ∧ v.toNat = a.frag.toNat % 8192) ∧
    ∃ v, (⟨IPv4, a.raw len c⟩ : Hdr).get chk IPv4.total_len = .ok v ∧ v.toNat = len.toNat := by
  have h20 := a.raw_length ha len c
  refine ⟨?_, ?_, ?_⟩
  · obtain ⟨v, e, h⟩ := C01_getter_bits chk ⟨IPv4, a.raw len c⟩ IPv4.flags ⟨by decide, by simp only [h20]; decide⟩ (by decide)
    refine ⟨v, e, Nat.eq_of_testBit_eq fun j => ?_⟩
    rw [BitVec.testBit_toNat, h j, show 8192 = 2 ^ 13 from rfl, Nat.testBit_div_two_pow, BitVec.testBit_toNat]
    simp only [show IPv4.flags.width = 3 from rfl, show IPv4.flags.hi = 50 from rfl]
    by_cases hj : j < 3
    · have := netBit_raw a len c (2 - j) (by omega)
      rw [show 48 + (2 - j) = 50 - j by omega] at this
      rw [decide_eq_true hj, Bool.true_and, this]
      congr 1; omega
    · rw [decide_eq_false hj, Bool.false_and, BitVec.getLsbD_of_ge _ _ (by omega)]
  · obtain ⟨v, e, h⟩ := C01_getter_bits chk ⟨IPv4, a.raw len c⟩ IPv4.frag_startset ⟨by decide, by simp only [h20]; decide⟩ (by decide)
    refine ⟨v, e, Nat.eq_of_testBit_eq fun j => ?_⟩
    rw [BitVec.testBit_toNat, h j, show 8192 = 2 ^ 13 from rfl, Nat.testBit_mod_two_pow, BitVec.testBit_toNat]
    simp only [show IPv4.frag_startset.width = 13 from rfl, show IPv4.frag_startset.hi = 63 from rfl]
    by_cases hj : j < 13
    · have := netBit_raw a len c (15 - j) (by omega)
      rw [show 48 + (15 - j) = 63 - j by omega] at this
      rw [decide_eq_true hj, Bool.true_and, this, Bool.true_and]
      congr 1; omega
    · rw [decide_eq_false hj, Bool.false_and, Bool.false_and]
  · have := get_u16 chk IPv4 (a.raw len c) IPv4.total_len 2 (by omega) rfl rfl
    refine ⟨_, this, ?_⟩
    have h2 := (raw_u8 a ha len c []).2.1
    rw [List.append_nil] at h2
    rw [h2, BitVec.toNat_ofNat]
    have := len.isLt
    omega

/-- What a host takes from a header and octets after it. -/
theorem ip4Piece_raw (a : Ip4) (ha : a.Ok) (hi : a.ihl = 0x05#8) (len c : U16) (seg : Bytes) (h20 : 20 ≤ len.toNat)
    (hl : len.toNat ≤ 20 + seg.length) (hv : Verifies (a.raw len c)) :
    ip4Piece (a.raw len c ++ seg) = some ⟨⟨a.id.toNat, a.proto.toNat, a.src, a.dst⟩, 8 * (a.frag.toNat % 8192),
      a.frag.toNat / 8192 % 2 = 1, seg.take (len.toNat - 20)⟩ := by
  obtain ⟨r1, r2, r3, r4, r5, r6⟩ := raw_u8 a ha len c seg
  have hr := a.raw_length ha len c
  have hh : ihl (a.raw len c ++ seg) 0 = 20 := by rw [ihl, r1, hi]; rfl
  have hid : u16At (a.raw len c ++ seg) 4 = a.id.toNat := by
    have := be16_num a.id
    simpa [Ip4.raw, ipv4Raw, be16, u16At, u8At] using this
  unfold ip4Piece
  rw [hh, r1, r2, r3, r4, r5, r6, hid, List.length_append, hr, List.take_left' hr,
    if_pos ⟨by omega, by rw [hi]; rfl, by omega, by omega, by omega, hv⟩, List.take_append, hr, List.take_of_length_le (by omega),
    List.drop_left' hr]

/-- Without options the header of a frame with a fragment is one the builders could have made. -/
theorem pieceOf_raw {f : Bytes} {p : Piece} (h : pieceOf f = some p) (ho : NoOptions f) :
    ∃ a : Ip4, ∃ len c : U16, ∃ seg, a.Ok ∧ a.ihl = 0x05#8 ∧ linkInput f = some (0x0800, a.raw len c ++ seg) ∧
      f.drop (l3At f) = a.raw len c ++ seg ∧ 20 ≤ len.toNat ∧ len.toNat ≤ 20 + seg.length ∧ Verifies (a.raw len c) ∧
      p = ⟨⟨a.id.toNat, a.proto.toNat, a.src, a.dst⟩, 8 * (a.frag.toNat % 8192), a.frag.toNat / 8192 % 2 = 1,
        seg.take (len.toNat - 20)⟩ := by
  unfold pieceOf at h
  rw [linkInput_eq] at h ⊢
  by_cases c : f.length < l3At f
  · rw [if_pos c] at h; cases h
  rw [if_neg c] at h ⊢
  simp only at h
  obtain ⟨he, h⟩ := Option.ite_none_right_eq_some.mp h
  have hih : ihl (f.drop (l3At f)) 0 = 20 := by
    have := ho he
    rw [ihl, u8At_drop_add, Nat.add_zero]
    exact this
  rw [he]
  generalize f.drop (l3At f) = b at h hih ⊢
  have h' := h
  unfold ip4Piece at h'
  obtain ⟨⟨c1, c2, c3, c4, c5, c6⟩, -⟩ := Option.ite_none_right_eq_some.mp h'
  rw [hih] at c4 c6
  have hl : (b.take 20).length = 20 := by rw [List.length_take]; omega
  obtain ⟨a, len, ck, ha, hai, e⟩ := header_raw (b.take 20) hl (by rw [u8At_take _ _ _ (by decide)]; exact c2)
    (by rw [u8At_take _ _ _ (by decide)]; rw [ihl] at hih; omega)
  have hb : b = a.raw len ck ++ b.drop 20 := by rw [← e, List.take_append_drop]
  have hlen : u16At b 2 = len.toNat := by rw [hb]; exact (raw_u8 a ha len ck _).2.1
  refine ⟨a, len, ck, b.drop 20, ha, hai, by rw [← hb], hb, by omega, by rw [List.length_drop]; omega, by rw [← e]; exact c6, ?_⟩
  have := ip4Piece_raw a ha hai len ck (b.drop 20) (by omega) (by rw [List.length_drop]; omega) (by rw [← e]; exact c6)
  rw [← hb] at this
  exact Option.some.inj (h.symm.trans this)

theorem flatten_link (f : Bytes) : ((linkHdrs f).map (·.data)).flatten = f.take (l3At f) := by
  unfold linkHdrs
  unfold l3At
  split
  · simp only [List.map_cons, List.map_nil, List.flatten_cons, List.flatten_nil, List.append_nil]
    rw [show 18 = 14 + 4 from rfl, List.take_add]
  · simp only [List.map_cons, List.map_nil, List.flatten_cons, List.flatten_nil, List.append_nil]

theorem push_all (l : List Hdr) : ∀ p : Packet, l.foldl Packet.push p = ⟨p.hdrs ++ l, p.payload⟩ := by
  induction l with
  | nil => intro p; simp
  | cons a l ih => intro p; rw [List.foldl_cons, ih]; simp [Packet.push]

/-- A fragment is made, and it is the fragment it should be. -/
theorem fragment_ok {f : Bytes} {p : Piece} (h : pieceOf f = some p) (ho : NoOptions f) (o : Nat) (more : Bool) (d : Bytes)
    (h8 : o % 8 = 0) (h16 : o < 65536) (hd : 20 + d.length < 65536) :
    ∃ q, fragment f o more d = .ok q ∧ pieceOf q.to_vec = some ⟨p.key, o, more, d⟩ ∧ NoOptions q.to_vec ∧
      q.to_vec.length = l3At f + 20 + d.length ∧ q.to_vec.take (l3At f) = f.take (l3At f) := by
  obtain ⟨a, len, c, seg, ha, hai, hli, hdr, k1, k2, k3, rfl⟩ := pieceOf_raw h ho
  have h20 := a.raw_length ha len c
  have hlen : l3At f ≤ f.length := by
    rw [linkInput_eq] at hli
    by_cases c : f.length < l3At f
    · rw [if_pos c] at hli; cases hli
    · omega
  have htl : (f.take (l3At f)).length = l3At f := by rw [List.length_take]; omega
  let F : U64 := if more then 1 else 0
  let G : U64 := BitVec.ofNat 64 (o / 8)
  let w : U16 := BitVec.ofNat 16 ((if more then 8192 else 0) + o / 8)
  have hwn : w.toNat = (if more then 8192 else 0) + o / 8 := by
    simp only [w, BitVec.toNat_ofNat]
    cases more <;> simp <;> omega
  have hw : w.toNat = F.toNat % 8 * 8192 + G.toNat % 8192 := by
    rw [hwn]
    simp only [F, G, BitVec.toNat_ofNat]
    cases more <;> simp <;> omega
  obtain ⟨h1, s1, s2, s3⟩ := set_frag a ha len c F G w hw
  have hpre : ∀ y ∈ linkHdrs f, y.name ≠ IPv4.name := by
    intro y hy
    unfold linkHdrs at hy
    split at hy
    · simp only [List.mem_cons, List.not_mem_nil, or_false] at hy
      rcases hy with rfl | rfl <;> simp only [Hdr.name] <;> decide
    · simp only [List.mem_cons, List.not_mem_nil, or_false] at hy
      subst hy
      simp only [Hdr.name]
      decide
  have e1 := edit_at IPv4 IPv4.flags F (linkHdrs f) [] ⟨IPv4, a.raw len c⟩ h1 [] hpre rfl s1
  have e2 := edit_at IPv4 IPv4.frag_startset G (linkHdrs f) [] h1 _ [] hpre s2 s3
  have e3 := finishIp_eq (l3At f) (linkHdrs f) [] d (a.withFrag w) ha len c hpre (by rw [flatten_link, htl])
  simp only [onWire, List.map_nil, List.flatten_nil, List.nil_append] at e3
  let l : U16 := BitVec.ofNat 16 (20 + d.length)
  have hl : l.toNat = 20 + d.length := by simp only [l, BitVec.toNat_ofNat]; omega
  refine ⟨⟨linkHdrs f ++ [⟨IPv4, (a.withFrag w).raw l (rightCk (a.withFrag w) l)⟩], d⟩, ?_, ?_⟩
  · unfold fragment
    rw [hdr, List.take_left' h20, push_all]
    simp only [Packet.new, Packet.push, List.nil_append]
    rw [show (if more then (1 : U64) else 0) = F from rfl, e1]
    simp only [R.ok_bind]
    rw [e2]
    simp only [R.ok_bind, Packet.set_payload, List.nil_append]
    exact e3
  · have hv : (⟨linkHdrs f ++ [⟨IPv4, (a.withFrag w).raw l (rightCk (a.withFrag w) l)⟩], d⟩ : Packet).to_vec =
        f.take (l3At f) ++ ((a.withFrag w).raw l (rightCk (a.withFrag w) l) ++ d) := by
      rw [wire_split, flatten_link]
      rfl
    have h20' := (a.withFrag w).raw_length ha l (rightCk (a.withFrag w) l)
    have hpc := ip4Piece_raw (a.withFrag w) ha hai l (rightCk (a.withFrag w) l) d (by omega) (by omega) (rightCk_verifies _ _)
    rw [hv]
    have hl3 : l3At (f.take (l3At f) ++ ((a.withFrag w).raw l (rightCk (a.withFrag w) l) ++ d)) = l3At f := by
      have h14 := l3At_ge f
      have : u16At (f.take (l3At f) ++ ((a.withFrag w).raw l (rightCk (a.withFrag w) l) ++ d)) 12 = u16At f 12 := by
        rw [u16At_append_left _ _ _ (by omega), u16At_take _ _ _ (by omega)]
      unfold l3At at this ⊢
      rw [this]
    refine ⟨?_, ?_, ?_, List.take_left' htl⟩
    · unfold pieceOf
      rw [linkInput_front hli]
      simp only [if_true]
      rw [hpc, hl, show 20 + d.length - 20 = d.length by omega, List.take_length]
      simp only [Ip4.withFrag, hwn]
      congr 2
      · cases more <;> simp <;> omega
      · cases more <;> simp <;> omega
    · intro _
      rw [hl3, ihl, u8At_append_right _ _ _ (by omega), htl, Nat.sub_self, (raw_u8 (a.withFrag w) ha l _ d).1]
      rw [show (a.withFrag w).ihl = 0x05#8 from hai]
      rfl
    · rw [List.length_append, List.length_append, htl, h20']; omega

/-! ## All of them -/

theorem fragments_ok {f : Bytes} {p : Piece} (h : pieceOf f = some p) (ho : NoOptions f) (s : Nat) (h8 : s % 8 = 0) :
    ∀ (d : Bytes) (o : Nat) (more : Bool), o % 8 = 0 → o + d.length + 20 < 65536 →
    ∃ ps, fragments f s o more d = .ok ps ∧ ps.map (fun q => pieceOf q.to_vec) = (cutUp s p.key o more d).map some ∧
      ∀ q ∈ ps, NoOptions q.to_vec ∧ q.to_vec.take (l3At f) = f.take (l3At f) ∧
        ∀ x, pieceOf q.to_vec = some x → q.to_vec.length = l3At f + 20 + x.data.length := by
  intro d
  induction hn : d.length using Nat.strongRecOn generalizing d with
  | _ n ih =>
    intro o more h1 h2
    subst hn
    unfold fragments cutUp
    by_cases c : d.length ≤ s ∨ s = 0
    · rw [if_pos c, if_pos c]
      obtain ⟨q, e1, e2, e3, e4, e5⟩ := fragment_ok h ho o more d h1 (by omega) (by omega)
      refine ⟨[q], by rw [e1]; rfl, by simp [e2], fun q' hq => ?_⟩
      obtain rfl := List.mem_singleton.1 hq
      refine ⟨e3, e5, fun x hx => ?_⟩
      obtain rfl := Option.some.inj (e2.symm.trans hx)
      exact e4
    · rw [if_neg c, if_neg c]
      have hlt : (d.take s).length = s := by rw [List.length_take]; omega
      obtain ⟨q, e1, e2, e3, e4, e5⟩ := fragment_ok h ho o true (d.take s) h1 (by omega) (by omega)
      obtain ⟨ps, g1, g2, g3⟩ := ih (d.drop s).length (by rw [List.length_drop]; omega) (d.drop s) rfl (o + s) more (by omega)
        (by rw [List.length_drop]; omega)
      refine ⟨q :: ps, by rw [e1, g1]; rfl, by simp [e2, g2], fun q' hq => ?_⟩
      rcases List.mem_cons.1 hq with rfl | hq
      · refine ⟨e3, e5, fun x hx => ?_⟩
        obtain rfl := Option.some.inj (e2.symm.trans hx)
        exact e4
      · exact g3 q' hq

theorem cutUp_small (s : Nat) (k : FragKey) (hs : 0 < s) (d : Bytes) (o : Nat) (more : Bool) : ∀ x ∈ cutUp s k o more d, x.data.length ≤ s := by
  induction hn : d.length using Nat.strongRecOn generalizing d o with
  | _ n ih =>
    intro x hx
    subst hn
    unfold cutUp at hx
    split at hx
    · obtain rfl := List.mem_singleton.1 hx
      simp only; omega
    · rcases List.mem_cons.1 hx with rfl | hx
      · simp only [List.length_take]; omega
      · exact ih _ (by rw [List.length_drop]; omega) (d.drop s) _ rfl x hx

/-- **C108**: the client cuts a datagram, or a fragment, without a panic: the fragments it sends are the ones of RFC 791 (`cutUp`), in
that order, each in a frame with the link headers of the old one that is no longer than `s` octets of data allow. -/
theorem C108_fragment (chk : Bool) (s : Nat) (hs : 0 < s) (h8 : s % 8 = 0) (f : Bytes) (p : Piece) (h : pieceOf f = some p)
    (ho : NoOptions f) (hl : p.off + p.data.length + 20 < 65536) :
    ∃ ps, fragmentAll chk s f = .ok ps ∧
      ps.map (fun q => pieceOf q.to_vec) = (cutUp s p.key p.off p.more p.data).map some ∧
      (p.data ≠ [] → ps.length = (p.data.length + s - 1) / s) ∧
      ∀ q ∈ ps, NoOptions q.to_vec ∧ q.to_vec.take (l3At f) = f.take (l3At f) ∧ q.to_vec.length ≤ l3At f + 20 + s := by
  obtain ⟨a, len, c, seg, ha, hai, hli, hdr, k1, k2, k3, rfl⟩ := pieceOf_raw h ho
  have h20 := a.raw_length ha len c
  obtain ⟨⟨v1, e1, w1⟩, ⟨v2, e2, w2⟩, v3, e3, w3⟩ := get_frag chk a ha len c
  simp only at hl
  obtain ⟨ps, g1, g2, g3⟩ := fragments_ok h ho s h8 (seg.take (len.toNat - 20)) (8 * (a.frag.toNat % 8192))
    (decide (a.frag.toNat / 8192 % 2 = 1)) (by omega) hl
  refine ⟨ps, ?_, g2, fun hne => ?_, fun q hq => ?_⟩
  · unfold fragmentAll
    simp only [hdr, List.take_left' h20]
    rw [e3]
    simp only [R.ok_bind]
    rw [e1]
    simp only [R.ok_bind]
    rw [e2]
    simp only [R.ok_bind]
    rw [w1, w2, w3, ← g1, List.take_append, h20, List.take_of_length_le (by omega), List.drop_left' h20]
  · have := congrArg List.length g2
    rw [List.length_map, List.length_map, cutUp_length _ _ hs _ _ _ hne] at this
    exact this
  · obtain ⟨b1, b2, b3⟩ := g3 q hq
    refine ⟨b1, b2, ?_⟩
    have hm : pieceOf q.to_vec ∈ ps.map (fun q => pieceOf q.to_vec) := List.mem_map.2 ⟨q, hq, rfl⟩
    rw [g2] at hm
    obtain ⟨x, hx, he⟩ := List.mem_map.1 hm
    have := b3 x he.symm
    have := cutUp_small _ _ hs _ _ _ x hx
    omega

/-! ## The network -/

/-- What may become of frames on the way, for the fragments with key `k`.  `deliver`: frames come in any order, any number of times, with
other link headers, another time to live and so on (as long as the fragment is the same one), together with any frames with other keys,
or with none; if `loss`, some do not come.  `cut`: somebody with the crate cuts one of them. -/
inductive Carried (chk : Bool) (k : FragKey) (loss : Bool) : List Bytes → List Bytes → Prop
  | deliver (fs fs' : List Bytes) (h : ∀ f' ∈ fs', ∀ p, pieceOf f' = some p → p.key = k → ∃ f ∈ fs, pieceOf f = some p)
      (h' : loss = false → ∀ f ∈ fs, ∀ p, pieceOf f = some p → p.key = k → ∃ f' ∈ fs', pieceOf f' = some p) : Carried chk k loss fs fs'
  | cut (l r : List Bytes) (f : Bytes) (p : Piece) (s : Nat) (ps : List Packet) (hp : pieceOf f = some p) (hk : p.key = k)
      (ho : NoOptions f) (hs : 0 < s) (h8 : s % 8 = 0) (h : fragmentAll chk s f = .ok ps) :
      Carried chk k loss (l ++ f :: r) (l ++ ps.map Packet.to_vec ++ r)
  | trans (fs fs' fs'' : List Bytes) (h : Carried chk k loss fs fs') (h' : Carried chk k loss fs' fs'') : Carried chk k loss fs fs''

/-- All fragments with key `k` are of the datagram `D`. -/
def Sound (k : FragKey) (D : Bytes) (fs : List Bytes) : Prop := ∀ f ∈ fs, ∀ p, pieceOf f = some p → p.key = k → PieceOf D p

/-- None is missing. -/
def NoneMissing (k : FragKey) (D : Bytes) (fs : List Bytes) : Prop :=
  (∃ f ∈ fs, ∃ p, pieceOf f = some p ∧ p.key = k ∧ p.more = false) ∧
  ∀ i, i < D.length → ∃ f ∈ fs, ∃ p, pieceOf f = some p ∧ p.key = k ∧ p.off ≤ i ∧ i < p.off + p.data.length

theorem off_mod {f : Bytes} {p : Piece} (h : pieceOf f = some p) : p.off % 8 = 0 := by
  unfold pieceOf at h
  split at h
  · obtain ⟨-, h⟩ := Option.ite_none_right_eq_some.mp h
    unfold ip4Piece at h
    obtain ⟨-, h⟩ := Option.ite_none_right_eq_some.mp h
    obtain rfl := Option.some.inj h
    simp only; omega
  · cases h

theorem cut_pieces {chk : Bool} {s : Nat} {D : Bytes} {f : Bytes} {p : Piece} {ps : List Packet} (hD : D.length + 20 < 65536)
    (hp : pieceOf f = some p) (ho : NoOptions f) (hs : 0 < s) (h8 : s % 8 = 0) (hpo : PieceOf D p) (h : fragmentAll chk s f = .ok ps) :
    ps.map (fun q => pieceOf q.to_vec) = (cutUp s p.key p.off p.more p.data).map some := by
  obtain ⟨ps', e, h2, -⟩ := C108_fragment chk s hs h8 f p hp ho (by have := hpo.1; omega)
  obtain rfl := Except.ok.inj (h.symm.trans e)
  exact h2

theorem carried_sound {chk : Bool} {k : FragKey} {loss : Bool} {D : Bytes} (hD : D.length + 20 < 65536) {fs fs' : List Bytes}
    (h : Carried chk k loss fs fs') : Sound k D fs → Sound k D fs' := by
  induction h with
  | deliver fs fs' h _ =>
    intro hs f' hf p hp hk
    obtain ⟨f, hf, e⟩ := h f' hf p hp hk
    exact hs f hf p e hk
  | trans _ _ _ _ _ ih ih' => exact fun h => ih' (ih h)
  | cut l r f p s ps hp hk ho hs h8 h =>
    intro hsd f' hf' x hx hxk
    have hpo := hsd f (by simp) p hp hk
    have hc := cut_pieces hD hp ho hs h8 hpo h
    simp only [List.mem_append] at hf'
    rcases hf' with (hf' | hf') | hf'
    · exact hsd f' (by simp [hf']) x hx hxk
    · obtain ⟨q, hq, rfl⟩ := List.mem_map.1 hf'
      have hm : pieceOf q.to_vec ∈ ps.map (fun q => pieceOf q.to_vec) := List.mem_map.2 ⟨q, hq, rfl⟩
      rw [hc, hx] at hm
      obtain ⟨y, hy, he⟩ := List.mem_map.1 hm
      obtain rfl := Option.some.inj he
      exact (cutUp_mem s p.key D hs h8 p.data p.off p.more hpo (off_mod hp) y hy).2.1
    · exact hsd f' (by simp [hf']) x hx hxk

theorem carried_whole {chk : Bool} {k : FragKey} {D : Bytes} (hD : D.length + 20 < 65536) {fs fs' : List Bytes}
    (h : Carried chk k false fs fs') : Sound k D fs → NoneMissing k D fs → NoneMissing k D fs' := by
  induction h with
  | deliver fs fs' h h' =>
    rintro - ⟨⟨f, hf, p, hp, hk, hm⟩, ha⟩
    refine ⟨?_, fun i hi => ?_⟩
    · obtain ⟨f', hf', e⟩ := h' rfl f hf p hp hk
      exact ⟨f', hf', p, e, hk, hm⟩
    · obtain ⟨f, hf, p, hp, hk, hm⟩ := ha i hi
      obtain ⟨f', hf', e⟩ := h' rfl f hf p hp hk
      exact ⟨f', hf', p, e, hk, hm⟩
  | trans _ _ _ h _ ih ih' => exact fun a b => ih' (carried_sound hD h a) (ih a b)
  | cut l r f p s ps hp hk ho hs h8 h =>
    intro hsd hw
    have hpo := hsd f (by simp) p hp hk
    have hc := cut_pieces hD hp ho hs h8 hpo h
    obtain ⟨cv1, cv2⟩ := cutUp_covers s p.key p.data p.off p.more
    have key : ∀ x ∈ cutUp s p.key p.off p.more p.data, ∃ f' ∈ l ++ ps.map Packet.to_vec ++ r, pieceOf f' = some x ∧ x.key = k := by
      intro x hx
      have hm : some x ∈ ps.map (fun q => pieceOf q.to_vec) := by rw [hc]; exact List.mem_map.2 ⟨x, hx, rfl⟩
      obtain ⟨q, hq, he⟩ := List.mem_map.1 hm
      refine ⟨q.to_vec, by simp only [List.mem_append, List.mem_map]; exact Or.inl (Or.inr ⟨q, hq, rfl⟩), he, ?_⟩
      rw [← hk]
      exact (cutUp_mem s p.key D hs h8 p.data p.off p.more hpo (off_mod hp) x hx).1
    obtain ⟨⟨f0, hf0, p0, e0, k0, m0⟩, ha⟩ := hw
    refine ⟨?_, fun i hi => ?_⟩
    · simp only [List.mem_append, List.mem_cons] at hf0
      rcases hf0 with hf0 | rfl | hf0
      · exact ⟨f0, by simp [hf0], p0, e0, k0, m0⟩
      · obtain rfl := Option.some.inj (hp.symm.trans e0)
        obtain ⟨x, hx, hxm⟩ := cv2
        obtain ⟨f', hf', e, ek⟩ := key x hx
        exact ⟨f', hf', x, e, ek, by rw [hxm]; exact m0⟩
      · exact ⟨f0, by simp [hf0], p0, e0, k0, m0⟩
    · obtain ⟨f0, hf0, p0, e0, k0, m1, m2⟩ := ha i hi
      simp only [List.mem_append, List.mem_cons] at hf0
      rcases hf0 with hf0 | rfl | hf0
      · exact ⟨f0, by simp [hf0], p0, e0, k0, m1, m2⟩
      · obtain rfl := Option.some.inj (hp.symm.trans e0)
        obtain ⟨x, hx, hc⟩ := cv1 i m1 m2
        obtain ⟨f', hf', e, ek⟩ := key x hx
        exact ⟨f', hf', x, e, ek, hc⟩
      · exact ⟨f0, by simp [hf0], p0, e0, k0, m1, m2⟩

open Classical in
theorem assembled_eq {k : FragKey} {D : Bytes} {fs : List Bytes} (h : Sound k D fs) :
    assembled fs k = if NoneMissing k D fs then some ⟨false, k.proto, k.src, k.dst, D⟩ else none := by
  unfold assembled
  have hs : ∀ p ∈ (fs.filterMap pieceOf).filter (fun p => decide (p.key = k)), PieceOf D p := by
    intro p hp
    obtain ⟨hp, hk⟩ := List.mem_filter.1 hp
    obtain ⟨f, hf, e⟩ := List.mem_filterMap.1 hp
    exact h f hf p e (by simpa using hk)
  have hm : ∀ P : Piece → Prop, (∃ p ∈ (fs.filterMap pieceOf).filter (fun p => decide (p.key = k)), P p) ↔
      ∃ f ∈ fs, ∃ p, pieceOf f = some p ∧ p.key = k ∧ P p := by
    intro P
    constructor
    · rintro ⟨p, hp, hP⟩
      obtain ⟨hp, hk⟩ := List.mem_filter.1 hp
      obtain ⟨f, hf, e⟩ := List.mem_filterMap.1 hp
      exact ⟨f, hf, p, e, by simpa using hk, hP⟩
    · rintro ⟨f, hf, p, e, hk, hP⟩
      exact ⟨p, List.mem_filter.2 ⟨List.mem_filterMap.2 ⟨f, hf, e⟩, by simpa using hk⟩, hP⟩
  rw [reassemble_eq hs]
  by_cases c : NoneMissing k D fs
  · rw [if_pos c, if_pos ⟨(hm _).2 c.1, fun i hi => (hm _).2 (c.2 i hi)⟩]
    rfl
  · rw [if_neg c, if_neg fun h => c ⟨(hm _).1 h.1, fun i hi => (hm _).1 (h.2 i hi)⟩]
    rfl

theorem sound_one {f : Bytes} {k : FragKey} {D : Bytes} (h : pieceOf f = some ⟨k, 0, false, D⟩) : Sound k D [f] := by
  intro f' hf p hp _
  obtain rfl := List.mem_singleton.1 hf
  obtain rfl := Option.some.inj (h.symm.trans hp)
  exact ⟨by simp, by simp, fun _ => by simp⟩

theorem whole_one {f : Bytes} {k : FragKey} {D : Bytes} (h : pieceOf f = some ⟨k, 0, false, D⟩) : NoneMissing k D [f] :=
  ⟨⟨f, by simp, _, h, rfl, rfl⟩, fun i hi => ⟨f, by simp, _, h, rfl, by simp, by simpa using hi⟩⟩

theorem whole_len {f : Bytes} {p : Piece} (h : pieceOf f = some p) : p.data.length + 20 < 65536 := by
  unfold pieceOf at h
  split at h
  · obtain ⟨-, h⟩ := Option.ite_none_right_eq_some.mp h
    unfold ip4Piece at h
    obtain ⟨c, h⟩ := Option.ite_none_right_eq_some.mp h
    obtain rfl := Option.some.inj h
    simp only [List.length_drop, List.length_take]
    have := u16At_lt ‹Bytes› 2
    omega
  · cases h

/-- **C108**: an IPv4 datagram that a host hands on is a fragment with offset 0 that is the last, and the other way round. -/
theorem C108_whole (f : Bytes) (k : FragKey) (D : Bytes) (h : pieceOf f = some ⟨k, 0, false, D⟩) :
    ipInput f = some ⟨false, k.proto, k.src, k.dst, D⟩ := by
  unfold pieceOf at h
  unfold ipInput
  split at h
  · next et b he =>
    rw [he]
    obtain ⟨c, h⟩ := Option.ite_none_right_eq_some.mp h
    simp only [if_pos c]
    unfold ip4Piece at h
    obtain ⟨⟨c1, c2, c3, c4, c5, c6⟩, h⟩ := Option.ite_none_right_eq_some.mp h
    have h := Option.some.inj h
    simp only [Piece.mk.injEq, decide_eq_false_iff_not] at h
    obtain ⟨rfl, h2, h3, rfl⟩ := h
    unfold ip4Input
    rw [if_pos ⟨c1, c2, c3, c4, c5, c6, by omega⟩]
  · cases h

@[inherit_doc C108_whole]
theorem C108_whole_conv (f : Bytes) (g : Datagram) (h : ipInput f = some g) (h4 : g.v6 = false) :
    ∃ k, k.proto = g.proto ∧ k.src = g.src ∧ k.dst = g.dst ∧ pieceOf f = some ⟨k, 0, false, g.data⟩ := by
  unfold ipInput at h
  unfold pieceOf
  split at h
  · next et b he =>
    rw [he]
    simp only
    split at h
    · next c =>
      rw [if_pos c]
      unfold ip4Input at h
      obtain ⟨⟨c1, c2, c3, c4, c5, c6, c7⟩, h⟩ := Option.ite_none_right_eq_some.mp h
      obtain rfl := Option.some.inj h
      refine ⟨⟨u16At b 4, u8At b 9, (b.drop 12).take 4, (b.drop 16).take 4⟩, rfl, rfl, rfl, ?_⟩
      unfold ip4Piece
      rw [if_pos ⟨c1, c2, c3, c4, c5, c6⟩]
      congr 2
      · omega
      · simp; omega
    · obtain ⟨-, h⟩ := Option.ite_none_right_eq_some.mp h
      unfold ip6Input at h
      obtain ⟨-, h⟩ := Option.ite_none_right_eq_some.mp h
      obtain rfl := Option.some.inj h
      cases h4
  · cases h

/-- **C108**: however often its fragments are cut, in whatever order and however often they come, and among whatever frames with other
keys: if nothing is lost, the host gets the datagram of the frame the client had. -/
theorem C108_arrives (chk : Bool) (f : Bytes) (k : FragKey) (D : Bytes) (h : pieceOf f = some ⟨k, 0, false, D⟩) (fs : List Bytes)
    (hc : Carried chk k false [f] fs) : assembled fs k = ipInput f := by
  rw [assembled_eq (carried_sound (whole_len h) hc (sound_one h)), if_pos (carried_whole (whole_len h) hc (sound_one h) (whole_one h)),
    C108_whole f k D h]

/-- **C108**: if some are lost, the host gets that datagram or none. -/
theorem C108_never_wrong (chk loss : Bool) (f : Bytes) (k : FragKey) (D : Bytes) (h : pieceOf f = some ⟨k, 0, false, D⟩)
    (fs : List Bytes) (hc : Carried chk k loss [f] fs) : assembled fs k = none ∨ assembled fs k = ipInput f := by
  rw [assembled_eq (carried_sound (whole_len h) hc (sound_one h)), C108_whole f k D h]
  by_cases c : NoneMissing k D fs
  · rw [if_pos c]; exact Or.inr rfl
  · rw [if_neg c]; exact Or.inl rfl

theorem pairwise_either {α : Type} {R : α → α → Prop} {l : List α} (h : l.Pairwise R) {x y : α} (hx : x ∈ l) (hy : y ∈ l) :
    x = y ∨ R x y ∨ R y x := by
  induction h with
  | nil => cases hx
  | cons ha _ ih =>
    rcases List.mem_cons.1 hx with ex | hx' <;> rcases List.mem_cons.1 hy with ey | hy'
    · exact Or.inl (ex.trans ey.symm)
    · subst ex; exact Or.inr (Or.inl (ha y hy'))
    · subst ey; exact Or.inr (Or.inr (ha x hx'))
    · exact ih hx' hy'

/-- **C108**: of the fragments of a datagram with data the host needs every one. -/
theorem C108_all_needed (chk : Bool) (s : Nat) (hs : 0 < s) (h8 : s % 8 = 0) (f : Bytes) (k : FragKey) (D : Bytes)
    (h : pieceOf f = some ⟨k, 0, false, D⟩) (ho : NoOptions f) (hD : D ≠ []) (ps : List Packet) (hf : fragmentAll chk s f = .ok ps)
    (fs : List Bytes) (hfs : ∀ f' ∈ fs, ∀ p, pieceOf f' = some p → p.key = k → ∃ q ∈ ps, pieceOf q.to_vec = some p) :
    assembled fs k = ipInput f ↔ ∀ q ∈ ps, ∃ f' ∈ fs, pieceOf f' = pieceOf q.to_vec := by
  have hpo : PieceOf D ⟨k, 0, false, D⟩ := ⟨by simp, by simp, fun _ => by simp⟩
  have hc := cut_pieces (whole_len h) h ho hs h8 hpo hf
  simp only at hc
  have hq : ∀ q ∈ ps, ∃ x ∈ cutUp s k 0 false D, pieceOf q.to_vec = some x := by
    intro q hq
    have hm : pieceOf q.to_vec ∈ ps.map (fun q => pieceOf q.to_vec) := List.mem_map.2 ⟨q, hq, rfl⟩
    rw [hc] at hm
    obtain ⟨x, hx, he⟩ := List.mem_map.1 hm
    exact ⟨x, hx, he.symm⟩
  have hx : ∀ x ∈ cutUp s k 0 false D, ∃ q ∈ ps, pieceOf q.to_vec = some x := by
    intro x hx
    have hm : some x ∈ ps.map (fun q => pieceOf q.to_vec) := by rw [hc]; exact List.mem_map.2 ⟨x, hx, rfl⟩
    obtain ⟨q, hq, he⟩ := List.mem_map.1 hm
    exact ⟨q, hq, he⟩
  have hmem := cutUp_mem s k D hs h8 D 0 false hpo rfl
  have hsd : Sound k D fs := by
    intro f' hf' p hp hk
    obtain ⟨q, hq', e⟩ := hfs f' hf' p hp hk
    obtain ⟨x, hx, e'⟩ := hq q hq'
    obtain rfl := Option.some.inj (e.symm.trans e')
    exact (hmem _ hx).2.1
  rw [assembled_eq hsd, C108_whole f k D h]
  constructor
  · intro e q hq'
    have hw : NoneMissing k D fs := by
      by_contra c
      rw [if_neg c] at e; cases e
    obtain ⟨x, hx', ex⟩ := hq q hq'
    obtain ⟨m1, m2, m3, m4, m5, m6, m7⟩ := hmem x hx'
    have hne := List.length_pos_iff.2 (m7 hD)
    obtain ⟨f', hf', p, hp, hk, c1, c2⟩ := hw.2 x.off (by omega)
    obtain ⟨q2, hq2, e2⟩ := hfs f' hf' p hp hk
    obtain ⟨y, hy, ey⟩ := hq q2 hq2
    obtain rfl := Option.some.inj (e2.symm.trans ey)
    refine ⟨f', hf', ?_⟩
    rw [hp, ex]
    have hap := cutUp_apart s k D hs h8 D 0 false hpo rfl
    by_contra hneq
    have hneq : p ≠ x := fun e => hneq (by rw [e])
    obtain ⟨n1, n2, n3, n4, n5, n6, n7⟩ := hmem p hy
    have hnp := List.length_pos_iff.2 (n7 hD)
    rcases pairwise_either hap hy hx' with h | h | h
    · exact hneq h
    · omega
    · omega
  · intro ha
    have hin : ∀ x ∈ cutUp s k 0 false D, ∃ f' ∈ fs, pieceOf f' = some x := by
      intro x hx'
      obtain ⟨q, hq', e⟩ := hx x hx'
      obtain ⟨f', hf', e'⟩ := ha q hq'
      exact ⟨f', hf', e'.trans e⟩
    obtain ⟨cv1, x, hx', cv2⟩ := cutUp_covers s k D 0 false
    rw [if_pos]
    refine ⟨?_, fun i hi => ?_⟩
    · obtain ⟨f', hf', e⟩ := hin x hx'
      exact ⟨f', hf', x, e, (hmem x hx').1, cv2⟩
    · obtain ⟨x, hx', h1⟩ := cv1 i (by omega) (by omega)
      obtain ⟨f', hf', e⟩ := hin x hx'
      exact ⟨f', hf', x, e, (hmem x hx').1, h1⟩

/-- **C108**: so UDP gives a program what it would have got from the frame itself. -/
theorem C108_udp (chk : Bool) (f : Bytes) (k : FragKey) (D : Bytes) (h : pieceOf f = some ⟨k, 0, false, D⟩) (fs : List Bytes)
    (hc : Carried chk k false [f] fs) : (assembled fs k).bind udpInput = hostUdp f ∧ (assembled fs k).bind tcpInput = hostTcp f := by
  rw [C108_arrives chk f k D h fs hc]
  exact ⟨rfl, rfl⟩

theorem mem_pieces {ps : List Packet} {xs : List Piece} (h : ps.map (fun q => pieceOf q.to_vec) = xs.map some) (x : Piece) :
    x ∈ xs ↔ ∃ q ∈ ps, pieceOf q.to_vec = some x := by
  have : some x ∈ xs.map some ↔ x ∈ xs := by simp
  rw [← this, ← h, List.mem_map]

/-- **C108**: the identification has to differ.  If two datagrams have the same key, the first fragment of the one and the others of the
other make a datagram that nobody sent. -/
theorem C108_same_key (chk : Bool) (s : Nat) (hs : 0 < s) (h8 : s % 8 = 0) (f f' : Bytes) (k : FragKey) (D D' : Bytes)
    (h : pieceOf f = some ⟨k, 0, false, D⟩) (h' : pieceOf f' = some ⟨k, 0, false, D'⟩) (ho : NoOptions f) (ho' : NoOptions f')
    (hl : s < D.length) (hl' : s < D'.length) (ps ps' : List Packet) (hp : fragmentAll chk s f = .ok ps)
    (hp' : fragmentAll chk s f' = .ok ps') :
    assembled ((ps.take 1 ++ ps'.drop 1).map Packet.to_vec) k = some ⟨false, k.proto, k.src, k.dst, D.take s ++ D'.drop s⟩ := by
  have hc := cut_pieces (whole_len h) h ho hs h8 ⟨by simp, by simp, fun _ => by simp⟩ hp
  have hc' := cut_pieces (whole_len h') h' ho' hs h8 ⟨by simp, by simp, fun _ => by simp⟩ hp'
  simp only at hc hc'
  unfold cutUp at hc hc'
  rw [if_neg (by omega), List.map_cons] at hc hc'
  have ht := congrArg (List.take 1) hc
  have hd := congrArg (List.drop 1) hc'
  rw [← List.map_take, List.take_succ_cons, List.take_zero] at ht
  rw [← List.map_drop, List.drop_succ_cons, List.drop_zero] at hd
  have hall : (ps.take 1 ++ ps'.drop 1).map (fun q => pieceOf q.to_vec) =
      ((⟨k, 0, true, D.take s⟩ : Piece) :: cutUp s k (0 + s) false (D'.drop s)).map some := by
    rw [List.map_append, ht, hd]; rfl
  have hm := mem_pieces hall
  have hts : (D.take s).length = s := by rw [List.length_take]; omega
  have hpo : PieceOf (D.take s ++ D'.drop s) ⟨k, 0 + s, false, D'.drop s⟩ := by
    refine ⟨?_, ?_, fun _ => ?_⟩
    · simp only [List.length_append, hts]; omega
    · simp only [Nat.zero_add]
      rw [List.drop_left' hts, List.take_length]
    · simp only [List.length_append, hts]; omega
  have hmem := cutUp_mem s k (D.take s ++ D'.drop s) hs h8 (D'.drop s) (0 + s) false hpo (by omega)
  have hsd : Sound k (D.take s ++ D'.drop s) ((ps.take 1 ++ ps'.drop 1).map Packet.to_vec) := by
    intro g hg p hgp hk
    obtain ⟨q, hq, rfl⟩ := List.mem_map.1 hg
    rcases List.mem_cons.1 ((hm p).2 ⟨q, hq, hgp⟩) with rfl | hx
    · refine ⟨?_, ?_, fun h => by cases h⟩
      · simp only [List.length_append, hts]; omega
      · simp only [hts, List.drop_zero]
        rw [List.take_left' hts]
    · exact (hmem p hx).2.1
  rw [assembled_eq hsd, if_pos]
  obtain ⟨cv1, x, hx, cv2⟩ := cutUp_covers s k (D'.drop s) (0 + s) false
  have hin : ∀ x, x ∈ (⟨k, 0, true, D.take s⟩ : Piece) :: cutUp s k (0 + s) false (D'.drop s) →
      ∃ g ∈ (ps.take 1 ++ ps'.drop 1).map Packet.to_vec, pieceOf g = some x := by
    intro x hx
    obtain ⟨q, hq, e⟩ := (hm x).1 hx
    exact ⟨_, List.mem_map.2 ⟨q, hq, rfl⟩, e⟩
  refine ⟨?_, fun i hi => ?_⟩
  · obtain ⟨g, hg, e⟩ := hin x (List.mem_cons_of_mem _ hx)
    exact ⟨g, hg, x, e, (hmem x hx).1, cv2⟩
  · rw [List.length_append, hts] at hi
    by_cases c : i < s
    · obtain ⟨g, hg, e⟩ := hin _ List.mem_cons_self
      exact ⟨g, hg, _, e, rfl, by simp, by simp only [hts]; omega⟩
    · obtain ⟨x, hx, hc⟩ := cv1 i (by omega) (by omega)
      obtain ⟨g, hg, e⟩ := hin x (List.mem_cons_of_mem _ hx)
      exact ⟨g, hg, x, e, (hmem x hx).1, hc⟩

/-! ## Samples -/

/-- A frame with VLAN tag and a UDP datagram of 33 octets; its identification is 0x1234. -/
def fragSample (x : Byte) : Bytes :=
  (Sample.get (create_udp_packet true Sample.mac1 Sample.mac2 true 10 3 5 Sample.ip1 Sample.ip2 1 64 0x1234 0 [] 53 1234 true
    (List.replicate 25 x))).to_vec

def fragSampleKey : FragKey := ⟨0x1234, 17, [10#8, 0#8, 0#8, 1#8], [192#8, 168#8, 0#8, 2#8]⟩

/-- The frames of the packets. -/
def fragFrames (x : R (List Packet)) : List Bytes := match x with | .ok ps => ps.map Packet.to_vec | .error _ => []

-- the hypotheses of the theorems hold: it is a whole datagram, without options
example : pieceOf (fragSample 7#8) = some ⟨fragSampleKey, 0, false,
      [4#8, 210#8, 0#8, 53#8, 0#8, 33#8, 0#8, 0#8] ++ List.replicate 25 7#8⟩ ∧ NoOptions (fragSample 7#8) ∧
    (hostUdp (fragSample 7#8)).isSome = true := by
  refine ⟨by decide +kernel, fun _ => by decide +kernel, by decide +kernel⟩

-- it is cut into three fragments, two of 16 octets and one of 1; the second is cut again into two of 8
example : ((fragFrames (fragmentAll true 16 (fragSample 7#8))).filterMap pieceOf).map (fun p => (p.off, p.more, p.data.length)) =
      [(0, true, 16), (16, true, 16), (32, false, 1)] ∧
    ((fragFrames (fragmentAll true 16 (fragSample 7#8))).map fun f =>
      ((fragFrames (fragmentAll true 8 f)).filterMap pieceOf).map fun p => (p.off, p.more, p.data.length)) =
      [[(0, true, 8), (8, true, 8)], [(16, true, 8), (24, true, 8)], [(32, false, 1)]] := by decide +kernel

-- they come in the wrong order, one twice, and the host has the datagram; without the second it has none
example :
    let fs := fragFrames (fragmentAll true 16 (fragSample 7#8))
    let gs := fragFrames (fragmentAll true 8 (fs.getD 1 []))
    assembled ([fs.getD 2 []] ++ gs.reverse ++ gs ++ [fs.getD 0 []]) fragSampleKey = ipInput (fragSample 7#8) ∧
    assembled [fs.getD 2 [], fs.getD 0 []] fragSampleKey = none := by decide +kernel

-- and this is what `Carried` means
example :
    let fs := fragFrames (fragmentAll true 16 (fragSample 7#8))
    Carried true fragSampleKey false [fragSample 7#8] fs.reverse := by
  obtain ⟨ps, h⟩ : ∃ ps, fragmentAll true 16 (fragSample 7#8) = .ok ps := by
    obtain ⟨ps, h, -⟩ := C108_fragment true 16 (by decide) (by decide) (fragSample 7#8) ⟨fragSampleKey, 0, false,
      [4#8, 210#8, 0#8, 53#8, 0#8, 33#8, 0#8, 0#8] ++ List.replicate 25 7#8⟩ (by decide +kernel) (fun _ => by decide +kernel) (by decide)
    exact ⟨ps, h⟩
  simp only [fragFrames, h]
  refine .trans _ _ _ (.cut [] [] (fragSample 7#8) _ 16 ps (by decide +kernel : _ = some ⟨fragSampleKey, 0, false,
    [4#8, 210#8, 0#8, 53#8, 0#8, 33#8, 0#8, 0#8] ++ List.replicate 25 7#8⟩) rfl (fun _ => by decide +kernel) (by decide) (by decide) h) ?_
  refine .deliver _ _ (fun f' hf p hp _ => ⟨f', ?_, hp⟩) (fun _ f hf p hp _ => ⟨f, ?_, hp⟩)
  · simpa using hf
  · simpa using hf

-- two datagrams with the same identification, each with a fragment lost: UDP hands on data nobody sent, the builder sends no UDP checksum
example :
    let fs := fragFrames (fragmentAll true 16 (fragSample 7#8))
    let gs := fragFrames (fragmentAll true 16 (fragSample 9#8))
    ((assembled (fs.take 1 ++ gs.drop 1) fragSampleKey).bind udpInput).map (·.data) = some (List.replicate 8 7#8 ++ List.replicate 17 9#8) := by
  decide +kernel

end PacketRs
