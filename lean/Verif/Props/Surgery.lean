import Verif.Props.Nest
import Verif.Lemmas.Build
import Verif.Lemmas.Walk
/-!
# Property C71: editing the header stack of a parsed packet is cutting and pasting octets of the frame

The programs here are written by a user of the crate: calls of `remove`, `insert`, the lookups, getters and setters.
-/
namespace PacketRs
open Spec

/-- `for _ in 0..n { pkt.remove(i) }` -/
def removeN (p : Packet) (i : Nat) : Nat → R Packet
  | 0 => pure p
  | n + 1 => do
    let p ← p.remove i
    removeN p i n

/-- Take out the VLAN tag after the Ethernet header:
`let v: Vlan = (&pkt["Vlan"]).into(); let t = v.etype(); pkt.remove(1);`
`let e: &mut Ether = (&mut pkt["Ether"]).into(); e.set_etype(t);` -/
def untag (chk : Bool) (p : Packet) : R Packet := do
  let v ← p.indexName "Vlan"
  if v.ty ≠ Vlan then throw .downcast
  let t ← v.get chk Vlan.etype
  let p ← p.remove 1
  p.withHeaderMut Ether "Ether" fun e => e.set Ether.etype t

/-- Put a VLAN tag after the Ethernet header:
`let mut e: Ether = (&pkt["Ether"]).into(); let t = e.etype(); pkt.remove(0);`
`pkt.insert(Packet::vlan(pcp, 0, vid, t as u16)); e.set_etype(0x8100); pkt.insert(e);`
(`e` shares its storage only with the header that is removed.) -/
def tag (chk : Bool) (pcp : Byte) (vid : U16) (p : Packet) : R Packet := do
  let e ← p.indexName "Ether"
  if e.ty ≠ Ether then throw .downcast
  let t ← e.get chk Ether.etype
  let p ← p.remove 0
  let v ← Packet.vlan pcp 0 vid (t.setWidth 16)
  let p := p.insert v
  let e ← e.set Ether.etype 0x8100#64
  pure (p.insert e)

/-! ## Removing headers -/

theorem removeN_eq (pre mid post : List Hdr) (pl : Bytes) :
    removeN ⟨pre ++ (mid ++ post), pl⟩ pre.length mid.length = .ok ⟨pre ++ post, pl⟩ := by
  induction mid with
  | nil => rfl
  | cons h mid ih =>
    have hlt : pre.length < (pre ++ (h :: mid ++ post)).length := by simp
    have hne : (pre ++ (h :: mid ++ post)).length ≠ 0 := by omega
    have e : (pre ++ (h :: mid ++ post)).eraseIdx pre.length = pre ++ (mid ++ post) := by
      rw [List.eraseIdx_append_of_length_le (Nat.le_refl _), Nat.sub_self]; rfl
    have : Packet.remove ⟨pre ++ (h :: mid ++ post), pl⟩ pre.length = .ok ⟨pre ++ (mid ++ post), pl⟩ := by
      simp only [Packet.remove, Packet.vecRemove, if_pos (And.intro hne hlt), if_pos hlt, e]
      rfl
    simp only [List.length_cons, removeN, this]
    exact ih

/-- **C71, cutting out headers.** Split the headers of a parsed frame in three, where neither the middle nor the last part
begins with an option, and there is no MPLS label right before or at the start of the middle part.  Removing the headers
of the middle part leaves the other two; and this is what the parser returns on the frame without the octets of the
middle part, iff the last part begins with the same type of header as the middle part. -/
theorem C71_cut_iff (chk : Bool) (b : Bytes) (p : Packet) (h : Slow.parse chk b = .ok p) (pre mid post : List Hdr)
    (hne : pre ≠ []) (hmid : mid ≠ []) (hsplit : p.hdrs = pre ++ (mid ++ post))
    (ho1 : ∀ g, mid.head? = some g → ¬ Optional g.ty ∧ g.ty ≠ MPLS)
    (ho2 : ∀ g, post.head? = some g → ¬ Optional g.ty)
    (hl : ∀ g, pre.getLast? = some g → g.ty ≠ MPLS) :
    removeN p pre.length mid.length = .ok ⟨pre ++ post, p.payload⟩ ∧
    (Slow.parse chk (b.take (octets pre) ++ b.drop (octets (pre ++ mid))) = .ok ⟨pre ++ post, p.payload⟩ ↔
      post.head?.map (·.ty) = mid.head?.map (·.ty)) := by
  refine ⟨by have := removeN_eq pre mid post p.payload; rw [← hsplit] at this; exact this, ?_⟩
  obtain ⟨m, ms, rfl⟩ : ∃ m ms, mid = m :: ms := by
    cases mid with
    | nil => exact absurd rfl hmid
    | cons m ms => exact ⟨m, ms, rfl⟩
  obtain ⟨hm1, hm2⟩ := ho1 m rfl
  obtain ⟨l1, k1, -, -, hrepl⟩ := C63_nest_frame chk b p h pre (m :: ms ++ post) hne hsplit
    (fun g hg => by simp only [List.cons_append, List.head?_cons, Option.some.injEq] at hg; exact hg ▸ hm1)
  obtain ⟨l2, k2, -, hr2, -⟩ := C63_nest_frame chk b p h (pre ++ m :: ms) post (by simp) (by rw [hsplit, List.append_assoc]) ho2
  simp only [List.cons_append, List.head?_cons, Option.map_some] at k1 ⊢
  rw [hrepl _ (fun hg => by
    cases hx : pre.getLast? with
    | none => rw [hx] at hg; exact nomatch hg
    | some x => rw [hx] at hg; exact absurd (Option.some.inj hg) (hl x hx))]
  have hprep : ∀ x : R Packet, x.map (prep pre) = .ok ⟨pre ++ post, p.payload⟩ ↔ x = .ok ⟨post, p.payload⟩ := by
    intro x
    cases x with
    | error e => simp [Except.map]
    | ok q =>
      simp only [Except.map, prep, Except.ok.injEq, Packet.mk.injEq, List.append_cancel_left_eq]
      constructor
      · rintro ⟨a, c⟩; cases q; simp_all
      · rintro rfl; exact ⟨rfl, rfl⟩
  rw [hprep]
  constructor
  · intro hp
    rw [← k1, parse_kind hp]
  · intro hk
    have : l1 = l2 := by
      rcases kindOf_inj l1 l2 (by rw [k1, k2, hk]) with e | ⟨rfl, -⟩ | ⟨rfl, -⟩
      · exact e
      · exact absurd (Option.some.inj k1).symm hm2
      · exact absurd (Option.some.inj k1).symm hm2
    rw [this]; exact hr2

/-- **C71, decapsulation.** Removing the first `n` headers of a parsed packet, where the next one is not an option, leaves
what the parser of the next header's layer returns on the octets that follow. -/
theorem C71_decapsulate (chk : Bool) (l : Layer) (b : Bytes) (p : Packet) (h : Slow.parseL chk l b = .ok p)
    (pre post : List Hdr) (hsplit : p.hdrs = pre ++ post) (ho : ∀ g, post.head? = some g → ¬ Optional g.ty) :
    ∃ q l', removeN p 0 pre.length = .ok q ∧ q = ⟨post, p.payload⟩ ∧ kindOf l' = post.head?.map (·.ty) ∧
      Slow.parseL chk l' (b.drop (octets pre)) = .ok q := by
  obtain ⟨l', k, -, hr, -⟩ := C63_nest chk l b p h pre post hsplit ho
  refine ⟨_, l', ?_, rfl, k, hr⟩
  have := removeN_eq [] pre post p.payload
  rw [List.nil_append, ← hsplit] at this
  exact this

/-! ## MPLS labels -/

/-- **C71, popping an MPLS label** that is not the bottom one: the packet without it is what the parser returns on the
frame without its four octets. -/
theorem C71_pop_label (chk : Bool) (b : Bytes) (p : Packet) (h : Slow.parse_ethernet chk b = .ok p) (e m : Hdr)
    (hs : List Hdr) (hp : p.hdrs = e :: m :: hs) (hm : m.ty = MPLS) (hb : bitAt m.data 2 0 = false) :
    p.remove 1 = .ok ⟨e :: hs, p.payload⟩ ∧
    Slow.parse_ethernet chk (b.take 14 ++ b.drop 18) = .ok ⟨e :: hs, p.payload⟩ := by
  refine ⟨by simp [Packet.remove, Packet.vecRemove, hp], ?_⟩
  have d := Dissect_of_parse (l := .ether) h
  rw [hp] at d
  generalize p.payload = pl at d
  cases d with
  | @ether h1 r _ _ hl1 d1 =>
    have hk : etherNext (u16At h1 12) = .mpls := by
      have k := parse_kind (parse_of_Dissect (chk := true) d1)
      rcases kindOf_inj _ .mpls (k.trans (by simp only [List.head?_cons, Option.map_some, hm]; rfl)) with e | ⟨e, -⟩ | ⟨e, -⟩
      · exact e
      · exact e
      · exfalso; revert e; unfold etherNext; repeat' split
        all_goals simp
    have d2 := d1
    rw [hk] at d2
    cases d2 with
    | @mpls h2 r2 _ _ hl2 hb2 d2 =>
      have e1 : (h1 ++ (h2 ++ r2)).take 14 ++ (h1 ++ (h2 ++ r2)).drop 18 = h1 ++ r2 := by
        rw [List.take_left' hl1, ← List.append_assoc, List.drop_left' (by rw [List.length_append]; omega)]
      rw [e1]
      exact parse_of_Dissect (l := .ether) (.ether hl1 (hk ▸ d2))
    | @mplsLast h2 r2 _ _ hl2 hb2 d2 => rw [hb2] at hb; exact nomatch hb

theorem second_mpls {r : Bytes} {hs : List Hdr} {pl : Bytes} (d : Dissect .mpls r hs pl) :
    hs.tail.head?.map (·.ty) = some MPLS := by
  cases d with
  | mpls _ _ d => exact (parse_kind (parse_of_Dissect (chk := true) d)).symm
  | mplsLast _ _ d => exact (parse_kind (parse_of_Dissect (chk := true) d)).symm

theorem kindOf_bosNext (n : Nat) : kindOf (bosNext n) ≠ some MPLS := by
  unfold bosNext
  split
  · decide
  · split <;> decide

theorem second_bos {r : Bytes} {hs : List Hdr} {pl : Bytes} (d : Dissect .mplsBos r hs pl) :
    hs.tail.head?.map (·.ty) ≠ some MPLS := by
  cases d with
  | mplsBos _ _ d => exact fun k => kindOf_bosNext _ ((parse_kind (parse_of_Dissect (chk := true) d)).trans k)

/-- **C71, popping an MPLS label** wherever it stands: the packet without it is what the parser returns on the frame without
its four octets, iff its bottom-of-stack bit is clear and another label follows.  (The label after the bottom one, which
the parser always takes, is followed by none.) -/
theorem C71_pop_iff (chk : Bool) (b : Bytes) (p : Packet) (h : Slow.parse chk b = .ok p) (pre : List Hdr) (m : Hdr)
    (post : List Hdr) (hp : p.hdrs = pre ++ m :: post) (hm : m.ty = MPLS) :
    p.remove pre.length = .ok ⟨pre ++ post, p.payload⟩ ∧
    (Slow.parse chk (b.take (octets pre) ++ b.drop (octets pre + 4)) = .ok ⟨pre ++ post, p.payload⟩ ↔
      bitAt m.data 2 0 = false ∧ post.head?.map (·.ty) = some MPLS) := by
  refine ⟨by simp [Packet.remove, Packet.vecRemove, hp, List.eraseIdx_append_of_length_le], ?_⟩
  have hne : pre ≠ [] := by
    rintro rfl
    obtain ⟨t, ht⟩ := C28_first_header chk b p h
    rw [hp, List.nil_append, List.cons.injEq] at ht
    rw [ht.1] at hm
    revert hm
    dsimp only
    split <;> exact fun hm => absurd hm (by decide)
  obtain ⟨l, k, -, hr, hrepl⟩ := C63_nest_frame chk b p h pre (m :: post) hne hp
    (fun g hg => by obtain rfl := Option.some.inj hg; rw [hm]; unfold Optional; decide +kernel)
  have hl : l = .mpls ∨ l = .mplsBos := by
    rcases kindOf_inj l .mpls (k.trans (by simp only [List.head?_cons, Option.map_some, hm]; rfl)) with e | ⟨e, -⟩ | ⟨e, -⟩
    · exact .inl e
    · exact .inl e
    · exact .inr e
  rw [hrepl _ (fun _ h1 h2 _ => by rcases hl with e | e <;> contradiction)]
  have hprep : ∀ x : R Packet, x.map (prep pre) = .ok ⟨pre ++ post, p.payload⟩ ↔ x = .ok ⟨post, p.payload⟩ := by
    intro x
    cases x with
    | error e => simp [Except.map]
    | ok q =>
      simp only [Except.map, prep, Except.ok.injEq, Packet.mk.injEq, List.append_cancel_left_eq]
      constructor
      · rintro ⟨a, c⟩; cases q; simp_all
      · rintro rfl; exact ⟨rfl, rfl⟩
  rw [hprep, ← List.drop_drop]
  have d := Dissect_of_parse hr
  dsimp only at d
  generalize b.drop (octets pre) = r at d
  generalize p.payload = pl at d
  rcases hl with rfl | rfl
  · cases d with
    | @mpls h2 r2 _ _ hl2 hb2 d2 =>
      rw [List.drop_left' hl2]
      have e := parse_of_Dissect (chk := chk) d2
      exact ⟨fun _ => ⟨hb2, (parse_kind e).symm⟩, fun _ => e⟩
    | @mplsLast h2 r2 _ _ hl2 hb2 d2 =>
      rw [List.drop_left' hl2]
      constructor
      · intro e
        exact (second_bos d2 (second_mpls (Dissect_of_parse e))).elim
      · rintro ⟨e, -⟩
        exact nomatch hb2.symm.trans e
  · cases d with
    | @mplsBos h2 r2 _ _ hl2 hr2 d2 =>
      rw [List.drop_left' hl2]
      have k2 := parse_kind (parse_of_Dissect (chk := chk) d2)
      constructor
      · intro e
        exact (kindOf_bosNext _ (k2.trans (parse_kind e).symm)).elim
      · rintro ⟨-, e⟩
        exact (kindOf_bosNext _ (k2.trans e)).elim

/-! ## VLAN tags -/

theorem u16At_drop (d : Bytes) (n : Nat) : u16At (d.drop n) 0 = u16At d n := by
  simp [u16At, u8At, List.getD_eq_getElem?_getD]

theorem get_be16 (chk : Bool) (h : Hdr) (f : Field) (a : Nat) (hlo : f.lo = 8 * a) (hhi : f.hi = 8 * a + 15)
    (hl : a + 2 ≤ h.data.length) :
    ∃ v : U64, h.get chk f = .ok v ∧ be16 (v.setWidth 16) = (h.data.drop a).take 2 ∧ v.toNat = u16At h.data a := by
  obtain ⟨v, e, hv, hlt⟩ := C01_getter_value chk h f (by constructor <;> omega) (by unfold Field.width; omega)
  rw [hlo, hhi] at hv
  have hw : f.width = 16 := by unfold Field.width; omega
  rw [hw] at hlt
  rw [fieldVal_u16 _ _ (by omega)] at hv
  refine ⟨v, e, ?_, hv⟩
  refine beNat_inj _ _ (by rw [be16_length, List.length_take, List.length_drop]; omega) ?_
  rw [beNat_be16, BitVec.toNat_setWidth, Nat.mod_eq_of_lt hlt, hv]
  have hx : (h.data.drop a).take 2 = [h.data[a]'(by omega), h.data[a + 1]'(by omega)] := by
    rw [List.drop_eq_getElem_cons (by omega), List.drop_eq_getElem_cons (by omega)]; rfl
  rw [hx]
  simp only [beNat, u16At, u8At, List.getD_eq_getElem?_getD]
  rw [List.getElem?_eq_getElem (by omega), List.getElem?_eq_getElem (by omega)]
  simp
  try omega

/-- **C71, removing a VLAN tag**: the program gives what the parser returns on the frame without the four octets at
octet 12.  At the top level this is so iff the tag's EtherType is not a length. -/
theorem C71_untag (chk : Bool) (b : Bytes) (p : Packet) (h : Slow.parse_ethernet chk b = .ok p) (e v : Hdr)
    (hs : List Hdr) (hp : p.hdrs = e :: v :: hs) (hv : v.ty = Vlan) :
    ∃ q, untag chk p = .ok q ∧ q = ⟨⟨Ether, e.data.take 12 ++ v.data.drop 2⟩ :: hs, p.payload⟩ ∧
      Slow.parse_ethernet chk (b.take 12 ++ b.drop 16) = .ok q ∧
      (Slow.parse chk (b.take 12 ++ b.drop 16) = .ok q ↔ 1500 ≤ u16At v.data 2) := by
  have d := Dissect_of_parse (l := .ether) h
  obtain ⟨phs, pl⟩ := p
  simp only at hp d ⊢
  subst hp
  cases d with
  | @ether h1 r _ _ hl1 d1 =>
    have hk : etherNext (u16At h1 12) = .vlan := by
      have k := parse_kind (parse_of_Dissect (chk := true) d1)
      rcases kindOf_inj _ .vlan (k.trans (by simp only [List.head?_cons, Option.map_some, hv]; rfl)) with e | ⟨-, e⟩ | ⟨-, e⟩
      · exact e
      · exact nomatch e
      · exact nomatch e
    rw [hk] at d1
    cases d1 with
    | @vlan h2 r2 _ _ hl2 d2 =>
      obtain ⟨t, g1, g2, g3⟩ := get_be16 chk ⟨Vlan, h2⟩ Vlan.etype 2 rfl rfl (by simp only; omega)
      have hset := set_be16 ⟨Ether, h1⟩ Ether.etype 12 t rfl rfl (by simp only; omega)
      have hd2 : (h2.drop 2).take 2 = h2.drop 2 := List.take_of_length_le (by rw [List.length_drop]; omega)
      have hd1 : h1.drop 14 = [] := List.drop_of_length_le (by omega)
      rw [g2, hd2, hd1, List.append_nil] at hset
      have hq : untag chk ⟨⟨Ether, h1⟩ :: ⟨Vlan, h2⟩ :: hs, pl⟩ = .ok ⟨⟨Ether, h1.take 12 ++ h2.drop 2⟩ :: hs, pl⟩ := by
        have i1 : Packet.indexName ⟨⟨Ether, h1⟩ :: ⟨Vlan, h2⟩ :: hs, pl⟩ "Vlan" = .ok ⟨Vlan, h2⟩ := rfl
        have i2 : Packet.remove ⟨⟨Ether, h1⟩ :: ⟨Vlan, h2⟩ :: hs, pl⟩ 1 = .ok ⟨⟨Ether, h1⟩ :: hs, pl⟩ := by
          simp [Packet.remove, Packet.vecRemove]
        have i3 : Packet.withHeaderMut ⟨⟨Ether, h1⟩ :: hs, pl⟩ Ether "Ether" (fun e => e.set Ether.etype t) =
            .ok ⟨⟨Ether, h1.take 12 ++ h2.drop 2⟩ :: hs, pl⟩ := by
          unfold Packet.withHeaderMut
          have := modifyFirst_eq "Ether" (fun h => if h.ty = Ether then h.set Ether.etype t else .error .downcast) [] hs
            ⟨Ether, h1⟩ _ (by simp) rfl ((if_pos rfl).trans hset)
          simp only [List.nil_append] at this
          simp only [this]
          rfl
        unfold untag
        rw [i1]
        simp only [bind, Except.bind, ne_eq, not_true_eq_false, if_false, g1, i2, i3]
      have hb : (h1 ++ (h2 ++ r2)).take 12 ++ (h1 ++ (h2 ++ r2)).drop 16 = (h1.take 12 ++ h2.drop 2) ++ r2 := by
        rw [List.take_append_of_le_length (by omega), List.drop_append, List.drop_of_length_le (by omega), List.nil_append,
          show 16 - h1.length = 2 by omega, List.drop_append_of_le_length (by omega), List.append_assoc]
      have hlen : (h1.take 12 ++ h2.drop 2).length = 14 := by
        rw [List.length_append, List.length_take, List.length_drop]; omega
      have hu : u16At (h1.take 12 ++ h2.drop 2) 12 = u16At h2 2 := by
        have hl : (h1.take 12).length = 12 := by rw [List.length_take]; omega
        rw [u16At_append_right _ _ _ (by omega), hl, u16At_drop]
      have hpe : Slow.parse_ethernet chk ((h1.take 12 ++ h2.drop 2) ++ r2) = .ok ⟨⟨Ether, h1.take 12 ++ h2.drop 2⟩ :: hs, pl⟩ :=
        parse_of_Dissect (l := .ether) (.ether hlen (by rw [hu]; exact d2))
      refine ⟨_, hq, rfl, by rw [hb]; exact hpe, ?_⟩
      rw [hb, Slow.parse_eq, if_neg (by rw [List.length_append, hlen]; omega)]
      have hu' : u16At ((h1.take 12 ++ h2.drop 2) ++ r2) 12 = u16At h2 2 := by
        rw [u16At_append_left _ _ _ (by omega), hu]
      rw [hu']
      simp only
      by_cases hc : u16At h2 2 < 1500
      · rw [if_pos hc]
        refine ⟨fun h => ?_, fun h => by omega⟩
        have := parse_kind h
        exact absurd (show Dot3 = Ether from Option.some.inj this) (by decide)
      · rw [if_neg hc]
        exact ⟨fun _ => by omega, fun _ => hpe⟩

/-- **C71, adding a VLAN tag** after the Ethernet header: the program gives what the parser returns on the frame with
the tag's protocol identifier and control information inserted at octet 12, whatever the tag; then removing the tag again
gives the original packet. -/
theorem C71_tag (chk : Bool) (b : Bytes) (p : Packet) (h : Slow.parse_ethernet chk b = .ok p) (pcp : Byte) (vid : U16) :
    ∃ q, tag chk pcp vid p = .ok q ∧
      Slow.parse chk (b.take 12 ++ ([0x81#8, 0x00#8] ++ (be16 (vid ||| (pcp.setWidth 16 <<< 13)) ++ b.drop 12))) = .ok q ∧
      untag chk q = .ok p ∧ q.hdrs.map (·.ty) = Ether :: Vlan :: (p.hdrs.drop 1).map (·.ty) ∧ q.hdrs.drop 2 = p.hdrs.drop 1 := by
  have d := Dissect_of_parse (l := .ether) h
  obtain ⟨phs, pl⟩ := p
  simp only at d ⊢
  cases d with
  | @ether h1 r hs _ hl1 d1 =>
    generalize hw : be16 (vid ||| (pcp.setWidth 16 <<< 13)) = w
    have hwl : w.length = 2 := by rw [← hw]; rfl
    obtain ⟨t, g1, g2, g3⟩ := get_be16 chk ⟨Ether, h1⟩ Ether.etype 12 rfl rfl (by simp only; omega)
    have hd2 : (h1.drop 12).take 2 = h1.drop 12 := List.take_of_length_le (by rw [List.length_drop]; omega)
    have hd1 : h1.drop 14 = [] := List.drop_of_length_le (by omega)
    simp only [hd2] at g2
    have hset := set_be16 ⟨Ether, h1⟩ Ether.etype 12 0x8100#64 rfl rfl (by simp only; omega)
    rw [hd1, List.append_nil] at hset
    have hq : tag chk pcp vid ⟨⟨Ether, h1⟩ :: hs, pl⟩ =
        .ok ⟨⟨Ether, h1.take 12 ++ [0x81#8, 0x00#8]⟩ :: ⟨Vlan, w ++ h1.drop 12⟩ :: hs, pl⟩ := by
      have i1 : Packet.indexName ⟨⟨Ether, h1⟩ :: hs, pl⟩ "Ether" = .ok ⟨Ether, h1⟩ := rfl
      have i2 : Packet.remove ⟨⟨Ether, h1⟩ :: hs, pl⟩ 0 = .ok ⟨hs, pl⟩ := by
        simp [Packet.remove, Packet.vecRemove]
      unfold tag
      rw [i1]
      simp only [bind, Except.bind, ne_eq, not_true_eq_false, if_false, pure, Except.pure, g1, i2, vlan_eq, g2, hset, hw]
      rfl
    have hlen1 : (h1.take 12 ++ [0x81#8, 0x00#8]).length = 14 := by simp; omega
    have hlen2 : (w ++ h1.drop 12).length = 4 := by simp; omega
    have hu1 : u16At (h1.take 12 ++ [0x81#8, 0x00#8]) 12 = 0x8100 := by
      have hl : (h1.take 12).length = 12 := by rw [List.length_take]; omega
      rw [u16At_append_right _ _ _ (by omega), hl]; rfl
    have hu2 : u16At (w ++ h1.drop 12) 2 = u16At h1 12 := by
      rw [u16At_append_right _ _ _ (by omega), hwl, u16At_drop]
    have dq : Dissect .ether ((h1.take 12 ++ [0x81#8, 0x00#8]) ++ ((w ++ h1.drop 12) ++ r))
        (⟨Ether, h1.take 12 ++ [0x81#8, 0x00#8]⟩ :: ⟨Vlan, w ++ h1.drop 12⟩ :: hs) pl :=
      .ether hlen1 (by rw [hu1]; exact .vlan hlen2 (by rw [hu2]; exact d1))
    have hb : (h1 ++ r).take 12 ++ ([0x81#8, 0x00#8] ++ (w ++ (h1 ++ r).drop 12)) =
        (h1.take 12 ++ [0x81#8, 0x00#8]) ++ ((w ++ h1.drop 12) ++ r) := by
      rw [List.take_append_of_le_length (by omega), List.drop_append_of_le_length (by omega)]
      simp
    refine ⟨_, hq, ?_, ?_, rfl, rfl⟩
    · rw [hb, Slow.parse_eq, if_neg (by rw [List.length_append, hlen1]; omega)]
      have hu' : u16At ((h1.take 12 ++ [0x81#8, 0x00#8]) ++ ((w ++ h1.drop 12) ++ r)) 12 = 0x8100 := by
        rw [u16At_append_left _ _ _ (by omega), hu1]
      rw [hu', if_neg (by omega)]
      exact parse_of_Dissect dq
    · obtain ⟨q, u1, u2, -, -⟩ := C71_untag chk _ _ (parse_of_Dissect (chk := chk) dq) _ _ _ rfl rfl
      rw [u1, u2]
      have e1 : (h1.take 12 ++ [0x81#8, 0x00#8]).take 12 = h1.take 12 := by
        rw [List.take_append_of_le_length (by rw [List.length_take]; omega), List.take_take, Nat.min_self]
      have e2 : (w ++ h1.drop 12).drop 2 = h1.drop 12 := List.drop_left' hwl
      simp only [e1, e2, List.take_append_drop]

/-! Concrete cases. -/

/-- Ethernet, IPv4 in IPv4, UDP, two octets. -/
def exIpip : Bytes :=
  exBytes 12 id ++ [0x08#8, 0x00#8] ++ exBytes 20 (fun i => if i = 9 then 4 else i)
    ++ exBytes 20 (fun i => if i = 9 then 17 else 40 + i) ++ [0#8, 1#8, 0#8, 2#8, 0#8, 10#8, 0#8, 0#8] ++ [7#8, 8#8]

-- the outer IPv4 header taken out of an IPv4-in-IPv4 frame: the types agree and the cut frame is parsed to the edited packet
example : ∃ p e o i u, Slow.parse true exIpip = .ok p ∧ p.hdrs = [e] ++ ([o] ++ [i, u]) ∧
    [e, o, i, u].map (·.ty) = [Ether, IPv4, IPv4, UDP] ∧ octets [e] = 14 ∧ octets ([e] ++ [o]) = 34 ∧
    p.remove 1 = .ok ⟨[e, i, u], [7#8, 8#8]⟩ ∧
    Slow.parse true (exIpip.take 14 ++ exIpip.drop 34) = .ok ⟨[e, i, u], [7#8, 8#8]⟩ := by
  refine ⟨okPkt (Slow.parse true exIpip), ⟨Ether, exIpip.take 14⟩, ⟨IPv4, (exIpip.drop 14).take 20⟩,
    ⟨IPv4, (exIpip.drop 34).take 20⟩, ⟨UDP, (exIpip.drop 54).take 8⟩, ?_⟩
  decide +kernel

-- both IPv4 headers taken out: the types differ (UDP where IPv4 was), and the parser fails on the cut frame
example : ∃ p, removeN (okPkt (Slow.parse true exIpip)) 1 2 = .ok p ∧ p.hdrs.map (·.ty) = [Ether, UDP] ∧
    (∃ f, Slow.parse true (exIpip.take 14 ++ exIpip.drop 54) = .error f) := by
  refine ⟨okPkt (removeN (okPkt (Slow.parse true exIpip)) 1 2), ?_, ?_, .index, ?_⟩ <;> decide +kernel

-- the frame inside a VXLAN tunnel, by removing the five outer headers
example : removeN (okPkt (Slow.parse true exFrame)) 0 5 = Slow.parse true (exFrame.drop 54) ∧
    (okPkt (Slow.parse true (exFrame.drop 54))).hdrs.map (·.ty) = [Ether] := by
  decide +kernel

-- the tag of that frame, removed and put back
example : ∃ p e v hs, Slow.parse_ethernet true exFrame = .ok p ∧ p.hdrs = e :: v :: hs ∧ v.ty = Vlan ∧
    u16At v.data 2 = 0x0800 ∧ untag true p = Slow.parse true (exFrame.take 12 ++ exFrame.drop 16) ∧
    tag true 1 5 (okPkt (untag true p)) = .ok p ∧
    exFrame.take 12 ++ ([0x81#8, 0x00#8] ++ (be16 (5#16 ||| ((1#8).setWidth 16 <<< 13)) ++ exFrame.drop 16)) = exFrame := by
  refine ⟨okPkt (Slow.parse true exFrame), ⟨Ether, exFrame.take 14⟩, ⟨Vlan, (exFrame.drop 14).take 4⟩,
    (okPkt (Slow.parse true exFrame)).hdrs.drop 2, ?_⟩
  decide +kernel

-- a tag in front of a length: the edited packet begins with an Ethernet header, the parser makes it an 802.3 header
example : ∃ b p v, Slow.parse_ethernet true b = .ok p ∧ p.hdrs.map (·.ty) = [Ether, Vlan] ∧ p.hdrs[1]? = some v ∧
    u16At v.data 2 = 3 ∧ (untag true p).map (fun q => q.hdrs.map (·.ty)) = .ok [Ether] ∧
    (Slow.parse true (b.take 12 ++ b.drop 16)).map (fun q => q.hdrs.map (·.ty)) = .ok [Dot3, LLC] :=
  let b : Bytes := exBytes 12 id ++ [0x81#8, 0x00#8, 0#8, 5#8, 0#8, 3#8, 0x42#8, 0x42#8, 3#8]
  ⟨b, okPkt (Slow.parse_ethernet true b), ⟨Vlan, [0#8, 5#8, 0#8, 3#8]⟩, by decide +kernel⟩

/-- Ethernet, three MPLS labels (the second is the bottom one by its bit, the third is always taken), IPv4. -/
def exMpls3 : Bytes :=
  exBytes 12 id ++ [0x88#8, 0x47#8] ++ [0#8, 1#8, 0x00#8, 9#8] ++ [0#8, 2#8, 0x01#8, 9#8] ++ [0#8, 3#8, 0x01#8, 9#8]
    ++ (0x45#8 :: List.replicate 19 0xfe#8)

-- the first of three labels popped; and the label with the bottom bit, where the parse of the cut frame differs
example : ∃ p e m hs, Slow.parse_ethernet true exMpls3 = .ok p ∧ p.hdrs = e :: m :: hs ∧ m.ty = MPLS ∧
    bitAt m.data 2 0 = false ∧ hs.map (·.ty) = [MPLS, MPLS, IPv4] ∧
    p.remove 1 = Slow.parse_ethernet true (exMpls3.take 14 ++ exMpls3.drop 18) := by
  refine ⟨okPkt (Slow.parse true exMpls3), ⟨Ether, exMpls3.take 14⟩, ⟨MPLS, (exMpls3.drop 14).take 4⟩,
    (okPkt (Slow.parse true exMpls3)).hdrs.drop 2, ?_⟩
  decide +kernel

example : ∃ p m, Slow.parse_ethernet true (exMpls3.take 14 ++ exMpls3.drop 18) = .ok p ∧ p.hdrs[1]? = some m ∧
    m.ty = MPLS ∧ bitAt m.data 2 0 = true ∧
    p.remove 1 ≠ Slow.parse_ethernet true (exMpls3.take 14 ++ exMpls3.drop 22) :=
  ⟨okPkt (Slow.parse true (exMpls3.take 14 ++ exMpls3.drop 18)), ⟨MPLS, [0#8, 2#8, 0x01#8, 9#8]⟩, by decide +kernel⟩

-- inside a VXLAN tunnel: of the three labels behind the inner Ethernet header only the first can be taken out
example : ∃ p pre m post, Slow.parse true (exFrame.take 54 ++ exMpls3) = .ok p ∧ p.hdrs = pre ++ m :: post ∧
    pre.map (·.ty) = [Ether, Vlan, IPv4, UDP, Vxlan, Ether] ∧ m.ty = MPLS ∧ post.map (·.ty) = [MPLS, MPLS, IPv4] ∧
    bitAt m.data 2 0 = false ∧ octets pre = 68 ∧
    p.remove 6 = Slow.parse true ((exFrame.take 54 ++ exMpls3).take 68 ++ (exFrame.take 54 ++ exMpls3).drop 72) ∧
    p.remove 7 ≠ Slow.parse true ((exFrame.take 54 ++ exMpls3).take 72 ++ (exFrame.take 54 ++ exMpls3).drop 76) ∧
    p.remove 8 ≠ Slow.parse true ((exFrame.take 54 ++ exMpls3).take 76 ++ (exFrame.take 54 ++ exMpls3).drop 80) := by
  refine ⟨okPkt (Slow.parse true (exFrame.take 54 ++ exMpls3)),
    (okPkt (Slow.parse true (exFrame.take 54 ++ exMpls3))).hdrs.take 6, ⟨MPLS, [0#8, 1#8, 0x00#8, 9#8]⟩,
    (okPkt (Slow.parse true (exFrame.take 54 ++ exMpls3))).hdrs.drop 7, ?_⟩
  decide +kernel

end PacketRs
