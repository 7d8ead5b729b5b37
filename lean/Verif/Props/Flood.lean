import Verif.Spec.Flood
import Verif.Props.Switch
import Verif.Props.Series
/-!
# Property C115: one frame for several ports, made of clones of one packet

The switch of C114 serializes before it takes out the tag.  Here it clones the packet for each port; the clones have their own list of
headers but share the headers (C18), so that `remove` acts on the clone only and `set_etype` on all of them.
-/
namespace PacketRs
open Spec
open Prog hiding bind

theorem toVec_step (chk : Bool) (w : World) (hw : w.Reachable chk) (k : Nat) (q : PRef) (hq : w.pkt? k = some q)
    (hp : ∀ h ∈ q.hdrs, (w.mem h.ref).poisoned = false) :
    w.step chk (.pktToVec k) = (w, .ok (.bytes (q.view w.mem).to_vec)) := by
  have hany : (q.hdrs.any fun h => (w.mem h.ref).poisoned) = false := by
    rw [List.any_eq_false]; intro h hh; simp [hp h hh]
  simp only [World.step, hq, World.access, run_bind, run_pktToVecP hw.free, hany, Bool.false_eq_true, if_false, run]

theorem set_etype_link (h1 : Bytes) (hs : List Hdr) (pl : Bytes) (t : U64) (hl1 : h1.length = 14) :
    Packet.withHeaderMut ⟨⟨Ether, h1⟩ :: hs, pl⟩ Ether "Ether" (fun e => e.set Ether.etype t) =
      .ok ⟨⟨Ether, h1.take 12 ++ be16 (t.setWidth 16)⟩ :: hs, pl⟩ := by
  have hset := set_be16 ⟨Ether, h1⟩ Ether.etype 12 t rfl rfl (by simp only; omega)
  rw [List.drop_of_length_le (show h1.length ≤ 12 + 2 by omega), List.append_nil] at hset
  unfold Packet.withHeaderMut
  have := modifyFirst_eq "Ether" (fun h => if h.ty = Ether then h.set Ether.etype t else .error .downcast) [] hs
    ⟨Ether, h1⟩ _ (by simp) rfl ((if_pos rfl).trans hset)
  simp only [List.nil_append] at this
  simp only [this]
  rfl

theorem spoilt_take (g : Bytes) (h : 18 ≤ g.length) : (spoilt g).take 14 = g.take 12 ++ (g.drop 16).take 2 ∧ (spoilt g).take 12 = g.take 12 ∧
    (spoilt g).drop 14 = g.drop 14 ∧ (spoilt g).length = g.length := by
  have h12 : (g.take 12).length = 12 := by rw [List.length_take]; omega
  have h2 : ((g.drop 16).take 2).length = 2 := by rw [List.length_take, List.length_drop]; omega
  have h14 : (g.take 12 ++ (g.drop 16).take 2).length = 14 := by rw [List.length_append]; omega
  refine ⟨?_, ?_, ?_, ?_⟩
  · rw [spoilt, ← List.append_assoc, List.take_left' h14]
  · rw [spoilt, List.take_left' h12]
  · rw [spoilt, ← List.append_assoc, List.drop_left' h14]
  · simp only [spoilt, List.length_append, List.length_drop, h12, h2]; omega

theorem spoilt_drop (g : Bytes) (h : 18 ≤ g.length) (n : Nat) : (spoilt g).drop (14 + n) = g.drop (14 + n) := by
  rw [← List.drop_drop, ← List.drop_drop, (spoilt_take g h).2.2.1]

theorem spoilt_facts (g : Bytes) (h : 18 ≤ g.length) : 18 ≤ (spoilt g).length ∧ spoilt (spoilt g) = spoilt g ∧ dropTag (spoilt g) = dropTag g ∧
    (spoilt g).drop 16 = g.drop 16 := by
  obtain ⟨-, h2, h3, h4⟩ := spoilt_take g h
  have h16 : (spoilt g).drop 16 = g.drop 16 := spoilt_drop g h 2
  refine ⟨by omega, ?_, ?_, h16⟩
  · conv => lhs; rw [spoilt]
    rw [h2, h16, h3, ← spoilt]
  · rw [dropTag, h2, h16, dropTag]

theorem two_headers {m : Store} {q : PRef} {g : Bytes} (hv : q.view m = inside g) : ∃ x y, q.hdrs = [x, y] ∧ x.ty = Ether ∧ y.ty = Vlan ∧
    (m x.ref).bytes = g.take 14 ∧ (m y.ref).bytes = (g.drop 14).take 4 ∧ q.payload = g.drop 18 := by
  obtain ⟨hs, pl⟩ := q
  simp only [PRef.view, inside, Packet.mk.injEq] at hv
  obtain ⟨hv1, hv2⟩ := hv
  have hl := congrArg List.length hv1
  simp only [List.length_map, List.length_cons, List.length_nil] at hl
  obtain ⟨x, y, rfl⟩ := List.length_eq_two.mp hl
  simp only [List.map_cons, List.map_nil, List.cons.injEq, Hdr.mk.injEq, and_true] at hv1
  exact ⟨x, y, rfl, hv1.1.1, hv1.2.1, hv1.1.2, hv1.2.2, hv2⟩

/-- One port after the other. -/
theorem flood_run (chk : Bool) (p : Nat) (q : PRef) (hn : (q.hdrs.map HRef.ref).Nodup) (t : U64) (bs : List Bool) :
    ∀ (w : World) (_ : w.Reachable chk) (_ : w.pkt? p = some q) (_ : ∀ h ∈ q.hdrs, (w.mem h.ref).poisoned = false)
      (g : Bytes) (_ : 18 ≤ g.length) (_ : be16 (t.setWidth 16) = (g.drop 16).take 2) (_ : q.view w.mem = inside g),
    let r := perform chk w (floodOps p t w.ps.length bs)
    (∀ x ∈ r.2, ∃ v, x = .ok v) ∧ (sentFrames r.2).length = bs.length ∧
      (∀ k b, bs[k]? = some b → (sentFrames r.2)[k]? = some (floodFrame g bs k b)) ∧
      r.1.serialize chk p = .ok (.bytes (if true ∈ bs then spoilt g else g)) := by
  induction bs with
  | nil =>
    intro w hw hq hp g hg ht hv r
    refine ⟨fun x hx => (nomatch hx), rfl, fun k b h => (nomatch h), ?_⟩
    show (w.step chk (.pktToVec p)).2 = _
    rw [toVec_step chk w hw p q hq hp, hv, inside_to_vec]
    rfl
  | cons b bs ih =>
    intro w hw hq hp g hg ht hv
    have hlt : p < w.ps.length := by
      unfold World.pkt? at hq
      cases e : w.ps[p]? with
      | none => rw [e] at hq; cases hq
      | some y => rw [List.getElem?_eq_some_iff] at e; exact e.1
    have e1 : w.step chk (.pktClone p) = ({ w with ps := w.ps ++ [some q] }, .ok .unit) := by
      simp only [World.step, hq]
    have hr1 : ({ w with ps := w.ps ++ [some q] } : World).Reachable chk := by
      have := hw.step (op := .pktClone p) (by rw [e1]; simp)
      rw [e1] at this
      exact this
    have hk1 : ({ w with ps := w.ps ++ [some q] } : World).pkt? w.ps.length = some q := by simp [World.pkt?]
    have hq1 : ({ w with ps := w.ps ++ [some q] } : World).pkt? p = some q := by
      simp only [World.pkt?] at hq ⊢
      rw [List.getElem?_append_left hlt]
      exact hq
    cases b with
    | false =>
      obtain ⟨h1, h2, h3, h4⟩ := ih _ hr1 hq1 hp g hg ht hv
      have e2 := toVec_step chk _ hr1 w.ps.length q hk1 hp
      have hl : ({ w with ps := w.ps ++ [some q] } : World).ps.length = w.ps.length + 1 := by simp
      rw [hl] at h1 h2 h3 h4
      simp only [floodOps, Bool.false_eq_true, if_false, List.nil_append, perform, e1, e2]
      simp only [hv, inside_to_vec]
      refine ⟨?_, ?_, ?_, ?_⟩
      · intro x hx
        rcases List.mem_cons.mp hx with rfl | hx
        · exact ⟨_, rfl⟩
        rcases List.mem_cons.mp hx with rfl | hx
        · exact ⟨_, rfl⟩
        exact h1 x hx
      · show (g :: sentFrames _).length = _
        rw [List.length_cons, h2, List.length_cons]
      · intro k b hb
        show (g :: sentFrames _)[k]? = _
        cases k with
        | zero =>
          cases hb
          rfl
        | succ k =>
          rw [List.getElem?_cons_succ, h3 k b hb]
          simp [floodFrame]
      · rw [h4]; simp
    | true =>
      -- the two headers
      obtain ⟨x, y, hxy, hx, hy, hxb, hyb, hpl⟩ : ∃ x y, q.hdrs = [x, y] ∧ x.ty = Ether ∧ y.ty = Vlan ∧ (w.mem x.ref).bytes = g.take 14 ∧
          (w.mem y.ref).bytes = (g.drop 14).take 4 ∧ q.payload = g.drop 18 := by
        exact two_headers hv
      have hne : y.ref ≠ x.ref := by
        rw [hxy] at hn
        simp only [List.map_cons, List.map_nil, List.nodup_cons, List.mem_singleton] at hn
        exact fun h => hn.1 h.symm
      have hl14 : (g.take 14).length = 14 := by rw [List.length_take]; omega
      -- the tag is taken out of the clone's list
      have e2 : ({ w with ps := w.ps ++ [some q] } : World).step chk (.remove w.ps.length 1) =
          ({ w with ps := w.ps ++ [some ⟨[x], q.payload⟩] }, .ok .unit) := by
        simp only [World.step, World.updPkt, hk1, hxy]
        simp
      have hr2 : ({ w with ps := w.ps ++ [some ⟨[x], q.payload⟩] } : World).Reachable chk := by
        have := hr1.step (op := .remove w.ps.length 1) (by rw [e2]; simp)
        rw [e2] at this
        exact this
      have hk2 : ({ w with ps := w.ps ++ [some ⟨[x], q.payload⟩] } : World).pkt? w.ps.length = some ⟨[x], q.payload⟩ := by simp [World.pkt?]
      -- the type is set in the header they share
      have hset : ((⟨[x], q.payload⟩ : PRef).view w.mem).withHeaderMut Ether "Ether" (fun e => e.set Ether.etype t) =
          .ok ⟨[⟨Ether, (g.take 14).take 12 ++ be16 (t.setWidth 16)⟩], q.payload⟩ := by
        have := set_etype_link (g.take 14) [] q.payload t hl14
        simp only [PRef.view, List.map_cons, List.map_nil, hx, hxb]
        exact this
      obtain ⟨s1, s2, s3, s4, s5, s6, s7⟩ := set_step chk { w with ps := w.ps ++ [some ⟨[x], q.payload⟩] } hr2 w.ps.length ⟨[x], q.payload⟩ hk2
        (by simp) (fun h hh => hp h (by rw [hxy]; exact List.mem_cons.mpr (.inl (List.mem_singleton.mp hh))))
        ⟨"Ether", Ether, Ether.etype, t⟩ _ hset
      have e3 : World.step chk { w with ps := w.ps ++ [some ⟨[x], q.payload⟩] } (.set (.inPkt w.ps.length "Ether" Ether) Ether.etype t) =
          ((World.step chk { w with ps := w.ps ++ [some ⟨[x], q.payload⟩] } (.set (.inPkt w.ps.length "Ether" Ether) Ether.etype t)).1, .ok .unit) := by
        rw [← s1]
      simp only at s3
      generalize (World.step chk { w with ps := w.ps ++ [some ⟨[x], q.payload⟩] } (.set (.inPkt w.ps.length "Ether" Ether) Ether.etype t)).1 = u
        at s2 s3 s4 s5 s6 s7 e3
      obtain ⟨z1, z2, z3, z4⟩ := spoilt_facts g hg
      have hxe : (u.mem x.ref).bytes = (spoilt g).take 14 := by
        simp only [PRef.view, List.map_cons, List.map_nil, Packet.mk.injEq, List.cons.injEq, Hdr.mk.injEq, and_true] at s5
        rw [s5.2, List.take_take, Nat.min_eq_left (by omega), ht, (spoilt_take g hg).1]
      have hye : (u.mem y.ref).bytes = ((spoilt g).drop 14).take 4 := by
        rw [s7 y.ref (by simpa using hne), hyb, (spoilt_take g hg).2.2.1]
      have hpu : ∀ h ∈ q.hdrs, (u.mem h.ref).poisoned = false := by
        intro h hh
        rw [hxy] at hh
        rcases List.mem_cons.mp hh with rfl | hh
        · exact s6 h (List.mem_singleton.mpr rfl)
        · rw [List.mem_singleton.mp hh, s7 y.ref (by simpa using hne)]
          exact hp y (by rw [hxy]; simp)
      have hku : u.pkt? w.ps.length = some ⟨[x], q.payload⟩ := by simp [World.pkt?, s3]
      have hqu : u.pkt? p = some q := by
        simp only [World.pkt?, s3] at hq ⊢
        rw [List.getElem?_append_left hlt]
        exact hq
      have hvu : q.view u.mem = inside (spoilt g) := by
        have : (spoilt g).drop 18 = g.drop 18 := spoilt_drop g hg 4
        simp only [PRef.view, hxy, List.map_cons, List.map_nil, hx, hy, hxe, hye, hpl, inside, this]
      have e4 := toVec_step chk u s2 w.ps.length _ hku s6
      have hsent : ((⟨[x], q.payload⟩ : PRef).view u.mem).to_vec = dropTag g := by
        simp only [PRef.view, List.map_cons, List.map_nil, hx, hxe, hpl, Packet.to_vec, List.foldl_cons, List.foldl_nil, List.nil_append]
        show (spoilt g).take 14 ++ g.drop 18 = dropTag g
        rw [(spoilt_take g hg).1, List.append_assoc, dropTag, show g.drop 18 = (g.drop 16).drop 2 by rw [List.drop_drop], List.take_append_drop]
      obtain ⟨h1, h2, h3, h4⟩ := ih u s2 hqu hpu (spoilt g) z1 (by rw [z4]; exact ht) hvu
      have hl : u.ps.length = w.ps.length + 1 := by rw [s3]; simp
      rw [hl] at h1 h2 h3 h4
      simp only [floodOps, if_true, List.cons_append, List.nil_append, perform, e1, e2, e3, e4, hsent]
      refine ⟨?_, ?_, ?_, ?_⟩
      · intro a ha
        simp only [List.mem_cons] at ha
        rcases ha with rfl | rfl | rfl | rfl | ha
        · exact ⟨_, rfl⟩
        · exact ⟨_, rfl⟩
        · exact ⟨_, rfl⟩
        · exact ⟨_, rfl⟩
        · exact h1 a ha
      · show (dropTag g :: sentFrames _).length = _
        rw [List.length_cons, h2, List.length_cons]
      · intro k b hb
        show (dropTag g :: sentFrames _)[k]? = _
        cases k with
        | zero => cases hb; rfl
        | succ k =>
          rw [List.getElem?_cons_succ, h3 k b hb]
          simp [floodFrame, z2, z3]
      · rw [h4, z2]; simp

/-- **C115**: a packet with a tag is cloned for each port, and the tag taken out of the clones for ports without tags.  No call panics,
one frame is sent per port.  A port without tags gets the right frame, and so does a port with tags if no port without tags came before
it; after one, the frame has the type behind the tag in place of 0x8100, and the tag still there. -/
theorem C115_clones (chk : Bool) (w : World) (hw : w.Reachable chk) (p : Nat) (q : PRef) (hq : w.pkt? p = some q)
    (hn : (q.hdrs.map HRef.ref).Nodup) (hp : ∀ h ∈ q.hdrs, (w.mem h.ref).poisoned = false) (g : Bytes) (hg : 18 ≤ g.length)
    (hv : q.view w.mem = inside g) (bs : List Bool) :
    ∃ t, (w.step chk (.get (.inPkt p "Vlan" Vlan) Vlan.etype)) = (w, .ok (.word t)) ∧
      let r := perform chk w (floodOps p t w.ps.length bs)
      (∀ x ∈ r.2, ∃ v, x = .ok v) ∧ (sentFrames r.2).length = bs.length ∧
      (∀ k b, bs[k]? = some b → (sentFrames r.2)[k]? = some (floodFrame g bs k b)) ∧
      r.1.serialize chk p = .ok (.bytes (if true ∈ bs then spoilt g else g)) := by
  obtain ⟨x, y, hxy, hx, hy, hxb, hyb, -⟩ := two_headers hv
  have hl4 : ((g.drop 14).take 4).length = 4 := by rw [List.length_take, List.length_drop]; omega
  obtain ⟨t, h1, h2, -⟩ := get_be16 chk ⟨Vlan, (g.drop 14).take 4⟩ Vlan.etype 2 rfl rfl (by simp only; omega)
  have hres : w.resolve (.inPkt p "Vlan" Vlan) = .ok y := by
    have hf : q.hdrs.find? (fun h => h.ty.name = "Vlan") = some y := by
      rw [hxy, List.find?_cons_of_neg (by rw [hx]; decide), List.find?_cons_of_pos (by rw [hy]; decide)]
    simp only [World.resolve, hq, hf, if_pos hy]
  have hget : (w.step chk (.get (.inPkt p "Vlan" Vlan) Vlan.etype)) = (w, .ok (.word t)) := by
    rw [World.step_ok chk w _ y rfl hres (fun y h => by cases h)]
    have hb : bitRange chk (w.mem y.ref).bytes Vlan.etype.hi Vlan.etype.lo = .ok t := by rw [hyb]; exact h1
    simp only [World.prog, getP, run_bind, run_bitRangeP (t := 0) ⟨hw.free y.ref, hp y (by rw [hxy]; simp)⟩ (hw.free.idle 0), hb, run, afterRead]
  refine ⟨t, hget, flood_run chk p q hn t bs w hw hq hp g hg ?_ hv⟩
  rw [h2]
  show (((g.drop 14).take 4).drop 2).take 2 = _
  rw [List.drop_take, List.drop_drop, List.take_take]
  rfl

theorem u16At_spoilt (g : Bytes) (hg : 18 ≤ g.length) : u16At (spoilt g) 12 = u16At g 16 := by
  have h12 : (g.take 12).length = 12 := by rw [List.length_take]; omega
  rw [spoilt, u16At_append_right _ _ _ (by omega), h12, u16At_append_left _ _ _ (by rw [List.length_take, List.length_drop]; omega), u16At_take _ _ _ (by omega), u16At_drop]

theorem spoilt_eq_iff (g : Bytes) (hg : 18 ≤ g.length) : spoilt g = g ↔ u16At g 16 = u16At g 12 := by
  constructor
  · intro h
    rw [← u16At_spoilt g hg, h]
  · intro h
    obtain ⟨a, -, a1, a2⟩ := get_be16 true ⟨Ether, g⟩ ⟨"", 96, 111⟩ 12 rfl rfl (by simp only; omega)
    obtain ⟨b, -, b1, b2⟩ := get_be16 true ⟨Ether, g⟩ ⟨"", 128, 143⟩ 16 rfl rfl (by simp only; omega)
    simp only at a1 a2 b1 b2
    have hab : b = a := BitVec.eq_of_toNat_eq (by rw [a2, b2, h])
    rw [spoilt, ← b1, hab, a1, show g.drop 14 = (g.drop 12).drop 2 by rw [List.drop_drop], List.take_append_drop, List.take_append_drop]

/-- **C115** (when it is right): all ports get the right frame if and only if no port with tags comes after one without, or the type
behind the tag is again that of a tag. -/
theorem C115_right_iff (g : Bytes) (hg : 18 ≤ g.length) (ht : u16At g 12 = 0x8100) (bs : List Bool) :
    (∀ k b, bs[k]? = some b → floodFrame g bs k b = if b then dropTag g else g) ↔
      u16At g 16 = 0x8100 ∨ ∀ i k : Nat, i < k → bs[i]? = some true → bs[k]? ≠ some false := by
  have hs := spoilt_eq_iff g hg
  rw [ht] at hs
  constructor
  · intro h
    refine or_iff_not_imp_left.mpr fun hn i k hik hi hk => ?_
    have := h k false hk
    have hm : true ∈ bs.take k := List.mem_iff_getElem?.mpr ⟨i, by rw [List.getElem?_take_of_lt hik]; exact hi⟩
    simp only [floodFrame, Bool.false_eq_true, if_false, hm, if_true] at this
    exact hn (hs.mp this)
  · intro h k b hb
    cases b with
    | true => simp [floodFrame]
    | false =>
      simp only [floodFrame, Bool.false_eq_true, if_false]
      split
      · next hm =>
        rcases h with h | h
        · exact hs.mpr h
        · obtain ⟨i, hi⟩ := List.mem_iff_getElem?.mp hm
          rw [List.getElem?_take] at hi
          obtain ⟨hik, hi⟩ := Option.ite_none_right_eq_some.mp hi
          exact absurd hb (h i k hik hi)
      · rfl

/-- **C115** (what becomes of a wrong one): a switch that gets it on a trunk drops it. -/
theorem C115_dropped (g : Bytes) (hg : 18 ≤ g.length) (h : u16At g 16 ≠ 0x8100) (c : BitVec 12 → Bool) :
    (Port.trunk c).classify (spoilt g) = none :=
  if_neg fun h' => h (by rw [← u16At_spoilt g hg]; exact h'.2.1)

/-! ## Examples -/

/-- A frame with tag 10 and type 0x0800 behind it. -/
def floodSample : Bytes := sampleFrame 9 1 [0x81#8, 0#8, 0#8, 10#8, 8#8, 0#8, 6#8]

/-- A world with the packet of the frame in it, in variable 0. -/
def floodWorld : World := sampleWorld [.adopt (inside floodSample)]

-- the hypotheses of `C115_clones` hold
example : ∃ q, floodWorld.pkt? 0 = some q ∧ (q.hdrs.map HRef.ref).Nodup ∧ (∀ h ∈ q.hdrs, (floodWorld.mem h.ref).poisoned = false) ∧
    q.view floodWorld.mem = inside floodSample := by
  refine ⟨⟨[⟨Ether, 0⟩, ⟨Vlan, 1⟩], [6#8]⟩, ?_⟩
  decide +kernel
example : 18 ≤ floodSample.length ∧ u16At floodSample 12 = 0x8100 ∧ u16At floodSample 16 ≠ 0x8100 := by decide +kernel

/-- Ports with tags first: each gets its frame. -/
theorem C115_tagged_first : sentFrames (perform true floodWorld (floodOps 0 0x800#64 1 [false, true])).2 =
    [floodSample, dropTag floodSample] := by decide +kernel

/-- The other way round: the frame for the second port is wrong, and so is the packet afterwards. -/
theorem C115_tagged_last : (sentFrames (perform true floodWorld (floodOps 0 0x800#64 1 [true, false])).2 =
      [dropTag floodSample, spoilt floodSample]) ∧ spoilt floodSample ≠ floodSample ∧
    (perform true floodWorld (floodOps 0 0x800#64 1 [true, false])).1.serialize true 0 = .ok (.bytes (spoilt floodSample)) := by
  decide +kernel

end PacketRs
