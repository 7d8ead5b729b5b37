import Verif.Spec.Switch
import Verif.Props.Resolve
import Verif.Props.Surgery
import Verif.Props.View
import Verif.Props.Show
/-!
# Property C114: a switch with VLANs made with the crate

The switch makes headers of the first octets of a frame and leaves the rest as payload, so that nothing behind the tag is parsed.
Inside the switch every packet has a tag: `tag` (C71) puts it in at a port without tags, `untag` takes it out.
-/
namespace PacketRs
open Spec Utils

/-! ## The client -/

/-- The link headers of a frame:
`let mut pkt = Packet::new(); pkt.push(Ether::from(f[..14].to_vec()));`, if the type is that of a tag
`pkt.push(Vlan::from(f[14..18].to_vec()))`, and the rest as payload.  Frames that are too short are dropped. -/
def linkPacket (chk : Bool) (f : Bytes) : R (Option (Packet × Bool)) :=
  if f.length < 14 then pure none
  else do
    let p := Packet.new.push ⟨Ether, f.take 14⟩
    let t ← readField chk Ether Ether.etype p
    if t = 0x8100 then
      if f.length < 18 then pure none
      else pure (some ((p.push ⟨Vlan, (f.drop 14).take 4⟩).set_payload (f.drop 18), true))
    else pure (some (p.set_payload (f.drop 14), false))

/-- The packet, with a tag, and its VLAN. -/
def switchIn (chk : Bool) (port : Port) (f : Bytes) : R (Option (Packet × BitVec 12)) := do
  match ← linkPacket chk f with
  | none => pure none
  | some (p, tagged) =>
    match port with
    | .access v =>
      if tagged then pure none
      else do
        let q ← tag chk 0 (v.setWidth 16) p
        pure (some (q, v))
    | .trunk c =>
      if tagged then do
        let v ← readField chk Vlan Vlan.vid p
        if c (v.setWidth 12) then pure (some (p, v.setWidth 12)) else pure none
      else pure none

/-- A frame comes in at port `i`; the frames that go out, with their ports.  The packet is serialized with the tag before the tag is
taken out, once for all ports (a clone of the packet would share its headers, C18). -/
def switchReceive (chk : Bool) (ports : Nat → Port) (n : Nat) (t : SwTable) (i : Nat) (f : Bytes) :
    R (SwTable × List (Nat × Bytes)) := do
  match ← switchIn chk (ports i) f with
  | none => pure (t, [])
  | some (q, v) =>
    let src ← readField chk Ether Ether.src q
    let dst ← readField chk Ether Ether.dst q
    let withTag := q.to_vec
    let p ← untag chk q
    let without := p.to_vec
    let t' : SwTable := fun w a => if w = v ∧ a = src ∧ src.toNat / 2 ^ 40 % 2 = 0 then some i else t w a
    let js := (List.range n).filter fun j => j ≠ i ∧ (ports j).member v ∧ ((t' v dst).isNone ∨ t' v dst = some j)
    pure (t', js.map fun j => (j, if (ports j).isAccess then without else withTag))

/-- What happens at a switch: a frame comes in, or an entry is forgotten. -/
inductive SwEvent where
  | arrive (i : Nat) (f : Bytes)
  | forget (v : BitVec 12) (a : U64)

/-- One event after the other; all that went out. -/
def switchRun (chk : Bool) (ports : Nat → Port) (n : Nat) : List SwEvent → SwTable → R (SwTable × List (Nat × Bytes))
  | [], t => pure (t, [])
  | .arrive i f :: es, t => do
    let x ← switchReceive chk ports n t i f
    let y ← switchRun chk ports n es x.1
    pure (y.1, x.2 ++ y.2)
  | .forget v a :: es, t => switchRun chk ports n es fun w b => if w = v ∧ b = a then none else t w b

/-! ## Tags -/

/-- `tag` on a packet with an Ethernet header. -/
theorem tag_link (chk : Bool) (pcp : Byte) (vid : U16) (h1 : Bytes) (hs : List Hdr) (pl : Bytes) (hl1 : h1.length = 14) :
    tag chk pcp vid ⟨⟨Ether, h1⟩ :: hs, pl⟩ = .ok ⟨⟨Ether, h1.take 12 ++ [0x81#8, 0x00#8]⟩ ::
      ⟨Vlan, be16 (vid ||| (pcp.setWidth 16 <<< 13)) ++ h1.drop 12⟩ :: hs, pl⟩ := by
  obtain ⟨t, g1, g2, g3⟩ := get_be16 chk ⟨Ether, h1⟩ Ether.etype 12 rfl rfl (by simp only; omega)
  have hd2 : (h1.drop 12).take 2 = h1.drop 12 := List.take_of_length_le (by rw [List.length_drop]; omega)
  have hd1 : h1.drop 14 = [] := List.drop_of_length_le (by omega)
  simp only [hd2] at g2
  have hset := set_be16 ⟨Ether, h1⟩ Ether.etype 12 0x8100#64 rfl rfl (by simp only; omega)
  rw [hd1, List.append_nil] at hset
  have i1 : Packet.indexName ⟨⟨Ether, h1⟩ :: hs, pl⟩ "Ether" = .ok ⟨Ether, h1⟩ := rfl
  have i2 : Packet.remove ⟨⟨Ether, h1⟩ :: hs, pl⟩ 0 = .ok ⟨hs, pl⟩ := by
    simp [Packet.remove, Packet.vecRemove]
  unfold tag
  rw [i1]
  simp only [bind, Except.bind, ne_eq, not_true_eq_false, if_false, pure, Except.pure, g1, i2, vlan_eq, g2, hset]
  rfl

/-- `untag` on a packet with an Ethernet header and a tag. -/
theorem untag_link (chk : Bool) (h1 h2 : Bytes) (hs : List Hdr) (pl : Bytes) (hl1 : h1.length = 14) (hl2 : h2.length = 4) :
    untag chk ⟨⟨Ether, h1⟩ :: ⟨Vlan, h2⟩ :: hs, pl⟩ = .ok ⟨⟨Ether, h1.take 12 ++ h2.drop 2⟩ :: hs, pl⟩ := by
  obtain ⟨t, g1, g2, g3⟩ := get_be16 chk ⟨Vlan, h2⟩ Vlan.etype 2 rfl rfl (by simp only; omega)
  have hset := set_be16 ⟨Ether, h1⟩ Ether.etype 12 t rfl rfl (by simp only; omega)
  have hd2 : (h2.drop 2).take 2 = h2.drop 2 := List.take_of_length_le (by rw [List.length_drop]; omega)
  have hd1 : h1.drop 14 = [] := List.drop_of_length_le (by omega)
  rw [g2, hd2, hd1, List.append_nil] at hset
  have i1 : Packet.indexName ⟨⟨Ether, h1⟩ :: ⟨Vlan, h2⟩ :: hs, pl⟩ "Vlan" = .ok ⟨Vlan, h2⟩ := rfl
  have i2 : Packet.remove ⟨⟨Ether, h1⟩ :: ⟨Vlan, h2⟩ :: hs, pl⟩ 1 = .ok ⟨⟨Ether, h1⟩ :: hs, pl⟩ := by
    simp [Packet.remove, Packet.vecRemove]
  have i3 : Packet.withHeaderMut ⟨⟨Ether, h1⟩ :: hs, pl⟩ Ether "Ether" (fun e => e.set Ether.etype t) =
      .ok ⟨⟨Ether, h1.take 12 ++ h2.drop 2⟩ :: hs, pl⟩ := by
    unfold Packet.withHeaderMut
    have := modifyFirst_eq "Ether" (fun h => if h.ty = Ether then h.set Ether.etype t else .error .downcast) [] hs
      ⟨Ether, h1⟩ _ (by simp) rfl ((if_pos rfl).trans hset)
    simp only [List.nil_append] at this
    simp only [this]
    rfl
  unfold untag
  rw [i1]
  simp only [bind, Except.bind, ne_eq, not_true_eq_false, if_false, g1, i2, i3]

/-! ## Coming in -/

theorem be16_vid (v : BitVec 12) : be16 (v.setWidth 16 ||| ((0 : Byte).setWidth 16 <<< 13)) =
    [BitVec.ofNat 8 (v.toNat / 256), BitVec.ofNat 8 v.toNat] := by
  have h := v.isLt
  have e : v.setWidth 16 ||| ((0 : Byte).setWidth 16 <<< 13) = v.setWidth 16 := by simp
  rw [e]
  unfold be16
  congr 1
  · apply BitVec.eq_of_toNat_eq
    simp [Nat.shiftRight_eq_div_pow]
    omega

/-- The packet inside the switch, as octets: Ethernet header and tag, of a frame with a tag. -/
def inside (g : Bytes) : Packet := ⟨[⟨Ether, g.take 14⟩, ⟨Vlan, (g.drop 14).take 4⟩], g.drop 18⟩

theorem inside_to_vec (g : Bytes) : (inside g).to_vec = g := by
  simp only [inside, Packet.to_vec, List.foldl_cons, List.foldl_nil, List.nil_append]
  show g.take 14 ++ (g.drop 14).take 4 ++ g.drop 18 = g
  rw [List.append_assoc, show g.drop 18 = (g.drop 14).drop 4 by rw [List.drop_drop], List.take_append_drop, List.take_append_drop]

theorem inside_untag (chk : Bool) (g : Bytes) (hg : 18 ≤ g.length) : ∃ p, untag chk (inside g) = .ok p ∧ p.to_vec = dropTag g := by
  have hl : (g.take 14).length = 14 := by rw [List.length_take]; omega
  refine ⟨_, untag_link chk (g.take 14) ((g.drop 14).take 4) [] (g.drop 18) hl (by rw [List.length_take, List.length_drop]; omega), ?_⟩
  simp only [Packet.to_vec, List.foldl_cons, List.foldl_nil, List.nil_append]
  show (g.take 14).take 12 ++ ((g.drop 14).take 4).drop 2 ++ g.drop 18 = dropTag g
  rw [List.take_take, Nat.min_eq_left (by omega), List.drop_take, List.drop_drop, List.append_assoc, dropTag,
    show g.drop 18 = (g.drop 16).drop 2 by rw [List.drop_drop]]
  show _ ++ ((g.drop 16).take 2 ++ _) = _
  rw [List.take_append_drop]

/-- The frame inside the switch. -/
def Spec.Port.interior (p : Port) (v : BitVec 12) (f : Bytes) : Bytes :=
  match p with
  | .access _ => addTag v f
  | .trunk _ => f

theorem linkPacket_eq (chk : Bool) (f : Bytes) : linkPacket chk f =
    .ok (if f.length < 14 then none
      else if u16At f 12 = 0x8100 then if f.length < 18 then none else some (inside f, true)
      else some (⟨[⟨Ether, f.take 14⟩], f.drop 14⟩, false)) := by
  unfold linkPacket
  by_cases h14 : f.length < 14
  · rw [if_pos h14, if_pos h14]; rfl
  rw [if_neg h14, if_neg h14]
  have hl : (f.take 14).length = 14 := by rw [List.length_take]; omega
  obtain ⟨t, g1, g2, g3⟩ := get_be16 chk ⟨Ether, f.take 14⟩ Ether.etype 12 rfl rfl (by simp only; omega)
  have rd : readField chk Ether Ether.etype (Packet.new.push ⟨Ether, f.take 14⟩) = .ok t := g1
  have hu : u16At (f.take 14) 12 = u16At f 12 := by
    conv => rhs; rw [← List.take_append_drop 14 f]
    rw [u16At_append_left _ _ _ (by omega)]
  simp only [hu] at g3
  simp only [rd, bind, Except.bind]
  by_cases ht : u16At f 12 = 0x8100
  · rw [if_pos (BitVec.eq_of_toNat_eq (by rw [g3, ht]; rfl)), if_pos ht]
    by_cases h18 : f.length < 18
    · rw [if_pos h18, if_pos h18]; rfl
    · rw [if_neg h18, if_neg h18]; rfl
  · rw [if_neg (fun h => ht (by rw [← g3, h]; rfl)), if_neg ht]
    rfl

theorem inside_vid (chk : Bool) (f : Bytes) (h18 : 18 ≤ f.length) :
    ∃ x, readField chk Vlan Vlan.vid (inside f) = .ok x ∧ x.setWidth 12 = BitVec.ofNat 12 (u16At f 14) := by
  have hl4 : ((f.drop 14).take 4).length = 4 := by rw [List.length_take, List.length_drop]; omega
  obtain ⟨x, x1, x2, -⟩ := C01_getter_value chk ⟨Vlan, (f.drop 14).take 4⟩ Vlan.vid (by simp only [hl4]; decide) (by decide)
  refine ⟨x, x1, ?_⟩
  have e : x.toNat = u16At f 14 % 2 ^ 12 := by
    rw [x2, ← fieldVal_u16 f 14 (by omega), fieldVal_mod f _ _ 12 (by omega) (by omega)]
    exact fieldVal_window f 14 4 4 15 (by omega) (by omega) (by omega)
  apply BitVec.eq_of_toNat_eq
  rw [BitVec.toNat_setWidth, e, BitVec.toNat_ofNat, Nat.mod_mod]

theorem inside_addTag (v : BitVec 12) (f : Bytes) (h : 14 ≤ f.length) : inside (addTag v f) =
    ⟨[⟨Ether, (f.take 14).take 12 ++ [0x81#8, 0x00#8]⟩,
      ⟨Vlan, [BitVec.ofNat 8 (v.toNat / 256), BitVec.ofNat 8 v.toNat] ++ (f.take 14).drop 12⟩], f.drop 14⟩ := by
  have h12 : (f.take 12).length = 12 := by rw [List.length_take]; omega
  obtain ⟨x, y, r, e⟩ : ∃ x y r, f.drop 12 = x :: y :: r := by
    match he : f.drop 12 with
    | [] => have := congrArg List.length he; rw [List.length_drop, List.length_nil] at this; omega
    | [_] => have := congrArg List.length he; rw [List.length_drop, List.length_singleton] at this; omega
    | x :: y :: r => exact ⟨x, y, r, rfl⟩
  have ef : f = f.take 12 ++ (x :: y :: r) := by rw [← e, List.take_append_drop]
  generalize f.take 12 = a at h12 ef
  subst ef
  have d : ∀ (n : Nat) (z : Bytes), (a ++ z).drop (12 + n) = z.drop n := fun n z => by rw [List.drop_append, h12]; simp [List.drop_of_length_le (show a.length ≤ 12 + n by omega)]
  have t : ∀ (n : Nat) (z : Bytes), (a ++ z).take (12 + n) = a ++ z.take n := fun n z => by rw [List.take_append, h12, List.take_of_length_le (by omega)]; simp
  have d0 : ∀ z : Bytes, (a ++ z).drop 12 = z := d 0
  have t0 : ∀ z : Bytes, (a ++ z).take 12 = a := fun z => by rw [t 0 z]; simp
  have t2 : ∀ z : Bytes, (a ++ z).take 14 = a ++ z.take 2 := t 2
  have d2 : ∀ z : Bytes, (a ++ z).drop 14 = z.drop 2 := d 2
  have d6 : ∀ z : Bytes, (a ++ z).drop 18 = z.drop 6 := d 6
  simp only [inside, addTag, t0, d0, t2, d2, d6]
  rfl

theorem switchIn_eq (chk : Bool) (port : Port) (f : Bytes) :
    switchIn chk port f = .ok ((port.classify f).map fun v => (inside (port.interior v f), v)) := by
  unfold switchIn
  rw [linkPacket_eq]
  simp only [bind, Except.bind]
  by_cases h14 : f.length < 14
  · rw [if_pos h14]
    cases port <;> simp only [Port.classify] <;> rw [if_neg (by omega)] <;> rfl
  rw [if_neg h14]
  have hl : (f.take 14).length = 14 := by rw [List.length_take]; omega
  by_cases ht : u16At f 12 = 0x8100
  · rw [if_pos ht]
    by_cases h18 : f.length < 18
    · rw [if_pos h18]
      cases port <;> simp only [Port.classify]
      · rw [if_neg (by simp [ht])]; rfl
      · rw [if_neg (by omega)]; rfl
    · rw [if_neg h18]
      cases port with
      | access v =>
        have e : (Port.access v).classify f = none := if_neg (fun h => h.2 ht)
        rw [e]; rfl
      | trunk c =>
        obtain ⟨x, x1, hx⟩ := inside_vid chk f (by omega)
        simp only [pure, Except.pure, if_true, x1, hx, Port.classify, ht, true_and]
        by_cases hc : c (BitVec.ofNat 12 (u16At f 14)) = true
        · rw [if_pos hc, if_pos ⟨by omega, hc⟩]; rfl
        · rw [if_neg hc, if_neg (fun h => hc h.2)]; rfl
  · rw [if_neg ht]
    cases port with
    | trunk c =>
      have e : (Port.trunk c).classify f = none := if_neg (fun h => ht h.2.1)
      rw [e]; rfl
    | access v =>
      simp only [pure, Except.pure, Port.classify, tag_link chk 0 (v.setWidth 16) (f.take 14) [] (f.drop 14) hl, be16_vid]
      rw [if_neg (by decide), if_pos ⟨by omega, ht⟩]
      simp only [Option.map_some, Port.interior, inside_addTag v f (by omega)]

/-- What is inside has the addresses of the frame, and leaves as the specification says. -/
theorem interior_facts {port : Port} {f : Bytes} {v : BitVec 12} (h : port.classify f = some v) :
    18 ≤ (port.interior v f).length ∧ (port.interior v f).take 12 = f.take 12 ∧
      ∀ q, (if q.isAccess then dropTag (port.interior v f) else port.interior v f) = port.emit q v f := by
  cases port with
  | trunk c =>
    simp only [Port.classify] at h
    obtain ⟨⟨h1, -⟩, -⟩ := Option.ite_none_right_eq_some.mp h
    exact ⟨h1, rfl, fun q => by cases q <;> rfl⟩
  | access w =>
    simp only [Port.classify] at h
    obtain ⟨⟨h1, -⟩, h2⟩ := Option.ite_none_right_eq_some.mp h
    have h12 : (f.take 12).length = 12 := by rw [List.length_take]; omega
    refine ⟨?_, ?_, fun q => ?_⟩
    · simp only [Port.interior, addTag, List.length_append, List.length_cons, List.length_nil, List.length_drop, h12]; omega
    · simp only [Port.interior, addTag]; rw [List.take_left' h12]
    · cases q
      · simp only [Port.isAccess, if_true, Port.interior, Port.emit, addTag, dropTag]
        rw [List.take_left' h12, List.drop_append, List.drop_of_length_le (by omega), h12]
        simp
      · rfl

theorem inside_addrs (chk : Bool) (g : Bytes) (hg : 18 ≤ g.length) :
    readField chk Ether Ether.src (inside g) = .ok (frameSrc g) ∧ readField chk Ether Ether.dst (inside g) = .ok (frameDst g) ∧
      ((frameSrc g).toNat / 2 ^ 40 % 2 = 0 ↔ isGroup (g.drop 6) = false) := by
  have hl : (g.take 14).length = 14 := by rw [List.length_take]; omega
  obtain ⟨x, x1, x2, -⟩ := C01_getter_value chk ⟨Ether, g.take 14⟩ Ether.src (by simp only [hl]; decide) (by decide)
  obtain ⟨y, y1, y2, -⟩ := C01_getter_value chk ⟨Ether, g.take 14⟩ Ether.dst (by simp only [hl]; decide) (by decide)
  have wx : fieldVal (g.take 14) 48 95 = fieldVal g 48 95 := fieldVal_window g 0 14 48 95 (by omega) (by omega) (by omega)
  have wy : fieldVal (g.take 14) 0 47 = fieldVal g 0 47 := fieldVal_window g 0 14 0 47 (by omega) (by omega) (by omega)
  have sx : fieldVal g 48 95 = beNat ((g.drop 6).take 6) := fieldVal_slice g 6 6 (by omega) (by omega)
  have sy : fieldVal g 0 47 = beNat (g.take 6) := fieldVal_slice g 0 6 (by omega) (by omega)
  have nx : (frameSrc g).toNat = beNat ((g.drop 6).take 6) := addrNum_toNat _ (by rw [List.length_take]; omega)
  have ny : (frameDst g).toNat = beNat (g.take 6) := addrNum_toNat _ (by rw [List.length_take]; omega)
  refine ⟨?_, ?_, ?_⟩
  · have e : x = frameSrc g := BitVec.eq_of_toNat_eq (by rw [nx, ← sx, ← wx]; exact x2)
    rw [← e]; exact x1
  · have e : y = frameDst g := BitVec.eq_of_toNat_eq (by rw [ny, ← sy, ← wy]; exact y2)
    rw [← e]; exact y1
  · rw [nx, ← sx, fieldVal_div g 48 95 40 (by omega) (by omega), show fieldVal g 48 (95 - 40) = u8At g 6 from fieldVal_u8 g 6 (by omega)]
    have : u8At (g.drop 6) 0 = u8At g 6 := by simp [u8At]
    simp only [isGroup, this, decide_eq_false_iff_not]
    omega

/-! ## The theorems -/

/-- **C114**: the switch never panics, whatever comes in; what it learns and sends is what the specification says. -/
theorem C114_receive (chk : Bool) (ports : Nat → Port) (n : Nat) (t : SwTable) (i : Nat) (f : Bytes) :
    switchReceive chk ports n t i f = .ok (bridged ports n t i f) := by
  unfold switchReceive bridged
  rw [switchIn_eq]
  simp only [bind, Except.bind]
  cases hc : (ports i).classify f with
  | none => rfl
  | some v =>
    obtain ⟨h18, h12, hem⟩ := interior_facts hc
    simp only [Option.map_some]
    generalize (ports i).interior v f = g at h18 h12 hem ⊢
    obtain ⟨r1, r2, r3⟩ := inside_addrs chk g h18
    obtain ⟨p, u1, u2⟩ := inside_untag chk g h18
    have hs : frameSrc g = frameSrc f := by
      have := congrArg (List.drop 6) h12
      rw [List.drop_take, List.drop_take] at this
      exact congrArg addrNum this
    have hd : frameDst g = frameDst f := by
      have := congrArg (List.take 6) h12
      rw [List.take_take, List.take_take] at this
      exact congrArg addrNum this
    have hg : isGroup (g.drop 6) = isGroup (f.drop 6) := by
      have e : ∀ x : Bytes, u8At (x.drop 6) 0 = u8At ((x.take 12).drop 6) 0 := fun x => by simp [u8At]
      simp only [isGroup, e g, e f, h12]
    rw [hs, hg] at r3
    simp only [r1, r2, u1, u2, inside_to_vec, hs, hd, hem, r3, SwTable.note, leaves]
    rfl

/-- Specification of an execution. -/
def Spec.bridgedRun (ports : Nat → Port) (n : Nat) : List SwEvent → SwTable → SwTable × List (Nat × Bytes)
  | [], t => (t, [])
  | .arrive i f :: es, t =>
    let x := bridged ports n t i f
    let y := bridgedRun ports n es x.1
    (y.1, x.2 ++ y.2)
  | .forget v a :: es, t => bridgedRun ports n es fun w b => if w = v ∧ b = a then none else t w b

theorem switchRun_eq (chk : Bool) (ports : Nat → Port) (n : Nat) (es : List SwEvent) (t : SwTable) :
    switchRun chk ports n es t = .ok (bridgedRun ports n es t) := by
  induction es generalizing t with
  | nil => rfl
  | cons e es ih =>
    cases e with
    | arrive i f => simp only [switchRun, C114_receive, ih, bind, Except.bind, bridgedRun]; rfl
    | forget v a => exact ih _

theorem mem_bridged {ports : Nat → Port} {n : Nat} {t : SwTable} {i j : Nat} {f g : Bytes} (h : (j, g) ∈ (bridged ports n t i f).2) :
    ∃ v, (ports i).classify f = some v ∧ j < n ∧ j ≠ i ∧ (ports j).member v = true ∧ g = (ports i).emit (ports j) v f ∧
      (t.note v i f v (frameDst f) = none ∨ t.note v i f v (frameDst f) = some j) := by
  unfold bridged at h
  split at h
  · cases h
  · next v hv =>
    obtain ⟨k, hk, e⟩ := List.mem_map.mp h
    cases e
    simp only [leaves, List.mem_filter, List.mem_range, decide_eq_true_eq, Option.isNone_iff_eq_none] at hk
    exact ⟨v, hv, hk.1, hk.2.1, hk.2.2.1, rfl, hk.2.2.2⟩

/-- **C114** (isolation): over any execution from any table the switch does not panic, and whatever leaves at a port came in before at
another port, in a VLAN both ports belong to, and is the frame that came in but for the tag. -/
theorem C114_isolated (chk : Bool) (ports : Nat → Port) (n : Nat) (es : List SwEvent) (t : SwTable) :
    ∃ t' out, switchRun chk ports n es t = .ok (t', out) ∧ ∀ j g, (j, g) ∈ out →
      ∃ i f v, .arrive i f ∈ es ∧ i ≠ j ∧ j < n ∧ (ports i).classify f = some v ∧ (ports j).member v = true ∧
        g = (ports i).emit (ports j) v f := by
  refine ⟨_, _, switchRun_eq chk ports n es t, ?_⟩
  induction es generalizing t with
  | nil => intro j g h; cases h
  | cons e es ih =>
    intro j g h
    cases e with
    | arrive i f =>
      rcases List.mem_append.mp h with h | h
      · obtain ⟨v, h1, h2, h3, h4, h5, -⟩ := mem_bridged h
        exact ⟨i, f, v, List.mem_cons_self .., Ne.symm h3, h2, h1, h4, h5⟩
      · obtain ⟨i', f', v, h1, h2⟩ := ih _ j g h
        exact ⟨i', f', v, List.mem_cons_of_mem _ h1, h2⟩
    | forget v a =>
      obtain ⟨i', f', v, h1, h2⟩ := ih _ j g h
      exact ⟨i', f', v, List.mem_cons_of_mem _ h1, h2⟩

/-- A frame is noted in VLAN `v` with source `a`. -/
def Noted (ports : Nat → Port) (v : BitVec 12) (a : U64) (i : Nat) (f : Bytes) : Prop :=
  (ports i).classify f = some v ∧ frameSrc f = a ∧ isGroup (f.drop 6) = false

/-- The entry of `a` in VLAN `v` is left as it is. -/
def Undisturbed (ports : Nat → Port) (v : BitVec 12) (a : U64) : SwEvent → Prop
  | .arrive i f => ¬ Noted ports v a i f
  | .forget w b => ¬ (w = v ∧ b = a)

theorem bridged_table (ports : Nat → Port) (n : Nat) (t : SwTable) (i : Nat) (f : Bytes) (v : BitVec 12) (a : U64) :
    (Noted ports v a i f → (bridged ports n t i f).1 v a = some i) ∧ (¬ Noted ports v a i f → (bridged ports n t i f).1 v a = t v a) := by
  unfold bridged Noted
  split
  · next h => exact ⟨fun x => (by rw [h] at x; exact nomatch x.1), fun _ => rfl⟩
  · next w h =>
    refine ⟨fun x => ?_, fun x => ?_⟩
    · rw [h] at x
      obtain ⟨x1, x2, x3⟩ := x
      exact if_pos ⟨(Option.some.inj x1).symm, x2.symm, x3⟩
    · refine if_neg fun y => x ⟨by rw [h, y.1], y.2.1.symm, y.2.2⟩

theorem undisturbed_run (ports : Nat → Port) (n : Nat) (v : BitVec 12) (a : U64) (es : List SwEvent) (t : SwTable)
    (h : ∀ e ∈ es, Undisturbed ports v a e) : (bridgedRun ports n es t).1 v a = t v a := by
  induction es generalizing t with
  | nil => rfl
  | cons e es ih =>
    have he := h e (List.mem_cons_self ..)
    have hs := fun x hx => h x (List.mem_cons_of_mem _ hx)
    cases e with
    | arrive i f =>
      show (bridgedRun ports n es (bridged ports n t i f).1).1 v a = _
      rw [ih _ hs, (bridged_table ports n t i f v a).2 he]
    | forget w b =>
      show (bridgedRun ports n es _).1 v a = _
      rw [ih _ hs]
      exact if_neg fun x => he ⟨x.1.symm, x.2.symm⟩

theorem filter_eq_singleton (n k : Nat) (hk : k < n) (P : Nat → Bool) (hP : ∀ j, P j = true ↔ j = k) : (List.range n).filter P = [k] := by
  have e : P = fun j => j == k := by
    funext j
    have := hP j
    by_cases h : j = k
    · rw [this.mpr h, h]; simp
    · have : P j = false := by simpa [h] using this
      simp [this, h]
  rw [e, List.filter_beq, List.nodup_range.count, if_pos (List.mem_range.mpr hk)]
  rfl

/-- **C114** (a known station): after a frame from station `a` was taken in VLAN `v` at port `k`, whatever happened before, and as long
as no other frame with this source is taken in this VLAN and the entry is not forgotten, a frame to `a` in this VLAN leaves at port `k`,
once, and nowhere else; at port `k` itself it comes in without leaving anywhere. -/
theorem C114_known (chk : Bool) (ports : Nat → Port) (n : Nat) (es0 es : List SwEvent) (t : SwTable) (v : BitVec 12) (k : Nat) (f0 : Bytes)
    (hk : k < n) (h0 : Noted ports v (frameSrc f0) k f0) (hes : ∀ e ∈ es, Undisturbed ports v (frameSrc f0) e)
    (i : Nat) (f : Bytes) (hc : (ports i).classify f = some v) (hd : frameDst f = frameSrc f0)
    (hs : frameSrc f ≠ frameSrc f0) :
    ∃ t1 out t2, switchRun chk ports n (es0 ++ .arrive k f0 :: es) t = .ok (t1, out) ∧
      switchReceive chk ports n t1 i f = .ok (t2, if i = k then [] else [(k, (ports i).emit (ports k) v f)]) := by
  have hrun : ∀ (es0 : List SwEvent) (t : SwTable), ∃ t0, (bridgedRun ports n (es0 ++ .arrive k f0 :: es) t).1 =
      (bridgedRun ports n (.arrive k f0 :: es) t0).1 := by
    intro es0
    induction es0 with
    | nil => intro t; exact ⟨t, rfl⟩
    | cons e es0 ih =>
      intro t
      cases e with
      | arrive => exact ih _
      | forget => exact ih _
  obtain ⟨t0, e0⟩ := hrun es0 t
  have ht : (bridgedRun ports n (es0 ++ .arrive k f0 :: es) t).1 v (frameSrc f0) = some k := by
    rw [e0]
    show (bridgedRun ports n es (bridged ports n t0 k f0).1).1 v _ = _
    rw [undisturbed_run ports n v _ es _ hes, (bridged_table ports n t0 k f0 v _).1 h0]
  refine ⟨_, _, (bridged ports n (bridgedRun ports n (es0 ++ .arrive k f0 :: es) t).1 i f).1, switchRun_eq .., ?_⟩
  rw [C114_receive]
  generalize (bridgedRun ports n (es0 ++ .arrive k f0 :: es) t).1 = u at ht
  have hm : (ports k).member v = true := by
    have := h0.1
    cases hp : ports k with
    | access w => rw [hp] at this; simp only [Port.classify] at this; exact decide_eq_true (Option.some.inj (Option.ite_none_right_eq_some.mp this).2)
    | trunk c =>
      rw [hp] at this
      simp only [Port.classify] at this
      obtain ⟨h1, h2⟩ := Option.ite_none_right_eq_some.mp this
      rw [← Option.some.inj h2]
      exact h1.2.2
  have hn : u.note v i f v (frameDst f) = some k := by
    unfold SwTable.note
    rw [if_neg (fun h => hs (by rw [← h.2.1, hd])), hd, ht]
  unfold bridged
  rw [hc]
  simp only [Except.ok.injEq, Prod.mk.injEq, true_and]
  by_cases hik : i = k
  · rw [if_pos hik, leaves, List.filter_eq_nil_iff.mpr]
    · rfl
    · intro j _
      simp only [hn, decide_eq_true_eq, not_and, Option.isNone_some, Bool.false_eq_true, false_or, Option.some.injEq]
      intro h1 _ h2
      exact h1 (by rw [hik, h2])
  · rw [if_neg hik, leaves, filter_eq_singleton n k hk]
    · rfl
    · intro j
      simp only [hn, decide_eq_true_eq, Option.isNone_some, Bool.false_eq_true, false_or, Option.some.injEq]
      refine ⟨fun h => h.2.2.symm, fun h => ⟨?_, h ▸ hm, h.symm⟩⟩
      rw [h]
      exact fun e => hik e.symm

/-- **C114** (an unknown station or a group): a frame leaves once at every other port of its VLAN. -/
theorem C114_flood (chk : Bool) (ports : Nat → Port) (n : Nat) (t : SwTable) (v : BitVec 12) (i : Nat) (f : Bytes)
    (hc : (ports i).classify f = some v) (hd : t v (frameDst f) = none) (hs : frameSrc f ≠ frameDst f) :
    ∃ t', switchReceive chk ports n t i f = .ok (t', ((List.range n).filter fun j => j ≠ i ∧ (ports j).member v).map fun j =>
      (j, (ports i).emit (ports j) v f)) := by
  refine ⟨t.note v i f, (C114_receive chk ports n t i f).trans ?_⟩
  have hn : t.note v i f v (frameDst f) = none := by
    unfold SwTable.note
    rw [if_neg (fun h => hs h.2.1.symm), hd]
  unfold bridged
  rw [hc]
  simp only [leaves, hn, Option.isNone_none, true_or, and_true]

/-- No group is ever seen as a station. -/
def NoGroup (t : SwTable) : Prop := ∀ v (a : Bytes), a.length = 6 → isGroup a = true → t v (addrNum a) = none

theorem classify_length {p : Port} {f : Bytes} {v : BitVec 12} (h : p.classify f = some v) : 14 ≤ f.length := by
  cases p with
  | access w => simp only [Port.classify] at h; exact (Option.ite_none_right_eq_some.mp h).1.1
  | trunk c => simp only [Port.classify] at h; have := (Option.ite_none_right_eq_some.mp h).1.1; omega

theorem note_noGroup {t : SwTable} (ht : NoGroup t) (v : BitVec 12) (i : Nat) (f : Bytes) (hf : 14 ≤ f.length) : NoGroup (t.note v i f) := by
  intro w a hl ha
  unfold SwTable.note
  rw [if_neg, ht w a hl ha]
  rintro ⟨-, h1, h2⟩
  have h1 := (addrNum_inj (by omega) (by rw [List.length_take, List.length_drop]; omega)).mp h1
  have e : u8At a 0 = u8At (f.drop 6) 0 := by rw [h1]; simp [u8At]
  simp only [isGroup, e] at ha
  simp only [isGroup, ha] at h2
  exact nomatch h2

theorem run_noGroup (ports : Nat → Port) (n : Nat) (es : List SwEvent) (t : SwTable) (ht : NoGroup t) : NoGroup (bridgedRun ports n es t).1 := by
  induction es generalizing t with
  | nil => exact ht
  | cons e es ih =>
    cases e with
    | arrive i f =>
      refine ih _ ?_
      unfold bridged
      split
      · exact ht
      · next v hv => exact note_noGroup ht v i f (classify_length hv)
    | forget w b =>
      refine ih _ fun v a hl ha => ?_
      simp only [ht v a hl ha, ite_self]

/-- **C114** (groups): whatever has happened since the switch was started, a frame to a group leaves once at every other port of its
VLAN. -/
theorem C114_group (chk : Bool) (ports : Nat → Port) (n : Nat) (es : List SwEvent) (v : BitVec 12) (i : Nat) (f : Bytes)
    (hc : (ports i).classify f = some v) (hg : isGroup f = true) :
    ∃ t out t', switchRun chk ports n es (fun _ _ => none) = .ok (t, out) ∧ switchReceive chk ports n t i f = .ok (t',
      ((List.range n).filter fun j => j ≠ i ∧ (ports j).member v).map fun j => (j, (ports i).emit (ports j) v f)) := by
  have hr := run_noGroup ports n es (fun _ _ => none) (fun _ _ _ _ => rfl)
  refine ⟨_, _, SwTable.note (bridgedRun ports n es fun _ _ => none).1 v i f, switchRun_eq .., (C114_receive ..).trans ?_⟩
  generalize (bridgedRun ports n es fun _ _ => none).1 = t at hr ⊢
  have hl := classify_length hc
  have hn : t.note v i f v (frameDst f) = none := note_noGroup hr v i f hl v (f.take 6) (by rw [List.length_take]; omega) (by
    have : u8At (f.take 6) 0 = u8At f 0 := by simp [u8At]
    rw [← hg]; simp only [isGroup, this])
  unfold bridged
  rw [hc]
  simp only [leaves, hn, Option.isNone_none, true_or, and_true]

/-! ## Any number of switches -/

/-- A frame passes a switch, with whatever table, from one port to another. -/
structure SwHop where
  ports : Nat → Port
  n : Nat
  table : SwTable
  i : Nat
  j : Nat

/-- It comes in as `f` and leaves as `g`. -/
def SwHop.Carries (chk : Bool) (h : SwHop) (f g : Bytes) : Prop :=
  ∃ t out, switchReceive chk h.ports h.n h.table h.i f = .ok (t, out) ∧ (h.j, g) ∈ out

/-- A way through switches; where one leaves the next one begins, over a line that joins two ports. -/
inductive SwWay (chk : Bool) : SwHop → SwHop → Bytes → Bytes → Prop
  | one {h : SwHop} {f g : Bytes} : h.Carries chk f g → SwWay chk h h f g
  | more {h h1 h2 : SwHop} {f g g' : Bytes} : h.Carries chk f g → Joined (h.ports h.j) (h1.ports h1.i) → SwWay chk h1 h2 g g' → SwWay chk h h2 f g'

theorem Carries_iff {chk : Bool} {h : SwHop} {f g : Bytes} (hc : h.Carries chk f g) :
    ∃ v, (h.ports h.i).classify f = some v ∧ (h.ports h.j).member v = true ∧ g = (h.ports h.i).emit (h.ports h.j) v f := by
  obtain ⟨t, out, e, hm⟩ := hc
  rw [C114_receive] at e
  have e := Except.ok.inj e
  rw [show out = (bridged h.ports h.n h.table h.i f).2 by rw [e]] at hm
  obtain ⟨v, h1, -, -, h2, h3, -⟩ := mem_bridged hm
  exact ⟨v, h1, h2, h3⟩

/-- What a frame is under way: the tagless frame `f0` of VLAN `v`, at a port. -/
def Under (v : BitVec 12) (f0 : Bytes) (p : Port) (f : Bytes) : Prop :=
  match p with
  | .access w => w = v ∧ f = f0
  | .trunk _ => f = addTag v f0

theorem dropTag_addTag (v : BitVec 12) (f : Bytes) (h : 12 ≤ f.length) : dropTag (addTag v f) = f := by
  have h12 : (f.take 12).length = 12 := by rw [List.length_take]; omega
  simp only [addTag, dropTag]
  rw [List.take_left' h12, List.drop_append, List.drop_of_length_le (by omega), h12]
  simp

theorem addTag_vid (v : BitVec 12) (f : Bytes) (h : 12 ≤ f.length) : BitVec.ofNat 12 (u16At (addTag v f) 14) = v := by
  have h12 : (f.take 12).length = 12 := by rw [List.length_take]; omega
  have hv := v.isLt
  rw [addTag, u16At_append_right _ _ _ (by omega), h12]
  apply BitVec.eq_of_toNat_eq
  simp [u16At, u8At]
  omega

theorem hop_under {chk : Bool} {h : SwHop} {f g f0 : Bytes} {v : BitVec 12} (h0 : 12 ≤ f0.length) (hu : Under v f0 (h.ports h.i) f)
    (hc : h.Carries chk f g) : Under v f0 (h.ports h.j) g ∧ (h.ports h.j).member v = true := by
  obtain ⟨w, h1, h2, rfl⟩ := Carries_iff hc
  cases hi : h.ports h.i with
  | access x =>
    rw [hi] at hu h1
    obtain ⟨rfl, rfl⟩ := hu
    simp only [Port.classify] at h1
    obtain ⟨-, h1⟩ := Option.ite_none_right_eq_some.mp h1
    obtain rfl := Option.some.inj h1
    refine ⟨?_, h2⟩
    cases hj : h.ports h.j with
    | access y => rw [hj] at h2; exact ⟨of_decide_eq_true h2, rfl⟩
    | trunk c => rfl
  | trunk c =>
    rw [hi] at hu h1
    simp only [Under] at hu
    subst hu
    simp only [Port.classify] at h1
    obtain ⟨-, h1⟩ := Option.ite_none_right_eq_some.mp h1
    have h1 := Option.some.inj h1
    rw [addTag_vid v f0 h0] at h1
    subst h1
    refine ⟨?_, h2⟩
    cases hj : h.ports h.j with
    | access y => rw [hj] at h2; exact ⟨of_decide_eq_true h2, dropTag_addTag v f0 h0⟩
    | trunk c => rfl

theorem joined_under {p q : Port} {v : BitVec 12} {f0 f : Bytes} (h : Under v f0 p f) (hj : Joined p q) : Under v f0 q f := by
  cases p <;> cases q
  · exact ⟨hj ▸ h.1, h.2⟩
  · exact hj.elim
  · exact hj.elim
  · exact h

/-- **C114** (any number of switches): a frame that comes in at a port of VLAN `v` without tags and leaves, after any number of switches
with any tables, over lines that join ports of the same kind, at a port without tags, leaves at one of VLAN `v` and is the same to the
last octet; where it leaves at a port with tags it has the tag of VLAN `v` and is the same otherwise, and the port carries `v`. -/
theorem C114_way (chk : Bool) {h h' : SwHop} {f g : Bytes} (hw : SwWay chk h h' f g) (v : BitVec 12) (hi : h.ports h.i = .access v) :
    (∀ w, h'.ports h'.j = .access w → w = v ∧ g = f) ∧ (∀ c, h'.ports h'.j = .trunk c → c v = true ∧ g = addTag v f) := by
  have h14 : 14 ≤ f.length := by
    cases hw with
    | one hc => obtain ⟨w, h1, -⟩ := Carries_iff hc; exact classify_length h1
    | more hc _ _ => obtain ⟨w, h1, -⟩ := Carries_iff hc; exact classify_length h1
  have main : ∀ {h h' : SwHop} {f' g : Bytes}, SwWay chk h h' f' g → Under v f (h.ports h.i) f' →
      Under v f (h'.ports h'.j) g ∧ (h'.ports h'.j).member v = true := by
    intro h h' f' g hw
    induction hw with
    | one hc => exact fun hu => hop_under (by omega) hu hc
    | more hc hj _ ih => exact fun hu => ih (joined_under (hop_under (by omega) hu hc).1 hj)
  obtain ⟨hu, hm⟩ := main hw (by rw [hi]; exact ⟨rfl, rfl⟩)
  refine ⟨fun w hw => ?_, fun c hc => ?_⟩
  · rw [hw] at hu; exact hu
  · rw [hc] at hu hm; exact ⟨hm, hu⟩

/-! ## Cases -/

/-- Ports 0 and 1 in VLAN 10, port 2 in VLAN 20, port 3 a trunk for both, port 4 one for VLAN 20. -/
def samplePorts : Nat → Port
  | 0 => .access 10
  | 1 => .access 10
  | 2 => .access 20
  | 3 => .trunk fun v => v = 10 || v = 20
  | _ => .trunk fun v => v = 20

/-- A frame from `a` to `b` with some contents. -/
def sampleFrame (a b : Byte) (r : Bytes) : Bytes := [2#8, 0#8, 0#8, 0#8, 0#8, b, 2#8, 0#8, 0#8, 0#8, 0#8, a] ++ r

-- a frame to an unknown station: port 1 gets it as it is, port 3 with a tag, ports 2 and 4 not; the answer goes to port 0 only;
-- a frame with a tag at port 0 goes nowhere; a frame with a tag for VLAN 20, with priority 5, from port 3 to ports 2 and 4
example :
    (switchRun true samplePorts 5 [.arrive 0 (sampleFrame 1 9 [8#8, 0#8, 7#8]), .arrive 3 (sampleFrame 9 1 [0x81#8, 0#8, 0#8, 10#8, 8#8, 0#8, 6#8]),
      .arrive 0 (sampleFrame 1 9 [0x81#8, 0#8, 0#8, 20#8, 8#8, 0#8, 7#8]), .arrive 3 (sampleFrame 9 1 [0x81#8, 0#8, 0xA0#8, 20#8, 8#8, 0#8, 6#8])]
      fun _ _ => none).toOption.map (·.2) =
    some [(1, sampleFrame 1 9 [8#8, 0#8, 7#8]), (3, sampleFrame 1 9 [0x81#8, 0#8, 0#8, 10#8, 8#8, 0#8, 7#8]),
      (0, sampleFrame 9 1 [8#8, 0#8, 6#8]),
      (2, sampleFrame 9 1 [8#8, 0#8, 6#8]), (4, sampleFrame 9 1 [0x81#8, 0#8, 0xA0#8, 20#8, 8#8, 0#8, 6#8])] := by decide +kernel

-- the hypotheses of C114_known and C114_group
example : Noted samplePorts 10 (frameSrc (sampleFrame 1 9 [8#8, 0#8, 7#8])) 0 (sampleFrame 1 9 [8#8, 0#8, 7#8]) ∧
    (samplePorts 3).classify (sampleFrame 9 1 [0x81#8, 0#8, 0#8, 10#8, 8#8, 0#8, 6#8]) = some 10 ∧
    frameDst (sampleFrame 9 1 [0x81#8, 0#8, 0#8, 10#8, 8#8, 0#8, 6#8]) = frameSrc (sampleFrame 1 9 [8#8, 0#8, 7#8]) ∧
    isGroup (everyone ++ [2#8, 0#8, 0#8, 0#8, 0#8, 1#8, 8#8, 0#8]) = true := by
  refine ⟨⟨?_, rfl, ?_⟩, ?_, ?_, ?_⟩ <;> decide +kernel

/-- A switch with the sample ports. -/
def swHop (i j : Nat) : SwHop := ⟨samplePorts, 5, fun _ _ => none, i, j⟩

theorem swHop_carries (chk : Bool) (i j : Nat) (f g : Bytes) (h : (j, g) ∈ (bridged samplePorts 5 (fun _ _ => none) i f).2) :
    (swHop i j).Carries chk f g := ⟨_, _, C114_receive .., h⟩

-- a way through three switches
example : SwWay true (swHop 0 3) (swHop 0 1) (sampleFrame 1 9 [8#8, 0#8, 7#8]) (sampleFrame 1 9 [8#8, 0#8, 7#8]) :=
  .more (h1 := swHop 3 1) (swHop_carries _ _ _ _ (sampleFrame 1 9 [0x81#8, 0#8, 0#8, 10#8, 8#8, 0#8, 7#8]) (by decide +kernel)) trivial
    (.more (h1 := swHop 0 1) (swHop_carries _ _ _ _ (sampleFrame 1 9 [8#8, 0#8, 7#8]) (by decide +kernel))
      (show Joined (.access 10) (.access 10) from rfl) (.one (swHop_carries _ _ _ _ _ (by decide +kernel))))

/-- **C114** (lines have to join ports of the same kind): a frame with two tags comes in at a trunk in VLAN 10, leaves without the first
at a port of VLAN 10, and comes in over a wrong line at a trunk of another switch in VLAN 20, where it leaves at a port of VLAN 20. -/
theorem C114_wrong_line (chk : Bool) : ∃ f g g', (samplePorts 3).classify f = some 10 ∧ samplePorts 1 = .access 10 ∧
    samplePorts 2 = .access 20 ∧ (swHop 3 1).Carries chk f g ∧ (swHop 4 2).Carries chk g g' :=
  ⟨sampleFrame 1 9 [0x81#8, 0#8, 0#8, 10#8, 0x81#8, 0#8, 0#8, 20#8, 8#8, 0#8, 7#8], sampleFrame 1 9 [0x81#8, 0#8, 0#8, 20#8, 8#8, 0#8, 7#8],
    sampleFrame 1 9 [8#8, 0#8, 7#8], by decide +kernel, rfl, rfl, swHop_carries _ _ _ _ _ (by decide +kernel),
    swHop_carries _ _ _ _ _ (by decide +kernel)⟩

end PacketRs
