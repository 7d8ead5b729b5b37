import Verif.Props.Finish
import Verif.Spec.Network
/-!
# C106: what arrives through any number of tunnels

A client sends a packet through tunnels in tunnels: for every tunnel it calls the builder and then does what C105 says is to be done; before
a tunnel that carries IP datagrams it takes the link headers off what it built for the tunnel before.
-/
namespace PacketRs
open Spec Utils

/-- Arguments for an outer IPv4 header. -/
structure Out4 where
  ihl : Byte
  src : Str
  dst : Str
  tos : Byte
  ttl : Byte
  id : U16
  frag : U16
  opts : Bytes

/-- Arguments for an outer IPv6 header. -/
structure Out6 where
  tc : Byte
  flow : U32
  hl : Byte
  src : Str
  dst : Str

/-- The kinds of tunnel. -/
inductive Via
  | vxlan4 (o : Out4) (usrc : U16) (ck : Bool) (vni : U32)
  | vxlan6 (o : Out6) (usrc : U16) (ck : Bool) (vni : U32)
  | erspan2 (o : Out4) (seq : U32) (vlan : U16) (cos en t : Byte) (sid : U16) (idx : U32)
  | erspan3 (o : Out4) (seq : U32) (vlan : U16) (cos en t : Byte) (sid : U16) (ts : U32) (sgt ft : U16) (pid : Byte) (info : U64)
  | gre (o : Out4) (c k q : Bool) (flags : Byte) (gck goff : U16) (key seq : U32) (routing : Bytes)
  | ipip4 (o : Out4)
  | ipip6 (o : Out6)

/-- A tunnel with its link header. -/
structure Hop where
  eth_dst : Str
  eth_src : Str
  ve : Bool
  vid : U16
  pcp : Byte
  via : Via

/-- The client builds and finishes one tunnel around `inner`. -/
def Hop.send (chk : Bool) (p6 : Ipv6FromStr) (t : Hop) (inner : Packet) : R Packet :=
  match t.via with
  | .vxlan4 o us ck vni =>
    create_vxlan_packet chk t.eth_dst t.eth_src t.ve t.vid t.pcp o.ihl o.src o.dst o.tos o.ttl o.id o.frag o.opts 4789#16 us ck vni inner >>=
      finishIp (ipAt t.ve)
  | .vxlan6 o us ck vni =>
    create_vxlanv6_packet chk p6 t.eth_dst t.eth_src t.ve t.vid t.pcp o.tc o.flow o.hl o.src o.dst 4789#16 us ck vni Packet.new >>=
      finishVxlan6 (ipAt t.ve) inner.to_vec
  | .erspan2 o seq vlan cos en tr sid idx =>
    create_erspan_2_packet chk t.eth_dst t.eth_src t.ve t.vid t.pcp o.ihl o.src o.dst o.tos o.ttl o.id o.frag o.opts seq vlan cos en tr sid
      idx (some inner) >>= finishIp (ipAt t.ve)
  | .erspan3 o seq vlan cos en tr sid ts sgt ft pid info =>
    create_erspan_3_packet chk t.eth_dst t.eth_src t.ve t.vid t.pcp o.ihl o.src o.dst o.tos o.ttl o.id o.frag o.opts seq vlan cos en tr sid
      ts sgt ft pid info none >>= finishErspan3 (ipAt t.ve) inner.to_vec
  | .gre o c k q flags gck goff key seq routing =>
    create_gre_packet chk t.eth_dst t.eth_src t.ve t.vid t.pcp o.ihl o.src o.dst o.tos o.ttl o.id o.frag o.opts c false k q false flags 0#8
      gck goff key seq routing (some inner) >>= finishGre c (ipAt t.ve)
  | .ipip4 o =>
    create_ipv4ip_packet chk t.eth_dst t.eth_src t.ve t.vid t.pcp o.ihl o.src o.dst o.tos o.ttl o.id o.frag o.opts inner >>=
      finishIp (ipAt t.ve)
  | .ipip6 o =>
    create_ipv6ip_packet p6 t.eth_dst t.eth_src t.ve t.vid t.pcp o.tc o.flow o.hl o.src o.dst inner

/-- Whether the tunnel carries frames; otherwise datagrams. -/
def Hop.frames (t : Hop) : Bool :=
  match t.via with
  | .vxlan4 .. | .vxlan6 .. | .erspan2 .. | .erspan3 .. => true
  | .gre .. | .ipip4 .. | .ipip6 .. => false

/-- The number of octets between the link header and what the tunnel carries, without an IPv4 header. -/
def Hop.head (t : Hop) : Nat :=
  match t.via with
  | .vxlan4 .. | .vxlan6 .. | .erspan2 .. => 16
  | .erspan3 (ft := ft) .. => 20 + 8 * (ft.toNat % 2)
  | .gre (c := c) (k := k) (q := q) .. => 4 + 4 * c.toNat + 4 * k.toNat + 4 * q.toNat
  | .ipip4 .. | .ipip6 .. => 0

/-- The IP header. -/
def Hop.ip (t : Hop) : Nat :=
  match t.via with
  | .vxlan6 .. | .ipip6 .. => 40
  | _ => 20

/-- What the arguments have to be for the tunnel to carry `n` octets: the values fit their fields, ERSPAN has a sequence number, the
outer header has no options, is no fragment and can state the length. -/
def Hop.Fits (t : Hop) (n : Nat) : Prop :=
  match t.via with
  | .vxlan4 o .. => Sound4 o.ihl o.frag (t.head + n)
  | .vxlan6 o .. => Flow6 o.flow ∧ t.head + n < 65536
  | .erspan2 o seq vlan cos en tr sid idx => Sound4 o.ihl o.frag (t.head + n) ∧ seq ≠ 0#32 ∧ vlan.toNat < 4096 ∧ cos.toNat < 8 ∧
      en.toNat < 4 ∧ tr.toNat < 2 ∧ sid.toNat < 1024 ∧ idx.toNat < 1048576
  | .erspan3 o seq vlan cos en tr sid .. => Sound4 o.ihl o.frag (t.head + n) ∧ seq ≠ 0#32 ∧ vlan.toNat < 4096 ∧ cos.toNat < 8 ∧
      en.toNat < 4 ∧ tr.toNat < 2 ∧ sid.toNat < 1024
  | .gre o .. => Sound4 o.ihl o.frag (t.head + n)
  | .ipip4 o => Sound4 o.ihl o.frag n
  | .ipip6 o => Flow6 o.flow ∧ n < 65536

instance (t : Hop) (n : Nat) : Decidable (t.Fits n) := by
  unfold Hop.Fits
  split <;> infer_instance

/-- The addresses convert. -/
def Hop.Addrs (t : Hop) : Prop :=
  (∃ x, to_mac_bytes t.eth_dst = .ok x) ∧ (∃ x, to_mac_bytes t.eth_src = .ok x) ∧
  match t.via with
  | .vxlan4 o .. | .erspan2 o .. | .erspan3 o .. | .gre o .. | .ipip4 o => (∃ x, to_ipv4_bytes o.src = .ok x) ∧ ∃ x, to_ipv4_bytes o.dst = .ok x
  | .vxlan6 .. | .ipip6 .. => True

/-- The client takes the link headers off a packet it has built. -/
def unlink (ve : Bool) (p : Packet) : R Packet := do
  let p ← p.remove 0
  if ve then p.remove 0 else pure p

/-- All tunnels, the innermost (the last of the list) first. -/
def sendAll (chk : Bool) (p6 : Ipv6FromStr) : List Hop → Packet → R Packet
  | [], p => pure p
  | [t], p => t.send chk p6 p
  | t :: u :: ts, p => do
    let r ← sendAll chk p6 (u :: ts) p
    let r ← if t.frames then pure r else unlink u.ve r
    t.send chk p6 r

/-- Octets on the wire for `n` octets inside. -/
def wireLen : List Hop → Nat → Nat
  | [], n => n
  | [t], n => ipAt t.ve + t.ip + t.head + n
  | t :: u :: ts, n => ipAt t.ve + t.ip + t.head + (wireLen (u :: ts) n - if t.frames then 0 else ipAt u.ve)

/-- Every tunnel can carry what is inside it. -/
def FitAll : List Hop → Nat → Prop
  | [], _ => True
  | [t], n => t.Fits n
  | t :: u :: ts, n => t.Fits (wireLen (u :: ts) n - if t.frames then 0 else ipAt u.ve) ∧ FitAll (u :: ts) n

/-- What a datagram is, by its version. -/
def versionOf (b : Bytes) : Level := if u8At b 0 / 16 = 6 then .ip6 else .ip4

/-- What the innermost tunnel carries. -/
def carried (ts : List Hop) (b : Bytes) : Level :=
  match ts.getLast? with
  | some t => if t.frames then .frame else versionOf b
  | none => .frame

/-! ## What finishing keeps -/

theorem modifyFirst_kept (name : String) (f : Hdr → R Hdr) (hf : ∀ h h', f h = .ok h' → h'.data.length = h.data.length) :
    ∀ (l l' : List Hdr), Packet.modifyFirst name f l = .ok l' → l'.map (·.data.length) = l.map (·.data.length) := by
  intro l
  induction l with
  | nil => intro l' h; cases h
  | cons x l ih =>
    intro l' h
    unfold Packet.modifyFirst at h
    split at h
    · obtain ⟨y, hy, h⟩ := bind_ok h
      cases h
      simp [hf _ _ hy]
    · obtain ⟨y, hy, h⟩ := bind_ok h
      cases h
      simp [ih _ hy]

theorem modifyFirst_pre (name : String) (f : Hdr → R Hdr) : ∀ (pre rest l' : List Hdr) (_ : ∀ y ∈ pre, y.name ≠ name),
    Packet.modifyFirst name f (pre ++ rest) = .ok l' → ∃ rest', l' = pre ++ rest' ∧ Packet.modifyFirst name f rest = .ok rest' := by
  intro pre
  induction pre with
  | nil => intro rest l' _ h; exact ⟨l', rfl, h⟩
  | cons x pre ih =>
    intro rest l' hp h
    rw [List.cons_append, Packet.modifyFirst, if_neg (hp x List.mem_cons_self)] at h
    obtain ⟨y, hy, h⟩ := bind_ok h
    cases h
    obtain ⟨r, rfl, h'⟩ := ih _ _ (fun y hy => hp y (List.mem_cons_of_mem _ hy)) hy
    exact ⟨r, rfl, h'⟩

/-- The same link headers, and the same sizes of the others. -/
def Kept (pre : List Hdr) (p q : Packet) : Prop :=
  ∃ rest rest', p.hdrs = pre ++ rest ∧ q.hdrs = pre ++ rest' ∧ rest'.map (·.data.length) = rest.map (·.data.length) ∧ q.payload = p.payload

theorem Kept.trans {pre : List Hdr} {p q r : Packet} (h : Kept pre p q) (g : Kept pre q r) : Kept pre p r := by
  obtain ⟨a, b, h1, h2, h3, h4⟩ := h
  obtain ⟨c, d, g1, g2, g3, g4⟩ := g
  rw [h2] at g1
  obtain rfl := List.append_cancel_left g1
  exact ⟨a, d, h1, g2, g3.trans h3, g4.trans h4⟩

theorem Kept.length {pre : List Hdr} {p q : Packet} (h : Kept pre p q) : q.to_vec.length = p.to_vec.length := by
  obtain ⟨a, b, h1, h2, h3, h4⟩ := h
  rw [to_vec_onWire, to_vec_onWire, onWire, onWire, h1, h2, h4]
  simp only [List.length_append, List.map_append, List.flatten_append, List.length_flatten, List.map_map, Function.comp_def]
  rw [h3]

theorem editField_kept {T : HeaderDef} {x : Field} {v : U64} {p q : Packet} {pre rest : List Hdr} (hx : x.lo ≤ x.hi)
    (hp : p.hdrs = pre ++ rest) (hn : ∀ y ∈ pre, y.name ≠ T.name) (h : editField T T.name x v p = .ok q) : Kept pre p q := by
  unfold editField Packet.withHeaderMut at h
  obtain ⟨l, hl, h⟩ := bind_ok h
  cases h
  rw [hp] at hl
  obtain ⟨r, rfl, hr⟩ := modifyFirst_pre _ _ _ _ _ hn hl
  refine ⟨rest, r, hp, rfl, modifyFirst_kept _ _ ?_ _ _ hr, rfl⟩
  intro a b hab
  split at hab
  · unfold Hdr.set at hab
    obtain ⟨d, hd, hab⟩ := bind_ok hab
    cases hab
    by_cases hi : x.hi / 8 < a.data.length
    · obtain ⟨d', e, l, -⟩ := setBitRange_ok a.data x.lo x.hi v hx hi
      obtain rfl := Except.ok.inj (hd.symm.trans e)
      exact l
    · rw [setBitRange_err _ _ _ _ hx (by omega)] at hd
      cases hd
  · cases hab

theorem finishIp_kept {n : Nat} {p q : Packet} {pre rest : List Hdr} (hp : p.hdrs = pre ++ rest) (hn : ∀ y ∈ pre, y.name ≠ IPv4.name)
    (h : finishIp n p = .ok q) : Kept pre p q := by
  unfold finishIp at h
  obtain ⟨a, ha, h⟩ := bind_ok h
  obtain ⟨b, hb, h⟩ := bind_ok h
  have k1 := editField_kept (by decide) hp hn ha
  obtain ⟨_, _, -, e1, -, -⟩ := id k1
  have k2 := editField_kept (by decide) e1 hn hb
  obtain ⟨_, _, -, e2, -, -⟩ := id k2
  exact (k1.trans k2).trans (editField_kept (by decide) e2 hn h)

theorem finishSum_kept {T : HeaderDef} {cs : Field} {cover : Bytes → Bytes} {p q : Packet} {pre rest : List Hdr} (hx : cs.lo ≤ cs.hi)
    (hp : p.hdrs = pre ++ rest) (hn : ∀ y ∈ pre, y.name ≠ T.name) (h : finishSum T cs cover p = .ok q) : Kept pre p q := by
  unfold finishSum at h
  obtain ⟨a, ha, h⟩ := bind_ok h
  have k1 := editField_kept hx hp hn ha
  obtain ⟨_, _, -, e1, -, -⟩ := id k1
  exact k1.trans (editField_kept hx e1 hn h)

theorem finishGre_kept {c : Bool} {n : Nat} {p q : Packet} {pre rest : List Hdr} (hp : p.hdrs = pre ++ rest)
    (h1 : ∀ y ∈ pre, y.name ≠ GREChksumOffset.name) (h2 : ∀ y ∈ pre, y.name ≠ IPv4.name) (h : finishGre c n p = .ok q) : Kept pre p q := by
  cases c with
  | false => exact finishIp_kept hp h2 h
  | true =>
    obtain ⟨y, hy, h⟩ := bind_ok h
    have k1 := finishSum_kept (by decide) hp h1 hy
    exact k1.trans (finishIp_kept k1.choose_spec.choose_spec.2.1 h2 h)

/-! ## One tunnel -/

/-- What a receiver takes out of a finished tunnel, and what its frame looks like. -/
def Arrives (t : Hop) (r q : Packet) : Prop :=
  (∃ g, ipInput q.to_vec = some g ∧ decap g = some (if t.frames then .frame else versionOf r.to_vec, r.to_vec)) ∧
  (∃ m n et rest, m.length = 6 ∧ n.length = 6 ∧ (et = 0x0800#16 ∨ et = 0x86DD#16) ∧ q.hdrs = l2Hdrs m n t.ve t.vid t.pcp et ++ rest) ∧
  q.to_vec.length = ipAt t.ve + t.ip + t.head + r.to_vec.length

theorem host_vxlan {f : Bytes} {s d fr : Bytes} {us : U16} {vni : U32}
    (h : hostUdp f = some ⟨s, d, us.toNat, (4789#16 : U16).toNat, (Packet.vxlan vni).data ++ fr⟩) :
    ∃ g, ipInput f = some g ∧ decap g = some (.frame, fr) := by
  obtain ⟨g, hg, hu⟩ := Option.bind_eq_some_iff.mp h
  refine ⟨g, hg, ?_⟩
  have hp : g.proto = 17 := by
    unfold udpInput at hu
    exact (Option.ite_none_right_eq_some.mp hu).1.1
  unfold decap
  rw [hp, if_neg (by decide), if_neg (by decide), if_neg (by decide), hu]
  simp only [Option.bind_some, vxlanInput]
  rw [if_pos]
  · simp [Packet.vxlan, HeaderDef.ofVec, be32]
  · refine ⟨rfl, ?_, ?_⟩
    · simp [Packet.vxlan, HeaderDef.ofVec, be32]
    · simp [Packet.vxlan, HeaderDef.ofVec, be32, u8At]

theorem end_erspan2 {f : Bytes} {x : Erspan2Msg} (h : endErspan2 f = some x) :
    ∃ g, ipInput f = some g ∧ decap g = some (.frame, x.frame) := by
  obtain ⟨m, hm, hx⟩ := Option.bind_eq_some_iff.mp h
  obtain ⟨g, hg, hu⟩ := Option.bind_eq_some_iff.mp hm
  refine ⟨g, hg, ?_⟩
  have hp : g.proto = 47 := by
    unfold greInput at hu
    exact (Option.ite_none_right_eq_some.mp hu).1.1
  have hm : m.proto = 0x88be := by
    unfold erspan2Input at hx
    obtain ⟨_, -, hx⟩ := Option.bind_eq_some_iff.mp hx
    exact (Option.ite_none_right_eq_some.mp hx).1.1
  unfold decap
  rw [hp, if_neg (by decide), if_neg (by decide), if_pos rfl, hu]
  simp only [Option.bind_some]
  rw [hm, if_neg (by decide), if_neg (by decide), if_pos rfl, hx]
  rfl

theorem end_erspan3 {f : Bytes} {x : Erspan3Msg} (h : endErspan3 f = some x) :
    ∃ g, ipInput f = some g ∧ decap g = some (.frame, x.frame) := by
  obtain ⟨m, hm, hx⟩ := Option.bind_eq_some_iff.mp h
  obtain ⟨g, hg, hu⟩ := Option.bind_eq_some_iff.mp hm
  refine ⟨g, hg, ?_⟩
  have hp : g.proto = 47 := by
    unfold greInput at hu
    exact (Option.ite_none_right_eq_some.mp hu).1.1
  have hm : m.proto = 0x22eb := by
    unfold erspan3Input at hx
    obtain ⟨_, -, hx⟩ := Option.bind_eq_some_iff.mp hx
    exact (Option.ite_none_right_eq_some.mp hx).1.1
  unfold decap
  rw [hp, if_neg (by decide), if_neg (by decide), if_pos rfl, hu]
  simp only [Option.bind_some]
  rw [hm, if_neg (by decide), if_neg (by decide), if_neg (by decide), hx]
  rfl

theorem end_gre {f s d b : Bytes} {c : Bool} {k q : Option Nat} (hv : u8At b 0 / 16 = 4 ∨ u8At b 0 / 16 = 6)
    (h : endGre f = some ⟨s, d, (greProto b).toNat, c, k, q, b⟩) :
    ∃ g, ipInput f = some g ∧ decap g = some (versionOf b, b) := by
  obtain ⟨g, hg, hu⟩ := Option.bind_eq_some_iff.mp h
  refine ⟨g, hg, ?_⟩
  have hp : g.proto = 47 := by
    unfold greInput at hu
    exact (Option.ite_none_right_eq_some.mp hu).1.1
  unfold decap
  rw [hp, if_neg (by decide), if_neg (by decide), if_pos rfl, hu]
  simp only [Option.bind_some, greProto, versionOf]
  rcases hv with hv | hv
  · rw [hv]; rfl
  · rw [hv]; rfl

theorem decap_ipip {v6 : Bool} {s d b : Bytes} :
    decap ⟨v6, if u8At b 0 / 16 = 6 then 41 else 4, s, d, b⟩ = some (versionOf b, b) := by
  unfold decap versionOf
  by_cases h : u8At b 0 / 16 = 6
  · simp only [h, if_true]; rfl
  · simp only [h, if_false]; rfl

theorem not_ip (m n : Bytes) (ve : Bool) (vid : U16) (pcp : Byte) (et : U16) (T : HeaderDef) (h1 : T.name ≠ "Ether") (h2 : T.name ≠ "Vlan") :
    ∀ y ∈ l2Hdrs m n ve vid pcp et, y.name ≠ T.name := l2_names m n ve vid pcp et T.name h1 h2


section
variable {chk : Bool} {p6 : Ipv6FromStr} {t : Hop} {r : Packet}

theorem one_vxlan4 {o us ck vni} (hv : t.via = .vxlan4 o us ck vni) (ht : t.Addrs) (hf : t.Fits r.to_vec.length) :
    ∃ q, t.send chk p6 r = .ok q ∧ Arrives t r q := by
  obtain ⟨ed, es, ve, vid, pcp, via⟩ := t
  subst hv
  obtain ⟨⟨m, hm⟩, ⟨n, hn⟩, ⟨s, hs⟩, d, hd⟩ := ht
  have e := C41_vxlan chk _ _ ve vid pcp m n hm hn ⟨o.ihl, o.tos, o.id, o.ttl, o.frag, 0#8, s, d⟩ _ _ hs hd o.opts 4789#16 us ck vni r
  obtain ⟨q, hq, hi⟩ := C105_vxlan4 hs hd e
  refine ⟨q, (congrArg (· >>= finishIp (ipAt ve)) e).trans hq, ?_⟩
  have k := finishIp_kept rfl (not_ip m n ve vid pcp _ IPv4 (by decide) (by decide)) hq
  refine ⟨host_vxlan (hi.mpr hf), ⟨m, n, _, _, C31_length _ _ hm, C31_length _ _ hn, .inl rfl, k.choose_spec.choose_spec.2.1⟩, ?_⟩
  rw [k.length, to_vec_onWire]
  have := l2_wire m n (C31_length _ _ hm) (C31_length _ _ hn) ve vid pcp 0x0800#16
  have ha : Ip4.Ok (Ip4.withProto ⟨o.ihl, o.tos, o.id, o.ttl, o.frag, 0#8, s, d⟩ 17#8) := ⟨C32_length _ _ hs, C32_length _ _ hd⟩
  simp only [onWire, List.map_append, List.flatten_append, List.length_append, this, Hop.ip, Hop.head]
  simp [Ip4.raw_length _ ha, Packet.udp, Packet.vxlan, HeaderDef.ofVec]

theorem one_ipip4 {o} (hv : t.via = .ipip4 o) (ht : t.Addrs) (hf : t.Fits r.to_vec.length) (hb : r.to_vec ≠ []) :
    ∃ q, t.send chk p6 r = .ok q ∧ Arrives t r q := by
  obtain ⟨ed, es, ve, vid, pcp, via⟩ := t
  subst hv
  obtain ⟨⟨m, hm⟩, ⟨n, hn⟩, ⟨s, hs⟩, d, hd⟩ := ht
  have e := C41_ipv4ip chk _ _ ve vid pcp m n hm hn ⟨o.ihl, o.tos, o.id, o.ttl, o.frag, 0#8, s, d⟩ _ _ hs hd o.opts r hb
  obtain ⟨q, hq, hi, -⟩ := C105_ipip4 hs hd e
  refine ⟨q, (congrArg (· >>= finishIp (ipAt ve)) e).trans hq, ?_⟩
  have k := finishIp_kept rfl (not_ip m n ve vid pcp _ IPv4 (by decide) (by decide)) hq
  refine ⟨⟨_, hi.mpr hf, decap_ipip⟩, ⟨m, n, _, _, C31_length _ _ hm, C31_length _ _ hn, .inl rfl, k.choose_spec.choose_spec.2.1⟩, ?_⟩
  rw [k.length, to_vec_onWire]
  have := l2_wire m n (C31_length _ _ hm) (C31_length _ _ hn) ve vid pcp 0x0800#16
  have ha : Ip4.Ok (Ip4.withProto ⟨o.ihl, o.tos, o.id, o.ttl, o.frag, 0#8, s, d⟩ (ipipProto r.to_vec)) := ⟨C32_length _ _ hs, C32_length _ _ hd⟩
  simp only [onWire, List.map_append, List.flatten_append, List.length_append, this, Hop.ip, Hop.head]
  simp [Ip4.hdr, Ip4.raw_length _ ha]

theorem one_ipip6 {o} (hv : t.via = .ipip6 o) (ht : t.Addrs) (hf : t.Fits r.to_vec.length) (hb : r.to_vec ≠ []) :
    ∃ q, t.send chk p6 r = .ok q ∧ Arrives t r q := by
  obtain ⟨ed, es, ve, vid, pcp, via⟩ := t
  subst hv
  obtain ⟨⟨m, hm⟩, ⟨n, hn⟩, -⟩ := ht
  have e := C41_ipv6ip p6 _ _ ve vid pcp m n hm hn o.src o.dst o.tc o.flow o.hl r hb
  refine ⟨_, e, ⟨_, (C104_ipip6 e).1.mpr hf, decap_ipip⟩, ⟨m, n, _, _, C31_length _ _ hm, C31_length _ _ hn, .inr rfl, rfl⟩, ?_⟩
  rw [to_vec_onWire]
  have := l2_wire m n (C31_length _ _ hm) (C31_length _ _ hn) ve vid pcp 0x86DD#16
  have h40 := (ipv6_u8 p6 o.tc o.flow (ipipProto r.to_vec) o.hl o.src o.dst (BitVec.ofNat 16 r.to_vec.length) []).1
  simp only [onWire, List.map_append, List.flatten_append, List.length_append, this, Hop.ip, Hop.head]
  simp [h40]

theorem one_erspan2 {o seq vlan cos en tr sid idx} (hv : t.via = .erspan2 o seq vlan cos en tr sid idx) (ht : t.Addrs)
    (hf : t.Fits r.to_vec.length) : ∃ q, t.send chk p6 r = .ok q ∧ Arrives t r q := by
  obtain ⟨ed, es, ve, vid, pcp, via⟩ := t
  subst hv
  obtain ⟨⟨m, hm⟩, ⟨n, hn⟩, ⟨s, hs⟩, d, hd⟩ := ht
  obtain ⟨hf, h0, h1, h2, h3, h4, h5, h6⟩ := hf
  have e := C41_erspan2 chk _ _ ve vid pcp m n hm hn ⟨o.ihl, o.tos, o.id, o.ttl, o.frag, 0#8, s, d⟩ _ _ hs hd o.opts seq vlan cos en tr sid
    idx (some r)
  obtain ⟨q, hq, hi⟩ := C105_erspan2 h1 h2 h3 h4 h5 h6 hs hd e
  refine ⟨q, (congrArg (· >>= finishIp (ipAt ve)) e).trans hq, ?_⟩
  have k := finishIp_kept (List.append_assoc ..) (not_ip m n ve vid pcp _ IPv4 (by decide) (by decide)) hq
  refine ⟨end_erspan2 (hi.mpr ⟨h0, hf⟩), ⟨m, n, _, _, C31_length _ _ hm, C31_length _ _ hn, .inl rfl, k.choose_spec.choose_spec.2.1⟩, ?_⟩
  rw [k.length, to_vec_onWire]
  have := l2_wire m n (C31_length _ _ hm) (C31_length _ _ hn) ve vid pcp 0x0800#16
  have ha : Ip4.Ok (Ip4.withProto ⟨o.ihl, o.tos, o.id, o.ttl, o.frag, 0#8, s, d⟩ 47#8) := ⟨C32_length _ _ hs, C32_length _ _ hd⟩
  simp only [onWire, List.map_append, List.flatten_append, List.length_append, this, Hop.ip, Hop.head]
  simp [Ip4.hdr, Ip4.raw_length _ ha, Packet.erspan2, Packet.gre_sequence_number, HeaderDef.ofVec, optHdrs, h0, innerBytes]

theorem one_erspan3 {o seq vlan cos en tr sid ts sgt ft pid info} (hv : t.via = .erspan3 o seq vlan cos en tr sid ts sgt ft pid info)
    (ht : t.Addrs) (hf : t.Fits r.to_vec.length) : ∃ q, t.send chk p6 r = .ok q ∧ Arrives t r q := by
  obtain ⟨ed, es, ve, vid, pcp, via⟩ := t
  subst hv
  obtain ⟨⟨m, hm⟩, ⟨n, hn⟩, ⟨s, hs⟩, d, hd⟩ := ht
  obtain ⟨hf, h0, h1, h2, h3, h4, h5⟩ := hf
  have e := C41_erspan3 chk _ _ ve vid pcp m n hm hn ⟨o.ihl, o.tos, o.id, o.ttl, o.frag, 0#8, s, d⟩ _ _ hs hd o.opts seq vlan cos en tr sid
    ts sgt ft pid info none
  obtain ⟨q, hq, hi⟩ := C105_erspan3 r.to_vec h0 h1 h2 h3 h4 h5 hs hd e
  refine ⟨q, (congrArg (· >>= finishErspan3 (ipAt ve) r.to_vec) e).trans hq, ?_⟩
  unfold finishErspan3 at hq
  obtain ⟨x, hx, hq⟩ := bind_ok hq
  have k1 := editField_kept (by decide) (List.append_assoc ..) (not_ip m n ve vid pcp _ GRE (by decide) (by decide)) hx
  have k := k1.trans (finishIp_kept k1.choose_spec.choose_spec.2.1 (not_ip m n ve vid pcp _ IPv4 (by decide) (by decide)) hq)
  refine ⟨end_erspan3 (hi.mpr hf), ⟨m, n, _, _, C31_length _ _ hm, C31_length _ _ hn, .inl rfl, k.choose_spec.choose_spec.2.1⟩, ?_⟩
  rw [k.length, to_vec_onWire]
  have := l2_wire m n (C31_length _ _ hm) (C31_length _ _ hn) ve vid pcp 0x0800#16
  have ha : Ip4.Ok (Ip4.withProto ⟨o.ihl, o.tos, o.id, o.ttl, o.frag, 0#8, s, d⟩ 47#8) := ⟨C32_length _ _ hs, C32_length _ _ hd⟩
  have hp : (platform pid info).data.length = 8 := rfl
  simp only [Packet.set_payload, onWire, List.map_append, List.flatten_append, List.length_append, this, Hop.ip, Hop.head]
  rcases Nat.mod_two_eq_zero_or_one ft.toNat with hft | hft <;>
    simp [Ip4.hdr, Ip4.raw_length _ ha, Packet.erspan3, Packet.gre_sequence_number, HeaderDef.ofVec, optHdrs, h0, innerBytes, hft, innerHdrs, hp]

theorem one_vxlan6 {o us ck vni} (hv : t.via = .vxlan6 o us ck vni) (ht : t.Addrs) (hf : t.Fits r.to_vec.length) :
    ∃ q, t.send chk p6 r = .ok q ∧ Arrives t r q := by
  obtain ⟨ed, es, ve, vid, pcp, via⟩ := t
  subst hv
  obtain ⟨⟨m, hm⟩, ⟨n, hn⟩, -⟩ := ht
  have e := C41_vxlanv6 chk p6 _ _ ve vid pcp m n hm hn o.src o.dst o.tc o.flow o.hl 4789#16 us ck vni Packet.new
  obtain ⟨q, hq, hi⟩ := C105_vxlan6 r.to_vec e
  refine ⟨q, (congrArg (· >>= finishVxlan6 (ipAt ve) r.to_vec) e).trans hq, ?_⟩
  unfold finishVxlan6 at hq
  obtain ⟨x, hx, hq⟩ := bind_ok hq
  obtain ⟨y, hy, hq⟩ := bind_ok hq
  have k1 := editField_kept (by decide) (List.append_assoc ..) (not_ip m n ve vid pcp _ UDP (by decide) (by decide)) hx
  have k2 := k1.trans (editField_kept (by decide) k1.choose_spec.choose_spec.2.1 (not_ip m n ve vid pcp _ IPv6 (by decide) (by decide)) hy)
  have k := k2.trans (finishSum_kept (by decide) k2.choose_spec.choose_spec.2.1 (not_ip m n ve vid pcp _ UDP (by decide) (by decide)) hq)
  refine ⟨host_vxlan (hi.mpr hf), ⟨m, n, _, _, C31_length _ _ hm, C31_length _ _ hn, .inr rfl, k.choose_spec.choose_spec.2.1⟩, ?_⟩
  rw [k.length, to_vec_onWire]
  have := l2_wire m n (C31_length _ _ hm) (C31_length _ _ hn) ve vid pcp 0x86DD#16
  have h40 := fun w => (ipv6_u8 p6 o.tc o.flow 17#8 o.hl o.src o.dst w []).1
  simp only [Packet.set_payload, onWire, List.map_append, List.flatten_append, List.length_append, this, Hop.ip, Hop.head]
  simp [h40, Packet.vxlan, HeaderDef.ofVec, Packet.new, Packet.to_vec]

theorem one_gre {o c k q flags gck goff key seq routing} (hv : t.via = .gre o c k q flags gck goff key seq routing) (ht : t.Addrs)
    (hf : t.Fits r.to_vec.length) (hb : u8At r.to_vec 0 / 16 = 4 ∨ u8At r.to_vec 0 / 16 = 6) :
    ∃ q, t.send chk p6 r = .ok q ∧ Arrives t r q := by
  obtain ⟨ed, es, ve, vid, pcp, via⟩ := t
  subst hv
  obtain ⟨⟨m, hm⟩, ⟨n, hn⟩, ⟨s, hs⟩, d, hd⟩ := ht
  have hne : r.to_vec ≠ [] := by
    intro h0
    rw [h0] at hb
    revert hb
    decide
  have e := C41_gre chk _ _ ve vid pcp m n hm hn ⟨o.ihl, o.tos, o.id, o.ttl, o.frag, 0#8, s, d⟩ _ _ hs hd o.opts c false k q false flags 0#8
    gck goff key seq routing (some r) (fun p hp => by cases hp; exact hne)
  obtain ⟨x, hx, hi⟩ := C105_gre hs hd e
  refine ⟨x, (congrArg (· >>= finishGre c (ipAt ve)) e).trans hx, ?_⟩
  have kk := finishGre_kept (List.append_assoc ..) (not_ip m n ve vid pcp _ GREChksumOffset (by decide) (by decide))
    (not_ip m n ve vid pcp _ IPv4 (by decide) (by decide)) hx
  refine ⟨end_gre hb (hi.mpr ⟨hf, rfl, rfl, rfl⟩), ⟨m, n, _, _, C31_length _ _ hm, C31_length _ _ hn, .inl rfl, kk.choose_spec.choose_spec.2.1⟩, ?_⟩
  rw [kk.length, to_vec_onWire]
  have := l2_wire m n (C31_length _ _ hm) (C31_length _ _ hn) ve vid pcp 0x0800#16
  have ha : Ip4.Ok (Ip4.withProto ⟨o.ihl, o.tos, o.id, o.ttl, o.frag, 0#8, s, d⟩ 47#8) := ⟨C32_length _ _ hs, C32_length _ _ hd⟩
  have h4 : (Packet.gre c false k q false flags 0#8 (greProto r.to_vec)).data.length = 4 := rfl
  simp only [onWire, List.map_append, List.flatten_append, List.length_append, this, Hop.ip, Hop.head]
  cases c <;> cases k <;> cases q <;> simp [Ip4.hdr, Ip4.raw_length _ ha, h4, optHdrs, innerBytes, Packet.gre_chksum_offset, Packet.gre_key,
    Packet.gre_sequence_number, HeaderDef.ofVec]

/-- One tunnel. -/
theorem one_hop (ht : t.Addrs) (hf : t.Fits r.to_vec.length)
    (hb : t.frames = false → u8At r.to_vec 0 / 16 = 4 ∨ u8At r.to_vec 0 / 16 = 6) : ∃ q, t.send chk p6 r = .ok q ∧ Arrives t r q := by
  have hne : (u8At r.to_vec 0 / 16 = 4 ∨ u8At r.to_vec 0 / 16 = 6) → r.to_vec ≠ [] := by
    intro hb h0
    rw [h0] at hb
    revert hb
    decide
  cases hv : t.via with
  | vxlan4 => exact one_vxlan4 hv ht hf
  | vxlan6 => exact one_vxlan6 hv ht hf
  | erspan2 => exact one_erspan2 hv ht hf
  | erspan3 => exact one_erspan3 hv ht hf
  | gre => exact one_gre hv ht hf (hb (by simp only [Hop.frames, hv]))
  | ipip4 => exact one_ipip4 hv ht hf (hne (hb (by simp only [Hop.frames, hv])))
  | ipip6 => exact one_ipip6 hv ht hf (hne (hb (by simp only [Hop.frames, hv])))

end

/-! ## Any number of tunnels -/

theorem unlink_eq (m n : Bytes) (ve : Bool) (vid : U16) (pcp : Byte) (et : U16) (rest : List Hdr) (pl : Bytes) :
    unlink ve ⟨l2Hdrs m n ve vid pcp et ++ rest, pl⟩ = .ok ⟨rest, pl⟩ := by
  cases ve <;> rfl

theorem unlink_frame {m n : Bytes} {ve : Bool} {vid : U16} {pcp : Byte} {et : U16} {rest : List Hdr} {q : Packet} {g : Datagram}
    (hm : m.length = 6) (hn : n.length = 6) (het : et = 0x0800#16 ∨ et = 0x86DD#16) (hq : q.hdrs = l2Hdrs m n ve vid pcp et ++ rest)
    (hg : ipInput q.to_vec = some g) :
    ∃ b, unlink ve q = .ok b ∧ (u8At b.to_vec 0 / 16 = 4 ∨ u8At b.to_vec 0 / 16 = 6) ∧
      enter (versionOf b.to_vec) b.to_vec = ipInput q.to_vec ∧ b.to_vec.length = q.to_vec.length - ipAt ve := by
  obtain ⟨hs, pl⟩ := q
  obtain rfl : hs = _ := hq
  refine ⟨_, unlink_eq m n ve vid pcp et rest pl, ?_⟩
  have hl : (Packet.mk (l2Hdrs m n ve vid pcp et ++ rest) pl).to_vec.length - ipAt ve = (Packet.mk rest pl).to_vec.length := by
    have := l2_wire m n hm hn ve vid pcp et
    simp only [to_vec_onWire, onWire, List.map_append, List.flatten_append, List.length_append, this]
    omega
  have hin : ipInput (Packet.mk (l2Hdrs m n ve vid pcp et ++ rest) pl).to_vec =
      if et = 0x0800#16 then ip4Input (Packet.mk rest pl).to_vec else ip6Input (Packet.mk rest pl).to_vec := by
    have e : (Packet.mk (l2Hdrs m n ve vid pcp et ++ rest) pl).to_vec =
        (Packet.mk (l2Hdrs m n ve vid pcp et ++ [⟨IPv4, (Packet.mk rest pl).to_vec⟩]) []).to_vec := by
      simp [to_vec_onWire, onWire]
    rw [e]
    rcases het with rfl | rfl
    · rw [ipInput_frame4 m n hm hn, if_pos rfl, onWire, List.map_nil, List.flatten_nil, List.append_nil, List.append_nil]
    · rw [ipInput_frame6 m n hm hn, if_neg (by decide), onWire, List.map_nil, List.flatten_nil, List.append_nil, List.append_nil]
  rw [hl, hin]
  rw [hin] at hg
  rcases het with rfl | rfl
  · rw [if_pos rfl] at hg ⊢
    have h4 : u8At (Packet.mk rest pl).to_vec 0 / 16 = 4 := by
      unfold ip4Input at hg
      exact (Option.ite_none_right_eq_some.mp hg).1.2.1
    refine ⟨.inl h4, ?_, rfl⟩
    rw [versionOf, h4]; rfl
  · rw [if_neg (by decide)] at hg ⊢
    have h6 : u8At (Packet.mk rest pl).to_vec 0 / 16 = 6 := by
      unfold ip6Input at hg
      exact (Option.ite_none_right_eq_some.mp hg).1.2.1
    refine ⟨.inr h6, ?_, rfl⟩
    rw [versionOf, h6]; rfl

theorem Arrives.unlink {t : Hop} {r q : Packet} (h : Arrives t r q) :
    ∃ b, PacketRs.unlink t.ve q = .ok b ∧ (u8At b.to_vec 0 / 16 = 4 ∨ u8At b.to_vec 0 / 16 = 6) ∧
      enter (versionOf b.to_vec) b.to_vec = ipInput q.to_vec ∧ b.to_vec.length = q.to_vec.length - ipAt t.ve := by
  obtain ⟨⟨g, hg, -⟩, ⟨m, n, et, rest, hm, hn, het, hq⟩, -⟩ := h
  exact unlink_frame hm hn het hq hg

/-- **C106** A packet sent through any number of tunnels arrives as it was. -/
theorem C106_arrives (chk : Bool) (p6 : Ipv6FromStr) (ts : List Hop) (p : Packet) (ha : ∀ t ∈ ts, t.Addrs) (hf : FitAll ts p.to_vec.length)
    (hb : (∃ t, ts.getLast? = some t ∧ t.frames = false) → u8At p.to_vec 0 / 16 = 4 ∨ u8At p.to_vec 0 / 16 = 6) :
    ∃ q, sendAll chk p6 ts p = .ok q ∧ q.to_vec.length = wireLen ts p.to_vec.length ∧
      peel ts.length (.frame, q.to_vec) = some (carried ts p.to_vec, p.to_vec) := by
  have key : ∀ ts : List Hop, (∀ t ∈ ts, t.Addrs) → FitAll ts p.to_vec.length →
      ((∃ t, ts.getLast? = some t ∧ t.frames = false) → u8At p.to_vec 0 / 16 = 4 ∨ u8At p.to_vec 0 / 16 = 6) →
      ∃ q, sendAll chk p6 ts p = .ok q ∧ q.to_vec.length = wireLen ts p.to_vec.length ∧
        peel ts.length (.frame, q.to_vec) = some (carried ts p.to_vec, p.to_vec) ∧ ∀ t, ts.head? = some t → ∃ r, Arrives t r q := by
    intro ts
    induction ts with
    | nil => intro _ _ _; exact ⟨p, rfl, rfl, rfl, nofun⟩
    | cons t ts ih =>
      cases ts with
      | nil =>
        intro ha hf hb
        obtain ⟨q, hq, hA⟩ := one_hop (chk := chk) (p6 := p6) (ha t List.mem_cons_self) hf (fun h => hb ⟨t, rfl, h⟩)
        refine ⟨q, hq, hA.2.2, ?_, fun u hu => by cases hu; exact ⟨p, hA⟩⟩
        obtain ⟨⟨g, hg, hd⟩, -⟩ := hA
        show (ipInput q.to_vec).bind (fun g => (decap g).bind (peel 0)) = _
        rw [hg, Option.bind_some, hd]
        rfl
      | cons u ts =>
        intro ha hf hb
        obtain ⟨q, hq, hl, hp, hA⟩ := ih (fun v hv => ha v (List.mem_cons_of_mem _ hv)) hf.2 hb
        obtain ⟨r, hA⟩ := hA u rfl
        obtain ⟨b, hb1, hb2, hb3, hb4⟩ := hA.unlink
        by_cases hfr : t.frames = true
        · have hf1 := hf.1
          rw [hfr, if_pos rfl, Nat.sub_zero, ← hl] at hf1
          obtain ⟨f, hs, hT⟩ := one_hop (chk := chk) (p6 := p6) (r := q) (ha t List.mem_cons_self) hf1 (fun h => by rw [hfr] at h; cases h)
          refine ⟨f, ?_, ?_, ?_, fun v hv => by cases hv; exact ⟨q, hT⟩⟩
          · simp only [sendAll]
            rw [hq, hfr]
            exact hs
          · rw [hT.2.2, hl, wireLen, hfr]; rfl
          · obtain ⟨⟨g, hg, hd⟩, -⟩ := hT
            show (ipInput f.to_vec).bind (fun g => (decap g).bind (peel (u :: ts).length)) = _
            rw [hg, Option.bind_some, hd, hfr, Option.bind_some, if_pos rfl, hp]
            rfl
        · rw [Bool.not_eq_true] at hfr
          have hf1 := hf.1
          rw [hfr, ← hl] at hf1
          obtain ⟨f, hs, hT⟩ := one_hop (chk := chk) (p6 := p6) (r := b) (ha t List.mem_cons_self) (by rw [hb4]; exact hf1) (fun _ => hb2)
          refine ⟨f, ?_, ?_, ?_, fun v hv => by cases hv; exact ⟨b, hT⟩⟩
          · simp only [sendAll]
            rw [hq, hfr]
            show (unlink u.ve q >>= _) = _
            rw [hb1]
            exact hs
          · rw [hT.2.2, hb4, hl, wireLen, hfr]; rfl
          · obtain ⟨⟨g, hg, hd⟩, -⟩ := hT
            show (ipInput f.to_vec).bind (fun g => (decap g).bind (peel (u :: ts).length)) = _
            rw [hg, Option.bind_some, hd, hfr, Option.bind_some]
            show (enter (versionOf b.to_vec) b.to_vec).bind _ = _
            rw [hb3]
            exact hp
  obtain ⟨q, h1, h2, h3, -⟩ := key ts ha hf hb
  exact ⟨q, h1, h2, h3⟩

/-- **C106** Every address has to convert, whatever else the arguments are. -/
theorem C106_addresses {chk : Bool} {p6 : Ipv6FromStr} {ts : List Hop} {p q : Packet} (h : sendAll chk p6 ts p = .ok q) :
    ∀ t ∈ ts, t.Addrs := by
  have one : ∀ (t : Hop) (r q : Packet), t.send chk p6 r = .ok q → t.Addrs := by
    intro t r q h
    obtain ⟨ed, es, ve, vid, pcp, via⟩ := t
    cases via with
    | vxlan4 =>
      obtain ⟨x, hx, -⟩ := bind_ok h
      obtain ⟨⟨a, b⟩, c⟩ := (C41_vxlan_returns_iff ..).mp ⟨x, hx⟩
      exact ⟨a, b, c⟩
    | vxlan6 =>
      obtain ⟨x, hx, -⟩ := bind_ok h
      obtain ⟨a, b⟩ := (C41_vxlanv6_returns_iff ..).mp ⟨x, hx⟩
      exact ⟨a, b, trivial⟩
    | erspan2 =>
      obtain ⟨x, hx, -⟩ := bind_ok h
      obtain ⟨⟨a, b⟩, c⟩ := (C41_erspan2_returns_iff ..).mp ⟨x, hx⟩
      exact ⟨a, b, c⟩
    | erspan3 =>
      obtain ⟨x, hx, -⟩ := bind_ok h
      obtain ⟨⟨a, b⟩, c⟩ := (C41_erspan3_returns_iff ..).mp ⟨x, hx⟩
      exact ⟨a, b, c⟩
    | gre =>
      obtain ⟨x, hx, -⟩ := bind_ok h
      obtain ⟨⟨⟨a, b⟩, c⟩, -⟩ := (C41_gre_returns_iff ..).mp ⟨x, hx⟩
      exact ⟨a, b, c⟩
    | ipip4 =>
      obtain ⟨x, hx, -⟩ := bind_ok h
      obtain ⟨⟨⟨a, b⟩, c⟩, -⟩ := (C41_ipv4ip_returns_iff ..).mp ⟨x, hx⟩
      exact ⟨a, b, c⟩
    | ipip6 =>
      obtain ⟨⟨a, b⟩, -⟩ := (C41_ipv6ip_returns_iff ..).mp ⟨q, h⟩
      exact ⟨a, b, trivial⟩
  induction ts generalizing q with
  | nil => exact nofun
  | cons t ts ih =>
    cases ts with
    | nil =>
      intro u hu
      obtain rfl := List.mem_singleton.mp hu
      exact one _ _ _ h
    | cons v ts =>
      simp only [sendAll] at h
      obtain ⟨r, hr, h⟩ := bind_ok h
      have h' : ∃ x, t.send chk p6 x = .ok q := by
        split at h
        · obtain ⟨x, -, h⟩ := bind_ok h; exact ⟨x, h⟩
        · obtain ⟨x, -, h⟩ := bind_ok h; exact ⟨x, h⟩
      intro u hu
      rcases List.mem_cons.mp hu with rfl | hu
      · exact one _ _ _ h'.choose_spec
      · exact ih hr u hu

theorem enter_short {l : Level} {b : Bytes} {g : Datagram} (h : enter l b = some g) : g.data.length + 20 ≤ b.length ∧ g.data.length < 65536 := by
  have h4 : ∀ {b : Bytes} {g : Datagram}, ip4Input b = some g → g.data.length + 20 ≤ b.length ∧ g.data.length < 65536 := by
    intro b g h
    unfold ip4Input at h
    obtain ⟨⟨c1, -, c3, c4, c5, -⟩, h⟩ := Option.ite_none_right_eq_some.mp h
    cases h
    have := u16At_lt b 2
    simp only [List.length_drop, List.length_take]
    omega
  have h6 : ∀ {b : Bytes} {g : Datagram}, ip6Input b = some g → g.data.length + 20 ≤ b.length ∧ g.data.length < 65536 := by
    intro b g h
    unfold ip6Input at h
    obtain ⟨⟨c1, -, c3⟩, h⟩ := Option.ite_none_right_eq_some.mp h
    cases h
    have := u16At_lt b 4
    simp only [List.length_drop, List.length_take]
    omega
  cases l with
  | ip4 => exact h4 h
  | ip6 => exact h6 h
  | frame =>
    have hl : ∀ {f : Bytes} {et : Nat} {x : Bytes}, linkInput f = some (et, x) → x.length ≤ f.length := by
      intro f et x hx
      unfold linkInput at hx
      split at hx
      · cases hx
      split at hx
      · cases hx; simp
      split at hx
      · cases hx
      · cases hx; simp
    simp only [enter, ipInput] at h
    split at h
    · rename_i et x hx
      have := hl hx
      split at h
      · have := h4 h; omega
      split at h
      · have := h6 h; omega
      · cases h
    · cases h

theorem decap_short {g : Datagram} {x : Level × Bytes} (h : decap g = some x) : x.2.length ≤ g.data.length := by
  unfold decap at h
  split at h
  · cases h; exact Nat.le_refl _
  split at h
  · cases h; exact Nat.le_refl _
  split at h
  · obtain ⟨m, hm, h⟩ := Option.bind_eq_some_iff.mp h
    have := gre_needs g m hm
    split at h
    · cases h; simp only; omega
    split at h
    · cases h; simp only; omega
    split at h
    · obtain ⟨y, hy, rfl⟩ := Option.map_eq_some_iff.mp h
      unfold erspan2Input at hy
      obtain ⟨_, -, hy⟩ := Option.bind_eq_some_iff.mp hy
      obtain ⟨-, hy⟩ := Option.ite_none_right_eq_some.mp hy
      cases hy
      simp only [List.length_drop]; omega
    · obtain ⟨y, hy, rfl⟩ := Option.map_eq_some_iff.mp h
      unfold erspan3Input at hy
      obtain ⟨_, -, hy⟩ := Option.bind_eq_some_iff.mp hy
      obtain ⟨-, hy⟩ := Option.ite_none_right_eq_some.mp hy
      cases hy
      simp only [List.length_drop]; omega
  · obtain ⟨y, hy, rfl⟩ := Option.map_eq_some_iff.mp h
    obtain ⟨m, hm, hy⟩ := Option.bind_eq_some_iff.mp hy
    have := udp_needs g m hm
    unfold vxlanInput at hy
    obtain ⟨-, hy⟩ := Option.ite_none_right_eq_some.mp hy
    cases hy
    simp only [List.length_drop]; omega

/-- **C106** What any frame can bring through `n` tunnels: 20 octets fewer for every tunnel, and never 65536 octets or more. -/
theorem C106_limit (n : Nat) (x y : Level × Bytes) (h : peel n x = some y) :
    y.2.length + 20 * n ≤ x.2.length ∧ (0 < n → y.2.length < 65536) := by
  induction n generalizing x with
  | zero => cases h; exact ⟨Nat.le_refl _, nofun⟩
  | succ n ih =>
    obtain ⟨g, hg, h⟩ := Option.bind_eq_some_iff.mp h
    obtain ⟨z, hz, h⟩ := Option.bind_eq_some_iff.mp h
    have h1 := enter_short hg
    have h2 := decap_short hz
    have h3 := (ih _ h).1
    exact ⟨by omega, fun _ => by omega⟩

/-- **C106** The datagram in what arrives is the one in what was sent. -/
theorem C106_datagram (chk : Bool) (p6 : Ipv6FromStr) (ts : List Hop) (p : Packet) (ha : ∀ t ∈ ts, t.Addrs) (hf : FitAll ts p.to_vec.length)
    (hb : (∃ t, ts.getLast? = some t ∧ t.frames = false) → u8At p.to_vec 0 / 16 = 4 ∨ u8At p.to_vec 0 / 16 = 6) :
    ∃ q, sendAll chk p6 ts p = .ok q ∧ received ts.length q.to_vec = enter (carried ts p.to_vec) p.to_vec := by
  obtain ⟨q, h1, -, h3⟩ := C106_arrives chk p6 ts p ha hf hb
  exact ⟨q, h1, by rw [received, h3]; rfl⟩

/-- The client takes the link headers off the packet it starts with, if the innermost tunnel carries datagrams. -/
def startOf (ts : List Hop) (ve : Bool) (p : Packet) : R Packet :=
  match ts.getLast? with
  | some t => if t.frames then pure p else unlink ve p
  | none => pure p

/-- **C106** A UDP message sent through any number of tunnels: built, finished, sent, taken out of the tunnels, it is the message.  The
link header counts only if the innermost tunnel carries frames. -/
theorem C106_udp {chk : Bool} {p6 : Ipv6FromStr} {eth_dst eth_src : Str} {ve : Bool} {vid : U16} {pcp ihl : Byte} {src dst : Str}
    {tos ttl : Byte} {id frag : U16} {opts payload : Bytes} {udst usrc : U16} {ck : Bool} {p : Packet} {s d : Bytes} (ts : List Hop)
    (hs : to_ipv4_bytes src = .ok s) (hd : to_ipv4_bytes dst = .ok d)
    (h : create_udp_packet chk eth_dst eth_src ve vid pcp ihl src dst tos ttl id frag opts udst usrc ck payload = .ok p)
    (h4 : Sound4 ihl frag (8 + payload.length)) (ha : ∀ t ∈ ts, t.Addrs)
    (hf : FitAll ts (28 + payload.length + if (ts.getLast?.map Hop.frames).getD true then ipAt ve else 0)) :
    ∃ q, (finishSum UDP UDP.checksum (cover4 (ipAt ve)) p >>= finishIp (ipAt ve) >>= startOf ts ve >>= sendAll chk p6 ts) = .ok q ∧
      (received ts.length q.to_vec).bind udpInput = some ⟨s, d, usrc.toNat, udst.toNat, payload⟩ := by
  obtain ⟨⟨⟨m, hm⟩, n, hn⟩, -⟩ := (C41_udp_returns_iff ..).mp ⟨p, h⟩
  have e := C41_udp chk _ _ ve vid pcp m n hm hn ⟨ihl, tos, id, ttl, frag, 0#8, s, d⟩ _ _ hs hd opts payload udst usrc ck
  obtain ⟨x, hx, hi⟩ := C105_udp4 hs hd h
  obtain rfl := Except.ok.inj (h.symm.trans e)
  have hu := hi.mpr h4
  obtain ⟨y, hy, hx'⟩ := bind_ok hx
  have k1 := finishSum_kept (by decide) rfl (not_ip m n ve vid pcp _ UDP (by decide) (by decide)) hy
  have k := k1.trans (finishIp_kept k1.choose_spec.choose_spec.2.1 (not_ip m n ve vid pcp _ IPv4 (by decide) (by decide)) hx')
  have hw := l2_wire m n (C31_length _ _ hm) (C31_length _ _ hn) ve vid pcp 0x0800#16
  have hxl : x.to_vec.length = 28 + payload.length + ipAt ve := by
    rw [k.length, to_vec_onWire]
    have ha : Ip4.Ok (Ip4.withProto ⟨ihl, tos, id, ttl, frag, 0#8, s, d⟩ 17#8) := ⟨C32_length _ _ hs, C32_length _ _ hd⟩
    simp only [onWire, List.map_append, List.flatten_append, List.length_append, hw]
    simp [Ip4.hdr, Ip4.raw_length _ ha, Packet.udp, HeaderDef.ofVec]
    omega
  rw [hx]
  obtain ⟨g, hg, hu⟩ := Option.bind_eq_some_iff.mp hu
  by_cases hfr : (ts.getLast?.map Hop.frames).getD true = true
  · have hst : startOf ts ve x = .ok x := by
      unfold startOf
      cases hl : ts.getLast? with
      | none => rfl
      | some t =>
        rw [hl] at hfr
        simp only [Option.map_some, Option.getD_some] at hfr
        simp only [hfr]
        rfl
    rw [hfr, if_pos rfl, ← hxl] at hf
    obtain ⟨q, h1, h2⟩ := C106_datagram chk p6 ts x ha hf (by
      rintro ⟨t, ht, ht'⟩
      rw [ht] at hfr
      simp [ht'] at hfr)
    refine ⟨q, by rw [R.ok_bind, hst]; exact h1, ?_⟩
    have hc : carried ts x.to_vec = .frame := by
      unfold carried
      cases hl : ts.getLast? with
      | none => rfl
      | some t =>
        rw [hl] at hfr
        simp only [Option.map_some, Option.getD_some] at hfr
        simp only [hfr]
        rfl
    rw [h2, hc, enter, hg]
    exact hu
  · cases hl : ts.getLast? with
    | none => rw [hl] at hfr; exact absurd rfl hfr
    | some t =>
      have ht : t.frames = false := by
        rw [hl] at hfr
        simpa using hfr
      obtain ⟨b, hb1, hb2, hb3, hb4⟩ := unlink_frame (C31_length _ _ hm) (C31_length _ _ hn) (.inl rfl) k.choose_spec.choose_spec.2.1 hg
      have hst : startOf ts ve x = .ok b := by
        unfold startOf
        rw [hl]
        simp only [ht]
        exact hb1
      rw [if_neg hfr, show 28 + payload.length + 0 = b.to_vec.length by rw [hb4, hxl]; omega] at hf
      obtain ⟨q, h1, h2⟩ := C106_datagram chk p6 ts b ha hf (fun _ => hb2)
      refine ⟨q, by rw [R.ok_bind, hst]; exact h1, ?_⟩
      have hc : carried ts b.to_vec = versionOf b.to_vec := by
        unfold carried
        rw [hl]
        simp only [ht]
        rfl
      rw [h2, hc, hb3, hg]
      exact hu

/-! ## Cases -/

section
open Sample

def sampleHop (ve : Bool) (v : Via) : Hop := ⟨mac1, mac2, ve, 10, 3, v⟩

/-- A tunnel of every kind, each in the one before. -/
def sampleHops : List Hop :=
  let o4 : Out4 := ⟨5, ip1, ip2, 1, 64, 0x1234, 0, []⟩
  let o6 : Out6 := ⟨7, 0x12345, 64, ip6a, ip6b⟩
  [sampleHop true (.vxlan4 o4 1234 true 0xabcd), sampleHop false (.ipip6 o6), sampleHop true (.erspan2 o4 24 100 1 2 1 77 0x55),
    sampleHop false (.gre o4 true true true 0 0 0 0xc0ffee 7 []), sampleHop true (.vxlan6 o6 1234 true 7),
    sampleHop true (.erspan3 o4 24 100 1 2 1 77 0x55667788 3 0x101 1 2), sampleHop false (.ipip4 o4)]

/-- The hypotheses hold, and the message arrives through the seven tunnels.  The innermost carries a datagram. -/
example : (∀ t ∈ sampleHops, t.Addrs) ∧ FitAll sampleHops (28 + data.length) ∧ Sound4 5 0 (8 + data.length) ∧
    ((sampleHops.getLast?.map Hop.frames).getD true) = false := by
  refine ⟨?_, ?_, by decide, by decide⟩
  · have e1 : ∃ x, to_mac_bytes mac1 = .ok x := ⟨_, rfl⟩
    have e2 : ∃ x, to_mac_bytes mac2 = .ok x := ⟨_, rfl⟩
    have e3 : ∃ x, to_ipv4_bytes ip1 = .ok x := ⟨_, rfl⟩
    have e4 : ∃ x, to_ipv4_bytes ip2 = .ok x := ⟨_, rfl⟩
    simp [sampleHops, sampleHop, Hop.Addrs, e1, e2, e3, e4]
  · refine ⟨?_, ?_, ?_, ?_, ?_, ?_, show Hop.Fits _ _ from ?_⟩ <;> decide +kernel

example :
    let q := get (create_udp_packet true mac1 mac2 true 10 3 5 ip1 ip2 1 64 0x1234 0 [] 53 1234 true data >>=
      finishSum UDP UDP.checksum (cover4 (ipAt true)) >>= finishIp (ipAt true) >>= startOf sampleHops true >>= sendAll true p6 sampleHops)
    q.to_vec.length = wireLen sampleHops (28 + data.length) ∧
      (received 7 q.to_vec).bind udpInput = some ⟨[10, 0, 0, 1], [192, 168, 0, 2], 1234, 53, data⟩ ∧
      peel 8 (.frame, q.to_vec) = none := by
  decide +kernel

/-- Not finished, one tunnel is enough to lose the frame: the host takes it for a shorter or longer datagram, or for nothing. -/
example : peel 1 (.frame, (get erspan2).to_vec) = none ∧ peel 1 (.frame, (get vxlanv6).to_vec) = none := by decide +kernel

end

end PacketRs
