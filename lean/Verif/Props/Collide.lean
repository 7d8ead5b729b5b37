import Verif.Props.Layers
import Verif.Spec.Same
/-!
# Property C83: which builder calls give the same frame

For two calls that return: the frames are the same octets exactly if the arguments mean the same (Spec/Same).  Two builders
escape this: a VLAN tag can also be written into the payload, and ERSPAN III frames are ambiguous.
-/
namespace PacketRs
open Spec Utils

theorem be32_inj {x y : U32} (h : be32 x = be32 y) : x = y := by
  have := congrArg beNat h
  rw [beNat_be32, beNat_be32] at this
  exact BitVec.eq_of_toNat_eq this

theorem be16_inj_iff {x y : U16} : be16 x = be16 y ↔ x = y := ⟨be16_inj, fun h => h ▸ rfl⟩
theorem be32_inj_iff {x y : U32} : be32 x = be32 y ↔ x = y := ⟨be32_inj, fun h => h ▸ rfl⟩

theorem split_append (u v u' v' : Bytes) (h : u.length = u'.length) : u ++ v = u' ++ v' ↔ u = u' ∧ v = v' :=
  ⟨fun e => List.append_inj e h, fun ⟨e1, e2⟩ => by rw [e1, e2]⟩

/-! ## Layer 2 -/

theorem tci_toNat (a : Link) : (a.vid ||| (a.pcp.setWidth 16 <<< 13)).toNat = a.tci := by
  unfold Link.tci
  rw [BitVec.toNat_or]
  congr 1
  simp only [BitVec.toNat_shiftLeft, BitVec.toNat_setWidth, Nat.shiftLeft_eq]
  have := a.pcp.isLt
  omega

/-- What the layer 2 part of a frame and what follows it determine; for frame types other than 0x8100. -/
theorem l2_same {a b : Link} {d s d' s' : Bytes} (hd : to_mac_bytes a.dst = .ok d) (hs : to_mac_bytes a.src = .ok s)
    (hd' : to_mac_bytes b.dst = .ok d') (hs' : to_mac_bytes b.src = .ok s') (et et' : U16)
    (he : et ≠ 0x8100#16) (he' : et' ≠ 0x8100#16) (x y : Bytes) :
    hdrBytes (l2Hdrs d s a.tagged a.vid a.pcp et) ++ x = hdrBytes (l2Hdrs d' s' b.tagged b.vid b.pcp et') ++ y ↔
      a.Same b ∧ et = et' ∧ x = y := by
  have l1 := C31_length _ _ hd
  have l2 := C31_length _ _ hs
  have l3 := C31_length _ _ hd'
  have l4 := C31_length _ _ hs'
  have split : ∀ u v u' v' : Bytes, u.length = u'.length → (u ++ v = u' ++ v' ↔ u = u' ∧ v = v') := by
    intro u v u' v' h
    exact ⟨fun e => List.append_inj e h, fun ⟨e1, e2⟩ => by rw [e1, e2]⟩
  have b16 : ∀ z z' : U16, (be16 z).length = (be16 z').length := fun _ _ => rfl
  have hx : ∀ z z' : U16, ∀ u v : Bytes, be16 z ++ u = be16 z' ++ v ↔ z = z' ∧ u = v := by
    intro z z' u v
    rw [split _ _ _ _ (b16 _ _), be16_inj_iff]
  have ht : (a.vid ||| (a.pcp.setWidth 16 <<< 13)) = (b.vid ||| (b.pcp.setWidth 16 <<< 13)) ↔ a.tci = b.tci := by
    rw [← BitVec.toNat_inj, tci_toNat, tci_toNat]
  unfold Link.Same
  rw [hd, hs, hd', hs']
  cases ha : a.tagged <;> cases hb : b.tagged <;>
    simp only [hdrBytes, onWire, l2Hdrs, if_true, Bool.false_eq_true, if_false, List.map_cons, List.map_nil,
      List.flatten_cons, List.flatten_nil, List.append_nil, List.append_assoc, Except.ok.injEq] <;>
    rw [split _ _ _ _ (by omega), split _ _ _ _ (by omega), hx]
  · simp [and_assoc]
  · constructor
    · rintro ⟨-, -, h, -⟩; exact absurd h he
    · rintro ⟨⟨-, -, h, -⟩, -⟩; exact nomatch h
  · constructor
    · rintro ⟨-, -, h, -⟩; exact absurd h.symm he'
    · rintro ⟨⟨-, -, h, -⟩, -⟩; exact nomatch h
  · rw [hx, hx, ht]
    simp [and_assoc]

/-! ## IPv4 and IPv6 -/

theorem or64 (a b : Byte) : (0x40#8 ||| a) = (0x40#8 ||| b) ↔ 64 ||| a.toNat = 64 ||| b.toNat := by
  rw [← BitVec.toNat_inj, BitVec.toNat_or, BitVec.toNat_or]; rfl

/-- The octets of an IPv4 header with the arguments `m`. -/
def Spec.Net4.ip (m : Net4) (pr : Byte) (si di : Bytes) : Ip4 := ⟨m.ihl, m.tos, m.id, m.ttl, m.frag, pr, si, di⟩

theorem ip4_same {m n : Net4} {si di si' di' : Bytes} (his : to_ipv4_bytes m.src = .ok si)
    (hid : to_ipv4_bytes m.dst = .ok di) (his' : to_ipv4_bytes n.src = .ok si') (hid' : to_ipv4_bytes n.dst = .ok di')
    (pr pr' : Byte) (len len' c c' : U16) (x y : Bytes) :
    (m.ip pr si di).raw len c ++ x = (n.ip pr' si' di').raw len' c' ++ y ↔
      (m.Same n ∧ pr = pr') ∧ len = len' ∧ c = c' ∧ x = y := by
  have l1 := C32_length _ _ his
  have l2 := C32_length _ _ hid
  have l3 := C32_length _ _ his'
  have l4 := C32_length _ _ hid'
  unfold Net4.Same
  rw [his, hid, his', hid', ← or64]
  simp only [Spec.Net4.ip, Ip4.raw, ipv4Raw, List.append_assoc, List.cons_append, List.nil_append, List.cons.injEq]
  rw [split_append _ _ _ _ (by rfl), split_append _ _ _ _ (by rfl), split_append _ _ _ _ (by rfl)]
  simp only [List.cons.injEq]
  rw [split_append _ _ _ _ (by rfl), split_append _ _ _ _ (by omega), split_append _ _ _ _ (by omega), be16_inj_iff,
    be16_inj_iff, be16_inj_iff, be16_inj_iff, Except.ok.injEq, Except.ok.injEq]
  constructor
  · rintro ⟨h1, h2, h3, h4, h5, h6, h7, h8, h9, h10, h11⟩
    exact ⟨⟨⟨h1, h2, h4, h5, h6, h9, h10⟩, h7⟩, h3, h8, h11⟩
  · rintro ⟨⟨⟨h1, h2, h4, h5, h6, h9, h10⟩, h7⟩, h3, h8, h11⟩
    exact ⟨h1, h2, h3, h4, h5, h6, h7, h8, h9, h10, h11⟩

/-- Arguments that mean the same give the same checksum. -/
theorem ck_same {m n : Net4} {si di si' di' : Bytes} (his : to_ipv4_bytes m.src = .ok si)
    (hid : to_ipv4_bytes m.dst = .ok di) (his' : to_ipv4_bytes n.src = .ok si') (hid' : to_ipv4_bytes n.dst = .ok di')
    (pr pr' : Byte) (h : m.Same n ∧ pr = pr') (len : U16) : (m.ip pr si di).ck len = (n.ip pr' si' di').ck len := by
  have := (ip4_same his hid his' hid' pr pr' len len 0 0 [] []).2 ⟨h, rfl, rfl, rfl⟩
  rw [List.append_nil, List.append_nil] at this
  unfold Ip4.ck
  rw [this]

/-- Whole headers: the total length is the only further thing that matters. -/
theorem hdr_same {m n : Net4} {si di si' di' : Bytes} (his : to_ipv4_bytes m.src = .ok si)
    (hid : to_ipv4_bytes m.dst = .ok di) (his' : to_ipv4_bytes n.src = .ok si') (hid' : to_ipv4_bytes n.dst = .ok di')
    (pr pr' : Byte) (len len' : U16) (x y : Bytes) :
    ((m.ip pr si di).hdr len).data ++ x = ((n.ip pr' si' di').hdr len').data ++ y ↔
      (m.Same n ∧ pr = pr') ∧ len = len' ∧ x = y := by
  unfold Ip4.hdr
  rw [ip4_same his hid his' hid']
  constructor
  · rintro ⟨h1, h2, -, h3⟩; exact ⟨h1, h2, h3⟩
  · rintro ⟨h1, rfl, h3⟩; exact ⟨h1, rfl, ck_same his hid his' hid' pr pr' h1 len, h3⟩

/-- **C83**, IPv4. -/
theorem C83_ipv4 (chk chk' : Bool) (a b : Link) (m n : Net4) (pr pr' : Byte) (x y : Bytes) (p q : Packet)
    (hp : create_ipv4_packet chk a.dst a.src a.tagged a.vid a.pcp m.ihl m.src m.dst pr m.tos m.ttl m.id m.frag m.opts x = .ok p)
    (hq : create_ipv4_packet chk' b.dst b.src b.tagged b.vid b.pcp n.ihl n.src n.dst pr' n.tos n.ttl n.id n.frag n.opts y
      = .ok q) :
    p.to_vec = q.to_vec ↔ a.Same b ∧ m.Same n ∧ pr = pr' ∧ x = y := by
  obtain ⟨⟨⟨d, hd⟩, s, hs⟩, ⟨si, his⟩, di, hid⟩ := Addrs4.of hp
  obtain ⟨⟨⟨d', hd'⟩, s', hs'⟩, ⟨si', his'⟩, di', hid'⟩ := Addrs4.of hq
  obtain rfl := Except.ok.inj (hp.symm.trans
    (C41_ipv4 chk _ _ a.tagged a.vid a.pcp d s hd hs (m.ip pr si di) _ _ his hid m.opts x))
  obtain rfl := Except.ok.inj (hq.symm.trans
    (C41_ipv4 chk' _ _ b.tagged b.vid b.pcp d' s' hd' hs' (n.ip pr' si' di') _ _ his' hid' n.opts y))
  rw [to_vec_split, to_vec_split, l2_same hd hs hd' hs' _ _ (by decide) (by decide)]
  have w : ∀ h : Hdr, hdrBytes [h] = h.data := fun h => by simp [hdrBytes, onWire]
  rw [w, w, hdr_same his hid his' hid']
  constructor
  · rintro ⟨h1, -, ⟨h2, h3⟩, -, h4⟩; exact ⟨h1, h2, h3, h4⟩
  · rintro ⟨h1, h2, h3, rfl⟩; exact ⟨h1, rfl, ⟨h2, h3⟩, rfl, rfl⟩

/-- Another spelling of the address, another split of version and header length, other options. -/
example : (create_ipv4_packet true Sample.mac1 Sample.mac2 false 1 2 5 "10.0.0.1".toList Sample.ip2 99 1 64 7 0 [] [1]).map
      Packet.to_vec =
    (create_ipv4_packet true Sample.mac1 Sample.mac2 false 3 4 0x45 "10.0.0.001".toList Sample.ip2 99 1 64 7 0 [9, 9] [1]).map
      Packet.to_vec := by decide +kernel

theorem word6_toNat (a : Net6) :
    ((((0x6#32 <<< 28) &&& 0xF0000000#32) ||| ((a.tc.setWidth 32) <<< 20)) ||| a.flow).toNat =
      0x60000000 ||| a.tc.toNat * 0x100000 ||| a.flow.toNat := by
  have h : ((a.tc.setWidth 32) <<< 20 : U32).toNat = a.tc.toNat * 0x100000 := by
    simp only [BitVec.toNat_shiftLeft, BitVec.toNat_setWidth, Nat.shiftLeft_eq]
    have := a.tc.isLt
    omega
  have h6 : ((0x6#32 <<< 28) &&& 0xF0000000#32 : U32) = 0x60000000#32 := by decide
  rw [h6, BitVec.toNat_or, BitVec.toNat_or, h]
  rfl

/-- **C83**, IPv6. -/
theorem C83_ipv6 (p6 : Ipv6FromStr) (a b : Link) (m n : Net6) (nh nh' : Byte) (x y : Bytes) (p q : Packet)
    (hp : create_ipv6_packet p6 a.dst a.src a.tagged a.vid a.pcp m.tc m.flow nh m.hl m.src m.dst x = .ok p)
    (hq : create_ipv6_packet p6 b.dst b.src b.tagged b.vid b.pcp n.tc n.flow nh' n.hl n.src n.dst y = .ok q) :
    p.to_vec = q.to_vec ↔ a.Same b ∧ m.Same p6 n ∧ nh = nh' ∧ x = y := by
  obtain ⟨⟨d, hd⟩, s, hs⟩ := Addrs2.of hp
  obtain ⟨⟨d', hd'⟩, s', hs'⟩ := Addrs2.of hq
  rw [C41_ipv6 _ _ _ _ _ _ d s hd hs] at hp
  rw [C41_ipv6 _ _ _ _ _ _ d' s' hd' hs'] at hq
  cases hp
  cases hq
  rw [to_vec_split, to_vec_split, l2_same hd hs hd' hs' _ _ (by decide) (by decide)]
  unfold Net6.Same
  rw [← word6_toNat, ← word6_toNat, BitVec.toNat_inj]
  have b16 : ∀ z z' : U16, (be16 z).length = (be16 z').length := fun _ _ => rfl
  have b32 : ∀ z z' : U32, (be32 z).length = (be32 z').length := fun _ _ => rfl
  have b6 : ∀ z z' : Str, (to_ipv6_bytes p6 z).length = (to_ipv6_bytes p6 z').length := fun _ _ => by rw [ipv6_len6, ipv6_len6]
  have split : ∀ u v u' v' : Bytes, u.length = u'.length → (u ++ v = u' ++ v' ↔ u = u' ∧ v = v') := by
    intro u v u' v' h
    exact ⟨fun e => List.append_inj e h, fun ⟨e1, e2⟩ => by rw [e1, e2]⟩
  refine and_congr_right fun _ => ?_
  simp only [hdrBytes, onWire, Packet.ipv6, HeaderDef.ofVec, List.map_cons, List.map_nil, List.flatten_cons, List.flatten_nil,
    List.append_nil, List.append_assoc, List.cons_append, List.nil_append, true_and]
  rw [split _ _ _ _ (b32 _ _), split _ _ _ _ (b16 _ _), List.cons.injEq, List.cons.injEq, split _ _ _ _ (b6 _ _),
    split _ _ _ _ (b6 _ _), be32_inj_iff]
  constructor
  · rintro ⟨h1, -, h2, h3, h4, h5, h6⟩
    exact ⟨⟨h1, h3, h4, h5⟩, h2, h6⟩
  · rintro ⟨⟨h1, h3, h4, h5⟩, h2, rfl⟩
    exact ⟨h1, rfl, h2, h3, h4, h5, rfl⟩

/-- A traffic class hidden in the flow label. -/
example : (create_ipv6_packet Sample.p6 Sample.mac1 Sample.mac2 false 1 2 7 0x12345 99 64 Sample.ip6a Sample.ip6b [1]).map
      Packet.to_vec =
    (create_ipv6_packet Sample.p6 Sample.mac1 Sample.mac2 false 1 2 0 0x712345 99 64 Sample.ip6a "::".toList [1]).map
      Packet.to_vec := by decide +kernel

/-! ## Transport -/

theorem of_sent {x y : R Packet} {p : Packet} (h : sent x = sent y) (hx : x = .ok p) :
    ∃ q, y = .ok q ∧ p.to_vec = q.to_vec := by
  subst hx
  cases y with
  | error e => exact nomatch h
  | ok q => exact ⟨q, rfl, by simpa [sent, Except.map] using h⟩

theorem offset_toNat (t : Tcp) :
    ((t.off <<< 4) ||| (t.res &&& 0xff#8)).toNat = (t.off.toNat % 16) * 16 ||| t.res.toNat := by
  have h : (t.off <<< 4 : Byte).toNat = t.off.toNat % 16 * 16 := by
    simp only [BitVec.toNat_shiftLeft, Nat.shiftLeft_eq]
    have := t.off.isLt
    omega
  have h2 : (t.res &&& 0xff#8) = t.res := by
    rw [show (0xff#8 : Byte) = BitVec.allOnes 8 from rfl, BitVec.and_allOnes]
  rw [BitVec.toNat_or, h, h2]

theorem tcp_same (t u : Tcp) (x y : Bytes) :
    (Packet.tcp t.src t.dst t.seq t.ack t.off t.res t.flags t.window 0 t.urg).data ++ x =
        (Packet.tcp u.src u.dst u.seq u.ack u.off u.res u.flags u.window 0 u.urg).data ++ y ↔ t.Same u ∧ x = y := by
  rw [split_append _ _ _ _ (by rfl)]
  unfold Tcp.Same
  rw [← offset_toNat, ← offset_toNat, BitVec.toNat_inj]
  simp only [Packet.tcp, HeaderDef.ofVec, List.append_assoc]
  rw [split_append _ _ _ _ (by rfl), split_append _ _ _ _ (by rfl), split_append _ _ _ _ (by rfl),
    split_append _ _ _ _ (by rfl), split_append _ _ _ _ (by rfl), split_append _ _ _ _ (by rfl),
    split_append _ _ _ _ (by rfl), split_append _ _ _ _ (by rfl), be16_inj_iff, be16_inj_iff, be32_inj_iff, be32_inj_iff,
    be16_inj_iff, be16_inj_iff, be16_inj_iff]
  simp only [List.cons.injEq, and_true, true_and]
  constructor
  · rintro ⟨⟨h1, h2, h3, h4, h5, h6, h7, h8⟩, h9⟩
    exact ⟨⟨h2, h1, h3, h4, h5, h6, h7, h8⟩, h9⟩
  · rintro ⟨⟨h2, h1, h3, h4, h5, h6, h7, h8⟩, h9⟩
    exact ⟨⟨h1, h2, h3, h4, h5, h6, h7, h8⟩, h9⟩

theorem udp_same (t t' u u' : U16) (c : U16) (x y : Bytes) :
    be16 t ++ be16 u ++ be16 (BitVec.ofNat 16 (8 + x.length)) ++ be16 c ++ x =
        be16 t' ++ be16 u' ++ be16 (BitVec.ofNat 16 (8 + y.length)) ++ be16 c ++ y ↔ u = u' ∧ t = t' ∧ x = y := by
  simp only [List.append_assoc]
  rw [split_append _ _ _ _ (by rfl), split_append _ _ _ _ (by rfl), split_append _ _ _ _ (by rfl),
    split_append _ _ _ _ (by rfl), be16_inj_iff, be16_inj_iff]
  constructor
  · rintro ⟨h1, h2, -, -, h3⟩; exact ⟨h2, h1, h3⟩
  · rintro ⟨h2, h1, rfl⟩; exact ⟨h1, h2, rfl, rfl, rfl⟩

theorem icmp_same (t t' c c' : Byte) (x y : Bytes) :
    (Packet.icmp t c).data ++ x = (Packet.icmp t' c').data ++ y ↔ t = t' ∧ c = c' ∧ x = y := by
  simp [Packet.icmp, HeaderDef.ofVec]

section
variable (chk chk' : Bool) (p6 : Ipv6FromStr) (a b : Link) (m n : Net4) (k l : Net6) (p q : Packet)

/-- **C83**, TCP over IPv4. -/
theorem C83_tcp (t u : Tcp) (ck ck' : Bool) (x y : Bytes)
    (hp : create_tcp_packet chk a.dst a.src a.tagged a.vid a.pcp m.ihl m.src m.dst m.tos m.ttl m.id m.frag m.opts t.dst t.src
      t.seq t.ack t.off t.res t.flags t.window t.urg ck x = .ok p)
    (hq : create_tcp_packet chk' b.dst b.src b.tagged b.vid b.pcp n.ihl n.src n.dst n.tos n.ttl n.id n.frag n.opts u.dst u.src
      u.seq u.ack u.off u.res u.flags u.window u.urg ck' y = .ok q) :
    p.to_vec = q.to_vec ↔ a.Same b ∧ m.Same n ∧ t.Same u ∧ x = y := by
  obtain ⟨p', hp', ep⟩ := of_sent (C82_tcp ..) hp
  obtain ⟨q', hq', eq⟩ := of_sent (C82_tcp ..) hq
  rw [ep, eq, C83_ipv4 chk chk' a b m n _ _ _ _ p' q' hp' hq', tcp_same]
  simp

example :
    let mk := fun (o r : Byte) => (create_tcp_packet true Sample.mac1 Sample.mac2 true 10 3 5 Sample.ip1 Sample.ip2 1 64 0x1234 0
      [] 80 1234 7 9 o r 2 512 0 true Sample.data).map Packet.to_vec
    mk 5 0 = mk 0x15 0 ∧ mk 5 0 = mk 1 0x40 ∧ mk 5 0 ≠ mk 6 0 := by decide +kernel

/-- **C83**, UDP over IPv4. -/
theorem C83_udp (d d' s s' : U16) (ck ck' : Bool) (x y : Bytes)
    (hp : create_udp_packet chk a.dst a.src a.tagged a.vid a.pcp m.ihl m.src m.dst m.tos m.ttl m.id m.frag m.opts d s ck x
      = .ok p)
    (hq : create_udp_packet chk' b.dst b.src b.tagged b.vid b.pcp n.ihl n.src n.dst n.tos n.ttl n.id n.frag n.opts d' s' ck' y
      = .ok q) :
    p.to_vec = q.to_vec ↔ a.Same b ∧ m.Same n ∧ d = d' ∧ s = s' ∧ x = y := by
  obtain ⟨p', hp', ep⟩ := of_sent (C82_udp ..) hp
  obtain ⟨q', hq', eq⟩ := of_sent (C82_udp ..) hq
  rw [ep, eq, C83_ipv4 chk chk' a b m n _ _ _ _ p' q' hp' hq']
  have := udp_same s s' d d' 0 x y
  rw [← this]
  simp [Packet.udp, HeaderDef.ofVec]

example :
    let mk := fun (s : U16) (ck : Bool) (x : Bytes) => (create_udp_packet true Sample.mac1 Sample.mac2 true 10 3 5 Sample.ip1
      Sample.ip2 1 64 0x1234 0 [] 80 s ck x).map Packet.to_vec
    mk 53 true Sample.data = mk 53 false Sample.data ∧ mk 53 true Sample.data ≠ mk 54 true Sample.data := by decide +kernel

/-- **C83**, ICMP. -/
theorem C83_icmp (t t' c c' : Byte) (data data' : Bytes) (ck ck' : Bool) (x y : Bytes)
    (hp : create_icmp_packet chk a.dst a.src a.tagged a.vid a.pcp m.ihl m.src m.dst m.tos m.ttl m.id m.frag m.opts t c data ck
      x = .ok p)
    (hq : create_icmp_packet chk' b.dst b.src b.tagged b.vid b.pcp n.ihl n.src n.dst n.tos n.ttl n.id n.frag n.opts t' c' data'
      ck' y = .ok q) :
    p.to_vec = q.to_vec ↔ a.Same b ∧ m.Same n ∧ t = t' ∧ c = c' ∧ x = y := by
  obtain ⟨p', hp', ep⟩ := of_sent (C82_icmp ..) hp
  obtain ⟨q', hq', eq⟩ := of_sent (C82_icmp ..) hq
  rw [ep, eq, C83_ipv4 chk chk' a b m n _ _ _ _ p' q' hp' hq', icmp_same]
  simp

example :
    let mk := fun (c : Byte) (dt : Bytes) (x : Bytes) => (create_icmp_packet true Sample.mac1 Sample.mac2 false 0 0 5 Sample.ip1
      Sample.ip2 1 64 0x1234 0 [] 8 c dt true x).map Packet.to_vec
    mk 0 [1] Sample.data = mk 0 [] Sample.data ∧ mk 0 [1] Sample.data ≠ mk 1 [1] Sample.data := by decide +kernel

/-- **C83**, TCP over IPv6. -/
theorem C83_tcpv6 (t u : Tcp) (x y : Bytes)
    (hp : create_tcpv6_packet chk p6 a.dst a.src a.tagged a.vid a.pcp k.tc k.flow k.hl k.src k.dst t.dst t.src
      t.seq t.ack t.off t.res t.flags t.window t.urg x = .ok p)
    (hq : create_tcpv6_packet chk' p6 b.dst b.src b.tagged b.vid b.pcp l.tc l.flow l.hl l.src l.dst u.dst u.src
      u.seq u.ack u.off u.res u.flags u.window u.urg y = .ok q) :
    p.to_vec = q.to_vec ↔ a.Same b ∧ k.Same p6 l ∧ t.Same u ∧ x = y := by
  obtain ⟨p', hp', ep⟩ := of_sent (C82_tcpv6 ..) hp
  obtain ⟨q', hq', eq⟩ := of_sent (C82_tcpv6 ..) hq
  rw [ep, eq, C83_ipv6 p6 a b k l _ _ _ _ p' q' hp' hq', tcp_same]
  simp

example :
    let mk := fun (o r : Byte) => (create_tcpv6_packet true Sample.p6 Sample.mac1 Sample.mac2 true 10 3 7 0x12345 64 Sample.ip6a
      Sample.ip6b 80 1234 7 9 o r 2 512 0 Sample.data).map Packet.to_vec
    mk 5 0 = mk 0x15 0 ∧ mk 5 0 ≠ mk 6 0 := by decide +kernel

/-- **C83**, UDP over IPv6. -/
theorem C83_udpv6 (d d' s s' : U16) (ck ck' : Bool) (x y : Bytes)
    (hp : create_udpv6_packet chk p6 a.dst a.src a.tagged a.vid a.pcp k.tc k.flow k.hl k.src k.dst d s ck x = .ok p)
    (hq : create_udpv6_packet chk' p6 b.dst b.src b.tagged b.vid b.pcp l.tc l.flow l.hl l.src l.dst d' s' ck' y = .ok q) :
    p.to_vec = q.to_vec ↔ a.Same b ∧ k.Same p6 l ∧ d = d' ∧ s = s' ∧ x = y := by
  obtain ⟨p', hp', ep⟩ := of_sent (C82_udpv6 _ _ _ _ _ _ _ _ _ _ _ _ _ _ _ _ _ (udp_ffff ..)) hp
  obtain ⟨q', hq', eq⟩ := of_sent (C82_udpv6 _ _ _ _ _ _ _ _ _ _ _ _ _ _ _ _ _ (udp_ffff ..)) hq
  rw [ep, eq, C83_ipv6 p6 a b k l _ _ _ _ p' q' hp' hq', udp_same]
  simp

example : (Sample.get (Sample.udpv6To 53)).to_vec ≠ (Sample.get (Sample.udpv6To 54)).to_vec := by decide +kernel

/-- **C83**, ICMPv6. -/
theorem C83_icmpv6 (t t' c c' : Byte) (data data' : Bytes) (ck ck' : Bool) (x y : Bytes)
    (hp : create_icmpv6_packet chk p6 a.dst a.src a.tagged a.vid a.pcp k.tc k.flow k.hl k.src k.dst t c data ck x = .ok p)
    (hq : create_icmpv6_packet chk' p6 b.dst b.src b.tagged b.vid b.pcp l.tc l.flow l.hl l.src l.dst t' c' data' ck' y
      = .ok q) :
    p.to_vec = q.to_vec ↔ a.Same b ∧ k.Same p6 l ∧ t = t' ∧ c = c' ∧ x = y := by
  obtain ⟨p', hp', ep⟩ := of_sent (C82_icmpv6 ..) hp
  obtain ⟨q', hq', eq⟩ := of_sent (C82_icmpv6 ..) hq
  rw [ep, eq, C83_ipv6 p6 a b k l _ _ _ _ p' q' hp' hq', icmp_same]
  simp

example : Sample.icmpv6 = .ok (Sample.get Sample.icmpv6) := by decide +kernel

/-- **C83**, IP in IP: the inner packets must serialize to the same octets. -/
theorem C83_ipip (i j : Packet) :
    (create_ipv4ip_packet chk a.dst a.src a.tagged a.vid a.pcp m.ihl m.src m.dst m.tos m.ttl m.id m.frag m.opts i = .ok p →
      create_ipv4ip_packet chk' b.dst b.src b.tagged b.vid b.pcp n.ihl n.src n.dst n.tos n.ttl n.id n.frag n.opts j = .ok q →
      (p.to_vec = q.to_vec ↔ a.Same b ∧ m.Same n ∧ i.to_vec = j.to_vec)) ∧
    (create_ipv6ip_packet p6 a.dst a.src a.tagged a.vid a.pcp k.tc k.flow k.hl k.src k.dst i = .ok p →
      create_ipv6ip_packet p6 b.dst b.src b.tagged b.vid b.pcp l.tc l.flow l.hl l.src l.dst j = .ok q →
      (p.to_vec = q.to_vec ↔ a.Same b ∧ k.Same p6 l ∧ i.to_vec = j.to_vec)) := by
  have imp : ∀ {P Q : Prop} (x y : Byte) (u v : Bytes), (P ∧ Q ∧ ((if x.toNat / 16 = 6 then 41#8 else 4#8) =
      (if y.toNat / 16 = 6 then 41#8 else (4#8 : Byte))) ∧ x :: u = y :: v) ↔ P ∧ Q ∧ x :: u = y :: v := by
    intro P Q x y u v
    constructor
    · rintro ⟨h1, h2, -, h3⟩; exact ⟨h1, h2, h3⟩
    · rintro ⟨h1, h2, h3⟩
      cases h3
      exact ⟨h1, h2, rfl, rfl⟩
  constructor
  · intro hp hq
    cases hi : i.to_vec with
    | nil => unfold create_ipv4ip_packet innerProto at hp; rw [hi] at hp; exact nomatch hp
    | cons x u =>
      cases hj : j.to_vec with
      | nil => unfold create_ipv4ip_packet innerProto at hq; rw [hj] at hq; exact nomatch hq
      | cons y v =>
        obtain ⟨p', hp', ep⟩ := of_sent (C82_ipip chk p6 a.dst a.src a.tagged a.vid a.pcp m.ihl m.src m.dst m.tos m.ttl m.id
          m.frag m.opts 0 0 0 i x u hi).1 hp
        obtain ⟨q', hq', eq⟩ := of_sent (C82_ipip chk' p6 b.dst b.src b.tagged b.vid b.pcp n.ihl n.src n.dst n.tos n.ttl n.id
          n.frag n.opts 0 0 0 j y v hj).1 hq
        rw [ep, eq, C83_ipv4 chk chk' a b m n _ _ _ _ p' q' hp' hq', imp]
  · intro hp hq
    cases hi : i.to_vec with
    | nil => unfold create_ipv6ip_packet innerProto at hp; rw [hi] at hp; exact nomatch hp
    | cons x u =>
      cases hj : j.to_vec with
      | nil => unfold create_ipv6ip_packet innerProto at hq; rw [hj] at hq; exact nomatch hq
      | cons y v =>
        obtain ⟨p', hp', ep⟩ := of_sent (C82_ipip chk p6 a.dst a.src a.tagged a.vid a.pcp 0 k.src k.dst 0 0 0
          0 [] k.tc k.flow k.hl i x u hi).2 hp
        obtain ⟨q', hq', eq⟩ := of_sent (C82_ipip chk p6 b.dst b.src b.tagged b.vid b.pcp 0 l.src l.dst 0 0 0
          0 [] l.tc l.flow l.hl j y v hj).2 hq
        rw [ep, eq, C83_ipv6 p6 a b k l _ _ _ _ p' q' hp' hq', imp]

example : Sample.ipv4ip = .ok (Sample.get Sample.ipv4ip) ∧ Sample.ipv6ip = .ok (Sample.get Sample.ipv6ip) := by decide +kernel

/-- **C83**: TCP, UDP and ICMP frames over IPv4 are never the same octets. -/
theorem C83_transports (t : Tcp) (d s : U16) (ty cd : Byte) (dt : Bytes) (ck ck' : Bool) (x y : Bytes) :
    (create_tcp_packet chk a.dst a.src a.tagged a.vid a.pcp m.ihl m.src m.dst m.tos m.ttl m.id m.frag m.opts t.dst t.src t.seq
        t.ack t.off t.res t.flags t.window t.urg ck x = .ok p →
      create_udp_packet chk' b.dst b.src b.tagged b.vid b.pcp n.ihl n.src n.dst n.tos n.ttl n.id n.frag n.opts d s ck' y = .ok q →
      p.to_vec ≠ q.to_vec) ∧
    (create_tcp_packet chk a.dst a.src a.tagged a.vid a.pcp m.ihl m.src m.dst m.tos m.ttl m.id m.frag m.opts t.dst t.src t.seq
        t.ack t.off t.res t.flags t.window t.urg ck x = .ok p →
      create_icmp_packet chk' b.dst b.src b.tagged b.vid b.pcp n.ihl n.src n.dst n.tos n.ttl n.id n.frag n.opts ty cd dt ck' y
        = .ok q →
      p.to_vec ≠ q.to_vec) ∧
    (create_udp_packet chk a.dst a.src a.tagged a.vid a.pcp m.ihl m.src m.dst m.tos m.ttl m.id m.frag m.opts d s ck x = .ok p →
      create_icmp_packet chk' b.dst b.src b.tagged b.vid b.pcp n.ihl n.src n.dst n.tos n.ttl n.id n.frag n.opts ty cd dt ck' y
        = .ok q →
      p.to_vec ≠ q.to_vec) := by
  refine ⟨fun hp hq => ?_, fun hp hq => ?_, fun hp hq => ?_⟩
  · obtain ⟨p', hp', ep⟩ := of_sent (C82_tcp ..) hp
    obtain ⟨q', hq', eq⟩ := of_sent (C82_udp ..) hq
    rw [ep, eq, ne_eq, C83_ipv4 chk chk' a b m n _ _ _ _ p' q' hp' hq']
    exact fun h => absurd h.2.2.1 (by decide)
  · obtain ⟨p', hp', ep⟩ := of_sent (C82_tcp ..) hp
    obtain ⟨q', hq', eq⟩ := of_sent (C82_icmp ..) hq
    rw [ep, eq, ne_eq, C83_ipv4 chk chk' a b m n _ _ _ _ p' q' hp' hq']
    exact fun h => absurd h.2.2.1 (by decide)
  · obtain ⟨p', hp', ep⟩ := of_sent (C82_udp ..) hp
    obtain ⟨q', hq', eq⟩ := of_sent (C82_icmp ..) hq
    rw [ep, eq, ne_eq, C83_ipv4 chk chk' a b m n _ _ _ _ p' q' hp' hq']
    exact fun h => absurd h.2.2.1 (by decide)

@[inherit_doc C83_transports]
theorem C83_transports6 (t : Tcp) (d s : U16) (ty cd : Byte) (dt : Bytes) (ck ck' : Bool) (x y : Bytes) :
    (create_tcpv6_packet chk p6 a.dst a.src a.tagged a.vid a.pcp k.tc k.flow k.hl k.src k.dst t.dst t.src t.seq
        t.ack t.off t.res t.flags t.window t.urg x = .ok p →
      create_udpv6_packet chk' p6 b.dst b.src b.tagged b.vid b.pcp l.tc l.flow l.hl l.src l.dst d s ck' y = .ok q →
      p.to_vec ≠ q.to_vec) ∧
    (create_tcpv6_packet chk p6 a.dst a.src a.tagged a.vid a.pcp k.tc k.flow k.hl k.src k.dst t.dst t.src t.seq
        t.ack t.off t.res t.flags t.window t.urg x = .ok p →
      create_icmpv6_packet chk' p6 b.dst b.src b.tagged b.vid b.pcp l.tc l.flow l.hl l.src l.dst ty cd dt ck' y = .ok q →
      p.to_vec ≠ q.to_vec) ∧
    (create_udpv6_packet chk p6 a.dst a.src a.tagged a.vid a.pcp k.tc k.flow k.hl k.src k.dst d s ck x = .ok p →
      create_icmpv6_packet chk' p6 b.dst b.src b.tagged b.vid b.pcp l.tc l.flow l.hl l.src l.dst ty cd dt ck' y = .ok q →
      p.to_vec ≠ q.to_vec) := by
  refine ⟨fun hp hq => ?_, fun hp hq => ?_, fun hp hq => ?_⟩
  · obtain ⟨p', hp', ep⟩ := of_sent (C82_tcpv6 ..) hp
    obtain ⟨q', hq', eq⟩ := of_sent (C82_udpv6 _ _ _ _ _ _ _ _ _ _ _ _ _ _ _ _ _ (udp_ffff ..)) hq
    rw [ep, eq, ne_eq, C83_ipv6 p6 a b k l _ _ _ _ p' q' hp' hq']
    exact fun h => absurd h.2.2.1 (by decide)
  · obtain ⟨p', hp', ep⟩ := of_sent (C82_tcpv6 ..) hp
    obtain ⟨q', hq', eq⟩ := of_sent (C82_icmpv6 ..) hq
    rw [ep, eq, ne_eq, C83_ipv6 p6 a b k l _ _ _ _ p' q' hp' hq']
    exact fun h => absurd h.2.2.1 (by decide)
  · obtain ⟨p', hp', ep⟩ := of_sent (C82_udpv6 _ _ _ _ _ _ _ _ _ _ _ _ _ _ _ _ _ (udp_ffff ..)) hp
    obtain ⟨q', hq', eq⟩ := of_sent (C82_icmpv6 ..) hq
    rw [ep, eq, ne_eq, C83_ipv6 p6 a b k l _ _ _ _ p' q' hp' hq']
    exact fun h => absurd h.2.2.1 (by decide)

/-- **C83**: no frame over IPv4 is a frame over IPv6. -/
theorem C83_versions (pr nh : Byte) (x y : Bytes)
    (hp : create_ipv4_packet chk a.dst a.src a.tagged a.vid a.pcp m.ihl m.src m.dst pr m.tos m.ttl m.id m.frag m.opts x = .ok p)
    (hq : create_ipv6_packet p6 b.dst b.src b.tagged b.vid b.pcp l.tc l.flow nh l.hl l.src l.dst y = .ok q) :
    p.to_vec ≠ q.to_vec := by
  obtain ⟨⟨⟨d, hd⟩, s, hs⟩, ⟨si, his⟩, di, hid⟩ := Addrs4.of hp
  obtain ⟨⟨d', hd'⟩, s', hs'⟩ := Addrs2.of hq
  obtain rfl := Except.ok.inj (hp.symm.trans
    (C41_ipv4 chk _ _ a.tagged a.vid a.pcp d s hd hs (m.ip pr si di) _ _ his hid m.opts x))
  rw [C41_ipv6 _ _ _ _ _ _ d' s' hd' hs'] at hq
  cases hq
  rw [to_vec_split, to_vec_split, ne_eq, l2_same hd hs hd' hs' _ _ (by decide) (by decide)]
  exact fun h => absurd h.2.1 (by decide)

example : (Sample.get Sample.icmpv6).to_vec ≠ (Sample.get (Sample.udpv6To 53)).to_vec ∧
    (Sample.get Sample.icmpv6).to_vec ≠ (Sample.get Sample.icmp).to_vec := by decide +kernel

example : (Sample.get Sample.tcp).to_vec ≠ (Sample.get Sample.udp).to_vec ∧
    (Sample.get Sample.udp).to_vec ≠ (Sample.get Sample.icmp).to_vec := by decide +kernel

end

end PacketRs
