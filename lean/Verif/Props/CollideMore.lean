import Verif.Props.Collide
/-!
# Property C83, continued: Ethernet, ARP and the tunnels
-/
namespace PacketRs
open Spec Utils

section
variable (chk chk' : Bool) (p6 : Ipv6FromStr) (a b : Link) (m n : Net4) (k l : Net6) (p q : Packet)

/-! ## Ethernet and ARP -/

/-- **C83**, Ethernet: two frames are the same if tagged alike with the same meaning and contents, or if one call leaves the
tag to the payload. -/
theorem C83_eth (et et' : U16) (x y : Bytes)
    (hp : create_eth_packet a.dst a.src a.tagged a.vid a.pcp et x = .ok p)
    (hq : create_eth_packet b.dst b.src b.tagged b.vid b.pcp et' y = .ok q) :
    p.to_vec = q.to_vec ↔ to_mac_bytes a.dst = to_mac_bytes b.dst ∧ to_mac_bytes a.src = to_mac_bytes b.src ∧
      match a.tagged, b.tagged with
      | false, false => et = et' ∧ x = y
      | true, true => a.tci = b.tci ∧ et = et' ∧ x = y
      | true, false => et' = 0x8100#16 ∧ y = be16 (BitVec.ofNat 16 a.tci) ++ be16 et ++ x
      | false, true => et = 0x8100#16 ∧ x = be16 (BitVec.ofNat 16 b.tci) ++ be16 et' ++ y := by
  obtain ⟨d, s, hd, hs⟩ := eth_inv _ _ _ _ _ _ _ _ hp
  obtain ⟨d', s', hd', hs'⟩ := eth_inv _ _ _ _ _ _ _ _ hq
  obtain rfl := Except.ok.inj (hp.symm.trans (C41_eth _ _ a.tagged a.vid a.pcp d s hd hs x et))
  obtain rfl := Except.ok.inj (hq.symm.trans (C41_eth _ _ b.tagged b.vid b.pcp d' s' hd' hs' y et'))
  have l1 := C31_length _ _ hd
  have l2 := C31_length _ _ hs
  have l3 := C31_length _ _ hd'
  have l4 := C31_length _ _ hs'
  have hx : ∀ z z' : U16, ∀ u v : Bytes, be16 z ++ u = be16 z' ++ v ↔ z = z' ∧ u = v := by
    intro z z' u v
    rw [split_append _ _ _ _ (by rfl), be16_inj_iff]
  have ht : (a.vid ||| (a.pcp.setWidth 16 <<< 13)) = (b.vid ||| (b.pcp.setWidth 16 <<< 13)) ↔ a.tci = b.tci := by
    rw [← BitVec.toNat_inj, tci_toNat, tci_toNat]
  have hn : ∀ c : Link, BitVec.ofNat 16 c.tci = (c.vid ||| (c.pcp.setWidth 16 <<< 13)) := by
    intro c
    rw [← tci_toNat, BitVec.ofNat_toNat, BitVec.setWidth_eq]
  rw [to_vec_onWire, to_vec_onWire, hd, hs, hd', hs', hn, hn]
  cases ha : a.tagged <;> cases hb : b.tagged <;>
    simp only [onWire, l2Hdrs, if_true, Bool.false_eq_true, if_false, List.map_cons, List.map_nil,
      List.flatten_cons, List.flatten_nil, List.append_nil, List.append_assoc, Except.ok.injEq] <;>
    rw [split_append _ _ _ _ (by omega), split_append _ _ _ _ (by omega), hx]
  · rw [eq_comm (a := et'), eq_comm (a := y)]
  · rw [hx, hx, ht]
    simp

/-- The tag written by hand. -/
example : (create_eth_packet Sample.mac1 Sample.mac2 true 10 3 0x88cc Sample.data).map Packet.to_vec =
    (create_eth_packet Sample.mac1 Sample.mac2 false 0 0 0x8100 ([0x60#8, 0x0a#8, 0x88#8, 0xcc#8] ++ Sample.data)).map
      Packet.to_vec := by decide +kernel

/-- A priority hidden in the identifier, and a priority above seven. -/
example : (create_eth_packet Sample.mac1 Sample.mac2 true 10 3 0x88cc Sample.data).map Packet.to_vec =
    (create_eth_packet Sample.mac1 Sample.mac2 true 0x600a 8 0x88cc Sample.data).map Packet.to_vec := by decide +kernel

/-- **C83**, ARP. -/
theorem C83_arp (o o' : U16) (sm tm sp tp sm' tm' sp' tp' : Str) (x y : Bytes)
    (hp : create_arp_packet a.dst a.src a.tagged a.vid a.pcp o sm tm sp tp x = .ok p)
    (hq : create_arp_packet b.dst b.src b.tagged b.vid b.pcp o' sm' tm' sp' tp' y = .ok q) :
    p.to_vec = q.to_vec ↔ a.Same b ∧ o = o' ∧ to_mac_bytes sm = to_mac_bytes sm' ∧ to_mac_bytes tm = to_mac_bytes tm' ∧
      to_ipv4_bytes sp = to_ipv4_bytes sp' ∧ to_ipv4_bytes tp = to_ipv4_bytes tp' ∧ x = y := by
  obtain ⟨⟨⟨d, hd⟩, s, hs⟩, ⟨⟨a1, h1⟩, a2, h2⟩, ⟨a3, h3⟩, a4, h4⟩ := (C41_arp_returns_iff ..).1 ⟨p, hp⟩
  obtain ⟨⟨⟨d', hd'⟩, s', hs'⟩, ⟨⟨b1, g1⟩, b2, g2⟩, ⟨b3, g3⟩, b4, g4⟩ := (C41_arp_returns_iff ..).1 ⟨q, hq⟩
  have e : Packet.arp o sm tm sp tp = .ok ⟨ARP, be16 1 ++ be16 0x0800#16 ++ [6#8] ++ [4#8] ++ be16 o ++ a1 ++ a3 ++ a2 ++ a4⟩ := by
    unfold Packet.arp
    rw [h1, h2, h3, h4]
    rfl
  have e' : Packet.arp o' sm' tm' sp' tp' =
      .ok ⟨ARP, be16 1 ++ be16 0x0800#16 ++ [6#8] ++ [4#8] ++ be16 o' ++ b1 ++ b3 ++ b2 ++ b4⟩ := by
    unfold Packet.arp
    rw [g1, g2, g3, g4]
    rfl
  obtain rfl := Except.ok.inj (hp.symm.trans (C41_arp _ _ a.tagged a.vid a.pcp d s hd hs x o sm tm sp tp _ e))
  obtain rfl := Except.ok.inj (hq.symm.trans (C41_arp _ _ b.tagged b.vid b.pcp d' s' hd' hs' y o' sm' tm' sp' tp' _ e'))
  have l1 := C31_length _ _ h1
  have l2 := C31_length _ _ h2
  have l3 := C32_length _ _ h3
  have l4 := C32_length _ _ h4
  have m1 := C31_length _ _ g1
  have m2 := C31_length _ _ g2
  have m3 := C32_length _ _ g3
  have m4 := C32_length _ _ g4
  rw [to_vec_split, to_vec_split, l2_same hd hs hd' hs' _ _ (by decide) (by decide), h1, h2, h3, h4, g1, g2, g3, g4]
  simp only [hdrBytes, onWire, List.map_cons, List.map_nil, List.flatten_cons, List.flatten_nil, List.append_nil,
    List.append_assoc, List.append_cancel_left_eq, Except.ok.injEq, true_and]
  rw [split_append _ _ _ _ (by rfl), split_append _ _ _ _ (by omega), split_append _ _ _ _ (by omega),
    split_append _ _ _ _ (by omega), split_append _ _ _ _ (by omega), be16_inj_iff]
  constructor
  · rintro ⟨h, h1, h2, h3, h4, h5, h6⟩; exact ⟨h, h1, h2, h4, h3, h5, h6⟩
  · rintro ⟨h, h1, h2, h4, h3, h5, h6⟩; exact ⟨h, h1, h2, h3, h4, h5, h6⟩

/-- Another spelling of the addresses. -/
example : (create_arp_packet Sample.mac1 Sample.mac2 true 10 3 2 Sample.mac2 Sample.mac1 "10.0.0.1".toList Sample.ip2
      Sample.data).map Packet.to_vec =
    (create_arp_packet Sample.mac1 "0:6:7:8:9:A".toList true 10 3 2 Sample.mac2 Sample.mac1 "010.0.0.001".toList Sample.ip2
      Sample.data).map Packet.to_vec := by decide +kernel

/-! ## Tunnels -/

/-- **C83**, VXLAN over IPv4: identifiers count modulo 2^24, inner packets by their octets. -/
theorem C83_vxlan (d d' s s' : U16) (ck ck' : Bool) (v v' : U32) (i j : Packet)
    (hp : create_vxlan_packet chk a.dst a.src a.tagged a.vid a.pcp m.ihl m.src m.dst m.tos m.ttl m.id m.frag m.opts d s ck v i
      = .ok p)
    (hq : create_vxlan_packet chk' b.dst b.src b.tagged b.vid b.pcp n.ihl n.src n.dst n.tos n.ttl n.id n.frag n.opts d' s' ck'
      v' j = .ok q) :
    p.to_vec = q.to_vec ↔ a.Same b ∧ m.Same n ∧ d = d' ∧ s = s' ∧ v.toNat % 2 ^ 24 = v'.toNat % 2 ^ 24 ∧
      i.to_vec = j.to_vec := by
  obtain ⟨⟨⟨dd, hd⟩, ss, hs⟩, ⟨si, his⟩, di, hid⟩ := (C41_vxlan_returns_iff ..).1 ⟨p, hp⟩
  obtain ⟨⟨⟨dd', hd'⟩, ss', hs'⟩, ⟨si', his'⟩, di', hid'⟩ := (C41_vxlan_returns_iff ..).1 ⟨q, hq⟩
  obtain rfl := Except.ok.inj (hp.symm.trans
    (C41_vxlan chk _ _ a.tagged a.vid a.pcp dd ss hd hs (m.ip 17 si di) _ _ his hid m.opts d s ck v i))
  obtain rfl := Except.ok.inj (hq.symm.trans
    (C41_vxlan chk' _ _ b.tagged b.vid b.pcp dd' ss' hd' hs' (n.ip 17 si' di') _ _ his' hid' n.opts d' s' ck' v' j))
  clear hp hq
  generalize i.to_vec = x
  generalize j.to_vec = y
  rw [to_vec_split, to_vec_split, l2_same hd hs hd' hs' _ _ (by decide) (by decide)]
  simp only [hdrBytes, onWire, List.map_cons, List.map_nil, List.flatten_cons, List.flatten_nil, List.append_nil,
    List.append_assoc]
  have e : ∀ (k : Net4) (u u' : Bytes), (k.ip 17 u u').withProto 17#8 = k.ip 17#8 u u' := fun _ _ _ => rfl
  rw [e, e, ip4_same his hid his' hid', split_append _ _ _ _ (by rfl), split_append _ _ _ _ (by rfl)]
  have hv : (Packet.vxlan v).data = (Packet.vxlan v').data ↔ v.toNat % 2 ^ 24 = v'.toNat % 2 ^ 24 := by
    simp only [Packet.vxlan, HeaderDef.ofVec, List.append_cancel_left_eq]
    rw [be32_inj_iff, ← BitVec.toNat_inj]
    simp only [BitVec.toNat_shiftLeft, Nat.shiftLeft_eq]
    omega
  rw [hv]
  simp only [Packet.udp, HeaderDef.ofVec, List.append_assoc]
  rw [split_append _ _ _ _ (by rfl), split_append _ _ _ _ (by rfl), split_append _ _ _ _ (by rfl), be16_inj_iff, be16_inj_iff]
  constructor
  · rintro ⟨h1, -, ⟨h2, -⟩, -, -, ⟨h3, h4, -, -⟩, h5, h6⟩
    exact ⟨h1, h2, h4, h3, h5, h6⟩
  · rintro ⟨h1, h2, h4, h3, h5, rfl⟩
    exact ⟨h1, trivial, ⟨h2, trivial⟩, rfl, ck_same his hid his' hid' _ _ ⟨h2, rfl⟩ _, ⟨h3, h4, rfl, rfl⟩, h5, rfl⟩

/-- The identifier's top octet is lost. -/
example : (create_vxlan_packet true Sample.mac1 Sample.mac2 false 0 0 5 Sample.ip1 Sample.ip2 0 64 1 0 [] 4789 53 true 0x01000007
      Sample.innerFrame).map Packet.to_vec =
    (create_vxlan_packet false Sample.mac1 Sample.mac2 false 9 9 5 Sample.ip1 Sample.ip2 0 64 1 0 [1] 4789 53 false 7
      Sample.innerFrame).map Packet.to_vec := by decide +kernel

/-- **C83**, VXLAN over IPv6.  The inner headers are on the wire twice (C41), so the frame and its length field are two
conditions on the inner packet. -/
theorem C83_vxlanv6 (d d' s s' : U16) (ck ck' : Bool) (v v' : U32) (i j : Packet)
    (hp : create_vxlanv6_packet chk p6 a.dst a.src a.tagged a.vid a.pcp k.tc k.flow k.hl k.src k.dst d s ck v i = .ok p)
    (hq : create_vxlanv6_packet chk' p6 b.dst b.src b.tagged b.vid b.pcp l.tc l.flow l.hl l.src l.dst d' s' ck' v' j = .ok q) :
    p.to_vec = q.to_vec ↔ a.Same b ∧ k.Same p6 l ∧ d = d' ∧ s = s' ∧ v.toNat % 2 ^ 24 = v'.toNat % 2 ^ 24 ∧
      i.to_vec.length % 65536 = j.to_vec.length % 65536 ∧ hdrBytes i.hdrs ++ i.to_vec = hdrBytes j.hdrs ++ j.to_vec := by
  obtain ⟨⟨dd, hd⟩, ss, hs⟩ := (C41_vxlanv6_returns_iff ..).1 ⟨p, hp⟩
  obtain ⟨⟨dd', hd'⟩, ss', hs'⟩ := (C41_vxlanv6_returns_iff ..).1 ⟨q, hq⟩
  obtain rfl := Except.ok.inj (hp.symm.trans
    (C41_vxlanv6 chk p6 _ _ a.tagged a.vid a.pcp dd ss hd hs _ _ k.tc k.flow k.hl d s ck v i))
  obtain rfl := Except.ok.inj (hq.symm.trans
    (C41_vxlanv6 chk' p6 _ _ b.tagged b.vid b.pcp dd' ss' hd' hs' _ _ l.tc l.flow l.hl d' s' ck' v' j))
  clear hp hq
  generalize i.to_vec = x
  generalize j.to_vec = y
  rw [List.append_assoc (l2Hdrs dd ss _ _ _ _), List.append_assoc (l2Hdrs dd' ss' _ _ _ _), to_vec_split, to_vec_split,
    l2_same hd hs hd' hs' _ _ (by decide) (by decide)]
  simp only [hdrBytes, onWire, List.map_cons, List.flatten_cons, List.append_nil, List.append_assoc, List.cons_append,
    List.nil_append]
  have hv : (Packet.vxlan v).data = (Packet.vxlan v').data ↔ v.toNat % 2 ^ 24 = v'.toNat % 2 ^ 24 := by
    simp only [Packet.vxlan, HeaderDef.ofVec, List.append_cancel_left_eq]
    rw [be32_inj_iff, ← BitVec.toNat_inj]
    simp only [BitVec.toNat_shiftLeft, Nat.shiftLeft_eq]
    omega
  have b6 : ∀ z z' : Str, (to_ipv6_bytes p6 z).length = (to_ipv6_bytes p6 z').length := fun _ _ => by rw [ipv6_len6, ipv6_len6]
  have hl : ∀ c : Nat, BitVec.ofNat 16 (x.length + c) = BitVec.ofNat 16 (y.length + c) ↔ x.length % 65536 = y.length % 65536 := by
    intro c
    rw [← BitVec.toNat_inj, BitVec.toNat_ofNat, BitVec.toNat_ofNat]
    omega
  unfold Net6.Same
  rw [← word6_toNat, ← word6_toNat, BitVec.toNat_inj]
  simp only [Packet.ipv6, HeaderDef.ofVec, List.append_assoc, List.cons_append, List.nil_append]
  have b16 : ∀ z z' : U16, (be16 z).length = (be16 z').length := fun _ _ => rfl
  have b32 : ∀ z z' : U32, (be32 z).length = (be32 z').length := fun _ _ => rfl
  have bv : (Packet.vxlan v).data.length = (Packet.vxlan v').data.length := rfl
  rw [split_append _ _ _ _ (b32 _ _), split_append _ _ _ _ (b16 _ _), List.cons.injEq, List.cons.injEq,
    split_append _ _ _ _ (b6 _ _), split_append _ _ _ _ (b6 _ _), split_append _ _ _ _ (b16 _ _), split_append _ _ _ _ (b16 _ _),
    split_append _ _ _ _ (b16 _ _), split_append _ _ _ _ (b16 _ _), split_append _ _ _ _ bv, hv,
    be32_inj_iff, be16_inj_iff, be16_inj_iff, be16_inj_iff, be16_inj_iff, Nat.add_comm 16, Nat.add_comm 16, hl]
  constructor
  · rintro ⟨h1, -, h2, h3, -, h4, h5, h6, h7, h8, -, -, h9, h10⟩
    exact ⟨h1, ⟨h2, h4, h5, h6⟩, h8, h7, h9, h3, h10⟩
  · rintro ⟨h1, ⟨h2, h4, h5, h6⟩, h8, h7, h9, h3, h10⟩
    exact ⟨h1, trivial, h2, h3, rfl, h4, h5, h6, h7, h8, h3, rfl, h9, h10⟩

/-- As long as the inner packets are shorter than 64 KiB, that is: same headers and same payload, octet by octet. -/
theorem C83_vxlanv6_inner (i j : Packet) (hi : i.to_vec.length < 65536) (hj : j.to_vec.length < 65536) :
    (i.to_vec.length % 65536 = j.to_vec.length % 65536 ∧ hdrBytes i.hdrs ++ i.to_vec = hdrBytes j.hdrs ++ j.to_vec) ↔
      hdrBytes i.hdrs = hdrBytes j.hdrs ∧ i.payload = j.payload := by
  have e : ∀ r : Packet, r.to_vec = hdrBytes r.hdrs ++ r.payload := by
    intro r
    rw [to_vec_onWire]
    simp [hdrBytes, onWire]
  constructor
  · rintro ⟨h1, h2⟩
    rw [Nat.mod_eq_of_lt hi, Nat.mod_eq_of_lt hj] at h1
    have h3 := congrArg List.length h2
    rw [List.length_append, List.length_append] at h3
    have h4 : (hdrBytes i.hdrs).length = (hdrBytes j.hdrs).length := by omega
    have h5 := List.append_inj h2 h4
    refine ⟨h5.1, ?_⟩
    have h6 := h5.2
    rw [e, e] at h6
    exact (List.append_inj h6 h4).2
  · rintro ⟨h1, h2⟩
    rw [e i, e j, h1, h2]
    exact ⟨rfl, rfl⟩

/-- Two packets with the same octets, cut into headers and payload differently: the frames differ. -/
example :
    let i : Packet := ⟨[⟨ICMP, [8, 0, 0, 0]⟩], [1, 2]⟩
    let j : Packet := ⟨[], [8, 0, 0, 0, 1, 2]⟩
    let mk := fun x => (create_vxlanv6_packet true Sample.p6 Sample.mac1 Sample.mac2 false 0 0 0 1 64 Sample.ip6a Sample.ip6b 4789
      53 true 7 x).map Packet.to_vec
    i.to_vec = j.to_vec ∧ mk i ≠ mk j := by decide +kernel

/-- **C83**, GRE.  Options count only if their bit is set, the routing option only by its length. -/
theorem C83_gre (c r w e st c' r' w' e' st' : Bool) (fl fl' ver ver' : Byte) (gc gc' go go' : U16) (key key' seq seq' : U32)
    (rt rt' : Bytes) (i j : Option Packet)
    (hp : create_gre_packet chk a.dst a.src a.tagged a.vid a.pcp m.ihl m.src m.dst m.tos m.ttl m.id m.frag m.opts c r w e st fl
      ver gc go key seq rt i = .ok p)
    (hq : create_gre_packet chk' b.dst b.src b.tagged b.vid b.pcp n.ihl n.src n.dst n.tos n.ttl n.id n.frag n.opts c' r' w' e'
      st' fl' ver' gc' go' key' seq' rt' j = .ok q) :
    p.to_vec = q.to_vec ↔ a.Same b ∧ m.Same n ∧ (c = c' ∧ r = r' ∧ w = w' ∧ e = e' ∧ st = st') ∧
      fl.toNat * 8 % 256 ||| ver.toNat = fl'.toNat * 8 % 256 ||| ver'.toNat ∧ (c = true → gc = gc' ∧ go = go') ∧
      (w = true → key = key') ∧ (e = true → seq = seq') ∧ (r = true → rt.length % 65536 = rt'.length % 65536) ∧
      innerBytes i = innerBytes j := by
  obtain ⟨⟨⟨⟨d, hd⟩, s, hs⟩, ⟨si, his⟩, di, hid⟩, hi⟩ := (C41_gre_returns_iff ..).1 ⟨p, hp⟩
  obtain ⟨⟨⟨⟨d', hd'⟩, s', hs'⟩, ⟨si', his'⟩, di', hid'⟩, hj⟩ := (C41_gre_returns_iff ..).1 ⟨q, hq⟩
  obtain rfl := Except.ok.inj (hp.symm.trans
    (C41_gre chk _ _ a.tagged a.vid a.pcp d s hd hs (m.ip 47 si di) _ _ his hid m.opts c r w e st fl ver gc go key seq rt i hi))
  obtain rfl := Except.ok.inj (hq.symm.trans
    (C41_gre chk' _ _ b.tagged b.vid b.pcp d' s' hd' hs' (n.ip 47 si' di') _ _ his' hid' n.opts c' r' w' e' st' fl' ver' gc' go'
      key' seq' rt' j hj))
  clear hp hq hi hj
  generalize innerBytes i = x
  generalize innerBytes j = y
  have ew : ∀ (k : Net4) (u u' : Bytes), (k.ip 47 u u').withProto 47#8 = k.ip 47#8 u u' := fun _ _ _ => rfl
  rw [List.append_assoc (l2Hdrs d s _ _ _ _), List.append_assoc (l2Hdrs d' s' _ _ _ _), to_vec_split, to_vec_split,
    l2_same hd hs hd' hs' _ _ (by decide) (by decide), ew, ew]
  have hf : (fl <<< 3 ||| ver) = (fl' <<< 3 ||| ver') ↔
      fl.toNat * 8 % 256 ||| ver.toNat = fl'.toNat * 8 % 256 ||| ver'.toNat := by
    rw [← BitVec.toNat_inj, BitVec.toNat_or, BitVec.toNat_or, BitVec.toNat_shiftLeft, BitVec.toNat_shiftLeft,
      Nat.shiftLeft_eq, Nat.shiftLeft_eq]
  have hb : ∀ c r w e st c' r' w' e' st' : Bool,
      ((Packet.boolU8 c <<< 7) ||| (Packet.boolU8 r <<< 6) ||| (Packet.boolU8 w <<< 5) ||| (Packet.boolU8 e <<< 4) ||| (Packet.boolU8 st <<< 3) =
        (Packet.boolU8 c' <<< 7) ||| (Packet.boolU8 r' <<< 6) ||| (Packet.boolU8 w' <<< 5) ||| (Packet.boolU8 e' <<< 4) ||| (Packet.boolU8 st' <<< 3)) ↔
      (c = c' ∧ r = r' ∧ w = w' ∧ e = e' ∧ st = st') := by decide +kernel
  simp only [hdrBytes, onWire, List.map_cons, List.map_append, List.flatten_cons, List.flatten_append, List.append_nil,
    List.append_assoc, List.cons_append, List.nil_append]
  rw [hdr_same his hid his' hid']
  simp only [Packet.gre, HeaderDef.ofVec, List.append_assoc, List.cons_append, List.nil_append, List.cons.injEq]
  rw [hb, hf]
  rw [split_append _ _ _ _ (by rfl), be16_inj_iff]
  refine and_congr_right fun _ => ?_
  simp only [true_and, and_true, and_assoc]
  refine and_congr_right fun hmn => ?_
  by_cases hbits : c = c' ∧ r = r' ∧ w = w' ∧ e = e' ∧ st = st'
  · obtain ⟨rfl, rfl, rfl, rfl, rfl⟩ := hbits
    have ho : ∀ (z : Bool) (h h' : Hdr) (u v : Bytes), h.data.length = h'.data.length →
        (((optHdrs z h).map (·.data)).flatten ++ u = ((optHdrs z h').map (·.data)).flatten ++ v ↔
          (z = true → h.data = h'.data) ∧ u = v) := by
      intro z h h' u v hl
      cases z
      · simp [optHdrs]
      · simp only [optHdrs, if_true, List.map_cons, List.map_nil, List.flatten_cons, List.flatten_nil, List.append_nil, true_imp_iff]
        exact split_append _ _ _ _ hl
    rw [ho _ _ _ _ _ (by rfl), ho _ _ _ _ _ (by rfl), ho _ _ _ _ _ (by rfl)]
    simp only [Packet.gre_chksum_offset, Packet.gre_key, Packet.gre_sequence_number, HeaderDef.ofVec, be32_inj_iff]
    rw [split_append _ _ _ _ (by rfl), be16_inj_iff, be16_inj_iff, ← BitVec.toNat_inj, BitVec.toNat_ofNat, BitVec.toNat_ofNat]
    have hr : x.length = y.length → ((20 + x.length + greLen c r w e rt) % 2 ^ 16 = (20 + y.length + greLen c r w e rt') % 2 ^ 16 ↔
        (r = true → rt.length % 65536 = rt'.length % 65536)) := by
      intro hxy
      unfold greLen
      cases r
      · simp [hxy]
      · simp only [if_true, true_imp_iff]
        omega
    constructor
    · rintro ⟨h1, -, -, -, -, -, h2, h3, h4, h5, h6, rfl⟩
      exact ⟨trivial, trivial, trivial, trivial, trivial, h2, h4, h5, h6, (hr rfl).1 h1, rfl⟩
    · rintro ⟨-, -, -, -, -, h2, h4, h5, h6, h1, rfl⟩
      exact ⟨(hr rfl).2 h1, trivial, trivial, trivial, trivial, trivial, h2, rfl, h4, h5, h6, rfl⟩
  · constructor
    · rintro ⟨-, h1, h2, h3, h4, h5, -⟩
      exact absurd ⟨h1, h2, h3, h4, h5⟩ hbits
    · rintro ⟨h1, h2, h3, h4, h5, -⟩
      exact absurd ⟨h1, h2, h3, h4, h5⟩ hbits

example : (create_gre_packet true Sample.mac1 Sample.mac2 false 0 0 5 Sample.ip1 Sample.ip2 0 64 1 0 [] false true true false
      false 32 1 7 8 9 10 [1, 2] (some Sample.innerIp)).map Packet.to_vec =
    (create_gre_packet true Sample.mac1 Sample.mac2 false 0 0 5 Sample.ip1 Sample.ip2 0 64 1 0 [] false true true false
      false 0 1 0 0 9 0 [3, 4] (some Sample.innerIp)).map Packet.to_vec := by decide +kernel

/-! ## ERSPAN -/

/-- The first two words of an ERSPAN header with version `2 ^ 12 * v`, as united fields. -/
def erspanWord1 (v : Nat) (vlan : U16) : Nat := 4096 * v ||| vlan.toNat
def erspanWord2 (cos en t : Byte) (sid : U16) : Nat :=
  cos.toNat % 8 * 8192 ||| en.toNat % 32 * 2048 ||| t.toNat % 64 * 1024 ||| sid.toNat

theorem erspanWord2_toNat (cos en t : Byte) (sid : U16) :
    (((cos.setWidth 16) <<< 13) ||| ((en.setWidth 16) <<< 11) ||| ((t.setWidth 16) <<< 10) ||| sid : U16).toNat =
      erspanWord2 cos en t sid := by
  have h1 : ((cos.setWidth 16) <<< 13 : U16).toNat = cos.toNat % 8 * 8192 := by
    simp only [BitVec.toNat_shiftLeft, BitVec.toNat_setWidth, Nat.shiftLeft_eq]
    have := cos.isLt
    omega
  have h2 : ((en.setWidth 16) <<< 11 : U16).toNat = en.toNat % 32 * 2048 := by
    simp only [BitVec.toNat_shiftLeft, BitVec.toNat_setWidth, Nat.shiftLeft_eq]
    have := en.isLt
    omega
  have h3 : ((t.setWidth 16) <<< 10 : U16).toNat = t.toNat % 64 * 1024 := by
    simp only [BitVec.toNat_shiftLeft, BitVec.toNat_setWidth, Nat.shiftLeft_eq]
    have := t.isLt
    omega
  rw [BitVec.toNat_or, BitVec.toNat_or, BitVec.toNat_or, h1, h2, h3]
  rfl

theorem erspan2_same (vl vl' : U16) (cos en t cos' en' t' : Byte) (sid sid' : U16) (idx idx' : U32) (x y : Bytes) :
    (Packet.erspan2 vl cos en t sid idx).data ++ x = (Packet.erspan2 vl' cos' en' t' sid' idx').data ++ y ↔
      erspanWord1 1 vl = erspanWord1 1 vl' ∧ erspanWord2 cos en t sid = erspanWord2 cos' en' t' sid' ∧ idx = idx' ∧ x = y := by
  have hw : ∀ u : U16, ((ErspanVersion.II.toU16 <<< 12) ||| u : U16).toNat = erspanWord1 1 u := by
    intro u
    rw [BitVec.toNat_or]
    rfl
  simp only [Packet.erspan2, HeaderDef.ofVec, List.append_assoc]
  rw [split_append _ _ _ _ (by rfl), split_append _ _ _ _ (by rfl), split_append _ _ _ _ (by rfl), be16_inj_iff, be16_inj_iff,
    be32_inj_iff, ← BitVec.toNat_inj, ← BitVec.toNat_inj, hw, hw, erspanWord2_toNat, erspanWord2_toNat]

theorem erspan3_same (vl vl' : U16) (cos en t cos' en' t' : Byte) (sid sid' : U16) (ts ts' : U32) (sg sg' ft ft' : U16)
    (x y : Bytes) :
    (Packet.erspan3 vl cos en t sid ts sg ft).data ++ x = (Packet.erspan3 vl' cos' en' t' sid' ts' sg' ft').data ++ y ↔
      erspanWord1 2 vl = erspanWord1 2 vl' ∧ erspanWord2 cos en t sid = erspanWord2 cos' en' t' sid' ∧ ts = ts' ∧ sg = sg' ∧
        ft = ft' ∧ x = y := by
  have hw : ∀ u : U16, ((ErspanVersion.III.toU16 <<< 12) ||| u : U16).toNat = erspanWord1 2 u := by
    intro u
    rw [BitVec.toNat_or]
    rfl
  simp only [Packet.erspan3, HeaderDef.ofVec, List.append_assoc]
  rw [split_append _ _ _ _ (by rfl), split_append _ _ _ _ (by rfl), split_append _ _ _ _ (by rfl), split_append _ _ _ _ (by rfl),
    split_append _ _ _ _ (by rfl), be16_inj_iff, be16_inj_iff,
    be32_inj_iff, be16_inj_iff, be16_inj_iff, ← BitVec.toNat_inj, ← BitVec.toNat_inj, hw, hw, erspanWord2_toNat, erspanWord2_toNat]

theorem optSeq_same (h : U32 → Bool) (f g : U32) (x y : Bytes) (e : h f = h g) :
    ((optHdrs (h f) (Packet.gre_sequence_number f)).map (·.data)).flatten ++ x =
        ((optHdrs (h g) (Packet.gre_sequence_number g)).map (·.data)).flatten ++ y ↔
      (h f = true → f = g) ∧ x = y := by
  rw [e]
  cases h g
  · simp [optHdrs]
  · simp only [optHdrs, if_true, List.map_cons, List.map_nil, List.flatten_cons, List.flatten_nil, List.append_nil, true_imp_iff]
    rw [split_append _ _ _ _ (by rfl)]
    simp only [Packet.gre_sequence_number, HeaderDef.ofVec, be32_inj_iff]

/-- **C83**, ERSPAN II.  The inner packet also counts by what it claims as its length, because that is added to the total
length once more (C41). -/
theorem C83_erspan2 (sq sq' : U32) (vl vl' : U16) (cos en t cos' en' t' : Byte) (sid sid' : U16) (idx idx' : U32)
    (i j : Option Packet)
    (hp : create_erspan_2_packet chk a.dst a.src a.tagged a.vid a.pcp m.ihl m.src m.dst m.tos m.ttl m.id m.frag m.opts sq vl cos
      en t sid idx i = .ok p)
    (hq : create_erspan_2_packet chk' b.dst b.src b.tagged b.vid b.pcp n.ihl n.src n.dst n.tos n.ttl n.id n.frag n.opts sq' vl'
      cos' en' t' sid' idx' j = .ok q) :
    p.to_vec = q.to_vec ↔ a.Same b ∧ m.Same n ∧ sq = sq' ∧ erspanWord1 1 vl = erspanWord1 1 vl' ∧
      erspanWord2 cos en t sid = erspanWord2 cos' en' t' sid' ∧ idx = idx' ∧ innerBytes i = innerBytes j ∧
      innerLen i % 65536 = innerLen j % 65536 := by
  obtain ⟨⟨⟨d, hd⟩, s, hs⟩, ⟨si, his⟩, di, hid⟩ := (C41_erspan2_returns_iff ..).1 ⟨p, hp⟩
  obtain ⟨⟨⟨d', hd'⟩, s', hs'⟩, ⟨si', his'⟩, di', hid'⟩ := (C41_erspan2_returns_iff ..).1 ⟨q, hq⟩
  obtain rfl := Except.ok.inj (hp.symm.trans
    (C41_erspan2 chk _ _ a.tagged a.vid a.pcp d s hd hs (m.ip 47 si di) _ _ his hid m.opts sq vl cos en t sid idx i))
  obtain rfl := Except.ok.inj (hq.symm.trans
    (C41_erspan2 chk' _ _ b.tagged b.vid b.pcp d' s' hd' hs' (n.ip 47 si' di') _ _ his' hid' n.opts sq' vl' cos' en' t' sid' idx' j))
  clear hp hq
  generalize innerBytes i = x
  generalize innerBytes j = y
  have ew : ∀ (k : Net4) (u u' : Bytes), (k.ip 47 u u').withProto 47#8 = k.ip 47#8 u u' := fun _ _ _ => rfl
  rw [List.append_assoc (l2Hdrs d s _ _ _ _), List.append_assoc (l2Hdrs d' s' _ _ _ _), to_vec_split, to_vec_split,
    l2_same hd hs hd' hs' _ _ (by decide) (by decide), ew, ew]
  simp only [hdrBytes, onWire, List.map_cons, List.map_append, List.map_nil, List.flatten_cons, List.flatten_append,
    List.flatten_nil, List.append_nil, List.append_assoc, List.cons_append, List.nil_append]
  rw [hdr_same his hid his' hid']
  simp only [List.cons.injEq, true_and, and_true, and_assoc]
  refine and_congr_right fun _ => and_congr_right fun _ => ?_
  by_cases hz : (sq ≠ 0#32) = (sq' ≠ 0#32)
  · rw [optSeq_same (fun z => decide (z ≠ 0#32)) sq sq' _ _ (by simp only [hz]), erspan2_same, ← BitVec.toNat_inj, BitVec.toNat_ofNat,
      BitVec.toNat_ofNat]
    have hl : x = y → sq = sq' → ((20 + x.length + (erspan2Len sq + innerLen i)) % 2 ^ 16 =
        (20 + y.length + (erspan2Len sq' + innerLen j)) % 2 ^ 16 ↔ innerLen i % 65536 = innerLen j % 65536) := by
      rintro rfl rfl
      omega
    constructor
    · rintro ⟨h1, h2, h3, h4, h5, h6, h7⟩
      have h8 : sq = sq' := by
        by_cases h0 : sq = 0#32
        · simp only [h0, ne_eq, not_true_eq_false, eq_iff_iff, false_iff, not_not] at hz
          rw [h0, hz]
        · exact h3 (by simp [h0])
      exact ⟨h8, h4, h5, h6, h7, (hl h7 h8).1 h1⟩
    · rintro ⟨h8, h4, h5, h6, h7, h1⟩
      exact ⟨(hl h7 h8).2 h1, by rw [h8], fun _ => h8, h4, h5, h6, h7⟩
  · constructor
    · rintro ⟨-, h, -⟩
      exfalso
      by_cases h0 : sq = 0#32 <;> by_cases h1 : sq' = 0#32 <;> simp [h0, h1] at h hz
    · rintro ⟨rfl, -⟩
      exact absurd rfl hz

/-- Fields that overlap in their word. -/
example : (create_erspan_2_packet true Sample.mac1 Sample.mac2 false 0 0 5 Sample.ip1 Sample.ip2 0 64 1 0 [] 23 100 1 4 1 77 5
      (some Sample.innerFrame)).map Packet.to_vec =
    (create_erspan_2_packet true Sample.mac1 Sample.mac2 false 0 0 5 Sample.ip1 Sample.ip2 0 64 1 0 [] 23 0x1064 0 4 9 77 5
      (some Sample.innerFrame)).map Packet.to_vec := by decide +kernel

/-- **C83**, ERSPAN III, sequence numbers zero or odd (even ones are not announced, C41). -/
theorem C83_erspan3 (sq sq' : U32) (vl vl' : U16) (cos en t cos' en' t' : Byte) (sid sid' : U16) (ts ts' : U32)
    (sg sg' ft ft' : U16) (pid pid' : Byte) (nf nf' : U64) (i j : Option Packet)
    (ho : sq = 0#32 ∨ sq.toNat % 2 = 1) (ho' : sq' = 0#32 ∨ sq'.toNat % 2 = 1)
    (hp : create_erspan_3_packet chk a.dst a.src a.tagged a.vid a.pcp m.ihl m.src m.dst m.tos m.ttl m.id m.frag m.opts sq vl cos
      en t sid ts sg ft pid nf i = .ok p)
    (hq : create_erspan_3_packet chk' b.dst b.src b.tagged b.vid b.pcp n.ihl n.src n.dst n.tos n.ttl n.id n.frag n.opts sq' vl'
      cos' en' t' sid' ts' sg' ft' pid' nf' j = .ok q) :
    p.to_vec = q.to_vec ↔ a.Same b ∧ m.Same n ∧ sq = sq' ∧ erspanWord1 2 vl = erspanWord1 2 vl' ∧
      erspanWord2 cos en t sid = erspanWord2 cos' en' t' sid' ∧ ts = ts' ∧ sg = sg' ∧ ft = ft' ∧
      (ft.toNat % 2 = 1 → (platform pid nf).data = (platform pid' nf').data) ∧
      hdrBytes (innerHdrs i) ++ innerBytes i = hdrBytes (innerHdrs j) ++ innerBytes j ∧
      ((innerBytes i).length + innerLen i) % 65536 = ((innerBytes j).length + innerLen j) % 65536 := by
  obtain ⟨⟨⟨d, hd⟩, s, hs⟩, ⟨si, his⟩, di, hid⟩ := (C41_erspan3_returns_iff ..).1 ⟨p, hp⟩
  obtain ⟨⟨⟨d', hd'⟩, s', hs'⟩, ⟨si', his'⟩, di', hid'⟩ := (C41_erspan3_returns_iff ..).1 ⟨q, hq⟩
  obtain rfl := Except.ok.inj (hp.symm.trans
    (C41_erspan3 chk _ _ a.tagged a.vid a.pcp d s hd hs (m.ip 47 si di) _ _ his hid m.opts sq vl cos en t sid ts sg ft pid nf i))
  obtain rfl := Except.ok.inj (hq.symm.trans
    (C41_erspan3 chk' _ _ b.tagged b.vid b.pcp d' s' hd' hs' (n.ip 47 si' di') _ _ his' hid' n.opts sq' vl' cos' en' t' sid' ts'
      sg' ft' pid' nf' j))
  clear hp hq
  generalize innerBytes i = x
  generalize innerBytes j = y
  have ew : ∀ (k : Net4) (u u' : Bytes), (k.ip 47 u u').withProto 47#8 = k.ip 47#8 u u' := fun _ _ _ => rfl
  rw [List.append_assoc (l2Hdrs d s _ _ _ _), List.append_assoc (l2Hdrs d' s' _ _ _ _), to_vec_split, to_vec_split,
    l2_same hd hs hd' hs' _ _ (by decide) (by decide), ew, ew]
  simp only [hdrBytes, onWire, List.map_cons, List.map_append, List.flatten_cons, List.flatten_append,
    List.append_nil, List.append_assoc, List.cons_append, List.nil_append]
  rw [hdr_same his hid his' hid']
  simp only [List.cons.injEq, true_and, and_true, and_assoc]
  refine and_congr_right fun _ => and_congr_right fun _ => ?_
  have b64 : ∀ z z' : U64, (be64 z).length = (be64 z').length := fun _ _ => rfl
  have h64 : (platform pid nf).data.length = (platform pid' nf').data.length := by
    unfold platform
    exact b64 _ _
  have hpl : ∀ u v : Bytes, ((optHdrs (decide (ft.toNat % 2 = 1)) (platform pid nf)).map (·.data)).flatten ++ u =
      ((optHdrs (decide (ft.toNat % 2 = 1)) (platform pid' nf')).map (·.data)).flatten ++ v ↔
      (ft.toNat % 2 = 1 → (platform pid nf).data = (platform pid' nf').data) ∧ u = v := by
    intro u v
    by_cases h : ft.toNat % 2 = 1
    · simp only [h, decide_true, optHdrs, if_true, List.map_cons, List.map_nil, List.flatten_cons, List.flatten_nil,
        List.append_nil, true_imp_iff]
      exact split_append _ _ _ _ h64
    · simp [h, optHdrs]
  have hodd : ∀ z : U32, (z = 0#32 ∨ z.toNat % 2 = 1) → (z.toNat % 2 = 1 ↔ z ≠ 0#32) := by
    intro z hz
    constructor
    · rintro h rfl; exact absurd h (by decide)
    · intro h; exact hz.resolve_left h
  simp only [hodd sq ho, hodd sq' ho']
  by_cases hz : (sq ≠ 0#32) = (sq' ≠ 0#32)
  · rw [optSeq_same (fun z => decide (z ≠ 0#32)) sq sq' _ _ (by simp only [hz]), erspan3_same, ← BitVec.toNat_inj, BitVec.toNat_ofNat,
      BitVec.toNat_ofNat]
    have hl : sq = sq' → ft = ft' → ((20 + x.length + (erspan3Len sq ft + innerLen i)) % 2 ^ 16 =
        (20 + y.length + (erspan3Len sq' ft' + innerLen j)) % 2 ^ 16 ↔
          (x.length + innerLen i) % 65536 = (y.length + innerLen j) % 65536) := by
      rintro rfl rfl
      omega
    constructor
    · rintro ⟨h1, h2, h3, h4, h5, h6, h7, rfl, h9⟩
      have h8 : sq = sq' := by
        by_cases h0 : sq = 0#32
        · simp only [h0, ne_eq, not_true_eq_false, eq_iff_iff, false_iff, not_not] at hz
          rw [h0, hz]
        · exact h3 (by simp [h0])
      rw [hpl] at h9
      exact ⟨h8, h4, h5, h6, h7, rfl, h9.1, h9.2, (hl h8 rfl).1 h1⟩
    · rintro ⟨h8, h4, h5, h6, h7, rfl, h9, h10, h1⟩
      exact ⟨(hl h8 rfl).2 h1, by rw [h8], fun _ => h8, h4, h5, h6, h7, rfl, (hpl _ _).2 ⟨h9, h10⟩⟩
  · constructor
    · rintro ⟨-, h, -⟩
      exfalso
      by_cases h0 : sq = 0#32 <;> by_cases h1 : sq' = 0#32 <;> simp [h0, h1] at h hz
    · rintro ⟨rfl, -⟩
      exact absurd rfl hz

end

/-- **C83**, ERSPAN III with an even sequence number is ambiguous: a packet of three VLAN tags sent with sequence number
0x20000002 and an Ethernet packet sent without sequence number give the same frame, whatever follows and wherever it is sent. -/
theorem C83_erspan3_ambiguous (chk : Bool) (a : Link) (m : Net4) (x : Bytes) (p q : Packet)
    (hp : create_erspan_3_packet chk a.dst a.src a.tagged a.vid a.pcp m.ihl m.src m.dst m.tos m.ttl m.id m.frag m.opts
      0x20000002 0 0 0 0 0 0x2000200 0x200 0x200 0 0
      (some ⟨[⟨Vlan, [2, 0, 2, 0]⟩, ⟨Vlan, [2, 0, 2, 0]⟩, ⟨Vlan, [2, 0, 2, 0]⟩], x⟩) = .ok p)
    (hq : create_erspan_3_packet chk a.dst a.src a.tagged a.vid a.pcp m.ihl m.src m.dst m.tos m.ttl m.id m.frag m.opts
      0 0 0 0 0 2 0x20000000 0x200 0x200 0 0
      (some ⟨[⟨Ether, [2, 0, 2, 0, 2, 0, 2, 0, 2, 0, 2, 0, 2, 0]⟩], x⟩) = .ok q) : p.to_vec = q.to_vec := by
  obtain ⟨⟨⟨d, hd⟩, s, hs⟩, ⟨si, his⟩, di, hid⟩ := (C41_erspan3_returns_iff ..).1 ⟨p, hp⟩
  obtain rfl := Except.ok.inj (hp.symm.trans
    (C41_erspan3 chk _ _ a.tagged a.vid a.pcp d s hd hs (m.ip 47 si di) _ _ his hid m.opts _ _ _ _ _ _ _ _ _ _ _ _))
  obtain rfl := Except.ok.inj (hq.symm.trans
    (C41_erspan3 chk _ _ a.tagged a.vid a.pcp d s hd hs (m.ip 47 si di) _ _ his hid m.opts _ _ _ _ _ _ _ _ _ _ _ _))
  have e1 : (Packet.erspan3 0 0 0 0 0 0x2000200 0x200 0x200).data = [0x20, 0, 0, 0, 2, 0, 2, 0, 2, 0, 2, 0] := by decide +kernel
  have e2 : (Packet.erspan3 0 0 0 0 2 0x20000000 0x200 0x200).data = [0x20, 0, 0, 2, 0x20, 0, 0, 0, 2, 0, 2, 0] := by
    decide +kernel
  have e3 : (Packet.gre_sequence_number 0x20000002).data = [0x20, 0, 0, 2] := by decide +kernel
  have o1 : ∀ h, optHdrs (decide ((0x20000002 : U32) ≠ 0#32)) h = [h] := fun _ => rfl
  have o2 : ∀ h, optHdrs (decide ((0 : U32) ≠ 0#32)) h = [] := fun _ => rfl
  have o3 : ∀ h, optHdrs (decide ((0x200 : U16).toNat % 2 = 1)) h = [] := fun _ => rfl
  have l1 : erspan3Len 0x20000002 0x200 = 20 := by decide +kernel
  have l2 : erspan3Len 0 0x200 = 16 := by decide +kernel
  have g : (if (0x20000002 : U32).toNat % 2 = 1 then 0x10#8 else 0#8) = if (0 : U32).toNat % 2 = 1 then 0x10#8 else 0#8 := by
    decide +kernel
  rw [to_vec_onWire, to_vec_onWire, o1, o2, o3, l1, l2, g]
  simp only [onWire, innerBytes, innerHdrs, innerLen, to_vec_onWire (Packet.mk _ _), List.map_append, List.flatten_append,
    List.append_assoc, List.map_cons, List.map_nil, List.flatten_cons, List.flatten_nil, List.append_nil, e1, e2, e3,
    List.cons_append, List.nil_append, List.length_cons, Packet.len, Hdr.len, List.sum_cons, List.sum_nil]
  have h1 : Vlan.size = 4 := rfl
  have h2 : Ether.size = 14 := rfl
  have hl : 20 + (x.length + 1 + 1 + 1 + 1 + 1 + 1 + 1 + 1 + 1 + 1 + 1 + 1) +
      (20 + (Vlan.size + (Vlan.size + (Vlan.size + 0)) + x.length)) =
      20 + (x.length + 1 + 1 + 1 + 1 + 1 + 1 + 1 + 1 + 1 + 1 + 1 + 1 + 1 + 1) + (16 + (Ether.size + 0 + x.length)) := by
    omega
  rw [hl]

example : (create_erspan_3_packet true Sample.mac1 Sample.mac2 false 0 0 5 Sample.ip1 Sample.ip2 0 64 1 0 []
      0x20000002 0 0 0 0 0 0x2000200 0x200 0x200 0 0
      (some ⟨[⟨Vlan, [2, 0, 2, 0]⟩, ⟨Vlan, [2, 0, 2, 0]⟩, ⟨Vlan, [2, 0, 2, 0]⟩], [1, 2, 3]⟩)).map Packet.to_vec =
    (create_erspan_3_packet true Sample.mac1 Sample.mac2 false 0 0 5 Sample.ip1 Sample.ip2 0 64 1 0 []
      0 0 0 0 0 2 0x20000000 0x200 0x200 0 0
      (some ⟨[⟨Ether, [2, 0, 2, 0, 2, 0, 2, 0, 2, 0, 2, 0, 2, 0]⟩], [1, 2, 3]⟩)).map Packet.to_vec := by decide +kernel

end PacketRs
