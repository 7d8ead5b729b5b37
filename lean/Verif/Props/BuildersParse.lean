import Verif.Lemmas.Walk
/-!
# C44, C45, C48: parsing what the builders return

`Slow.parse` is the frame parser, `Slow.parseL chk l` the parser function of layer `l` (for example `Slow.parseL chk .ether`
is `Slow.parse_ethernet chk`), `prep hs p` the packet `p` with the headers `hs` in front.
-/
namespace PacketRs
open Spec Utils

section
variable {chk : Bool} {p6 : Ipv6FromStr} {eth_dst eth_src : Str} {ve : Bool} {vid : U16} {pcp : Byte}
  {ihl : Byte} {src dst : Str} {tos ttl : Byte} {id frag : U16} {opts : Bytes} {tc : Byte} {flow : U32} {hl : Byte}
  {payload : Bytes} {p : Packet} (chk' : Bool)

/-- A walk over the headers after layer 2 gives the frame parser's result. -/
theorem parse_walk {d s : Bytes} (hd : d.length = 6) (hs : s.length = 6) {et : U16} (het : 1500 ≤ et.toNat)
    {b : Bytes} {hs' : List Hdr} {l : Layer} (w : Walk chk' (etherNext et.toNat) b hs' l) (r : Bytes) :
    Slow.parse chk' (hdrBytes (l2Hdrs d s ve vid pcp et) ++ (b ++ r)) =
      (Slow.parseL chk' l r).map (prep (l2Hdrs d s ve vid pcp et ++ hs')) := by
  rw [parse_l2 chk' d s hd hs ve vid pcp et (.inr het)]
  have := Walk.trans (walk_l2 chk' d s hd hs ve vid pcp et) w r
  rw [← this, List.append_assoc]

theorem to_vec_split (hs hs' : List Hdr) (pl : Bytes) :
    (Packet.mk (hs ++ hs') pl).to_vec = hdrBytes hs ++ (hdrBytes hs' ++ pl) := by
  rw [to_vec_onWire]; simp [hdrBytes, onWire]

theorem parseL_payload (r : Bytes) (hs : List Hdr) :
    (Slow.parseL chk' .payload r).map (prep hs) = .ok ⟨hs, r⟩ := by
  simp [Slow.parseL, Slow.accept, Except.map, pure, Except.pure, prep, Packet.new, Packet.set_payload]

/-- A packet built of an IPv4 header and one more header. -/
theorem parse_v4 {d s : Bytes} (hd : d.length = 6) (hs : s.length = 6) (a : Ip4) (ha : a.Ok) (len ck : U16)
    {h' : List Hdr} {b : Bytes} {l : Layer} (w : Walk chk' (ipv4Next a.proto.toNat) b h' l) (r : Bytes) :
    Slow.parse chk' (hdrBytes (l2Hdrs d s ve vid pcp 0x0800#16) ++ (a.raw len ck ++ b ++ r)) =
      (Slow.parseL chk' l r).map (prep (l2Hdrs d s ve vid pcp 0x0800#16 ++ (⟨IPv4, a.raw len ck⟩ :: h'))) := by
  have w4 : Walk chk' (etherNext (0x0800#16 : U16).toNat) (a.raw len ck) [⟨IPv4, a.raw len ck⟩] (ipv4Next a.proto.toNat) :=
    walk_ip4 chk' a ha len ck
  exact parse_walk chk' hd hs (by decide) (w4.trans w) r

theorem parse_v6 {d s : Bytes} (hd : d.length = 6) (hs : s.length = 6) {nh : Byte} {len : U16}
    {h' : List Hdr} {b : Bytes} {l : Layer} (w : Walk chk' (ipv6Next nh.toNat) b h' l) (r : Bytes) :
    Slow.parse chk' (hdrBytes (l2Hdrs d s ve vid pcp 0x86DD#16) ++
        ((Packet.ipv6 p6 tc flow nh hl src dst len).data ++ b ++ r)) =
      (Slow.parseL chk' l r).map (prep (l2Hdrs d s ve vid pcp 0x86DD#16 ++
        (Packet.ipv6 p6 tc flow nh hl src dst len :: h'))) := by
  have w6 : Walk chk' (etherNext (0x86DD#16 : U16).toNat) _ [Packet.ipv6 p6 tc flow nh hl src dst len] (ipv6Next nh.toNat) :=
    walk_ip6 chk' p6 tc flow nh hl src dst len
  exact parse_walk chk' hd hs (by decide) (w6.trans w) r

/-! ## C44 -/

/-- **C44** Parsing a built ARP packet returns it. -/
theorem C44_arp {opcode : U16} {smac tmac sip tip : Str}
    (h : create_arp_packet eth_dst eth_src ve vid pcp opcode smac tmac sip tip payload = .ok p) :
    Slow.parse chk' p.to_vec = .ok p := by
  obtain ⟨⟨⟨d, hd⟩, s, hs⟩, ⟨⟨sm, h1⟩, tm, h2⟩, ⟨si, h3⟩, ti, h4⟩ := (C41_arp_returns_iff ..).mp ⟨p, h⟩
  obtain ⟨x, e, t, ln, -⟩ := C33_arp opcode smac tmac sip tip sm tm si ti h1 h2 h3 h4
  rw [C41_arp _ _ ve vid pcp d s hd hs payload opcode smac tmac sip tip x e] at h
  obtain rfl := Except.ok.inj h
  rw [to_vec_split]
  obtain ⟨ty, data⟩ := x
  obtain rfl : ty = ARP := t
  have w : Walk chk' (etherNext (0x0806#16 : U16).toNat) data [⟨ARP, data⟩] .payload := walk_arp chk' data ln
  have := parse_walk chk' (ve := ve) (vid := vid) (pcp := pcp) (C31_length _ _ hd) (C31_length _ _ hs) (by decide) w payload
  rw [parseL_payload] at this
  simpa [hdrBytes, onWire] using this

example : Slow.parse true (Sample.get Sample.arp).to_vec = Sample.arp := by decide +kernel

/-- **C44** Parsing a built TCP packet returns it. -/
theorem C44_tcp {tdst tsrc : U16} {seq ack : U32} {off res flags : Byte} {window urg : U16} {ck : Bool}
    (h : create_tcp_packet chk eth_dst eth_src ve vid pcp ihl src dst tos ttl id frag opts tdst tsrc seq ack off res
      flags window urg ck payload = .ok p) : Slow.parse chk' p.to_vec = .ok p := by
  obtain ⟨d, s, a, hd, hs, ha, hp, rfl⟩ := tcp_shape (h := h)
  have w : Walk chk' .tcp (Packet.tcp tsrc tdst seq ack off res flags window 0 urg).data [(Packet.tcp tsrc tdst seq ack off res flags window 0 urg)] .payload := walk_tcp chk' _
    (C35_tcp tsrc tdst seq ack off res flags window 0 urg).2.1
  have := parse_v4 chk' (ve := ve) (vid := vid) (pcp := pcp) hd hs a ha (BitVec.ofNat 16 (20 + payload.length + 20))
    (a.ck (BitVec.ofNat 16 (20 + payload.length + 20))) (l := .payload) (h' := [_]) (by rw [hp]; exact w) payload
  rw [parseL_payload] at this
  rw [to_vec_split]
  simpa [hdrBytes, onWire, Ip4.hdr] using this

example : Slow.parse true (Sample.get Sample.tcp).to_vec = Sample.tcp := by decide +kernel

/-- **C44** Parsing a built ICMP packet returns it. -/
theorem C44_icmp {ty code : Byte} {idata : Bytes} {ck : Bool}
    (h : create_icmp_packet chk eth_dst eth_src ve vid pcp ihl src dst tos ttl id frag opts ty code idata ck payload
      = .ok p) : Slow.parse chk' p.to_vec = .ok p := by
  obtain ⟨d, s, a, hd, hs, ha, hp, rfl⟩ := icmp_shape (h := h)
  have w : Walk chk' .icmp (Packet.icmp ty code).data [(Packet.icmp ty code)] .payload := walk_icmp chk' _ (C33_icmp ty code).2.1
  have := parse_v4 chk' (ve := ve) (vid := vid) (pcp := pcp) hd hs a ha (BitVec.ofNat 16 (20 + payload.length + 4))
    (a.ck (BitVec.ofNat 16 (20 + payload.length + 4))) (l := .payload) (h' := [_]) (by rw [hp]; exact w) payload
  rw [parseL_payload] at this
  rw [to_vec_split]
  simpa [hdrBytes, onWire, Ip4.hdr] using this

example : Slow.parse true (Sample.get Sample.icmp).to_vec = Sample.icmp := by decide +kernel

/-- **C44** Parsing a built TCP over IPv6 packet returns it. -/
theorem C44_tcpv6 {tdst tsrc : U16} {seq ack : U32} {off res flags : Byte} {window urg : U16}
    (h : create_tcpv6_packet chk p6 eth_dst eth_src ve vid pcp tc flow hl src dst tdst tsrc seq ack off res flags
      window urg payload = .ok p) : Slow.parse chk' p.to_vec = .ok p := by
  obtain ⟨d, s, hd, hs, rfl⟩ := tcpv6_shape (h := h)
  have w : Walk chk' .tcp (Packet.tcp tsrc tdst seq ack off res flags window 0 urg).data [(Packet.tcp tsrc tdst seq ack off res flags window 0 urg)] .payload := walk_tcp chk' _
    (C35_tcp tsrc tdst seq ack off res flags window 0 urg).2.1
  have := parse_v6 chk' (p6 := p6) (ve := ve) (vid := vid) (pcp := pcp) (tc := tc) (flow := flow) (hl := hl) (src := src)
    (dst := dst) (nh := 6#8) hd hs (len := BitVec.ofNat 16 (payload.length + 20)) (l := .payload) (h' := [_]) w payload
  rw [parseL_payload] at this
  rw [to_vec_split]
  simpa [hdrBytes, onWire] using this

example : Slow.parse true (Sample.get Sample.tcpv6).to_vec = Sample.tcpv6 := by decide +kernel

/-- **C44** Parsing a built ICMPv6 packet returns it. -/
theorem C44_icmpv6 {ty code : Byte} {idata : Bytes} {ck : Bool}
    (h : create_icmpv6_packet chk p6 eth_dst eth_src ve vid pcp tc flow hl src dst ty code idata ck payload
      = .ok p) : Slow.parse chk' p.to_vec = .ok p := by
  obtain ⟨d, s, hd, hs, rfl⟩ := icmpv6_shape (h := h)
  have w : Walk chk' .icmp (Packet.icmp ty code).data [(Packet.icmp ty code)] .payload := walk_icmp chk' _ (C33_icmp ty code).2.1
  have := parse_v6 chk' (p6 := p6) (ve := ve) (vid := vid) (pcp := pcp) (tc := tc) (flow := flow) (hl := hl) (src := src)
    (dst := dst) (nh := 58#8) hd hs (len := BitVec.ofNat 16 (payload.length + 4)) (l := .payload) (h' := [_]) w payload
  rw [parseL_payload] at this
  rw [to_vec_split]
  simpa [hdrBytes, onWire] using this

example : Slow.parse true (Sample.get Sample.icmpv6).to_vec = Sample.icmpv6 := by decide +kernel

/-- What the parser does with a built UDP packet: the payload is a VXLAN packet when the port is 4789. -/
theorem udp_parse {udst usrc : U16} {ck : Bool}
    (h : create_udp_packet chk eth_dst eth_src ve vid pcp ihl src dst tos ttl id frag opts udst usrc ck payload = .ok p) :
    p.payload = payload ∧ Slow.parse chk' p.to_vec =
      (Slow.parseL chk' (if udst = 4789#16 then .vxlan else .payload) payload).map (prep p.hdrs) := by
  obtain ⟨d, s, a, hd, hs, ha, hp, rfl⟩ := udp_shape (h := h)
  have w := walk_udp' chk' usrc udst (BitVec.ofNat 16 (8 + payload.length)) 0
  have := parse_v4 chk' (ve := ve) (vid := vid) (pcp := pcp) hd hs a ha (BitVec.ofNat 16 (20 + payload.length + 8))
    (a.ck (BitVec.ofNat 16 (20 + payload.length + 8))) (h' := [_]) (by rw [hp]; exact w) payload
  rw [to_vec_split]
  exact ⟨rfl, by simpa [hdrBytes, onWire, Ip4.hdr, Packet.udp, HeaderDef.ofVec] using this⟩

theorem udpv6_parse {udst usrc : U16} {ck : Bool}
    (h : create_udpv6_packet chk p6 eth_dst eth_src ve vid pcp tc flow hl src dst udst usrc ck payload = .ok p) :
    p.payload = payload ∧ Slow.parse chk' p.to_vec =
      (Slow.parseL chk' (if udst = 4789#16 then .vxlan else .payload) payload).map (prep p.hdrs) := by
  obtain ⟨d, s, hd, hs, rfl⟩ := udpv6_shape (h := h)
  have w := walk_udp' chk' usrc udst (BitVec.ofNat 16 (8 + payload.length)) 0xffff#16
  have := parse_v6 chk' (p6 := p6) (ve := ve) (vid := vid) (pcp := pcp) (tc := tc) (flow := flow) (hl := hl) (src := src)
    (dst := dst) (nh := 17#8) hd hs (len := BitVec.ofNat 16 (payload.length + 8)) (h' := [_]) w payload
  rw [to_vec_split]
  exact ⟨rfl, by simpa [hdrBytes, onWire] using this⟩

/-- The VXLAN parser always adds a header. -/
theorem vxlan_ne (hs : List Hdr) (r pl : Bytes) : (Slow.parseL chk' .vxlan r).map (prep hs) ≠ .ok ⟨hs, pl⟩ := by
  rw [Slow.parseL_eq _ _ _ (by decide)]
  simp only [dstep, one]
  by_cases hl : Vxlan.size ≤ r.length
  · rw [if_pos hl]
    simp only [stepThen]
    cases Slow.parseL chk' .ether (r.drop Vxlan.size) with
    | error e => exact fun h => nomatch h
    | ok q =>
      intro h
      have := congrArg (fun p : Packet => p.hdrs.length) (Except.ok.inj h)
      simp [prep] at this
  · rw [if_neg hl]
    exact fun h => nomatch h

/-- **C44** Parsing a built UDP packet returns it iff the destination port is not 4789; on port 4789 the payload is
parsed as VXLAN. -/
theorem C44_udp {udst usrc : U16} {ck : Bool}
    (h : create_udp_packet chk eth_dst eth_src ve vid pcp ihl src dst tos ttl id frag opts udst usrc ck payload = .ok p) :
    (Slow.parse chk' p.to_vec = .ok p ↔ udst ≠ 4789#16) ∧
    (udst = 4789#16 → Slow.parse chk' p.to_vec = (Slow.parse_vxlan chk' payload).map (prep p.hdrs)) := by
  obtain ⟨h1, h2⟩ := udp_parse chk' h
  obtain ⟨hs, pl⟩ := p
  rw [h2]
  by_cases hu : udst = 4789#16
  · subst hu
    refine ⟨iff_of_false (vxlan_ne _ _ _ _) (by simp), fun _ => rfl⟩
  · rw [if_neg hu, parseL_payload, ← h1]
    simp [hu]

example : Slow.parse true (Sample.get (Sample.udpTo 4789)).to_vec = .error .index := by decide +kernel

example : Slow.parse true (Sample.get Sample.udp).to_vec = Sample.udp := by decide +kernel

/-- **C44** The same over IPv6. -/
theorem C44_udpv6 {udst usrc : U16} {ck : Bool}
    (h : create_udpv6_packet chk p6 eth_dst eth_src ve vid pcp tc flow hl src dst udst usrc ck payload = .ok p) :
    (Slow.parse chk' p.to_vec = .ok p ↔ udst ≠ 4789#16) ∧
    (udst = 4789#16 → Slow.parse chk' p.to_vec = (Slow.parse_vxlan chk' payload).map (prep p.hdrs)) := by
  obtain ⟨h1, h2⟩ := udpv6_parse chk' h
  obtain ⟨hs, pl⟩ := p
  rw [h2]
  by_cases hu : udst = 4789#16
  · subst hu
    refine ⟨iff_of_false (vxlan_ne _ _ _ _) (by simp), fun _ => rfl⟩
  · rw [if_neg hu, parseL_payload, ← h1]
    simp [hu]

example : Slow.parse true (Sample.get (Sample.udpv6To 4789)).to_vec = .error .index := by decide +kernel

example : Slow.parse true (Sample.get Sample.udpv6).to_vec = Sample.udpv6 := by decide +kernel

/-! ## C45 -/

/-- Parsing a built Ethernet packet parses the payload by the EtherType. -/
theorem C45_eth {et : U16} (h : create_eth_packet eth_dst eth_src ve vid pcp et payload = .ok p)
    (het : ve = true ∨ 1500 ≤ et.toNat) :
    p.payload = payload ∧
      Slow.parse chk' p.to_vec = (Slow.parseL chk' (etherNext et.toNat) payload).map (prep p.hdrs) := by
  obtain ⟨d, s, hd, hs⟩ := eth_inv _ _ _ _ _ _ _ _ h
  rw [eth_eq _ _ _ _ _ _ _ d s hd hs] at h
  obtain rfl := Except.ok.inj h
  refine ⟨rfl, ?_⟩
  have := walk_l2 chk' d s (C31_length _ _ hd) (C31_length _ _ hs) ve vid pcp et payload
  rw [← parse_l2 chk' d s (C31_length _ _ hd) (C31_length _ _ hs) ve vid pcp et het] at this
  rw [to_vec_onWire]
  simpa [hdrBytes, onWire] using this

example : (Slow.parse true (Sample.get Sample.eth).to_vec).map (fun p => (p.hdrs.map (·.name), p.payload.length)) =
    .ok (["Ether", "Vlan"], 5) := by decide +kernel

/-- Parsing a built IPv4 packet parses the payload by the protocol number. -/
theorem C45_ipv4 {proto : Byte}
    (h : create_ipv4_packet chk eth_dst eth_src ve vid pcp ihl src dst proto tos ttl id frag opts payload = .ok p) :
    p.payload = payload ∧
      Slow.parse chk' p.to_vec = (Slow.parseL chk' (ipv4Next proto.toNat) payload).map (prep p.hdrs) := by
  obtain ⟨d, s, a, hd, hs, ha, hp, rfl⟩ := ipv4_shape (h := h)
  have := parse_v4 chk' (ve := ve) (vid := vid) (pcp := pcp) hd hs a ha (BitVec.ofNat 16 (20 + payload.length))
    (a.ck (BitVec.ofNat 16 (20 + payload.length))) (Walk.nil chk' _) payload
  rw [to_vec_split, ← hp]
  exact ⟨rfl, by simpa [hdrBytes, onWire, Ip4.hdr] using this⟩

example : (Slow.parse true (Sample.get Sample.ipv4).to_vec).map (fun p => (p.hdrs.map (·.name), p.payload.length)) =
    .ok (["Ether", "Vlan", "IPv4"], 5) := by decide +kernel

/-- Parsing a built IPv6 packet parses the payload by the next-header number. -/
theorem C45_ipv6 {nh : Byte}
    (h : create_ipv6_packet p6 eth_dst eth_src ve vid pcp tc flow nh hl src dst payload = .ok p) :
    p.payload = payload ∧
      Slow.parse chk' p.to_vec = (Slow.parseL chk' (ipv6Next nh.toNat) payload).map (prep p.hdrs) := by
  obtain ⟨d, s, hd, hs, rfl⟩ := ipv6_shape (h := h)
  have := parse_v6 chk' (p6 := p6) (ve := ve) (vid := vid) (pcp := pcp) (tc := tc) (flow := flow) (hl := hl) (src := src)
    (dst := dst) (nh := nh) hd hs (len := BitVec.ofNat 16 payload.length) (Walk.nil chk' _) payload
  rw [to_vec_split]
  exact ⟨rfl, by simpa [hdrBytes, onWire] using this⟩

example : (Slow.parse true (Sample.get Sample.ipv6).to_vec).map (fun p => (p.hdrs.map (·.name), p.payload.length)) =
    .ok (["Ether", "IPv6"], 5) := by decide +kernel

/-- **C45** Parsing a VXLAN packet built for port 4789 returns its headers followed by the parse of the inner packet's
bytes as an Ethernet frame. -/
theorem C45_vxlan {usrc : U16} {ck : Bool} {vni : U32} {inner : Packet}
    (h : create_vxlan_packet chk eth_dst eth_src ve vid pcp ihl src dst tos ttl id frag opts 4789#16 usrc ck vni inner
      = .ok p) :
    Slow.parse chk' p.to_vec = (Slow.parse_ethernet chk' inner.to_vec).map (prep p.hdrs) := by
  obtain ⟨d, s, a, hd, hs, ha, hp, rfl⟩ := vxlan_shape (h := h)
  have w := (walk_udp' chk' usrc 4789#16 (BitVec.ofNat 16 (16 + inner.to_vec.length)) 0).trans
    (walk_vxlan chk' (Packet.vxlan vni).data rfl)
  have := parse_v4 chk' (ve := ve) (vid := vid) (pcp := pcp) hd hs a ha (BitVec.ofNat 16 (20 + inner.to_vec.length + 16))
    (a.ck (BitVec.ofNat 16 (20 + inner.to_vec.length))) (l := .ether) (by rw [hp]; exact w) inner.to_vec
  rw [to_vec_split]
  change _ = (Slow.parseL chk' .ether _).map _
  simpa [hdrBytes, onWire, Packet.udp, HeaderDef.ofVec, Packet.vxlan] using this

example : (Slow.parse true (Sample.get Sample.vxlan).to_vec).map (fun p => (p.hdrs.map (·.name), p.payload.length)) =
    .ok (["Ether", "Vlan", "IPv4", "UDP", "Vxlan", "Ether", "Vlan", "ARP"], 5) := by decide +kernel

/-- **C45** On any other port the inner packet stays in the payload. -/
theorem C45_vxlan_other_port {udst usrc : U16} {ck : Bool} {vni : U32} {inner : Packet} (hu : udst ≠ 4789#16)
    (h : create_vxlan_packet chk eth_dst eth_src ve vid pcp ihl src dst tos ttl id frag opts udst usrc ck vni inner
      = .ok p) :
    ∃ hs, p.hdrs = hs ++ [Packet.vxlan vni] ∧
      Slow.parse chk' p.to_vec = .ok ⟨hs, (Packet.vxlan vni).data ++ inner.to_vec⟩ := by
  obtain ⟨d, s, a, hd, hs, ha, hp, rfl⟩ := vxlan_shape (h := h)
  have w := walk_udp' chk' usrc udst (BitVec.ofNat 16 (16 + inner.to_vec.length)) 0
  rw [if_neg hu] at w
  have := parse_v4 chk' (ve := ve) (vid := vid) (pcp := pcp) hd hs a ha (BitVec.ofNat 16 (20 + inner.to_vec.length + 16))
    (a.ck (BitVec.ofNat 16 (20 + inner.to_vec.length))) (l := .payload) (by rw [hp]; exact w)
    ((Packet.vxlan vni).data ++ inner.to_vec)
  rw [parseL_payload] at this
  rw [to_vec_split]
  refine ⟨l2Hdrs d s ve vid pcp 0x0800#16 ++
    [⟨IPv4, a.raw (BitVec.ofNat 16 (20 + inner.to_vec.length + 16)) (a.ck (BitVec.ofNat 16 (20 + inner.to_vec.length)))⟩,
      Packet.udp usrc udst (BitVec.ofNat 16 (16 + inner.to_vec.length))], by simp, ?_⟩
  simpa [hdrBytes, onWire, Packet.udp, HeaderDef.ofVec, Packet.vxlan] using this

example : (Slow.parse true (Sample.get (Sample.vxlanTo 8472)).to_vec).map (fun p => (p.hdrs.map (·.name), p.payload.length)) =
    .ok (["Ether", "Vlan", "IPv4", "UDP"], 59) := by decide +kernel

/-- The parser function for an inner IP packet: by the version nibble, IPv4 unless it is 6. -/
def parseIp (b : Bytes) : R Packet := if u8At b 0 / 16 = 6 then Slow.parse_ipv6 chk' b else Slow.parse_ipv4 chk' b

/-- **C45** Parsing a built IP in IPv4 packet returns its headers followed by the parse of the inner packet. -/
theorem C45_ipv4ip {inner : Packet}
    (h : create_ipv4ip_packet chk eth_dst eth_src ve vid pcp ihl src dst tos ttl id frag opts inner = .ok p) :
    Slow.parse chk' p.to_vec = (parseIp chk' inner.to_vec).map (prep p.hdrs) := by
  obtain ⟨d, s, a, hd, hs, ha, hp, rfl⟩ := ipv4ip_shape (h := h)
  have := parse_v4 chk' (ve := ve) (vid := vid) (pcp := pcp) hd hs a ha (BitVec.ofNat 16 (20 + inner.to_vec.length))
    (a.ck (BitVec.ofNat 16 (20 + inner.to_vec.length))) (Walk.nil chk' _) inner.to_vec
  rw [hp] at this
  have e : Slow.parseL chk' (ipv4Next (ipipProto inner.to_vec).toNat) inner.to_vec = parseIp chk' inner.to_vec := by
    unfold ipipProto parseIp
    split <;> rfl
  rw [e] at this
  rw [to_vec_split]
  simpa [hdrBytes, onWire, Ip4.hdr] using this

example : (Slow.parse true (Sample.get Sample.ipv4ip).to_vec).map (fun p => (p.hdrs.map (·.name), p.payload.length)) =
    .ok (["Ether", "Vlan", "IPv4", "IPv6"], 5) := by decide +kernel

/-- **C45** The same for IP in IPv6. -/
theorem C45_ipv6ip {inner : Packet}
    (h : create_ipv6ip_packet p6 eth_dst eth_src ve vid pcp tc flow hl src dst inner = .ok p) :
    Slow.parse chk' p.to_vec = (parseIp chk' inner.to_vec).map (prep p.hdrs) := by
  obtain ⟨d, s, hd, hs, rfl⟩ := ipv6ip_shape (h := h)
  have := parse_v6 chk' (p6 := p6) (ve := ve) (vid := vid) (pcp := pcp) (tc := tc) (flow := flow) (hl := hl) (src := src)
    (dst := dst) (nh := ipipProto inner.to_vec) hd hs (len := BitVec.ofNat 16 inner.to_vec.length) (Walk.nil chk' _)
    inner.to_vec
  have e : Slow.parseL chk' (ipv6Next (ipipProto inner.to_vec).toNat) inner.to_vec = parseIp chk' inner.to_vec := by
    unfold ipipProto parseIp
    split <;> rfl
  rw [e] at this
  rw [to_vec_split]
  simpa [hdrBytes, onWire] using this

example : (Slow.parse true (Sample.get Sample.ipv6ip).to_vec).map (fun p => (p.hdrs.map (·.name), p.payload.length)) =
    .ok (["Ether", "Vlan", "IPv6", "IPv4"], 5) := by decide +kernel

/-! ## GRE and ERSPAN -/

theorem gre_bits (c r k q st : Bool) (flags ver : Byte) (pr : U16) :
    let h := (Packet.gre c r k q st flags ver pr).data
    h.length = 4 ∧ bitAt h 0 7 = c ∧ bitAt h 0 5 = k ∧ bitAt h 0 4 = q ∧ u16At h 2 = pr.toNat := by
  have e : ∀ c r k q st : Bool, ∀ x : Byte, x = ((Packet.boolU8 c <<< 7) ||| (Packet.boolU8 r <<< 6) ||| (Packet.boolU8 k <<< 5) |||
      (Packet.boolU8 q <<< 4) ||| (Packet.boolU8 st <<< 3)) →
      bitAt [x] 0 7 = c ∧ bitAt [x] 0 5 = k ∧ bitAt [x] 0 4 = q := by
    rintro c r k q st x rfl
    revert c r k q st
    decide
  obtain ⟨e1, e2, e3⟩ := e c r k q st _ rfl
  refine ⟨rfl, e1, e2, e3, ?_⟩
  · have := u16At_be16 pr []
    rw [List.append_nil] at this
    rw [← this]
    rfl

theorem optHdrs_optH (c : Bool) (h : Hdr) (n : Nat) (hn : 0 < n) (hl : h.data.length = n) :
    (hdrBytes (optHdrs c h)).length = optLen c n ∧ optH h.ty (hdrBytes (optHdrs c h)) = optHdrs c h := by
  cases c with
  | false => simp [optHdrs, hdrBytes, onWire, optLen, optH]
  | true =>
    have : h.data ≠ [] := by intro h0; rw [h0] at hl; simp at hl; omega
    simp [optHdrs, hdrBytes, onWire, optLen, optH, this, hl]

/-- **C45** Parsing a built GRE packet returns its headers followed by the parse of the inner packet, except that the
parser lists the optional headers in the reverse order (sequence number, key, checksum/offset). -/
theorem C45_gre {c r k q st : Bool} {flags ver : Byte} {gck goff : U16} {key seq : U32} {routing : Bytes}
    {inner : Option Packet}
    (h : create_gre_packet chk eth_dst eth_src ve vid pcp ihl src dst tos ttl id frag opts c r k q st flags ver
      gck goff key seq routing inner = .ok p) :
    ∃ pre, p.hdrs = pre ++ (optHdrs c (Packet.gre_chksum_offset gck goff) ++ (optHdrs k (Packet.gre_key key) ++
        optHdrs q (Packet.gre_sequence_number seq))) ∧
      Slow.parse chk' p.to_vec = (Slow.parseL chk' (greNext (greProto (innerBytes inner)).toNat) (innerBytes inner)).map
        (prep (pre ++ (optHdrs q (Packet.gre_sequence_number seq) ++ (optHdrs k (Packet.gre_key key) ++
          optHdrs c (Packet.gre_chksum_offset gck goff))))) := by
  obtain ⟨d, s, a, hd, hs, ha, hp, rfl⟩ := gre_shape (h := h)
  obtain ⟨g1, g2, g3, g4, g5⟩ := gre_bits c r k q st flags ver (greProto (innerBytes inner))
  obtain ⟨c1, c2⟩ := optHdrs_optH c (Packet.gre_chksum_offset gck goff) 4 (by decide) rfl
  obtain ⟨k1, k2⟩ := optHdrs_optH k (Packet.gre_key key) 4 (by decide) rfl
  obtain ⟨q1, q2⟩ := optHdrs_optH q (Packet.gre_sequence_number seq) 4 (by decide) rfl
  have w := walk_gre chk' g1 (by rw [g2]; exact c1) (by rw [g3]; exact k1) (by rw [g4]; exact q1)
  rw [g5] at w
  change Walk _ _ _ (Packet.gre c r k q st flags ver (greProto (innerBytes inner)) :: (optH (Packet.gre_sequence_number seq).ty _ ++
    (optH (Packet.gre_key key).ty _ ++ optH (Packet.gre_chksum_offset gck goff).ty _))) _ at w
  rw [c2, k2, q2] at w
  have := parse_v4 chk' (ve := ve) (vid := vid) (pcp := pcp) hd hs a ha
    (BitVec.ofNat 16 (20 + (innerBytes inner).length + greLen c r k q routing))
    (a.ck (BitVec.ofNat 16 (20 + (innerBytes inner).length + greLen c r k q routing)))
    (by rw [hp]; exact w) (innerBytes inner)
  rw [to_vec_split]
  refine ⟨l2Hdrs d s ve vid pcp 0x0800#16 ++ [a.hdr (BitVec.ofNat 16 (20 + (innerBytes inner).length + greLen c r k q routing)),
        Packet.gre c r k q st flags ver (greProto (innerBytes inner))], by simp, ?_⟩
  simpa [hdrBytes, onWire, Ip4.hdr] using this

example : (Slow.parse true (Sample.get (Sample.greWith true true true true)).to_vec).map (fun p => (p.hdrs.map (·.name), p.payload.length)) =
    .ok (["Ether", "Vlan", "IPv4", "GRE", "GRESequenceNum", "GREKey",
      "GREChksumOffset", "IPv4"], 5) := by decide +kernel
example : (Sample.get (Sample.greWith true true true true)).hdrs.map (·.name) = ["Ether", "Vlan", "IPv4", "GRE",
    "GREChksumOffset", "GREKey", "GRESequenceNum"] := by decide +kernel

/-- **C45** With at most one optional header, the parse of a built GRE packet starts with its headers. -/
theorem C45_gre_one_option {c r k q st : Bool} {flags ver : Byte} {gck goff : U16} {key seq : U32} {routing : Bytes}
    {inner : Option Packet} (h1 : c.toNat + k.toNat + q.toNat ≤ 1)
    (h : create_gre_packet chk eth_dst eth_src ve vid pcp ihl src dst tos ttl id frag opts c r k q st flags ver
      gck goff key seq routing inner = .ok p) :
    Slow.parse chk' p.to_vec = (Slow.parseL chk' (greNext (greProto (innerBytes inner)).toNat) (innerBytes inner)).map
      (prep p.hdrs) := by
  obtain ⟨pre, e, h⟩ := C45_gre chk' h
  rw [h, e]
  cases c <;> cases k <;> cases q <;> simp_all [optHdrs]

example : (Slow.parse true (Sample.get Sample.gre).to_vec).map (fun p => (p.hdrs.map (·.name), p.payload.length)) =
    .ok (["Ether", "Vlan", "IPv4", "GRE", "GREKey", "IPv4"], 5) := by decide +kernel

/-- With two or three optional headers, a successful parse of a built GRE packet never starts with its headers. -/
theorem C45_gre_reversed {c r k q st : Bool} {flags ver : Byte} {gck goff : U16} {key seq : U32} {routing : Bytes}
    {inner : Option Packet} (h1 : 2 ≤ c.toNat + k.toNat + q.toNat) {p' : Packet}
    (h : create_gre_packet chk eth_dst eth_src ve vid pcp ihl src dst tos ttl id frag opts c r k q st flags ver
      gck goff key seq routing inner = .ok p) (h' : Slow.parse chk' p.to_vec = .ok p') :
    ¬ p.hdrs <+: p'.hdrs := by
  obtain ⟨pre, e, h⟩ := C45_gre chk' h
  rw [h] at h'
  cases hx : Slow.parseL chk' (greNext (greProto (innerBytes inner)).toNat) (innerBytes inner) with
  | error x => rw [hx] at h'; exact nomatch h'
  | ok y =>
    rw [hx] at h'
    obtain rfl := Except.ok.inj h'
    rw [e]
    simp only [prep, List.append_assoc, List.prefix_append_right_inj]
    cases c <;> cases k <;> cases q <;>
      simp_all [optHdrs, Packet.gre_chksum_offset, Packet.gre_key, Packet.gre_sequence_number, HeaderDef.ofVec] <;>
      exact fun h => absurd h (by decide)

example : (Slow.parse true (Sample.get (Sample.greWith true false true true)).to_vec).map (fun p => p.hdrs.map (·.name)) =
    .ok ["Ether", "Vlan", "IPv4", "GRE", "GRESequenceNum", "GREKey", "GREChksumOffset", "IPv4"] := by decide +kernel
example : (Sample.get (Sample.greWith true false true true)).hdrs.map (·.name) =
    ["Ether", "Vlan", "IPv4", "GRE", "GREChksumOffset", "GREKey", "GRESequenceNum"] := by decide +kernel

/-- **C45** Parsing a built ERSPAN II packet returns its headers followed by the parse of the inner packet's bytes as an
Ethernet frame. -/
theorem C45_erspan2 {seq : U32} {vlan : U16} {cos en t : Byte} {sid : U16} {idx : U32} {inner : Option Packet}
    (h : create_erspan_2_packet chk eth_dst eth_src ve vid pcp ihl src dst tos ttl id frag opts seq vlan cos en t sid
      idx inner = .ok p) :
    Slow.parse chk' p.to_vec = (Slow.parse_ethernet chk' (innerBytes inner)).map (prep p.hdrs) := by
  obtain ⟨d, s, a, hd, hs, ha, hp, rfl⟩ := erspan2_shape (h := h)
  obtain ⟨q1, q2⟩ := optHdrs_optH (decide (seq ≠ 0#32)) (Packet.gre_sequence_number seq) 4 (by decide) rfl
  have w := walk_gre chk' (h := [if seq ≠ 0#32 then 0x10#8 else 0#8, 0#8, 0x88#8, 0xbe#8]) (c := []) (k := [])
    (s := hdrBytes (optHdrs (decide (seq ≠ 0#32)) (Packet.gre_sequence_number seq))) rfl
    (by by_cases h0 : seq = 0#32 <;> simp [h0] <;> rfl) (by by_cases h0 : seq = 0#32 <;> simp [h0] <;> rfl)
    (by rw [q1]; by_cases h0 : seq = 0#32 <;> simp [h0] <;> rfl)
  have w2 : Walk chk' .erspan2 (Packet.erspan2 vlan cos en t sid idx).data [Packet.erspan2 vlan cos en t sid idx] .ether :=
    walk_erspan2 chk' _ rfl
  change Walk _ _ _ (_ :: (optH (Packet.gre_sequence_number seq).ty _ ++ _)) .erspan2 at w
  rw [q2] at w
  have := parse_v4 chk' (ve := ve) (vid := vid) (pcp := pcp) hd hs a ha
    (BitVec.ofNat 16 (20 + (innerBytes inner).length + (erspan2Len seq + innerLen inner)))
    (a.ck (BitVec.ofNat 16 (20 + (innerBytes inner).length + (erspan2Len seq + innerLen inner))))
    (by rw [hp]; exact w.trans w2) (innerBytes inner)
  rw [to_vec_split]
  change _ = (Slow.parseL chk' .ether _).map _
  simpa [hdrBytes, onWire, Ip4.hdr, optH] using this

example : (Slow.parse true (Sample.get Sample.erspan2).to_vec).map (fun p => (p.hdrs.map (·.name), p.payload.length)) =
    .ok (["Ether", "Vlan", "IPv4", "GRE", "GRESequenceNum", "ERSPAN2", "Ether", "Vlan", "ARP"], 5) := by decide +kernel

theorem erspan3_bit (vlan : U16) (cos en t : Byte) (sid : U16) (ts : U32) (sgt ft : U16) :
    bitAt (Packet.erspan3 vlan cos en t sid ts sgt ft).data 11 0 = decide (ft.toNat % 2 = 1) := by
  simp [Packet.erspan3, HeaderDef.ofVec, be16, be32, bitAt, u8At]

/-- **C48** The GRE header of a built ERSPAN III packet announces a sequence number iff `seq` is odd, while the sequence
header is there iff `seq` is not zero. -/
theorem C48_announced {seq : U32} {vlan : U16} {cos en t : Byte} {sid : U16} {ts : U32} {sgt ft : U16} {pid : Byte}
    {info : U64} {inner : Option Packet}
    (h : create_erspan_3_packet chk eth_dst eth_src ve vid pcp ihl src dst tos ttl id frag opts seq vlan cos en t sid ts
      sgt ft pid info inner = .ok p) :
    ∃ pre gre rest, p.hdrs = pre ++ gre :: (optHdrs (seq ≠ 0#32) (Packet.gre_sequence_number seq) ++
        Packet.erspan3 vlan cos en t sid ts sgt ft :: rest) ∧ gre.ty = GRE ∧
      gre.Reads GRE.seqnum_present (seq.toNat % 2) := by
  obtain ⟨d, s, a, hd, hs, ha, hp, rfl⟩ := erspan3_shape (h := h)
  refine ⟨l2Hdrs d s ve vid pcp 0x0800#16 ++ [_], ⟨GRE, [if seq.toNat % 2 = 1 then 0x10#8 else 0#8, 0#8, 0x22#8, 0xeb#8]⟩, _,
    by simp; exact ⟨rfl, rfl⟩, rfl, ?_⟩
  intro chk
  rcases Nat.mod_two_eq_zero_or_one seq.toNat with h0 | h0 <;> rw [h0]
  · exact ⟨0, by cases chk <;> rfl, rfl⟩
  · exact ⟨1, by cases chk <;> rfl, rfl⟩

example : (Sample.get (Sample.erspan3With 24)).hdrs[3]?.map (fun h => (h.name, h.get true GRE.seqnum_present)) =
    some ("GRE", .ok 0) ∧ (Sample.get (Sample.erspan3With 24)).hdrs[4]?.map (·.name) = some "GRESequenceNum" ∧
    (Sample.get (Sample.erspan3With 23)).hdrs[3]?.map (fun h => (h.name, h.get true GRE.seqnum_present)) =
    some ("GRE", .ok 1) := by decide +kernel

/-- **C48** When `seq` is zero or odd, parsing a built ERSPAN III packet returns the outer headers followed by the parse,
as an Ethernet frame, of the inner headers and the inner packet. -/
theorem C48_odd_or_zero {seq : U32} {vlan : U16} {cos en t : Byte} {sid : U16} {ts : U32} {sgt ft : U16} {pid : Byte}
    {info : U64} {inner : Option Packet} (hseq : seq = 0#32 ∨ seq.toNat % 2 = 1)
    (h : create_erspan_3_packet chk eth_dst eth_src ve vid pcp ihl src dst tos ttl id frag opts seq vlan cos en t sid ts
      sgt ft pid info inner = .ok p) :
    ∃ outer, p.hdrs = outer ++ innerHdrs inner ∧
      Slow.parse chk' p.to_vec =
        (Slow.parse_ethernet chk' (hdrBytes (innerHdrs inner) ++ innerBytes inner)).map (prep outer) := by
  obtain ⟨d, s, a, hd, hs, ha, hp, rfl⟩ := erspan3_shape (h := h)
  obtain ⟨q1, q2⟩ := optHdrs_optH (decide (seq ≠ 0#32)) (Packet.gre_sequence_number seq) 4 (by decide) rfl
  obtain ⟨f1, f2⟩ := optHdrs_optH (decide (ft.toNat % 2 = 1)) (platform pid info) 8 (by decide) rfl
  have hs0 : bitAt [if seq.toNat % 2 = 1 then 0x10#8 else 0#8, 0#8, 0x22#8, 0xeb#8] 0 4 = decide (seq ≠ 0#32) := by
    rcases hseq with h0 | h0
    · subst h0; rfl
    · have : seq ≠ 0#32 := by rintro rfl; exact absurd h0 (by decide)
      simp only [h0, if_true, this, ne_eq, not_false_eq_true, decide_true]; rfl
  have w := walk_gre chk' (h := [if seq.toNat % 2 = 1 then 0x10#8 else 0#8, 0#8, 0x22#8, 0xeb#8]) (c := []) (k := [])
    (s := hdrBytes (optHdrs (decide (seq ≠ 0#32)) (Packet.gre_sequence_number seq))) rfl
    (by by_cases h0 : seq.toNat % 2 = 1 <;> simp [h0] <;> rfl) (by by_cases h0 : seq.toNat % 2 = 1 <;> simp [h0] <;> rfl)
    (by rw [q1, hs0])
  have w2 := walk_erspan3 chk' (h := (Packet.erspan3 vlan cos en t sid ts sgt ft).data)
    (p := hdrBytes (optHdrs (decide (ft.toNat % 2 = 1)) (platform pid info))) rfl (by rw [f1, erspan3_bit])
  change Walk _ _ _ (_ :: (optH (Packet.gre_sequence_number seq).ty _ ++ _)) .erspan3 at w
  change Walk _ _ _ (Packet.erspan3 vlan cos en t sid ts sgt ft :: optH (platform pid info).ty _) _ at w2
  rw [q2] at w
  rw [f2] at w2
  have := parse_v4 chk' (ve := ve) (vid := vid) (pcp := pcp) hd hs a ha
    (BitVec.ofNat 16 (20 + (innerBytes inner).length + (erspan3Len seq ft + innerLen inner)))
    (a.ck (BitVec.ofNat 16 (20 + (innerBytes inner).length + (erspan3Len seq ft + innerLen inner))))
    (by rw [hp]; exact w.trans w2) (hdrBytes (innerHdrs inner) ++ innerBytes inner)
  rw [to_vec_split]
  refine ⟨l2Hdrs d s ve vid pcp 0x0800#16 ++ (_ :: ⟨GRE, [if seq.toNat % 2 = 1 then 0x10#8 else 0#8, 0#8, 0x22#8, 0xeb#8]⟩ ::
      (optHdrs (seq ≠ 0#32) (Packet.gre_sequence_number seq) ++
        (Packet.erspan3 vlan cos en t sid ts sgt ft :: optHdrs (ft.toNat % 2 = 1) (platform pid info)))), by simp; rfl, ?_⟩
  change _ = (Slow.parseL chk' .ether _).map _
  simpa [hdrBytes, onWire, Ip4.hdr, optH] using this

example : (Slow.parse true (Sample.get Sample.erspan3).to_vec).map (fun p => (p.hdrs.map (·.name), p.payload.length)) =
    .ok (["Ether", "Vlan", "IPv4", "GRE", "GRESequenceNum", "ERSPAN3", "ERSPANPLATFORM", "Ether",
      "Vlan", "ARP"], 51) := by decide +kernel

/-- **C48** When `seq` is even and not zero, the parser takes the sequence number for the start of the ERSPAN III header:
whatever it returns has, right after GRE, an ERSPAN III header that begins with the bytes of `seq`.  In particular it
never returns the packet that was built. -/
theorem C48_even {seq : U32} {vlan : U16} {cos en t : Byte} {sid : U16} {ts : U32} {sgt ft : U16} {pid : Byte}
    {info : U64} {inner : Option Packet} (h0 : seq ≠ 0#32) (heven : seq.toNat % 2 = 0)
    (h : create_erspan_3_packet chk eth_dst eth_src ve vid pcp ihl src dst tos ttl id frag opts seq vlan cos en t sid ts
      sgt ft pid info inner = .ok p) {p' : Packet} (h' : Slow.parse chk' p.to_vec = .ok p') :
    ∃ pre rest rest', p.hdrs = pre ++ Packet.gre_sequence_number seq :: rest ∧
      p'.hdrs = pre ++ ⟨ERSPAN3, be32 seq ++ (Packet.erspan3 vlan cos en t sid ts sgt ft).data.take 8⟩ :: rest' := by
  obtain ⟨d, s, a, hd, hs, ha, hp, rfl⟩ := erspan3_shape (h := h)
  have hne : seq.toNat % 2 ≠ 1 := by omega
  simp only [ne_eq, hne, h0, not_false_eq_true, if_false, decide_true] at h' ⊢
  have w := walk_gre chk' (h := [0#8, 0#8, 0x22#8, 0xeb#8]) (c := []) (k := []) (s := []) rfl rfl rfl rfl
  change Walk _ _ [0#8, 0#8, 0x22#8, 0xeb#8] [⟨GRE, [0#8, 0#8, 0x22#8, 0xeb#8]⟩] .erspan3 at w
  have key := parse_v4 chk' (ve := ve) (vid := vid) (pcp := pcp) hd hs a ha
    (BitVec.ofNat 16 (20 + (innerBytes inner).length + (erspan3Len seq ft + innerLen inner)))
    (a.ck (BitVec.ofNat 16 (20 + (innerBytes inner).length + (erspan3Len seq ft + innerLen inner))))
    (by rw [hp]; exact w) (be32 seq ++ ((Packet.erspan3 vlan cos en t sid ts sgt ft).data.take 8 ++
      ((Packet.erspan3 vlan cos en t sid ts sgt ft).data.drop 8 ++
        (hdrBytes (optHdrs (ft.toNat % 2 = 1) (platform pid info)) ++ (hdrBytes (innerHdrs inner) ++ innerBytes inner)))))
  have e : (Packet.mk (l2Hdrs d s ve vid pcp 0x0800#16 ++
        ([a.hdr (BitVec.ofNat 16 (20 + (innerBytes inner).length + (erspan3Len seq ft + innerLen inner))),
          ⟨GRE, [0#8, 0#8, 0x22#8, 0xeb#8]⟩] ++ (optHdrs true (Packet.gre_sequence_number seq) ++
        (Packet.erspan3 vlan cos en t sid ts sgt ft :: (optHdrs (ft.toNat % 2 = 1) (platform pid info) ++
          innerHdrs inner))))) (innerBytes inner)).to_vec =
      hdrBytes (l2Hdrs d s ve vid pcp 0x0800#16) ++ (a.raw
        (BitVec.ofNat 16 (20 + (innerBytes inner).length + (erspan3Len seq ft + innerLen inner)))
        (a.ck (BitVec.ofNat 16 (20 + (innerBytes inner).length + (erspan3Len seq ft + innerLen inner)))) ++
        [0#8, 0#8, 0x22#8, 0xeb#8] ++ (be32 seq ++ ((Packet.erspan3 vlan cos en t sid ts sgt ft).data.take 8 ++
      ((Packet.erspan3 vlan cos en t sid ts sgt ft).data.drop 8 ++
        (hdrBytes (optHdrs (ft.toNat % 2 = 1) (platform pid info)) ++
          (hdrBytes (innerHdrs inner) ++ innerBytes inner)))))) := by
    rw [to_vec_split, ← List.append_assoc (List.take 8 _), List.take_append_drop]
    simp [hdrBytes, onWire, Ip4.hdr, optHdrs, Packet.gre_sequence_number, HeaderDef.ofVec]
  rw [e, key] at h'
  clear key e
  rw [Slow.parseL_eq _ _ _ (by decide)] at h'
  simp only [dstep, ← List.append_assoc (be32 seq)] at h'
  split at h'
  · rw [take_append_len (by rfl)] at h'
    simp only [stepThen] at h'
    revert h'
    generalize Slow.parseL chk' .ether _ = y
    generalize optAt ERSPANPLATFORM _ _ _ = z
    cases y with
    | error e => exact fun h' => nomatch h'
    | ok y =>
      intro h'
      obtain rfl := Except.ok.inj h'
      refine ⟨l2Hdrs d s ve vid pcp 0x0800#16 ++
        [a.hdr (BitVec.ofNat 16 (20 + (innerBytes inner).length + (erspan3Len seq ft + innerLen inner))),
          ⟨GRE, [0#8, 0#8, 0x22#8, 0xeb#8]⟩],
        Packet.erspan3 vlan cos en t sid ts sgt ft :: (optHdrs (ft.toNat % 2 = 1) (platform pid info) ++ innerHdrs inner),
        z ++ y.hdrs, by simp [optHdrs], by simp [prep, Ip4.hdr]⟩
  · exact nomatch h'

example : (Slow.parse true (Sample.get (Sample.erspan3With 24)).to_vec).map (fun p => (p.hdrs.map (·.name), p.payload.length)) =
    .ok (["Ether", "Vlan", "IPv4", "GRE", "ERSPAN3", "Ether"], 95) := by decide +kernel
example : (Sample.get (Sample.erspan3With 24)).hdrs.map (·.name) = ["Ether", "Vlan", "IPv4", "GRE", "GRESequenceNum",
    "ERSPAN3", "ERSPANPLATFORM", "Ether", "Vlan", "ARP"] := by decide +kernel

/-- **C48** So for even non-zero `seq` the parser never returns the packet that was built. -/
theorem C48_even_ne {seq : U32} {vlan : U16} {cos en t : Byte} {sid : U16} {ts : U32} {sgt ft : U16} {pid : Byte}
    {info : U64} {inner : Option Packet} (h0 : seq ≠ 0#32) (heven : seq.toNat % 2 = 0)
    (h : create_erspan_3_packet chk eth_dst eth_src ve vid pcp ihl src dst tos ttl id frag opts seq vlan cos en t sid ts
      sgt ft pid info inner = .ok p) : Slow.parse chk' p.to_vec ≠ .ok p := by
  intro h'
  obtain ⟨pre, rest, rest', e1, e2⟩ := C48_even chk' h0 heven h h'
  rw [e1] at e2
  have := List.append_cancel_left e2
  simp only [List.cons.injEq] at this
  have e : GRESequenceNum = ERSPAN3 := congrArg Hdr.ty this.1
  exact absurd e (by decide)

/-- **C47** Parsing a VXLAN over IPv6 packet built for port 4789 returns the outer headers followed by the parse, as an
Ethernet frame, of the inner headers and then the whole inner packet. -/
theorem C47_vxlanv6_parse {usrc : U16} {ck : Bool} {vni : U32} {inner : Packet}
    (h : create_vxlanv6_packet chk p6 eth_dst eth_src ve vid pcp tc flow hl src dst 4789#16 usrc ck vni inner = .ok p) :
    ∃ outer, p.hdrs = outer ++ inner.hdrs ∧
      Slow.parse chk' p.to_vec =
        (Slow.parse_ethernet chk' (hdrBytes inner.hdrs ++ inner.to_vec)).map (prep outer) := by
  obtain ⟨d, s, hd, hs, rfl⟩ := vxlanv6_shape (h := h)
  have w2 : Walk chk' .vxlan (Packet.vxlan vni).data [Packet.vxlan vni] .ether := walk_vxlan chk' _ rfl
  have w := (walk_udp' chk' usrc 4789#16 (BitVec.ofNat 16 (16 + inner.to_vec.length)) 0xffff#16).trans w2
  have := parse_v6 chk' (p6 := p6) (ve := ve) (vid := vid) (pcp := pcp) (tc := tc) (flow := flow) (hl := hl) (src := src)
    (dst := dst) (nh := 17#8) hd hs (len := BitVec.ofNat 16 (inner.to_vec.length + 16)) w
    (hdrBytes inner.hdrs ++ inner.to_vec)
  rw [to_vec_split]
  refine ⟨l2Hdrs d s ve vid pcp 0x86DD#16 ++
    [Packet.ipv6 p6 tc flow 17#8 hl src dst (BitVec.ofNat 16 (inner.to_vec.length + 16)),
      ⟨UDP, be16 usrc ++ be16 4789#16 ++ be16 (BitVec.ofNat 16 (16 + inner.to_vec.length)) ++ be16 0xffff#16⟩,
      Packet.vxlan vni], by simp, ?_⟩
  change _ = (Slow.parseL chk' .ether _).map _
  simpa [hdrBytes, onWire] using this

example : (Slow.parse true (Sample.get Sample.vxlanv6).to_vec).map (fun p => (p.hdrs.map (·.name), p.payload.length)) =
    .ok (["Ether", "Vlan", "IPv6", "UDP", "Vxlan", "Ether", "Vlan", "ARP"], 51) := by decide +kernel

end
end PacketRs
