import Verif.Props.BuildersParse
import Verif.Spec.Receive
import Verif.Samples
/-!
# C86: what is sent is received

The receiver of `Spec/Receive` on what the builders return, for arguments that fit their fields (C35 says what others become).
-/
namespace PacketRs
open Spec Utils

/-- A header of the type and with the values of the items. -/
def Says (h : Hdr) (l : List Item) : Prop :=
  ∀ x ∈ l, x.1 = h.ty ∧ match x.2.2 with
    | .num n => h.Reads x.2.1 n
    | .octets o => h.ReadsBytes x.2.1 o

theorem get_header_at {hs hs' : List Hdr} {h : Hdr} {pl : Bytes} (hn : ∀ x ∈ hs, x.name ≠ h.name) :
    Packet.get_header ⟨hs ++ h :: hs', pl⟩ h.ty h.ty.name = some h := by
  have : (hs ++ h :: hs').find? (fun x => x.name = h.ty.name) = some h := by
    rw [List.find?_append, List.find?_eq_none.mpr (fun x hx => by simp only [decide_eq_true_eq]; exact hn x hx)]
    simp [Hdr.name]
  simp [Packet.get_header, this]

theorem received_all (b : Bytes) (hs : List (Hdr × List Item))
    (hparse : ∀ chk, ∃ rest pl, Slow.parse chk b = .ok ⟨hs.map (·.1) ++ rest, pl⟩)
    (hn : (hs.map (·.1.name)).Nodup) (hsay : ∀ x ∈ hs, Says x.1 x.2) : ∀ x ∈ (hs.map (·.2)).flatten, Received b x := by
  intro x hx
  rw [List.mem_flatten] at hx
  obtain ⟨l, hl, hx⟩ := hx
  rw [List.mem_map] at hl
  obtain ⟨⟨h, l'⟩, hm, rfl⟩ := hl
  obtain ⟨t, v⟩ := hsay _ hm x hx
  obtain ⟨pre, post, rfl⟩ := List.append_of_mem hm
  have hpre : ∀ y ∈ pre.map (·.1), y.name ≠ h.name := by
    simp only [List.map_append, List.map_cons, List.nodup_append] at hn
    intro y hy
    obtain ⟨z, hz, rfl⟩ := List.mem_map.mp hy
    exact hn.2.2 _ (List.mem_map_of_mem hz) _ (by simp)
  obtain ⟨T, f, u⟩ := x
  simp only at t v
  subst t
  have get : ∀ chk, ∃ p, Slow.parse chk b = .ok p ∧ p.get_header h.ty h.ty.name = some h := by
    intro chk
    obtain ⟨rest, pl, e⟩ := hparse chk
    refine ⟨_, e, ?_⟩
    rw [List.map_append, List.map_cons, List.append_assoc, List.cons_append]
    exact get_header_at hpre
  cases u with
  | num n =>
    intro chk
    obtain ⟨p, e, g⟩ := get chk
    obtain ⟨w, hw, hv⟩ := v chk
    exact ⟨w, by simp only [receive, e, bind, Except.bind, g, hw], hv⟩
  | octets o =>
    intro chk
    obtain ⟨p, e, g⟩ := get chk
    simp only [receiveBytes, e, bind, Except.bind, g]
    exact v chk

/-! ## Headers and their items -/

theorem says_ether {eth_dst eth_src : Str} {d s : Bytes} (hd : to_mac_bytes eth_dst = .ok d) (hs : to_mac_bytes eth_src = .ok s)
    (et : U16) : Says ⟨Ether, d ++ s ++ be16 et⟩ (etherSent d s et.toNat) := by
  obtain ⟨h, -, t, -, h1, h2, h3, e⟩ := C33_ethernet eth_dst eth_src et d s hd hs
  obtain ⟨ty, data⟩ := h
  simp only at t e
  subst t e
  simp only [Says, etherSent, List.forall_mem_cons, h1, h2, h3]
  simp

theorem says_vlan {pcp : Byte} {vid : U16} (h1 : pcp.toNat < 8) (h2 : vid.toNat < 4096) (et : U16) :
    Says ⟨Vlan, be16 (vid ||| (pcp.setWidth 16 <<< 13)) ++ be16 et⟩ (vlanSent vid pcp et.toNat) := by
  obtain ⟨h, e, -, -, a, b, c, d⟩ := C34_vlan pcp 0 vid et h1 h2
  obtain rfl := Except.ok.inj (e.symm.trans (vlan_eq pcp 0 vid et))
  simp only [HeaderDef.ofVec] at a b c d
  simp [Says, vlanSent, a, b, c, d]

/-- Layer 2 headers with their items. -/
def l2Pairs (d s : Bytes) (ve : Bool) (vid : U16) (pcp : Byte) (et : U16) : List (Hdr × List Item) :=
  if ve then [(⟨Ether, d ++ s ++ be16 0x8100#16⟩, etherSent d s 0x8100),
    (⟨Vlan, be16 (vid ||| (pcp.setWidth 16 <<< 13)) ++ be16 et⟩, vlanSent vid pcp et.toNat)]
  else [(⟨Ether, d ++ s ++ be16 et⟩, etherSent d s et.toNat)]

theorem l2Pairs_hdrs (d s : Bytes) (ve : Bool) (vid : U16) (pcp : Byte) (et : U16) :
    (l2Pairs d s ve vid pcp et).map (·.1) = l2Hdrs d s ve vid pcp et := by cases ve <;> rfl

theorem l2Pairs_items (d s : Bytes) (ve : Bool) (vid : U16) (pcp : Byte) (et : U16) :
    ((l2Pairs d s ve vid pcp et).map (·.2)).flatten = l2Sent d s ve vid pcp et.toNat := by cases ve <;> rfl

theorem l2Pairs_says {eth_dst eth_src : Str} {d s : Bytes} (hd : to_mac_bytes eth_dst = .ok d)
    (hs : to_mac_bytes eth_src = .ok s) {pcp : Byte} {vid : U16} {ve : Bool}
    (hv : ve = true → pcp.toNat < 8 ∧ vid.toNat < 4096) (et : U16) :
    ∀ x ∈ l2Pairs d s ve vid pcp et, Says x.1 x.2 := by
  cases ve with
  | false => simpa [l2Pairs] using says_ether hd hs et
  | true =>
    have h1 := says_ether hd hs 0x8100#16
    have h2 := says_vlan (hv rfl).1 (hv rfl).2 et
    simp only [l2Pairs, if_true, List.mem_cons, List.not_mem_nil, or_false, forall_eq_or_imp, forall_eq]
    exact ⟨h1, h2⟩

/-- Parsed frame with layer 2 headers and further ones, all of different names. -/
theorem received_l2 {eth_dst eth_src : Str} {d s : Bytes} (hd : to_mac_bytes eth_dst = .ok d)
    (hs : to_mac_bytes eth_src = .ok s) {pcp : Byte} {vid : U16} {ve : Bool}
    (hv : ve = true → pcp.toNat < 8 ∧ vid.toNat < 4096) {et : U16} {b : Bytes} (hs' : List (Hdr × List Item))
    (hparse : ∀ chk, ∃ rest pl, Slow.parse chk b = .ok ⟨l2Hdrs d s ve vid pcp et ++ hs'.map (·.1) ++ rest, pl⟩)
    (names : List String) (hnames : hs'.map (·.1.name) = names)
    (hn : ("Ether" :: "Vlan" :: names).Nodup) (hsay : ∀ x ∈ hs', Says x.1 x.2) :
    ∀ x ∈ l2Sent d s ve vid pcp et.toNat ++ (hs'.map (·.2)).flatten, Received b x := by
  subst hnames
  have := received_all b (l2Pairs d s ve vid pcp et ++ hs')
    (by rw [List.map_append, l2Pairs_hdrs]; exact hparse) (by
      cases ve with
      | true => exact hn
      | false =>
        simp only [List.nodup_cons] at hn
        simp only [l2Pairs, Bool.false_eq_true, if_false, List.map_cons, List.cons_append,
          List.nil_append, List.nodup_cons]
        exact ⟨fun h => hn.1 (List.mem_cons_of_mem _ h), hn.2.2⟩)
    (by
      intro x hx
      rcases List.mem_append.mp hx with h | h
      · exact l2Pairs_says hd hs hv et x h
      · exact hsay x h)
  rwa [List.map_append, List.flatten_append, l2Pairs_items] at this

theorem says_ip4 {src dst : Str} {ihl tos ttl : Byte} {id frag : U16} {si di : Bytes} (his : to_ipv4_bytes src = .ok si)
    (hid : to_ipv4_bytes dst = .ok di) (hi : ihl.toNat < 16) (hf : frag.toNat < 2 ^ 13) (proto : Byte) (n : Nat) :
    Says ((Ip4.withProto ⟨ihl, tos, id, ttl, frag, 0#8, si, di⟩ proto).hdr (BitVec.ofNat 16 n))
      (ip4Sent ihl tos id ttl frag proto.toNat si di n) := by
  obtain ⟨h, c, e, -, -, a1, a2, a3, a4, a5, a6, a7, a8, a9, -, -, a12, a13⟩ :=
    C34_ipv4 true ihl tos id ttl frag proto src dst (BitVec.ofNat 16 n) si di his hid hi hf
  obtain rfl := Except.ok.inj (e.symm.trans
    (packet_ipv4_eq true (Ip4.withProto ⟨ihl, tos, id, ttl, frag, 0#8, si, di⟩ proto) src dst his hid _))
  rw [BitVec.toNat_ofNat] at a4
  simp only [Says, ip4Sent, List.forall_mem_cons, a1, a2, a3, a4, a5, a6, a7, a8, a9, a12, a13]
  simp [Ip4.hdr]

/-- Setting a field leaves the items that do not mention it. -/
theorem Says.set {h h' : Hdr} {l : List Item} {f : Field} {v : U64} (hl : Says h l) (hin : f.Inside h.data.length)
    (hs : h.set f v = .ok h') (hd : ∀ x ∈ l, f.Disjoint x.2.1 ∧ ∃ n, x.2.2 = .num n) : Says h' l := by
  intro x hx
  obtain ⟨t, r⟩ := hl x hx
  obtain ⟨dis, n, hn⟩ := hd x hx
  obtain ⟨h'', e, t', -, -⟩ := C03_set_frame h f v hin
  obtain rfl := Except.ok.inj (e.symm.trans hs)
  refine ⟨by rw [t, t'], ?_⟩
  rw [hn] at r ⊢
  intro chk
  rw [C03_other_fields chk h h'' f x.2.1 v hin hs dis]
  exact r chk

/-- The IPv4 header with any checksum. -/
theorem says_ip4_ck {src dst : Str} {ihl tos ttl : Byte} {id frag : U16} {si di : Bytes} (his : to_ipv4_bytes src = .ok si)
    (hid : to_ipv4_bytes dst = .ok di) (hi : ihl.toNat < 16) (hf : frag.toNat < 2 ^ 13) (proto : Byte) (n : Nat) (c : U16) :
    Says ⟨IPv4, (Ip4.withProto ⟨ihl, tos, id, ttl, frag, 0#8, si, di⟩ proto).raw (BitVec.ofNat 16 n) c⟩
      (ip4Sent ihl tos id ttl frag proto.toNat si di n) := by
  have ok : (Ip4.withProto ⟨ihl, tos, id, ttl, frag, 0#8, si, di⟩ proto).Ok := ⟨C32_length _ _ his, C32_length _ _ hid⟩
  refine (says_ip4 his hid hi hf proto n).set (f := IPv4.header_checksum) (v := c.setWidth 64) ?_
    (Ip4.set_ck _ ok _ _ c) ?_
  · unfold Field.Inside
    change _ ∧ _ < 8 * (Ip4.raw _ _ _).length
    rw [Ip4.raw_length _ ok]
    decide
  · simp only [ip4Sent, List.forall_mem_cons]
    simp [Field.Disjoint]
    decide

theorem says_ip6 (p6 : Ipv6FromStr) (tc : Byte) {flow : U32} (hf : flow.toNat < 2 ^ 20) (nh hl : Byte) (src dst : Str) (n : Nat) :
    Says (Packet.ipv6 p6 tc flow nh hl src dst (BitVec.ofNat 16 n))
      (ip6Sent tc flow nh.toNat hl (to_ipv6_bytes p6 src) (to_ipv6_bytes p6 dst) n) := by
  obtain ⟨t, -, a1, a2, a3, a4, a5, a6, a7, a8⟩ := C34_ipv6 p6 tc flow nh hl src dst (BitVec.ofNat 16 n) hf
  rw [BitVec.toNat_ofNat] at a4
  simp only [Says, ip6Sent, List.forall_mem_cons, a1, a2, a3, a4, a5, a6, a7, a8, t]
  simp

theorem says_tcp (src dst : U16) (seq ack : U32) {off res : Byte} (flags : Byte) (window urg : U16) (h1 : off.toNat < 16)
    (h2 : res.toNat < 16) :
    Says (Packet.tcp src dst seq ack off res flags window 0 urg) (tcpSent src dst seq ack off res flags window urg) := by
  obtain ⟨t, -, a1, a2, a3, a4, a5, a6, a7, a8, a9, a10⟩ := C34_tcp src dst seq ack off res flags window 0 urg h1 h2
  have a9 : (Packet.tcp src dst seq ack off res flags window 0 urg).Reads TCP.checksum 0 := a9
  simp only [Says, tcpSent, List.forall_mem_cons, a1, a2, a3, a4, a5, a6, a7, a8, a9, a10, t]
  simp

theorem says_udp (src dst : U16) (n : Nat) : Says (Packet.udp src dst (BitVec.ofNat 16 n)) (udpSent src dst n 0) := by
  obtain ⟨t, -, a1, a2, a3, a4⟩ := C33_udp src dst (BitVec.ofNat 16 n)
  rw [BitVec.toNat_ofNat] at a3
  simp only [Says, udpSent, List.forall_mem_cons, a1, a2, a3, a4, t]
  simp

/-- The UDP header of the IPv6 builders. -/
theorem says_udp_ffff (src dst : U16) (n : Nat) :
    Says ⟨UDP, be16 src ++ be16 dst ++ be16 (BitVec.ofNat 16 n) ++ be16 0xffff#16⟩ (udpSent src dst n 65535) := by
  obtain ⟨t, -, a1, a2, a3, a4⟩ := C33_udp src dst (BitVec.ofNat 16 n)
  rw [BitVec.toNat_ofNat] at a3
  have hs := udp_ffff src dst (BitVec.ofNat 16 n)
  have hin : UDP.checksum.Inside (Packet.udp src dst (BitVec.ofNat 16 n)).data.length := by
    rw [(C33_udp src dst (BitVec.ofNat 16 n)).2.1]; decide
  have l : Says (Packet.udp src dst (BitVec.ofNat 16 n))
      [(UDP, UDP.src, .num src.toNat), (UDP, UDP.dst, .num dst.toNat), (UDP, UDP.length, .num (n % 65536))] := by
    simp only [Says, List.forall_mem_cons, a1, a2, a3, t]
    simp
  have l := l.set hin hs (by
    simp only [List.forall_mem_cons]
    simp [Field.Disjoint]
    decide)
  have ck : (Hdr.mk UDP (be16 src ++ be16 dst ++ be16 (BitVec.ofNat 16 n) ++ be16 0xffff#16)).Reads UDP.checksum 65535 := by
    intro chk
    obtain ⟨h', r, e, g, v⟩ := C02_set_get chk _ UDP.checksum 0xffff#64 hin (by decide)
    obtain rfl := Except.ok.inj (e.symm.trans hs)
    exact ⟨r, g, v⟩
  simp only [Says, List.forall_mem_cons] at l
  simp only [Says, udpSent, List.forall_mem_cons]
  exact ⟨l.1, l.2.1, l.2.2.1, ⟨trivial, ck⟩, by simp⟩

theorem says_icmp (ty code : Byte) : Says (Packet.icmp ty code) (icmpSent ty code) := by
  obtain ⟨t, -, a1, a2, a3⟩ := C33_icmp ty code
  simp only [Says, icmpSent, List.forall_mem_cons, a1, a2, a3, t]
  simp

theorem says_vxlan (vni : U32) : Says (Packet.vxlan vni) (vxlanSent vni) := by
  obtain ⟨t, -, a1, a2, a3, a4⟩ := C35_vxlan vni
  simp only [Says, vxlanSent, List.forall_mem_cons, a1, a2, a3, a4, t]
  simp

theorem says_erspan2 {vlan : U16} {cos en t : Byte} {sid : U16} {idx : U32}
    (h1 : vlan.toNat < 2 ^ 12) (h2 : cos.toNat < 8) (h3 : en.toNat < 4) (h4 : t.toNat < 2)
    (h5 : sid.toNat < 2 ^ 10) (h6 : idx.toNat < 2 ^ 20) :
    Says (Packet.erspan2 vlan cos en t sid idx) (erspan2Sent vlan cos en t sid idx) := by
  obtain ⟨t, -, a1, a2, a3, a4, a5, a6, a7, a8⟩ := C34_erspan2 vlan cos en t sid idx h1 h2 h3 h4 h5 h6
  simp only [Says, erspan2Sent, List.forall_mem_cons, a1, a2, a3, a4, a5, a6, a7, a8, t]
  simp

/-! ## Builders -/

section
variable {chk : Bool} {p6 : Ipv6FromStr} {eth_dst eth_src : Str} {ve : Bool} {vid : U16} {pcp : Byte}
  {ihl : Byte} {src dst : Str} {tos ttl : Byte} {id frag : U16} {opts : Bytes} {tc : Byte} {flow : U32} {hl : Byte}
  {payload : Bytes} {p : Packet} {d s si di : Bytes} (hd : to_mac_bytes eth_dst = .ok d) (hs : to_mac_bytes eth_src = .ok s)
  (his : to_ipv4_bytes src = .ok si) (hid : to_ipv4_bytes dst = .ok di)
  (hv : ve = true → pcp.toNat < 8 ∧ vid.toNat < 4096) (hi : ihl.toNat < 16) (hf : frag.toNat < 2 ^ 13)
include hd hs hv

/-- **C86** ARP: the receiver reads every field as it was sent. -/
theorem C86_arp {opcode : U16} {smac tmac sip tip : Str} {sm tm si ti : Bytes}
    (h1 : to_mac_bytes smac = .ok sm) (h2 : to_mac_bytes tmac = .ok tm)
    (h3 : to_ipv4_bytes sip = .ok si) (h4 : to_ipv4_bytes tip = .ok ti)
    (h : create_arp_packet eth_dst eth_src ve vid pcp opcode smac tmac sip tip payload = .ok p) :
    (∀ x ∈ l2Sent d s ve vid pcp 0x0806 ++ arpSent opcode sm tm si ti, Received p.to_vec x) ∧
      ∀ chk', ∃ q, Slow.parse chk' p.to_vec = .ok q ∧ q.payload = payload := by
  obtain ⟨x, e, t, -, a1, a2, a3, a4, a5, a6, a7, a8, a9⟩ := C33_arp opcode smac tmac sip tip sm tm si ti h1 h2 h3 h4
  have hp := C41_arp _ _ ve vid pcp d s hd hs payload opcode smac tmac sip tip x e
  obtain rfl := Except.ok.inj (h.symm.trans hp)
  refine ⟨?_, fun chk' => ⟨_, C44_arp chk' h, rfl⟩⟩
  have := received_l2 hd hs hv (et := 0x0806#16) [(x, arpSent opcode sm tm si ti)]
    (fun chk' => ⟨[], payload, by rw [C44_arp chk' h]; simp⟩)
    ["ARP"] (by simp [Hdr.name, t]; rfl) (by decide) (by
      simp only [List.mem_singleton, forall_eq, Says, arpSent, List.forall_mem_cons, a1, a2, a3, a4, a5, a6, a7, a8, a9, t]
      simp)
  simpa using this

example : receive true (Sample.get Sample.arp).to_vec ARP ARP.opcode = .ok 2 := by decide +kernel

example : receive false (Sample.get Sample.arp).to_vec ARP ARP.target_proto_addr = .ok 0xc0a80002 := by decide +kernel

/-- **C86** TCP over IPv6. -/
theorem C86_tcpv6 {tdst tsrc : U16} {seq ack : U32} {off res flags : Byte} {window urg : U16}
    (hfl : flow.toNat < 2 ^ 20) (ho : off.toNat < 16) (hr : res.toNat < 16)
    (h : create_tcpv6_packet chk p6 eth_dst eth_src ve vid pcp tc flow hl src dst tdst tsrc seq ack off res flags
      window urg payload = .ok p) :
    (∀ x ∈ l2Sent d s ve vid pcp 0x86dd ++ (ip6Sent tc flow 6 hl (to_ipv6_bytes p6 src) (to_ipv6_bytes p6 dst)
        (payload.length + 20) ++ tcpSent tsrc tdst seq ack off res flags window urg), Received p.to_vec x) ∧
      ∀ chk', ∃ q, Slow.parse chk' p.to_vec = .ok q ∧ q.payload = payload := by
  have hp := C41_tcpv6 chk p6 _ _ ve vid pcp d s hd hs src dst payload tc flow hl tdst tsrc seq ack off res flags window urg
  obtain rfl := Except.ok.inj (h.symm.trans hp)
  refine ⟨?_, fun chk' => ⟨_, C44_tcpv6 chk' h, rfl⟩⟩
  have := received_l2 hd hs hv (et := 0x86dd#16) [(_, _), (_, _)]
    (fun chk' => ⟨[], payload, by rw [C44_tcpv6 chk' h]; simp; exact ⟨rfl, rfl⟩⟩)
    ["IPv6", "TCP"] rfl (by decide) (by
      simp only [List.mem_cons, List.not_mem_nil, or_false, forall_eq_or_imp, forall_eq]
      exact ⟨says_ip6 p6 tc hfl 6#8 hl src dst _, says_tcp tsrc tdst seq ack flags window urg ho hr⟩)
  simpa using this

example : receive true (Sample.get Sample.tcpv6).to_vec IPv6 IPv6.flow_label = .ok 0x12345 := by decide +kernel

example : receiveBytes true (Sample.get Sample.tcpv6).to_vec IPv6 IPv6.src =
    .ok [0x20, 0x01, 0x0d, 0xb8, 0, 0, 0, 0, 0, 0, 0, 0, 0, 0, 0, 1] := by decide +kernel

/-- **C86** UDP over IPv6 to a port other than 4789; the checksum reads `0xffff` whatever the payload. -/
theorem C86_udpv6 {udst usrc : U16} {ck : Bool} (hfl : flow.toNat < 2 ^ 20) (hport : udst ≠ 4789#16)
    (h : create_udpv6_packet chk p6 eth_dst eth_src ve vid pcp tc flow hl src dst udst usrc ck payload = .ok p) :
    (∀ x ∈ l2Sent d s ve vid pcp 0x86dd ++ (ip6Sent tc flow 17 hl (to_ipv6_bytes p6 src) (to_ipv6_bytes p6 dst)
        (payload.length + 8) ++ udpSent usrc udst (8 + payload.length) 65535), Received p.to_vec x) ∧
      ∀ chk', ∃ q, Slow.parse chk' p.to_vec = .ok q ∧ q.payload = payload := by
  have hp := C41_udpv6 chk p6 _ _ ve vid pcp d s hd hs src dst payload tc flow hl udst usrc ck
  obtain rfl := Except.ok.inj (h.symm.trans hp)
  refine ⟨?_, fun chk' => ⟨_, (C44_udpv6 chk' h).1.mpr hport, rfl⟩⟩
  have := received_l2 hd hs hv (et := 0x86dd#16) [(Packet.ipv6 .., _), (⟨UDP, _⟩, _)]
    (fun chk' => ⟨[], payload, by rw [(C44_udpv6 chk' h).1.mpr hport, List.append_nil]; rfl⟩)
    ["IPv6", "UDP"] rfl (by decide) (by
      simp only [List.mem_cons, List.not_mem_nil, or_false, forall_eq_or_imp, forall_eq]
      exact ⟨says_ip6 p6 tc hfl 17#8 hl src dst _, says_udp_ffff usrc udst _⟩)
  simpa using this

example : receive true (Sample.get Sample.udpv6).to_vec UDP UDP.checksum = .ok 0xffff := by decide +kernel

/-- **C86** ICMPv6. -/
theorem C86_icmpv6 {ty code : Byte} {idata : Bytes} {ck : Bool} (hfl : flow.toNat < 2 ^ 20)
    (h : create_icmpv6_packet chk p6 eth_dst eth_src ve vid pcp tc flow hl src dst ty code idata ck payload = .ok p) :
    (∀ x ∈ l2Sent d s ve vid pcp 0x86dd ++ (ip6Sent tc flow 58 hl (to_ipv6_bytes p6 src) (to_ipv6_bytes p6 dst)
        (payload.length + 4) ++ icmpSent ty code), Received p.to_vec x) ∧
      ∀ chk', ∃ q, Slow.parse chk' p.to_vec = .ok q ∧ q.payload = payload := by
  have hp := C41_icmpv6 chk p6 _ _ ve vid pcp d s hd hs src dst payload tc flow hl ty code idata ck
  obtain rfl := Except.ok.inj (h.symm.trans hp)
  refine ⟨?_, fun chk' => ⟨_, C44_icmpv6 chk' h, rfl⟩⟩
  have := received_l2 hd hs hv (et := 0x86dd#16) [(_, _), (_, _)]
    (fun chk' => ⟨[], payload, by rw [C44_icmpv6 chk' h]; simp; exact ⟨rfl, rfl⟩⟩)
    ["IPv6", "ICMP"] rfl (by decide) (by
      simp only [List.mem_cons, List.not_mem_nil, or_false, forall_eq_or_imp, forall_eq]
      exact ⟨says_ip6 p6 tc hfl 58#8 hl src dst _, says_icmp ty code⟩)
  simpa using this

example : receive true (Sample.get Sample.icmpv6).to_vec ICMP ICMP.icmp_type = .ok 128 := by decide +kernel

include his hid hi hf

/-- **C86** TCP: the receiver reads every field as it was sent. -/
theorem C86_tcp {tdst tsrc : U16} {seq ack : U32} {off res flags : Byte} {window urg : U16} {ck : Bool}
    (ho : off.toNat < 16) (hr : res.toNat < 16)
    (h : create_tcp_packet chk eth_dst eth_src ve vid pcp ihl src dst tos ttl id frag opts tdst tsrc seq ack off res
      flags window urg ck payload = .ok p) :
    (∀ x ∈ l2Sent d s ve vid pcp 0x0800 ++ (ip4Sent ihl tos id ttl frag 6 si di (40 + payload.length) ++
        tcpSent tsrc tdst seq ack off res flags window urg), Received p.to_vec x) ∧
      ∀ chk', ∃ q, Slow.parse chk' p.to_vec = .ok q ∧ q.payload = payload := by
  have hp := C41_tcp chk _ _ ve vid pcp d s hd hs ⟨ihl, tos, id, ttl, frag, 0#8, si, di⟩ _ _ his hid opts payload tdst tsrc
    seq ack off res flags window urg ck
  obtain rfl := Except.ok.inj (h.symm.trans hp)
  refine ⟨?_, fun chk' => ⟨_, C44_tcp chk' h, rfl⟩⟩
  rw [show 40 + payload.length = 20 + payload.length + 20 by omega]
  have := received_l2 hd hs hv (et := 0x0800#16) [(_, _), (_, _)]
    (fun chk' => ⟨[], payload, by rw [C44_tcp chk' h]; simp; exact ⟨rfl, rfl⟩⟩)
    ["IPv4", "TCP"] rfl (by decide) (by
      simp only [List.mem_cons, List.not_mem_nil, or_false, forall_eq_or_imp, forall_eq]
      exact ⟨says_ip4 his hid hi hf 6#8 _, says_tcp tsrc tdst seq ack flags window urg ho hr⟩)
  simpa using this

example : receive true (Sample.get Sample.tcp).to_vec TCP TCP.dst = .ok 80 := by decide +kernel

example : receive true (Sample.get Sample.tcp).to_vec Vlan Vlan.pcp = .ok 3 := by decide +kernel

/-- **C86** UDP to a port other than 4789. -/
theorem C86_udp {udst usrc : U16} {ck : Bool} (hport : udst ≠ 4789#16)
    (h : create_udp_packet chk eth_dst eth_src ve vid pcp ihl src dst tos ttl id frag opts udst usrc ck payload = .ok p) :
    (∀ x ∈ l2Sent d s ve vid pcp 0x0800 ++ (ip4Sent ihl tos id ttl frag 17 si di (28 + payload.length) ++
        udpSent usrc udst (8 + payload.length) 0), Received p.to_vec x) ∧
      ∀ chk', ∃ q, Slow.parse chk' p.to_vec = .ok q ∧ q.payload = payload := by
  have hp := C41_udp chk _ _ ve vid pcp d s hd hs ⟨ihl, tos, id, ttl, frag, 0#8, si, di⟩ _ _ his hid opts payload udst usrc ck
  obtain rfl := Except.ok.inj (h.symm.trans hp)
  refine ⟨?_, fun chk' => ⟨_, (C44_udp chk' h).1.mpr hport, rfl⟩⟩
  rw [show 28 + payload.length = 20 + payload.length + 8 by omega]
  have := received_l2 hd hs hv (et := 0x0800#16) [(_, _), (_, _)]
    (fun chk' => ⟨[], payload, by rw [(C44_udp chk' h).1.mpr hport]; simp; exact ⟨rfl, rfl⟩⟩)
    ["IPv4", "UDP"] rfl (by decide) (by
      simp only [List.mem_cons, List.not_mem_nil, or_false, forall_eq_or_imp, forall_eq]
      exact ⟨says_ip4 his hid hi hf 17#8 _, says_udp usrc udst _⟩)
  simpa using this

example : receive true (Sample.get Sample.udp).to_vec UDP UDP.length = .ok 13 := by decide +kernel

example : receive true (Sample.get (Sample.udpTo 4789)).to_vec UDP UDP.length = .error .index := by decide +kernel

/-- **C86** ICMP. -/
theorem C86_icmp {ty code : Byte} {idata : Bytes} {ck : Bool}
    (h : create_icmp_packet chk eth_dst eth_src ve vid pcp ihl src dst tos ttl id frag opts ty code idata ck payload
      = .ok p) :
    (∀ x ∈ l2Sent d s ve vid pcp 0x0800 ++ (ip4Sent ihl tos id ttl frag 1 si di (24 + payload.length) ++
        icmpSent ty code), Received p.to_vec x) ∧
      ∀ chk', ∃ q, Slow.parse chk' p.to_vec = .ok q ∧ q.payload = payload := by
  have hp := C41_icmp chk _ _ ve vid pcp d s hd hs ⟨ihl, tos, id, ttl, frag, 0#8, si, di⟩ _ _ his hid opts payload ty code idata ck
  obtain rfl := Except.ok.inj (h.symm.trans hp)
  refine ⟨?_, fun chk' => ⟨_, C44_icmp chk' h, rfl⟩⟩
  rw [show 24 + payload.length = 20 + payload.length + 4 by omega]
  have := received_l2 hd hs hv (et := 0x0800#16) [(_, _), (_, _)]
    (fun chk' => ⟨[], payload, by rw [C44_icmp chk' h]; simp; exact ⟨rfl, rfl⟩⟩)
    ["IPv4", "ICMP"] rfl (by decide) (by
      simp only [List.mem_cons, List.not_mem_nil, or_false, forall_eq_or_imp, forall_eq]
      exact ⟨says_ip4 his hid hi hf 1#8 _, says_icmp ty code⟩)
  simpa using this

example : receive true (Sample.get Sample.icmp).to_vec ICMP ICMP.icmp_type = .ok 8 := by decide +kernel

/-- **C86** VXLAN to port 4789 around a packet that parses: the receiver reads the outer headers. -/
theorem C86_vxlan {usrc : U16} {ck : Bool} {vni : U32} {inner : Packet}
    (hin : ∀ chk', ∃ q, Slow.parse_ethernet chk' inner.to_vec = .ok q)
    (h : create_vxlan_packet chk eth_dst eth_src ve vid pcp ihl src dst tos ttl id frag opts 4789#16 usrc ck vni inner
      = .ok p) :
    ∀ x ∈ l2Sent d s ve vid pcp 0x0800 ++ (ip4Sent ihl tos id ttl frag 17 si di (36 + inner.to_vec.length) ++
        (udpSent usrc 4789 (16 + inner.to_vec.length) 0 ++ vxlanSent vni)), Received p.to_vec x := by
  have hp := C41_vxlan chk _ _ ve vid pcp d s hd hs ⟨ihl, tos, id, ttl, frag, 0#8, si, di⟩ _ _ his hid opts 4789#16 usrc ck
    vni inner
  obtain rfl := Except.ok.inj (h.symm.trans hp)
  rw [show 36 + inner.to_vec.length = 20 + inner.to_vec.length + 16 by omega]
  have := received_l2 hd hs hv (et := 0x0800#16) [(_, _), (_, _), (_, _)]
    (fun chk' => by
      obtain ⟨q, hq⟩ := hin chk'
      exact ⟨q.hdrs, q.payload, by rw [C45_vxlan chk' h, hq]; simp [Except.map, prep]; exact ⟨rfl, rfl, rfl⟩⟩)
    ["IPv4", "UDP", "Vxlan"] rfl (by decide) (by
      simp only [List.mem_cons, List.not_mem_nil, or_false, forall_eq_or_imp, forall_eq]
      exact ⟨says_ip4_ck his hid hi hf 17#8 _ _, says_udp usrc 4789#16 _, says_vxlan vni⟩)
  simpa using this

example : receive true (Sample.get Sample.vxlan).to_vec Vxlan Vxlan.vni = .ok 0xabcd := by decide +kernel

example : ∃ q, Slow.parse_ethernet true Sample.innerFrame.to_vec = .ok q := ⟨Sample.get (Slow.parse_ethernet true Sample.innerFrame.to_vec), by decide +kernel⟩

/-- **C86** ERSPAN II around a packet that parses: the receiver reads the fields of the mirrored packet's envelope, whatever
headers of the same names are inside. -/
theorem C86_erspan2 {seq : U32} {vlan : U16} {cos en t : Byte} {sid : U16} {idx : U32} {inner : Packet}
    (h1 : vlan.toNat < 2 ^ 12) (h2 : cos.toNat < 8) (h3 : en.toNat < 4) (h4 : t.toNat < 2)
    (h5 : sid.toNat < 2 ^ 10) (h6 : idx.toNat < 2 ^ 20)
    (hin : ∀ chk', ∃ q, Slow.parse_ethernet chk' inner.to_vec = .ok q)
    (h : create_erspan_2_packet chk eth_dst eth_src ve vid pcp ihl src dst tos ttl id frag opts seq vlan cos en t sid
      idx (some inner) = .ok p) :
    ∀ x ∈ l2Sent d s ve vid pcp 0x0800 ++ (ip4Sent ihl tos id ttl frag 47 si di
          (20 + inner.to_vec.length + ((if seq = 0#32 then 12 else 16) + inner.len)) ++
        ((if seq = 0#32 then [] else [(GRESequenceNum, GRESequenceNum.seqnum, .num seq.toNat)]) ++
        erspan2Sent vlan cos en t sid idx)), Received p.to_vec x := by
  have hp := C41_erspan2 chk _ _ ve vid pcp d s hd hs ⟨ihl, tos, id, ttl, frag, 0#8, si, di⟩ _ _ his hid opts seq vlan cos en t sid
    idx (some inner)
  obtain rfl := Except.ok.inj (h.symm.trans hp)
  have parse : ∀ chk', ∃ rest pl, Slow.parse chk' (Packet.to_vec _) = .ok ⟨_ ++ rest, pl⟩ := fun chk' => by
    obtain ⟨q, hq⟩ := hin chk'
    refine ⟨q.hdrs, q.payload, ?_⟩
    rw [C45_erspan2 chk' h]
    change (Slow.parse_ethernet chk' inner.to_vec).map _ = _
    rw [hq]
    rfl
  by_cases h0 : seq = 0#32
  · have := received_l2 hd hs hv (et := 0x0800#16) [(_, _), (_, []), (_, _)]
      (fun chk' => by
        obtain ⟨rest, pl, e⟩ := parse chk'
        exact ⟨rest, pl, by rw [e]; simp [optHdrs, h0]; exact ⟨rfl, rfl, rfl⟩⟩)
      ["IPv4", "GRE", "ERSPAN2"] rfl (by decide) (by
        simp only [List.mem_cons, List.not_mem_nil, or_false, forall_eq_or_imp, forall_eq]
        exact ⟨says_ip4 his hid hi hf 47#8 _, by simp [Says], says_erspan2 h1 h2 h3 h4 h5 h6⟩)
    simpa [h0, erspan2Len, innerLen, innerBytes] using this
  · have := received_l2 hd hs hv (et := 0x0800#16) [(_, _), (_, []),
      (Packet.gre_sequence_number seq, [(GRESequenceNum, GRESequenceNum.seqnum, .num seq.toNat)]), (_, _)]
      (fun chk' => by
        obtain ⟨rest, pl, e⟩ := parse chk'
        exact ⟨rest, pl, by rw [e]; simp [optHdrs, h0]; exact ⟨rfl, rfl, rfl⟩⟩)
      ["IPv4", "GRE", "GRESequenceNum", "ERSPAN2"] rfl (by decide) (by
        simp only [List.mem_cons, List.not_mem_nil, or_false, forall_eq_or_imp, forall_eq]
        refine ⟨says_ip4 his hid hi hf 47#8 _, by simp [Says], ?_, says_erspan2 h1 h2 h3 h4 h5 h6⟩
        have := (C33_gre_options 0 0 seq 0).2.2.2.2.2.2.1
        simp only [Says, List.mem_singleton, forall_eq]
        exact ⟨rfl, this⟩)
    simpa [h0, erspan2Len, innerLen, innerBytes] using this

example : receive true (Sample.get Sample.erspan2).to_vec ERSPAN2 ERSPAN2.session_id = .ok 77 := by decide +kernel

example : receive true (Sample.get Sample.erspan2).to_vec GRESequenceNum GRESequenceNum.seqnum = .ok 24 := by decide +kernel

end
end PacketRs
