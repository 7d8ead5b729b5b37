import Verif.Props.BuildersShape
/-!
# Properties C42, C43, C46, C47, C49: lengths and checksums of built packets

All statements are about packets a builder returned; which arguments make it return is in `C41_…_returns_iff`.
-/
namespace PacketRs
open Spec Utils

theorem l2_ty (d s : Bytes) (ve : Bool) (vid : U16) (pcp : Byte) (et : U16) (T : HeaderDef)
    (h1 : T ≠ Ether) (h2 : T ≠ Vlan) : ∀ h ∈ l2Hdrs d s ve vid pcp et, h.ty ≠ T := by
  intro h hm
  unfold l2Hdrs at hm
  cases ve
  · simp only [Bool.false_eq_true, if_false, List.mem_singleton] at hm
    subst hm; exact Ne.symm h1
  · simp only [if_true, List.mem_cons, List.not_mem_nil, or_false] at hm
    rcases hm with rfl | rfl
    · exact Ne.symm h1
    · exact Ne.symm h2

theorem onWire_length (hs : List Hdr) (pl : Bytes) :
    (onWire hs pl).length = (hs.map (fun h => h.data.length)).sum + pl.length := by
  simp [onWire, List.length_flatten, Function.comp_def]

theorem Ip4.reads_len (a : Ip4) (ha : a.Ok) (n : Nat) (c : U16) :
    (Hdr.mk IPv4 (a.raw (BitVec.ofNat 16 n) c)).Reads IPv4.total_len (n % 65536) := by
  intro chk
  refine ⟨_, a.get_len ha chk _ c, ?_⟩
  simp only [BitVec.toNat_setWidth, BitVec.toNat_ofNat]
  omega

theorem firstIpv4 (d s : Bytes) (ve : Bool) (vid : U16) (pcp : Byte) (et : U16) (raw : Bytes) (post : List Hdr) :
    FirstOf IPv4 (l2Hdrs d s ve vid pcp et ++ ⟨IPv4, raw⟩ :: post) (l2Hdrs d s ve vid pcp et) ⟨IPv4, raw⟩ post :=
  ⟨rfl, rfl, l2_ty _ _ _ _ _ _ _ (by decide) (by decide)⟩

theorem firstIpv6 (d s : Bytes) (ve : Bool) (vid : U16) (pcp : Byte) (et : U16) (p6 : Ipv6FromStr) (tc : Byte)
    (flow : U32) (nh hl : Byte) (src dst : Str) (len : U16) (post : List Hdr) :
    FirstOf IPv6 (l2Hdrs d s ve vid pcp et ++ Packet.ipv6 p6 tc flow nh hl src dst len :: post)
      (l2Hdrs d s ve vid pcp et) (Packet.ipv6 p6 tc flow nh hl src dst len) post :=
  ⟨rfl, rfl, l2_ty _ _ _ _ _ _ _ (by decide) (by decide)⟩

/-- Total length of a packet `l2 ++ ip :: post`. -/
theorem totalLen_of (d s : Bytes) (ve : Bool) (vid : U16) (pcp : Byte) (et : U16) (a : Ip4) (ha : a.Ok) (n : Nat)
    (c : U16) (post : List Hdr) (pl : Bytes) (hn : n = 20 + (onWire post pl).length) :
    TotalLenOk (l2Hdrs d s ve vid pcp et ++ ⟨IPv4, a.raw (BitVec.ofNat 16 n) c⟩ :: post) pl := by
  refine ⟨_, _, _, firstIpv4 _ _ _ _ _ _ _ _, ?_⟩
  have h := a.reads_len ha n c
  have e : (onWire (⟨IPv4, a.raw (BitVec.ofNat 16 n) c⟩ :: post) pl).length = n := by
    rw [hn]
    simp only [onWire_length, List.map_cons, List.sum_cons, a.raw_length ha]
    omega
  rw [e]
  exact h

theorem payloadLen_of (d s : Bytes) (ve : Bool) (vid : U16) (pcp : Byte) (et : U16) (p6 : Ipv6FromStr) (tc : Byte)
    (flow : U32) (nh hl : Byte) (src dst : Str) (n : Nat) (post : List Hdr) (pl : Bytes)
    (hn : n = (onWire post pl).length) :
    PayloadLenOk (l2Hdrs d s ve vid pcp et ++ Packet.ipv6 p6 tc flow nh hl src dst (BitVec.ofNat 16 n) :: post) pl := by
  refine ⟨_, _, _, firstIpv6 _ _ _ _ _ _ _ _ _ _ _ _ _ _ _, ?_⟩
  have := (C35_ipv6 p6 tc flow nh hl src dst (BitVec.ofNat 16 n)).2.2.2.2.2.1
  rw [BitVec.toNat_ofNat] at this
  rw [← hn]
  exact this

theorem udpReads (src dst ck : U16) (n : Nat) :
    (Hdr.mk UDP (be16 src ++ be16 dst ++ be16 (BitVec.ofNat 16 n) ++ be16 ck)).Reads UDP.length (n % 65536) := by
  have h : (Hdr.mk UDP (be16 src ++ be16 dst ++ be16 (BitVec.ofNat 16 n) ++ be16 ck)).Reads UDP.length
      (BitVec.ofNat 16 n).toNat := by
    reads UDP.length
  rw [BitVec.toNat_ofNat] at h
  exact h

theorem udpLen_of (pre : List Hdr) (hpre : ∀ x ∈ pre, x.ty ≠ UDP) (src dst ck : U16) (n : Nat) (post : List Hdr)
    (pl : Bytes) (hn : n = 8 + (onWire post pl).length) :
    UdpLenOk (pre ++ ⟨UDP, be16 src ++ be16 dst ++ be16 (BitVec.ofNat 16 n) ++ be16 ck⟩ :: post) pl := by
  refine ⟨_, _, _, ⟨rfl, rfl, hpre⟩, ?_⟩
  have e : (onWire (⟨UDP, be16 src ++ be16 dst ++ be16 (BitVec.ofNat 16 n) ++ be16 ck⟩ :: post) pl).length = n := by
    rw [hn]
    simp only [onWire_length, List.map_cons, List.sum_cons]
    simp
    omega
  rw [e]
  exact udpReads src dst ck n

theorem l2ip_ty (d s : Bytes) (ve : Bool) (vid : U16) (pcp : Byte) (et : U16) (ip : Hdr) (h : ip.ty ≠ UDP) :
    ∀ x ∈ l2Hdrs d s ve vid pcp et ++ [ip], x.ty ≠ UDP := by
  intro x hx
  rcases List.mem_append.1 hx with hx | hx
  · exact l2_ty _ _ _ _ _ _ _ (by decide) (by decide) x hx
  · rw [List.mem_singleton.1 hx]; exact h

theorem tcp_len (src dst : U16) (seq ack : U32) (off res flags : Byte) (w c u : U16) :
    (Packet.tcp src dst seq ack off res flags w c u).data.length = 20 := by
  simp [Packet.tcp, HeaderDef.ofVec]

theorem optHdrs_len (c : Bool) (h : Hdr) :
    ((optHdrs c h).map (fun h => h.data.length)).sum = if c then h.data.length else 0 := by
  cases c <;> simp [optHdrs]

/-- The two 32-bit GRE options and the checksum/offset word are four bytes each. -/
theorem gre_chksum_offset_len (x y : U16) : (Packet.gre_chksum_offset x y).data.length = 4 := by
  simp [Packet.gre_chksum_offset, HeaderDef.ofVec]
theorem gre_key_len (z : U32) : (Packet.gre_key z).data.length = 4 := by
  simp [Packet.gre_key, HeaderDef.ofVec]
theorem gre_seq_len (z : U32) : (Packet.gre_sequence_number z).data.length = 4 := by
  simp [Packet.gre_sequence_number, HeaderDef.ofVec]

section
variable {chk : Bool} {p6 : Ipv6FromStr} {eth_dst eth_src : Str} {ve : Bool} {vid : U16} {pcp : Byte}
  {ihl : Byte} {src dst : Str} {tos ttl : Byte} {id frag : U16} {opts : Bytes} {tc : Byte} {flow : U32} {hl : Byte}
  {payload : Bytes} {p : Packet}

/-! ## C42 -/

/-- **C42** for `create_ipv4_packet`. -/
theorem C42_ipv4 {proto : Byte}
    (h : create_ipv4_packet chk eth_dst eth_src ve vid pcp ihl src dst proto tos ttl id frag opts payload = .ok p) :
    TotalLenOk p.hdrs p.payload := by
  obtain ⟨d, s, a, -, -, ha, -, rfl⟩ := ipv4_shape _ _ _ _ _ _ _ _ _ _ _ _ _ _ _ h
  exact totalLen_of _ _ _ _ _ _ a ha _ _ _ _ (by simp [onWire])

example : Sample.ipv4 = .ok (Sample.get Sample.ipv4) ∧
    (Sample.get Sample.ipv4).hdrs[2]?.map (·.get true IPv4.total_len) = some (.ok 25) := by decide +kernel

/-- **C42** for `create_tcp_packet`. -/
theorem C42_tcp {tdst tsrc : U16} {seq ack : U32} {off res flags : Byte} {window urg : U16} {ck : Bool}
    (h : create_tcp_packet chk eth_dst eth_src ve vid pcp ihl src dst tos ttl id frag opts tdst tsrc seq ack off res
      flags window urg ck payload = .ok p) : TotalLenOk p.hdrs p.payload := by
  obtain ⟨d, s, a, -, -, ha, -, rfl⟩ := tcp_shape (h := h)
  exact totalLen_of _ _ _ _ _ _ a ha _ _ _ _ (by simp [onWire_length, tcp_len]; omega)

example : Sample.tcp = .ok (Sample.get Sample.tcp) ∧
    (Sample.get Sample.tcp).hdrs[2]?.map (·.get true IPv4.total_len) = some (.ok 45) := by decide +kernel

/-- **C42** for `create_udp_packet`. -/
theorem C42_udp {udst usrc : U16} {ck : Bool}
    (h : create_udp_packet chk eth_dst eth_src ve vid pcp ihl src dst tos ttl id frag opts udst usrc ck payload
      = .ok p) : TotalLenOk p.hdrs p.payload ∧ UdpLenOk p.hdrs p.payload := by
  obtain ⟨d, s, a, -, -, ha, -, rfl⟩ := udp_shape (h := h)
  refine ⟨totalLen_of _ _ _ _ _ _ a ha _ _ _ _ (by simp [onWire_length, Packet.udp, HeaderDef.ofVec]; omega), ?_⟩
  have := udpLen_of (l2Hdrs d s ve vid pcp 0x0800#16 ++ [a.hdr (BitVec.ofNat 16 (20 + payload.length + 8))])
    (l2ip_ty _ _ _ _ _ _ _ (show IPv4 ≠ UDP by decide)) usrc udst 0#16 (8 + payload.length) [] payload (by simp [onWire])
  rw [List.append_assoc] at this
  exact this

example : Sample.udp = .ok (Sample.get Sample.udp) ∧
    (Sample.get Sample.udp).hdrs[2]?.map (·.get true IPv4.total_len) = some (.ok 33) := by decide +kernel

/-- **C42** for `create_icmp_packet`. -/
theorem C42_icmp {ty code : Byte} {idata : Bytes} {ck : Bool}
    (h : create_icmp_packet chk eth_dst eth_src ve vid pcp ihl src dst tos ttl id frag opts ty code idata ck payload
      = .ok p) : TotalLenOk p.hdrs p.payload := by
  obtain ⟨d, s, a, -, -, ha, -, rfl⟩ := icmp_shape (h := h)
  exact totalLen_of _ _ _ _ _ _ a ha _ _ _ _ (by simp [onWire_length, Packet.icmp, HeaderDef.ofVec]; omega)

example : Sample.icmp = .ok (Sample.get Sample.icmp) ∧
    (Sample.get Sample.icmp).hdrs[1]?.map (·.get true IPv4.total_len) = some (.ok 29) := by decide +kernel

/-- **C42** for `create_vxlan_packet`. -/
theorem C42_vxlan {udst usrc : U16} {ck : Bool} {vni : U32} {inner : Packet}
    (h : create_vxlan_packet chk eth_dst eth_src ve vid pcp ihl src dst tos ttl id frag opts udst usrc ck vni inner
      = .ok p) : TotalLenOk p.hdrs p.payload ∧ UdpLenOk p.hdrs p.payload := by
  obtain ⟨d, s, a, -, -, ha, -, rfl⟩ := vxlan_shape (h := h)
  refine ⟨totalLen_of _ _ _ _ _ _ a ha _ _ _ _
    (by simp [onWire_length, Packet.udp, Packet.vxlan, HeaderDef.ofVec]; omega), ?_⟩
  have := udpLen_of (l2Hdrs d s ve vid pcp 0x0800#16 ++ [⟨IPv4, a.raw (BitVec.ofNat 16 (20 + inner.to_vec.length + 16))
      (a.ck (BitVec.ofNat 16 (20 + inner.to_vec.length)))⟩])
    (l2ip_ty _ _ _ _ _ _ _ (show IPv4 ≠ UDP by decide)) usrc udst 0#16 (16 + inner.to_vec.length) [Packet.vxlan vni] inner.to_vec
    (by simp [onWire, Packet.vxlan, HeaderDef.ofVec]; omega)
  rw [List.append_assoc] at this
  exact this

example : Sample.vxlan = .ok (Sample.get Sample.vxlan) ∧
    (Sample.get Sample.vxlan).hdrs[2]?.map (·.get true IPv4.total_len) = some (.ok 87) := by decide +kernel

/-- **C42** for `create_ipv4ip_packet`. -/
theorem C42_ipv4ip {inner : Packet}
    (h : create_ipv4ip_packet chk eth_dst eth_src ve vid pcp ihl src dst tos ttl id frag opts inner = .ok p) :
    TotalLenOk p.hdrs p.payload := by
  obtain ⟨d, s, a, -, -, ha, -, rfl⟩ := ipv4ip_shape (h := h)
  exact totalLen_of _ _ _ _ _ _ a ha _ _ _ _ (by simp [onWire])

example : Sample.ipv4ip = .ok (Sample.get Sample.ipv4ip) ∧
    (Sample.get Sample.ipv4ip).hdrs[2]?.map (·.get true IPv4.total_len) = some (.ok 65) := by decide +kernel

/-- **C42** for `create_gre_packet` without routing. -/
theorem C42_gre {c k q st : Bool} {flags ver : Byte} {gck goff : U16} {key seq : U32} {routing : Bytes}
    {inner : Option Packet}
    (h : create_gre_packet chk eth_dst eth_src ve vid pcp ihl src dst tos ttl id frag opts c false k q st flags ver gck
      goff key seq routing inner = .ok p) : TotalLenOk p.hdrs p.payload := by
  obtain ⟨d, s, a, -, -, ha, -, rfl⟩ := gre_shape (h := h)
  refine totalLen_of _ _ _ _ _ _ a ha _ _ _ _ ?_
  rw [onWire_length]
  simp only [List.map_append, List.sum_append, optHdrs_len, gre_chksum_offset_len, gre_key_len,
    gre_seq_len, List.append_eq, List.map_cons, List.sum_cons, greLen, Packet.gre, HeaderDef.ofVec]
  cases c <;> cases k <;> cases q <;> simp <;> omega

example : Sample.gre = .ok (Sample.get Sample.gre) ∧
    (Sample.get Sample.gre).hdrs[2]?.map (·.get true IPv4.total_len) = some (.ok 53) := by decide +kernel

/-- **C42** for `create_ipv6_packet`. -/
theorem C42_ipv6 {nh : Byte}
    (h : create_ipv6_packet p6 eth_dst eth_src ve vid pcp tc flow nh hl src dst payload = .ok p) :
    PayloadLenOk p.hdrs p.payload := by
  obtain ⟨d, s, -, -, rfl⟩ := ipv6_shape (h := h)
  exact payloadLen_of _ _ _ _ _ _ _ _ _ _ _ _ _ _ _ _ (by simp [onWire])

example : Sample.ipv6 = .ok (Sample.get Sample.ipv6) ∧
    (Sample.get Sample.ipv6).hdrs[1]?.map (·.get true IPv6.payload_len) = some (.ok 5) := by decide +kernel

/-- **C42** for `create_ipv6ip_packet`. -/
theorem C42_ipv6ip {inner : Packet}
    (h : create_ipv6ip_packet p6 eth_dst eth_src ve vid pcp tc flow hl src dst inner = .ok p) :
    PayloadLenOk p.hdrs p.payload := by
  obtain ⟨d, s, -, -, rfl⟩ := ipv6ip_shape (h := h)
  exact payloadLen_of _ _ _ _ _ _ _ _ _ _ _ _ _ _ _ _ (by simp [onWire])

example : Sample.ipv6ip = .ok (Sample.get Sample.ipv6ip) ∧
    (Sample.get Sample.ipv6ip).hdrs[2]?.map (·.get true IPv6.payload_len) = some (.ok 25) := by decide +kernel

/-- **C42** for `create_tcpv6_packet`. -/
theorem C42_tcpv6 {tdst tsrc : U16} {seq ack : U32} {off res flags : Byte} {window urg : U16}
    (h : create_tcpv6_packet chk p6 eth_dst eth_src ve vid pcp tc flow hl src dst tdst tsrc seq ack off res flags window
      urg payload = .ok p) : PayloadLenOk p.hdrs p.payload := by
  obtain ⟨d, s, -, -, rfl⟩ := tcpv6_shape (h := h)
  exact payloadLen_of _ _ _ _ _ _ _ _ _ _ _ _ _ _ _ _ (by simp [onWire_length, tcp_len]; omega)

example : Sample.tcpv6 = .ok (Sample.get Sample.tcpv6) ∧
    (Sample.get Sample.tcpv6).hdrs[2]?.map (·.get true IPv6.payload_len) = some (.ok 25) := by decide +kernel

/-- **C42** for `create_udpv6_packet`. -/
theorem C42_udpv6 {udst usrc : U16} {ck : Bool}
    (h : create_udpv6_packet chk p6 eth_dst eth_src ve vid pcp tc flow hl src dst udst usrc ck payload = .ok p) :
    PayloadLenOk p.hdrs p.payload ∧ UdpLenOk p.hdrs p.payload := by
  obtain ⟨d, s, -, -, rfl⟩ := udpv6_shape (h := h)
  refine ⟨payloadLen_of _ _ _ _ _ _ _ _ _ _ _ _ _ _ _ _ (by simp [onWire_length]; omega), ?_⟩
  have := udpLen_of (l2Hdrs d s ve vid pcp 0x86DD#16 ++
      [Packet.ipv6 p6 tc flow 17#8 hl src dst (BitVec.ofNat 16 (payload.length + 8))])
    (l2ip_ty _ _ _ _ _ _ _ (show IPv6 ≠ UDP by decide)) usrc udst 0xffff#16 (8 + payload.length) [] payload (by simp [onWire])
  rw [List.append_assoc] at this
  exact this

example : Sample.udpv6 = .ok (Sample.get Sample.udpv6) ∧
    (Sample.get Sample.udpv6).hdrs[2]?.map (·.get true IPv6.payload_len) = some (.ok 13) := by decide +kernel

/-- **C42** for `create_icmpv6_packet`. -/
theorem C42_icmpv6 {ty code : Byte} {idata : Bytes} {ck : Bool}
    (h : create_icmpv6_packet chk p6 eth_dst eth_src ve vid pcp tc flow hl src dst ty code idata ck payload = .ok p) :
    PayloadLenOk p.hdrs p.payload := by
  obtain ⟨d, s, -, -, rfl⟩ := icmpv6_shape (h := h)
  exact payloadLen_of _ _ _ _ _ _ _ _ _ _ _ _ _ _ _ _ (by simp [onWire_length, Packet.icmp, HeaderDef.ofVec]; omega)

example : Sample.icmpv6 = .ok (Sample.get Sample.icmpv6) ∧
    (Sample.get Sample.icmpv6).hdrs[1]?.map (·.get true IPv6.payload_len) = some (.ok 9) := by decide +kernel

/-! ## C46 -/

theorem Ip4.totalLen (a : Ip4) (ha : a.Ok) (d s : Bytes) (ve : Bool) (vid : U16) (pcp : Byte) (et : U16) (n : Nat)
    (c : U16) (post : List Hdr) (pl : Bytes) :
    TotalLenIs (l2Hdrs d s ve vid pcp et ++ ⟨IPv4, a.raw (BitVec.ofNat 16 n) c⟩ :: post) (n % 65536) ∧
      BytesFromIpv4 (l2Hdrs d s ve vid pcp et ++ ⟨IPv4, a.raw (BitVec.ofNat 16 n) c⟩ :: post) pl
        (20 + (onWire post pl).length) := by
  refine ⟨⟨_, _, _, firstIpv4 _ _ _ _ _ _ _ _, a.reads_len ha n c⟩, ⟨_, _, _, firstIpv4 _ _ _ _ _ _ _ _, ?_⟩⟩
  simp only [onWire_length, List.map_cons, List.sum_cons, a.raw_length ha]
  omega

/-- A total length is right iff it is the number of bytes modulo 2^16. -/
theorem TotalLenOk_iff {hs : List Hdr} {pl : Bytes} {n m : Nat} (h1 : TotalLenIs hs n) (h2 : BytesFromIpv4 hs pl m) :
    TotalLenOk hs pl ↔ n = m % 65536 := by
  obtain ⟨_, _, _, f1, r1⟩ := h1
  obtain ⟨_, _, _, f2, r2⟩ := h2
  obtain ⟨rfl, rfl, rfl⟩ := f1.unique f2
  constructor
  · rintro ⟨_, _, _, f3, r3⟩
    obtain ⟨rfl, rfl, rfl⟩ := f1.unique f3
    obtain ⟨v, e1, e2⟩ := r1 true
    obtain ⟨w, e3, e4⟩ := r3 true
    rw [e1] at e3
    cases e3
    rw [← e2, e4, r2]
  · rintro rfl
    exact ⟨_, _, _, f1, by rw [r2]; exact r1⟩

/-- **C46** for ERSPAN II: with `n` tunnel bytes (GRE, optional sequence number, ERSPAN) and `m` inner bytes the packet has
`20 + n + m` bytes from the IPv4 header on, but the total length is `m'` larger, where `m'` is the inner packet's
`len()`. -/
theorem C46_erspan2 {seq : U32} {vlan : U16} {cos en t : Byte} {sid : U16} {idx : U32} {inner : Option Packet}
    (h : create_erspan_2_packet chk eth_dst eth_src ve vid pcp ihl src dst tos ttl id frag opts seq vlan cos en t sid idx
      inner = .ok p) :
    BytesFromIpv4 p.hdrs p.payload (20 + erspan2Len seq + (innerBytes inner).length) ∧
      TotalLenIs p.hdrs ((20 + erspan2Len seq + (innerBytes inner).length + innerLen inner) % 65536) := by
  obtain ⟨d, s, a, -, -, ha, -, rfl⟩ := erspan2_shape (h := h)
  have := a.totalLen ha d s ve vid pcp 0x0800#16 (20 + (innerBytes inner).length + (erspan2Len seq + innerLen inner))
    (a.ck (BitVec.ofNat 16 (20 + (innerBytes inner).length + (erspan2Len seq + innerLen inner))))
    (⟨GRE, [if seq ≠ 0#32 then 0x10#8 else 0#8, 0#8, 0x88#8, 0xbe#8]⟩ ::
      (optHdrs (seq ≠ 0#32) (Packet.gre_sequence_number seq) ++ [Packet.erspan2 vlan cos en t sid idx]))
    (innerBytes inner)
  obtain ⟨h1, h2⟩ := this
  have e1 : 20 + (innerBytes inner).length + (erspan2Len seq + innerLen inner) =
    20 + erspan2Len seq + (innerBytes inner).length + innerLen inner := by omega
  have e2 : (onWire (⟨GRE, [if seq ≠ 0#32 then 0x10#8 else 0#8, 0#8, 0x88#8, 0xbe#8]⟩ ::
      (optHdrs (seq ≠ 0#32) (Packet.gre_sequence_number seq) ++ [Packet.erspan2 vlan cos en t sid idx]))
      (innerBytes inner)).length = erspan2Len seq + (innerBytes inner).length := by
    rw [onWire_length]
    simp only [List.map_cons, List.sum_cons, List.map_append, List.sum_append, optHdrs_len, gre_seq_len]
    simp [Packet.erspan2, HeaderDef.ofVec, erspan2Len]
    by_cases h : seq = 0#32 <;> simp [h]
  have e3 : 20 + (erspan2Len seq + (innerBytes inner).length) = 20 + erspan2Len seq + (innerBytes inner).length := by
    omega
  rw [e2, e3] at h2
  exact ⟨h2, by rw [← e1]; exact h1⟩

example : Sample.erspan2 = .ok (Sample.get Sample.erspan2) ∧
    (Sample.get Sample.erspan2).hdrs[2]?.map (·.get true IPv4.total_len) = some (.ok 138) := by decide +kernel
example : (Sample.get Sample.erspan2).to_vec.length - 18 = 87 := by decide +kernel

/-- **C46**: so the total length of an ERSPAN II packet is right iff the inner `len()` is a multiple of 65536. -/
theorem C46_erspan2_right_iff {seq : U32} {vlan : U16} {cos en t : Byte} {sid : U16} {idx : U32}
    {inner : Option Packet}
    (h : create_erspan_2_packet chk eth_dst eth_src ve vid pcp ihl src dst tos ttl id frag opts seq vlan cos en t sid idx
      inner = .ok p) : TotalLenOk p.hdrs p.payload ↔ innerLen inner % 65536 = 0 := by
  obtain ⟨h1, h2⟩ := C46_erspan2 h
  rw [TotalLenOk_iff h2 h1]
  omega

example : Sample.innerFrame.len = 51 := by decide +kernel

/-- The bytes of a header list. -/
def hdrBytes (hs : List Hdr) : Bytes := onWire hs []

theorem erspan3_wire (seq : U32) (b : Byte) (vlan : U16) (cos en t : Byte) (sid : U16) (ts : U32) (sgt ft : U16)
    (pid : Byte) (info : U64) (hs : List Hdr) (pl : Bytes) :
    (onWire (⟨GRE, [b, 0#8, 0x22#8, 0xeb#8]⟩ :: (optHdrs (seq ≠ 0#32) (Packet.gre_sequence_number seq) ++
        (Packet.erspan3 vlan cos en t sid ts sgt ft :: (optHdrs (ft.toNat % 2 = 1) (platform pid info) ++ hs)))) pl).length
      = erspan3Len seq ft + (hdrBytes hs).length + pl.length := by
  unfold hdrBytes
  rw [onWire_length, onWire_length]
  simp only [List.map_cons, List.sum_cons, List.map_append, List.sum_append, optHdrs_len, gre_seq_len]
  simp [Packet.erspan3, HeaderDef.ofVec, erspan3Len, platform]
  by_cases h : seq = 0#32 <;> by_cases h2 : ft.toNat % 2 = 1 <;> simp [h, h2] <;> omega

/-- **C46**, **C47** for ERSPAN III: the inner headers are emitted in addition to the whole inner packet, and the total
length counts the inner packet twice. -/
theorem C46_erspan3 {seq : U32} {vlan : U16} {cos en t : Byte} {sid : U16} {ts : U32} {sgt ft : U16} {pid : Byte}
    {info : U64} {inner : Option Packet}
    (h : create_erspan_3_packet chk eth_dst eth_src ve vid pcp ihl src dst tos ttl id frag opts seq vlan cos en t sid ts
      sgt ft pid info inner = .ok p) :
    BytesFromIpv4 p.hdrs p.payload
        (20 + erspan3Len seq ft + (hdrBytes (innerHdrs inner)).length + (innerBytes inner).length) ∧
      TotalLenIs p.hdrs ((20 + erspan3Len seq ft + (innerBytes inner).length + innerLen inner) % 65536) := by
  obtain ⟨d, s, a, -, -, ha, -, rfl⟩ := erspan3_shape (h := h)
  obtain ⟨h1, h2⟩ := a.totalLen ha d s ve vid pcp 0x0800#16
    (20 + (innerBytes inner).length + (erspan3Len seq ft + innerLen inner))
    (a.ck (BitVec.ofNat 16 (20 + (innerBytes inner).length + (erspan3Len seq ft + innerLen inner))))
    (⟨GRE, [if seq.toNat % 2 = 1 then 0x10#8 else 0#8, 0#8, 0x22#8, 0xeb#8]⟩ ::
      (optHdrs (seq ≠ 0#32) (Packet.gre_sequence_number seq) ++
        (Packet.erspan3 vlan cos en t sid ts sgt ft :: (optHdrs (ft.toNat % 2 = 1) (platform pid info) ++
          innerHdrs inner)))) (innerBytes inner)
  rw [erspan3_wire] at h2
  have e1 : 20 + (innerBytes inner).length + (erspan3Len seq ft + innerLen inner) =
    20 + erspan3Len seq ft + (innerBytes inner).length + innerLen inner := by omega
  have e2 : 20 + (erspan3Len seq ft + (hdrBytes (innerHdrs inner)).length + (innerBytes inner).length) =
    20 + erspan3Len seq ft + (hdrBytes (innerHdrs inner)).length + (innerBytes inner).length := by omega
  rw [e2] at h2
  refine ⟨h2, by rw [← e1]; exact h1⟩

example : Sample.erspan3 = .ok (Sample.get Sample.erspan3) ∧
    (Sample.get Sample.erspan3).hdrs[2]?.map (·.get true IPv4.total_len) = some (.ok 150) := by decide +kernel
example : (Sample.get Sample.erspan3).to_vec.length - 18 = 145 := by decide +kernel

/-! ## C47 -/

theorem hdrBytes_append (a b : List Hdr) : hdrBytes (a ++ b) = hdrBytes a ++ hdrBytes b := by simp [hdrBytes, onWire]

theorem to_vec_onWire (p : Packet) : p.to_vec = onWire p.hdrs p.payload := C10_to_vec p

/-- **C47** for `create_vxlanv6_packet`: after the outer headers `outer` (up to and including VXLAN) come the inner
headers, then the whole inner packet; the payload length does not count the first copy. -/
theorem C47_vxlanv6 {udst usrc : U16} {ck : Bool} {vni : U32} {inner : Packet}
    (h : create_vxlanv6_packet chk p6 eth_dst eth_src ve vid pcp tc flow hl src dst udst usrc ck vni inner = .ok p) :
    ∃ outer, outer.getLast? = some (Packet.vxlan vni) ∧ p.hdrs = outer ++ inner.hdrs ∧
      p.to_vec = hdrBytes outer ++ hdrBytes inner.hdrs ++ inner.to_vec ∧
      p.to_vec = hdrBytes outer ++ hdrBytes inner.hdrs ++ hdrBytes inner.hdrs ++ inner.payload ∧
      BytesAfterIpv6 p.hdrs p.payload (16 + (hdrBytes inner.hdrs).length + inner.to_vec.length) ∧
      PayloadLenIs p.hdrs ((16 + inner.to_vec.length) % 65536) := by
  obtain ⟨d, s, -, -, rfl⟩ := vxlanv6_shape (h := h)
  refine ⟨l2Hdrs d s ve vid pcp 0x86DD#16 ++
      [Packet.ipv6 p6 tc flow 17#8 hl src dst (BitVec.ofNat 16 (inner.to_vec.length + 16)),
        ⟨UDP, be16 usrc ++ be16 udst ++ be16 (BitVec.ofNat 16 (16 + inner.to_vec.length)) ++ be16 0xffff#16⟩,
        Packet.vxlan vni], by simp, by simp, ?_, ?_, ?_, ?_⟩
  · rw [to_vec_onWire]
    simp [hdrBytes, onWire]
  · rw [to_vec_onWire]
    simp [hdrBytes, onWire, C10_to_vec]
  · simp only [List.cons_append]
    refine ⟨_, _, _, firstIpv6 _ _ _ _ _ _ _ _ _ _ _ _ _ _ _, ?_⟩
    unfold hdrBytes
    rw [onWire_length, onWire_length]
    simp [Packet.vxlan, HeaderDef.ofVec]
    omega
  · simp only [List.cons_append]
    refine ⟨_, _, _, firstIpv6 _ _ _ _ _ _ _ _ _ _ _ _ _ _ _, ?_⟩
    have := (C35_ipv6 p6 tc flow 17#8 hl src dst (BitVec.ofNat 16 (inner.to_vec.length + 16))).2.2.2.2.2.1
    rw [BitVec.toNat_ofNat] at this
    rw [Nat.add_comm 16]
    exact this

example : Sample.vxlanv6 = .ok (Sample.get Sample.vxlanv6) ∧
    (Sample.get Sample.vxlanv6).hdrs[2]?.map (·.get true IPv6.payload_len) = some (.ok 67) := by decide +kernel
example : (Sample.get Sample.vxlanv6).to_vec.length - 58 = 113 := by decide +kernel

/-- **C47** for `create_erspan_3_packet`: after the outer headers (whose last one is ERSPAN III or its platform
subheader) come the inner headers, then the whole inner packet. -/
theorem C47_erspan3 {seq : U32} {vlan : U16} {cos en t : Byte} {sid : U16} {ts : U32} {sgt ft : U16} {pid : Byte}
    {info : U64} {inner : Packet}
    (h : create_erspan_3_packet chk eth_dst eth_src ve vid pcp ihl src dst tos ttl id frag opts seq vlan cos en t sid ts
      sgt ft pid info (some inner) = .ok p) :
    ∃ outer, (∃ x, outer.getLast? = some x ∧ (x.ty = ERSPAN3 ∨ x.ty = ERSPANPLATFORM)) ∧
      p.hdrs = outer ++ inner.hdrs ∧
      p.to_vec = hdrBytes outer ++ hdrBytes inner.hdrs ++ inner.to_vec ∧
      p.to_vec = hdrBytes outer ++ hdrBytes inner.hdrs ++ hdrBytes inner.hdrs ++ inner.payload := by
  obtain ⟨d, s, a, -, -, ha, -, rfl⟩ := erspan3_shape (h := h)
  refine ⟨l2Hdrs d s ve vid pcp 0x0800#16 ++
      ([a.hdr (BitVec.ofNat 16 (20 + (innerBytes (some inner)).length + (erspan3Len seq ft + innerLen (some inner)))),
        ⟨GRE, [if seq.toNat % 2 = 1 then 0x10#8 else 0#8, 0#8, 0x22#8, 0xeb#8]⟩] ++
      (optHdrs (seq ≠ 0#32) (Packet.gre_sequence_number seq) ++
        (Packet.erspan3 vlan cos en t sid ts sgt ft :: optHdrs (ft.toNat % 2 = 1) (platform pid info)))),
    ?_, by simp [innerHdrs], ?_, ?_⟩
  · by_cases h2 : ft.toNat % 2 = 1
    · exact ⟨platform pid info, by by_cases h3 : seq = 0#32 <;> simp [h2, h3, optHdrs], .inr rfl⟩
    · exact ⟨Packet.erspan3 vlan cos en t sid ts sgt ft, by by_cases h3 : seq = 0#32 <;> simp [h2, h3, optHdrs],
        .inl rfl⟩
  · rw [to_vec_onWire]
    simp [hdrBytes, onWire, innerHdrs, innerBytes]
  · rw [to_vec_onWire]
    simp [hdrBytes, onWire, innerHdrs, innerBytes, C10_to_vec]

example : (Sample.get Sample.erspan3).hdrs.map (·.name) = ["Ether", "Vlan", "IPv4", "GRE", "GRESequenceNum", "ERSPAN3",
    "ERSPANPLATFORM", "Ether", "Vlan", "ARP"] ∧ (Sample.get Sample.erspan3).payload = Sample.innerFrame.to_vec := by
  decide +kernel

/-! ## C49 -/

/-- **C49**: with routing announced, the total length exceeds the bytes emitted by the length of the routing data. -/
theorem C49_gre_routing {c k q st : Bool} {flags ver : Byte} {gck goff : U16} {key seq : U32} {routing : Bytes}
    {inner : Option Packet}
    (h : create_gre_packet chk eth_dst eth_src ve vid pcp ihl src dst tos ttl id frag opts c true k q st flags ver gck
      goff key seq routing inner = .ok p) :
    ∃ n, BytesFromIpv4 p.hdrs p.payload n ∧ n = 20 + greLen c false k q [] + (innerBytes inner).length ∧
      TotalLenIs p.hdrs ((n + routing.length) % 65536) := by
  obtain ⟨d, s, a, -, -, ha, -, rfl⟩ := gre_shape (h := h)
  obtain ⟨h1, h2⟩ := a.totalLen ha d s ve vid pcp 0x0800#16
    (20 + (innerBytes inner).length + greLen c true k q routing)
    (a.ck (BitVec.ofNat 16 (20 + (innerBytes inner).length + greLen c true k q routing)))
    (Packet.gre c true k q st flags ver (greProto (innerBytes inner)) ::
      (optHdrs c (Packet.gre_chksum_offset gck goff) ++ (optHdrs k (Packet.gre_key key) ++
        optHdrs q (Packet.gre_sequence_number seq)))) (innerBytes inner)
  refine ⟨_, h2, ?_, ?_⟩
  · rw [onWire_length]
    simp only [List.map_append, List.sum_append, optHdrs_len, gre_chksum_offset_len, gre_key_len,
      gre_seq_len, List.map_cons, List.sum_cons, greLen,
      Packet.gre, HeaderDef.ofVec]
    cases c <;> cases k <;> cases q <;> simp <;> omega
  · have e : 20 + (innerBytes inner).length + greLen c true k q routing =
        20 + (onWire (Packet.gre c true k q st flags ver (greProto (innerBytes inner)) ::
          (optHdrs c (Packet.gre_chksum_offset gck goff) ++ (optHdrs k (Packet.gre_key key) ++
            optHdrs q (Packet.gre_sequence_number seq)))) (innerBytes inner)).length + routing.length := by
      rw [onWire_length]
      simp only [List.map_append, List.sum_append, optHdrs_len, gre_chksum_offset_len, gre_key_len,
      gre_seq_len, List.map_cons, List.sum_cons, greLen,
        Packet.gre, HeaderDef.ofVec]
      cases c <;> cases k <;> cases q <;> simp <;> omega
    rw [← e]
    exact h1

example : Sample.greWith false true true true = .ok (Sample.get (Sample.greWith false true true true)) ∧
    (Sample.get (Sample.greWith false true true true)).hdrs[2]?.map (·.get true IPv4.total_len) = some (.ok 60) ∧
    (Sample.get (Sample.greWith false true true true)).to_vec.length - 18 = 57 := by decide +kernel

/-- **C49**: the total length is right iff the routing length is a multiple of 65536. -/
theorem C49_right_iff {c k q st : Bool} {flags ver : Byte} {gck goff : U16} {key seq : U32} {routing : Bytes}
    {inner : Option Packet}
    (h : create_gre_packet chk eth_dst eth_src ve vid pcp ihl src dst tos ttl id frag opts c true k q st flags ver gck
      goff key seq routing inner = .ok p) : TotalLenOk p.hdrs p.payload ↔ routing.length % 65536 = 0 := by
  obtain ⟨n, h1, -, h2⟩ := C49_gre_routing h
  rw [TotalLenOk_iff h2 h1]
  omega

example : ¬ TotalLenOk (Sample.get (Sample.greWith false true true true)).hdrs
    (Sample.get (Sample.greWith false true true true)).payload := by
  have h : Sample.greWith false true true true = .ok (Sample.get (Sample.greWith false true true true)) := by
    decide +kernel
  conv at h => lhs; rw [Sample.greWith]
  rw [C49_right_iff h]
  decide

/-- **C49**: the content of the routing data never reaches the packet. -/
theorem C49_routing_ignored (c r k q st : Bool) (flags ver : Byte) (gck goff : U16) (key seq : U32)
    (routing routing' : Bytes) (inner : Option Packet) (hl : routing.length = routing'.length) :
    create_gre_packet chk eth_dst eth_src ve vid pcp ihl src dst tos ttl id frag opts c r k q st flags ver gck goff key
      seq routing inner =
    create_gre_packet chk eth_dst eth_src ve vid pcp ihl src dst tos ttl id frag opts c r k q st flags ver gck goff key
      seq routing' inner := by
  unfold create_gre_packet
  rw [hl]

example : (create_gre_packet true Sample.mac1 Sample.mac2 true 10 3 5 Sample.ip1 Sample.ip2 1 64 0x1234 0 [] false true
      true true false 0 0 0xaaaa 0xbbbb 0xc0ffee 0x7 [9, 9, 9] (some Sample.innerIp)) =
    Sample.greWith false true true true := C49_routing_ignored _ _ _ _ _ _ _ _ _ _ _ _ _ _ rfl

end
end PacketRs
