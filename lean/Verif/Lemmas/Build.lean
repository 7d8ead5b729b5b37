import Verif.Utils
import Verif.Props.Constructors
/-!
# What the packet builders return, byte for byte
-/
namespace PacketRs
open Spec

/-! ## Layer 2 -/

/-- Ethernet header, followed by a VLAN tag when `ve`. -/
def l2Hdrs (d s : Bytes) (ve : Bool) (vid : U16) (pcp : Byte) (et : U16) : List Hdr :=
  if ve then [⟨Ether, d ++ s ++ be16 0x8100#16⟩, ⟨Vlan, be16 (vid ||| (pcp.setWidth 16 <<< 13)) ++ be16 et⟩]
  else [⟨Ether, d ++ s ++ be16 et⟩]

theorem eth_eq (eth_dst eth_src : Str) (ve : Bool) (vid : U16) (pcp : Byte) (et : U16) (payload : Bytes)
    (d s : Bytes) (hd : to_mac_bytes eth_dst = .ok d) (hs : to_mac_bytes eth_src = .ok s) :
    Utils.create_eth_packet eth_dst eth_src ve vid pcp et payload = .ok ⟨l2Hdrs d s ve vid pcp et, payload⟩ := by
  unfold Utils.create_eth_packet Packet.ethernet
  rw [hd, hs, vlan_eq]
  cases ve <;> rfl

theorem eth_inv (eth_dst eth_src : Str) (ve : Bool) (vid : U16) (pcp : Byte) (et : U16) (payload : Bytes)
    (p : Packet) (h : Utils.create_eth_packet eth_dst eth_src ve vid pcp et payload = .ok p) :
    ∃ d s, to_mac_bytes eth_dst = .ok d ∧ to_mac_bytes eth_src = .ok s := by
  unfold Utils.create_eth_packet Packet.ethernet at h
  cases hd : to_mac_bytes eth_dst with
  | error e => rw [hd] at h; cases ve <;> exact nomatch h
  | ok d =>
    cases hs : to_mac_bytes eth_src with
    | error e => rw [hd, hs] at h; cases ve <;> exact nomatch h
    | ok s => exact ⟨d, s, rfl, rfl⟩

/-- No header of the layer 2 stack has the name `n`. -/
theorem l2_names (d s : Bytes) (ve : Bool) (vid : U16) (pcp : Byte) (et : U16) (n : String)
    (h1 : n ≠ "Ether") (h2 : n ≠ "Vlan") : ∀ h ∈ l2Hdrs d s ve vid pcp et, h.name ≠ n := by
  intro h hm
  unfold l2Hdrs at hm
  cases ve
  · simp only [Bool.false_eq_true, if_false, List.mem_singleton] at hm
    subst hm; exact Ne.symm h1
  · simp only [if_true, List.mem_cons, List.not_mem_nil, or_false] at hm
    rcases hm with rfl | rfl
    · exact Ne.symm h1
    · exact Ne.symm h2

/-! ## Updating a header in place -/

theorem modifyFirst_eq (name : String) (f : Hdr → R Hdr) (pre post : List Hdr) (h h' : Hdr)
    (hpre : ∀ x ∈ pre, x.name ≠ name) (hn : h.name = name) (hf : f h = .ok h') :
    Packet.modifyFirst name f (pre ++ h :: post) = .ok (pre ++ h' :: post) := by
  induction pre with
  | nil => simp only [List.nil_append, Packet.modifyFirst, hn, if_true, hf]; rfl
  | cons x pre ih =>
    have hx := hpre x (by simp)
    simp only [List.cons_append, Packet.modifyFirst, hx, if_false, ih (fun y hy => hpre y (by simp [hy]))]
    rfl

/-! ## IPv4 -/

/-- The arguments of `Packet::ipv4` with converted addresses. -/
structure Ip4 where
  ihl : Byte
  tos : Byte
  id : U16
  ttl : Byte
  frag : U16
  proto : Byte
  src : Bytes
  dst : Bytes

namespace Ip4

/-- The 20 bytes of the header. -/
def raw (a : Ip4) (len ck : U16) : Bytes := ipv4Raw a.ihl a.tos a.id a.ttl a.frag a.proto a.src a.dst len ck

/-- The checksum the code computes. -/
def ck (a : Ip4) (len : U16) : U16 :=
  BitVec.ofNat 16 (65535 - (plainSum (a.raw len 0) / 65536 + plainSum (a.raw len 0)) % 65536)

/-- The header with the computed checksum. -/
def hdr (a : Ip4) (len : U16) : Hdr := ⟨IPv4, a.raw len (a.ck len)⟩

/-- The same header with another protocol. -/
def withProto (a : Ip4) (pr : Byte) : Ip4 := { a with proto := pr }

/-- Addresses of four bytes. -/
def Ok (a : Ip4) : Prop := a.src.length = 4 ∧ a.dst.length = 4

theorem raw_length (a : Ip4) (ha : a.Ok) (len ck : U16) : (a.raw len ck).length = 20 := by
  simp [raw, ipv4Raw, ha.1, ha.2]

theorem checksum_raw (a : Ip4) (ha : a.Ok) (chk : Bool) (len c : U16) :
    Packet.ipv4_checksum chk (a.raw len c) = .ok (a.ck len) := by
  have h0 := checksum_eq chk (a.raw len 0) (by rw [a.raw_length ha]; omega) (by rw [a.raw_length ha]; omega)
  unfold ck
  rw [← h0]
  apply C40_ignores_checksum_field
  · rw [a.raw_length ha, a.raw_length ha]
  · intro i h1 h2
    simp only [raw, ipv4Raw, be16, List.cons_append, List.nil_append]
    match i with
    | 0 | 1 | 2 | 3 | 4 | 5 | 6 | 7 | 8 | 9 => rfl
    | 10 => omega
    | 11 => omega
    | _ + 12 => rfl

theorem set_ck (a : Ip4) (ha : a.Ok) (len c c' : U16) :
    Hdr.set ⟨IPv4, a.raw len c⟩ IPv4.header_checksum (c'.setWidth 64) = .ok ⟨IPv4, a.raw len c'⟩ := by
  rw [set_be16 _ _ 10 _ (by rfl) (by rfl) (by change 12 ≤ (a.raw len c).length; rw [a.raw_length ha]; omega)]
  have e : BitVec.setWidth 16 (BitVec.setWidth 64 c') = c' := by
    apply BitVec.eq_of_toNat_eq
    have := c'.isLt
    simp only [BitVec.toNat_setWidth]; omega
  rw [e]
  simp [raw, ipv4Raw, be16]

theorem set_len (a : Ip4) (ha : a.Ok) (len c : U16) (v : U64) :
    Hdr.set ⟨IPv4, a.raw len c⟩ IPv4.total_len v = .ok ⟨IPv4, a.raw (v.setWidth 16) c⟩ := by
  rw [set_be16 _ _ 2 _ (by rfl) (by rfl) (by change 4 ≤ (a.raw len c).length; rw [a.raw_length ha]; omega)]
  simp [raw, ipv4Raw, be16]

theorem get_len (a : Ip4) (ha : a.Ok) (chk : Bool) (len c : U16) :
    Hdr.get chk ⟨IPv4, a.raw len c⟩ IPv4.total_len = .ok (len.setWidth 64) := by
  have h : (Hdr.mk IPv4 (a.raw len c)).Reads IPv4.total_len len.toNat := by
    have h1 := ha.1
    have h2 := ha.2
    unfold raw ipv4Raw
    reads IPv4.total_len
  obtain ⟨v, e, hv⟩ := h chk
  rw [e]
  congr 1
  apply BitVec.eq_of_toNat_eq
  have := len.isLt
  rw [hv, BitVec.toNat_setWidth]; omega

end Ip4

theorem packet_ipv4_eq (chk : Bool) (a : Ip4) (src dst : Str) (hs : to_ipv4_bytes src = .ok a.src)
    (hd : to_ipv4_bytes dst = .ok a.dst) (len : U16) :
    Packet.ipv4 chk a.ihl a.tos a.id a.ttl a.frag a.proto src dst len = .ok (a.hdr len) := by
  have ha : a.Ok := ⟨C32_length _ _ hs, C32_length _ _ hd⟩
  obtain ⟨c, hc, e⟩ := ipv4_eq chk a.ihl a.tos a.id a.ttl a.frag a.proto src dst len a.src a.dst hs hd
  rw [e]
  have h1 := a.checksum_raw ha chk len 0
  have h2 := hc chk
  change Packet.ipv4_checksum chk (a.raw len 0) = _ at h2
  rw [h1] at h2
  injection h2 with h2
  rw [← h2]
  rfl

theorem ipv4pkt_eq (chk : Bool) (eth_dst eth_src : Str) (ve : Bool) (vid : U16) (pcp : Byte) (a : Ip4)
    (src dst : Str) (opts payload : Bytes) (d s : Bytes) (hd : to_mac_bytes eth_dst = .ok d)
    (hs : to_mac_bytes eth_src = .ok s) (his : to_ipv4_bytes src = .ok a.src) (hid : to_ipv4_bytes dst = .ok a.dst) :
    Utils.create_ipv4_packet chk eth_dst eth_src ve vid pcp a.ihl src dst a.proto a.tos a.ttl a.id a.frag opts payload
      = .ok ⟨l2Hdrs d s ve vid pcp 0x0800#16 ++ [a.hdr (BitVec.ofNat 16 (20 + payload.length))], payload⟩ := by
  unfold Utils.create_ipv4_packet
  rw [eth_eq _ _ _ _ _ _ _ d s hd hs]
  simp only [bind, Except.bind, packet_ipv4_eq chk a src dst his hid]
  rfl

theorem packet_ipv4_inv (chk : Bool) (ihl tos : Byte) (id : U16) (ttl : Byte) (frag : U16) (proto : Byte)
    (src dst : Str) (len : U16) (h : Hdr)
    (e : Packet.ipv4 chk ihl tos id ttl frag proto src dst len = .ok h) :
    ∃ s d, to_ipv4_bytes src = .ok s ∧ to_ipv4_bytes dst = .ok d := by
  unfold Packet.ipv4 at e
  cases hs : to_ipv4_bytes src with
  | error x => rw [hs] at e; exact nomatch e
  | ok s =>
    cases hd : to_ipv4_bytes dst with
    | error x => rw [hs, hd] at e; exact nomatch e
    | ok d => exact ⟨s, d, rfl, rfl⟩

theorem ipv4pkt_inv (chk : Bool) (eth_dst eth_src : Str) (ve : Bool) (vid : U16) (pcp ihl : Byte) (src dst : Str)
    (proto tos ttl : Byte) (id frag : U16) (opts payload : Bytes) (p : Packet)
    (h : Utils.create_ipv4_packet chk eth_dst eth_src ve vid pcp ihl src dst proto tos ttl id frag opts payload
      = .ok p) :
    ∃ d s si di, to_mac_bytes eth_dst = .ok d ∧ to_mac_bytes eth_src = .ok s ∧ to_ipv4_bytes src = .ok si ∧
      to_ipv4_bytes dst = .ok di := by
  unfold Utils.create_ipv4_packet at h
  cases he : Utils.create_eth_packet eth_dst eth_src ve vid pcp EtherType.IPV4.toU16 payload with
  | error x => rw [he] at h; exact nomatch h
  | ok q =>
    obtain ⟨d, s, hd, hs⟩ := eth_inv _ _ _ _ _ _ _ _ he
    rw [he] at h
    simp only [bind, Except.bind] at h
    cases hi : Packet.ipv4 chk ihl tos id ttl frag proto src dst (BitVec.ofNat 16 (IPv4.size + payload.length)) with
    | error x => rw [hi] at h; exact nomatch h
    | ok q' =>
      obtain ⟨si, di, h1, h2⟩ := packet_ipv4_inv _ _ _ _ _ _ _ _ _ _ _ hi
      exact ⟨d, s, si, di, hd, hs, h1, h2⟩

theorem withHeaderMut_eq (T : HeaderDef) (pre : List Hdr) (h h' : Hdr) (pl : Bytes) (f : Hdr → R Hdr)
    (hpre : ∀ x ∈ pre, x.name ≠ T.name) (hT : h.ty = T) (hf : f h = .ok h') :
    Packet.withHeaderMut ⟨pre ++ [h], pl⟩ T T.name f = .ok ⟨pre ++ [h'], pl⟩ := by
  unfold Packet.withHeaderMut
  simp only
  rw [modifyFirst_eq T.name _ pre [] h h' hpre (by unfold Hdr.name; rw [hT]) (by rw [if_pos hT, hf])]
  rfl

theorem add16 (len : U16) (n : Nat) :
    (len.setWidth 64 + BitVec.ofNat 64 n : U64).setWidth 16 = len + BitVec.ofNat 16 n := by
  apply BitVec.eq_of_toNat_eq
  have := len.isLt
  simp only [BitVec.toNat_setWidth, BitVec.toNat_add, BitVec.toNat_ofNat]
  omega

theorem growIpv4_eq (chk : Bool) (a : Ip4) (ha : a.Ok) (pre : List Hdr) (hpre : ∀ x ∈ pre, x.name ≠ "IPv4")
    (len : U16) (pl : Bytes) (n : Nat) :
    Utils.growIpv4 chk ⟨pre ++ [a.hdr len], pl⟩ n = .ok ⟨pre ++ [a.hdr (len + BitVec.ofNat 16 n)], pl⟩ := by
  unfold Utils.growIpv4
  apply withHeaderMut_eq IPv4 pre _ _ pl _ hpre rfl
  unfold Ip4.hdr
  rw [a.get_len ha]
  simp only [bind, Except.bind]
  rw [a.set_len ha]
  simp only [Hdr.to_vec]
  rw [a.checksum_raw ha]
  simp only
  rw [a.set_ck ha, add16]

theorem vxlanLen_eq (chk : Bool) (a : Ip4) (ha : a.Ok) (pre : List Hdr) (hpre : ∀ x ∈ pre, x.name ≠ "IPv4")
    (len : U16) (pl : Bytes) (n : Nat) :
    (Packet.withHeaderMut ⟨pre ++ [a.hdr len], pl⟩ IPv4 "IPv4" fun ipv4 => do
      let tl ← ipv4.get chk IPv4.total_len
      ipv4.set IPv4.total_len (tl + BitVec.ofNat 64 n)) =
      .ok ⟨pre ++ [⟨IPv4, a.raw (len + BitVec.ofNat 16 n) (a.ck len)⟩], pl⟩ := by
  apply withHeaderMut_eq IPv4 pre _ _ pl _ hpre rfl
  unfold Ip4.hdr
  rw [a.get_len ha]
  simp only [bind, Except.bind]
  rw [a.set_len ha, add16]

/-! ## IPv6 -/

theorem ipv6_len6 (p6 : Ipv6FromStr) (s : Str) : (to_ipv6_bytes p6 s).length = 16 := by
  unfold to_ipv6_bytes
  cases p6 s <;> simp [IPV6_LEN]

theorem ipv6pkt_eq (p6 : Ipv6FromStr) (eth_dst eth_src : Str) (ve : Bool) (vid : U16) (pcp tc : Byte) (flow : U32)
    (nh hl : Byte) (src dst : Str) (payload : Bytes) (d s : Bytes) (hd : to_mac_bytes eth_dst = .ok d)
    (hs : to_mac_bytes eth_src = .ok s) :
    Utils.create_ipv6_packet p6 eth_dst eth_src ve vid pcp tc flow nh hl src dst payload =
      .ok ⟨l2Hdrs d s ve vid pcp 0x86DD#16 ++
        [Packet.ipv6 p6 tc flow nh hl src dst (BitVec.ofNat 16 payload.length)], payload⟩ := by
  unfold Utils.create_ipv6_packet
  rw [eth_eq _ _ _ _ _ _ _ d s hd hs]
  rfl

theorem ipv6pkt_inv (p6 : Ipv6FromStr) (eth_dst eth_src : Str) (ve : Bool) (vid : U16) (pcp tc : Byte) (flow : U32)
    (nh hl : Byte) (src dst : Str) (payload : Bytes) (p : Packet)
    (h : Utils.create_ipv6_packet p6 eth_dst eth_src ve vid pcp tc flow nh hl src dst payload = .ok p) :
    ∃ d s, to_mac_bytes eth_dst = .ok d ∧ to_mac_bytes eth_src = .ok s := by
  unfold Utils.create_ipv6_packet at h
  cases he : Utils.create_eth_packet eth_dst eth_src ve vid pcp EtherType.IPV6.toU16 payload with
  | error x => rw [he] at h; exact nomatch h
  | ok q => exact eth_inv _ _ _ _ _ _ _ _ he

theorem growIpv6_eq (chk : Bool) (p6 : Ipv6FromStr) (tc : Byte) (flow : U32) (nh hl : Byte) (src dst : Str)
    (pre : List Hdr) (hpre : ∀ x ∈ pre, x.name ≠ "IPv6") (len : U16) (pl : Bytes) (n : Nat) :
    Utils.growIpv6 chk ⟨pre ++ [Packet.ipv6 p6 tc flow nh hl src dst len], pl⟩ n =
      .ok ⟨pre ++ [Packet.ipv6 p6 tc flow nh hl src dst (len + BitVec.ofNat 16 n)], pl⟩ := by
  unfold Utils.growIpv6
  apply withHeaderMut_eq IPv6 pre _ _ pl _ hpre rfl
  obtain ⟨v, e, hv⟩ := (C35_ipv6 p6 tc flow nh hl src dst len).2.2.2.2.2.1 chk
  have : v = len.setWidth 64 := by
    apply BitVec.eq_of_toNat_eq
    have := len.isLt
    rw [hv, BitVec.toNat_setWidth]; omega
  rw [e, this]
  simp only [bind, Except.bind]
  rw [set_be16 _ _ 4 _ (by rfl) (by rfl)
    (by rw [(C35_ipv6 p6 tc flow nh hl src dst len).2.1]; omega), add16]
  simp [Packet.ipv6, HeaderDef.ofVec, be32, be16]

/-- The UDP header of the IPv6 builders: checksum `0xffff`. -/
theorem udp_ffff (src dst len : U16) :
    (Packet.udp src dst len).set UDP.checksum 0xffff#64 =
      .ok ⟨UDP, be16 src ++ be16 dst ++ be16 len ++ be16 0xffff#16⟩ := by
  rw [set_be16 _ _ 6 _ (by rfl) (by rfl) (by simp [Packet.udp, HeaderDef.ofVec])]
  simp [Packet.udp, HeaderDef.ofVec, be16]

end PacketRs
