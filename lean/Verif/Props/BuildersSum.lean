import Verif.Props.BuildersLen
/-!
# Property C43: the header checksum of built packets
-/
namespace PacketRs
open Spec Utils

namespace Ip4

/-- The sum of the words other than total length and checksum. -/
def base (a : Ip4) : Nat := (words (a.raw 0 0)).sum

theorem hi_lo (x : U16) : (x >>> 8).toNat % 256 * 256 + x.toNat % 256 = x.toNat := by
  have := x.isLt
  rw [BitVec.toNat_ushiftRight, Nat.shiftRight_eq_div_pow]
  omega

theorem sum_raw (a : Ip4) (len c : U16) : (words (a.raw len c)).sum = c.toNat + len.toNat + a.base := by
  unfold base raw ipv4Raw
  simp only [be16, List.cons_append, List.nil_append, words, List.sum_cons, BitVec.toNat_setWidth]
  simp only [Nat.reducePow, hi_lo]
  generalize (words (a.src ++ a.dst)).sum = z
  have h3 : (0 : U16).toNat = 0 := rfl
  rw [h3]
  ac_nf

theorem raw_putChecksum (a : Ip4) (len c : U16) : putChecksum (a.raw len c) 0 = a.raw len 0 := by
  simp [putChecksum, raw, ipv4Raw, be16]

theorem plainSum_raw (a : Ip4) (len c : U16) : plainSum (a.raw len c) = len.toNat + a.base := by
  unfold plainSum
  rw [raw_putChecksum, sum_raw]
  simp

theorem base_lt (a : Ip4) (ha : a.Ok) : a.base ≤ 655350 := by
  have : a.base = sum0 (a.raw 0 0) 10 := by
    have h := plainSum_eq (a.raw 0 0)
    rw [plainSum_raw, a.raw_length ha] at h
    simpa using h
  have h2 := sum0_le (a.raw 0 0) 9
  have h3 := word0_lt (a.raw 0 0) 9
  rw [this, sum0_succ]
  omega

theorem ck_toNat (a : Ip4) (len : U16) : (a.ck len).toNat =
    65535 - ((len.toNat + a.base) / 65536 + (len.toNat + a.base)) % 65536 := by
  unfold ck
  rw [plainSum_raw, BitVec.toNat_ofNat]
  omega

theorem reads_ck (a : Ip4) (ha : a.Ok) (len c : U16) :
    (Hdr.mk IPv4 (a.raw len c)).Reads IPv4.header_checksum c.toNat := by
  have h1 := ha.1
  have h2 := ha.2
  unfold raw ipv4Raw
  reads IPv4.header_checksum

/-- The header of a builder verifies iff folding its sum once does not carry. -/
theorem verifies_hdr (a : Ip4) (ha : a.Ok) (len : U16) :
    Verifies (a.raw len (a.ck len)) ↔
      plainSum (a.raw len (a.ck len)) / 65536 + plainSum (a.raw len (a.ck len)) % 65536 < 65536 := by
  rw [verifies_iff, sum_raw, plainSum_raw, ck_toNat]
  have h := a.base_lt ha
  have := len.isLt
  obtain ⟨f1, f2⟩ := fold_once (len.toNat + a.base) (by omega)
  constructor
  · intro ⟨_, h2⟩
    apply Nat.lt_of_not_le
    intro hc
    obtain ⟨f3, f4⟩ := f2 hc
    omega
  · intro hc
    have := f1 hc
    omega

/-- Changing only the total length by 16 never keeps the checksum right. -/
theorem stale (a : Ip4) (ha : a.Ok) (n : Nat) :
    a.ck (BitVec.ofNat 16 n) ≠ a.ck (BitVec.ofNat 16 (n + 16)) ∧
      ¬ Verifies (a.raw (BitVec.ofNat 16 (n + 16)) (a.ck (BitVec.ofNat 16 n))) := by
  have h := a.base_lt ha
  rw [ne_eq, ← BitVec.toNat_inj, verifies_iff, sum_raw, ck_toNat, ck_toNat]
  simp only [BitVec.toNat_ofNat, Nat.reducePow]
  have hx : (n + 16) % 65536 = n % 65536 + 16 ∨ (n + 16) % 65536 + 65520 = n % 65536 := by omega
  constructor
  · generalize (n + 16) % 65536 = y at hx
    generalize n % 65536 = x at hx
    intro he
    have e : ((x + a.base) / 65536 + (x + a.base)) % 65536 = ((y + a.base) / 65536 + (y + a.base)) % 65536 := by omega
    clear he
    rcases hx with rfl | rfl
    · have : (x + 16 + a.base) / 65536 = (x + a.base) / 65536 ∨
          (x + 16 + a.base) / 65536 = (x + a.base) / 65536 + 1 := by omega
      rcases this with h1 | h1 <;> rw [h1] at e <;> omega
    · have : (y + 65520 + a.base) / 65536 = (y + a.base) / 65536 ∨
          (y + 65520 + a.base) / 65536 = (y + a.base) / 65536 + 1 := by omega
      rcases this with h1 | h1 <;> rw [h1] at e <;> omega
  · intro ⟨_, h2⟩
    obtain ⟨f1, f2⟩ := fold_once (n % 65536 + a.base) (by omega)
    omega

end Ip4

/-- Folding the sum of the words of the outermost IPv4 header once does not carry. -/
def NoCarry (hs : List Hdr) : Prop :=
  ∃ pre ip post, FirstOf IPv4 hs pre ip post ∧ plainSum ip.data / 65536 + plainSum ip.data % 65536 < 65536

/-- What C43 says of a header list: the stored checksum is `ipv4_checksum` of the final header, and the header verifies
iff the sum does not carry (C39). -/
def GoodChecksum (hs : List Hdr) : Prop :=
  (∀ chk, ChecksumIs (Packet.ipv4_checksum chk) hs) ∧ (ChecksumVerifies hs ↔ NoCarry hs)

theorem goodChecksum_of (d s : Bytes) (ve : Bool) (vid : U16) (pcp : Byte) (et : U16) (a : Ip4) (ha : a.Ok) (len : U16)
    (post : List Hdr) : GoodChecksum (l2Hdrs d s ve vid pcp et ++ a.hdr len :: post) := by
  have f := firstIpv4 d s ve vid pcp et (a.raw len (a.ck len)) post
  refine ⟨fun chk => ⟨_, _, _, f, a.ck len, a.checksum_raw ha chk len _, a.reads_ck ha _ _⟩, ?_⟩
  constructor
  · rintro ⟨_, _, _, f', hv⟩
    obtain ⟨rfl, rfl, rfl⟩ := f.unique f'
    exact ⟨_, _, _, f, (a.verifies_hdr ha len).mp hv⟩
  · rintro ⟨_, _, _, f', hv⟩
    obtain ⟨rfl, rfl, rfl⟩ := f.unique f'
    exact ⟨_, _, _, f, (a.verifies_hdr ha len).mpr hv⟩

section
variable {chk : Bool} {eth_dst eth_src : Str} {ve : Bool} {vid : U16} {pcp : Byte}
  {ihl : Byte} {src dst : Str} {tos ttl : Byte} {id frag : U16} {opts : Bytes}
  {payload : Bytes} {p : Packet}

theorem C43_ipv4 {proto : Byte}
    (h : create_ipv4_packet chk eth_dst eth_src ve vid pcp ihl src dst proto tos ttl id frag opts payload = .ok p) :
    GoodChecksum p.hdrs := by
  obtain ⟨d, s, a, -, -, ha, -, rfl⟩ := ipv4_shape (h := h)
  exact goodChecksum_of _ _ _ _ _ _ a ha _ _

example : Sample.ipv4 = .ok (Sample.get Sample.ipv4) ∧
    (Sample.get Sample.ipv4).hdrs[2]?.map (·.get true IPv4.header_checksum) = some (.ok 40354) := by decide +kernel
example : Verifies (((Sample.get Sample.ipv4).hdrs[2]?.map (·.data)).getD []) := by decide +kernel

theorem C43_tcp {tdst tsrc : U16} {seq ack : U32} {off res flags : Byte} {window urg : U16} {ck : Bool}
    (h : create_tcp_packet chk eth_dst eth_src ve vid pcp ihl src dst tos ttl id frag opts tdst tsrc seq ack off res
      flags window urg ck payload = .ok p) : GoodChecksum p.hdrs := by
  obtain ⟨d, s, a, -, -, ha, -, rfl⟩ := tcp_shape (h := h)
  exact goodChecksum_of _ _ _ _ _ _ a ha _ _

example : Sample.tcp = .ok (Sample.get Sample.tcp) ∧
    (Sample.get Sample.tcp).hdrs[2]?.map (·.get true IPv4.header_checksum) = some (.ok 40427) := by decide +kernel
example : Verifies (((Sample.get Sample.tcp).hdrs[2]?.map (·.data)).getD []) := by decide +kernel

theorem C43_udp {udst usrc : U16} {ck : Bool}
    (h : create_udp_packet chk eth_dst eth_src ve vid pcp ihl src dst tos ttl id frag opts udst usrc ck payload
      = .ok p) : GoodChecksum p.hdrs := by
  obtain ⟨d, s, a, -, -, ha, -, rfl⟩ := udp_shape (h := h)
  exact goodChecksum_of _ _ _ _ _ _ a ha _ _

example : Sample.udp = .ok (Sample.get Sample.udp) ∧
    (Sample.get Sample.udp).hdrs[2]?.map (·.get true IPv4.header_checksum) = some (.ok 40428) := by decide +kernel
example : Verifies (((Sample.get Sample.udp).hdrs[2]?.map (·.data)).getD []) := by decide +kernel

theorem C43_icmp {ty code : Byte} {idata : Bytes} {ck : Bool}
    (h : create_icmp_packet chk eth_dst eth_src ve vid pcp ihl src dst tos ttl id frag opts ty code idata ck payload
      = .ok p) : GoodChecksum p.hdrs := by
  obtain ⟨d, s, a, -, -, ha, -, rfl⟩ := icmp_shape (h := h)
  exact goodChecksum_of _ _ _ _ _ _ a ha _ _

example : Sample.icmp = .ok (Sample.get Sample.icmp) ∧
    (Sample.get Sample.icmp).hdrs[1]?.map (·.get true IPv4.header_checksum) = some (.ok 40448) := by decide +kernel
example : Verifies (((Sample.get Sample.icmp).hdrs[1]?.map (·.data)).getD []) := by decide +kernel

theorem C43_ipv4ip {inner : Packet}
    (h : create_ipv4ip_packet chk eth_dst eth_src ve vid pcp ihl src dst tos ttl id frag opts inner = .ok p) :
    GoodChecksum p.hdrs := by
  obtain ⟨d, s, a, -, -, ha, -, rfl⟩ := ipv4ip_shape (h := h)
  exact goodChecksum_of _ _ _ _ _ _ a ha _ _

example : Sample.ipv4ip = .ok (Sample.get Sample.ipv4ip) ∧
    (Sample.get Sample.ipv4ip).hdrs[2]?.map (·.get true IPv4.header_checksum) = some (.ok 40372) := by decide +kernel
example : Verifies (((Sample.get Sample.ipv4ip).hdrs[2]?.map (·.data)).getD []) := by decide +kernel

theorem C43_gre {c r k q st : Bool} {flags ver : Byte} {gck goff : U16} {key seq : U32} {routing : Bytes}
    {inner : Option Packet}
    (h : create_gre_packet chk eth_dst eth_src ve vid pcp ihl src dst tos ttl id frag opts c r k q st flags ver gck
      goff key seq routing inner = .ok p) : GoodChecksum p.hdrs := by
  obtain ⟨d, s, a, -, -, ha, -, rfl⟩ := gre_shape (h := h)
  exact goodChecksum_of _ _ _ _ _ _ a ha _ _

example : Sample.gre = .ok (Sample.get Sample.gre) ∧
    (Sample.get Sample.gre).hdrs[2]?.map (·.get true IPv4.header_checksum) = some (.ok 40378) := by decide +kernel
example : Verifies (((Sample.get Sample.gre).hdrs[2]?.map (·.data)).getD []) := by decide +kernel

theorem C43_erspan2 {seq : U32} {vlan : U16} {cos en t : Byte} {sid : U16} {idx : U32} {inner : Option Packet}
    (h : create_erspan_2_packet chk eth_dst eth_src ve vid pcp ihl src dst tos ttl id frag opts seq vlan cos en t sid idx
      inner = .ok p) : GoodChecksum p.hdrs := by
  obtain ⟨d, s, a, -, -, ha, -, rfl⟩ := erspan2_shape (h := h)
  exact goodChecksum_of _ _ _ _ _ _ a ha _ _

example : Sample.erspan2 = .ok (Sample.get Sample.erspan2) ∧
    (Sample.get Sample.erspan2).hdrs[2]?.map (·.get true IPv4.header_checksum) = some (.ok 40293) := by decide +kernel
example : Verifies (((Sample.get Sample.erspan2).hdrs[2]?.map (·.data)).getD []) := by decide +kernel

theorem C43_erspan3 {seq : U32} {vlan : U16} {cos en t : Byte} {sid : U16} {ts : U32} {sgt ft : U16} {pid : Byte}
    {info : U64} {inner : Option Packet}
    (h : create_erspan_3_packet chk eth_dst eth_src ve vid pcp ihl src dst tos ttl id frag opts seq vlan cos en t sid ts
      sgt ft pid info inner = .ok p) : GoodChecksum p.hdrs := by
  obtain ⟨d, s, a, -, -, ha, -, rfl⟩ := erspan3_shape (h := h)
  exact goodChecksum_of _ _ _ _ _ _ a ha _ _

example : Sample.erspan3 = .ok (Sample.get Sample.erspan3) ∧
    (Sample.get Sample.erspan3).hdrs[2]?.map (·.get true IPv4.header_checksum) = some (.ok 40281) := by decide +kernel
example : Verifies (((Sample.get Sample.erspan3).hdrs[2]?.map (·.data)).getD []) := by decide +kernel

/-- **C43** for VXLAN: the stored checksum is never that of the final header, and the header never verifies. -/
theorem C43_vxlan {udst usrc : U16} {ck : Bool} {vni : U32} {inner : Packet}
    (h : create_vxlan_packet chk eth_dst eth_src ve vid pcp ihl src dst tos ttl id frag opts udst usrc ck vni inner
      = .ok p) :
    (∀ chk, ¬ ChecksumIs (Packet.ipv4_checksum chk) p.hdrs) ∧ ¬ ChecksumVerifies p.hdrs := by
  obtain ⟨d, s, a, -, -, ha, -, rfl⟩ := vxlan_shape (h := h)
  have f := firstIpv4 d s ve vid pcp 0x0800#16 (a.raw (BitVec.ofNat 16 (20 + inner.to_vec.length + 16))
    (a.ck (BitVec.ofNat 16 (20 + inner.to_vec.length))))
    [Packet.udp usrc udst (BitVec.ofNat 16 (16 + inner.to_vec.length)), Packet.vxlan vni]
  obtain ⟨s1, s2⟩ := a.stale ha (20 + inner.to_vec.length)
  constructor
  · rintro chk ⟨_, _, _, f', c, e, r⟩
    obtain ⟨rfl, rfl, rfl⟩ := f.unique f'
    rw [a.checksum_raw ha] at e
    injection e with e
    subst e
    obtain ⟨v, e1, e2⟩ := r true
    obtain ⟨w, e3, e4⟩ := a.reads_ck ha (BitVec.ofNat 16 (20 + inner.to_vec.length + 16))
      (a.ck (BitVec.ofNat 16 (20 + inner.to_vec.length))) true
    rw [e1] at e3
    cases e3
    exact s1 (BitVec.eq_of_toNat_eq (by rw [← e4, e2]))
  · rintro ⟨_, _, _, f', hv⟩
    obtain ⟨rfl, rfl, rfl⟩ := f.unique f'
    exact s2 hv

example : Sample.vxlan = .ok (Sample.get Sample.vxlan) ∧
    (Sample.get Sample.vxlan).hdrs[2]?.map (·.get true IPv4.header_checksum) = some (.ok 40390) := by decide +kernel
example : ¬ Verifies (((Sample.get Sample.vxlan).hdrs[2]?.map (·.data)).getD []) := by decide +kernel

end
end PacketRs
