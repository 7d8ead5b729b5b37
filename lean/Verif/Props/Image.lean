import Verif.Props.BuildersShape
import Verif.Props.BuildersSum
import Verif.Spec.Image
/-!
# C89: exactly which packets each builder can return
-/
namespace PacketRs
open Spec Utils

theorem Hdr.Reads.unique {h : Hdr} {f : Field} {a b : Nat} (ha : h.Reads f a) (hb : h.Reads f b) : a = b := by
  obtain ⟨v, e, rfl⟩ := ha true
  obtain ⟨w, e', rfl⟩ := hb true
  rw [e] at e'
  rw [Except.ok.inj e']

theorem chop (n : Nat) {m : Nat} {l : Bytes} (h : l.length = n + m) : ∃ a b, l = a ++ b ∧ a.length = n ∧ b.length = m :=
  ⟨l.take n, l.drop n, (List.take_append_drop n l).symm, by simp; omega, by simp; omega⟩

theorem two_octets {l : Bytes} (h : l.length = 2) : ∃ x, l = be16 x := by
  refine ⟨BitVec.ofNat 16 (beNat l), beNat_inj _ _ (by simp [h]) ?_⟩
  have := beNat_lt l
  rw [h] at this
  rw [beNat_be16, BitVec.toNat_ofNat, Nat.mod_eq_of_lt this]

theorem four_octets {l : Bytes} (h : l.length = 4) : ∃ x, l = be32 x := by
  refine ⟨BitVec.ofNat 32 (beNat l), beNat_inj _ _ (by simp [h]) ?_⟩
  have := beNat_lt l
  rw [h] at this
  rw [beNat_be32, BitVec.toNat_ofNat, Nat.mod_eq_of_lt this]

theorem one_octet {l : Bytes} (h : l.length = 1) : ∃ x, l = [x] := by
  match l, h with
  | [x], _ => exact ⟨x, rfl⟩

/-! ## Layer 2 -/

theorem ether_whole {e : Hdr} (h : Entire Ether e) : ∃ d s et, d.length = 6 ∧ s.length = 6 ∧ e = ⟨Ether, d ++ s ++ be16 et⟩ ∧
    e.Reads Ether.etype et.toNat := by
  obtain ⟨ty, data⟩ := e
  obtain ⟨rfl, hl⟩ := h
  obtain ⟨d, r, rfl, ld, lr⟩ := chop 6 (m := 8) hl
  obtain ⟨s, r, rfl, ls, lr⟩ := chop 6 (m := 2) lr
  obtain ⟨et, rfl⟩ := two_octets lr
  clear hl
  refine ⟨d, s, et, ld, ls, by simp, ?_⟩
  reads Ether.etype

theorem vlan_whole {v : Hdr} (h : Entire Vlan v) : ∃ tci et, v = ⟨Vlan, be16 tci ++ be16 et⟩ ∧ v.Reads Vlan.etype et.toNat := by
  obtain ⟨ty, data⟩ := v
  obtain ⟨rfl, hl⟩ := h
  obtain ⟨d, r, rfl, ld, lr⟩ := chop 2 (m := 2) hl
  obtain ⟨tci, rfl⟩ := two_octets ld
  obtain ⟨et, rfl⟩ := two_octets lr
  clear hl
  refine ⟨tci, et, rfl, ?_⟩
  reads Vlan.etype

theorem front_iff (et : U16) (hs : List Hdr) : Front et.toNat hs ↔
    ∃ d s ve vid pcp, d.length = 6 ∧ s.length = 6 ∧ hs = l2Hdrs d s ve vid pcp et := by
  constructor
  · rintro (⟨h, r⟩ | ⟨h, r, hv, rv⟩)
    · obtain ⟨d, s, et', ld, ls, rfl, r'⟩ := ether_whole h
      obtain rfl := BitVec.eq_of_toNat_eq (r'.unique r)
      exact ⟨d, s, false, 0, 0, ld, ls, rfl⟩
    · obtain ⟨d, s, et', ld, ls, rfl, r'⟩ := ether_whole h
      obtain rfl : et' = 0x8100#16 := BitVec.eq_of_toNat_eq (r'.unique r)
      obtain ⟨tci, et'', rfl, r''⟩ := vlan_whole hv
      obtain rfl := BitVec.eq_of_toNat_eq (r''.unique rv)
      exact ⟨d, s, true, tci, 0, ld, ls, by simp [l2Hdrs]⟩
  · rintro ⟨d, s, ve, vid, pcp, ld, ls, rfl⟩
    cases ve
    · refine .plain ⟨rfl, by simp [ld, ls, Ether]⟩ ?_
      reads Ether.etype
    · refine .tagged ⟨rfl, by simp [ld, ls, Ether]⟩ ?_ ⟨rfl, by simp [Vlan]⟩ ?_
      · reads Ether.etype
        rfl
      · reads Vlan.etype

/-! ## Layer 3 -/

theorem isIpv4_iff (chk : Bool) (proto : Byte) (total : Nat) (h : Hdr) :
    IsIpv4 chk proto.toNat total h ↔ ∃ a : Ip4, a.Ok ∧ a.proto = proto ∧ h = a.hdr (BitVec.ofNat 16 total) := by
  have version : ∀ (a : Ip4) (len c : U16), a.Ok →
      (Hdr.mk IPv4 (a.raw len c)).Reads IPv4.version ((0x40#8 ||| a.ihl).toNat / 16) := by
    intro a len c ha
    have h1 := ha.1
    have h2 := ha.2
    have h3 := (0x40#8 ||| a.ihl).isLt
    unfold Ip4.raw ipv4Raw
    reads IPv4.version
    rw [fieldVal_byte]
    simp only [Nat.reduceSub, Nat.reduceAdd, Nat.reducePow]
    omega
  have prot : ∀ (a : Ip4) (len c : U16), a.Ok → (Hdr.mk IPv4 (a.raw len c)).Reads IPv4.protocol a.proto.toNat := by
    intro a len c ha
    have h1 := ha.1
    have h2 := ha.2
    unfold Ip4.raw ipv4Raw
    reads IPv4.protocol
  have len' : ∀ (a : Ip4) (len c : U16), a.Ok → (Hdr.mk IPv4 (a.raw len c)).Reads IPv4.total_len len.toNat := by
    intro a len c ha
    have h1 := ha.1
    have h2 := ha.2
    unfold Ip4.raw ipv4Raw
    reads IPv4.total_len
  constructor
  · rintro ⟨⟨ht, hl⟩, ⟨v, rv, hv⟩, rl, rp, c, ec, rc⟩
    obtain ⟨ty, data⟩ := h
    obtain rfl : ty = IPv4 := ht
    obtain ⟨x, r1, rfl, lx, lr1⟩ := chop 1 (m := 19) hl
    obtain ⟨b, rfl⟩ := one_octet lx
    obtain ⟨x, r2, rfl, lx, lr2⟩ := chop 1 (m := 18) lr1
    obtain ⟨tos, rfl⟩ := one_octet lx
    obtain ⟨x, r3, rfl, lx, lr3⟩ := chop 2 (m := 16) lr2
    obtain ⟨len, rfl⟩ := two_octets lx
    obtain ⟨x, r4, rfl, lx, lr4⟩ := chop 2 (m := 14) lr3
    obtain ⟨id, rfl⟩ := two_octets lx
    obtain ⟨x, r5, rfl, lx, lr5⟩ := chop 2 (m := 12) lr4
    obtain ⟨frag, rfl⟩ := two_octets lx
    obtain ⟨x, r6, rfl, lx, lr6⟩ := chop 1 (m := 11) lr5
    obtain ⟨ttl, rfl⟩ := one_octet lx
    obtain ⟨x, r7, rfl, lx, lr7⟩ := chop 1 (m := 10) lr6
    obtain ⟨pr, rfl⟩ := one_octet lx
    obtain ⟨x, r8, rfl, lx, lr8⟩ := chop 2 (m := 8) lr7
    obtain ⟨ck, rfl⟩ := two_octets lx
    obtain ⟨src, dst, rfl, ls, ld⟩ := chop 4 (m := 4) lr8
    have hb : 0x40#8 ||| b = b := by
      have h1 : (Hdr.mk IPv4 ([b] ++ ([tos] ++ (be16 len ++ (be16 id ++ (be16 frag ++ ([ttl] ++ ([pr] ++ (be16 ck ++
          (src ++ dst)))))))))).Reads IPv4.version (b.toNat / 16) := by
        have h3 := b.isLt
        reads IPv4.version
        rw [fieldVal_byte]
        simp only [Nat.reduceSub, Nat.reduceAdd, Nat.reducePow]
        omega
      rw [rv.unique h1] at hv
      exact (by decide +kernel : ∀ b : Byte, 4 ≤ b.toNat / 16 % 8 → 0x40#8 ||| b = b) b hv
    have e : [b] ++ ([tos] ++ (be16 len ++ (be16 id ++ (be16 frag ++ ([ttl] ++ ([pr] ++ (be16 ck ++ (src ++ dst)))))))) =
        Ip4.raw ⟨b, tos, id, ttl, frag, pr, src, dst⟩ len ck := by
      simp only [Ip4.raw, ipv4Raw, hb, List.append_assoc]
    have ok : Ip4.Ok ⟨b, tos, id, ttl, frag, pr, src, dst⟩ := ⟨ls, ld⟩
    clear hl
    rw [e] at rl rp rc ec ⊢
    obtain rfl := BitVec.eq_of_toNat_eq (rp.unique (prot _ len ck ok))
    obtain rfl : len = BitVec.ofNat 16 total := BitVec.eq_of_toNat_eq (by
      rw [BitVec.toNat_ofNat]
      exact (len' _ len ck ok).unique rl)
    rw [Ip4.checksum_raw _ ok] at ec
    obtain rfl := Except.ok.inj ec
    obtain rfl := BitVec.eq_of_toNat_eq (rc.unique (Ip4.reads_ck _ ok _ _))
    exact ⟨_, ok, rfl, rfl⟩
  · rintro ⟨a, ha, rfl, rfl⟩
    refine ⟨⟨rfl, a.raw_length ha _ _⟩, ⟨_, version a _ _ ha, ?_⟩, ?_, prot a _ _ ha, _, a.checksum_raw ha chk _ _,
      a.reads_ck ha _ _⟩
    · exact (by decide +kernel : ∀ b : Byte, 4 ≤ (0x40#8 ||| b).toNat / 16 % 8) a.ihl
    · have := len' a (BitVec.ofNat 16 total) (a.ck (BitVec.ofNat 16 total)) ha
      rwa [BitVec.toNat_ofNat] at this

theorem or_six (w : U32) (h : 6 ≤ w.toNat / 2 ^ 28 % 8) : 0x60000000#32 ||| w = w := by
  apply BitVec.eq_of_toNat_eq
  have hw := w.isLt
  rw [BitVec.toNat_or]
  have e1 : w.toNat = w.toNat / 2 ^ 28 * 2 ^ 28 + w.toNat % 2 ^ 28 := by omega
  have hx : w.toNat / 2 ^ 28 < 16 := by omega
  generalize w.toNat / 2 ^ 28 = x at *
  generalize hy : w.toNat % 2 ^ 28 = y at *
  have hy' : y < 2 ^ 28 := by omega
  rw [e1]
  have e2 : x * 2 ^ 28 + y = x * 2 ^ 28 ||| y := by
    rw [← Nat.shiftLeft_eq, Nat.shiftLeft_add_eq_or_of_lt hy']
  rw [e2, ← Nat.or_assoc]
  congr 1
  rw [← Nat.shiftLeft_eq, show (0x60000000#32).toNat = 6 <<< 28 from rfl, ← Nat.shiftLeft_or_distrib]
  congr 1
  exact (by decide : ∀ x, x < 16 → 6 ≤ x % 8 → 6 ||| x = x) x hx h

theorem isIpv6_iff (p6 : Ipv6FromStr) (hp : Writable p6) (next : Byte) (n : Nat) (h : Hdr) :
    IsIpv6 next.toNat n h ↔ ∃ tc flow hl src dst, h = Packet.ipv6 p6 tc flow next hl src dst (BitVec.ofNat 16 n) := by
  constructor
  · rintro ⟨⟨ht, hl⟩, ⟨v, rv, hv⟩, rl, rn⟩
    obtain ⟨ty, data⟩ := h
    obtain rfl : ty = IPv6 := ht
    obtain ⟨x, r1, rfl, lx, lr1⟩ := chop 4 (m := 36) hl
    obtain ⟨w, rfl⟩ := four_octets lx
    obtain ⟨x, r2, rfl, lx, lr2⟩ := chop 2 (m := 34) lr1
    obtain ⟨len, rfl⟩ := two_octets lx
    obtain ⟨x, r3, rfl, lx, lr3⟩ := chop 1 (m := 33) lr2
    obtain ⟨nh, rfl⟩ := one_octet lx
    obtain ⟨x, r4, rfl, lx, lr4⟩ := chop 1 (m := 32) lr3
    obtain ⟨hop, rfl⟩ := one_octet lx
    obtain ⟨src, dst, rfl, ls, ld⟩ := chop 16 (m := 16) lr4
    clear hl lr1 lr2 lr3 lr4
    have hw := w.isLt
    have h1 : (Hdr.mk IPv6 (be32 w ++ (be16 len ++ ([nh] ++ ([hop] ++ (src ++ dst)))))).Reads IPv6.version
        (w.toNat / 2 ^ 28) := by
      reads IPv6.version
      packed
      omega
    have h2 : (Hdr.mk IPv6 (be32 w ++ (be16 len ++ ([nh] ++ ([hop] ++ (src ++ dst)))))).Reads IPv6.payload_len
        len.toNat := by
      reads IPv6.payload_len
    have h3 : (Hdr.mk IPv6 (be32 w ++ (be16 len ++ ([nh] ++ ([hop] ++ (src ++ dst)))))).Reads IPv6.next_hdr
        nh.toNat := by
      reads IPv6.next_hdr
    obtain rfl := rv.unique h1
    obtain rfl := BitVec.eq_of_toNat_eq (rn.unique h3)
    obtain rfl : len = BitVec.ofNat 16 n := BitVec.eq_of_toNat_eq (by
      rw [BitVec.toNat_ofNat]
      exact h2.unique rl)
    obtain ⟨s1, e1⟩ := hp ⟨src.toArray, ls⟩
    obtain ⟨s2, e2⟩ := hp ⟨dst.toArray, ld⟩
    refine ⟨0, w, hop, s1, s2, ?_⟩
    simp [Packet.ipv6, HeaderDef.ofVec, to_ipv6_bytes, e1, e2, or_six w hv]
  · rintro ⟨tc, flow, hl, src, dst, rfl⟩
    have hf := flow.isLt
    obtain ⟨h1, h2, h3, -, -, h4, h5, -⟩ := C35_ipv6 p6 tc flow next hl src dst (BitVec.ofNat 16 n)
    rw [BitVec.toNat_ofNat] at h4
    exact ⟨⟨h1, h2⟩, ⟨_, h3, (by decide : ∀ x, x < 16 → 6 ≤ (6 ||| x) % 8) _ (by omega)⟩, h4, h5⟩

/-! ## Layer 4 and tunnels -/

theorem isTcp_iff (h : Hdr) :
    IsTcp h ↔ ∃ src dst seq ack off res flags window urg, h = Packet.tcp src dst seq ack off res flags window 0 urg := by
  constructor
  · rintro ⟨⟨ht, hl⟩, rc⟩
    obtain ⟨ty, data⟩ := h
    obtain rfl : ty = TCP := ht
    obtain ⟨x, r1, rfl, lx, lr1⟩ := chop 2 (m := 18) hl
    obtain ⟨src, rfl⟩ := two_octets lx
    obtain ⟨x, r2, rfl, lx, lr2⟩ := chop 2 (m := 16) lr1
    obtain ⟨dst, rfl⟩ := two_octets lx
    obtain ⟨x, r3, rfl, lx, lr3⟩ := chop 4 (m := 12) lr2
    obtain ⟨seq, rfl⟩ := four_octets lx
    obtain ⟨x, r4, rfl, lx, lr4⟩ := chop 4 (m := 8) lr3
    obtain ⟨ack, rfl⟩ := four_octets lx
    obtain ⟨x, r5, rfl, lx, lr5⟩ := chop 1 (m := 7) lr4
    obtain ⟨res, rfl⟩ := one_octet lx
    obtain ⟨x, r6, rfl, lx, lr6⟩ := chop 1 (m := 6) lr5
    obtain ⟨flags, rfl⟩ := one_octet lx
    obtain ⟨x, r7, rfl, lx, lr7⟩ := chop 2 (m := 4) lr6
    obtain ⟨window, rfl⟩ := two_octets lx
    obtain ⟨x, r8, rfl, lx, lr8⟩ := chop 2 (m := 2) lr7
    obtain ⟨ck, rfl⟩ := two_octets lx
    obtain ⟨urg, rfl⟩ := two_octets lr8
    clear hl lr1 lr2 lr3 lr4 lr5 lr6 lr7 lr8
    have h1 : (Hdr.mk TCP (be16 src ++ (be16 dst ++ (be32 seq ++ (be32 ack ++ ([res] ++ ([flags] ++ (be16 window ++
        (be16 ck ++ be16 urg))))))))).Reads TCP.checksum ck.toNat := by
      reads TCP.checksum
    obtain rfl : ck = 0 := BitVec.eq_of_toNat_eq (h1.unique rc)
    refine ⟨src, dst, seq, ack, 0, res, flags, window, urg, ?_⟩
    have : res &&& 255#8 = res := (by decide +kernel : ∀ b : Byte, b &&& 255#8 = b) res
    simp [Packet.tcp, HeaderDef.ofVec, this]
  · rintro ⟨src, dst, seq, ack, off, res, flags, window, urg, rfl⟩
    obtain ⟨h1, h2, -, -, -, -, -, -, -, -, h3, -⟩ := C35_tcp src dst seq ack off res flags window 0 urg
    exact ⟨⟨h1, h2⟩, h3⟩

theorem isUdp_iff (n : Nat) (ck : U16) (h : Hdr) :
    IsUdp n ck.toNat h ↔ ∃ src dst, h = ⟨UDP, be16 src ++ be16 dst ++ be16 (BitVec.ofNat 16 n) ++ be16 ck⟩ := by
  constructor
  · rintro ⟨⟨ht, hl⟩, rn, rc⟩
    obtain ⟨ty, data⟩ := h
    obtain rfl : ty = UDP := ht
    obtain ⟨x, r1, rfl, lx, lr1⟩ := chop 2 (m := 6) hl
    obtain ⟨src, rfl⟩ := two_octets lx
    obtain ⟨x, r2, rfl, lx, lr2⟩ := chop 2 (m := 4) lr1
    obtain ⟨dst, rfl⟩ := two_octets lx
    obtain ⟨x, r3, rfl, lx, lr3⟩ := chop 2 (m := 2) lr2
    obtain ⟨len, rfl⟩ := two_octets lx
    obtain ⟨c, rfl⟩ := two_octets lr3
    clear hl lr1 lr2 lr3
    have h1 : (Hdr.mk UDP (be16 src ++ (be16 dst ++ (be16 len ++ be16 c)))).Reads UDP.length len.toNat := by
      reads UDP.length
    have h2 : (Hdr.mk UDP (be16 src ++ (be16 dst ++ (be16 len ++ be16 c)))).Reads UDP.checksum c.toNat := by
      reads UDP.checksum
    obtain rfl := BitVec.eq_of_toNat_eq (h2.unique rc)
    obtain rfl : len = BitVec.ofNat 16 n := BitVec.eq_of_toNat_eq (by
      rw [BitVec.toNat_ofNat]
      exact h1.unique rn)
    exact ⟨src, dst, by simp⟩
  · rintro ⟨src, dst, rfl⟩
    refine ⟨⟨rfl, by simp [UDP]⟩, ?_, ?_⟩
    · rw [show n % 65536 = (BitVec.ofNat 16 n).toNat from rfl]
      reads UDP.length
    · reads UDP.checksum

theorem isIcmp_iff (h : Hdr) : IsIcmp h ↔ ∃ ty code, h = Packet.icmp ty code := by
  constructor
  · rintro ⟨⟨ht, hl⟩, rc⟩
    obtain ⟨ty, data⟩ := h
    obtain rfl : ty = ICMP := ht
    obtain ⟨x, r1, rfl, lx, lr1⟩ := chop 1 (m := 3) hl
    obtain ⟨t, rfl⟩ := one_octet lx
    obtain ⟨x, r2, rfl, lx, lr2⟩ := chop 1 (m := 2) lr1
    obtain ⟨code, rfl⟩ := one_octet lx
    obtain ⟨ck, rfl⟩ := two_octets lr2
    clear hl lr1 lr2
    have h1 : (Hdr.mk ICMP ([t] ++ ([code] ++ be16 ck))).Reads ICMP.chksum ck.toNat := by
      reads ICMP.chksum
    obtain rfl : ck = 0 := BitVec.eq_of_toNat_eq (h1.unique rc)
    exact ⟨t, code, by simp [Packet.icmp, HeaderDef.ofVec]⟩
  · rintro ⟨t, code, rfl⟩
    refine ⟨⟨rfl, by simp [Packet.icmp, HeaderDef.ofVec, ICMP]⟩, ?_⟩
    unfold Packet.icmp
    reads ICMP.chksum
    rfl

theorem isArp_iff (h : Hdr) : IsArp h ↔ ∃ (op : U16) (sm si tm ti : Bytes), sm.length = 6 ∧ si.length = 4 ∧ tm.length = 6 ∧
    ti.length = 4 ∧ h = ⟨ARP, be16 1#16 ++ be16 0x800#16 ++ [6#8] ++ [4#8] ++ be16 op ++ sm ++ si ++ tm ++ ti⟩ := by
  constructor
  · rintro ⟨⟨ht, hl⟩, r1, r2, r3, r4⟩
    obtain ⟨ty, data⟩ := h
    obtain rfl : ty = ARP := ht
    obtain ⟨x, s1, rfl, lx, lr1⟩ := chop 2 (m := 26) hl
    obtain ⟨hw, rfl⟩ := two_octets lx
    obtain ⟨x, s2, rfl, lx, lr2⟩ := chop 2 (m := 24) lr1
    obtain ⟨pt, rfl⟩ := two_octets lx
    obtain ⟨x, s3, rfl, lx, lr3⟩ := chop 1 (m := 23) lr2
    obtain ⟨hwl, rfl⟩ := one_octet lx
    obtain ⟨x, s4, rfl, lx, lr4⟩ := chop 1 (m := 22) lr3
    obtain ⟨ptl, rfl⟩ := one_octet lx
    obtain ⟨x, s5, rfl, lx, lr5⟩ := chop 2 (m := 20) lr4
    obtain ⟨op, rfl⟩ := two_octets lx
    obtain ⟨sm, s6, rfl, l1, lr6⟩ := chop 6 (m := 14) lr5
    obtain ⟨si, s7, rfl, l2, lr7⟩ := chop 4 (m := 10) lr6
    obtain ⟨tm, ti, rfl, l3, l4⟩ := chop 6 (m := 4) lr7
    clear hl lr1 lr2 lr3 lr4 lr5 lr6 lr7
    have f1 : (Hdr.mk ARP (be16 hw ++ (be16 pt ++ ([hwl] ++ ([ptl] ++ (be16 op ++ (sm ++ (si ++ (tm ++ ti))))))))).Reads
        ARP.hwtype hw.toNat := by reads ARP.hwtype
    have f2 : (Hdr.mk ARP (be16 hw ++ (be16 pt ++ ([hwl] ++ ([ptl] ++ (be16 op ++ (sm ++ (si ++ (tm ++ ti))))))))).Reads
        ARP.proto_type pt.toNat := by reads ARP.proto_type
    have f3 : (Hdr.mk ARP (be16 hw ++ (be16 pt ++ ([hwl] ++ ([ptl] ++ (be16 op ++ (sm ++ (si ++ (tm ++ ti))))))))).Reads
        ARP.hwlen hwl.toNat := by reads ARP.hwlen
    have f4 : (Hdr.mk ARP (be16 hw ++ (be16 pt ++ ([hwl] ++ ([ptl] ++ (be16 op ++ (sm ++ (si ++ (tm ++ ti))))))))).Reads
        ARP.proto_len ptl.toNat := by reads ARP.proto_len
    obtain rfl : hw = 1#16 := BitVec.eq_of_toNat_eq (f1.unique r1)
    obtain rfl : pt = 0x800#16 := BitVec.eq_of_toNat_eq (f2.unique r2)
    obtain rfl : hwl = 6#8 := BitVec.eq_of_toNat_eq (f3.unique r3)
    obtain rfl : ptl = 4#8 := BitVec.eq_of_toNat_eq (f4.unique r4)
    exact ⟨op, sm, si, tm, ti, l1, l2, l3, l4, by simp⟩
  · rintro ⟨op, sm, si, tm, ti, l1, l2, l3, l4, rfl⟩
    refine ⟨⟨rfl, by simp [ARP, l1, l2, l3, l4]⟩, ?_, ?_, ?_, ?_⟩
    · reads ARP.hwtype
      rfl
    · reads ARP.proto_type
      rfl
    · reads ARP.hwlen
      rfl
    · reads ARP.proto_len
      rfl

theorem isVxlan_iff (h : Hdr) : IsVxlan h ↔ ∃ vni, h = Packet.vxlan vni := by
  constructor
  · rintro ⟨⟨ht, hl⟩, r1, r2, r3⟩
    obtain ⟨ty, data⟩ := h
    obtain rfl : ty = Vxlan := ht
    obtain ⟨x, s1, rfl, lx, lr1⟩ := chop 4 (m := 4) hl
    obtain ⟨u, rfl⟩ := four_octets lx
    obtain ⟨w, rfl⟩ := four_octets lr1
    clear hl lr1
    have hu := u.isLt
    have hw := w.isLt
    have f1 : (Hdr.mk Vxlan (be32 u ++ be32 w)).Reads Vxlan.flags (u.toNat / 2 ^ 24) := by
      reads Vxlan.flags
      packed
      omega
    have f2 : (Hdr.mk Vxlan (be32 u ++ be32 w)).Reads Vxlan.reserved (u.toNat % 2 ^ 24) := by
      reads Vxlan.reserved
      packed
    have f3 : (Hdr.mk Vxlan (be32 u ++ be32 w)).Reads Vxlan.reserved2 (w.toNat % 256) := by
      reads Vxlan.reserved2
      packed
    have g1 := f1.unique r1
    have g2 := f2.unique r2
    have g3 := f3.unique r3
    refine ⟨BitVec.ofNat 32 (w.toNat / 256), ?_⟩
    have e1 : u = 0x8#32 <<< 24 := by
      apply BitVec.eq_of_toNat_eq
      rw [show (0x8#32 <<< 24).toNat = 8 * 2 ^ 24 from rfl]
      omega
    have e2 : w = BitVec.ofNat 32 (w.toNat / 256) <<< 8 := by
      apply BitVec.eq_of_toNat_eq
      rw [BitVec.toNat_shiftLeft, BitVec.toNat_ofNat, Nat.shiftLeft_eq]
      omega
    rw [Packet.vxlan, ← e2, e1]
    rfl
  · rintro ⟨vni, rfl⟩
    obtain ⟨h1, h2, h3, h4, -, h5⟩ := C35_vxlan vni
    exact ⟨⟨h1, h2⟩, h3, h4, h5⟩

theorem isGre_iff (c r k q : Bool) (proto : U16) (h : Hdr) :
    IsGre c r k q proto.toNat h ↔ ∃ st flags ver, h = Packet.gre c r k q st flags ver proto := by
  constructor
  · rintro ⟨⟨ht, hl⟩, r1, r2, r3, r4, r5, r6⟩
    obtain ⟨ty, data⟩ := h
    obtain rfl : ty = GRE := ht
    obtain ⟨x, s1, rfl, lx, lr1⟩ := chop 1 (m := 3) hl
    obtain ⟨b, rfl⟩ := one_octet lx
    obtain ⟨x, s2, rfl, lx, lr2⟩ := chop 1 (m := 2) lr1
    obtain ⟨y, rfl⟩ := one_octet lx
    obtain ⟨pr, rfl⟩ := two_octets lr2
    clear hl lr1 lr2
    have hb := b.isLt
    have f1 : (Hdr.mk GRE ([b] ++ ([y] ++ be16 pr))).Reads GRE.chksum_present (b.toNat / 128) := by
      reads GRE.chksum_present
      rw [fieldVal_byte]
      simp only [Nat.reduceSub, Nat.reduceAdd, Nat.reducePow]
      omega
    have f2 : (Hdr.mk GRE ([b] ++ ([y] ++ be16 pr))).Reads GRE.routing_present (b.toNat / 64 % 2) := by
      reads GRE.routing_present
      rw [fieldVal_byte]
    have f3 : (Hdr.mk GRE ([b] ++ ([y] ++ be16 pr))).Reads GRE.key_present (b.toNat / 32 % 2) := by
      reads GRE.key_present
      rw [fieldVal_byte]
    have f4 : (Hdr.mk GRE ([b] ++ ([y] ++ be16 pr))).Reads GRE.seqnum_present (b.toNat / 16 % 2) := by
      reads GRE.seqnum_present
      rw [fieldVal_byte]
    have f5 : (Hdr.mk GRE ([b] ++ ([y] ++ be16 pr))).Reads GRE.recurse (b.toNat % 8) := by
      reads GRE.recurse
      rw [fieldVal_byte]
      simp only [Nat.reduceSub, Nat.reduceAdd, Nat.reducePow]
      omega
    have f6 : (Hdr.mk GRE ([b] ++ ([y] ++ be16 pr))).Reads GRE.proto pr.toNat := by
      reads GRE.proto
    obtain rfl := BitVec.eq_of_toNat_eq (f6.unique r6)
    have key : ∀ b : Byte, b.toNat % 8 = 0 → b = (Packet.boolU8 (b.toNat / 128 = 1) <<< 7) |||
        (Packet.boolU8 (b.toNat / 64 % 2 = 1) <<< 6) ||| (Packet.boolU8 (b.toNat / 32 % 2 = 1) <<< 5) |||
        (Packet.boolU8 (b.toNat / 16 % 2 = 1) <<< 4) ||| (Packet.boolU8 (b.toNat / 8 % 2 = 1) <<< 3) := by decide +kernel
    refine ⟨b.toNat / 8 % 2 = 1, 0, y, ?_⟩
    have e := key b (f5.unique r5)
    have tob : ∀ (z : Bool) (m : Nat), m = z.toNat → decide (m = 1) = z := by
      rintro (_ | _) m rfl <;> rfl
    rw [tob _ _ (f1.unique r1), tob _ _ (f2.unique r2), tob _ _ (f3.unique r3), tob _ _ (f4.unique r4)] at e
    simp only [Packet.gre, HeaderDef.ofVec]
    rw [← e]
    simp
  · rintro ⟨st, flags, ver, rfl⟩
    obtain ⟨h1, h2, h3, h4, h5, h6, -, h7, -, -, h8⟩ := C35_gre c r k q st flags ver proto
    exact ⟨⟨h1, h2⟩, h3, h4, h5, h6, h7, h8⟩

theorem oneIf_iff {α : Type} (T : HeaderDef) (b : Bool) (hs : List Hdr) (mk : α → Hdr) [Inhabited α]
    (hm : ∀ h, Entire T h ↔ ∃ x, h = mk x) : OneIf T b hs ↔ ∃ x, hs = optHdrs b (mk x) := by
  cases b
  · exact ⟨fun h => ⟨default, h⟩, fun ⟨_, h⟩ => h⟩
  · constructor
    · rintro ⟨h, w, rfl⟩
      obtain ⟨x, rfl⟩ := (hm h).mp w
      exact ⟨x, rfl⟩
    · rintro ⟨x, rfl⟩
      exact ⟨_, (hm _).mpr ⟨x, rfl⟩, rfl⟩

theorem wholeChk_iff (h : Hdr) : Entire GREChksumOffset h ↔ ∃ x : U16 × U16, h = Packet.gre_chksum_offset x.1 x.2 := by
  constructor
  · rintro ⟨ht, hl⟩
    obtain ⟨ty, data⟩ := h
    obtain rfl : ty = GREChksumOffset := ht
    obtain ⟨x, y, rfl, lx, ly⟩ := chop 2 (m := 2) hl
    obtain ⟨u, rfl⟩ := two_octets lx
    obtain ⟨w, rfl⟩ := two_octets ly
    exact ⟨(u, w), rfl⟩
  · rintro ⟨x, rfl⟩
    exact ⟨rfl, by simp [Packet.gre_chksum_offset, HeaderDef.ofVec, GREChksumOffset]⟩

theorem wholeKey_iff (h : Hdr) : Entire GREKey h ↔ ∃ x : U32, h = Packet.gre_key x := by
  constructor
  · rintro ⟨ht, hl⟩
    obtain ⟨ty, data⟩ := h
    obtain rfl : ty = GREKey := ht
    obtain ⟨u, rfl⟩ := four_octets hl
    exact ⟨u, rfl⟩
  · rintro ⟨x, rfl⟩
    exact ⟨rfl, by simp [Packet.gre_key, HeaderDef.ofVec, GREKey]⟩

theorem wholeSeq_iff (h : Hdr) : Entire GRESequenceNum h ↔ ∃ x : U32, h = Packet.gre_sequence_number x := by
  constructor
  · rintro ⟨ht, hl⟩
    obtain ⟨ty, data⟩ := h
    obtain rfl : ty = GRESequenceNum := ht
    obtain ⟨u, rfl⟩ := four_octets hl
    exact ⟨u, rfl⟩
  · rintro ⟨x, rfl⟩
    exact ⟨rfl, by simp [Packet.gre_sequence_number, HeaderDef.ofVec, GRESequenceNum]⟩

theorem mac_text {m : Bytes} (h : m.length = 6) : ∃ t, to_mac_bytes t = .ok m := ⟨_, (C31_roundtrip m h).1⟩

theorem ip_text {m : Bytes} (h : m.length = 4) : ∃ t, to_ipv4_bytes t = .ok m := ⟨_, C32_roundtrip m h⟩

theorem onlyPayload (b : Bytes) : (Packet.mk [] b).to_vec = b := by simp [Packet.to_vec]

theorem to_vec_data (q : Packet) : q.to_vec = q.hdrs.flatMap Hdr.data ++ q.payload := by
  have fl : ∀ (hs : List Hdr) (z : Bytes), hs.foldl (fun r x => r ++ x.to_vec) z = z ++ hs.flatMap Hdr.data := by
    intro hs
    induction hs with
    | nil => simp
    | cons x xs ih => intro z; rw [List.foldl_cons, ih, List.flatMap_cons, List.append_assoc]; rfl
  simp [Packet.to_vec, fl]

theorem withProto_self (a : Ip4) (pr : Byte) (h : a.proto = pr) : a.withProto pr = a := by
  subst h
  rfl

theorem or_top (w k c : Nat) (h : c ||| w / 2 ^ k = w / 2 ^ k) : c * 2 ^ k ||| w = w := by
  have e1 : w = w / 2 ^ k * 2 ^ k + w % 2 ^ k := by rw [Nat.mul_comm]; exact (Nat.div_add_mod w (2 ^ k)).symm
  have hy : w % 2 ^ k < 2 ^ k := Nat.mod_lt _ (Nat.two_pow_pos k)
  have e2 : w / 2 ^ k * 2 ^ k + w % 2 ^ k = w / 2 ^ k * 2 ^ k ||| w % 2 ^ k := by
    rw [← Nat.shiftLeft_eq, Nat.shiftLeft_add_eq_or_of_lt hy]
  generalize w / 2 ^ k = x at *
  generalize w % 2 ^ k = y at *
  rw [e1, e2, ← Nat.or_assoc]
  congr 1
  rw [← Nat.shiftLeft_eq, ← Nat.shiftLeft_eq, ← Nat.shiftLeft_or_distrib, h]

theorem isErspanGre_iff (q : Bool) (proto : U16) (h : Hdr) : IsErspanGre q proto.toNat h ↔
    h = ⟨GRE, [if q then 0x10#8 else 0#8, 0#8] ++ be16 proto⟩ := by
  constructor
  · rintro ⟨hg, r1, r2, r3⟩
    obtain ⟨st, flags, ver, rfl⟩ := (isGre_iff ..).mp hg
    obtain ⟨-, -, -, -, -, -, s1, -, s2, s3, -⟩ := C35_gre false false false q st flags ver proto
    have g1 := s1.unique r1
    have g2 := s2.unique r2
    have g3 := s3.unique r3
    obtain ⟨g4, g5⟩ := Nat.or_eq_zero_iff.mp g2
    obtain rfl : st = false := by cases st <;> simp_all
    obtain rfl : ver = 0#8 := BitVec.eq_of_toNat_eq (by rw [show (0#8).toNat = 0 from rfl]; omega)
    have e : flags <<< 3 = 0#8 := by
      apply BitVec.eq_of_toNat_eq
      rw [BitVec.toNat_shiftLeft, Nat.shiftLeft_eq, show (0#8).toNat = 0 from rfl]
      omega
    unfold Packet.gre
    rw [e]
    cases q <;> rfl
  · rintro rfl
    have e : (⟨GRE, [if q then 0x10#8 else 0#8, 0#8] ++ be16 proto⟩ : Hdr) = Packet.gre false false false q false 0 0 proto := by
      cases q <;> rfl
    rw [e]
    obtain ⟨-, -, -, -, -, -, s1, -, s2, s3, -⟩ := C35_gre false false false q false 0 0 proto
    exact ⟨(isGre_iff ..).mpr ⟨_, _, _, rfl⟩, s1, s2, s3⟩

theorem isErspan2_iff (h : Hdr) : IsErspan2 h ↔ ∃ vlan cos en t sid idx, h = Packet.erspan2 vlan cos en t sid idx := by
  constructor
  · rintro ⟨⟨ht, hl⟩, v, rv, hv⟩
    obtain ⟨ty, data⟩ := h
    obtain rfl : ty = ERSPAN2 := ht
    obtain ⟨x, s1, rfl, lx, lr1⟩ := chop 2 (m := 6) hl
    obtain ⟨b1, rfl⟩ := two_octets lx
    obtain ⟨x, s2, rfl, lx, lr2⟩ := chop 2 (m := 4) lr1
    obtain ⟨b2, rfl⟩ := two_octets lx
    obtain ⟨idx, rfl⟩ := four_octets lr2
    clear hl lr1 lr2
    have hb := b1.isLt
    have f1 : (Hdr.mk ERSPAN2 (be16 b1 ++ (be16 b2 ++ be32 idx))).Reads ERSPAN2.version (b1.toNat / 2 ^ 12) := by
      reads ERSPAN2.version
      packed
      omega
    obtain rfl := rv.unique f1
    refine ⟨b1, 0, 0, 0, b2, idx, ?_⟩
    have e : ErspanVersion.II.toU16 <<< 12 ||| b1 = b1 := by
      apply BitVec.eq_of_toNat_eq
      rw [BitVec.toNat_or]
      exact or_top b1.toNat 12 1 ((by decide : ∀ x, x < 16 → x % 2 = 1 → 1 ||| x = x) _ (by omega) hv)
    unfold Packet.erspan2
    rw [e]
    simp [HeaderDef.ofVec]
  · rintro ⟨vlan, cos, en, t, sid, idx, rfl⟩
    have hv := vlan.isLt
    obtain ⟨h1, h2, h3, -⟩ := C35_erspan2 vlan cos en t sid idx
    exact ⟨⟨h1, h2⟩, _, h3, (by decide : ∀ x, x < 16 → (1 ||| x) % 2 = 1) _ (by omega)⟩

theorem isErspan3_iff (o : Nat) (h : Hdr) : IsErspan3 o h ↔
    ∃ vlan cos en t sid ts sgt ft, ft.toNat % 2 = o ∧ h = Packet.erspan3 vlan cos en t sid ts sgt ft := by
  constructor
  · rintro ⟨⟨ht, hl⟩, ro, v, rv, hv⟩
    obtain ⟨ty, data⟩ := h
    obtain rfl : ty = ERSPAN3 := ht
    obtain ⟨x, s1, rfl, lx, lr1⟩ := chop 2 (m := 10) hl
    obtain ⟨b1, rfl⟩ := two_octets lx
    obtain ⟨x, s2, rfl, lx, lr2⟩ := chop 2 (m := 8) lr1
    obtain ⟨b2, rfl⟩ := two_octets lx
    obtain ⟨x, s3, rfl, lx, lr3⟩ := chop 4 (m := 4) lr2
    obtain ⟨ts, rfl⟩ := four_octets lx
    obtain ⟨x, s4, rfl, lx, lr4⟩ := chop 2 (m := 2) lr3
    obtain ⟨sgt, rfl⟩ := two_octets lx
    obtain ⟨ft, rfl⟩ := two_octets lr4
    clear hl lr1 lr2 lr3 lr4
    have hb := b1.isLt
    have f1 : (Hdr.mk ERSPAN3 (be16 b1 ++ (be16 b2 ++ (be32 ts ++ (be16 sgt ++ be16 ft))))).Reads ERSPAN3.version
        (b1.toNat / 2 ^ 12) := by
      reads ERSPAN3.version
      packed
      omega
    have f2 : (Hdr.mk ERSPAN3 (be16 b1 ++ (be16 b2 ++ (be32 ts ++ (be16 sgt ++ be16 ft))))).Reads ERSPAN3.o
        (ft.toNat % 2) := by
      reads ERSPAN3.o
      packed
    obtain rfl := rv.unique f1
    refine ⟨b1, 0, 0, 0, b2, ts, sgt, ft, f2.unique ro, ?_⟩
    have e : ErspanVersion.III.toU16 <<< 12 ||| b1 = b1 := by
      apply BitVec.eq_of_toNat_eq
      rw [BitVec.toNat_or]
      exact or_top b1.toNat 12 2 ((by decide : ∀ x, x < 16 → x / 2 % 2 = 1 → 2 ||| x = x) _ (by omega) hv)
    unfold Packet.erspan3
    rw [e]
    simp [HeaderDef.ofVec]
  · rintro ⟨vlan, cos, en, t, sid, ts, sgt, ft, rfl, rfl⟩
    have hv := vlan.isLt
    obtain ⟨h1, h2, h3, -, -, -, -, -, -, -, -, -, -, -, -, h4⟩ := C35_erspan3 vlan cos en t sid ts sgt ft
    exact ⟨⟨h1, h2⟩, h4, _, h3, (by decide : ∀ x, x < 16 → (2 ||| x) / 2 % 2 = 1) _ (by omega)⟩

theorem seqIs_iff (n : U32) (hs : List Hdr) :
    SeqIs n.toNat hs ↔ hs = optHdrs (n ≠ 0#32) (Packet.gre_sequence_number n) := by
  have key : n.toNat = 0 ↔ n = 0#32 := ⟨fun h => BitVec.eq_of_toNat_eq h, fun h => by rw [h]; rfl⟩
  have rd : ∀ x : U32, (Hdr.mk GRESequenceNum (be32 x)).Reads GRESequenceNum.seqnum x.toNat := by
    intro x
    reads GRESequenceNum.seqnum
  unfold SeqIs optHdrs
  by_cases h : n = 0#32
  · simp [h]
  · have h' : n.toNat ≠ 0 := fun e => h (key.mp e)
    rw [if_neg h', if_pos (by simpa using h)]
    constructor
    · rintro ⟨x, rfl, hw, r⟩
      obtain ⟨y, rfl⟩ := (wholeSeq_iff x).mp hw
      obtain rfl := BitVec.eq_of_toNat_eq ((rd y).unique r)
      rfl
    · rintro rfl
      exact ⟨_, rfl, (wholeSeq_iff _).mpr ⟨n, rfl⟩, rd n⟩

theorem wholePlatform_iff (h : Hdr) : Entire ERSPANPLATFORM h ↔ ∃ x : Byte × U64, h = platform x.1 x.2 := by
  constructor
  · rintro ⟨ht, hl⟩
    obtain ⟨ty, data⟩ := h
    obtain rfl : ty = ERSPANPLATFORM := ht
    have hl : data.length = 8 := hl
    refine ⟨(0, BitVec.ofNat 64 (beNat data)), ?_⟩
    unfold platform
    congr 1
    apply beNat_inj
    · rw [hl]
      rfl
    · have := beNat_lt data
      rw [hl] at this
      rw [beNat_be64]
      simp
      omega
  · rintro ⟨x, rfl⟩
    exact ⟨rfl, rfl⟩

/-! ## The builders -/

/-- **C89** `create_eth_packet`: any Ethernet header, or any Ethernet header of type 0x8100 and VLAN tag, any payload. -/
theorem C89_eth (p : Packet) : (∃ ed es ve vid pcp et payload, create_eth_packet ed es ve vid pcp et payload = .ok p) ↔
    ∃ et : U16, Front et.toNat p.hdrs := by
  constructor
  · rintro ⟨ed, es, ve, vid, pcp, et, payload, h⟩
    obtain ⟨⟨d, hd⟩, s, hs⟩ := (C41_eth_returns_iff ..).mp ⟨p, h⟩
    obtain rfl := Except.ok.inj (h.symm.trans (C41_eth _ _ _ _ _ d s hd hs _ _))
    exact ⟨et, (front_iff _ _).mpr ⟨d, s, ve, vid, pcp, C31_length _ _ hd, C31_length _ _ hs, rfl⟩⟩
  · rintro ⟨et, h⟩
    obtain ⟨d, s, ve, vid, pcp, ld, ls, e⟩ := (front_iff _ _).mp h
    obtain ⟨td, hd⟩ := mac_text ld
    obtain ⟨ts, hs⟩ := mac_text ls
    refine ⟨td, ts, ve, vid, pcp, et, p.payload, ?_⟩
    rw [C41_eth _ _ _ _ _ d s hd hs, ← e]

/-- **C89** `create_arp_packet`: the four fixed ARP fields hold their values. -/
theorem C89_arp (p : Packet) :
    (∃ ed es ve vid pcp op smac tmac sip tip payload,
      create_arp_packet ed es ve vid pcp op smac tmac sip tip payload = .ok p) ↔
    ∃ front arp, p.hdrs = front ++ [arp] ∧ Front 0x806 front ∧ IsArp arp := by
  constructor
  · rintro ⟨ed, es, ve, vid, pcp, op, smac, tmac, sip, tip, payload, h⟩
    obtain ⟨⟨⟨d, hd⟩, s, hs⟩, ⟨⟨a1, f1⟩, a3, f3⟩, ⟨a2, f2⟩, a4, f4⟩ := (C41_arp_returns_iff ..).mp ⟨p, h⟩
    have e : Packet.arp op smac tmac sip tip = .ok (ARP.ofVec (be16 1#16 ++ be16 EtherType.IPV4.toU16 ++
        [BitVec.ofNat 8 MAC_LEN] ++ [BitVec.ofNat 8 IPV4_LEN] ++ be16 op ++ a1 ++ a2 ++ a3 ++ a4)) := by
      unfold Packet.arp
      rw [f1, f2, f3, f4]
      rfl
    obtain rfl := Except.ok.inj (h.symm.trans (C41_arp _ _ _ _ _ d s hd hs _ _ _ _ _ _ _ e))
    exact ⟨_, _, rfl, (front_iff 0x806#16 _).mpr ⟨d, s, ve, vid, pcp, C31_length _ _ hd, C31_length _ _ hs, rfl⟩,
      (isArp_iff _).mpr ⟨op, a1, a2, a3, a4, C31_length _ _ f1, C32_length _ _ f2, C31_length _ _ f3, C32_length _ _ f4, rfl⟩⟩
  · rintro ⟨front, arp, e, hf, ha⟩
    obtain ⟨d, s, ve, vid, pcp, ld, ls, rfl⟩ := (front_iff 0x806#16 _).mp hf
    obtain ⟨op, a1, a2, a3, a4, l1, l2, l3, l4, rfl⟩ := (isArp_iff _).mp ha
    obtain ⟨td, hd⟩ := mac_text ld
    obtain ⟨ts, hs⟩ := mac_text ls
    obtain ⟨t1, f1⟩ := mac_text l1
    obtain ⟨t2, f2⟩ := ip_text l2
    obtain ⟨t3, f3⟩ := mac_text l3
    obtain ⟨t4, f4⟩ := ip_text l4
    refine ⟨td, ts, ve, vid, pcp, op, t1, t3, t2, t4, p.payload, ?_⟩
    rw [C41_arp _ _ _ _ _ d s hd hs _ _ _ _ _ _ (ARP.ofVec (be16 1#16 ++ be16 EtherType.IPV4.toU16 ++
      [BitVec.ofNat 8 MAC_LEN] ++ [BitVec.ofNat 8 IPV4_LEN] ++ be16 op ++ a1 ++ a2 ++ a3 ++ a4)) (by
        unfold Packet.arp
        rw [f1, f2, f3, f4]
        rfl)]
    obtain ⟨hs', pl⟩ := p
    obtain rfl : hs' = _ := e
    rfl

/-- **C89** `create_ipv4_packet`. -/
theorem C89_ipv4 (chk : Bool) (p : Packet) :
    (∃ ed es ve vid pcp ihl src dst proto tos ttl id frag opts payload,
      create_ipv4_packet chk ed es ve vid pcp ihl src dst proto tos ttl id frag opts payload = .ok p) ↔
    ∃ front ip, ∃ proto : Byte, p.hdrs = front ++ [ip] ∧ Front 0x800 front ∧
      IsIpv4 chk proto.toNat (20 + p.payload.length) ip := by
  constructor
  · rintro ⟨ed, es, ve, vid, pcp, ihl, src, dst, proto, tos, ttl, id, frag, opts, payload, h⟩
    obtain ⟨d, s, a, ld, ls, ha, hp, rfl⟩ := ipv4_shape _ _ _ _ _ _ _ _ _ _ _ _ _ _ _ h
    exact ⟨_, _, proto, rfl, (front_iff 0x800#16 _).mpr ⟨d, s, ve, vid, pcp, ld, ls, rfl⟩,
      (isIpv4_iff ..).mpr ⟨a, ha, hp, rfl⟩⟩
  · rintro ⟨front, ip, proto, e, hf, hi⟩
    obtain ⟨d, s, ve, vid, pcp, ld, ls, rfl⟩ := (front_iff 0x800#16 _).mp hf
    obtain ⟨a, ha, rfl, rfl⟩ := (isIpv4_iff ..).mp hi
    obtain ⟨td, hd⟩ := mac_text ld
    obtain ⟨ts, hs⟩ := mac_text ls
    obtain ⟨t1, f1⟩ := ip_text ha.1
    obtain ⟨t2, f2⟩ := ip_text ha.2
    refine ⟨td, ts, ve, vid, pcp, a.ihl, t1, t2, a.proto, a.tos, a.ttl, a.id, a.frag, [], p.payload, ?_⟩
    rw [C41_ipv4 chk _ _ _ _ _ d s hd hs a _ _ f1 f2, ← e]

/-- **C89** `create_tcp_packet`. -/
theorem C89_tcp (chk : Bool) (p : Packet) :
    (∃ ed es ve vid pcp ihl src dst tos ttl id frag opts tdst tsrc seq ack off res flags window urg ck payload,
      create_tcp_packet chk ed es ve vid pcp ihl src dst tos ttl id frag opts tdst tsrc seq ack off res flags window urg ck payload = .ok p) ↔
    ∃ front ip l4, p.hdrs = front ++ [ip, l4] ∧ Front 0x800 front ∧ IsIpv4 chk 6 (20 + p.payload.length + 20) ip ∧
      IsTcp l4 := by
  constructor
  · rintro ⟨ed, es, ve, vid, pcp, ihl, src, dst, tos, ttl, id, frag, opts, tdst, tsrc, seq, ack, off, res, flags, window, urg, ck, payload, h⟩
    obtain ⟨d, s, a, ld, ls, ha, hp, rfl⟩ := tcp_shape _ _ _ _ _ _ _ _ _ _ _ _ _ _ _ _ _ _ _ _ _ _ _ _ _ h
    exact ⟨_, _, _, rfl, (front_iff 0x800#16 _).mpr ⟨d, s, ve, vid, pcp, ld, ls, rfl⟩, (isIpv4_iff _ 6#8 _ _).mpr ⟨a, ha, hp, rfl⟩,
      (isTcp_iff _).mpr ⟨_, _, _, _, _, _, _, _, _, rfl⟩⟩
  · rintro ⟨front, ip, l4, e, hf, hi, ht⟩
    obtain ⟨d, s, ve, vid, pcp, ld, ls, rfl⟩ := (front_iff 0x800#16 _).mp hf
    obtain ⟨a, ha, hp, rfl⟩ := (isIpv4_iff _ 6#8 _ _).mp hi
    obtain ⟨src', dst', seq, ack, off, res, flags, window, urg, rfl⟩ := (isTcp_iff _).mp ht
    obtain ⟨td, hd⟩ := mac_text ld
    obtain ⟨ts, hs⟩ := mac_text ls
    obtain ⟨t1, f1⟩ := ip_text ha.1
    obtain ⟨t2, f2⟩ := ip_text ha.2
    refine ⟨td, ts, ve, vid, pcp, a.ihl, t1, t2, a.tos, a.ttl, a.id, a.frag, [], dst', src', seq, ack, off, res, flags, window, urg, false, p.payload, ?_⟩
    rw [C41_tcp chk _ _ _ _ _ d s hd hs a _ _ f1 f2, withProto_self a _ hp]
    exact congrArg (fun x => Except.ok (Packet.mk x p.payload)) e.symm

/-- **C89** `create_udp_packet`. -/
theorem C89_udp (chk : Bool) (p : Packet) :
    (∃ ed es ve vid pcp ihl src dst tos ttl id frag opts udst usrc ck payload,
      create_udp_packet chk ed es ve vid pcp ihl src dst tos ttl id frag opts udst usrc ck payload = .ok p) ↔
    ∃ front ip l4, p.hdrs = front ++ [ip, l4] ∧ Front 0x800 front ∧ IsIpv4 chk 17 (20 + p.payload.length + 8) ip ∧
      IsUdp (8 + p.payload.length) 0 l4 := by
  constructor
  · rintro ⟨ed, es, ve, vid, pcp, ihl, src, dst, tos, ttl, id, frag, opts, udst, usrc, ck, payload, h⟩
    obtain ⟨d, s, a, ld, ls, ha, hp, rfl⟩ := udp_shape _ _ _ _ _ _ _ _ _ _ _ _ _ _ _ _ _ _ h
    exact ⟨_, _, _, rfl, (front_iff 0x800#16 _).mpr ⟨d, s, ve, vid, pcp, ld, ls, rfl⟩, (isIpv4_iff _ 17#8 _ _).mpr ⟨a, ha, hp, rfl⟩,
      (isUdp_iff _ 0#16 _).mpr ⟨_, _, rfl⟩⟩
  · rintro ⟨front, ip, l4, e, hf, hi, ht⟩
    obtain ⟨d, s, ve, vid, pcp, ld, ls, rfl⟩ := (front_iff 0x800#16 _).mp hf
    obtain ⟨a, ha, hp, rfl⟩ := (isIpv4_iff _ 17#8 _ _).mp hi
    obtain ⟨src', dst', rfl⟩ := (isUdp_iff _ 0#16 _).mp ht
    obtain ⟨td, hd⟩ := mac_text ld
    obtain ⟨ts, hs⟩ := mac_text ls
    obtain ⟨t1, f1⟩ := ip_text ha.1
    obtain ⟨t2, f2⟩ := ip_text ha.2
    refine ⟨td, ts, ve, vid, pcp, a.ihl, t1, t2, a.tos, a.ttl, a.id, a.frag, [], dst', src', false, p.payload, ?_⟩
    rw [C41_udp chk _ _ _ _ _ d s hd hs a _ _ f1 f2, withProto_self a _ hp]
    exact congrArg (fun x => Except.ok (Packet.mk x p.payload)) e.symm

/-- **C89** `create_icmp_packet`. -/
theorem C89_icmp (chk : Bool) (p : Packet) :
    (∃ ed es ve vid pcp ihl src dst tos ttl id frag opts ty code idata ck payload,
      create_icmp_packet chk ed es ve vid pcp ihl src dst tos ttl id frag opts ty code idata ck payload = .ok p) ↔
    ∃ front ip l4, p.hdrs = front ++ [ip, l4] ∧ Front 0x800 front ∧ IsIpv4 chk 1 (20 + p.payload.length + 4) ip ∧
      IsIcmp l4 := by
  constructor
  · rintro ⟨ed, es, ve, vid, pcp, ihl, src, dst, tos, ttl, id, frag, opts, ty, code, idata, ck, payload, h⟩
    obtain ⟨d, s, a, ld, ls, ha, hp, rfl⟩ := icmp_shape _ _ _ _ _ _ _ _ _ _ _ _ _ _ _ _ _ _ _ h
    exact ⟨_, _, _, rfl, (front_iff 0x800#16 _).mpr ⟨d, s, ve, vid, pcp, ld, ls, rfl⟩, (isIpv4_iff _ 1#8 _ _).mpr ⟨a, ha, hp, rfl⟩,
      (isIcmp_iff _).mpr ⟨_, _, rfl⟩⟩
  · rintro ⟨front, ip, l4, e, hf, hi, ht⟩
    obtain ⟨d, s, ve, vid, pcp, ld, ls, rfl⟩ := (front_iff 0x800#16 _).mp hf
    obtain ⟨a, ha, hp, rfl⟩ := (isIpv4_iff _ 1#8 _ _).mp hi
    obtain ⟨ty, code, rfl⟩ := (isIcmp_iff _).mp ht
    obtain ⟨td, hd⟩ := mac_text ld
    obtain ⟨ts, hs⟩ := mac_text ls
    obtain ⟨t1, f1⟩ := ip_text ha.1
    obtain ⟨t2, f2⟩ := ip_text ha.2
    refine ⟨td, ts, ve, vid, pcp, a.ihl, t1, t2, a.tos, a.ttl, a.id, a.frag, [], ty, code, [], false, p.payload, ?_⟩
    rw [C41_icmp chk _ _ _ _ _ d s hd hs a _ _ f1 f2, withProto_self a _ hp]
    exact congrArg (fun x => Except.ok (Packet.mk x p.payload)) e.symm

/-- **C89** `create_ipv6_packet`, provided every IPv6 address has a text. -/
theorem C89_ipv6 (p6 : Ipv6FromStr) (hw : Writable p6) (p : Packet) :
    (∃ ed es ve vid pcp tc flow nh hl src dst payload,
      create_ipv6_packet p6 ed es ve vid pcp tc flow nh hl src dst payload = .ok p) ↔
    ∃ front ip, ∃ next : Byte, p.hdrs = front ++ [ip] ∧ Front 0x86dd front ∧ IsIpv6 next.toNat p.payload.length ip := by
  constructor
  · rintro ⟨ed, es, ve, vid, pcp, tc, flow, nh, hl, src, dst, payload, h⟩
    obtain ⟨d, s, ld, ls, rfl⟩ := ipv6_shape _ _ _ _ _ _ _ _ _ _ _ _ _ h
    exact ⟨_, _, nh, rfl, (front_iff 0x86dd#16 _).mpr ⟨d, s, ve, vid, pcp, ld, ls, rfl⟩,
      (isIpv6_iff p6 hw _ _ _).mpr ⟨tc, flow, hl, src, dst, rfl⟩⟩
  · rintro ⟨front, ip, next, e, hf, hi⟩
    obtain ⟨d, s, ve, vid, pcp, ld, ls, rfl⟩ := (front_iff 0x86dd#16 _).mp hf
    obtain ⟨tc, flow, hl, src, dst, rfl⟩ := (isIpv6_iff p6 hw _ _ _).mp hi
    obtain ⟨td, hd⟩ := mac_text ld
    obtain ⟨ts, hs⟩ := mac_text ls
    refine ⟨td, ts, ve, vid, pcp, tc, flow, next, hl, src, dst, p.payload, ?_⟩
    rw [C41_ipv6 _ _ _ _ _ _ d s hd hs, ← e]

/-- **C89** `create_tcpv6_packet`. -/
theorem C89_tcpv6 (chk : Bool) (p6 : Ipv6FromStr) (hw : Writable p6) (p : Packet) :
    (∃ ed es ve vid pcp tc flow hl src dst tdst tsrc seq ack off res flags window urg payload,
      create_tcpv6_packet chk p6 ed es ve vid pcp tc flow hl src dst tdst tsrc seq ack off res flags window urg payload = .ok p) ↔
    ∃ front ip l4, p.hdrs = front ++ [ip, l4] ∧ Front 0x86dd front ∧ IsIpv6 6 (p.payload.length + 20) ip ∧ IsTcp l4 := by
  constructor
  · rintro ⟨ed, es, ve, vid, pcp, tc, flow, hl, src, dst, tdst, tsrc, seq, ack, off, res, flags, window, urg, payload, h⟩
    obtain ⟨d, s, ld, ls, rfl⟩ := tcpv6_shape _ _ _ _ _ _ _ _ _ _ _ _ _ _ _ _ _ _ _ _ _ _ h
    exact ⟨_, _, _, rfl, (front_iff 0x86dd#16 _).mpr ⟨d, s, ve, vid, pcp, ld, ls, rfl⟩,
      (isIpv6_iff p6 hw 6#8 _ _).mpr ⟨tc, flow, hl, src, dst, rfl⟩,
      (isTcp_iff _).mpr ⟨_, _, _, _, _, _, _, _, _, rfl⟩⟩
  · rintro ⟨front, ip, l4, e, hf, hi, ht⟩
    obtain ⟨d, s, ve, vid, pcp, ld, ls, rfl⟩ := (front_iff 0x86dd#16 _).mp hf
    obtain ⟨tc, flow, hl, src, dst, rfl⟩ := (isIpv6_iff p6 hw 6#8 _ _).mp hi
    obtain ⟨src', dst', seq, ack, off, res, flags, window, urg, rfl⟩ := (isTcp_iff _).mp ht
    obtain ⟨td, hd⟩ := mac_text ld
    obtain ⟨ts, hs⟩ := mac_text ls
    refine ⟨td, ts, ve, vid, pcp, tc, flow, hl, src, dst, dst', src', seq, ack, off, res, flags, window, urg, p.payload, ?_⟩
    rw [C41_tcpv6 chk p6 _ _ _ _ _ d s hd hs]
    exact congrArg (fun x => Except.ok (Packet.mk x p.payload)) e.symm

/-- **C89** `create_udpv6_packet`. -/
theorem C89_udpv6 (chk : Bool) (p6 : Ipv6FromStr) (hw : Writable p6) (p : Packet) :
    (∃ ed es ve vid pcp tc flow hl src dst udst usrc ck payload,
      create_udpv6_packet chk p6 ed es ve vid pcp tc flow hl src dst udst usrc ck payload = .ok p) ↔
    ∃ front ip l4, p.hdrs = front ++ [ip, l4] ∧ Front 0x86dd front ∧ IsIpv6 17 (p.payload.length + 8) ip ∧ IsUdp (8 + p.payload.length) 0xffff l4 := by
  constructor
  · rintro ⟨ed, es, ve, vid, pcp, tc, flow, hl, src, dst, udst, usrc, ck, payload, h⟩
    obtain ⟨d, s, ld, ls, rfl⟩ := udpv6_shape _ _ _ _ _ _ _ _ _ _ _ _ _ _ _ _ h
    exact ⟨_, _, _, rfl, (front_iff 0x86dd#16 _).mpr ⟨d, s, ve, vid, pcp, ld, ls, rfl⟩,
      (isIpv6_iff p6 hw 17#8 _ _).mpr ⟨tc, flow, hl, src, dst, rfl⟩,
      (isUdp_iff _ 0xffff#16 _).mpr ⟨_, _, rfl⟩⟩
  · rintro ⟨front, ip, l4, e, hf, hi, ht⟩
    obtain ⟨d, s, ve, vid, pcp, ld, ls, rfl⟩ := (front_iff 0x86dd#16 _).mp hf
    obtain ⟨tc, flow, hl, src, dst, rfl⟩ := (isIpv6_iff p6 hw 17#8 _ _).mp hi
    obtain ⟨src', dst', rfl⟩ := (isUdp_iff _ 0xffff#16 _).mp ht
    obtain ⟨td, hd⟩ := mac_text ld
    obtain ⟨ts, hs⟩ := mac_text ls
    refine ⟨td, ts, ve, vid, pcp, tc, flow, hl, src, dst, dst', src', false, p.payload, ?_⟩
    rw [C41_udpv6 chk p6 _ _ _ _ _ d s hd hs]
    exact congrArg (fun x => Except.ok (Packet.mk x p.payload)) e.symm

/-- **C89** `create_icmpv6_packet`. -/
theorem C89_icmpv6 (chk : Bool) (p6 : Ipv6FromStr) (hw : Writable p6) (p : Packet) :
    (∃ ed es ve vid pcp tc flow hl src dst ty code idata ck payload,
      create_icmpv6_packet chk p6 ed es ve vid pcp tc flow hl src dst ty code idata ck payload = .ok p) ↔
    ∃ front ip l4, p.hdrs = front ++ [ip, l4] ∧ Front 0x86dd front ∧ IsIpv6 58 (p.payload.length + 4) ip ∧ IsIcmp l4 := by
  constructor
  · rintro ⟨ed, es, ve, vid, pcp, tc, flow, hl, src, dst, ty, code, idata, ck, payload, h⟩
    obtain ⟨d, s, ld, ls, rfl⟩ := icmpv6_shape _ _ _ _ _ _ _ _ _ _ _ _ _ _ _ _ _ h
    exact ⟨_, _, _, rfl, (front_iff 0x86dd#16 _).mpr ⟨d, s, ve, vid, pcp, ld, ls, rfl⟩,
      (isIpv6_iff p6 hw 58#8 _ _).mpr ⟨tc, flow, hl, src, dst, rfl⟩,
      (isIcmp_iff _).mpr ⟨_, _, rfl⟩⟩
  · rintro ⟨front, ip, l4, e, hf, hi, ht⟩
    obtain ⟨d, s, ve, vid, pcp, ld, ls, rfl⟩ := (front_iff 0x86dd#16 _).mp hf
    obtain ⟨tc, flow, hl, src, dst, rfl⟩ := (isIpv6_iff p6 hw 58#8 _ _).mp hi
    obtain ⟨ty, code, rfl⟩ := (isIcmp_iff _).mp ht
    obtain ⟨td, hd⟩ := mac_text ld
    obtain ⟨ts, hs⟩ := mac_text ls
    refine ⟨td, ts, ve, vid, pcp, tc, flow, hl, src, dst, ty, code, [], false, p.payload, ?_⟩
    rw [C41_icmpv6 chk p6 _ _ _ _ _ d s hd hs]
    exact congrArg (fun x => Except.ok (Packet.mk x p.payload)) e.symm

/-- **C89** `create_ipv4ip_packet`: the payload, at least one octet, decides the protocol. -/
theorem C89_ipv4ip (chk : Bool) (p : Packet) :
    (∃ ed es ve vid pcp ihl src dst tos ttl id frag opts inner, create_ipv4ip_packet chk ed es ve vid pcp ihl src dst tos ttl id frag opts inner = .ok p) ↔
    p.payload ≠ [] ∧ ∃ front ip, p.hdrs = front ++ [ip] ∧ Front 0x800 front ∧
      IsIpv4 chk (if u8At p.payload 0 / 16 = 6 then 41 else 4) (20 + p.payload.length) ip := by
  have pr : ∀ b : Bytes, (if u8At b 0 / 16 = 6 then 41 else 4) = (ipipProto b).toNat := by
    intro b
    unfold ipipProto
    split <;> rfl
  rw [pr]
  constructor
  · rintro ⟨ed, es, ve, vid, pcp, ihl, src, dst, tos, ttl, id, frag, opts, inner, h⟩
    have hi := ((C41_ipv4ip_returns_iff ..).mp ⟨p, h⟩).2
    obtain ⟨d, s, a, ld, ls, ha, hp, rfl⟩ := ipv4ip_shape _ _ _ _ _ _ _ _ _ _ _ _ _ _ _ h
    exact ⟨hi, _, _, rfl, (front_iff 0x800#16 _).mpr ⟨d, s, ve, vid, pcp, ld, ls, rfl⟩, (isIpv4_iff ..).mpr ⟨a, ha, hp, rfl⟩⟩
  · rintro ⟨hn, front, ip, e, hf, hi⟩
    obtain ⟨d, s, ve, vid, pcp, ld, ls, rfl⟩ := (front_iff 0x800#16 _).mp hf
    obtain ⟨a, ha, hp, rfl⟩ := (isIpv4_iff ..).mp hi
    obtain ⟨td, hd⟩ := mac_text ld
    obtain ⟨ts, hs⟩ := mac_text ls
    obtain ⟨t1, f1⟩ := ip_text ha.1
    obtain ⟨t2, f2⟩ := ip_text ha.2
    refine ⟨td, ts, ve, vid, pcp, a.ihl, t1, t2, a.tos, a.ttl, a.id, a.frag, [], ⟨[], p.payload⟩, ?_⟩
    rw [C41_ipv4ip chk _ _ _ _ _ d s hd hs a _ _ f1 f2 _ _ (by rwa [onlyPayload]), onlyPayload, withProto_self a _ hp, ← e]

/-- **C89** `create_ipv6ip_packet`. -/
theorem C89_ipv6ip (p6 : Ipv6FromStr) (hw : Writable p6) (p : Packet) :
    (∃ ed es ve vid pcp tc flow hl src dst inner, create_ipv6ip_packet p6 ed es ve vid pcp tc flow hl src dst inner = .ok p) ↔
    p.payload ≠ [] ∧ ∃ front ip, p.hdrs = front ++ [ip] ∧ Front 0x86dd front ∧
      IsIpv6 (if u8At p.payload 0 / 16 = 6 then 41 else 4) p.payload.length ip := by
  have pr : ∀ b : Bytes, (if u8At b 0 / 16 = 6 then 41 else 4) = (ipipProto b).toNat := by
    intro b
    unfold ipipProto
    split <;> rfl
  rw [pr]
  constructor
  · rintro ⟨ed, es, ve, vid, pcp, tc, flow, hl, src, dst, inner, h⟩
    have hi := ((C41_ipv6ip_returns_iff ..).mp ⟨p, h⟩).2
    obtain ⟨d, s, ld, ls, rfl⟩ := ipv6ip_shape _ _ _ _ _ _ _ _ _ _ _ _ h
    exact ⟨hi, _, _, rfl, (front_iff 0x86dd#16 _).mpr ⟨d, s, ve, vid, pcp, ld, ls, rfl⟩,
      (isIpv6_iff p6 hw _ _ _).mpr ⟨tc, flow, hl, src, dst, rfl⟩⟩
  · rintro ⟨hn, front, ip, e, hf, hi⟩
    obtain ⟨d, s, ve, vid, pcp, ld, ls, rfl⟩ := (front_iff 0x86dd#16 _).mp hf
    obtain ⟨tc, flow, hl, src, dst, rfl⟩ := (isIpv6_iff p6 hw _ _ _).mp hi
    obtain ⟨td, hd⟩ := mac_text ld
    obtain ⟨ts, hs⟩ := mac_text ls
    refine ⟨td, ts, ve, vid, pcp, tc, flow, hl, src, dst, ⟨[], p.payload⟩, ?_⟩
    rw [C41_ipv6ip p6 _ _ _ _ _ d s hd hs _ _ _ _ _ _ (by rwa [onlyPayload]), onlyPayload, ← e]

/-- **C89** `create_vxlan_packet`: the IPv4 header is one for 16 octets less whose length was changed afterwards. -/
theorem C89_vxlan (chk : Bool) (p : Packet) :
    (∃ ed es ve vid pcp ihl src dst tos ttl id frag opts udst usrc ck vni inner,
      create_vxlan_packet chk ed es ve vid pcp ihl src dst tos ttl id frag opts udst usrc ck vni inner = .ok p) ↔
    ∃ front ip short udp vx, p.hdrs = front ++ [ip, udp, vx] ∧ Front 0x800 front ∧
      IsIpv4 chk 17 (20 + p.payload.length) short ∧
      Hdr.set short IPv4.total_len (BitVec.ofNat 64 (20 + p.payload.length + 16)) = .ok ip ∧
      IsUdp (16 + p.payload.length) 0 udp ∧ IsVxlan vx := by
  have cut : ∀ n : Nat, BitVec.setWidth 16 (BitVec.ofNat 64 n) = BitVec.ofNat 16 n := by
    intro n
    apply BitVec.eq_of_toNat_eq
    simp only [BitVec.toNat_setWidth, BitVec.toNat_ofNat]
    omega
  constructor
  · rintro ⟨ed, es, ve, vid, pcp, ihl, src, dst, tos, ttl, id, frag, opts, udst, usrc, ck, vni, inner, h⟩
    obtain ⟨d, s, a, ld, ls, ha, hp, rfl⟩ := vxlan_shape _ _ _ _ _ _ _ _ _ _ _ _ _ _ _ _ _ _ _ h
    refine ⟨_, _, _, _, _, rfl, (front_iff 0x800#16 _).mpr ⟨d, s, ve, vid, pcp, ld, ls, rfl⟩,
      (isIpv4_iff _ 17#8 _ _).mpr ⟨a, ha, hp, rfl⟩, ?_, (isUdp_iff _ 0#16 _).mpr ⟨_, _, rfl⟩, (isVxlan_iff _).mpr ⟨_, rfl⟩⟩
    rw [Ip4.hdr, a.set_len ha, cut]
  · rintro ⟨front, ip, short, udp, vx, e, hf, hi, hs', hu, hv⟩
    obtain ⟨d, s, ve, vid, pcp, ld, ls, rfl⟩ := (front_iff 0x800#16 _).mp hf
    obtain ⟨a, ha, hp, rfl⟩ := (isIpv4_iff _ 17#8 _ _).mp hi
    obtain ⟨src', dst', rfl⟩ := (isUdp_iff _ 0#16 _).mp hu
    obtain ⟨vni, rfl⟩ := (isVxlan_iff _).mp hv
    rw [Ip4.hdr, a.set_len ha, cut] at hs'
    obtain rfl := Except.ok.inj hs'
    obtain ⟨td, hd⟩ := mac_text ld
    obtain ⟨ts, hs⟩ := mac_text ls
    obtain ⟨t1, f1⟩ := ip_text ha.1
    obtain ⟨t2, f2⟩ := ip_text ha.2
    refine ⟨td, ts, ve, vid, pcp, a.ihl, t1, t2, a.tos, a.ttl, a.id, a.frag, [], dst', src', false, vni, ⟨[], p.payload⟩, ?_⟩
    rw [C41_vxlan chk _ _ _ _ _ d s hd hs a _ _ f1 f2, onlyPayload, withProto_self a _ hp]
    exact congrArg (fun x => Except.ok (Packet.mk x p.payload)) e.symm

/-- **C89** `create_vxlanv6_packet`: headers may follow the VXLAN header, and the payload starts with their octets. -/
theorem C89_vxlanv6 (chk : Bool) (p6 : Ipv6FromStr) (hw : Writable p6) (p : Packet) :
    (∃ ed es ve vid pcp tc flow hl src dst udst usrc ck vni inner,
      create_vxlanv6_packet chk p6 ed es ve vid pcp tc flow hl src dst udst usrc ck vni inner = .ok p) ↔
    ∃ front ip udp vx more rest, p.hdrs = front ++ [ip, udp, vx] ++ more ∧ p.payload = more.flatMap Hdr.data ++ rest ∧
      Front 0x86dd front ∧ IsIpv6 17 (p.payload.length + 16) ip ∧ IsUdp (16 + p.payload.length) 0xffff udp ∧
      IsVxlan vx := by
  constructor
  · rintro ⟨ed, es, ve, vid, pcp, tc, flow, hl, src, dst, udst, usrc, ck, vni, inner, h⟩
    obtain ⟨d, s, ld, ls, rfl⟩ := vxlanv6_shape _ _ _ _ _ _ _ _ _ _ _ _ _ _ _ _ _ h
    exact ⟨_, _, _, _, inner.hdrs, inner.payload, (List.append_assoc ..).symm, to_vec_data inner, (front_iff 0x86dd#16 _).mpr ⟨d, s, ve, vid, pcp, ld, ls, rfl⟩,
      (isIpv6_iff p6 hw 17#8 _ _).mpr ⟨tc, flow, hl, src, dst, rfl⟩,
      (isUdp_iff _ 0xffff#16 _).mpr ⟨_, _, rfl⟩, (isVxlan_iff _).mpr ⟨_, rfl⟩⟩
  · rintro ⟨front, ip, udp, vx, more, rest, e, ep, hf, hi, hu, hv⟩
    obtain ⟨d, s, ve, vid, pcp, ld, ls, rfl⟩ := (front_iff 0x86dd#16 _).mp hf
    obtain ⟨tc, flow, hl, src, dst, rfl⟩ := (isIpv6_iff p6 hw 17#8 _ _).mp hi
    obtain ⟨src', dst', rfl⟩ := (isUdp_iff _ 0xffff#16 _).mp hu
    obtain ⟨vni, rfl⟩ := (isVxlan_iff _).mp hv
    obtain ⟨td, hd⟩ := mac_text ld
    obtain ⟨ts, hs⟩ := mac_text ls
    refine ⟨td, ts, ve, vid, pcp, tc, flow, hl, src, dst, dst', src', false, vni, ⟨more, rest⟩, ?_⟩
    rw [C41_vxlanv6 chk p6 _ _ _ _ _ d s hd hs, to_vec_data, ← ep, ← e]

/-- **C89** `create_gre_packet`: the announced optional headers follow, except the routing list, which only counts in the
length. -/
theorem C89_gre (chk : Bool) (p : Packet) :
    (∃ ed es ve vid pcp ihl src dst tos ttl id frag opts c r k q st flags ver gck goff key seq routing inner,
      create_gre_packet chk ed es ve vid pcp ihl src dst tos ttl id frag opts c r k q st flags ver gck goff key seq routing inner
        = .ok p) ↔
    ∃ front ip gre o1 o2 o3 c r k q n, p.hdrs = front ++ [ip, gre] ++ o1 ++ o2 ++ o3 ∧ Front 0x800 front ∧
      IsIpv4 chk 47 (24 + p.payload.length + 4 * c.toNat + 4 * k.toNat + 4 * q.toNat + r.toNat * n) ip ∧
      IsGre c r k q (if u8At p.payload 0 / 16 = 4 then 0x800 else if u8At p.payload 0 / 16 = 6 then 0x86dd else 0) gre ∧
      OneIf GREChksumOffset c o1 ∧ OneIf GREKey k o2 ∧ OneIf GRESequenceNum q o3 := by
  have pr : ∀ b : Bytes, (if u8At b 0 / 16 = 4 then 0x800 else if u8At b 0 / 16 = 6 then 0x86dd else 0) = (greProto b).toNat := by
    intro b
    unfold greProto
    split
    · rfl
    · split <;> rfl
  have len : ∀ (c r k q : Bool) (routing : Bytes) (m : Nat), 20 + m + greLen c r k q routing =
      24 + m + 4 * c.toNat + 4 * k.toNat + 4 * q.toNat + r.toNat * routing.length := by
    intro c r k q routing m
    cases c <;> cases r <;> cases k <;> cases q <;> simp [greLen] <;> omega
  rw [pr]
  constructor
  · rintro ⟨ed, es, ve, vid, pcp, ihl, src, dst, tos, ttl, id, frag, opts, c, r, k, q, st, flags, ver, gck, goff, key, seq, routing, inner, h⟩
    obtain ⟨d, s, a, ld, ls, ha, hp, rfl⟩ := gre_shape _ _ _ _ _ _ _ _ _ _ _ _ _ _ _ _ _ _ _ _ _ _ _ _ _ _ _ h
    refine ⟨_, _, _, optHdrs c (Packet.gre_chksum_offset gck goff), optHdrs k (Packet.gre_key key),
      optHdrs q (Packet.gre_sequence_number seq), c, r, k, q, routing.length, ?_, (front_iff 0x800#16 _).mpr ⟨d, s, ve, vid, pcp, ld, ls, rfl⟩,
      (isIpv4_iff _ 47#8 _ _).mpr ⟨a, ha, hp, rfl⟩, (isGre_iff ..).mpr ⟨st, flags, ver, rfl⟩,
      (oneIf_iff _ _ _ _ wholeChk_iff).mpr ⟨(gck, goff), rfl⟩, (oneIf_iff _ _ _ _ wholeKey_iff).mpr ⟨key, rfl⟩,
      (oneIf_iff _ _ _ _ wholeSeq_iff).mpr ⟨seq, rfl⟩⟩
    rw [len]
    simp
  · rintro ⟨front, ip, gre, o1, o2, o3, c, r, k, q, n, e, hf, hi, hg, h1, h2, h3⟩
    obtain ⟨d, s, ve, vid, pcp, ld, ls, rfl⟩ := (front_iff 0x800#16 _).mp hf
    obtain ⟨a, ha, hp, rfl⟩ := (isIpv4_iff _ 47#8 _ _).mp hi
    obtain ⟨st, flags, ver, rfl⟩ := (isGre_iff ..).mp hg
    obtain ⟨⟨gck, goff⟩, rfl⟩ := (oneIf_iff _ _ _ _ wholeChk_iff).mp h1
    obtain ⟨key, rfl⟩ := (oneIf_iff _ _ _ _ wholeKey_iff).mp h2
    obtain ⟨seq, rfl⟩ := (oneIf_iff _ _ _ _ wholeSeq_iff).mp h3
    obtain ⟨td, hd⟩ := mac_text ld
    obtain ⟨ts, hs⟩ := mac_text ls
    obtain ⟨t1, f1⟩ := ip_text ha.1
    obtain ⟨t2, f2⟩ := ip_text ha.2
    have hib : ∃ inner : Option Packet, innerBytes inner = p.payload ∧ ∀ x, inner = some x → x.to_vec ≠ [] := by
      cases hpl : p.payload with
      | nil => exact ⟨none, rfl, fun x hx => nomatch hx⟩
      | cons x xs => exact ⟨some ⟨[], x :: xs⟩, onlyPayload _, fun y hy => by cases hy; simp [onlyPayload]⟩
    obtain ⟨inner, ib, hin⟩ := hib
    refine ⟨td, ts, ve, vid, pcp, a.ihl, t1, t2, a.tos, a.ttl, a.id, a.frag, [], c, r, k, q, st, flags, ver, gck, goff,
      key, seq, List.replicate n 0, inner, ?_⟩
    rw [C41_gre chk _ _ _ _ _ d s hd hs a _ _ f1 f2 _ _ _ _ _ _ _ _ _ _ _ _ _ _ hin, ib, withProto_self a _ hp, len,
      List.length_replicate]
    simp only [List.append_assoc] at e ⊢
    rw [← e]

/-- **C89** `create_erspan_2_packet`: the total length announced can be anything, whatever is carried, because the inner packet
counts with its declared length as well. -/
theorem C89_erspan2 (chk : Bool) (p : Packet) :
    (∃ ed es ve vid pcp ihl src dst tos ttl id frag opts seq vlan cos en t sid idx inner,
      create_erspan_2_packet chk ed es ve vid pcp ihl src dst tos ttl id frag opts seq vlan cos en t sid idx inner = .ok p) ↔
    ∃ front ip gre o er, ∃ (n : U32) (total : Nat), p.hdrs = front ++ [ip, gre] ++ o ++ [er] ∧ Front 0x800 front ∧
      IsIpv4 chk 47 total ip ∧ IsErspanGre (n.toNat ≠ 0) 0x88be gre ∧ SeqIs n.toNat o ∧ IsErspan2 er := by
  have nz : ∀ n : U32, (decide (n.toNat ≠ 0)) = decide (n ≠ 0#32) := by
    intro n
    have : n.toNat = 0 ↔ n = 0#32 := ⟨fun h => BitVec.eq_of_toNat_eq h, fun h => by rw [h]; rfl⟩
    simp [this]
  have gr : ∀ n : U32, (⟨GRE, [if n ≠ 0#32 then 0x10#8 else 0#8, 0#8, 0x88#8, 0xbe#8]⟩ : Hdr) =
      ⟨GRE, [if decide (n.toNat ≠ 0) then 0x10#8 else 0#8, 0#8] ++ be16 0x88be#16⟩ := by
    intro n
    rw [nz]
    by_cases h : n = 0#32 <;> simp [h, be16]
  constructor
  · rintro ⟨ed, es, ve, vid, pcp, ihl, src, dst, tos, ttl, id, frag, opts, seq, vlan, cos, en, t, sid, idx, inner, h⟩
    obtain ⟨d, s, a, ld, ls, ha, hp, rfl⟩ := erspan2_shape _ _ _ _ _ _ _ _ _ _ _ _ _ _ _ _ _ _ _ _ _ _ h
    refine ⟨_, _, _, _, Packet.erspan2 vlan cos en t sid idx, seq,
      20 + (innerBytes inner).length + (erspan2Len seq + innerLen inner), ?_, (front_iff 0x800#16 _).mpr ⟨d, s, ve, vid, pcp, ld, ls, rfl⟩,
      (isIpv4_iff _ 47#8 _ _).mpr ⟨a, ha, hp, rfl⟩, (isErspanGre_iff _ 0x88be#16 _).mpr rfl, (seqIs_iff ..).mpr rfl,
      (isErspan2_iff _).mpr ⟨_, _, _, _, _, _, rfl⟩⟩
    rw [gr]
    simp only [List.append_assoc]
  · rintro ⟨front, ip, gre, o, er, n, total, e, hf, hi, hg, ho, he⟩
    obtain ⟨d, s, ve, vid, pcp, ld, ls, rfl⟩ := (front_iff 0x800#16 _).mp hf
    obtain ⟨a, ha, hp, rfl⟩ := (isIpv4_iff _ 47#8 _ _).mp hi
    obtain rfl := (isErspanGre_iff _ 0x88be#16 _).mp hg
    obtain rfl := (seqIs_iff ..).mp ho
    obtain ⟨vlan, cos, en, t, sid, idx, rfl⟩ := (isErspan2_iff _).mp he
    obtain ⟨td, hd⟩ := mac_text ld
    obtain ⟨ts, hs⟩ := mac_text ls
    obtain ⟨t1, f1⟩ := ip_text ha.1
    obtain ⟨t2, f2⟩ := ip_text ha.2
    refine ⟨td, ts, ve, vid, pcp, a.ihl, t1, t2, a.tos, a.ttl, a.id, a.frag, [], n, vlan, cos, en, t, sid, idx,
      some ⟨List.replicate ((total + (20 + p.payload.length + erspan2Len n + p.payload.length) * 65535) * 43691) ⟨LLC, []⟩,
        p.payload⟩, ?_⟩
    have ib : ∀ m, (Packet.mk (List.replicate m ⟨LLC, []⟩) p.payload).to_vec = p.payload := by
      intro m
      rw [to_vec_data]
      simp
    have il : ∀ m, (Packet.mk (List.replicate m ⟨LLC, []⟩) p.payload).len = 3 * m + p.payload.length := by
      intro m
      simp [Packet.len, Hdr.len, LLC]
      omega
    rw [C41_erspan2 chk _ _ _ _ _ d s hd hs a _ _ f1 f2, withProto_self a _ hp, gr]
    simp only [innerBytes, innerLen, ib, il]
    have tot : ∀ b : Nat, BitVec.ofNat 16 (b + 3 * ((total + b * 65535) * 43691)) = BitVec.ofNat 16 total := by
      intro b
      apply BitVec.eq_of_toNat_eq
      simp only [BitVec.toNat_ofNat]
      omega
    rw [show ∀ x, 20 + p.payload.length + (erspan2Len n + (x + p.payload.length)) =
      20 + p.payload.length + erspan2Len n + p.payload.length + x from fun x => by omega, tot]
    simp only [List.append_assoc] at e ⊢
    rw [← e]

/-- **C89** `create_erspan_3_packet`: any headers may follow, the payload starts with their octets, and the announced length
counts them and the payload. -/
theorem C89_erspan3 (chk : Bool) (p : Packet) :
    (∃ ed es ve vid pcp ihl src dst tos ttl id frag opts seq vlan cos en t sid ts sgt ft pid info inner,
      create_erspan_3_packet chk ed es ve vid pcp ihl src dst tos ttl id frag opts seq vlan cos en t sid ts sgt ft pid info inner = .ok p) ↔
    ∃ front ip gre o er pf more rest, ∃ (n : U32) (f : Bool), p.hdrs = front ++ [ip, gre] ++ o ++ [er] ++ pf ++ more ∧
      p.payload = more.flatMap Hdr.data ++ rest ∧ Front 0x800 front ∧
      IsIpv4 chk 47 (36 + p.payload.length + (if n.toNat = 0 then 0 else 4) + 8 * f.toNat + (more.map Hdr.len).sum + rest.length)
        ip ∧
      IsErspanGre (n.toNat % 2 = 1) 0x22eb gre ∧ SeqIs n.toNat o ∧ IsErspan3 f.toNat er ∧ OneIf ERSPANPLATFORM f pf := by
  have gr : ∀ n : U32, (⟨GRE, [if n.toNat % 2 = 1 then 0x10#8 else 0#8, 0#8, 0x22#8, 0xeb#8]⟩ : Hdr) =
      ⟨GRE, [if decide (n.toNat % 2 = 1) then 0x10#8 else 0#8, 0#8] ++ be16 0x22eb#16⟩ := by
    intro n
    by_cases h : n.toNat % 2 = 1 <;> simp [h, be16]
  have ft1 : ∀ ft : U16, ft.toNat % 2 = (decide (ft.toNat % 2 = 1)).toNat := by
    intro ft
    by_cases h : ft.toNat % 2 = 1
    · simp [h]
    · simp [h]
      omega
  have len : ∀ (n : U32) (ft : U16) (m x y : Nat), 20 + m + (erspan3Len n ft + (x + y)) =
      36 + m + (if n.toNat = 0 then 0 else 4) + 8 * (decide (ft.toNat % 2 = 1)).toNat + x + y := by
    intro n ft m x y
    have key : n.toNat = 0 ↔ n = 0#32 := ⟨fun h => BitVec.eq_of_toNat_eq h, fun h => by rw [h]; rfl⟩
    unfold erspan3Len
    by_cases h1 : n = 0#32 <;> by_cases h2 : ft.toNat % 2 = 1 <;> simp [key, h1, h2] <;> omega
  constructor
  · rintro ⟨ed, es, ve, vid, pcp, ihl, src, dst, tos, ttl, id, frag, opts, seq, vlan, cos, en, t, sid, ts, sgt, ft, pid, info, inner, h⟩
    obtain ⟨d, s, a, ld, ls, ha, hp, rfl⟩ := erspan3_shape _ _ _ _ _ _ _ _ _ _ _ _ _ _ _ _ _ _ _ _ _ _ _ _ _ _ h
    have hin : ∃ rest, innerBytes inner = (innerHdrs inner).flatMap Hdr.data ++ rest ∧
        innerLen inner = ((innerHdrs inner).map Hdr.len).sum + rest.length := by
      cases inner with
      | none => exact ⟨[], rfl, rfl⟩
      | some q => exact ⟨q.payload, to_vec_data q, rfl⟩
    obtain ⟨rest, e1, e2⟩ := hin
    refine ⟨_, _, _, _, Packet.erspan3 vlan cos en t sid ts sgt ft, optHdrs (ft.toNat % 2 = 1) (platform pid info),
      innerHdrs inner, rest, seq, ft.toNat % 2 = 1, ?_, e1, (front_iff 0x800#16 _).mpr ⟨d, s, ve, vid, pcp, ld, ls, rfl⟩,
      (isIpv4_iff _ 47#8 _ _).mpr ⟨a, ha, hp, rfl⟩, (isErspanGre_iff _ 0x22eb#16 _).mpr rfl, (seqIs_iff ..).mpr rfl,
      (isErspan3_iff ..).mpr ⟨vlan, cos, en, t, sid, ts, sgt, ft, ft1 ft, rfl⟩,
      (oneIf_iff _ _ _ _ wholePlatform_iff).mpr ⟨(pid, info), rfl⟩⟩
    rw [gr, e2, len]
    simp only [List.append_assoc]
    rfl
  · rintro ⟨front, ip, gre, o, er, pf, more, rest, n, f, e, ep, hf, hi, hg, ho, he, hpf⟩
    obtain ⟨d, s, ve, vid, pcp, ld, ls, rfl⟩ := (front_iff 0x800#16 _).mp hf
    obtain ⟨a, ha, hp, rfl⟩ := (isIpv4_iff _ 47#8 _ _).mp hi
    obtain rfl := (isErspanGre_iff _ 0x22eb#16 _).mp hg
    obtain rfl := (seqIs_iff ..).mp ho
    obtain ⟨vlan, cos, en, t, sid, tst, sgt, ft, ef, rfl⟩ := (isErspan3_iff ..).mp he
    obtain rfl : f = decide (ft.toNat % 2 = 1) := by
      cases f <;> simp [ef]
    obtain ⟨⟨pid, info⟩, rfl⟩ := (oneIf_iff _ _ _ _ wholePlatform_iff).mp hpf
    obtain ⟨td, hd⟩ := mac_text ld
    obtain ⟨ts, hs⟩ := mac_text ls
    obtain ⟨t1, f1⟩ := ip_text ha.1
    obtain ⟨t2, f2⟩ := ip_text ha.2
    refine ⟨td, ts, ve, vid, pcp, a.ihl, t1, t2, a.tos, a.ttl, a.id, a.frag, [], n, vlan, cos, en, t, sid, tst, sgt, ft, pid,
      info, some ⟨more, rest⟩, ?_⟩
    rw [C41_erspan3 chk _ _ _ _ _ d s hd hs a _ _ f1 f2, withProto_self a _ hp, gr]
    simp only [innerBytes, innerLen, innerHdrs, Packet.len, to_vec_data, len]
    rw [← ep]
    simp only [List.append_assoc, List.cons_append, List.nil_append] at e ⊢
    rw [← e]

/-! ## Concrete packets -/

namespace ImageEx

/-- A frame header of type 0x0800. -/
def eth : Hdr := ⟨Ether, [0, 1, 2, 3, 4, 5, 6, 7, 8, 9, 10, 11, 8, 0]⟩
/-- An IPv4 header for 115 octets of UDP with its checksum. -/
def ip : Hdr := ⟨IPv4, [0x45, 0, 0, 0x73, 0, 0, 0x40, 0, 0x40, 0x11, 0xb8, 0x61, 0xc0, 0xa8, 0, 1, 0xc0, 0xa8, 0, 0xc7]⟩
/-- The same header with version 12. -/
def ip12 : Hdr := ⟨IPv4, [0xc5, 0, 0, 0x73, 0, 0, 0x40, 0, 0x40, 0x11, 0x38, 0x61, 0xc0, 0xa8, 0, 1, 0xc0, 0xa8, 0, 0xc7]⟩
/-- A TCP header whose checksum is not 0. -/
def tcp : Hdr := ⟨TCP, [0, 80, 4, 210, 0, 0, 0, 7, 0, 0, 0, 9, 0x50, 2, 2, 0, 0xab, 0xcd, 0, 0]⟩
/-- A UDP header for 95 octets. -/
def udp (c : Byte) : Hdr := ⟨UDP, [0, 53, 0, 53, 0, 95, 0, c]⟩

/-- Evaluates a getter on a literal header. -/
local macro "lit" : tactic => `(tactic| (intro chk; cases chk <;> exact ⟨_, rfl, rfl⟩))

theorem front : Front 0x800 [eth] := .plain ⟨rfl, rfl⟩ (by lit)

theorem isIp : IsIpv4 true 17 115 ip :=
  ⟨⟨rfl, rfl⟩, ⟨4, by lit, by decide⟩, by lit, by lit, 0xb861, by decide +kernel, by lit⟩

theorem isIp12 : IsIpv4 true 17 115 ip12 :=
  ⟨⟨rfl, rfl⟩, ⟨12, by lit, by decide⟩, by lit, by lit, 0x3861, by decide +kernel, by lit⟩

/-- Some call of `create_ipv4_packet` returns the packet with this header, -/
example : ∃ ed es ve vid pcp ihl src dst proto tos ttl id frag opts payload,
    create_ipv4_packet true ed es ve vid pcp ihl src dst proto tos ttl id frag opts payload =
      .ok ⟨[eth, ip], List.replicate 95 1⟩ :=
  (C89_ipv4 true _).mpr ⟨[eth], ip, 17, rfl, front, isIp⟩

/-- and some call the one with version 12; -/
example : ∃ ed es ve vid pcp ihl src dst proto tos ttl id frag opts payload,
    create_ipv4_packet true ed es ve vid pcp ihl src dst proto tos ttl id frag opts payload =
      .ok ⟨[eth, ip12], List.replicate 95 1⟩ :=
  (C89_ipv4 true _).mpr ⟨[eth], ip12, 17, rfl, front, isIp12⟩

/-- none the one with a payload of another length. -/
example : ¬ ∃ ed es ve vid pcp ihl src dst proto tos ttl id frag opts payload,
    create_ipv4_packet true ed es ve vid pcp ihl src dst proto tos ttl id frag opts payload =
      .ok ⟨[eth, ip], List.replicate 94 1⟩ := by
  rw [C89_ipv4]
  rintro ⟨front, i, proto, e, -, hi⟩
  obtain ⟨-, e2⟩ := List.append_inj' (s₁ := [eth]) (t₁ := [ip]) e rfl
  obtain rfl := (List.cons.inj e2).1
  have h : ip.Reads IPv4.total_len 115 := by lit
  exact absurd (h.unique hi.length) (by decide)

/-- `create_udp_packet` returns the packet with UDP checksum 0 and not the one with checksum 1. -/
example : (∃ ed es ve vid pcp ihl src dst tos ttl id frag opts udst usrc ck payload,
    create_udp_packet true ed es ve vid pcp ihl src dst tos ttl id frag opts udst usrc ck payload =
      .ok ⟨[eth, ip, udp 0], List.replicate 87 1⟩) ∧
    ¬ ∃ ed es ve vid pcp ihl src dst tos ttl id frag opts udst usrc ck payload,
    create_udp_packet true ed es ve vid pcp ihl src dst tos ttl id frag opts udst usrc ck payload =
      .ok ⟨[eth, ip, udp 1], List.replicate 87 1⟩ := by
  refine ⟨(C89_udp true _).mpr ⟨[eth], ip, udp 0, rfl, front, isIp, ⟨rfl, rfl⟩, by lit, by lit⟩, ?_⟩
  rw [C89_udp]
  rintro ⟨front, i, u, e, -, -, hu⟩
  obtain ⟨-, e2⟩ := List.append_inj' (s₁ := [eth]) (t₁ := [ip, udp 1]) e rfl
  obtain rfl := (List.cons.inj (List.cons.inj e2).2).1
  have h : (udp 1).Reads UDP.checksum 1 := by lit
  exact absurd (h.unique hu.2.2) (by decide)

/-- A received TCP packet with a checksum is never what `create_tcp_packet` returns. -/
example (hs : List Hdr) (payload : Bytes) : ¬ ∃ ed es ve vid pcp ihl src dst tos ttl id frag opts tdst tsrc seq ack off res
    flags window urg ck pl, create_tcp_packet true ed es ve vid pcp ihl src dst tos ttl id frag opts tdst tsrc seq ack off res
    flags window urg ck pl = .ok ⟨hs ++ [tcp], payload⟩ := by
  rw [C89_tcp]
  rintro ⟨front, i, u, e, -, -, hu⟩
  rw [show front ++ [i, u] = (front ++ [i]) ++ [u] by simp] at e
  obtain ⟨-, e2⟩ := List.append_inj' e rfl
  obtain rfl := (List.cons.inj e2).1
  have h : tcp.Reads TCP.checksum 0xabcd := by lit
  exact absurd (h.unique hu.2) (by decide)

/-- A text form in which every address can be written: one character per octet. -/
def p6 : Ipv6FromStr := fun s =>
  if h : (s.map fun c => BitVec.ofNat 8 c.toNat).length = 16 then
    some ⟨(s.map fun c => BitVec.ofNat 8 c.toNat).toArray, h⟩ else none

theorem p6_writable : Writable p6 := by
  intro a
  have hb : ∀ b : Byte, BitVec.ofNat 8 (Char.ofNat b.toNat).toNat = b := by decide +kernel
  refine ⟨a.toList.map fun b => Char.ofNat b.toNat, ?_⟩
  have e : ((a.toList.map fun b => Char.ofNat b.toNat).map fun c => BitVec.ofNat 8 c.toNat) = a.toList := by
    rw [List.map_map]
    conv => rhs; rw [← List.map_id a.toList]
    exact List.map_congr_left fun b _ => hb b
  unfold p6
  simp [e]
  exact Array.toArray_toList

/-- Some call of `create_ipv6_packet` returns a packet of version 15; none returns one of version 4. -/
example : (∃ ed es ve vid pcp tc flow nh hl src dst payload,
    create_ipv6_packet p6 ed es ve vid pcp tc flow nh hl src dst payload =
      .ok ⟨[⟨Ether, List.replicate 12 7 ++ [0x86, 0xdd]⟩, ⟨IPv6, [0xf0, 0, 0, 0, 0, 2] ++ List.replicate 34 9⟩], [1, 2]⟩) ∧
    ¬ ∃ ed es ve vid pcp tc flow nh hl src dst payload,
    create_ipv6_packet p6 ed es ve vid pcp tc flow nh hl src dst payload =
      .ok ⟨[⟨Ether, List.replicate 12 7 ++ [0x86, 0xdd]⟩, ⟨IPv6, [0x40, 0, 0, 0, 0, 2] ++ List.replicate 34 9⟩], [1, 2]⟩ := by
  refine ⟨(C89_ipv6 p6 p6_writable _).mpr ⟨[_], _, 9, rfl, .plain ⟨rfl, rfl⟩ (by lit), ⟨rfl, rfl⟩, ⟨15, by lit, by decide⟩,
    by lit, by lit⟩, ?_⟩
  rw [C89_ipv6 p6 p6_writable]
  rintro ⟨front, i, u, e, -, -, ⟨v, rv, hv⟩, -⟩
  obtain ⟨-, e2⟩ := List.append_inj' (s₁ := [_]) (t₁ := [_]) e rfl
  obtain rfl := (List.cons.inj e2).1
  have h : (Hdr.mk IPv6 ([0x40, 0, 0, 0, 0, 2] ++ List.replicate 34 9)).Reads IPv6.version 4 := by lit
  exact absurd (rv.unique h ▸ hv) (by decide)

/-- Some call of `create_erspan_2_packet` returns a packet of 64 octets that announces 115. -/
example : ∃ ed es ve vid pcp ihl src dst tos ttl id frag opts seq vlan cos en t sid idx inner,
    create_erspan_2_packet true ed es ve vid pcp ihl src dst tos ttl id frag opts seq vlan cos en t sid idx inner =
      .ok ⟨[eth, ⟨IPv4, [0x45, 0, 0, 0x73, 0, 0, 0x40, 0, 0x40, 0x2f, 0xb8, 0x43, 0xc0, 0xa8, 0, 1, 0xc0, 0xa8, 0, 0xc7]⟩,
        ⟨GRE, [0x10, 0, 0x88, 0xbe]⟩, ⟨GRESequenceNum, [0, 0, 0, 24]⟩, ⟨ERSPAN2, [0x10, 100, 0, 77, 0, 0, 0, 9]⟩],
        List.replicate 14 1⟩ :=
  (C89_erspan2 true _).mpr ⟨[eth], _, _, [_], _, 24#32, 115, rfl, front,
    ⟨⟨rfl, rfl⟩, ⟨4, by lit, by decide⟩, by lit, by lit, 0xb843, by decide +kernel, by lit⟩,
    ⟨⟨⟨rfl, rfl⟩, by lit, by lit, by lit, by lit, by lit, by lit⟩, by lit, by lit, by lit⟩,
    ⟨_, rfl, ⟨rfl, rfl⟩, by lit⟩, ⟨rfl, rfl⟩, 1, by lit, rfl⟩

end ImageEx

end PacketRs
