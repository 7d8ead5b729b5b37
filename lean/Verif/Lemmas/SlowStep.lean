import Verif.Lemmas.Step
/-!
# Every slow parser function is one step of `dstep`
-/
namespace PacketRs
open Spec

theorem map_eq_bind {α β : Type} (x : R α) (f : α → β) : x.map f = (do let a ← x; pure (f a)) := by
  cases x <;> rfl

theorem one_ok {T : HeaderDef} {b : Bytes} {l : Layer} (h : T.size ≤ b.length) :
    one T b l = some ([⟨T, b.take T.size⟩], T.size, l) := by simp [one, h]

theorem one_none {T : HeaderDef} {b : Bytes} {l : Layer} (h : b.length < T.size) :
    one T b l = none := by
  have : ¬ T.size ≤ b.length := by omega
  simp [one, this]

namespace Slow

theorem ether_step (chk : Bool) (b : Bytes) :
    parse_ethernet chk b = stepThen chk b (dstep .ether b) := by
  rw [parse_ethernet]
  by_cases h : Ether.size ≤ b.length
  · have hl : (b.take Ether.size).length = 14 := by rw [List.length_take]; exact Nat.min_eq_left h
    rw [slice0_ok _ _ h, sliceFrom_ok _ _ h]
    simp only [R.ok_bind]
    rw [get_u16 chk _ _ Ether.etype 12 (by omega) rfl rfl]
    simp only [R.ok_bind]
    refine (dispatch_ether chk _ (u16At_lt _ _) _ (fun pkt => pure (pkt.insert (Ether.ofVec (b.take Ether.size))))).trans ?_
    rw [u16At_take _ _ _ (by decide)]
    simp only [dstep, one_ok h, stepThen, map_eq_bind]
    rfl
  · rw [slice_err _ _ _ (by omega)]
    simp only [dstep, one_none (by omega : b.length < Ether.size)]
    rfl

theorem vlan_step (chk : Bool) (b : Bytes) :
    parse_vlan chk b = stepThen chk b (dstep .vlan b) := by
  rw [parse_vlan]
  by_cases h : Vlan.size ≤ b.length
  · have hl : (b.take Vlan.size).length = 4 := by rw [List.length_take]; exact Nat.min_eq_left h
    rw [slice0_ok _ _ h, sliceFrom_ok _ _ h]
    simp only [R.ok_bind]
    rw [get_u16 chk _ _ Vlan.etype 2 (by omega) rfl rfl]
    simp only [R.ok_bind]
    refine (dispatch_ether chk _ (u16At_lt _ _) _ (fun pkt => pure (pkt.insert (Vlan.ofVec (b.take Vlan.size))))).trans ?_
    rw [u16At_take _ _ _ (by decide)]
    simp only [dstep, one_ok h, stepThen, map_eq_bind]
    rfl
  · rw [slice_err _ _ _ (by omega)]
    simp only [dstep, one_none (by omega : b.length < Vlan.size)]
    rfl

theorem ipv4_step (chk : Bool) (b : Bytes) :
    parse_ipv4 chk b = stepThen chk b (dstep .ipv4 b) := by
  rw [parse_ipv4]
  by_cases h : IPv4.size ≤ b.length
  · have hl : (b.take IPv4.size).length = 20 := by rw [List.length_take]; exact Nat.min_eq_left h
    rw [slice0_ok _ _ h, sliceFrom_ok _ _ h]
    simp only [R.ok_bind]
    rw [get_u8 chk _ _ IPv4.protocol 9 (by omega) rfl rfl]
    simp only [R.ok_bind]
    refine (dispatch_ipv4 chk _ (u8At_lt _ _) _ (fun pkt => pure (pkt.insert (IPv4.ofVec (b.take IPv4.size))))).trans ?_
    rw [u8At_take _ _ _ (by decide)]
    simp only [dstep, one_ok h, stepThen, map_eq_bind]
    rfl
  · rw [slice_err _ _ _ (by omega)]
    simp only [dstep, one_none (by omega : b.length < IPv4.size)]
    rfl

theorem ipv6_step (chk : Bool) (b : Bytes) :
    parse_ipv6 chk b = stepThen chk b (dstep .ipv6 b) := by
  rw [parse_ipv6]
  by_cases h : IPv6.size ≤ b.length
  · have hl : (b.take IPv6.size).length = 40 := by rw [List.length_take]; exact Nat.min_eq_left h
    rw [slice0_ok _ _ h, sliceFrom_ok _ _ h]
    simp only [R.ok_bind]
    rw [get_u8 chk _ _ IPv6.next_hdr 6 (by omega) rfl rfl]
    simp only [R.ok_bind]
    refine (dispatch_ipv6 chk _ (u8At_lt _ _) _ (fun pkt => pure (pkt.insert (IPv6.ofVec (b.take IPv6.size))))).trans ?_
    rw [u8At_take _ _ _ (by decide)]
    simp only [dstep, one_ok h, stepThen, map_eq_bind]
    rfl
  · rw [slice_err _ _ _ (by omega)]
    simp only [dstep, one_none (by omega : b.length < IPv6.size)]
    rfl

theorem mpls_step (chk : Bool) (b : Bytes) :
    parse_mpls chk b = stepThen chk b (dstep .mpls b) := by
  rw [parse_mpls]
  by_cases h : MPLS.size ≤ b.length
  · have hl : (b.take MPLS.size).length = 4 := by rw [List.length_take]; exact Nat.min_eq_left h
    rw [slice0_ok _ _ h, sliceFrom_ok _ _ h]
    simp only [R.ok_bind]
    rw [get_bit chk _ _ MPLS.bos 2 0 (by omega) (by omega) rfl rfl]
    simp only [R.ok_bind, bit_eq_one]
    rw [bitAt_take _ _ _ _ (by decide)]
    simp only [dstep, one_ok h, stepThen, map_eq_bind]
    by_cases hb : bitAt b 2 0 = true
    · simp only [hb, if_true]; rfl
    · simp only [hb]; rfl
  · rw [slice_err _ _ _ (by omega)]
    simp only [dstep, one_none (by omega : b.length < MPLS.size)]
    rfl

theorem mpls_bos_step (chk : Bool) (b : Bytes) :
    parse_mpls_bos chk b = stepThen chk b (dstep .mplsBos b) := by
  rw [parse_mpls_bos]
  by_cases h : MPLS.size ≤ b.length
  · rw [slice0_ok _ _ h, sliceFrom_ok _ _ h]
    by_cases h' : 4 < b.length
    · rw [index_eq_u8 _ _ (by exact h')]
      simp only [R.ok_bind]
      refine (dispatch_bos chk _ (u8At_lt _ _) _ (fun pkt => pure (pkt.insert (MPLS.ofVec (b.take MPLS.size))))).trans ?_
      simp only [dstep, one_ok h, stepThen, map_eq_bind, h', if_true]
      rfl
    · rw [index_err _ _ (by simp only [MPLS]; omega)]
      simp only [dstep, h', if_false]
      rfl
  · rw [slice_err _ _ _ (by omega)]
    have h' : ¬ 4 < b.length := by simp only [MPLS] at h; omega
    simp only [dstep, h', if_false]
    rfl

theorem udp_step (chk : Bool) (b : Bytes) :
    parse_udp chk b = stepThen chk b (dstep .udp b) := by
  rw [parse_udp]
  by_cases h : UDP.size ≤ b.length
  · have hl : (b.take UDP.size).length = 8 := by rw [List.length_take]; exact Nat.min_eq_left h
    rw [slice0_ok _ _ h, sliceFrom_ok _ _ h]
    simp only [R.ok_bind]
    rw [get_u16 chk _ _ UDP.dst 2 (by omega) rfl rfl]
    simp only [R.ok_bind]
    rw [setWidth16_ofNat64, u16At_take _ _ _ (by decide)]
    have hp : (BitVec.ofNat 16 (u16At b 2) = UDP_PORT_VXLAN) = (u16At b 2 = 4789) :=
      ofNat16_eq _ 4789 (u16At_lt _ _)
    simp only [hp, dstep, one_ok h, stepThen, map_eq_bind]
    by_cases hb : u16At b 2 = 4789
    · simp only [hb, if_true]; rfl
    · simp only [hb, if_false]; rfl
  · rw [slice_err _ _ _ (by omega)]
    simp only [dstep, one_none (by omega : b.length < UDP.size)]
    rfl

theorem erspan2_step (chk : Bool) (b : Bytes) :
    parse_erspan2 chk b = stepThen chk b (dstep .erspan2 b) := by
  rw [parse_erspan2]
  by_cases h : ERSPAN2.size ≤ b.length
  · rw [slice0_ok _ _ h, sliceFrom_ok _ _ h]
    simp only [R.ok_bind, dstep, one_ok h, stepThen, map_eq_bind]
    rfl
  · rw [slice_err _ _ _ (by omega)]
    simp only [dstep, one_none (by omega : b.length < ERSPAN2.size)]
    rfl

theorem vxlan_step (chk : Bool) (b : Bytes) :
    parse_vxlan chk b = stepThen chk b (dstep .vxlan b) := by
  rw [parse_vxlan]
  by_cases h : Vxlan.size ≤ b.length
  · rw [slice0_ok _ _ h, sliceFrom_ok _ _ h]
    simp only [R.ok_bind, dstep, one_ok h, stepThen, map_eq_bind]
    rfl
  · rw [sliceFrom_err _ _ (by omega)]
    simp only [dstep, one_none (by omega : b.length < Vxlan.size)]
    rfl

theorem arp_step (chk : Bool) (b : Bytes) :
    parse_arp b = stepThen chk b (dstep .arp b) := by
  rw [parse_arp]
  by_cases h : ARP.size ≤ b.length
  · rw [slice0_ok _ _ h, sliceFrom_ok _ _ h]
    simp only [R.ok_bind, dstep, one_ok h, stepThen, map_eq_bind]
    rfl
  · rw [sliceFrom_err _ _ (by omega)]
    simp only [dstep, one_none (by omega : b.length < ARP.size)]
    rfl

theorem icmp_step (chk : Bool) (b : Bytes) :
    parse_icmp b = stepThen chk b (dstep .icmp b) := by
  rw [parse_icmp]
  by_cases h : ICMP.size ≤ b.length
  · rw [slice0_ok _ _ h, sliceFrom_ok _ _ h]
    simp only [R.ok_bind, dstep, one_ok h, stepThen, map_eq_bind]
    rfl
  · rw [sliceFrom_err _ _ (by omega)]
    simp only [dstep, one_none (by omega : b.length < ICMP.size)]
    rfl

theorem tcp_step (chk : Bool) (b : Bytes) :
    parse_tcp b = stepThen chk b (dstep .tcp b) := by
  rw [parse_tcp]
  by_cases h : TCP.size ≤ b.length
  · rw [slice0_ok _ _ h, sliceFrom_ok _ _ h]
    simp only [R.ok_bind, dstep, one_ok h, stepThen, map_eq_bind]
    rfl
  · rw [sliceFrom_err _ _ (by omega)]
    simp only [dstep, one_none (by omega : b.length < TCP.size)]
    rfl

theorem snap_step (chk : Bool) (b : Bytes) :
    parse_snap b = stepThen chk b (dstep .snap b) := by
  rw [parse_snap]
  by_cases h : SNAP.size ≤ b.length
  · rw [slice0_ok _ _ h, sliceFrom_ok _ _ h]
    simp only [R.ok_bind, dstep, one_ok h, stepThen, map_eq_bind]
    rfl
  · rw [slice_err _ _ _ (by omega)]
    simp only [dstep, one_none (by omega : b.length < SNAP.size)]
    rfl

theorem dot3_step (chk : Bool) (b : Bytes) :
    parse_dot3 b = stepThen chk b (dstep .dot3 b) := by
  rw [parse_dot3]
  by_cases h : Dot3.size ≤ b.length
  · rw [slice0_ok _ _ h, sliceFrom_ok _ _ h]
    simp only [R.ok_bind, dstep, one_ok h, stepThen, map_eq_bind]
    rfl
  · rw [slice_err _ _ _ (by omega)]
    simp only [dstep, one_none (by omega : b.length < Dot3.size)]
    rfl

theorem llc_step (chk : Bool) (b : Bytes) :
    parse_llc b = stepThen chk b (dstep .llc b) := by
  rw [parse_llc]
  by_cases h : LLC.size ≤ b.length
  · match b, h with
    | x :: y :: z :: r, h =>
      rw [slice0_ok _ _ h, sliceFrom_ok _ _ h]
      simp only [dstep, one_ok h, stepThen, map_eq_bind]
      have t : List.take 3 (x :: y :: z :: r) = [x, y, z] := rfl
      rw [t]
      by_cases hx : x = 0xAA#8
      · subst hx
        by_cases hy : y = 0xAA#8
        · subst hy
          by_cases hz : z = 0x03#8
          · subst hz; rfl
          · simp [index, hz]; rfl
        · simp [index, hy]; rfl
      · simp [index, hx]; rfl
    | [], h => simp [LLC] at h
    | [_], h => simp [LLC] at h
    | [_, _], h => simp [LLC] at h
  · rw [slice_err _ _ _ (by omega)]
    simp only [dstep, one_none (by omega : b.length < LLC.size)]
    rfl

theorem optHdr_ok (T : HeaderDef) (p : Bool) (b : Bytes) (o : Nat) (h : o + optLen p T.size ≤ b.length) :
    optHdr T (BitVec.ofNat 64 p.toNat) b o =
      .ok (if p then some ⟨T, (b.drop o).take T.size⟩ else none) := by
  unfold optHdr
  cases p
  · rfl
  · simp only [optLen, if_true] at h
    rw [if_pos (by rfl), slice_ok _ _ _ (by omega) h]
    simp [R.pure_eq, HeaderDef.ofVec]

theorem optHdr_err (T : HeaderDef) (p : Bool) (b : Bytes) (o : Nat) (h0 : o ≤ b.length)
    (h : b.length < o + optLen p T.size) :
    optHdr T (BitVec.ofNat 64 p.toNat) b o = .error .index := by
  unfold optHdr
  cases p
  · simp [optLen] at h; omega
  · simp only [optLen, if_true] at h
    rw [if_pos (by rfl), slice_err _ _ _ h]
    rfl

theorem optOffset_eq (T : HeaderDef) (p : Bool) (o : Nat) :
    optOffset T (BitVec.ofNat 64 p.toNat) o = o + optLen p T.size := by
  cases p <;> simp [optLen, optOffset]

theorem insertOpt_eq (T : HeaderDef) (p : Bool) (b : Bytes) (o : Nat) (pkt : Packet) :
    insertOpt pkt (if p then some ⟨T, (b.drop o).take T.size⟩ else none) = prep (optAt T p b o) pkt := by
  cases p <;> rfl

theorem erspan3_step (chk : Bool) (b : Bytes) :
    parse_erspan3 chk b = stepThen chk b (dstep .erspan3 b) := by
  rw [parse_erspan3]
  by_cases h : ERSPAN3.size ≤ b.length
  · have hl : (b.take ERSPAN3.size).length = 12 := by rw [List.length_take]; exact Nat.min_eq_left h
    rw [slice0_ok _ _ h]
    simp only [R.ok_bind]
    rw [get_bit chk _ _ ERSPAN3.o 11 0 (by omega) (by omega) rfl rfl]
    simp only [R.ok_bind]
    rw [bitAt_take _ _ _ _ (by decide), optOffset_eq]
    by_cases h2 : ERSPAN3.size + optLen (bitAt b 11 0) ERSPANPLATFORM.size ≤ b.length
    · rw [optHdr_ok _ _ _ _ h2, sliceFrom_ok _ _ h2]
      simp only [R.ok_bind, insertOpt_eq, dstep]
      have h3 : 12 + optLen (bitAt b 11 0) 8 ≤ b.length := h2
      rw [if_pos h3]
      simp only [stepThen, map_eq_bind]
      rfl
    · rw [optHdr_err _ _ _ _ h (by omega)]
      have h3 : ¬ 12 + optLen (bitAt b 11 0) 8 ≤ b.length := h2
      simp only [dstep, h3, if_false]
      rfl
  · rw [slice_err _ _ _ (by omega)]
    have h3 : ¬ 12 + optLen (bitAt b 11 0) 8 ≤ b.length := by simp only [ERSPAN3] at h; omega
    simp only [dstep, h3, if_false]
    rfl

theorem prep_prep (a c : List Hdr) (p : Packet) : prep a (prep c p) = prep (a ++ c) p := by
  simp [prep]

theorem insert_eq_prep (h : Hdr) (p : Packet) : p.insert h = prep [h] p := rfl

theorem gre_step (chk : Bool) (b : Bytes) :
    parse_gre chk b = stepThen chk b (dstep .gre b) := by
  rw [parse_gre]
  by_cases h : GRE.size ≤ b.length
  · have hl : (b.take GRE.size).length = 4 := by rw [List.length_take]; exact Nat.min_eq_left h
    rw [slice0_ok _ _ h]
    simp only [R.ok_bind]
    rw [get_u16 chk _ _ GRE.proto 2 (by omega) rfl rfl,
      get_bit chk _ _ GRE.chksum_present 0 7 (by omega) (by omega) rfl rfl,
      get_bit chk _ _ GRE.seqnum_present 0 4 (by omega) (by omega) rfl rfl,
      get_bit chk _ _ GRE.key_present 0 5 (by omega) (by omega) rfl rfl]
    simp only [R.ok_bind]
    rw [bitAt_take _ _ _ _ (by decide), bitAt_take _ _ _ _ (by decide), bitAt_take _ _ _ _ (by decide),
      u16At_take _ _ _ (by decide), optOffset_eq, optOffset_eq, optOffset_eq]
    by_cases h2 : GRE.size + optLen (bitAt b 0 7) GREChksumOffset.size ≤ b.length
    · rw [optHdr_ok _ _ _ _ h2]
      by_cases h3 : GRE.size + optLen (bitAt b 0 7) GREChksumOffset.size
          + optLen (bitAt b 0 5) GREKey.size ≤ b.length
      · rw [optHdr_ok _ _ _ _ h3]
        by_cases h4 : GRE.size + optLen (bitAt b 0 7) GREChksumOffset.size
            + optLen (bitAt b 0 5) GREKey.size + optLen (bitAt b 0 4) GRESequenceNum.size ≤ b.length
        · rw [optHdr_ok _ _ _ _ h4, sliceFrom_ok _ _ h4]
          simp only [R.ok_bind]
          refine (dispatch_gre chk _ (u16At_lt _ _) _ (fun pkt => pure ((insertOpt (insertOpt (insertOpt pkt
            (if bitAt b 0 7 then some ⟨GREChksumOffset, (b.drop GRE.size).take GREChksumOffset.size⟩ else none))
            (if bitAt b 0 5 then some ⟨GREKey,
              (b.drop (GRE.size + optLen (bitAt b 0 7) GREChksumOffset.size)).take GREKey.size⟩ else none))
            (if bitAt b 0 4 then some ⟨GRESequenceNum,
              (b.drop (GRE.size + optLen (bitAt b 0 7) GREChksumOffset.size
                + optLen (bitAt b 0 5) GREKey.size)).take GRESequenceNum.size⟩ else none)).insert
            (GRE.ofVec (b.take GRE.size))))).trans ?_
          have h4' : 4 + optLen (bitAt b 0 7) 4 + optLen (bitAt b 0 5) 4 + optLen (bitAt b 0 4) 4
            ≤ b.length := h4
          simp only [insertOpt_eq, dstep, h4', if_true, stepThen, map_eq_bind, insert_eq_prep, prep_prep]
          rfl
        · rw [optHdr_err _ _ _ _ h3 (by omega)]
          have h4' : ¬ 4 + optLen (bitAt b 0 7) 4 + optLen (bitAt b 0 5) 4 + optLen (bitAt b 0 4) 4
            ≤ b.length := h4
          simp only [dstep, h4', if_false]
          rfl
      · rw [optHdr_err _ _ _ _ h2 (by omega)]
        have h3' : ¬ 4 + optLen (bitAt b 0 7) 4 + optLen (bitAt b 0 5) 4 ≤ b.length := h3
        have h4' : ¬ 4 + optLen (bitAt b 0 7) 4 + optLen (bitAt b 0 5) 4 + optLen (bitAt b 0 4) 4
          ≤ b.length := by omega
        simp only [dstep, h4', if_false]
        rfl
    · rw [optHdr_err _ _ _ _ h (by omega)]
      have h2' : ¬ 4 + optLen (bitAt b 0 7) 4 ≤ b.length := h2
      have h4' : ¬ 4 + optLen (bitAt b 0 7) 4 + optLen (bitAt b 0 5) 4 + optLen (bitAt b 0 4) 4
        ≤ b.length := by omega
      simp only [dstep, h4', if_false]
      rfl
  · rw [slice_err _ _ _ (by omega)]
    have h' : ¬ 4 ≤ b.length := h
    have h4' : ¬ 4 + optLen (bitAt b 0 7) 4 + optLen (bitAt b 0 5) 4 + optLen (bitAt b 0 4) 4
      ≤ b.length := by omega
    simp only [dstep, h4', if_false]
    rfl

/-- Every parser function is one step of `dstep` followed by the parser of the next layer. -/
theorem parseL_eq (chk : Bool) (l : Layer) (b : Bytes) (hl : l ≠ .payload) :
    parseL chk l b = stepThen chk b (dstep l b) := by
  cases l with
  | payload => exact absurd rfl hl
  | ether => exact ether_step chk b
  | vlan => exact vlan_step chk b
  | mpls => exact mpls_step chk b
  | mplsBos => exact mpls_bos_step chk b
  | ipv4 => exact ipv4_step chk b
  | ipv6 => exact ipv6_step chk b
  | gre => exact gre_step chk b
  | erspan2 => exact erspan2_step chk b
  | erspan3 => exact erspan3_step chk b
  | arp => exact arp_step chk b
  | icmp => exact icmp_step chk b
  | tcp => exact tcp_step chk b
  | udp => exact udp_step chk b
  | vxlan => exact vxlan_step chk b
  | dot3 => exact dot3_step chk b
  | llc => exact llc_step chk b
  | snap => exact snap_step chk b

theorem parse_eq (chk : Bool) (b : Bytes) :
    parse chk b = if b.length < 14 then .error .index
      else parseL chk (if u16At b 12 < 1500 then .dot3 else .ether) b := by
  unfold parse
  by_cases h : b.length < 14
  · rw [if_pos h]
    by_cases h2 : b.length ≤ 12
    · rw [index_err _ _ h2]; rfl
    · rw [index_ok _ _ (by omega), index_err _ _ (by omega)]; rfl
  · rw [if_neg h, index_ok _ _ (by omega), index_ok _ _ (by omega)]
    simp only [R.ok_bind]
    have key : ((b.getD 12 0#8).setWidth 16 <<< 8 ||| (b.getD 13 0#8).setWidth 16 : U16).toNat
        = u16At b 12 := by
      unfold u16At u8At
      have h1 := (b.getD 12 0#8).isLt
      have h2 := (b.getD 13 0#8).isLt
      generalize b.getD 12 0#8 = x at *
      generalize b.getD 13 0#8 = y at *
      simp only [BitVec.toNat_or, BitVec.toNat_shiftLeft, BitVec.toNat_setWidth]
      rw [Nat.mod_eq_of_lt (by omega : x.toNat < 2 ^ 16), Nat.mod_eq_of_lt (by omega : y.toNat < 2 ^ 16),
        Nat.shiftLeft_eq, Nat.mod_eq_of_lt (by omega : x.toNat * 2 ^ 8 < 2 ^ 16), Nat.mul_comm,
        ← Nat.two_pow_add_eq_or_of_lt (by omega : y.toNat < 2 ^ 8)]
    have hlt : ((b.getD 12 0#8).setWidth 16 <<< 8 ||| (b.getD 13 0#8).setWidth 16 < 1500#16)
        = (u16At b 12 < 1500) := by
      rw [BitVec.lt_def, key]; rfl
    simp only [hlt]
    by_cases h3 : u16At b 12 < 1500
    · simp only [h3, if_true]; rfl
    · simp only [h3, if_false]; rfl

end Slow
end PacketRs
