import Verif.Lemmas.Pieces
import Verif.Packet
import Verif.Props.Text
import Verif.Props.Fields
import Verif.Props.Container
import Verif.Props.Checksum
/-!
# Properties C33 - C38: the header constructors of `Packet`

`Hdr.Reads h f n` (Verif.Spec.Read): the getter of field `f` returns `n`.
-/
namespace PacketRs
open Spec

theorem fv16 (x : U16) : fieldVal (be16 x) 0 15 = x.toNat := by
  rw [fieldVal_all _ _ rfl, beNat_be16]
theorem fv32 (x : U32) : fieldVal (be32 x) 0 31 = x.toNat := by
  rw [fieldVal_all _ _ rfl, beNat_be32]
theorem fv8 (x : Byte) : fieldVal [x] 0 7 = x.toNat := by
  rw [fieldVal_all _ _ rfl, beNat_singleton]

/-- Prove `Reads` of a field of a header built from pieces; leaves an arithmetic goal, if any. -/
macro "reads" f:ident : tactic => `(tactic| (
  refine reads_of (by decide) (by decide) (by simp [*, HeaderDef.ofVec, $f:ident]) ?_
  simp (disch := simp [*]) only [HeaderDef.ofVec, $f:ident, List.append_assoc, fieldVal_append_left, fieldVal_append_right, be16_length, be32_length,
    List.length_cons, List.length_nil, List.length_append, *, fv16, fv32, fv8, Nat.reduceMul, Nat.reduceSub, Nat.reduceAdd, Nat.sub_self, Nat.zero_add]))

/-! ## C33 -/

theorem C33_ethernet (dst src : Str) (etype : U16) (d s : Bytes) (hd : to_mac_bytes dst = .ok d)
    (hs : to_mac_bytes src = .ok s) : ∃ h, Packet.ethernet dst src etype = .ok h ∧ h.ty = Ether ∧
      h.data.length = 14 ∧ h.Reads Ether.dst (beNat d) ∧ h.Reads Ether.src (beNat s) ∧
      h.Reads Ether.etype etype.toNat ∧ h.data = d ++ s ++ be16 etype := by
  have ld := C31_length dst d hd
  have ls := C31_length src s hs
  refine ⟨Ether.ofVec (d ++ s ++ be16 etype), by simp only [Packet.ethernet, hd, hs]; rfl, rfl,
    by simp [HeaderDef.ofVec, ld, ls], ?_, ?_, ?_, rfl⟩
  · reads Ether.dst
    rw [fieldVal_all _ _ (by omega)]
  · reads Ether.src
    rw [fieldVal_all _ _ (by omega)]
  · reads Ether.etype

theorem C33_dot3 (dst src : Str) (length : U16) (d s : Bytes) (hd : to_mac_bytes dst = .ok d)
    (hs : to_mac_bytes src = .ok s) : ∃ h, Packet.dot3 dst src length = .ok h ∧ h.ty = Dot3 ∧
      h.data.length = 14 ∧ h.Reads Dot3.dst (beNat d) ∧ h.Reads Dot3.src (beNat s) ∧
      h.Reads Dot3.length length.toNat ∧ h.data = d ++ s ++ be16 length := by
  have ld := C31_length dst d hd
  have ls := C31_length src s hs
  refine ⟨Dot3.ofVec (d ++ s ++ be16 length), by simp only [Packet.dot3, hd, hs]; rfl, rfl,
    by simp [HeaderDef.ofVec, ld, ls], ?_, ?_, ?_, rfl⟩
  · reads Dot3.dst
    rw [fieldVal_all _ _ (by omega)]
  · reads Dot3.src
    rw [fieldVal_all _ _ (by omega)]
  · reads Dot3.length

theorem C33_arp (opcode : U16) (smac tmac sip tip : Str) (sm tm si ti : Bytes)
    (h1 : to_mac_bytes smac = .ok sm) (h2 : to_mac_bytes tmac = .ok tm)
    (h3 : to_ipv4_bytes sip = .ok si) (h4 : to_ipv4_bytes tip = .ok ti) :
    ∃ h, Packet.arp opcode smac tmac sip tip = .ok h ∧ h.ty = ARP ∧ h.data.length = 28 ∧
      h.Reads ARP.hwtype 1 ∧ h.Reads ARP.proto_type 0x0800 ∧ h.Reads ARP.hwlen 6 ∧
      h.Reads ARP.proto_len 4 ∧ h.Reads ARP.opcode opcode.toNat ∧
      h.Reads ARP.sender_hw_addr (beNat sm) ∧ h.Reads ARP.sender_proto_addr (beNat si) ∧
      h.Reads ARP.target_hw_addr (beNat tm) ∧ h.Reads ARP.target_proto_addr (beNat ti) := by
  have l1 := C31_length _ _ h1
  have l2 := C31_length _ _ h2
  have l3 := C32_length _ _ h3
  have l4 := C32_length _ _ h4
  refine ⟨ARP.ofVec (be16 1 ++ be16 0x0800 ++ [6#8] ++ [4#8] ++ be16 opcode ++ sm ++ si ++ tm ++ ti),
    by simp only [Packet.arp, h1, h2, h3, h4]; rfl, rfl, by simp [HeaderDef.ofVec, *],
    ?_, ?_, ?_, ?_, ?_, ?_, ?_, ?_, ?_⟩
  · reads ARP.hwtype
    rfl
  · reads ARP.proto_type
    rfl
  · reads ARP.hwlen
    rfl
  · reads ARP.proto_len
    rfl
  · reads ARP.opcode
  · reads ARP.sender_hw_addr
    rw [fieldVal_all _ _ (by omega)]
  · reads ARP.sender_proto_addr
    rw [fieldVal_all _ _ (by omega)]
  · reads ARP.target_hw_addr
    rw [fieldVal_all _ _ (by omega)]
  · reads ARP.target_proto_addr
    rw [fieldVal_all _ _ (by omega)]

theorem C33_udp (src dst length : U16) :
    (Packet.udp src dst length).ty = UDP ∧ (Packet.udp src dst length).data.length = 8 ∧
      (Packet.udp src dst length).Reads UDP.src src.toNat ∧
      (Packet.udp src dst length).Reads UDP.dst dst.toNat ∧
      (Packet.udp src dst length).Reads UDP.length length.toNat ∧
      (Packet.udp src dst length).Reads UDP.checksum 0 := by
  refine ⟨rfl, rfl, ?_, ?_, ?_, ?_⟩ <;> unfold Packet.udp
  · reads UDP.src
  · reads UDP.dst
  · reads UDP.length
  · reads UDP.checksum
    rfl

theorem C33_icmp (t c : Byte) :
    (Packet.icmp t c).ty = ICMP ∧ (Packet.icmp t c).data.length = 4 ∧
      (Packet.icmp t c).Reads ICMP.icmp_type t.toNat ∧ (Packet.icmp t c).Reads ICMP.icmp_code c.toNat ∧
      (Packet.icmp t c).Reads ICMP.chksum 0 := by
  refine ⟨rfl, rfl, ?_, ?_, ?_⟩ <;> unfold Packet.icmp
  · reads ICMP.icmp_type
  · reads ICMP.icmp_code
  · reads ICMP.chksum
    rfl

theorem C33_gre_options (chksum offset : U16) (seqnum key : U32) :
    (Packet.gre_chksum_offset chksum offset).ty = GREChksumOffset ∧
      (Packet.gre_chksum_offset chksum offset).data.length = 4 ∧
      (Packet.gre_chksum_offset chksum offset).Reads GREChksumOffset.chksum chksum.toNat ∧
      (Packet.gre_chksum_offset chksum offset).Reads GREChksumOffset.offset offset.toNat ∧
    (Packet.gre_sequence_number seqnum).ty = GRESequenceNum ∧
      (Packet.gre_sequence_number seqnum).data.length = 4 ∧
      (Packet.gre_sequence_number seqnum).Reads GRESequenceNum.seqnum seqnum.toNat ∧
    (Packet.gre_key key).ty = GREKey ∧ (Packet.gre_key key).data.length = 4 ∧
      (Packet.gre_key key).Reads GREKey.key key.toNat := by
  refine ⟨rfl, rfl, ?_, ?_, rfl, rfl, ?_, rfl, rfl, ?_⟩
  · unfold Packet.gre_chksum_offset; reads GREChksumOffset.chksum
  · unfold Packet.gre_chksum_offset; reads GREChksumOffset.offset
  · unfold Packet.gre_sequence_number; reads GRESequenceNum.seqnum
  · unfold Packet.gre_key; reads GREKey.key

/-- **C33**: `ethernet`, `dot3` and `arp` panic exactly when one of the addresses does not convert. -/
theorem C33_panics_iff (dst src sip tip : Str) (x : U16) :
    ((∃ e, Packet.ethernet dst src x = .error e) ↔
      (∃ e, to_mac_bytes dst = .error e) ∨ ∃ e, to_mac_bytes src = .error e) ∧
    ((∃ e, Packet.dot3 dst src x = .error e) ↔
      (∃ e, to_mac_bytes dst = .error e) ∨ ∃ e, to_mac_bytes src = .error e) ∧
    ((∃ e, Packet.arp x dst src sip tip = .error e) ↔
      (∃ e, to_mac_bytes dst = .error e) ∨ (∃ e, to_mac_bytes src = .error e) ∨
      (∃ e, to_ipv4_bytes sip = .error e) ∨ ∃ e, to_ipv4_bytes tip = .error e) := by
  refine ⟨?_, ?_, ?_⟩
  · unfold Packet.ethernet
    cases to_mac_bytes dst <;> cases to_mac_bytes src <;> simp [bind, Except.bind, pure, Except.pure]
  · unfold Packet.dot3
    cases to_mac_bytes dst <;> cases to_mac_bytes src <;> simp [bind, Except.bind, pure, Except.pure]
  · unfold Packet.arp
    cases to_mac_bytes dst <;> cases to_mac_bytes src <;> cases to_ipv4_bytes sip <;> cases to_ipv4_bytes tip <;>
      simp [bind, Except.bind, pure, Except.pure]

-- seven octets, seven octets, five octets
example : (∃ e, Packet.ethernet "0:0:0:0:0:0:0".toList "".toList 0 = .error e) ∧
    (∃ e, Packet.dot3 "".toList "0:0:0:0:0:0:0".toList 0 = .error e) ∧
    (∃ e, Packet.arp 1 "".toList "".toList "1.2.3.4".toList "1.2.3.4.5".toList = .error e) ∧
    (∃ h, Packet.arp 1 "".toList "".toList "1.2.3.4".toList "1.2.3.4".toList = .ok h) :=
  ⟨⟨.index, by decide +kernel⟩, ⟨.index, by decide +kernel⟩, ⟨.index, by decide +kernel⟩, ⟨_, rfl⟩⟩

example : (Packet.ethernet "00:01:02:03:04:05".toList "ff:FF:00:00:00:01".toList 0x0800#16).map (·.data) =
    .ok [0#8, 1#8, 2#8, 3#8, 4#8, 5#8, 255#8, 255#8, 0#8, 0#8, 0#8, 1#8, 8#8, 0#8] := by decide +kernel

/-! ## C34, C35: bit-packed constructors

For every constructor first the exact value of every field for all arguments (C35), then the
consequence for arguments that fit (C34). -/

theorem or_fld (a b k w : Nat) : (a ||| b) / 2 ^ k % 2 ^ w = a / 2 ^ k % 2 ^ w ||| b / 2 ^ k % 2 ^ w := by
  rw [Nat.or_div_two_pow, Nat.or_mod_two_pow]

theorem or_fld' (a b K W k w : Nat) (hK : K = 2 ^ k) (hW : W = 2 ^ w) :
    (a ||| b) / K % W = a / K % W ||| b / K % W := by
  subst hK hW; exact or_fld a b k w

theorem or_mod' (a b W w : Nat) (hW : W = 2 ^ w) : (a ||| b) % W = a % W ||| b % W := by
  subst hW; exact Nat.or_mod_two_pow

theorem or_left {a b x : Nat} (h1 : a = x) (h2 : b = 0) : a ||| b = x := by subst h1 h2; simp
theorem or_right {a b x : Nat} (h1 : a = 0) (h2 : b = x) : a ||| b = x := by subst h1 h2; simp
theorem or_three {a b c x y z : Nat} (h1 : a = x) (h2 : b = y) (h3 : c = z) : a ||| b ||| c = x ||| y ||| z := by
  rw [h1, h2, h3]
theorem or_both {a b x y : Nat} (h1 : a = x) (h2 : b = y) : a ||| b = x ||| y := by rw [h1, h2]

/-- Unfold the arithmetic of a packed word. -/
macro "packed" : tactic => `(tactic|
  simp only [fieldVal_be16, fieldVal_be32, fieldVal_byte, BitVec.toNat_or, BitVec.toNat_and, BitVec.toNat_shiftLeft,
    BitVec.toNat_setWidth, BitVec.toNat_ofNat, BitVec.ofNat_eq_ofNat, Nat.shiftLeft_eq, Nat.reduceSub, Nat.reduceAdd, Nat.reducePow,
    Nat.reduceMod, Nat.reduceMul, Nat.reduceDiv, Nat.sub_zero, Nat.sub_self, Nat.pow_zero, Nat.div_one])

/-- The tag word of `Packet::vlan`. -/
theorem vlan_eq (pcp cfi : Byte) (vid etype : U16) :
    Packet.vlan pcp cfi vid etype =
      .ok (Vlan.ofVec (be16 (vid ||| (pcp.setWidth 16 <<< 13)) ++ be16 etype)) := by
  have e : [(vid >>> 8).setWidth 8 ||| (pcp <<< 5), vid.setWidth 8] = be16 (vid ||| (pcp.setWidth 16 <<< 13)) := by
    unfold be16
    congr 1
    · apply BitVec.eq_of_getLsbD_eq
      intro i hi
      simp only [BitVec.getLsbD_or, BitVec.getLsbD_setWidth, BitVec.getLsbD_ushiftRight, BitVec.getLsbD_shiftLeft]
      have h1 : i < 8 := hi
      have h2 : 8 + i < 16 := by omega
      simp only [h1, h2, decide_true, Bool.true_and]
      by_cases h5 : i < 5
      · have : 8 + i < 13 := by omega
        simp [h5, this]
      · have : ¬ 8 + i < 13 := by omega
        simp only [h5, this, decide_false, Bool.not_false, Bool.true_and]
        congr 1
        rw [show 8 + i - 13 = i - 5 by omega]
        simp; omega
    · congr 1
      apply BitVec.eq_of_getLsbD_eq
      intro i hi
      have h1 : i < 13 := by omega
      simp
  rw [← e]
  rfl

/-- **C35** `Packet::vlan`: the argument `vid` spills into the priority and the CFI bit; the CFI argument
is ignored. -/
theorem C35_vlan (pcp cfi : Byte) (vid etype : U16) :
    ∃ h, Packet.vlan pcp cfi vid etype = .ok h ∧ h.ty = Vlan ∧ h.data.length = 4 ∧
      h.Reads Vlan.pcp (vid.toNat / 2 ^ 13 ||| pcp.toNat % 8) ∧
      h.Reads Vlan.cfi (vid.toNat / 2 ^ 12 % 2) ∧
      h.Reads Vlan.vid (vid.toNat % 2 ^ 12) ∧ h.Reads Vlan.etype etype.toNat := by
  have hv := vid.isLt
  have hp := pcp.isLt
  refine ⟨_, vlan_eq pcp cfi vid etype, rfl, by simp [HeaderDef.ofVec], ?_, ?_, ?_, ?_⟩
  · reads Vlan.pcp
    packed
    rw [or_fld' _ _ 8192 8 13 3 rfl rfl]
    exact or_both (by omega) (by omega)
  · reads Vlan.cfi
    packed
    rw [or_fld' _ _ 4096 2 12 1 rfl rfl]
    exact or_left (by omega) (by omega)
  · reads Vlan.vid
    packed
    rw [or_mod' _ _ 4096 12 rfl]
    exact or_left (by omega) (by omega)
  · reads Vlan.etype

/-- **C34** `Packet::vlan`. -/
theorem C34_vlan (pcp cfi : Byte) (vid etype : U16) (h1 : pcp.toNat < 8) (h2 : vid.toNat < 4096) :
    ∃ h, Packet.vlan pcp cfi vid etype = .ok h ∧ h.ty = Vlan ∧ h.data.length = 4 ∧
      h.Reads Vlan.pcp pcp.toNat ∧ h.Reads Vlan.cfi 0 ∧ h.Reads Vlan.vid vid.toNat ∧
      h.Reads Vlan.etype etype.toNat := by
  obtain ⟨h, e, t, l, a, b, c, d⟩ := C35_vlan pcp cfi vid etype
  rw [show vid.toNat / 2 ^ 13 = 0 by omega, show pcp.toNat % 8 = pcp.toNat by omega, Nat.zero_or] at a
  rw [show vid.toNat / 2 ^ 12 % 2 = 0 by omega] at b
  rw [show vid.toNat % 2 ^ 12 = vid.toNat by omega] at c
  exact ⟨h, e, t, l, a, b, c, d⟩

-- the CFI argument never has any effect, and vid 4096 reads as CFI 1, vid 0
example : (∃ h, Packet.vlan 3 1 100 0x800 = .ok h ∧ h.data = [0x60#8, 0x64#8, 8#8, 0#8]) ∧
    (∃ h, Packet.vlan 0 0 4096 0x800 = .ok h ∧ h.data = [0x10#8, 0#8, 8#8, 0#8]) :=
  ⟨⟨⟨Vlan, [0x60#8, 0x64#8, 8#8, 0#8]⟩, by decide +kernel⟩, ⟨⟨Vlan, [0x10#8, 0#8, 8#8, 0#8]⟩, by decide +kernel⟩⟩

/-- The bytes `Packet::ipv4` lays out before it fills in the checksum. -/
def ipv4Raw (ihl tos : Byte) (id : U16) (ttl : Byte) (frag : U16) (proto : Byte) (s d : Bytes) (len : U16)
    (ck : U16) : Bytes :=
  [0x40#8 ||| ihl] ++ [tos] ++ be16 len ++ be16 id ++ be16 frag ++ [ttl] ++ [proto] ++ be16 ck ++ s ++ d

/-- What `Packet::ipv4` returns. -/
theorem ipv4_eq (chk : Bool) (ihl tos : Byte) (id : U16) (ttl : Byte) (frag : U16) (proto : Byte)
    (src dst : Str) (len : U16) (s d : Bytes) (hs : to_ipv4_bytes src = .ok s) (hd : to_ipv4_bytes dst = .ok d) :
    ∃ c, (∀ chk, Packet.ipv4_checksum chk (ipv4Raw ihl tos id ttl frag proto s d len 0) = .ok c) ∧
      Packet.ipv4 chk ihl tos id ttl frag proto src dst len =
        .ok ⟨IPv4, ipv4Raw ihl tos id ttl frag proto s d len c⟩ := by
  have ls := C32_length _ _ hs
  have ld := C32_length _ _ hd
  have hl : (ipv4Raw ihl tos id ttl frag proto s d len 0).length = 20 := by simp [ipv4Raw, ls, ld]
  obtain ⟨c, hc⟩ : ∃ c, ∀ chk, Packet.ipv4_checksum chk (ipv4Raw ihl tos id ttl frag proto s d len 0) = .ok c :=
    ⟨_, fun chk => checksum_eq chk _ (by omega) (by omega)⟩
  refine ⟨c, hc, ?_⟩
  unfold Packet.ipv4
  rw [hs, hd]
  simp only [bind, Except.bind]
  have hc' := hc chk
  unfold ipv4Raw at hc'
  rw [hc']
  simp only
  change Hdr.set ⟨IPv4, ipv4Raw ihl tos id ttl frag proto s d len 0⟩ _ _ = _
  rw [set_be16 _ _ 10 _ (by rfl) (by rfl) (by change 12 ≤ (ipv4Raw ihl tos id ttl frag proto s d len 0).length; omega)]
  have e : BitVec.setWidth 16 (BitVec.setWidth 64 c) = c := by
    apply BitVec.eq_of_toNat_eq
    have := c.isLt
    simp only [BitVec.toNat_setWidth]; omega
  rw [e]
  simp [ipv4Raw, be16]

/-- **C35** `Packet::ipv4`: `ihl` spills into the version; everything else, including the three flag bits
that are part of the `frag` argument, is laid out as given, and the checksum is that of the header. -/
theorem C35_ipv4 (chk : Bool) (ihl tos : Byte) (id : U16) (ttl : Byte) (frag : U16) (proto : Byte)
    (src dst : Str) (len : U16) (s d : Bytes) (hs : to_ipv4_bytes src = .ok s) (hd : to_ipv4_bytes dst = .ok d) :
    ∃ h c, Packet.ipv4 chk ihl tos id ttl frag proto src dst len = .ok h ∧ h.ty = IPv4 ∧ h.data.length = 20 ∧
      h.Reads IPv4.version (4 ||| ihl.toNat / 16) ∧ h.Reads IPv4.ihl (ihl.toNat % 16) ∧
      h.Reads IPv4.diffserv tos.toNat ∧ h.Reads IPv4.total_len len.toNat ∧ h.Reads IPv4.identification id.toNat ∧
      h.Reads IPv4.flags (frag.toNat / 2 ^ 13) ∧ h.Reads IPv4.frag_startset (frag.toNat % 2 ^ 13) ∧
      h.Reads IPv4.ttl ttl.toNat ∧ h.Reads IPv4.protocol proto.toNat ∧
      h.Reads IPv4.header_checksum c ∧ Packet.ipv4_checksum chk h.data = .ok (BitVec.ofNat 16 c) ∧
      h.Reads IPv4.src (beNat s) ∧ h.Reads IPv4.dst (beNat d) := by
  have ls := C32_length _ _ hs
  have ld := C32_length _ _ hd
  have h1 := ihl.isLt
  have h2 := frag.isLt
  obtain ⟨c, hc, e⟩ := ipv4_eq chk ihl tos id ttl frag proto src dst len s d hs hd
  refine ⟨_, c.toNat, e, rfl, by simp [ipv4Raw, ls, ld], ?_, ?_, ?_, ?_, ?_, ?_, ?_, ?_, ?_, ?_, ?_, ?_, ?_⟩ <;>
    unfold ipv4Raw
  · reads IPv4.version
    packed
    rw [or_fld' _ _ 16 16 4 4 rfl rfl]
    exact or_both (by rfl) (by omega)
  · reads IPv4.ihl
    packed
    rw [or_mod' _ _ 16 4 rfl]
    exact or_right (by rfl) (by omega)
  · reads IPv4.diffserv
  · reads IPv4.total_len
  · reads IPv4.identification
  · reads IPv4.flags
    packed
    omega
  · reads IPv4.frag_startset
    packed
  · reads IPv4.ttl
  · reads IPv4.protocol
  · reads IPv4.header_checksum
  · rw [BitVec.ofNat_toNat, BitVec.setWidth_eq, ← hc chk]
    apply C40_ignores_checksum_field
    · simp [ipv4Raw]
    · intro i h1 h2
      simp only [ipv4Raw, be16, List.cons_append, List.nil_append]
      match i with
      | 0 | 1 | 2 | 3 | 4 | 5 | 6 | 7 | 8 | 9 => rfl
      | 10 => omega
      | 11 => omega
      | _ + 12 => rfl
  · reads IPv4.src
    rw [fieldVal_all _ _ (by omega)]
  · reads IPv4.dst
    rw [fieldVal_all _ _ (by omega)]

/-- **C34** `Packet::ipv4`. -/
theorem C34_ipv4 (chk : Bool) (ihl tos : Byte) (id : U16) (ttl : Byte) (frag : U16) (proto : Byte)
    (src dst : Str) (len : U16) (s d : Bytes) (hs : to_ipv4_bytes src = .ok s) (hd : to_ipv4_bytes dst = .ok d)
    (hi : ihl.toNat < 16) (hf : frag.toNat < 2 ^ 13) :
    ∃ h c, Packet.ipv4 chk ihl tos id ttl frag proto src dst len = .ok h ∧ h.ty = IPv4 ∧ h.data.length = 20 ∧
      h.Reads IPv4.version 4 ∧ h.Reads IPv4.ihl ihl.toNat ∧
      h.Reads IPv4.diffserv tos.toNat ∧ h.Reads IPv4.total_len len.toNat ∧ h.Reads IPv4.identification id.toNat ∧
      h.Reads IPv4.flags 0 ∧ h.Reads IPv4.frag_startset frag.toNat ∧
      h.Reads IPv4.ttl ttl.toNat ∧ h.Reads IPv4.protocol proto.toNat ∧
      h.Reads IPv4.header_checksum c ∧ Packet.ipv4_checksum chk h.data = .ok (BitVec.ofNat 16 c) ∧
      h.Reads IPv4.src (beNat s) ∧ h.Reads IPv4.dst (beNat d) := by
  have := C35_ipv4 chk ihl tos id ttl frag proto src dst len s d hs hd
  rw [show ihl.toNat / 16 = 0 by omega, show ihl.toNat % 16 = ihl.toNat by omega,
    show frag.toNat / 2 ^ 13 = 0 by omega, show frag.toNat % 2 ^ 13 = frag.toNat by omega, Nat.or_zero] at this
  exact this

example : (Packet.ipv4 true 5 0 1 64 0 6 "10.10.10.1".toList "11.11.11.1".toList 100).map (·.data) =
    .ok [0x45#8, 0#8, 0#8, 0x64#8, 0#8, 1#8, 0#8, 0#8, 0x40#8, 6#8, 0x50#8, 0x7d#8,
      10#8, 10#8, 10#8, 1#8, 11#8, 11#8, 11#8, 1#8] := by decide +kernel

/-- **C35** `Packet::ipv6`: `flow_label` spills into the traffic class and the version. -/
theorem C35_ipv6 (p6 : Ipv6FromStr) (tc : Byte) (flow : U32) (nh hl : Byte) (src dst : Str) (len : U16) :
    let h := Packet.ipv6 p6 tc flow nh hl src dst len
    h.ty = IPv6 ∧ h.data.length = 40 ∧
      h.Reads IPv6.version (6 ||| flow.toNat / 2 ^ 28) ∧
      h.Reads IPv6.traffic_class (tc.toNat ||| flow.toNat / 2 ^ 20 % 256) ∧
      h.Reads IPv6.flow_label (flow.toNat % 2 ^ 20) ∧
      h.Reads IPv6.payload_len len.toNat ∧ h.Reads IPv6.next_hdr nh.toNat ∧ h.Reads IPv6.hop_limit hl.toNat ∧
      h.ReadsBytes IPv6.src (to_ipv6_bytes p6 src) ∧ h.ReadsBytes IPv6.dst (to_ipv6_bytes p6 dst) := by
  have l6 : ∀ s, (to_ipv6_bytes p6 s).length = 16 := by
    intro s; unfold to_ipv6_bytes
    cases p6 s <;> simp [IPV6_LEN]
  have hf := flow.isLt
  have ht := tc.isLt
  refine ⟨rfl, by simp [Packet.ipv6, HeaderDef.ofVec, l6], ?_, ?_, ?_, ?_, ?_, ?_, ?_, ?_⟩ <;>
    unfold Packet.ipv6
  · reads IPv6.version
    packed
    rw [or_fld' _ _ 268435456 16 28 4 rfl rfl, or_fld' _ _ 268435456 16 28 4 rfl rfl]
    exact or_both (or_left (by rfl) (by omega)) (by omega)
  · reads IPv6.traffic_class
    packed
    rw [or_fld' _ _ 1048576 256 20 8 rfl rfl, or_fld' _ _ 1048576 256 20 8 rfl rfl]
    exact or_both (or_right (by rfl) (by omega)) (by omega)
  · reads IPv6.flow_label
    packed
    rw [or_mod' _ _ 1048576 20 rfl, or_mod' _ _ 1048576 20 rfl]
    exact or_right (or_left (by rfl) (by omega)) (by omega)
  · reads IPv6.payload_len
  · reads IPv6.next_hdr
  · reads IPv6.hop_limit
  · refine readsBytes_of (a := 8) (n := 16) (by decide) (by decide) (by decide) (by decide)
      (by simp [HeaderDef.ofVec, l6]) ?_
    simp only [HeaderDef.ofVec, List.append_assoc]
    simp [l6, be32, be16]
  · refine readsBytes_of (a := 24) (n := 16) (by decide) (by decide) (by decide) (by decide)
      (by simp [HeaderDef.ofVec, l6]) ?_
    simp only [HeaderDef.ofVec, List.append_assoc]
    simp [l6, be32, be16]
    exact List.take_of_length_le (by simp [l6])

/-- **C34** `Packet::ipv6`. -/
theorem C34_ipv6 (p6 : Ipv6FromStr) (tc : Byte) (flow : U32) (nh hl : Byte) (src dst : Str) (len : U16)
    (hflow : flow.toNat < 2 ^ 20) :
    let h := Packet.ipv6 p6 tc flow nh hl src dst len
    h.ty = IPv6 ∧ h.data.length = 40 ∧ h.Reads IPv6.version 6 ∧ h.Reads IPv6.traffic_class tc.toNat ∧
      h.Reads IPv6.flow_label flow.toNat ∧
      h.Reads IPv6.payload_len len.toNat ∧ h.Reads IPv6.next_hdr nh.toNat ∧ h.Reads IPv6.hop_limit hl.toNat ∧
      h.ReadsBytes IPv6.src (to_ipv6_bytes p6 src) ∧ h.ReadsBytes IPv6.dst (to_ipv6_bytes p6 dst) := by
  have := C35_ipv6 p6 tc flow nh hl src dst len
  rw [show flow.toNat / 2 ^ 28 = 0 by omega, show flow.toNat / 2 ^ 20 % 256 = 0 by omega,
    show flow.toNat % 2 ^ 20 = flow.toNat by omega, Nat.or_zero, Nat.or_zero] at this
  exact this

/-- **C35** `Packet::tcp`: `res` spills into the data offset. -/
theorem C35_tcp (src dst : U16) (seq ack : U32) (off res flags : Byte) (window chksum urg : U16) :
    let h := Packet.tcp src dst seq ack off res flags window chksum urg
    h.ty = TCP ∧ h.data.length = 20 ∧ h.Reads TCP.src src.toNat ∧ h.Reads TCP.dst dst.toNat ∧
      h.Reads TCP.seq_no seq.toNat ∧ h.Reads TCP.ack_no ack.toNat ∧
      h.Reads TCP.data_startset (off.toNat % 16 ||| res.toNat / 16) ∧ h.Reads TCP.res (res.toNat % 16) ∧
      h.Reads TCP.flags flags.toNat ∧ h.Reads TCP.window window.toNat ∧ h.Reads TCP.checksum chksum.toNat ∧
      h.Reads TCP.urgent_ptr urg.toNat := by
  have h1 := off.isLt
  have h2 := res.isLt
  have hm : ∀ x : Nat, x < 256 → x &&& 255 = x := by
    intro x hx; exact (Nat.and_two_pow_sub_one_eq_mod x 8).trans (Nat.mod_eq_of_lt hx)
  refine ⟨rfl, by simp [Packet.tcp, HeaderDef.ofVec], ?_, ?_, ?_, ?_, ?_, ?_, ?_, ?_, ?_, ?_⟩ <;> unfold Packet.tcp
  · reads TCP.src
  · reads TCP.dst
  · reads TCP.seq_no
  · reads TCP.ack_no
  · reads TCP.data_startset
    packed
    rw [hm _ h2, or_fld' _ _ 16 16 4 4 rfl rfl]
    exact or_both (by omega) (by omega)
  · reads TCP.res
    packed
    rw [hm _ h2, or_mod' _ _ 16 4 rfl]
    exact or_right (by omega) (by omega)
  · reads TCP.flags
  · reads TCP.window
  · reads TCP.checksum
  · reads TCP.urgent_ptr

/-- **C34** `Packet::tcp`. -/
theorem C34_tcp (src dst : U16) (seq ack : U32) (off res flags : Byte) (window chksum urg : U16)
    (h1 : off.toNat < 16) (h2 : res.toNat < 16) :
    let h := Packet.tcp src dst seq ack off res flags window chksum urg
    h.ty = TCP ∧ h.data.length = 20 ∧ h.Reads TCP.src src.toNat ∧ h.Reads TCP.dst dst.toNat ∧
      h.Reads TCP.seq_no seq.toNat ∧ h.Reads TCP.ack_no ack.toNat ∧
      h.Reads TCP.data_startset off.toNat ∧ h.Reads TCP.res res.toNat ∧
      h.Reads TCP.flags flags.toNat ∧ h.Reads TCP.window window.toNat ∧ h.Reads TCP.checksum chksum.toNat ∧
      h.Reads TCP.urgent_ptr urg.toNat := by
  have := C35_tcp src dst seq ack off res flags window chksum urg
  rw [show res.toNat / 16 = 0 by omega, show res.toNat % 16 = res.toNat by omega,
    show off.toNat % 16 = off.toNat by omega, Nat.or_zero] at this
  exact this

/-- **C35** `Packet::vxlan`: the top 8 bits of the VNI argument are dropped. -/
theorem C35_vxlan (vni : U32) :
    let h := Packet.vxlan vni
    h.ty = Vxlan ∧ h.data.length = 8 ∧ h.Reads Vxlan.flags 8 ∧ h.Reads Vxlan.reserved 0 ∧
      h.Reads Vxlan.vni (vni.toNat % 2 ^ 24) ∧ h.Reads Vxlan.reserved2 0 := by
  have := vni.isLt
  refine ⟨rfl, by simp [Packet.vxlan, HeaderDef.ofVec], ?_, ?_, ?_, ?_⟩ <;> unfold Packet.vxlan
  · reads Vxlan.flags
    packed
  · reads Vxlan.reserved
    packed
  · reads Vxlan.vni
    packed
    omega
  · reads Vxlan.reserved2
    packed
    omega

/-- **C34** `Packet::vxlan`. -/
theorem C34_vxlan (vni : U32) (hv : vni.toNat < 2 ^ 24) :
    let h := Packet.vxlan vni
    h.ty = Vxlan ∧ h.data.length = 8 ∧ h.Reads Vxlan.flags 8 ∧ h.Reads Vxlan.reserved 0 ∧ h.Reads Vxlan.vni vni.toNat ∧
      h.Reads Vxlan.reserved2 0 := by
  have := C35_vxlan vni
  rwa [Nat.mod_eq_of_lt hv] at this

/-- **C35** `Packet::gre`: `ver` spills into the flags. -/
theorem C35_gre (c r k seqnum s : Bool) (flags ver : Byte) (proto : U16) :
    let h := Packet.gre c r k seqnum s flags ver proto
    h.ty = GRE ∧ h.data.length = 4 ∧ h.Reads GRE.chksum_present c.toNat ∧ h.Reads GRE.routing_present r.toNat ∧
      h.Reads GRE.key_present k.toNat ∧ h.Reads GRE.seqnum_present seqnum.toNat ∧
      h.Reads GRE.strict_route_src s.toNat ∧ h.Reads GRE.recurse 0 ∧
      h.Reads GRE.flags (flags.toNat % 32 ||| ver.toNat / 8) ∧ h.Reads GRE.version (ver.toNat % 8) ∧
      h.Reads GRE.proto proto.toNat := by
  have h1 := flags.isLt
  have h2 := ver.isLt
  refine ⟨rfl, by simp [Packet.gre, HeaderDef.ofVec], ?_, ?_, ?_, ?_, ?_, ?_, ?_, ?_, ?_⟩ <;> unfold Packet.gre
  · reads GRE.chksum_present
    cases c <;> cases r <;> cases k <;> cases seqnum <;> cases s <;> rfl
  · reads GRE.routing_present
    cases c <;> cases r <;> cases k <;> cases seqnum <;> cases s <;> rfl
  · reads GRE.key_present
    cases c <;> cases r <;> cases k <;> cases seqnum <;> cases s <;> rfl
  · reads GRE.seqnum_present
    cases c <;> cases r <;> cases k <;> cases seqnum <;> cases s <;> rfl
  · reads GRE.strict_route_src
    cases c <;> cases r <;> cases k <;> cases seqnum <;> cases s <;> rfl
  · reads GRE.recurse
    cases c <;> cases r <;> cases k <;> cases seqnum <;> cases s <;> rfl
  · reads GRE.flags
    packed
    rw [or_fld' _ _ 8 32 3 5 rfl rfl]
    exact or_both (by omega) (by omega)
  · reads GRE.version
    packed
    rw [or_mod' _ _ 8 3 rfl]
    exact or_right (by omega) (by omega)
  · reads GRE.proto

/-- **C34** `Packet::gre`. -/
theorem C34_gre (c r k seqnum s : Bool) (flags ver : Byte) (proto : U16) (h1 : flags.toNat < 32)
    (h2 : ver.toNat < 8) :
    let h := Packet.gre c r k seqnum s flags ver proto
    h.ty = GRE ∧ h.data.length = 4 ∧ h.Reads GRE.chksum_present c.toNat ∧ h.Reads GRE.routing_present r.toNat ∧
      h.Reads GRE.key_present k.toNat ∧ h.Reads GRE.seqnum_present seqnum.toNat ∧
      h.Reads GRE.strict_route_src s.toNat ∧ h.Reads GRE.recurse 0 ∧
      h.Reads GRE.flags flags.toNat ∧ h.Reads GRE.version ver.toNat ∧ h.Reads GRE.proto proto.toNat := by
  have := C35_gre c r k seqnum s flags ver proto
  rw [show ver.toNat / 8 = 0 by omega, show ver.toNat % 8 = ver.toNat by omega,
    show flags.toNat % 32 = flags.toNat by omega, Nat.or_zero] at this
  exact this

/-- **C35** `Packet::erspan2`: every argument spills into the fields to its left within its word. -/
theorem C35_erspan2 (vlan : U16) (cos en t : Byte) (session : U16) (index : U32) :
    let h := Packet.erspan2 vlan cos en t session index
    h.ty = ERSPAN2 ∧ h.data.length = 8 ∧
      h.Reads ERSPAN2.version (1 ||| vlan.toNat / 2 ^ 12) ∧ h.Reads ERSPAN2.vlan (vlan.toNat % 2 ^ 12) ∧
      h.Reads ERSPAN2.cos (cos.toNat % 8 ||| en.toNat / 4 % 8 ||| t.toNat / 8 % 8 ||| session.toNat / 2 ^ 13) ∧
      h.Reads ERSPAN2.en (en.toNat % 4 ||| t.toNat / 2 % 4 ||| session.toNat / 2 ^ 11 % 4) ∧
      h.Reads ERSPAN2.t (t.toNat % 2 ||| session.toNat / 2 ^ 10 % 2) ∧
      h.Reads ERSPAN2.session_id (session.toNat % 2 ^ 10) ∧
      h.Reads ERSPAN2.reserved (index.toNat / 2 ^ 20) ∧ h.Reads ERSPAN2.index (index.toNat % 2 ^ 20) := by
  have h1 := vlan.isLt
  have h2 := cos.isLt
  have h3 := en.isLt
  have h4 := t.isLt
  have h5 := session.isLt
  have h6 := index.isLt
  refine ⟨rfl, by simp [Packet.erspan2, HeaderDef.ofVec], ?_, ?_, ?_, ?_, ?_, ?_, ?_, ?_⟩ <;>
    unfold Packet.erspan2
  · reads ERSPAN2.version
    packed
    rw [or_fld' _ _ 4096 16 12 4 rfl rfl]
    exact or_both (by rfl) (by omega)
  · reads ERSPAN2.vlan
    packed
    rw [or_mod' _ _ 4096 12 rfl]
    exact or_right (by rfl) (by omega)
  · reads ERSPAN2.cos
    packed
    rw [or_fld' _ _ 8192 8 13 3 rfl rfl, or_fld' _ _ 8192 8 13 3 rfl rfl, or_fld' _ _ 8192 8 13 3 rfl rfl]
    exact or_both (or_three (by omega) (by omega) (by omega)) (by omega)
  · reads ERSPAN2.en
    packed
    rw [or_fld' _ _ 2048 4 11 2 rfl rfl, or_fld' _ _ 2048 4 11 2 rfl rfl, or_fld' _ _ 2048 4 11 2 rfl rfl]
    exact or_both (or_both (or_right (by omega) (by omega)) (by omega)) (by omega)
  · reads ERSPAN2.t
    packed
    rw [or_fld' _ _ 1024 2 10 1 rfl rfl, or_fld' _ _ 1024 2 10 1 rfl rfl, or_fld' _ _ 1024 2 10 1 rfl rfl]
    exact or_both (or_right (or_left (by omega) (by omega)) (by omega)) (by omega)
  · reads ERSPAN2.session_id
    packed
    rw [or_mod' _ _ 1024 10 rfl, or_mod' _ _ 1024 10 rfl, or_mod' _ _ 1024 10 rfl]
    exact or_right (or_left (or_left (by omega) (by omega)) (by omega)) (by omega)
  · reads ERSPAN2.reserved
    packed
    omega
  · reads ERSPAN2.index
    packed

/-- **C34** `Packet::erspan2`. -/
theorem C34_erspan2 (vlan : U16) (cos en t : Byte) (session : U16) (index : U32)
    (h1 : vlan.toNat < 2 ^ 12) (h2 : cos.toNat < 8) (h3 : en.toNat < 4) (h4 : t.toNat < 2)
    (h5 : session.toNat < 2 ^ 10) (h6 : index.toNat < 2 ^ 20) :
    let h := Packet.erspan2 vlan cos en t session index
    h.ty = ERSPAN2 ∧ h.data.length = 8 ∧
      h.Reads ERSPAN2.version 1 ∧ h.Reads ERSPAN2.vlan vlan.toNat ∧ h.Reads ERSPAN2.cos cos.toNat ∧
      h.Reads ERSPAN2.en en.toNat ∧ h.Reads ERSPAN2.t t.toNat ∧ h.Reads ERSPAN2.session_id session.toNat ∧
      h.Reads ERSPAN2.reserved 0 ∧ h.Reads ERSPAN2.index index.toNat := by
  have := C35_erspan2 vlan cos en t session index
  rw [show vlan.toNat / 2 ^ 12 = 0 by omega, show vlan.toNat % 2 ^ 12 = vlan.toNat by omega,
    show cos.toNat % 8 = cos.toNat by omega, show en.toNat / 4 % 8 = 0 by omega,
    show t.toNat / 8 % 8 = 0 by omega, show session.toNat / 2 ^ 13 = 0 by omega,
    show en.toNat % 4 = en.toNat by omega, show t.toNat / 2 % 4 = 0 by omega,
    show session.toNat / 2 ^ 11 % 4 = 0 by omega, show t.toNat % 2 = t.toNat by omega,
    show session.toNat / 2 ^ 10 % 2 = 0 by omega, show session.toNat % 2 ^ 10 = session.toNat by omega,
    show index.toNat / 2 ^ 20 = 0 by omega, show index.toNat % 2 ^ 20 = index.toNat by omega] at this
  simpa only [Nat.or_zero] using this

/-- **C35** `Packet::erspan3`. -/
theorem C35_erspan3 (vlan : U16) (cos en t : Byte) (session : U16) (ts : U32) (sgt other : U16) :
    let h := Packet.erspan3 vlan cos en t session ts sgt other
    h.ty = ERSPAN3 ∧ h.data.length = 12 ∧
      h.Reads ERSPAN3.version (2 ||| vlan.toNat / 2 ^ 12) ∧ h.Reads ERSPAN3.vlan (vlan.toNat % 2 ^ 12) ∧
      h.Reads ERSPAN3.cos (cos.toNat % 8 ||| en.toNat / 4 % 8 ||| t.toNat / 8 % 8 ||| session.toNat / 2 ^ 13) ∧
      h.Reads ERSPAN3.bos (en.toNat % 4 ||| t.toNat / 2 % 4 ||| session.toNat / 2 ^ 11 % 4) ∧
      h.Reads ERSPAN3.t (t.toNat % 2 ||| session.toNat / 2 ^ 10 % 2) ∧
      h.Reads ERSPAN3.session_id (session.toNat % 2 ^ 10) ∧
      h.Reads ERSPAN3.timestamp ts.toNat ∧ h.Reads ERSPAN3.sgt sgt.toNat ∧
      h.Reads ERSPAN3.p (other.toNat / 2 ^ 15) ∧ h.Reads ERSPAN3.ft (other.toNat / 2 ^ 10 % 32) ∧
      h.Reads ERSPAN3.hw_id (other.toNat / 2 ^ 4 % 64) ∧ h.Reads ERSPAN3.d (other.toNat / 2 ^ 3 % 2) ∧
      h.Reads ERSPAN3.gra (other.toNat / 2 % 4) ∧ h.Reads ERSPAN3.o (other.toNat % 2) := by
  have h1 := vlan.isLt
  have h2 := cos.isLt
  have h3 := en.isLt
  have h4 := t.isLt
  have h5 := session.isLt
  have h6 := other.isLt
  refine ⟨rfl, by simp [Packet.erspan3, HeaderDef.ofVec], ?_, ?_, ?_, ?_, ?_, ?_, ?_, ?_, ?_, ?_, ?_, ?_, ?_, ?_⟩ <;>
    unfold Packet.erspan3
  · reads ERSPAN3.version
    packed
    rw [or_fld' _ _ 4096 16 12 4 rfl rfl]
    exact or_both (by rfl) (by omega)
  · reads ERSPAN3.vlan
    packed
    rw [or_mod' _ _ 4096 12 rfl]
    exact or_right (by rfl) (by omega)
  · reads ERSPAN3.cos
    packed
    rw [or_fld' _ _ 8192 8 13 3 rfl rfl, or_fld' _ _ 8192 8 13 3 rfl rfl, or_fld' _ _ 8192 8 13 3 rfl rfl]
    exact or_both (or_three (by omega) (by omega) (by omega)) (by omega)
  · reads ERSPAN3.bos
    packed
    rw [or_fld' _ _ 2048 4 11 2 rfl rfl, or_fld' _ _ 2048 4 11 2 rfl rfl, or_fld' _ _ 2048 4 11 2 rfl rfl]
    exact or_both (or_both (or_right (by omega) (by omega)) (by omega)) (by omega)
  · reads ERSPAN3.t
    packed
    rw [or_fld' _ _ 1024 2 10 1 rfl rfl, or_fld' _ _ 1024 2 10 1 rfl rfl, or_fld' _ _ 1024 2 10 1 rfl rfl]
    exact or_both (or_right (or_left (by omega) (by omega)) (by omega)) (by omega)
  · reads ERSPAN3.session_id
    packed
    rw [or_mod' _ _ 1024 10 rfl, or_mod' _ _ 1024 10 rfl, or_mod' _ _ 1024 10 rfl]
    exact or_right (or_left (or_left (by omega) (by omega)) (by omega)) (by omega)
  · reads ERSPAN3.timestamp
  · reads ERSPAN3.sgt
  · reads ERSPAN3.p
    packed
    omega
  · reads ERSPAN3.ft
    packed
  · reads ERSPAN3.hw_id
    packed
  · reads ERSPAN3.d
    packed
  · reads ERSPAN3.gra
    packed
  · reads ERSPAN3.o
    packed

/-- **C34** `Packet::erspan3`. -/
theorem C34_erspan3 (vlan : U16) (cos en t : Byte) (session : U16) (ts : U32) (sgt other : U16)
    (h1 : vlan.toNat < 2 ^ 12) (h2 : cos.toNat < 8) (h3 : en.toNat < 4) (h4 : t.toNat < 2)
    (h5 : session.toNat < 2 ^ 10) :
    let h := Packet.erspan3 vlan cos en t session ts sgt other
    h.Reads ERSPAN3.version 2 ∧ h.Reads ERSPAN3.vlan vlan.toNat ∧ h.Reads ERSPAN3.cos cos.toNat ∧
      h.Reads ERSPAN3.bos en.toNat ∧ h.Reads ERSPAN3.t t.toNat ∧ h.Reads ERSPAN3.session_id session.toNat ∧
      h.Reads ERSPAN3.timestamp ts.toNat ∧ h.Reads ERSPAN3.sgt sgt.toNat := by
  have := C35_erspan3 vlan cos en t session ts sgt other
  rw [show vlan.toNat / 2 ^ 12 = 0 by omega, show vlan.toNat % 2 ^ 12 = vlan.toNat by omega,
    show cos.toNat % 8 = cos.toNat by omega, show en.toNat / 4 % 8 = 0 by omega,
    show t.toNat / 8 % 8 = 0 by omega, show session.toNat / 2 ^ 13 = 0 by omega,
    show en.toNat % 4 = en.toNat by omega, show t.toNat / 2 % 4 = 0 by omega,
    show session.toNat / 2 ^ 11 % 4 = 0 by omega, show t.toNat % 2 = t.toNat by omega,
    show session.toNat / 2 ^ 10 % 2 = 0 by omega, show session.toNat % 2 ^ 10 = session.toNat by omega] at this
  simp only [Nat.or_zero] at this
  obtain ⟨-, -, a, b, c, d, e, f, g, h, -⟩ := this
  exact ⟨a, b, c, d, e, f, g, h⟩

-- all arguments in range and not zero
example : (Packet.erspan2 100 5 3 1 1000 70000).data =
    [0x10#8, 0x64#8, 0xbf#8, 0xe8#8, 0x00#8, 0x01#8, 0x11#8, 0x70#8] := by decide +kernel

/-! ## C36, C37, C38 -/

/-- **C36** `Packet::mpls`: what every field reads, for all arguments: label and bottom-of-stack are
shifted to the wrong place, only the TTL is right. -/
theorem C36_mpls (label : U32) (exp bos ttl : Byte) :
    let h := Packet.mpls label exp bos ttl
    h.ty = MPLS ∧ h.data.length = 4 ∧
      h.Reads MPLS.label (label.toNat * 2 ^ 8 % 2 ^ 20 ||| exp.toNat * 2 ^ 11 % 2 ^ 20 |||
        bos.toNat * 2 ^ 12 % 2 ^ 20) ∧
      h.Reads MPLS.exp 0 ∧ h.Reads MPLS.bos 0 ∧ h.Reads MPLS.ttl ttl.toNat := by
  have h1 := label.isLt
  have h2 := exp.isLt
  have h3 := bos.isLt
  have h4 := ttl.isLt
  refine ⟨rfl, by simp [Packet.mpls, HeaderDef.ofVec], ?_, ?_, ?_, ?_⟩ <;> unfold Packet.mpls
  · reads MPLS.label
    packed
    rw [or_fld' _ _ 4096 1048576 12 20 rfl rfl, or_fld' _ _ 4096 1048576 12 20 rfl rfl, or_fld' _ _ 4096 1048576 12 20 rfl rfl]
    exact or_left (or_three (by omega) (by omega) (by omega)) (by omega)
  · reads MPLS.exp
    packed
    rw [or_fld' _ _ 512 8 9 3 rfl rfl, or_fld' _ _ 512 8 9 3 rfl rfl, or_fld' _ _ 512 8 9 3 rfl rfl]
    exact or_left (or_left (or_left (by omega) (by omega)) (by omega)) (by omega)
  · reads MPLS.bos
    packed
    rw [or_fld' _ _ 256 2 8 1 rfl rfl, or_fld' _ _ 256 2 8 1 rfl rfl, or_fld' _ _ 256 2 8 1 rfl rfl]
    exact or_left (or_left (or_left (by omega) (by omega)) (by omega)) (by omega)
  · reads MPLS.ttl
    packed
    rw [or_mod' _ _ 256 8 rfl, or_mod' _ _ 256 8 rfl, or_mod' _ _ 256 8 rfl]
    exact or_right (or_left (or_left (by omega) (by omega)) (by omega)) (by omega)

theorem mpls_bits (l e b : Nat) (he : e < 256) (hb : b < 256) :
    (l * 2 ^ 8 % 2 ^ 20 ||| e * 2 ^ 11 % 2 ^ 20 ||| b * 2 ^ 12 % 2 ^ 20) = l ↔
      l = e * 2 ^ 11 ||| b * 2 ^ 12 ||| e % 2 * 2 ^ 19 := by
  have bit : ∀ i, (l * 2 ^ 8 % 2 ^ 20 ||| e * 2 ^ 11 % 2 ^ 20 ||| b * 2 ^ 12 % 2 ^ 20).testBit i =
      (decide (i < 20) && ((decide (8 ≤ i) && l.testBit (i - 8)) || (decide (11 ≤ i) && e.testBit (i - 11)) ||
        (decide (12 ≤ i) && b.testBit (i - 12)))) := by
    intro i
    simp only [Nat.testBit_or, Nat.testBit_mod_two_pow, Nat.testBit_mul_two_pow]
    by_cases h : i < 20 <;> simp [h]
  have bit' : ∀ i, (e * 2 ^ 11 ||| b * 2 ^ 12 ||| e % 2 * 2 ^ 19).testBit i =
      ((decide (11 ≤ i) && e.testBit (i - 11)) || (decide (12 ≤ i) && b.testBit (i - 12)) ||
        (decide (i = 19) && e.testBit 0)) := by
    intro i
    simp only [Nat.testBit_or, Nat.testBit_mul_two_pow]
    congr 1
    by_cases h : 19 ≤ i
    · rcases Nat.lt_or_ge 19 i with h' | h'
      · have h1 : i ≠ 19 := by omega
        have h2 : (e % 2).testBit (i - 19) = false := by
          apply Nat.testBit_lt_two_pow
          have : 2 ^ 1 ≤ 2 ^ (i - 19) := Nat.pow_le_pow_right (by omega) (by omega)
          omega
        simp [h, h1, h2]
      · obtain rfl : i = 19 := by omega
        simp [Nat.testBit_zero]
    · have h1 : i ≠ 19 := by omega
      simp [h, h1]
  have e_hi : ∀ i, 8 ≤ i → e.testBit i = false := fun i hi =>
    Nat.testBit_lt_two_pow (Nat.lt_of_lt_of_le (by omega : e < 2 ^ 8) (Nat.pow_le_pow_right (by omega) hi))
  have b_hi : ∀ i, 8 ≤ i → b.testBit i = false := fun i hi =>
    Nat.testBit_lt_two_pow (Nat.lt_of_lt_of_le (by omega : b < 2 ^ 8) (Nat.pow_le_pow_right (by omega) hi))
  have cases20 : ∀ i, (i = 0 ∨ i = 1 ∨ i = 2 ∨ i = 3 ∨ i = 4 ∨ i = 5 ∨ i = 6 ∨ i = 7 ∨ i = 8 ∨ i = 9 ∨ i = 10 ∨ i = 11 ∨ i = 12 ∨ i = 13 ∨ i = 14 ∨ i = 15 ∨ i = 16 ∨ i = 17 ∨ i = 18 ∨ i = 19) ∨ 20 ≤ i := by intro i; omega
  constructor
  · intro h
    have H : ∀ i, l.testBit i = (decide (i < 20) && ((decide (8 ≤ i) && l.testBit (i - 8)) ||
        (decide (11 ≤ i) && e.testBit (i - 11)) || (decide (12 ≤ i) && b.testBit (i - 12)))) := fun i => by
      rw [← bit i, h]
    apply Nat.eq_of_testBit_eq
    intro i
    rw [bit']
    have h0 := H 0; have h1 := H 1; have h2 := H 2; have h3 := H 3; have h4 := H 4; have h5 := H 5
    have h6 := H 6; have h7 := H 7; have h8 := H 8; have h9 := H 9; have h10 := H 10; have h11 := H 11
    have h12 := H 12; have h13 := H 13; have h14 := H 14; have h15 := H 15; have h16 := H 16; have h17 := H 17
    have h18 := H 18; have h19 := H 19
    simp at h0 h1 h2 h3 h4 h5 h6 h7
    simp [h0] at h8; simp [h1] at h9; simp [h2] at h10; simp [h3] at h11; simp [h4] at h12; simp [h5] at h13
    simp [h6] at h14; simp [h7] at h15; simp [h8] at h16; simp [h9] at h17; simp [h10] at h18; simp [h11] at h19
    rcases cases20 i with (rfl | rfl | rfl | rfl | rfl | rfl | rfl | rfl | rfl | rfl | rfl | rfl | rfl | rfl | rfl | rfl | rfl | rfl | rfl | rfl) | hi
    · simpa using h0
    · simpa using h1
    · simpa using h2
    · simpa using h3
    · simpa using h4
    · simpa using h5
    · simpa using h6
    · simpa using h7
    · simpa using h8
    · simpa using h9
    · simpa using h10
    · simpa using h11
    · simpa using h12
    · simpa using h13
    · simpa using h14
    · simpa using h15
    · simpa using h16
    · simpa using h17
    · simpa using h18
    · simp [h19, e_hi 8]; exact Bool.or_comm _ _
    · rw [H i, e_hi _ (by omega), b_hi _ (by omega)]
      have h1 : ¬ i < 20 := by omega
      have h2 : i ≠ 19 := by omega
      simp [h1, h2]
  · intro h
    apply Nat.eq_of_testBit_eq
    intro i
    rw [bit, h]
    simp only [bit']
    rcases cases20 i with (rfl | rfl | rfl | rfl | rfl | rfl | rfl | rfl | rfl | rfl | rfl | rfl | rfl | rfl | rfl | rfl | rfl | rfl | rfl | rfl) | hi
    · simp
    · simp
    · simp
    · simp
    · simp
    · simp
    · simp
    · simp
    · simp
    · simp
    · simp
    · simp
    · simp
    · simp
    · simp
    · simp
    · simp
    · simp
    · simp
    · simp [e_hi 8]; exact Bool.or_comm _ _
    · have h1 : ¬ i < 20 := by omega
      have h2 : i ≠ 19 := by omega
      rw [e_hi (i - 11) (by omega), b_hi (i - 12) (by omega)]
      simp [h1, h2]

/-- **C36**: the label reads back iff it happens to be the number that `exp` and `bos` alone put there: bit 11
(and, through the label, bit 19) is the low bit of `exp`, the rest is `exp` and `bos` shifted. For
`exp = bos = 0` this is label 0 only. -/
theorem C36_label_reads_back_iff (label : U32) (exp bos ttl : Byte) :
    (Packet.mpls label exp bos ttl).Reads MPLS.label label.toNat ↔
      label.toNat = exp.toNat * 2 ^ 11 ||| bos.toNat * 2 ^ 12 ||| exp.toNat % 2 * 2 ^ 19 := by
  have h := (C36_mpls label exp bos ttl).2.2.1
  rw [← mpls_bits label.toNat _ _ exp.isLt bos.isLt]
  constructor
  · intro h'
    obtain ⟨v, e1, e2⟩ := h' true
    obtain ⟨w, e3, e4⟩ := h true
    rw [e1] at e3
    cases e3
    omega
  · intro h'
    rw [h'] at h
    exact h

-- a label of 100 reads back as 25600
example : (Packet.mpls 100 0 1 64).Reads MPLS.label (25600 ||| 4096) := (C36_mpls 100 0 1 64).2.2.1

-- with `exp = 0` label 100 is lost whatever `bos`, and with `bos = 1` label 4096 survives by accident
example : ¬ (Packet.mpls 100 0 1 64).Reads MPLS.label 100 :=
  fun h => absurd ((C36_label_reads_back_iff 100 0 1 64).1 h) (by decide)
example : (Packet.mpls 4096 0 1 64).Reads MPLS.label 4096 := (C36_label_reads_back_iff 4096 0 1 64).2 (by decide)

/-- **C37** `Packet::snap`: the code reads back, the OUI octets are rotated. -/
theorem C37_snap (oui : U32) (code : U16) :
    (Packet.snap oui code).ty = SNAP ∧ (Packet.snap oui code).data.length = 5 ∧
      (Packet.snap oui code).Reads SNAP.oui (oui.toNat % 2 ^ 16 * 2 ^ 8 + oui.toNat / 2 ^ 16 % 2 ^ 8) ∧
      (Packet.snap oui code).Reads SNAP.code code.toNat := by
  have h1 := oui.isLt
  refine ⟨rfl, by simp [Packet.snap, HeaderDef.ofVec], ?_, ?_⟩ <;> unfold Packet.snap
  · refine reads_of (by decide) (by decide) (by simp [HeaderDef.ofVec, SNAP.oui]) ?_
    simp only [HeaderDef.ofVec, SNAP.oui]
    rw [fieldVal_append_left _ _ _ _ (by simp), fieldVal_all _ _ (by simp)]
    simp only [be16, List.cons_append, List.nil_append, beNat, List.foldl_cons, List.foldl_nil, BitVec.toNat_setWidth,
      BitVec.toNat_ushiftRight, Nat.shiftRight_eq_div_pow]
    omega
  · reads SNAP.code

theorem rot_eq_iff (a b c : Nat) (ha : a < 256) (hb : b < 256) (hc : c < 256) :
    (b * 256 + c) * 2 ^ 8 + a = a * 65536 + b * 256 + c ↔
      ∃ x < 256, a * 65536 + b * 256 + c = 0x010101 * x := by
  constructor
  · intro h'
    have h1 : a = b := by omega
    have h2 : b = c := by omega
    subst h1 h2
    exact ⟨a, ha, by grind⟩
  · rintro ⟨x, hx, h'⟩
    have h1 : c = x := by omega
    subst h1
    have h2 : b = c := by omega
    subst h2
    have h3 : a = b := by omega
    subst h3
    grind

/-- **C37**: the OUI reads back iff its three octets are equal. -/
theorem C37_oui_reads_back_iff (oui : U32) (code : U16) (h : oui.toNat < 2 ^ 24) :
    (Packet.snap oui code).Reads SNAP.oui oui.toNat ↔ ∃ b < 256, oui.toNat = 0x010101 * b := by
  have hr := (C37_snap oui code).2.2.1
  have inj : (Packet.snap oui code).Reads SNAP.oui oui.toNat ↔
      oui.toNat % 2 ^ 16 * 2 ^ 8 + oui.toNat / 2 ^ 16 % 2 ^ 8 = oui.toNat := by
    constructor
    · intro h'
      obtain ⟨v, e1, e2⟩ := h' true
      obtain ⟨w, e3, e4⟩ := hr true
      rw [e1] at e3
      cases e3
      omega
    · intro h'
      rw [h'] at hr
      exact hr
  rw [inj]
  obtain ⟨a, b, c, ha, hb, hc, e⟩ : ∃ a b c, a < 256 ∧ b < 256 ∧ c < 256 ∧
      oui.toNat = a * 65536 + b * 256 + c :=
    ⟨oui.toNat / 65536, oui.toNat / 256 % 256, oui.toNat % 256, by omega, by omega, by omega, by omega⟩
  rw [show oui.toNat % 2 ^ 16 = b * 256 + c by omega, show oui.toNat / 2 ^ 16 % 2 ^ 8 = a by omega, e]
  exact rot_eq_iff a b c ha hb hc

example : (Packet.snap 0x00000c 0x2000).Reads SNAP.oui 0x000c00 := (C37_snap 0x00000c 0x2000).2.2.1

/-- **C38** `Packet::llc` is a `Dot3` of three bytes. -/
theorem C38_llc (d s c : Byte) :
    (Packet.llc d s c).ty = Dot3 ∧ (Packet.llc d s c).len = 14 ∧ (Packet.llc d s c).to_vec = [d, s, c] ∧
      (∀ f ∈ Dot3.fields, ∀ chk, ∃ e, (Packet.llc d s c).get chk f = .error e) := by
  refine ⟨rfl, rfl, rfl, ?_⟩
  intro f hf chk
  have h3 : (Packet.llc d s c).data.length = 3 := rfl
  simp only [Dot3, List.mem_cons, List.not_mem_nil, or_false] at hf
  rw [C08_getter_panics_iff _ _ _ (by rcases hf with rfl | rfl | rfl <;> decide)
    (by rcases hf with rfl | rfl | rfl <;> decide), h3]
  rcases hf with rfl | rfl | rfl <;> decide

/-- **C38**: a packet whose other headers have their declared sizes has a `len()` that exceeds its serialization by eleven for
every such header in it. -/
theorem C38_packet_len (p : Packet)
    (h : ∀ g ∈ p.hdrs, g.data.length = g.ty.size ∨ ∃ d s c, g = Packet.llc d s c) :
    p.len = p.to_vec.length + 11 * p.hdrs.countP (fun g => g.data.length ≠ g.ty.size) ∧
    (p.len = p.to_vec.length ↔ ∀ d s c, Packet.llc d s c ∉ p.hdrs) := by
  have key : ∀ hs : List Hdr, (∀ g ∈ hs, g.data.length = g.ty.size ∨ ∃ d s c, g = Packet.llc d s c) →
      (hs.map fun g => g.ty.size).sum =
        (hs.map fun g => g.data.length).sum + 11 * hs.countP (fun g => g.data.length ≠ g.ty.size) ∧
      (hs.countP (fun g => g.data.length ≠ g.ty.size) = 0 ↔ ∀ d s c, Packet.llc d s c ∉ hs) := by
    intro hs
    induction hs with
    | nil => intro _; simp
    | cons a hs ih =>
      intro h
      obtain ⟨i1, i2⟩ := ih fun g hg => h g (List.mem_cons_of_mem _ hg)
      rcases h a List.mem_cons_self with ha | ⟨d, s, c, rfl⟩
      · have hc : (a :: hs).countP (fun g => g.data.length ≠ g.ty.size) =
            hs.countP (fun g => g.data.length ≠ g.ty.size) := by
          rw [List.countP_cons_of_neg (by simpa using ha)]
        have hna : ∀ d s c, Packet.llc d s c ≠ a := by
          rintro d s c rfl; exact absurd (show 3 = 14 from ha) (by decide)
        rw [hc, i2]
        refine ⟨by simp only [List.map_cons, List.sum_cons]; omega, ?_⟩
        simp only [List.mem_cons, not_or]
        exact ⟨fun h d s c => ⟨hna d s c, h d s c⟩, fun h d s c => (h d s c).2⟩
      · have hc : (Packet.llc d s c :: hs).countP (fun g => g.data.length ≠ g.ty.size) =
            hs.countP (fun g => g.data.length ≠ g.ty.size) + 1 := by
          rw [List.countP_cons_of_pos rfl]
        rw [hc]
        refine ⟨?_, ⟨fun h => by omega, fun h => absurd List.mem_cons_self (h d s c)⟩⟩
        simp only [List.map_cons, List.sum_cons]
        rw [show (Packet.llc d s c).ty.size = 14 from rfl, show (Packet.llc d s c).data.length = 3 from rfl]
        omega
  obtain ⟨k1, k2⟩ := key p.hdrs h
  rw [C12_len, Packet.to_vec_length, ← k2]
  omega

example : ∀ g ∈ ((Packet.new.push Ether.new).push (Packet.llc 0xaa 0xaa 3)).hdrs,
    g.data.length = g.ty.size ∨ ∃ d s c, g = Packet.llc d s c := by
  intro g hg
  rcases List.mem_cons.1 hg with rfl | hg
  · exact .inl (by decide)
  · rcases List.mem_cons.1 hg with rfl | hg
    · exact .inr ⟨_, _, _, rfl⟩
    · exact nomatch hg

example : (Packet.new.push Ether.new).WF ∧
    ((Packet.new.push Ether.new).push (Packet.llc 0xaa 0xaa 3)).len = 28 ∧
    ((Packet.new.push Ether.new).push (Packet.llc 0xaa 0xaa 3)).to_vec.length = 17 := by decide

end PacketRs
