import Verif.Slow
import Verif.Lemmas.Bits
import Verif.Spec.Dissect
/-!
# One step of the parsers

`dstep l b` describes what the parser function for layer `l` does before it calls the next one.
`Slow.parseL_eq` shows that every function of `Verif.Slow` is one such step.
-/
namespace PacketRs
open Spec

@[simp] theorem R.ok_bind {α β : Type} (a : α) (f : α → R β) : (Except.ok a >>= f) = f a := rfl
@[simp] theorem R.error_bind {α β : Type} (e : Fault) (f : α → R β) :
    ((Except.error e : R α) >>= f) = .error e := rfl
theorem R.pure_eq {α : Type} (a : α) : (pure a : R α) = .ok a := rfl

/-! ## octets and fields -/

theorem u8At_lt (d : Bytes) (i : Nat) : u8At d i < 256 := (d.getD i 0#8).isLt

theorem u16At_lt (d : Bytes) (i : Nat) : u16At d i < 65536 := by
  have := u8At_lt d i; have := u8At_lt d (i + 1); unfold u16At; omega

theorem u8At_take (d : Bytes) (n i : Nat) (h : i < n) : u8At (d.take n) i = u8At d i := by
  simp [u8At, List.getD_eq_getElem?_getD, h]

theorem u16At_take (d : Bytes) (n i : Nat) (h : i + 1 < n) : u16At (d.take n) i = u16At d i := by
  unfold u16At; rw [u8At_take _ _ _ (by omega), u8At_take _ _ _ h]

theorem u8At_append_left (a b : Bytes) (i : Nat) (h : i < a.length) : u8At (a ++ b) i = u8At a i := by
  simp [u8At, List.getD_eq_getElem?_getD, List.getElem?_append_left h]

theorem u8At_append_right (a b : Bytes) (i : Nat) (h : a.length ≤ i) :
    u8At (a ++ b) i = u8At b (i - a.length) := by
  simp [u8At, List.getD_eq_getElem?_getD, List.getElem?_append_right h]

theorem u16At_append_left (a b : Bytes) (i : Nat) (h : i + 1 < a.length) :
    u16At (a ++ b) i = u16At a i := by
  unfold u16At; rw [u8At_append_left _ _ _ (by omega), u8At_append_left _ _ _ h]

theorem bitAt_append_left (a b : Bytes) (i k : Nat) (h : i < a.length) :
    bitAt (a ++ b) i k = bitAt a i k := by
  unfold bitAt; rw [u8At_append_left _ _ _ h]

theorem bitAt_take (d : Bytes) (n i k : Nat) (h : i < n) : bitAt (d.take n) i k = bitAt d i k := by
  unfold bitAt; rw [u8At_take _ _ _ h]

theorem bitAt_eq_netBit (d : Bytes) (i k : Nat) (hk : k < 8) : bitAt d i k = netBit d (8 * i + 7 - k) := by
  unfold bitAt netBit
  have h1 : (8 * i + 7 - k) / 8 = i := by omega
  have h2 : (8 * i + 7 - k) % 8 = 7 - k := by omega
  have h3 : 7 - k < 8 := by omega
  have h4 : 8 - 1 - (7 - k) = k := by omega
  rw [h1, h2, BitVec.getMsbD, h4, ← BitVec.testBit_toNat]
  simp only [h3, decide_true, Bool.true_and]
  unfold u8At
  rw [Nat.testBit_eq_decide_div_mod_eq]

/-- A one-octet field at a byte boundary is that octet. -/
theorem fieldVal_u8 (d : Bytes) (a : Nat) (h : a < d.length) : fieldVal d (8 * a) (8 * a + 7) = u8At d a := by
  apply Nat.eq_of_testBit_eq
  intro j
  rw [testBit_fieldVal _ _ _ (by omega)]
  unfold u8At
  rw [BitVec.testBit_toNat]
  by_cases hj : j < 8
  · have h0 : j < 8 * a + 7 + 1 - 8 * a := by omega
    have h1 : (8 * a + 7 - j) / 8 = a := by omega
    have h2 : (8 * a + 7 - j) % 8 = 7 - j := by omega
    have h3 : 7 - j < 8 := by omega
    have h4 : 8 - 1 - (7 - j) = j := by omega
    unfold netBit
    rw [h1, h2, BitVec.getMsbD, h4]
    simp [h0, h3]
  · have h0 : ¬ j < 8 * a + 7 + 1 - 8 * a := by omega
    rw [BitVec.getLsbD_of_ge _ _ (by omega)]
    simp [h0]

/-- A field splits at any bit into a high and a low part. -/
theorem fieldVal_split (d : Bytes) (lo m hi : Nat) (h1 : lo ≤ m) (h2 : m < hi) (h : hi < 8 * d.length) :
    fieldVal d lo hi = fieldVal d lo m * 2 ^ (hi - m) + fieldVal d (m + 1) hi := by
  apply Nat.eq_of_testBit_eq
  intro j
  have hlt : fieldVal d (m + 1) hi < 2 ^ (hi - m) := by
    have := fieldVal_lt d (m + 1) hi
    rwa [show hi + 1 - (m + 1) = hi - m by omega] at this
  rw [Nat.mul_comm, Nat.testBit_two_pow_mul_add _ hlt, testBit_fieldVal _ _ _ h,
    testBit_fieldVal _ lo m (by omega), testBit_fieldVal _ (m + 1) hi h]
  by_cases hj : j < hi - m
  · have a1 : j < hi + 1 - lo := by omega
    have a2 : j < hi + 1 - (m + 1) := by omega
    simp [hj, a1]
  · rw [if_neg hj]
    have a1 : (j < hi + 1 - lo) ↔ (j - (hi - m) < m + 1 - lo) := by omega
    have a2 : hi - j = m - (j - (hi - m)) := by omega
    rw [a2]; congr 1; exact decide_eq_decide.mpr a1

theorem fieldVal_u16 (d : Bytes) (a : Nat) (h : a + 1 < d.length) :
    fieldVal d (8 * a) (8 * a + 15) = u16At d a := by
  rw [fieldVal_split d (8 * a) (8 * a + 7) (8 * a + 15) (by omega) (by omega) (by omega),
    fieldVal_u8 d a (by omega)]
  have := fieldVal_u8 d (a + 1) h
  rw [show 8 * (a + 1) = 8 * a + 7 + 1 by omega, show 8 * a + 7 + 1 + 7 = 8 * a + 15 by omega] at this
  rw [this]
  unfold u16At
  rw [show 8 * a + 15 - (8 * a + 7) = 8 by omega]; omega

theorem fieldVal_bit (d : Bytes) (i : Nat) (h : i < 8 * d.length) :
    fieldVal d i i = (netBit d i).toNat := by
  apply Nat.eq_of_testBit_eq
  intro j
  rw [testBit_fieldVal _ _ _ h]
  by_cases hj : j = 0
  · subst hj; simp; cases netBit d i <;> rfl
  · have h0 : ¬ j < i + 1 - i := by omega
    have h1 : (netBit d i).toNat.testBit j = false := by
      apply Nat.testBit_lt_two_pow
      have : (netBit d i).toNat ≤ 1 := by cases netBit d i <;> simp
      have : 2 ≤ 2 ^ j := Nat.le_self_pow hj 2
      omega
    rw [h1]; simp only [h0, decide_false, Bool.false_and]

theorem get_u16 (chk : Bool) (T : HeaderDef) (d : Bytes) (f : Field) (a : Nat) (h : a + 1 < d.length)
    (h1 : f.lo = 8 * a) (h2 : f.hi = 8 * a + 15) :
    (T.ofVec d).get chk f = .ok (BitVec.ofNat 64 (u16At d a)) := by
  unfold Hdr.get HeaderDef.ofVec
  simp only
  rw [bitRange_toNat chk d f.lo f.hi (by omega) (by omega) (by omega), h1, h2, fieldVal_u16 d a h]

theorem get_u8 (chk : Bool) (T : HeaderDef) (d : Bytes) (f : Field) (a : Nat) (h : a < d.length)
    (h1 : f.lo = 8 * a) (h2 : f.hi = 8 * a + 7) :
    (T.ofVec d).get chk f = .ok (BitVec.ofNat 64 (u8At d a)) := by
  unfold Hdr.get HeaderDef.ofVec
  simp only
  rw [bitRange_toNat chk d f.lo f.hi (by omega) (by omega) (by omega), h1, h2, fieldVal_u8 d a h]

theorem get_bit (chk : Bool) (T : HeaderDef) (d : Bytes) (f : Field) (i k : Nat) (hk : k < 8)
    (h : i < d.length) (h1 : f.lo = 8 * i + 7 - k) (h2 : f.hi = 8 * i + 7 - k) :
    (T.ofVec d).get chk f = .ok (BitVec.ofNat 64 (bitAt d i k).toNat) := by
  unfold Hdr.get HeaderDef.ofVec
  simp only
  rw [bitRange_toNat chk d f.lo f.hi (by omega) (by omega) (by omega), h1, h2,
    fieldVal_bit d _ (by omega), bitAt_eq_netBit d i k hk]

theorem bit_eq_one (b : Bool) : (BitVec.ofNat 64 b.toNat = 1#64) = (b = true) := by
  cases b <;> decide

theorem setWidth16_ofNat64 (n : Nat) : (BitVec.ofNat 64 n).setWidth 16 = BitVec.ofNat 16 n := by
  apply BitVec.eq_of_toNat_eq
  simp only [BitVec.toNat_setWidth, BitVec.toNat_ofNat]; omega

theorem setWidth8_ofNat64' (n : Nat) : (BitVec.ofNat 64 n).setWidth 8 = BitVec.ofNat 8 n := by
  apply BitVec.eq_of_toNat_eq
  simp only [BitVec.toNat_setWidth, BitVec.toNat_ofNat]; omega

theorem ofNat16_eq (n m : Nat) (hn : n < 65536) :
    (BitVec.ofNat 16 n = BitVec.ofNat 16 m) = (n = m % 65536) := by
  apply propext
  constructor
  · intro h
    have := congrArg BitVec.toNat h
    simpa [BitVec.toNat_ofNat, Nat.mod_eq_of_lt hn] using this
  · rintro rfl
    apply BitVec.eq_of_toNat_eq; simp [BitVec.toNat_ofNat]

theorem ofNat8_eq (n m : Nat) (hn : n < 256) :
    (BitVec.ofNat 8 n = BitVec.ofNat 8 m) = (n = m % 256) := by
  apply propext
  constructor
  · intro h
    have := congrArg BitVec.toNat h
    simpa [BitVec.toNat_ofNat, Nat.mod_eq_of_lt hn] using this
  · rintro rfl
    apply BitVec.eq_of_toNat_eq; simp [BitVec.toNat_ofNat]

/-! ## slices -/

theorem slice_ok (d : Bytes) (a b : Nat) (h1 : a ≤ b) (h2 : b ≤ d.length) :
    slice d a b = .ok ((d.drop a).take (b - a)) := by simp [slice, h1, h2]

theorem slice0_ok (d : Bytes) (n : Nat) (h : n ≤ d.length) : slice d 0 n = .ok (d.take n) := by
  simp [slice, h]

theorem slice_err (d : Bytes) (a b : Nat) (h : d.length < b) : slice d a b = .error .index := by
  have : ¬ b ≤ d.length := by omega
  simp [slice, this]

theorem sliceFrom_ok (d : Bytes) (n : Nat) (h : n ≤ d.length) :
    sliceFrom d n = .ok ⟨d.drop n, rfl, h⟩ := by simp [sliceFrom, h]

theorem sliceFrom_err (d : Bytes) (n : Nat) (h : d.length < n) : sliceFrom d n = .error .index := by
  have : ¬ n ≤ d.length := by omega
  simp [sliceFrom, this]

theorem index_eq_u8 (d : Bytes) (i : Nat) (h : i < d.length) : index d i = .ok (BitVec.ofNat 8 (u8At d i)) := by
  rw [index_ok d i h]; simp [u8At]

/-! ## the step function -/

/-- One header of type `T`, then layer `l`. -/
def one (T : HeaderDef) (b : Bytes) (l : Layer) : Option (List Hdr × Nat × Layer) :=
  if T.size ≤ b.length then some ([⟨T, b.take T.size⟩], T.size, l) else none

/-- Length of an optional header. -/
def optLen (p : Bool) (n : Nat) : Nat := if p then n else 0

/-- An optional header of type `T` at offset `o`. -/
def optAt (T : HeaderDef) (p : Bool) (b : Bytes) (o : Nat) : List Hdr :=
  if p then [⟨T, (b.drop o).take T.size⟩] else []

/-- Headers emitted, bytes consumed and next layer; `none` when the input is too short.
(`payload` never steps.) -/
def dstep (l : Layer) (b : Bytes) : Option (List Hdr × Nat × Layer) :=
  match l with
  | .payload => none
  | .ether => one Ether b (etherNext (u16At b 12))
  | .vlan => one Vlan b (etherNext (u16At b 2))
  | .mpls => one MPLS b (if bitAt b 2 0 then .mplsBos else .mpls)
  | .mplsBos => if 4 < b.length then one MPLS b (bosNext (u8At b 4 / 16)) else none
  | .ipv4 => one IPv4 b (ipv4Next (u8At b 9))
  | .ipv6 => one IPv6 b (ipv6Next (u8At b 6))
  | .gre =>
    let c := bitAt b 0 7
    let k := bitAt b 0 5
    let s := bitAt b 0 4
    if 4 + optLen c 4 + optLen k 4 + optLen s 4 ≤ b.length then
      some (⟨GRE, b.take 4⟩ :: (optAt GRESequenceNum s b (4 + optLen c 4 + optLen k 4)
          ++ (optAt GREKey k b (4 + optLen c 4) ++ optAt GREChksumOffset c b 4)),
        4 + optLen c 4 + optLen k 4 + optLen s 4, greNext (u16At b 2))
    else none
  | .erspan2 => one ERSPAN2 b .ether
  | .erspan3 =>
    let o := bitAt b 11 0
    if 12 + optLen o 8 ≤ b.length then
      some (⟨ERSPAN3, b.take 12⟩ :: optAt ERSPANPLATFORM o b 12, 12 + optLen o 8, .ether)
    else none
  | .arp => one ARP b .payload
  | .icmp => one ICMP b .payload
  | .tcp => one TCP b .payload
  | .udp => one UDP b (if u16At b 2 = 4789 then .vxlan else .payload)
  | .vxlan => one Vxlan b .ether
  | .dot3 => one Dot3 b .llc
  | .llc => one LLC b (if b.take 3 = [0xAA#8, 0xAA#8, 0x03#8] then .snap else .payload)
  | .snap => one SNAP b .payload

/-- The parser function of each layer. -/
def Slow.parseL (chk : Bool) (l : Layer) (b : Bytes) : R Packet :=
  match l with
  | .payload => pure (Slow.accept b)
  | .ether => Slow.parse_ethernet chk b
  | .vlan => Slow.parse_vlan chk b
  | .mpls => Slow.parse_mpls chk b
  | .mplsBos => Slow.parse_mpls_bos chk b
  | .ipv4 => Slow.parse_ipv4 chk b
  | .ipv6 => Slow.parse_ipv6 chk b
  | .gre => Slow.parse_gre chk b
  | .erspan2 => Slow.parse_erspan2 chk b
  | .erspan3 => Slow.parse_erspan3 chk b
  | .arp => Slow.parse_arp b
  | .icmp => Slow.parse_icmp b
  | .tcp => Slow.parse_tcp b
  | .udp => Slow.parse_udp chk b
  | .vxlan => Slow.parse_vxlan chk b
  | .dot3 => Slow.parse_dot3 b
  | .llc => Slow.parse_llc b
  | .snap => Slow.parse_snap b

/-- Put headers in front of a packet. -/
def prep (hs : List Hdr) (p : Packet) : Packet := { hdrs := hs ++ p.hdrs, payload := p.payload }

/-- Result of a step followed by the next layer's parser. -/
def stepThen (chk : Bool) (b : Bytes) : Option (List Hdr × Nat × Layer) → R Packet
  | none => .error .index
  | some (hs, n, l) => (Slow.parseL chk l (b.drop n)).map (prep hs)

/-! ## dispatch -/

theorem EtherType.try_from_ofNat (n : Nat) (hn : n < 65536) :
    EtherType.try_from (BitVec.ofNat 16 n) =
      if n = 2048 then some .IPV4 else if n = 2054 then some .ARP else if n = 33024 then some .DOT1Q else if n = 34525 then some .IPV6 else if n = 34887 then some .MPLS else if n = 35006 then some .ERSPANII else if n = 8939 then some .ERSPANIII else none := by
  unfold EtherType.try_from
  simp only [EtherType.toU16, BitVec.ofNat_eq_ofNat]
  simp only [ofNat16_eq n 2048 hn, ofNat16_eq n 2054 hn, ofNat16_eq n 33024 hn, ofNat16_eq n 34525 hn, ofNat16_eq n 34887 hn, ofNat16_eq n 35006 hn, ofNat16_eq n 8939 hn, Nat.reduceMod]

theorem IpProtocol.try_from_ofNat (n : Nat) (hn : n < 256) :
    IpProtocol.try_from (BitVec.ofNat 8 n) =
      if n = 1 then some .ICMP else if n = 4 then some .IPIP else if n = 6 then some .TCP else if n = 17 then some .UDP else if n = 41 then some .IPV6 else if n = 47 then some .GRE else if n = 58 then some .ICMPV6 else none := by
  unfold IpProtocol.try_from
  simp only [IpProtocol.toU8, BitVec.ofNat_eq_ofNat]
  simp only [ofNat8_eq n 1 hn, ofNat8_eq n 4 hn, ofNat8_eq n 6 hn, ofNat8_eq n 17 hn, ofNat8_eq n 41 hn, ofNat8_eq n 47 hn, ofNat8_eq n 58 hn, Nat.reduceMod]

theorem IpType.try_from_ofNat (n : Nat) (hn : n < 256) :
    IpType.try_from (BitVec.ofNat 8 n) =
      if n = 4 then some .V4 else if n = 6 then some .V6 else none := by
  unfold IpType.try_from
  simp only [IpType.toU8, BitVec.ofNat_eq_ofNat]
  simp only [ofNat8_eq n 4 hn, ofNat8_eq n 6 hn, Nat.reduceMod]

theorem dispatch_ether (chk : Bool) (n : Nat) (hn : n < 65536) (r : Bytes)
    (k : Packet → R Packet) :
    (match EtherType.try_from ((BitVec.ofNat 64 n).setWidth 16) with
    | some .DOT1Q => (Slow.parse_vlan chk r >>= k)
    | some .ARP => (Slow.parse_arp r >>= k)
    | some .IPV4 => (Slow.parse_ipv4 chk r >>= k)
    | some .IPV6 => (Slow.parse_ipv6 chk r >>= k)
    | some .MPLS => (Slow.parse_mpls chk r >>= k)
    | _ => (pure (Slow.accept r) >>= k)) = (Slow.parseL chk (etherNext n) r >>= k) := by
  rw [setWidth16_ofNat64, EtherType.try_from_ofNat n hn]
  unfold etherNext
  by_cases h1 : n = 2048
  · subst h1; simp [Slow.parseL]
  by_cases h2 : n = 2054
  · subst h2; simp [Slow.parseL]
  by_cases h3 : n = 33024
  · subst h3; simp [Slow.parseL]
  by_cases h4 : n = 34525
  · subst h4; simp [Slow.parseL]
  by_cases h5 : n = 34887
  · subst h5; simp [Slow.parseL]
  simp only [h1, h2, h3, h4, h5, if_false, Slow.parseL]
  by_cases h6 : n = 35006
  · simp [h6]
  by_cases h7 : n = 8939
  · simp [h7]
  simp [h6, h7]

theorem dispatch_gre (chk : Bool) (n : Nat) (hn : n < 65536) (r : Bytes)
    (k : Packet → R Packet) :
    (match EtherType.try_from ((BitVec.ofNat 64 n).setWidth 16) with
    | some .IPV4 => (Slow.parse_ipv4 chk r >>= k)
    | some .IPV6 => (Slow.parse_ipv6 chk r >>= k)
    | some .ERSPANII => (Slow.parse_erspan2 chk r >>= k)
    | some .ERSPANIII => (Slow.parse_erspan3 chk r >>= k)
    | _ => (pure (Slow.accept r) >>= k)) = (Slow.parseL chk (greNext n) r >>= k) := by
  rw [setWidth16_ofNat64, EtherType.try_from_ofNat n hn]
  unfold greNext
  by_cases h1 : n = 2048
  · subst h1; simp [Slow.parseL]
  by_cases h4 : n = 34525
  · subst h4; simp [Slow.parseL]
  by_cases h6 : n = 35006
  · subst h6; simp [Slow.parseL]
  by_cases h7 : n = 8939
  · subst h7; simp [Slow.parseL]
  simp only [h1, h4, h6, h7, if_false, Slow.parseL]
  by_cases h2 : n = 2054
  · simp [h2]
  by_cases h3 : n = 33024
  · simp [h3]
  by_cases h5 : n = 34887
  · simp [h5]
  simp [h2, h3, h5]

theorem dispatch_ipv4 (chk : Bool) (n : Nat) (hn : n < 256) (r : Bytes)
    (k : Packet → R Packet) :
    (match IpProtocol.try_from ((BitVec.ofNat 64 n).setWidth 8) with
    | some .ICMP => (Slow.parse_icmp r >>= k)
    | some .IPIP => (Slow.parse_ipv4 chk r >>= k)
    | some .TCP => (Slow.parse_tcp r >>= k)
    | some .UDP => (Slow.parse_udp chk r >>= k)
    | some .IPV6 => (Slow.parse_ipv6 chk r >>= k)
    | some .GRE => (Slow.parse_gre chk r >>= k)
    | _ => (pure (Slow.accept r) >>= k)) = (Slow.parseL chk (ipv4Next n) r >>= k) := by
  rw [setWidth8_ofNat64', IpProtocol.try_from_ofNat n hn]
  unfold ipv4Next
  by_cases h1 : n = 1
  · subst h1; simp [Slow.parseL]
  by_cases h2 : n = 4
  · subst h2; simp [Slow.parseL]
  by_cases h3 : n = 6
  · subst h3; simp [Slow.parseL]
  by_cases h4 : n = 17
  · subst h4; simp [Slow.parseL]
  by_cases h5 : n = 41
  · subst h5; simp [Slow.parseL]
  by_cases h6 : n = 47
  · subst h6; simp [Slow.parseL]
  simp only [h1, h2, h3, h4, h5, h6, if_false, Slow.parseL]
  by_cases h7 : n = 58 <;> simp [h7]

theorem dispatch_ipv6 (chk : Bool) (n : Nat) (hn : n < 256) (r : Bytes)
    (k : Packet → R Packet) :
    (match IpProtocol.try_from ((BitVec.ofNat 64 n).setWidth 8) with
    | some .ICMPV6 => (Slow.parse_icmp r >>= k)
    | some .IPIP => (Slow.parse_ipv4 chk r >>= k)
    | some .TCP => (Slow.parse_tcp r >>= k)
    | some .UDP => (Slow.parse_udp chk r >>= k)
    | some .IPV6 => (Slow.parse_ipv6 chk r >>= k)
    | some .GRE => (Slow.parse_gre chk r >>= k)
    | _ => (pure (Slow.accept r) >>= k)) = (Slow.parseL chk (ipv6Next n) r >>= k) := by
  rw [setWidth8_ofNat64', IpProtocol.try_from_ofNat n hn]
  unfold ipv6Next
  by_cases h7 : n = 58
  · subst h7; simp [Slow.parseL]
  by_cases h2 : n = 4
  · subst h2; simp [Slow.parseL]
  by_cases h3 : n = 6
  · subst h3; simp [Slow.parseL]
  by_cases h4 : n = 17
  · subst h4; simp [Slow.parseL]
  by_cases h5 : n = 41
  · subst h5; simp [Slow.parseL]
  by_cases h6 : n = 47
  · subst h6; simp [Slow.parseL]
  simp only [h7, h2, h3, h4, h5, h6, if_false, Slow.parseL]
  by_cases h1 : n = 1 <;> simp [h1]

theorem nibble (b : Byte) : (b >>> 4) &&& 0xf#8 = BitVec.ofNat 8 (b.toNat / 16) := by
  apply BitVec.eq_of_toNat_eq
  have hb := b.isLt
  simp only [BitVec.toNat_and, BitVec.toNat_ushiftRight, BitVec.toNat_ofNat, Nat.shiftRight_eq_div_pow]
  rw [show (15 % 2 ^ 8 : Nat) = 2 ^ 4 - 1 by decide, Nat.and_two_pow_sub_one_eq_mod]
  omega

theorem dispatch_bos (chk : Bool) (n : Nat) (hn : n < 256) (r : Bytes)
    (k : Packet → R Packet) :
    (match IpType.try_from ((BitVec.ofNat 8 n >>> 4) &&& 0xf#8) with
    | some .V4 => (Slow.parse_ipv4 chk r >>= k)
    | some .V6 => (Slow.parse_ipv6 chk r >>= k)
    | _ => (Slow.parse_ethernet chk r >>= k)) = (Slow.parseL chk (bosNext (n / 16)) r >>= k) := by
  rw [nibble, BitVec.toNat_ofNat, Nat.mod_eq_of_lt (by omega : n < 2 ^ 8),
    IpType.try_from_ofNat (n / 16) (by omega)]
  unfold bosNext
  by_cases h1 : n / 16 = 4
  · simp [h1, Slow.parseL]
  by_cases h2 : n / 16 = 6
  · simp [h2, Slow.parseL]
  simp [h1, h2, Slow.parseL]

end PacketRs
