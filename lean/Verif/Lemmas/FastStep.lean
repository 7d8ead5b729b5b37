import Verif.Lemmas.Grammar
import Verif.Lemmas.Win
/-!
# Every fast parser function is one step, described by header types and offsets
-/
namespace PacketRs
open Spec

/-- `(type, offset)` of the headers of one step, bytes consumed, next layer. -/
def lone (T : HeaderDef) (b : Bytes) (l : Layer) : Option (List (HeaderDef × Nat) × Nat × Layer) :=
  if T.size ≤ b.length then some ([(T, 0)], T.size, l) else none

/-- An optional header of type `T` at offset `o`. -/
def loptAt (T : HeaderDef) (p : Bool) (o : Nat) : List (HeaderDef × Nat) := if p then [(T, o)] else []

/-- `dstep` with offsets instead of bytes. -/
def lay (l : Layer) (b : Bytes) : Option (List (HeaderDef × Nat) × Nat × Layer) :=
  match l with
  | .payload => none
  | .ether => lone Ether b (etherNext (u16At b 12))
  | .vlan => lone Vlan b (etherNext (u16At b 2))
  | .mpls => lone MPLS b (if bitAt b 2 0 then .mplsBos else .mpls)
  | .mplsBos => if 4 < b.length then lone MPLS b (bosNext (u8At b 4 / 16)) else none
  | .ipv4 => lone IPv4 b (ipv4Next (u8At b 9))
  | .ipv6 => lone IPv6 b (ipv6Next (u8At b 6))
  | .gre =>
    let c := bitAt b 0 7
    let k := bitAt b 0 5
    let s := bitAt b 0 4
    if 4 + optLen c 4 + optLen k 4 + optLen s 4 ≤ b.length then
      some ((GRE, 0) :: (loptAt GRESequenceNum s (4 + optLen c 4 + optLen k 4)
          ++ (loptAt GREKey k (4 + optLen c 4) ++ loptAt GREChksumOffset c 4)),
        4 + optLen c 4 + optLen k 4 + optLen s 4, greNext (u16At b 2))
    else none
  | .erspan2 => lone ERSPAN2 b .ether
  | .erspan3 =>
    let o := bitAt b 11 0
    if 12 + optLen o 8 ≤ b.length then
      some ((ERSPAN3, 0) :: loptAt ERSPANPLATFORM o 12, 12 + optLen o 8, .ether)
    else none
  | .arp => lone ARP b .payload
  | .icmp => lone ICMP b .payload
  | .tcp => lone TCP b .payload
  | .udp => lone UDP b (if u16At b 2 = 4789 then .vxlan else .payload)
  | .vxlan => lone Vxlan b .ether
  | .dot3 => lone Dot3 b .llc
  | .llc => lone LLC b (if b.take 3 = [0xAA#8, 0xAA#8, 0x03#8] then .snap else .payload)
  | .snap => lone SNAP b .payload

/-- The header bytes of a `(type, offset)` list. -/
def cut (b : Bytes) (hs : List (HeaderDef × Nat)) : List Hdr :=
  hs.map fun x => ⟨x.1, (b.drop x.2).take x.1.size⟩

theorem one_eq_lone (T : HeaderDef) (b : Bytes) (l : Layer) :
    one T b l = (lone T b l).map fun x => (cut b x.1, x.2.1, x.2.2) := by
  unfold one lone
  by_cases h : T.size ≤ b.length <;> simp [h, cut]

theorem optAt_eq_cut (T : HeaderDef) (p : Bool) (b : Bytes) (o : Nat) :
    optAt T p b o = cut b (loptAt T p o) := by cases p <;> rfl

theorem dstep_eq_lay (l : Layer) (b : Bytes) :
    dstep l b = (lay l b).map fun x => (cut b x.1, x.2.1, x.2.2) := by
  cases l with
  | payload => rfl
  | gre =>
    simp only [dstep, lay]
    by_cases h : 4 + optLen (bitAt b 0 7) 4 + optLen (bitAt b 0 5) 4 + optLen (bitAt b 0 4) 4 ≤ b.length
    · simp [h, optAt_eq_cut, cut]; rfl
    · simp [h]
  | erspan3 =>
    simp only [dstep, lay]
    by_cases h : 12 + optLen (bitAt b 11 0) 8 ≤ b.length
    · simp [h, optAt_eq_cut, cut]; rfl
    · simp [h]
  | mplsBos =>
    simp only [dstep, lay]
    by_cases h : 4 < b.length
    · simp only [h, if_true]; exact one_eq_lone _ _ _
    · simp [h]
  | _ => exact one_eq_lone _ _ _

theorem lone_ok {T : HeaderDef} {b : Bytes} {l : Layer} (h : T.size ≤ b.length) :
    lone T b l = some ([(T, 0)], T.size, l) := by simp [lone, h]

theorem lone_none {T : HeaderDef} {b : Bytes} {l : Layer} (h : b.length < T.size) :
    lone T b l = none := by
  have : ¬ T.size ≤ b.length := by omega
  simp [lone, this]

namespace Fast

/-- The parser function of each layer. -/
def parseL (chk : Bool) (l : Layer) (b : Win) : R PacketSlice :=
  match l with
  | .payload => pure (accept b)
  | .ether => parse_ethernet chk b
  | .vlan => parse_vlan chk b
  | .mpls => parse_mpls chk b
  | .mplsBos => parse_mpls_bos chk b
  | .ipv4 => parse_ipv4 chk b
  | .ipv6 => parse_ipv6 chk b
  | .gre => parse_gre chk b
  | .erspan2 => parse_erspan2 chk b
  | .erspan3 => parse_erspan3 chk b
  | .arp => parse_arp b
  | .icmp => parse_icmp b
  | .tcp => parse_tcp b
  | .udp => parse_udp chk b
  | .vxlan => parse_vxlan chk b
  | .dot3 => parse_dot3 b
  | .llc => parse_llc b
  | .snap => parse_snap b

/-- Put headers in front of a packet slice. -/
def prepW (hs : List SHdr) (p : PacketSlice) : PacketSlice :=
  { hdrs := hs ++ p.hdrs, payload := p.payload }

/-- The header windows of a `(type, offset)` list. -/
def cutW (w : Win) (hs : List (HeaderDef × Nat)) : List SHdr :=
  hs.map fun x => ⟨x.1, w.sub x.2 x.1.size⟩

/-- Result of a step followed by the next layer's parser. -/
def stepThen (chk : Bool) (w : Win) : Option (List (HeaderDef × Nat) × Nat × Layer) → R PacketSlice
  | none => .error .index
  | some (hs, n, l) => (parseL chk l (w.sub n (w.len - n))).map (prepW (cutW w hs))

theorem dispatch_ether (chk : Bool) (n : Nat) (hn : n < 65536) (r : Win)
    (k : PacketSlice → R PacketSlice) :
    (match EtherType.try_from ((BitVec.ofNat 64 n).setWidth 16) with
    | some .DOT1Q => (parse_vlan chk r >>= k)
    | some .ARP => (parse_arp r >>= k)
    | some .IPV4 => (parse_ipv4 chk r >>= k)
    | some .IPV6 => (parse_ipv6 chk r >>= k)
    | some .MPLS => (parse_mpls chk r >>= k)
    | _ => (pure (accept r) >>= k)) = (parseL chk (etherNext n) r >>= k) := by
  rw [setWidth16_ofNat64, EtherType.try_from_ofNat n hn]
  unfold etherNext
  by_cases h1 : n = 2048
  · subst h1; simp [parseL]
  by_cases h2 : n = 2054
  · subst h2; simp [parseL]
  by_cases h3 : n = 33024
  · subst h3; simp [parseL]
  by_cases h4 : n = 34525
  · subst h4; simp [parseL]
  by_cases h5 : n = 34887
  · subst h5; simp [parseL]
  simp only [h1, h2, h3, h4, h5, if_false, parseL]
  by_cases h6 : n = 35006
  · simp [h6]
  by_cases h7 : n = 8939
  · simp [h7]
  simp [h6, h7]

theorem dispatch_gre (chk : Bool) (n : Nat) (hn : n < 65536) (r : Win)
    (k : PacketSlice → R PacketSlice) :
    (match EtherType.try_from ((BitVec.ofNat 64 n).setWidth 16) with
    | some .IPV4 => (parse_ipv4 chk r >>= k)
    | some .IPV6 => (parse_ipv6 chk r >>= k)
    | some .ERSPANII => (parse_erspan2 chk r >>= k)
    | some .ERSPANIII => (parse_erspan3 chk r >>= k)
    | _ => (pure (accept r) >>= k)) = (parseL chk (greNext n) r >>= k) := by
  rw [setWidth16_ofNat64, EtherType.try_from_ofNat n hn]
  unfold greNext
  by_cases h1 : n = 2048
  · subst h1; simp [parseL]
  by_cases h4 : n = 34525
  · subst h4; simp [parseL]
  by_cases h6 : n = 35006
  · subst h6; simp [parseL]
  by_cases h7 : n = 8939
  · subst h7; simp [parseL]
  simp only [h1, h4, h6, h7, if_false, parseL]
  by_cases h2 : n = 2054
  · simp [h2]
  by_cases h3 : n = 33024
  · simp [h3]
  by_cases h5 : n = 34887
  · simp [h5]
  simp [h2, h3, h5]

theorem dispatch_ipv4 (chk : Bool) (n : Nat) (hn : n < 256) (r : Win)
    (k : PacketSlice → R PacketSlice) :
    (match IpProtocol.try_from ((BitVec.ofNat 64 n).setWidth 8) with
    | some .ICMP => (parse_icmp r >>= k)
    | some .IPIP => (parse_ipv4 chk r >>= k)
    | some .TCP => (parse_tcp r >>= k)
    | some .UDP => (parse_udp chk r >>= k)
    | some .IPV6 => (parse_ipv6 chk r >>= k)
    | some .GRE => (parse_gre chk r >>= k)
    | _ => (pure (accept r) >>= k)) = (parseL chk (ipv4Next n) r >>= k) := by
  rw [setWidth8_ofNat64', IpProtocol.try_from_ofNat n hn]
  unfold ipv4Next
  by_cases h1 : n = 1
  · subst h1; simp [parseL]
  by_cases h2 : n = 4
  · subst h2; simp [parseL]
  by_cases h3 : n = 6
  · subst h3; simp [parseL]
  by_cases h4 : n = 17
  · subst h4; simp [parseL]
  by_cases h5 : n = 41
  · subst h5; simp [parseL]
  by_cases h6 : n = 47
  · subst h6; simp [parseL]
  simp only [h1, h2, h3, h4, h5, h6, if_false, parseL]
  by_cases h7 : n = 58 <;> simp [h7]

theorem dispatch_ipv6 (chk : Bool) (n : Nat) (hn : n < 256) (r : Win)
    (k : PacketSlice → R PacketSlice) :
    (match IpProtocol.try_from ((BitVec.ofNat 64 n).setWidth 8) with
    | some .ICMPV6 => (parse_icmp r >>= k)
    | some .IPIP => (parse_ipv4 chk r >>= k)
    | some .TCP => (parse_tcp r >>= k)
    | some .UDP => (parse_udp chk r >>= k)
    | some .IPV6 => (parse_ipv6 chk r >>= k)
    | some .GRE => (parse_gre chk r >>= k)
    | _ => (pure (accept r) >>= k)) = (parseL chk (ipv6Next n) r >>= k) := by
  rw [setWidth8_ofNat64', IpProtocol.try_from_ofNat n hn]
  unfold ipv6Next
  by_cases h7 : n = 58
  · subst h7; simp [parseL]
  by_cases h2 : n = 4
  · subst h2; simp [parseL]
  by_cases h3 : n = 6
  · subst h3; simp [parseL]
  by_cases h4 : n = 17
  · subst h4; simp [parseL]
  by_cases h5 : n = 41
  · subst h5; simp [parseL]
  by_cases h6 : n = 47
  · subst h6; simp [parseL]
  simp only [h7, h2, h3, h4, h5, h6, if_false, parseL]
  by_cases h1 : n = 1 <;> simp [h1]

theorem dispatch_bos (chk : Bool) (n : Nat) (hn : n < 256) (r : Win)
    (k : PacketSlice → R PacketSlice) :
    (match IpType.try_from ((BitVec.ofNat 8 n >>> 4) &&& 0xf#8) with
    | some .V4 => (parse_ipv4 chk r >>= k)
    | some .V6 => (parse_ipv6 chk r >>= k)
    | _ => (parse_ethernet chk r >>= k)) = (parseL chk (bosNext (n / 16)) r >>= k) := by
  rw [nibble, BitVec.toNat_ofNat, Nat.mod_eq_of_lt (by omega : n < 2 ^ 8),
    IpType.try_from_ofNat (n / 16) (by omega)]
  unfold bosNext
  by_cases h1 : n / 16 = 4
  · simp [h1, parseL]
  by_cases h2 : n / 16 = 6
  · simp [h2, parseL]
  simp [h1, h2, parseL]

theorem get_eq (chk : Bool) (T : HeaderDef) (w : Win) (hb : w.InBounds) (h : T.size ≤ w.len) (f : Field) :
    (SHdr.from T (w.sub 0 T.size)).get chk f = (T.ofVec (w.bytes.take T.size)).get chk f := by
  have hin : (w.sub 0 T.size).InBounds := w.sub_inBounds hb 0 _ (by omega)
  have hby : (w.sub 0 T.size).bytes = w.bytes.take T.size := by
    rw [Win.bytes_sub w 0 T.size (by omega)]; rfl
  show Fast.bitRange chk (w.sub 0 T.size) f.hi f.lo = _
  rw [Fast.bitRange_eq chk _ hin, hby]; rfl

theorem get_u16W (chk : Bool) (T : HeaderDef) (w : Win) (hb : w.InBounds) (h : T.size ≤ w.len) (f : Field)
    (a : Nat) (ha : a + 1 < T.size) (h1 : f.lo = 8 * a) (h2 : f.hi = 8 * a + 15) :
    (SHdr.from T (w.sub 0 T.size)).get chk f = .ok (BitVec.ofNat 64 (u16At w.bytes a)) := by
  rw [get_eq chk T w hb h, get_u16 chk T _ f a (by rw [List.length_take, w.length_bytes hb]; omega) h1 h2,
    u16At_take _ _ _ ha]

theorem get_u8W (chk : Bool) (T : HeaderDef) (w : Win) (hb : w.InBounds) (h : T.size ≤ w.len) (f : Field)
    (a : Nat) (ha : a < T.size) (h1 : f.lo = 8 * a) (h2 : f.hi = 8 * a + 7) :
    (SHdr.from T (w.sub 0 T.size)).get chk f = .ok (BitVec.ofNat 64 (u8At w.bytes a)) := by
  rw [get_eq chk T w hb h, get_u8 chk T _ f a (by rw [List.length_take, w.length_bytes hb]; omega) h1 h2,
    u8At_take _ _ _ ha]

theorem get_bitW (chk : Bool) (T : HeaderDef) (w : Win) (hb : w.InBounds) (h : T.size ≤ w.len) (f : Field)
    (i k : Nat) (hk : k < 8) (hi : i < T.size) (h1 : f.lo = 8 * i + 7 - k) (h2 : f.hi = 8 * i + 7 - k) :
    (SHdr.from T (w.sub 0 T.size)).get chk f = .ok (BitVec.ofNat 64 (bitAt w.bytes i k).toNat) := by
  rw [get_eq chk T w hb h,
    get_bit chk T _ f i k hk (by rw [List.length_take, w.length_bytes hb]; omega) h1 h2,
    bitAt_take _ _ _ _ hi]

theorem wlone_ok {T : HeaderDef} {w : Win} {l : Layer} (hb : w.InBounds) (h : T.size ≤ w.len) :
    lone T w.bytes l = some ([(T, 0)], T.size, l) := lone_ok (by rw [w.length_bytes hb]; exact h)

theorem wlone_none {T : HeaderDef} {w : Win} {l : Layer} (hb : w.InBounds) (h : w.len < T.size) :
    lone T w.bytes l = none := lone_none (by rw [w.length_bytes hb]; exact h)

theorem ether_step (chk : Bool) (b : Win) (hb : b.InBounds) :
    parse_ethernet chk b = stepThen chk b (lay .ether b.bytes) := by
  rw [parse_ethernet]
  by_cases h : Ether.size ≤ b.len
  · rw [Win.slice0_ok _ _ h, Win.sliceFrom_ok _ _ h]
    simp only [R.ok_bind]
    rw [get_u16W chk Ether b hb h Ether.etype 12 (by decide) rfl rfl]
    simp only [R.ok_bind]
    refine (dispatch_ether chk _ (u16At_lt _ _) _ (fun pkt => pure (pkt.insert (SHdr.from Ether (b.sub 0 Ether.size))))).trans ?_
    simp only [lay, wlone_ok hb h, stepThen, map_eq_bind]
    rfl
  · rw [Win.slice_err _ _ _ (by omega)]
    simp only [lay, wlone_none hb (by omega : b.len < Ether.size)]
    rfl

theorem vlan_step (chk : Bool) (b : Win) (hb : b.InBounds) :
    parse_vlan chk b = stepThen chk b (lay .vlan b.bytes) := by
  rw [parse_vlan]
  by_cases h : Vlan.size ≤ b.len
  · rw [Win.slice0_ok _ _ h, Win.sliceFrom_ok _ _ h]
    simp only [R.ok_bind]
    rw [get_u16W chk Vlan b hb h Vlan.etype 2 (by decide) rfl rfl]
    simp only [R.ok_bind]
    refine (dispatch_ether chk _ (u16At_lt _ _) _ (fun pkt => pure (pkt.insert (SHdr.from Vlan (b.sub 0 Vlan.size))))).trans ?_
    simp only [lay, wlone_ok hb h, stepThen, map_eq_bind]
    rfl
  · rw [Win.slice_err _ _ _ (by omega)]
    simp only [lay, wlone_none hb (by omega : b.len < Vlan.size)]
    rfl

theorem ipv4_step (chk : Bool) (b : Win) (hb : b.InBounds) :
    parse_ipv4 chk b = stepThen chk b (lay .ipv4 b.bytes) := by
  rw [parse_ipv4]
  by_cases h : IPv4.size ≤ b.len
  · rw [Win.slice0_ok _ _ h, Win.sliceFrom_ok _ _ h]
    simp only [R.ok_bind]
    rw [get_u8W chk IPv4 b hb h IPv4.protocol 9 (by decide) rfl rfl]
    simp only [R.ok_bind]
    refine (dispatch_ipv4 chk _ (u8At_lt _ _) _ (fun pkt => pure (pkt.insert (SHdr.from IPv4 (b.sub 0 IPv4.size))))).trans ?_
    simp only [lay, wlone_ok hb h, stepThen, map_eq_bind]
    rfl
  · rw [Win.slice_err _ _ _ (by omega)]
    simp only [lay, wlone_none hb (by omega : b.len < IPv4.size)]
    rfl

theorem ipv6_step (chk : Bool) (b : Win) (hb : b.InBounds) :
    parse_ipv6 chk b = stepThen chk b (lay .ipv6 b.bytes) := by
  rw [parse_ipv6]
  by_cases h : IPv6.size ≤ b.len
  · rw [Win.slice0_ok _ _ h, Win.sliceFrom_ok _ _ h]
    simp only [R.ok_bind]
    rw [get_u8W chk IPv6 b hb h IPv6.next_hdr 6 (by decide) rfl rfl]
    simp only [R.ok_bind]
    refine (dispatch_ipv6 chk _ (u8At_lt _ _) _ (fun pkt => pure (pkt.insert (SHdr.from IPv6 (b.sub 0 IPv6.size))))).trans ?_
    simp only [lay, wlone_ok hb h, stepThen, map_eq_bind]
    rfl
  · rw [Win.slice_err _ _ _ (by omega)]
    simp only [lay, wlone_none hb (by omega : b.len < IPv6.size)]
    rfl

theorem mpls_step (chk : Bool) (b : Win) (hb : b.InBounds) :
    parse_mpls chk b = stepThen chk b (lay .mpls b.bytes) := by
  rw [parse_mpls]
  by_cases h : MPLS.size ≤ b.len
  · rw [Win.slice0_ok _ _ h, Win.sliceFrom_ok _ _ h]
    simp only [R.ok_bind]
    rw [get_bitW chk MPLS b hb h MPLS.bos 2 0 (by decide) (by decide) rfl rfl]
    simp only [R.ok_bind, bit_eq_one]
    simp only [lay, wlone_ok hb h, stepThen, map_eq_bind]
    by_cases hq : bitAt b.bytes 2 0 = true
    · simp only [hq, if_true]; rfl
    · simp only [hq]; rfl
  · rw [Win.slice_err _ _ _ (by omega)]
    simp only [lay, wlone_none hb (by omega : b.len < MPLS.size)]
    rfl

theorem mpls_bos_step (chk : Bool) (b : Win) (hb : b.InBounds) :
    parse_mpls_bos chk b = stepThen chk b (lay .mplsBos b.bytes) := by
  rw [parse_mpls_bos]
  by_cases h : MPLS.size ≤ b.len
  · rw [Win.slice0_ok _ _ h, Win.sliceFrom_ok _ _ h]
    by_cases h' : 4 < b.len
    · rw [Win.index_eq b hb, index_eq_u8 _ _ (by rw [b.length_bytes hb]; exact h')]
      simp only [R.ok_bind]
      refine (dispatch_bos chk _ (u8At_lt _ _) _ (fun pkt => pure (pkt.insert (SHdr.from MPLS (b.sub 0 MPLS.size))))).trans ?_
      simp only [lay, b.length_bytes hb, h', if_true]
      rw [wlone_ok hb h]
      simp only [stepThen, map_eq_bind]
      rfl
    · rw [Win.index_eq b hb, index_err _ _ (by rw [b.length_bytes hb]; simp only [MPLS]; omega)]
      simp only [lay, b.length_bytes hb, h', if_false]
      rfl
  · rw [Win.slice_err _ _ _ (by omega)]
    have h' : ¬ 4 < b.len := by simp only [MPLS] at h; omega
    simp only [lay, b.length_bytes hb, h', if_false]
    rfl

theorem udp_step (chk : Bool) (b : Win) (hb : b.InBounds) :
    parse_udp chk b = stepThen chk b (lay .udp b.bytes) := by
  rw [parse_udp]
  by_cases h : UDP.size ≤ b.len
  · rw [Win.slice0_ok _ _ h, Win.sliceFrom_ok _ _ h]
    simp only [R.ok_bind]
    rw [get_u16W chk UDP b hb h UDP.dst 2 (by decide) rfl rfl]
    simp only [R.ok_bind]
    rw [setWidth16_ofNat64]
    have hp : (BitVec.ofNat 16 (u16At b.bytes 2) = UDP_PORT_VXLAN) = (u16At b.bytes 2 = 4789) :=
      ofNat16_eq _ 4789 (u16At_lt _ _)
    simp only [hp, lay, wlone_ok hb h, stepThen, map_eq_bind]
    by_cases hq : u16At b.bytes 2 = 4789
    · simp only [hq, if_true]; rfl
    · simp only [hq, if_false]; rfl
  · rw [Win.slice_err _ _ _ (by omega)]
    simp only [lay, wlone_none hb (by omega : b.len < UDP.size)]
    rfl

theorem erspan2_step (chk : Bool) (b : Win) (hb : b.InBounds) :
    parse_erspan2 chk b = stepThen chk b (lay .erspan2 b.bytes) := by
  rw [parse_erspan2]
  by_cases h : ERSPAN2.size ≤ b.len
  · rw [Win.slice0_ok _ _ h, Win.sliceFrom_ok _ _ h]
    simp only [R.ok_bind, lay, wlone_ok hb h, stepThen, map_eq_bind]
    rfl
  · rw [Win.slice_err _ _ _ (by omega)]
    simp only [lay, wlone_none hb (by omega : b.len < ERSPAN2.size)]
    rfl

theorem vxlan_step (chk : Bool) (b : Win) (hb : b.InBounds) :
    parse_vxlan chk b = stepThen chk b (lay .vxlan b.bytes) := by
  rw [parse_vxlan]
  by_cases h : Vxlan.size ≤ b.len
  · rw [Win.slice0_ok _ _ h, Win.sliceFrom_ok _ _ h]
    simp only [R.ok_bind, lay, wlone_ok hb h, stepThen, map_eq_bind]
    rfl
  · rw [Win.sliceFrom_err _ _ (by omega)]
    simp only [lay, wlone_none hb (by omega : b.len < Vxlan.size)]
    rfl

theorem arp_step (chk : Bool) (b : Win) (hb : b.InBounds) :
    parse_arp b = stepThen chk b (lay .arp b.bytes) := by
  rw [parse_arp]
  by_cases h : ARP.size ≤ b.len
  · rw [Win.slice0_ok _ _ h, Win.sliceFrom_ok _ _ h]
    simp only [R.ok_bind, lay, wlone_ok hb h, stepThen, map_eq_bind]
    rfl
  · rw [Win.sliceFrom_err _ _ (by omega)]
    simp only [lay, wlone_none hb (by omega : b.len < ARP.size)]
    rfl

theorem icmp_step (chk : Bool) (b : Win) (hb : b.InBounds) :
    parse_icmp b = stepThen chk b (lay .icmp b.bytes) := by
  rw [parse_icmp]
  by_cases h : ICMP.size ≤ b.len
  · rw [Win.slice0_ok _ _ h, Win.sliceFrom_ok _ _ h]
    simp only [R.ok_bind, lay, wlone_ok hb h, stepThen, map_eq_bind]
    rfl
  · rw [Win.sliceFrom_err _ _ (by omega)]
    simp only [lay, wlone_none hb (by omega : b.len < ICMP.size)]
    rfl

theorem tcp_step (chk : Bool) (b : Win) (hb : b.InBounds) :
    parse_tcp b = stepThen chk b (lay .tcp b.bytes) := by
  rw [parse_tcp]
  by_cases h : TCP.size ≤ b.len
  · rw [Win.slice0_ok _ _ h, Win.sliceFrom_ok _ _ h]
    simp only [R.ok_bind, lay, wlone_ok hb h, stepThen, map_eq_bind]
    rfl
  · rw [Win.sliceFrom_err _ _ (by omega)]
    simp only [lay, wlone_none hb (by omega : b.len < TCP.size)]
    rfl

theorem snap_step (chk : Bool) (b : Win) (hb : b.InBounds) :
    parse_snap b = stepThen chk b (lay .snap b.bytes) := by
  rw [parse_snap]
  by_cases h : SNAP.size ≤ b.len
  · rw [Win.slice0_ok _ _ h, Win.sliceFrom_ok _ _ h]
    simp only [R.ok_bind, lay, wlone_ok hb h, stepThen, map_eq_bind]
    rfl
  · rw [Win.slice_err _ _ _ (by omega)]
    simp only [lay, wlone_none hb (by omega : b.len < SNAP.size)]
    rfl

theorem dot3_step (chk : Bool) (b : Win) (hb : b.InBounds) :
    parse_dot3 b = stepThen chk b (lay .dot3 b.bytes) := by
  rw [parse_dot3]
  by_cases h : Dot3.size ≤ b.len
  · rw [Win.slice0_ok _ _ h, Win.sliceFrom_ok _ _ h]
    simp only [R.ok_bind, lay, wlone_ok hb h, stepThen, map_eq_bind]
    rfl
  · rw [Win.slice_err _ _ _ (by omega)]
    simp only [lay, wlone_none hb (by omega : b.len < Dot3.size)]
    rfl

theorem llc_step (chk : Bool) (b : Win) (hb : b.InBounds) :
    parse_llc b = stepThen chk b (lay .llc b.bytes) := by
  rw [parse_llc]
  by_cases h : LLC.size ≤ b.len
  · rw [Win.slice0_ok _ _ h, Win.sliceFrom_ok _ _ h, Win.index_eq b hb, Win.index_eq b hb, Win.index_eq b hb]
    simp only [lay, wlone_ok hb h, stepThen, map_eq_bind]
    have hlen : 3 ≤ b.bytes.length := by rw [b.length_bytes hb]; exact h
    generalize b.bytes = d at *
    match d, hlen with
    | x :: y :: z :: r, _ =>
      have t : List.take 3 (x :: y :: z :: r) = [x, y, z] := rfl
      rw [t]
      by_cases hx : x = 0xAA#8
      · subst hx
        by_cases hy : y = 0xAA#8
        · subst hy
          by_cases hz : z = 0x03#8
          · subst hz; rfl
          · simp [index, hz]; rfl
        · simp [index, hy]; rfl
      · simp [index, hx]; rfl
    | [], h => simp at h
    | [_], h => simp at h
    | [_, _], h => simp at h
  · rw [Win.slice_err _ _ _ (by omega)]
    simp only [lay, wlone_none hb (by omega : b.len < LLC.size)]
    rfl

theorem optHdr_ok (T : HeaderDef) (p : Bool) (b : Win) (o : Nat) (h : o + optLen p T.size ≤ b.len) :
    optHdr T (BitVec.ofNat 64 p.toNat) b o =
      .ok (if p then some ⟨T, b.sub o T.size⟩ else none) := by
  unfold optHdr
  cases p
  · rfl
  · simp only [optLen, if_true] at h
    rw [if_pos (by rfl), Win.slice_ok _ _ _ (by omega) h]
    rfl

theorem optHdr_err (T : HeaderDef) (p : Bool) (b : Win) (o : Nat) (h0 : o ≤ b.len)
    (h : b.len < o + optLen p T.size) :
    optHdr T (BitVec.ofNat 64 p.toNat) b o = .error .index := by
  unfold optHdr
  cases p
  · simp [optLen] at h; omega
  · simp only [optLen, if_true] at h
    rw [if_pos (by rfl), Win.slice_err _ _ _ h]
    rfl

theorem optOffset_eq (T : HeaderDef) (p : Bool) (o : Nat) :
    optOffset T (BitVec.ofNat 64 p.toNat) o = o + optLen p T.size := by
  cases p <;> simp [optLen, optOffset]

theorem insertOpt_eq (T : HeaderDef) (p : Bool) (b : Win) (o : Nat) (pkt : PacketSlice) :
    insertOpt pkt (if p then some ⟨T, b.sub o T.size⟩ else none) = prepW (cutW b (loptAt T p o)) pkt := by
  cases p <;> rfl

theorem erspan3_step (chk : Bool) (b : Win) (hb : b.InBounds) :
    parse_erspan3 chk b = stepThen chk b (lay .erspan3 b.bytes) := by
  rw [parse_erspan3]
  by_cases h : ERSPAN3.size ≤ b.len
  · rw [Win.slice0_ok _ _ h]
    simp only [R.ok_bind]
    rw [get_bitW chk ERSPAN3 b hb h ERSPAN3.o 11 0 (by decide) (by decide) rfl rfl]
    simp only [R.ok_bind]
    rw [optOffset_eq]
    by_cases h2 : ERSPAN3.size + optLen (bitAt b.bytes 11 0) ERSPANPLATFORM.size ≤ b.len
    · rw [optHdr_ok _ _ _ _ h2, Win.sliceFrom_ok _ _ h2]
      simp only [R.ok_bind, insertOpt_eq, lay, b.length_bytes hb]
      have h3 : 12 + optLen (bitAt b.bytes 11 0) 8 ≤ b.len := h2
      rw [if_pos h3]
      simp only [stepThen, map_eq_bind]
      rfl
    · rw [optHdr_err _ _ _ _ h (by omega)]
      have h3 : ¬ 12 + optLen (bitAt b.bytes 11 0) 8 ≤ b.len := h2
      simp only [lay, b.length_bytes hb, h3, if_false]
      rfl
  · rw [Win.slice_err _ _ _ (by omega)]
    have h3 : ¬ 12 + optLen (bitAt b.bytes 11 0) 8 ≤ b.len := by simp only [ERSPAN3] at h; omega
    simp only [lay, b.length_bytes hb, h3, if_false]
    rfl

theorem prepW_prepW (a c : List SHdr) (p : PacketSlice) : prepW a (prepW c p) = prepW (a ++ c) p := by
  simp [prepW]

theorem cutW_append (w : Win) (a c : List (HeaderDef × Nat)) : cutW w (a ++ c) = cutW w a ++ cutW w c := by
  simp [cutW]

theorem insert_eq_prepW (h : SHdr) (p : PacketSlice) : p.insert h = prepW [h] p := rfl

theorem gre_step (chk : Bool) (b : Win) (hb : b.InBounds) :
    parse_gre chk b = stepThen chk b (lay .gre b.bytes) := by
  rw [parse_gre]
  by_cases h : GRE.size ≤ b.len
  · rw [Win.slice0_ok _ _ h]
    simp only [R.ok_bind]
    rw [get_u16W chk GRE b hb h GRE.proto 2 (by decide) rfl rfl,
      get_bitW chk GRE b hb h GRE.chksum_present 0 7 (by decide) (by decide) rfl rfl,
      get_bitW chk GRE b hb h GRE.seqnum_present 0 4 (by decide) (by decide) rfl rfl,
      get_bitW chk GRE b hb h GRE.key_present 0 5 (by decide) (by decide) rfl rfl]
    simp only [R.ok_bind]
    rw [optOffset_eq, optOffset_eq, optOffset_eq]
    by_cases h2 : GRE.size + optLen (bitAt b.bytes 0 7) GREChksumOffset.size ≤ b.len
    · rw [optHdr_ok _ _ _ _ h2]
      by_cases h3 : GRE.size + optLen (bitAt b.bytes 0 7) GREChksumOffset.size
          + optLen (bitAt b.bytes 0 5) GREKey.size ≤ b.len
      · rw [optHdr_ok _ _ _ _ h3]
        by_cases h4 : GRE.size + optLen (bitAt b.bytes 0 7) GREChksumOffset.size
            + optLen (bitAt b.bytes 0 5) GREKey.size + optLen (bitAt b.bytes 0 4) GRESequenceNum.size ≤ b.len
        · rw [optHdr_ok _ _ _ _ h4, Win.sliceFrom_ok _ _ h4]
          simp only [R.ok_bind]
          refine (dispatch_gre chk _ (u16At_lt _ _) _ (fun pkt => pure ((insertOpt (insertOpt (insertOpt pkt
            (if bitAt b.bytes 0 7 then some ⟨GREChksumOffset, b.sub GRE.size GREChksumOffset.size⟩ else none))
            (if bitAt b.bytes 0 5 then some ⟨GREKey,
              b.sub (GRE.size + optLen (bitAt b.bytes 0 7) GREChksumOffset.size) GREKey.size⟩ else none))
            (if bitAt b.bytes 0 4 then some ⟨GRESequenceNum,
              b.sub (GRE.size + optLen (bitAt b.bytes 0 7) GREChksumOffset.size
                + optLen (bitAt b.bytes 0 5) GREKey.size) GRESequenceNum.size⟩ else none)).insert
            (SHdr.from GRE (b.sub 0 GRE.size))))).trans ?_
          have h4' : 4 + optLen (bitAt b.bytes 0 7) 4 + optLen (bitAt b.bytes 0 5) 4 + optLen (bitAt b.bytes 0 4) 4
            ≤ b.len := h4
          simp only [insertOpt_eq, lay, h4', if_true, stepThen, map_eq_bind, insert_eq_prepW, prepW_prepW,
            b.length_bytes hb, ← cutW_append]
          rfl
        · rw [optHdr_err _ _ _ _ h3 (by omega)]
          have h4' : ¬ 4 + optLen (bitAt b.bytes 0 7) 4 + optLen (bitAt b.bytes 0 5) 4 + optLen (bitAt b.bytes 0 4) 4
            ≤ b.len := h4
          simp only [lay, b.length_bytes hb, h4', if_false]
          rfl
      · rw [optHdr_err _ _ _ _ h2 (by omega)]
        have h3' : ¬ 4 + optLen (bitAt b.bytes 0 7) 4 + optLen (bitAt b.bytes 0 5) 4 ≤ b.len := h3
        have h4' : ¬ 4 + optLen (bitAt b.bytes 0 7) 4 + optLen (bitAt b.bytes 0 5) 4 + optLen (bitAt b.bytes 0 4) 4
          ≤ b.len := by omega
        simp only [lay, b.length_bytes hb, h4', if_false]
        rfl
    · rw [optHdr_err _ _ _ _ h (by omega)]
      have h2' : ¬ 4 + optLen (bitAt b.bytes 0 7) 4 ≤ b.len := h2
      have h4' : ¬ 4 + optLen (bitAt b.bytes 0 7) 4 + optLen (bitAt b.bytes 0 5) 4 + optLen (bitAt b.bytes 0 4) 4
        ≤ b.len := by omega
      simp only [lay, b.length_bytes hb, h4', if_false]
      rfl
  · rw [Win.slice_err _ _ _ (by omega)]
    have h' : ¬ 4 ≤ b.len := h
    have h4' : ¬ 4 + optLen (bitAt b.bytes 0 7) 4 + optLen (bitAt b.bytes 0 5) 4 + optLen (bitAt b.bytes 0 4) 4
      ≤ b.len := by omega
    simp only [lay, b.length_bytes hb, h4', if_false]
    rfl

/-- Every parser function is one step of `lay` followed by the parser of the next layer. -/
theorem parseL_eq (chk : Bool) (l : Layer) (b : Win) (hb : b.InBounds) (hl : l ≠ .payload) :
    parseL chk l b = stepThen chk b (lay l b.bytes) := by
  cases l with
  | payload => exact absurd rfl hl
  | ether => exact ether_step chk b hb
  | vlan => exact vlan_step chk b hb
  | mpls => exact mpls_step chk b hb
  | mplsBos => exact mpls_bos_step chk b hb
  | ipv4 => exact ipv4_step chk b hb
  | ipv6 => exact ipv6_step chk b hb
  | gre => exact gre_step chk b hb
  | erspan2 => exact erspan2_step chk b hb
  | erspan3 => exact erspan3_step chk b hb
  | arp => exact arp_step chk b hb
  | icmp => exact icmp_step chk b hb
  | tcp => exact tcp_step chk b hb
  | udp => exact udp_step chk b hb
  | vxlan => exact vxlan_step chk b hb
  | dot3 => exact dot3_step chk b hb
  | llc => exact llc_step chk b hb
  | snap => exact snap_step chk b hb

theorem parse_eq (chk : Bool) (b : Win) (hb : b.InBounds) :
    parse chk b = if b.len < 14 then .error .index
      else parseL chk (if u16At b.bytes 12 < 1500 then .dot3 else .ether) b := by
  unfold parse
  rw [Win.index_eq b hb, Win.index_eq b hb, ← b.length_bytes hb]
  by_cases h : b.bytes.length < 14
  · rw [if_pos h]
    by_cases h2 : b.bytes.length ≤ 12
    · rw [index_err _ _ h2]; rfl
    · rw [index_ok _ _ (by omega), index_err _ _ (by omega)]; rfl
  · rw [if_neg h, index_ok _ _ (by omega), index_ok _ _ (by omega)]
    simp only [R.ok_bind]
    have key : ((b.bytes.getD 12 0#8).setWidth 16 <<< 8 ||| (b.bytes.getD 13 0#8).setWidth 16 : U16).toNat
        = u16At b.bytes 12 := by
      unfold u16At u8At
      have h1 := (b.bytes.getD 12 0#8).isLt
      have h2 := (b.bytes.getD 13 0#8).isLt
      generalize b.bytes.getD 12 0#8 = x at *
      generalize b.bytes.getD 13 0#8 = y at *
      simp only [BitVec.toNat_or, BitVec.toNat_shiftLeft, BitVec.toNat_setWidth]
      rw [Nat.mod_eq_of_lt (by omega : x.toNat < 2 ^ 16), Nat.mod_eq_of_lt (by omega : y.toNat < 2 ^ 16),
        Nat.shiftLeft_eq, Nat.mod_eq_of_lt (by omega : x.toNat * 2 ^ 8 < 2 ^ 16), Nat.mul_comm,
        ← Nat.two_pow_add_eq_or_of_lt (by omega : y.toNat < 2 ^ 8)]
    have hlt : ((b.bytes.getD 12 0#8).setWidth 16 <<< 8 ||| (b.bytes.getD 13 0#8).setWidth 16 < 1500#16)
        = (u16At b.bytes 12 < 1500) := by
      rw [BitVec.lt_def, key]; rfl
    simp only [hlt]
    by_cases h3 : u16At b.bytes 12 < 1500
    · simp only [h3, if_true]; rfl
    · simp only [h3, if_false]; rfl

theorem stepThen_ok {chk : Bool} {w : Win} {o : Option (List (HeaderDef × Nat) × Nat × Layer)}
    {p : PacketSlice} (h : stepThen chk w o = .ok p) :
    ∃ hs n l p', o = some (hs, n, l) ∧ parseL chk l (w.sub n (w.len - n)) = .ok p' ∧
      p = prepW (cutW w hs) p' := by
  match o, h with
  | none, h => exact nomatch h
  | some (hs, n, l), h =>
    simp only [stepThen] at h
    match hp : parseL chk l (w.sub n (w.len - n)) with
    | .error e => rw [hp] at h; exact nomatch h
    | .ok p' =>
      rw [hp] at h
      injection h with h
      exact ⟨hs, n, l, p', rfl, hp, h.symm⟩

theorem lay_bounds {l l' : Layer} {b : Bytes} {hs : List (HeaderDef × Nat)} {n : Nat}
    (e : lay l b = some (hs, n, l')) : 3 * hs.length ≤ n ∧ 0 < n ∧ n ≤ b.length := by
  have : dstep l b = some (cut b hs, n, l') := by rw [dstep_eq_lay, e]; rfl
  have := dstep_bounds this
  simpa [cut] using this

theorem drop_inBounds (w : Win) (hb : w.InBounds) (n : Nat) (h : n ≤ w.len) :
    (w.sub n (w.len - n)).InBounds := w.sub_inBounds hb n _ (by omega)

/-- Induction over a successful fast parse. -/
theorem parse_induct {chk : Bool} {M : Layer → Win → PacketSlice → Prop}
    (base : ∀ w, M .payload w ⟨[], w⟩)
    (step : ∀ l w hs n l' p, w.InBounds → lay l w.bytes = some (hs, n, l') → n ≤ w.len →
      M l' (w.sub n (w.len - n)) p → M l w (prepW (cutW w hs) p)) :
    ∀ l w p, w.InBounds → parseL chk l w = .ok p → M l w p := by
  suffices H : ∀ m l w p, w.len ≤ m → w.InBounds → parseL chk l w = .ok p → M l w p from
    fun l w p hb h => H w.len l w p (Nat.le_refl _) hb h
  intro m
  induction m with
  | zero =>
    intro l w p hm hb h
    by_cases hl : l = .payload
    · subst hl
      have : p = ⟨[], w⟩ := by injection h with h; exact h.symm
      subst this; exact base w
    · rw [parseL_eq _ _ _ hb hl] at h
      obtain ⟨hs, n, l', p', e, -, -⟩ := stepThen_ok h
      have := lay_bounds e
      rw [w.length_bytes hb] at this; omega
  | succ m ih =>
    intro l w p hm hb h
    by_cases hl : l = .payload
    · subst hl
      have : p = ⟨[], w⟩ := by injection h with h; exact h.symm
      subst this; exact base w
    · rw [parseL_eq _ _ _ hb hl] at h
      obtain ⟨hs, n, l', p', e, e2, rfl⟩ := stepThen_ok h
      have hn := lay_bounds e
      rw [w.length_bytes hb] at hn
      exact step l w hs n l' p' hb e hn.2.2
        (ih l' _ p' (by simp only [Win.sub]; omega) (drop_inBounds w hb n hn.2.2) e2)

/-- The bytes a slice header shows, as an owned header. -/
def SHdr.toHdr (h : SHdr) : Hdr := ⟨h.ty, h.win.bytes⟩

/-- The bytes a packet slice shows, as an owned packet. -/
def PacketSlice.toPacket (p : PacketSlice) : Packet := ⟨p.hdrs.map SHdr.toHdr, p.payload.bytes⟩

/-- `(type, offset)` pairs lie one after the other from `a` to `e`. -/
inductive Chain : Nat → List (HeaderDef × Nat) → Nat → Prop
  | nil (a : Nat) : Chain a [] a
  | cons {a e : Nat} {T : HeaderDef} {xs : List (HeaderDef × Nat)} :
      Chain (a + T.size) xs e → Chain a ((T, a) :: xs) e

theorem Chain.append {a m e : Nat} {xs ys : List (HeaderDef × Nat)} (h1 : Chain a xs m) (h2 : Chain m ys e) :
    Chain a (xs ++ ys) e := by
  induction h1 with
  | nil a => exact h2
  | cons _ ih => exact Chain.cons (ih h2)

theorem Chain.opt (T : HeaderDef) (p : Bool) (o : Nat) : Chain o (loptAt T p o) (o + optLen p T.size) := by
  cases p
  · exact Chain.nil o
  · exact Chain.cons (Chain.nil _)

theorem Chain.le {a e : Nat} {xs : List (HeaderDef × Nat)} (h : Chain a xs e) : a ≤ e := by
  induction h with
  | nil a => exact Nat.le_refl a
  | cons _ ih => omega

theorem Chain.mem_le {a e : Nat} {xs : List (HeaderDef × Nat)} (h : Chain a xs e) :
    ∀ x ∈ xs, a ≤ x.2 ∧ x.2 + x.1.size ≤ e := by
  induction h with
  | nil a => intro x hx; exact nomatch hx
  | cons h ih =>
    intro x hx
    rcases List.mem_cons.mp hx with rfl | hx
    · exact ⟨Nat.le_refl _, h.le⟩
    · have := ih x hx; omega

theorem lone_chain {T : HeaderDef} {b : Bytes} {l l' : Layer} {hs : List (HeaderDef × Nat)} {n : Nat}
    (e : lone T b l = some (hs, n, l')) : hs = [(T, 0)] ∧ n = T.size ∧ Chain 0 hs n := by
  unfold lone at e
  by_cases h : T.size ≤ b.length
  · rw [if_pos h] at e
    injection e with e
    injection e with e1 e
    injection e with e2 e3
    subst e1 e2 e3
    refine ⟨rfl, rfl, ?_⟩
    have := Chain.cons (a := 0) (T := T) (Chain.nil (0 + T.size))
    simpa using this
  · rw [if_neg h] at e; exact nomatch e

/-- The headers of a step are consecutive; for GRE after reversing the order of the options. -/
theorem lay_chain {l l' : Layer} {b : Bytes} {hs : List (HeaderDef × Nat)} {n : Nat}
    (e : lay l b = some (hs, n, l')) :
    ∃ hs', hs'.Perm hs ∧ Chain 0 hs' n ∧
      ((l = .gre → (bitAt b 0 7).toNat + (bitAt b 0 5).toNat + (bitAt b 0 4).toNat ≤ 1) → hs' = hs) := by
  cases l with
  | payload => exact nomatch e
  | gre =>
    simp only [lay] at e
    generalize bitAt b 0 7 = c at *
    generalize bitAt b 0 5 = k at *
    generalize bitAt b 0 4 = s at *
    by_cases h : 4 + optLen c 4 + optLen k 4 + optLen s 4 ≤ b.length
    · rw [if_pos h] at e
      injection e with e
      injection e with e1 e
      injection e with e2 e3
      subst e1 e2 e3
      refine ⟨(GRE, 0) :: (loptAt GREChksumOffset c 4 ++ (loptAt GREKey k (4 + optLen c 4)
        ++ loptAt GRESequenceNum s (4 + optLen c 4 + optLen k 4))), ?_, ?_, ?_⟩
      · refine List.Perm.cons _ ?_
        refine (List.perm_append_comm).trans ?_
        rw [List.append_assoc]
        refine (List.perm_append_comm).trans ?_
        rw [List.append_assoc]
        refine List.Perm.append_left _ ?_
        exact List.perm_append_comm
      · have h0 := Chain.opt GREChksumOffset c 4
        have h1 := Chain.opt GREKey k (4 + optLen c 4)
        have h2 := Chain.opt GRESequenceNum s (4 + optLen c 4 + optLen k 4)
        have := Chain.cons (a := 0) (T := GRE) (xs := _) (e := _)
          (by simpa only [GRE, Nat.zero_add] using (h0.append (h1.append h2)))
        exact this
      · intro hc
        have hc := hc rfl
        cases c <;> cases k <;> cases s <;> first | rfl | (exfalso; revert hc; decide)
    · rw [if_neg h] at e; exact nomatch e
  | erspan3 =>
    simp only [lay] at e
    generalize bitAt b 11 0 = o at e
    by_cases h : 12 + optLen o 8 ≤ b.length
    · rw [if_pos h] at e
      injection e with e
      injection e with e1 e
      injection e with e2 e3
      subst e1 e2 e3
      refine ⟨_, List.Perm.refl _, ?_, fun _ => rfl⟩
      have h0 := Chain.opt ERSPANPLATFORM o 12
      have h1 : Chain (0 + ERSPAN3.size) (loptAt ERSPANPLATFORM o 12) (12 + optLen o 8) := h0
      exact Chain.cons (a := 0) (T := ERSPAN3) h1
    · rw [if_neg h] at e; exact nomatch e
  | mplsBos =>
    simp only [lay] at e
    by_cases h : 4 < b.length
    · rw [if_pos h] at e; exact ⟨hs, List.Perm.refl _, (lone_chain e).2.2, fun _ => rfl⟩
    · rw [if_neg h] at e; exact nomatch e
  | _ => exact ⟨hs, List.Perm.refl _, (lone_chain e).2.2, fun _ => rfl⟩

theorem chain_flatten {b : Bytes} {a e : Nat} {hs : List (HeaderDef × Nat)} (h : Chain a hs e)
    (he : e ≤ b.length) : ((cut b hs).map (·.data)).flatten = (b.drop a).take (e - a) := by
  induction h with
  | nil a => simp [cut]
  | @cons a e T xs h ih =>
    have hle := h.le
    have ih := ih he
    simp only [cut, List.map_cons, List.flatten_cons] at ih ⊢
    rw [ih, ← List.drop_drop, show e - a = T.size + (e - (a + T.size)) by omega, List.take_add]

end Fast
end PacketRs
