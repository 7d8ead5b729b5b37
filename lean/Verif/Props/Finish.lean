import Verif.Spec.Finish
import Verif.Props.Napt
import Verif.Props.Endpoint
/-!
# Property C105: what a client has to add to a built packet

A client sets lengths and checksums of a packet that a builder returned.  What the host that gets the frame makes of it.
-/
namespace PacketRs
open Spec Utils

/-! ## The client -/

/-- The client puts the length and the checksum of the IPv4 header right: `n` octets precede it. -/
def finishIp (n : Nat) (p : Packet) : R Packet := do
  let p ← editField IPv4 IPv4.name IPv4.total_len (BitVec.ofNat 64 (p.to_vec.length - n)) p
  let p ← editField IPv4 IPv4.name IPv4.header_checksum 0 p
  editField IPv4 IPv4.name IPv4.header_checksum (BitVec.ofNat 64 (checksum ((p.to_vec.drop n).take 20))) p

/-- The client computes the checksum `cs` of the header `T`; `cover` is what it covers, in the octets of the packet. -/
def finishSum (T : HeaderDef) (cs : Field) (cover : Bytes → Bytes) (p : Packet) : R Packet := do
  let p ← editField T T.name cs 0 p
  editField T T.name cs (BitVec.ofNat 64 (checksum (cover p.to_vec))) p

/-! ## Checksums -/

theorem num16_be16 (v : U64) : num16 v.toNat = be16 (v.setWidth 16) := by
  simp only [num16, be16, List.cons.injEq, and_true]
  constructor
  · apply BitVec.eq_of_toNat_eq
    simp only [BitVec.toNat_ofNat, BitVec.toNat_setWidth, BitVec.toNat_ushiftRight, Nat.shiftRight_eq_div_pow]
    omega
  · apply BitVec.eq_of_toNat_eq
    simp only [BitVec.toNat_ofNat, BitVec.toNat_setWidth]
    omega

theorem setWidth_ofNat16 (k : Nat) : (BitVec.ofNat 64 k).setWidth 16 = BitVec.ofNat 16 k := by
  apply BitVec.eq_of_toNat_eq
  simp only [BitVec.toNat_setWidth, BitVec.toNat_ofNat]
  omega

theorem checksum_range (b : Bytes) : 0 < checksum b ∧ checksum b ≤ 65535 ∧ (checksum b + (words b).sum) % 65535 = 0 := by
  obtain ⟨f1, f2, -⟩ := fold16_eq (words b).sum
  unfold checksum
  simp only
  split <;> omega

/-- Octets whose checksum field, at octet `a`, holds the checksum computed with a zero there. -/
theorem checksum_verifies (pre post : Bytes) (h : pre.length % 2 = 0) :
    Verifies (pre ++ be16 (BitVec.ofNat 16 (checksum (pre ++ be16 0#16 ++ post))) ++ post) := by
  obtain ⟨c1, c2, c3⟩ := checksum_range (pre ++ be16 0#16 ++ post)
  generalize checksum (pre ++ be16 0#16 ++ post) = c at *
  have w : ∀ x : U16, (words (pre ++ be16 x ++ post)).sum = (words pre).sum + x.toNat + (words post).sum := by
    intro x
    rw [words_append _ _ (by rw [List.length_append, be16_length]; omega), words_append _ _ h, List.sum_append, List.sum_append]
    have := be16_num x
    simp only [be16, words, List.sum_cons, List.sum_nil] at *
    omega
  rw [verifies_iff, w, BitVec.toNat_ofNat]
  rw [w] at c3
  simp only [BitVec.toNat_ofNat, Nat.zero_mod] at c3
  omega

/-! ## Setting a field of sixteen bits -/

theorem edit16 (T : HeaderDef) (x : Field) (a : Nat) (hx1 : x.lo = 8 * a) (hx2 : x.hi = 8 * a + 15) (ha : a + 2 ≤ T.size)
    (pre post : List Hdr) (d pl : Bytes) (v : U64) (hpre : ∀ y ∈ pre, y.name ≠ T.name) (hd : d.length = T.size) :
    editField T T.name x v ⟨pre ++ ⟨T, d⟩ :: post, pl⟩ = .ok ⟨pre ++ ⟨T, putAt d a (be16 (v.setWidth 16))⟩ :: post, pl⟩ := by
  unfold editField Packet.withHeaderMut
  simp only
  rw [modifyFirst_eq T.name _ pre post ⟨T, d⟩ ⟨T, putAt d a (be16 (v.setWidth 16))⟩ hpre rfl (by
    rw [if_pos rfl]
    refine set_whole T x v a (be16 (v.setWidth 16)) hx1 (by rw [be16_length]; omega) (by rw [be16_length]; omega)
      (by rw [be16_length]; omega) (fun j hj => ?_) _ rfl hd
    rw [be16_length] at hj ⊢
    rw [← num16_be16, netBit_num16 v j (by omega)])]
  rfl

theorem edit_at (T : HeaderDef) (x : Field) (v : U64) (pre post : List Hdr) (y z : Hdr) (pl : Bytes)
    (hpre : ∀ y ∈ pre, y.name ≠ T.name) (hy : y.ty = T) (h : y.set x v = .ok z) :
    editField T T.name x v ⟨pre ++ y :: post, pl⟩ = .ok ⟨pre ++ z :: post, pl⟩ := by
  unfold editField Packet.withHeaderMut
  simp only
  rw [modifyFirst_eq T.name _ pre post y z hpre (by rw [Hdr.name, hy]) (by rw [if_pos hy, h])]
  rfl

theorem raw_len (a : Ip4) (len c l : U16) : putAt (a.raw len c) 2 (be16 l) = a.raw l c := by
  simp [Ip4.raw, ipv4Raw, putAt, be16]

theorem raw_ck (a : Ip4) (len c l : U16) : putAt (a.raw len c) 10 (be16 l) = a.raw len l := by
  simp [Ip4.raw, ipv4Raw, putAt, be16]

/-- The checksum a client writes into an IPv4 header. -/
def rightCk (a : Ip4) (len : U16) : U16 := BitVec.ofNat 16 (checksum (a.raw len 0#16))

theorem finishIp_eq (n : Nat) (pre post : List Hdr) (pl : Bytes) (a : Ip4) (ha : a.Ok) (len c : U16)
    (hpre : ∀ y ∈ pre, y.name ≠ IPv4.name) (hn : (pre.map (·.data)).flatten.length = n) :
    let l := BitVec.ofNat 16 (20 + (onWire post pl).length)
    finishIp n ⟨pre ++ ⟨IPv4, a.raw len c⟩ :: post, pl⟩ = .ok ⟨pre ++ ⟨IPv4, a.raw l (rightCk a l)⟩ :: post, pl⟩ := by
  intro l
  have h20 := fun len c => a.raw_length ha len c
  unfold finishIp
  have hl : (⟨pre ++ ⟨IPv4, a.raw len c⟩ :: post, pl⟩ : Packet).to_vec.length - n = 20 + (onWire post pl).length := by
    rw [wire_split, List.length_append, List.length_append, hn, h20, Nat.add_sub_cancel_left]
    rfl
  rw [hl, edit16 IPv4 IPv4.total_len 2 rfl rfl (by decide) pre post _ pl _ hpre (h20 _ _), raw_len]
  simp only [bind, Except.bind]
  rw [edit16 IPv4 IPv4.header_checksum 10 rfl rfl (by decide) pre post _ pl _ hpre (h20 _ _), raw_ck]
  simp only
  rw [edit16 IPv4 IPv4.header_checksum 10 rfl rfl (by decide) pre post _ pl _ hpre (h20 _ _), raw_ck]
  rw [setWidth_ofNat16, wire_split, List.drop_left' hn, List.take_left' (h20 _ _), setWidth_ofNat16]
  rfl

/-- What a host requires of the arguments of an IPv4 builder, once the client has put the header right. -/
def Sound4 (ihl : Byte) (frag : U16) (n : Nat) : Prop :=
  (ihl = 0x05#8 ∨ ihl = 0x45#8) ∧ 20 + n < 65536 ∧ frag.toNat % 16384 = 0

instance (ihl : Byte) (frag : U16) (n : Nat) : Decidable (Sound4 ihl frag n) := inferInstanceAs (Decidable (_ ∧ _))

theorem rightCk_verifies (a : Ip4) (len : U16) : Verifies (a.raw len (rightCk a len)) := by
  have := checksum_verifies ([0x40#8 ||| a.ihl, a.tos] ++ be16 len ++ be16 a.id ++ be16 a.frag ++ [a.ttl, a.proto]) (a.src ++ a.dst) (by simp)
  rw [rightCk]
  simpa [Ip4.raw, ipv4Raw] using this

theorem whole_right (a : Ip4) (seg : Bytes) :
    Whole4 a (BitVec.ofNat 16 (20 + seg.length)) (rightCk a (BitVec.ofNat 16 (20 + seg.length))) seg ↔
      Sound4 a.ihl a.frag seg.length := by
  unfold Whole4 Sound4
  rw [BitVec.toNat_ofNat]
  have := rightCk_verifies a (BitVec.ofNat 16 (20 + seg.length))
  simp only [this, and_true]
  rw [show (20 + seg.length) % 2 ^ 16 = 20 + seg.length ↔ 20 + seg.length < 65536 by omega]

theorem putAt_again (d : Bytes) (a : Nat) (v w : Bytes) (h : v.length = w.length) (ha : a + v.length ≤ d.length) :
    putAt (putAt d a v) a w = putAt d a w := by
  have hl : (d.take a).length = a := by rw [List.length_take]; omega
  have hl2 : (d.take a ++ v).length = a + v.length := by rw [List.length_append, hl]
  have e : putAt d a v = (d.take a ++ v) ++ d.drop (a + v.length) := by simp [putAt]
  have e1 : (putAt d a v).take a = d.take a := by simp only [putAt]; exact List.take_left' hl
  have e2 : (putAt d a v).drop (a + w.length) = d.drop (a + w.length) := by rw [← h, e, List.drop_left' hl2]
  unfold putAt at *
  rw [e1, e2]

theorem finishSum_eq (T : HeaderDef) (cs : Field) (a : Nat) (hx1 : cs.lo = 8 * a) (hx2 : cs.hi = 8 * a + 15) (ha : a + 2 ≤ T.size)
    (cover : Bytes → Bytes) (pre post : List Hdr) (d pl : Bytes) (hpre : ∀ y ∈ pre, y.name ≠ T.name) (hd : d.length = T.size)
    (D : U16 → Bytes) (hD : ∀ c, putAt d a (be16 c) = D c) :
    finishSum T cs cover ⟨pre ++ ⟨T, d⟩ :: post, pl⟩ = .ok ⟨pre ++ ⟨T, D (BitVec.ofNat 16
      (checksum (cover (Packet.mk (pre ++ ⟨T, D 0#16⟩ :: post) pl).to_vec)))⟩ :: post, pl⟩ := by
  unfold finishSum
  rw [edit16 T cs a hx1 hx2 ha pre post d pl _ hpre hd]
  simp only [bind, Except.bind]
  rw [edit16 T cs a hx1 hx2 ha pre post _ pl _ hpre (by rw [putAt_length _ _ _ (by rw [be16_length]; omega), hd]),
    putAt_again d a _ _ (by rw [be16_length, be16_length]) (by rw [be16_length]; omega), setWidth_ofNat16, hD]
  rw [show BitVec.setWidth 16 (0 : U64) = 0#16 from rfl, hD]

/-- A name that does not stand before the transport header. -/
theorem before_names (m n : Bytes) (ve : Bool) (vid : U16) (pcp : Byte) (et : U16) (ip : Hdr) (name : String) (h1 : name ≠ "Ether")
    (h2 : name ≠ "Vlan") (h3 : ip.name ≠ name) : ∀ y ∈ l2Hdrs m n ve vid pcp et ++ [ip], y.name ≠ name := by
  intro y hy
  rcases List.mem_append.mp hy with hy | hy
  · exact l2_names m n ve vid pcp et name h1 h2 y hy
  · rw [List.mem_singleton] at hy; subst hy; exact h3

theorem l2_wire (m n : Bytes) (hm : m.length = 6) (hn : n.length = 6) (ve : Bool) (vid : U16) (pcp : Byte) (et : U16) :
    ((l2Hdrs m n ve vid pcp et).map (·.data)).flatten.length = ipAt ve := by
  cases ve <;> simp [l2Hdrs, ipAt, hm, hn]

/-- The header put right over IPv4, and what the network layer of a host then sees. -/
theorem finishIp_host (m n : Bytes) (hm : m.length = 6) (hn : n.length = 6) (ve : Bool) (vid : U16) (pcp : Byte) (ip : Ip4)
    (hip : ip.Ok) (len c : U16) (post : List Hdr) (pl : Bytes) :
    let l := BitVec.ofNat 16 (20 + (onWire post pl).length)
    ∃ q, finishIp (ipAt ve) ⟨l2Hdrs m n ve vid pcp 0x0800#16 ++ ⟨IPv4, ip.raw len c⟩ :: post, pl⟩ = .ok q ∧
      ipInput q.to_vec = ip4Input (ip.raw l (rightCk ip l) ++ onWire post pl) := by
  intro l
  refine ⟨_, finishIp_eq (ipAt ve) _ post pl ip hip len c
    (l2_names m n ve vid pcp _ _ (by decide) (by decide)) (l2_wire m n hm hn ve vid pcp _), ?_⟩
  rw [ipInput_frame4 m n hm hn ve vid pcp]

/-- Both steps over IPv4, for a header `T` behind the IPv4 header and `mid`. -/
theorem finish4_eq (T : HeaderDef) (cs : Field) (a : Nat) (hx1 : cs.lo = 8 * a) (hx2 : cs.hi = 8 * a + 15) (ha : a + 2 ≤ T.size)
    (cover : Bytes → Bytes) (m n : Bytes) (hm : m.length = 6) (hn : n.length = 6) (ve : Bool) (vid : U16) (pcp : Byte) (ip : Ip4)
    (hip : ip.Ok) (len c : U16) (mid post : List Hdr) (d pl : Bytes) (h1 : T.name ≠ "Ether") (h2 : T.name ≠ "Vlan") (h3 : "IPv4" ≠ T.name)
    (hmid : ∀ y ∈ mid, y.name ≠ T.name) (hd : d.length = T.size) (D : U16 → Bytes) (hD : ∀ c, putAt d a (be16 c) = D c) (cov : Bytes)
    (hcov : cover (Packet.mk (l2Hdrs m n ve vid pcp 0x0800#16 ++ ⟨IPv4, ip.raw len c⟩ :: (mid ++ ⟨T, D 0#16⟩ :: post)) pl).to_vec = cov) :
    let seg := onWire (mid ++ ⟨T, D (BitVec.ofNat 16 (checksum cov))⟩ :: post) pl
    let l := BitVec.ofNat 16 (20 + seg.length)
    ∃ q, (finishSum T cs cover ⟨l2Hdrs m n ve vid pcp 0x0800#16 ++ ⟨IPv4, ip.raw len c⟩ :: (mid ++ ⟨T, d⟩ :: post), pl⟩ >>=
        finishIp (ipAt ve)) = .ok q ∧ ipInput q.to_vec = ip4Input (ip.raw l (rightCk ip l) ++ seg) := by
  intro seg l
  have e := finishSum_eq T cs a hx1 hx2 ha cover (l2Hdrs m n ve vid pcp 0x0800#16 ++ ([⟨IPv4, ip.raw len c⟩] ++ mid)) post d pl
    (by
      rw [← List.append_assoc]
      intro y hy
      rcases List.mem_append.mp hy with hy | hy
      · exact before_names m n ve vid pcp 0x0800#16 ⟨IPv4, ip.raw len c⟩ _ h1 h2 h3 y hy
      · exact hmid y hy) hd D hD
  simp only [List.append_assoc, List.cons_append, List.nil_append, hcov] at e
  rw [e]
  simp only [bind, Except.bind]
  exact finishIp_host m n hm hn ve vid pcp ip hip len c _ pl

/-- The checksum over IPv6. -/
theorem finish6_eq (T : HeaderDef) (cs : Field) (a : Nat) (hx1 : cs.lo = 8 * a) (hx2 : cs.hi = 8 * a + 15) (ha : a + 2 ≤ T.size)
    (m n : Bytes) (hm : m.length = 6) (hn : n.length = 6) (ve : Bool) (vid : U16) (pcp : Byte) (p6 : Ipv6FromStr) (tc : Byte) (flow : U32)
    (nh hl : Byte) (src dst : Str) (len : U16) (post : List Hdr) (d pl : Bytes) (h1 : T.name ≠ "Ether") (h2 : T.name ≠ "Vlan")
    (h3 : "IPv6" ≠ T.name) (hd : d.length = T.size) (D : U16 → Bytes) (hD : ∀ c, putAt d a (be16 c) = D c) :
    let sg := fun c => D c ++ onWire post pl
    let ck := BitVec.ofNat 16 (checksum ((Datagram.mk true nh.toNat (to_ipv6_bytes p6 src) (to_ipv6_bytes p6 dst) []).pseudo
      (sg 0#16).length ++ sg 0#16))
    ∃ q, finishSum T cs (cover6 (ipAt ve)) ⟨l2Hdrs m n ve vid pcp 0x86DD#16 ++ Packet.ipv6 p6 tc flow nh hl src dst len :: ⟨T, d⟩ :: post,
        pl⟩ = .ok q ∧ ipInput q.to_vec = ip6Input ((Packet.ipv6 p6 tc flow nh hl src dst len).data ++ sg ck) := by
  intro sg ck
  have e := finishSum_eq T cs a hx1 hx2 ha (cover6 (ipAt ve)) (l2Hdrs m n ve vid pcp 0x86DD#16 ++ [Packet.ipv6 p6 tc flow nh hl src dst len])
    post d pl (before_names m n ve vid pcp 0x86DD#16 (Packet.ipv6 p6 tc flow nh hl src dst len) _ h1 h2 h3) hd D hD
  obtain ⟨f1, f2⟩ := frame6 m n hm hn ve vid pcp 0x86DD#16 p6 tc flow nh hl src dst len (⟨T, D 0#16⟩ :: post) pl
  have hc : cover6 (ipAt ve) (Packet.mk (l2Hdrs m n ve vid pcp 0x86DD#16 ++ Packet.ipv6 p6 tc flow nh hl src dst len :: ⟨T, D 0#16⟩ :: post)
      pl).to_vec = (Datagram.mk true nh.toNat (to_ipv6_bytes p6 src) (to_ipv6_bytes p6 dst) []).pseudo (sg 0#16).length ++ sg 0#16 := by
    rw [cover6, f1, f2, onWire_cons]
    simp [Datagram.pseudo, sg]
  simp only [List.append_assoc, List.cons_append, List.nil_append, hc] at e
  refine ⟨_, e, ?_⟩
  rw [ipInput_frame6 m n hm hn ve vid pcp, onWire_cons]

/-! ## Segments with the checksum the client computes -/

theorem pseudo_two (v6 : Bool) (pr : Nat) (s d : Bytes) (n : Nat) (h : (s.length + d.length) % 2 = 0) :
    ((Datagram.mk v6 pr s d []).pseudo n).length % 2 = 0 := by
  cases v6 <;> simp [Datagram.pseudo, num16, num32] <;> omega

theorem udp_right (v6 : Bool) (s d : Bytes) (hsd : (s.length + d.length) % 2 = 0) (sp dp : U16) (pl : Bytes) (hb : 8 + pl.length < 65536) :
    let D : U16 → Bytes := fun c => be16 sp ++ be16 dp ++ be16 (BitVec.ofNat 16 (8 + pl.length)) ++ be16 c
    udpInput ⟨v6, 17, s, d, D (BitVec.ofNat 16 (checksum ((Datagram.mk v6 17 s d []).pseudo (8 + pl.length) ++ (D 0#16 ++ pl)))) ++ pl⟩ =
      some ⟨s, d, sp.toNat, dp.toNat, pl⟩ := by
  intro D
  have hr := checksum_range ((Datagram.mk v6 17 s d []).pseudo (8 + pl.length) ++ (D 0#16 ++ pl))
  have he := pseudo_two v6 17 s d (8 + pl.length) hsd
  refine (udpInput_built v6 s d sp dp _ pl hb).mpr (.inr ⟨?_, ?_⟩)
  · rw [BitVec.toNat_ofNat, Nat.mod_eq_of_lt (by omega)]; omega
  · have hv := checksum_verifies ((Datagram.mk v6 17 s d []).pseudo (8 + pl.length) ++ (be16 sp ++ be16 dp ++
      be16 (BitVec.ofNat 16 (8 + pl.length)))) pl (by simp; omega)
    simpa only [D, List.append_assoc] using hv

theorem tcp_split16 (sp dp : U16) (sq ak : U32) (off res fl : Byte) (w u : U16) :
    ∃ pre : Bytes, pre.length = 16 ∧ ∀ c, (Packet.tcp sp dp sq ak off res fl w c u).data = pre ++ be16 c ++ be16 u :=
  ⟨_, by rfl, fun _ => rfl⟩

theorem tcpInput_any (v6 : Bool) (s d : Bytes) (sp dp : U16) (sq ak : U32) (off res fl : Byte) (w c u : U16) (pl : Bytes) :
    tcpInput ⟨v6, 6, s, d, (Packet.tcp sp dp sq ak off res fl w c u).data ++ pl⟩ =
        some ⟨s, d, sp.toNat, dp.toNat, sq.toNat, ak.toNat, fl.toNat, w.toNat, u.toNat, pl⟩ ↔
      DataOffset5 off res ∧ Verifies ((Datagram.mk v6 6 s d []).pseudo (20 + pl.length) ++
        ((Packet.tcp sp dp sq ak off res fl w c u).data ++ pl)) := by
  obtain ⟨e0, e1, e2, e3, e4, e5, e6, e7, e8, e9⟩ := tcp_fields sp dp sq ak off res fl w c u pl
  rw [← dataOffset_iff]
  unfold tcpInput
  simp only [e0, e2, e3, e4, e5, e6, e7, e8, e9, true_and, Option.ite_none_right_eq_some, Option.some.injEq,
    TcpSeg.mk.injEq, Datagram.pseudo]
  constructor
  · rintro ⟨⟨h1, h2, h3⟩, h4⟩
    have := congrArg List.length h4
    rw [List.length_drop, e0] at this
    exact ⟨by omega, h3⟩
  · rintro ⟨h1, h2⟩
    rw [h1]
    exact ⟨⟨by omega, by omega, h2⟩, e1⟩

theorem tcp_right (v6 : Bool) (s d : Bytes) (hsd : (s.length + d.length) % 2 = 0) (sp dp : U16) (sq ak : U32) (off res fl : Byte)
    (w u : U16) (pl : Bytes) :
    let D : U16 → Bytes := fun c => (Packet.tcp sp dp sq ak off res fl w c u).data
    tcpInput ⟨v6, 6, s, d, D (BitVec.ofNat 16 (checksum ((Datagram.mk v6 6 s d []).pseudo (20 + pl.length) ++ (D 0#16 ++ pl)))) ++ pl⟩ =
        some ⟨s, d, sp.toNat, dp.toNat, sq.toNat, ak.toNat, fl.toNat, w.toNat, u.toNat, pl⟩ ↔ DataOffset5 off res := by
  intro D
  have he := pseudo_two v6 6 s d (20 + pl.length) hsd
  refine (tcpInput_any v6 s d sp dp sq ak off res fl w _ u pl).trans (and_iff_left ?_)
  obtain ⟨pre, hp, hD⟩ := tcp_split16 sp dp sq ak off res fl w u
  have hv := checksum_verifies ((Datagram.mk v6 6 s d []).pseudo (20 + pl.length) ++ pre) (be16 u ++ pl)
    (by rw [List.length_append]; omega)
  simpa only [D, hD, List.append_assoc] using hv

theorem icmp_right (v6 : Bool) (s d : Bytes) (hsd : (s.length + d.length) % 2 = 0) (ty code : Byte) (pl : Bytes) :
    let D : U16 → Bytes := fun c => [ty, code] ++ be16 c
    icmpInput ⟨v6, if v6 then 58 else 1, s, d, D (BitVec.ofNat 16 (checksum ((if v6 then (Datagram.mk v6 58 s d []).pseudo (4 + pl.length)
      else []) ++ (D 0#16 ++ pl)))) ++ pl⟩ = some ⟨s, d, ty.toNat, code.toNat, pl⟩ := by
  intro D
  have he := pseudo_two v6 58 s d (4 + pl.length) hsd
  have hl : ∀ c, (D c ++ pl).length = 4 + pl.length := fun c => by simp [D]; omega
  have h1 : ∀ c, u8At (D c ++ pl) 0 = ty.toNat := fun c => rfl
  have h2 : ∀ c, u8At (D c ++ pl) 1 = code.toNat := fun c => rfl
  have h3 : ∀ c, (D c ++ pl).drop 4 = pl := fun c => List.drop_left' (by simp [D])
  have hv := checksum_verifies ((if v6 then (Datagram.mk v6 58 s d []).pseudo (4 + pl.length) else []) ++ [ty, code]) pl
    (by rw [List.length_append]; cases v6 <;> (simp at *; try omega))
  unfold icmpInput
  simp only [hl, h1, h2, h3]
  rw [if_pos]
  refine ⟨by omega, ?_⟩
  cases v6 with
  | false => exact .inr ⟨rfl, rfl, by simpa [D] using hv⟩
  | true =>
    refine .inl ⟨rfl, rfl, ?_⟩
    simp only [if_true, List.append_assoc] at hv
    simpa only [D, if_true, List.append_assoc, Datagram.pseudo] using hv

/-! ## What a host gets -/

section
variable {chk : Bool} {p6 : Ipv6FromStr} {eth_dst eth_src : Str} {ve : Bool} {vid : U16} {pcp : Byte}
  {ihl : Byte} {src dst : Str} {tos ttl : Byte} {id frag : U16} {opts : Bytes} {tc : Byte} {flow : U32} {hl : Byte}
  {payload : Bytes} {p : Packet}

/-- **C105, UDP.** A client that computes the checksum, and then sets length and checksum of the IPv4 header, always succeeds, and a
host gets the message iff `ip_ihl` is 5 (or 0x45), the packet is not marked as a fragment and its length fits. -/
theorem C105_udp4 {udst usrc : U16} {ck : Bool} {s d : Bytes} (hs : to_ipv4_bytes src = .ok s) (hd : to_ipv4_bytes dst = .ok d)
    (h : create_udp_packet chk eth_dst eth_src ve vid pcp ihl src dst tos ttl id frag opts udst usrc ck payload = .ok p) :
    ∃ q, (finishSum UDP UDP.checksum (cover4 (ipAt ve)) p >>= finishIp (ipAt ve)) = .ok q ∧
      (hostUdp q.to_vec = some ⟨s, d, usrc.toNat, udst.toNat, payload⟩ ↔ Sound4 ihl frag (8 + payload.length)) := by
  obtain ⟨⟨⟨m, hm⟩, n, hn⟩, -⟩ := (C41_udp_returns_iff ..).mp ⟨p, h⟩
  have e := C41_udp chk _ _ ve vid pcp m n hm hn ⟨ihl, tos, id, ttl, frag, 0#8, s, d⟩ _ _ hs hd opts payload udst usrc ck
  obtain rfl := Except.ok.inj (h.symm.trans e)
  have hsl := C32_length _ _ hs
  have hdl := C32_length _ _ hd
  have ha : Ip4.Ok (Ip4.withProto ⟨ihl, tos, id, ttl, frag, 0#8, s, d⟩ 17#8) := ⟨hsl, hdl⟩
  let D : U16 → Bytes := fun c => be16 usrc ++ be16 udst ++ be16 (BitVec.ofNat 16 (8 + payload.length)) ++ be16 c
  have hDl : ∀ c, (D c ++ payload).length = 8 + payload.length := fun c => by simp only [D, List.length_append, be16_length]
  obtain ⟨q, hq, hin⟩ := finish4_eq UDP UDP.checksum 6 rfl rfl (by decide) (cover4 (ipAt ve)) m n (C31_length _ _ hm) (C31_length _ _ hn)
    ve vid pcp _ ha (BitVec.ofNat 16 (20 + payload.length + 8)) _ [] [] (Packet.udp usrc udst (BitVec.ofNat 16 (8 + payload.length))).data
    payload (by decide) (by decide) (by decide) nofun rfl D (fun c => by simp [D, udp_data, putAt, be16])
    ((Datagram.mk false 17 s d []).pseudo (8 + payload.length) ++ (D 0#16 ++ payload)) (by
      obtain ⟨f1, f2⟩ := frame4 m n (C31_length _ _ hm) (C31_length _ _ hn) ve vid pcp 0x0800#16 _ ha
        (BitVec.ofNat 16 (20 + payload.length + 8)) _ [⟨UDP, D 0#16⟩] payload
      rw [List.nil_append, cover4, f1, f2, onWire_cons, onWire_nil, hDl]
      rfl)
  refine ⟨q, hq, ?_⟩
  rw [hostUdp, hin, List.nil_append, onWire_cons, onWire_nil,
    host4 udpInput _ ha _ _ _ _ (fun g hg => by rw [hDl]; exact udp_needs g _ hg), whole_right, hDl]
  refine and_iff_left_of_imp fun hw => ?_
  obtain ⟨-, h2, -⟩ := hw
  exact udp_right false s d (by omega) usrc udst payload (by omega)

/-- **C105, TCP.** As for UDP, and the data offset that comes out of `data_offset` and `res` is 5. -/
theorem C105_tcp4 {tdst tsrc : U16} {seq ack : U32} {off res flags : Byte} {window urg : U16} {ck : Bool} {s d : Bytes}
    (hs : to_ipv4_bytes src = .ok s) (hd : to_ipv4_bytes dst = .ok d)
    (h : create_tcp_packet chk eth_dst eth_src ve vid pcp ihl src dst tos ttl id frag opts tdst tsrc seq ack off res flags
      window urg ck payload = .ok p) :
    ∃ q, (finishSum TCP TCP.checksum (cover4 (ipAt ve)) p >>= finishIp (ipAt ve)) = .ok q ∧
      (hostTcp q.to_vec = some ⟨s, d, tsrc.toNat, tdst.toNat, seq.toNat, ack.toNat, flags.toNat, window.toNat, urg.toNat, payload⟩ ↔
        Sound4 ihl frag (20 + payload.length) ∧ DataOffset5 off res) := by
  obtain ⟨⟨⟨m, hm⟩, n, hn⟩, -⟩ := (C41_tcp_returns_iff ..).mp ⟨p, h⟩
  have e := C41_tcp chk _ _ ve vid pcp m n hm hn ⟨ihl, tos, id, ttl, frag, 0#8, s, d⟩ _ _ hs hd opts payload tdst tsrc seq ack
    off res flags window urg ck
  obtain rfl := Except.ok.inj (h.symm.trans e)
  have hsl := C32_length _ _ hs
  have hdl := C32_length _ _ hd
  have ha : Ip4.Ok (Ip4.withProto ⟨ihl, tos, id, ttl, frag, 0#8, s, d⟩ 6#8) := ⟨hsl, hdl⟩
  let D : U16 → Bytes := fun c => (Packet.tcp tsrc tdst seq ack off res flags window c urg).data
  have hDl : ∀ c, (D c ++ payload).length = 20 + payload.length := fun c => (tcp_fields tsrc tdst seq ack off res flags window c urg payload).1
  obtain ⟨q, hq, hin⟩ := finish4_eq TCP TCP.checksum 16 rfl rfl (by decide) (cover4 (ipAt ve)) m n (C31_length _ _ hm) (C31_length _ _ hn)
    ve vid pcp _ ha (BitVec.ofNat 16 (20 + payload.length + 20)) _ [] [] (D 0#16)
    payload (by decide) (by decide) (by decide) nofun rfl D (fun c => by simp [D, Packet.tcp, HeaderDef.ofVec, putAt, be16, be32])
    ((Datagram.mk false 6 s d []).pseudo (20 + payload.length) ++ (D 0#16 ++ payload)) (by
      obtain ⟨f1, f2⟩ := frame4 m n (C31_length _ _ hm) (C31_length _ _ hn) ve vid pcp 0x0800#16 _ ha
        (BitVec.ofNat 16 (20 + payload.length + 20)) _ [⟨TCP, D 0#16⟩] payload
      rw [List.nil_append, cover4, f1, f2, onWire_cons, onWire_nil, hDl]
      rfl)
  refine ⟨q, hq, ?_⟩
  rw [hostTcp, hin, List.nil_append, onWire_cons, onWire_nil,
    host4 tcpInput _ ha _ _ _ _ (fun g hg => by rw [hDl]; exact tcp_needs g _ hg), whole_right, hDl]
  exact and_congr_right fun _ => tcp_right false s d (by omega) tsrc tdst seq ack off res flags window urg payload

/-- **C105, ICMP.** -/
theorem C105_icmp4 {ty code : Byte} {idata : Bytes} {ck : Bool} {s d : Bytes}
    (hs : to_ipv4_bytes src = .ok s) (hd : to_ipv4_bytes dst = .ok d)
    (h : create_icmp_packet chk eth_dst eth_src ve vid pcp ihl src dst tos ttl id frag opts ty code idata ck payload = .ok p) :
    ∃ q, (finishSum ICMP ICMP.chksum (coverAlone (ipAt ve)) p >>= finishIp (ipAt ve)) = .ok q ∧
      (hostIcmp q.to_vec = some ⟨s, d, ty.toNat, code.toNat, payload⟩ ↔ Sound4 ihl frag (4 + payload.length)) := by
  obtain ⟨⟨⟨m, hm⟩, n, hn⟩, -⟩ := (C41_icmp_returns_iff ..).mp ⟨p, h⟩
  have e := C41_icmp chk _ _ ve vid pcp m n hm hn ⟨ihl, tos, id, ttl, frag, 0#8, s, d⟩ _ _ hs hd opts payload ty code idata ck
  obtain rfl := Except.ok.inj (h.symm.trans e)
  have hsl := C32_length _ _ hs
  have hdl := C32_length _ _ hd
  have ha : Ip4.Ok (Ip4.withProto ⟨ihl, tos, id, ttl, frag, 0#8, s, d⟩ 1#8) := ⟨hsl, hdl⟩
  let D : U16 → Bytes := fun c => [ty, code] ++ be16 c
  have hDl : ∀ c, (D c ++ payload).length = 4 + payload.length := fun c => by simp [D]; omega
  obtain ⟨q, hq, hin⟩ := finish4_eq ICMP ICMP.chksum 2 rfl rfl (by decide) (coverAlone (ipAt ve)) m n (C31_length _ _ hm) (C31_length _ _ hn)
    ve vid pcp _ ha (BitVec.ofNat 16 (20 + payload.length + 4)) _ [] [] (D 0#16)
    payload (by decide) (by decide) (by decide) nofun rfl D (fun c => by simp [D, putAt, be16]) (D 0#16 ++ payload) (by
      obtain ⟨f1, -⟩ := frame4 m n (C31_length _ _ hm) (C31_length _ _ hn) ve vid pcp 0x0800#16 _ ha
        (BitVec.ofNat 16 (20 + payload.length + 4)) _ [⟨ICMP, D 0#16⟩] payload
      rw [List.nil_append, coverAlone, f1, onWire_cons, onWire_nil])
  refine ⟨q, hq, ?_⟩
  rw [hostIcmp, hin, List.nil_append, onWire_cons, onWire_nil,
    host4 icmpInput _ ha _ _ _ _ (fun g hg => by rw [hDl]; exact icmp_needs g _ hg), whole_right, hDl]
  exact and_iff_left_of_imp fun _ => icmp_right false s d (by omega) ty code payload

/-- **C105, UDP over IPv6.** A client only has to compute the checksum. -/
theorem C105_udp6 {udst usrc : U16} {ck : Bool}
    (h : create_udpv6_packet chk p6 eth_dst eth_src ve vid pcp tc flow hl src dst udst usrc ck payload = .ok p) :
    ∃ q, finishSum UDP UDP.checksum (cover6 (ipAt ve)) p = .ok q ∧
      (hostUdp q.to_vec = some ⟨to_ipv6_bytes p6 src, to_ipv6_bytes p6 dst, usrc.toNat, udst.toNat, payload⟩ ↔
        Flow6 flow ∧ 8 + payload.length < 65536) := by
  obtain ⟨⟨m, hm⟩, n, hn⟩ := (C41_udpv6_returns_iff ..).mp ⟨p, h⟩
  have e := C41_udpv6 chk p6 _ _ ve vid pcp m n hm hn src dst payload tc flow hl udst usrc ck
  obtain rfl := Except.ok.inj (h.symm.trans e)
  let D : U16 → Bytes := fun c => be16 usrc ++ be16 udst ++ be16 (BitVec.ofNat 16 (8 + payload.length)) ++ be16 c
  have hDl : ∀ c, (D c ++ payload).length = 8 + payload.length := fun c => by simp only [D, List.length_append, be16_length]
  obtain ⟨q, hq, hin⟩ := finish6_eq UDP UDP.checksum 6 rfl rfl (by decide) m n (C31_length _ _ hm) (C31_length _ _ hn) ve vid pcp p6 tc flow
    17#8 hl src dst (BitVec.ofNat 16 (payload.length + 8)) [] (D 0xffff#16) payload (by decide) (by decide) (by decide) rfl D
    (fun c => by simp [D, putAt, be16])
  refine ⟨q, hq, ?_⟩
  simp only [onWire_nil, hDl] at hin
  rw [hostUdp, hin, host6 udpInput _ _ _ _ _ _ _ _ _ _ (fun g hg => by rw [hDl]; exact udp_needs g _ hg), Whole6, hDl, and_assoc]
  refine and_congr_right fun _ => ?_
  rw [BitVec.toNat_ofNat, show (payload.length + 8) % 2 ^ 16 = 8 + payload.length ↔ 8 + payload.length < 65536 by omega]
  exact and_iff_left_of_imp fun hb => udp_right true _ _ (by rw [ipv6_len6, ipv6_len6]) usrc udst payload hb

/-- **C105, TCP over IPv6.** -/
theorem C105_tcp6 {tdst tsrc : U16} {seq ack : U32} {off res flags : Byte} {window urg : U16}
    (h : create_tcpv6_packet chk p6 eth_dst eth_src ve vid pcp tc flow hl src dst tdst tsrc seq ack off res flags window urg
      payload = .ok p) :
    ∃ q, finishSum TCP TCP.checksum (cover6 (ipAt ve)) p = .ok q ∧
      (hostTcp q.to_vec = some ⟨to_ipv6_bytes p6 src, to_ipv6_bytes p6 dst, tsrc.toNat, tdst.toNat, seq.toNat, ack.toNat,
          flags.toNat, window.toNat, urg.toNat, payload⟩ ↔
        Flow6 flow ∧ 20 + payload.length < 65536 ∧ DataOffset5 off res) := by
  obtain ⟨⟨m, hm⟩, n, hn⟩ := (C41_tcpv6_returns_iff ..).mp ⟨p, h⟩
  have e := C41_tcpv6 chk p6 _ _ ve vid pcp m n hm hn src dst payload tc flow hl tdst tsrc seq ack off res flags window urg
  obtain rfl := Except.ok.inj (h.symm.trans e)
  let D : U16 → Bytes := fun c => (Packet.tcp tsrc tdst seq ack off res flags window c urg).data
  have hDl : ∀ c, (D c ++ payload).length = 20 + payload.length := fun c => (tcp_fields tsrc tdst seq ack off res flags window c urg payload).1
  obtain ⟨q, hq, hin⟩ := finish6_eq TCP TCP.checksum 16 rfl rfl (by decide) m n (C31_length _ _ hm) (C31_length _ _ hn) ve vid pcp p6 tc flow
    6#8 hl src dst (BitVec.ofNat 16 (payload.length + 20)) [] (D 0#16) payload (by decide) (by decide) (by decide) rfl D
    (fun c => by simp [D, Packet.tcp, HeaderDef.ofVec, putAt, be16, be32])
  refine ⟨q, hq, ?_⟩
  simp only [onWire_nil, hDl] at hin
  rw [hostTcp, hin, host6 tcpInput _ _ _ _ _ _ _ _ _ _ (fun g hg => by rw [hDl]; exact tcp_needs g _ hg), Whole6, hDl, and_assoc]
  refine and_congr_right fun _ => ?_
  rw [BitVec.toNat_ofNat, show (payload.length + 20) % 2 ^ 16 = 20 + payload.length ↔ 20 + payload.length < 65536 by omega]
  exact and_congr_right fun _ => tcp_right true _ _ (by rw [ipv6_len6, ipv6_len6]) tsrc tdst seq ack off res flags window urg payload

/-- **C105, ICMPv6.** -/
theorem C105_icmp6 {ty code : Byte} {idata : Bytes} {ck : Bool}
    (h : create_icmpv6_packet chk p6 eth_dst eth_src ve vid pcp tc flow hl src dst ty code idata ck payload = .ok p) :
    ∃ q, finishSum ICMP ICMP.chksum (cover6 (ipAt ve)) p = .ok q ∧
      (hostIcmp q.to_vec = some ⟨to_ipv6_bytes p6 src, to_ipv6_bytes p6 dst, ty.toNat, code.toNat, payload⟩ ↔
        Flow6 flow ∧ 4 + payload.length < 65536) := by
  obtain ⟨⟨m, hm⟩, n, hn⟩ := (C41_icmpv6_returns_iff ..).mp ⟨p, h⟩
  have e := C41_icmpv6 chk p6 _ _ ve vid pcp m n hm hn src dst payload tc flow hl ty code idata ck
  obtain rfl := Except.ok.inj (h.symm.trans e)
  let D : U16 → Bytes := fun c => [ty, code] ++ be16 c
  have hDl : ∀ c, (D c ++ payload).length = 4 + payload.length := fun c => by simp [D]; omega
  obtain ⟨q, hq, hin⟩ := finish6_eq ICMP ICMP.chksum 2 rfl rfl (by decide) m n (C31_length _ _ hm) (C31_length _ _ hn) ve vid pcp p6 tc flow
    58#8 hl src dst (BitVec.ofNat 16 (payload.length + 4)) [] (D 0#16) payload (by decide) (by decide) (by decide) rfl D
    (fun c => by simp [D, putAt, be16])
  refine ⟨q, hq, ?_⟩
  simp only [onWire_nil, hDl] at hin
  rw [hostIcmp, hin, host6 icmpInput _ _ _ _ _ _ _ _ _ _ (fun g hg => by rw [hDl]; exact icmp_needs g _ hg), Whole6, hDl, and_assoc]
  refine and_congr_right fun _ => ?_
  rw [BitVec.toNat_ofNat, show (payload.length + 4) % 2 ^ 16 = 4 + payload.length ↔ 4 + payload.length < 65536 by omega]
  exact and_iff_left_of_imp fun _ => icmp_right true _ _ (by rw [ipv6_len6, ipv6_len6]) ty code payload

/-! ## What the end of a tunnel gets -/

/-- **C105, VXLAN.** The IPv4 header put right is enough. -/
theorem C105_vxlan4 {udst usrc : U16} {ck : Bool} {vni : U32} {inner : Packet} {s d : Bytes}
    (hs : to_ipv4_bytes src = .ok s) (hd : to_ipv4_bytes dst = .ok d)
    (h : create_vxlan_packet chk eth_dst eth_src ve vid pcp ihl src dst tos ttl id frag opts udst usrc ck vni inner = .ok p) :
    ∃ q, finishIp (ipAt ve) p = .ok q ∧
      (hostUdp q.to_vec = some ⟨s, d, usrc.toNat, udst.toNat, (Packet.vxlan vni).data ++ inner.to_vec⟩ ↔
        Sound4 ihl frag (16 + inner.to_vec.length)) := by
  obtain ⟨⟨⟨m, hm⟩, n, hn⟩, -⟩ := (C41_vxlan_returns_iff ..).mp ⟨p, h⟩
  have e := C41_vxlan chk _ _ ve vid pcp m n hm hn ⟨ihl, tos, id, ttl, frag, 0#8, s, d⟩ _ _ hs hd opts udst usrc ck vni inner
  obtain rfl := Except.ok.inj (h.symm.trans e)
  have ha : Ip4.Ok (Ip4.withProto ⟨ihl, tos, id, ttl, frag, 0#8, s, d⟩ 17#8) := ⟨C32_length _ _ hs, C32_length _ _ hd⟩
  obtain ⟨q, hq, hin⟩ := finishIp_host m n (C31_length _ _ hm) (C31_length _ _ hn) ve vid pcp _ ha
    (BitVec.ofNat 16 (20 + inner.to_vec.length + 16)) (Ip4.ck (Ip4.withProto ⟨ihl, tos, id, ttl, frag, 0#8, s, d⟩ 17#8)
      (BitVec.ofNat 16 (20 + inner.to_vec.length)))
    [Packet.udp usrc udst (BitVec.ofNat 16 (16 + inner.to_vec.length)), Packet.vxlan vni] inner.to_vec
  refine ⟨q, hq, ?_⟩
  have hv : (Packet.vxlan vni).data.length = 8 := rfl
  have hpl : ((Packet.vxlan vni).data ++ inner.to_vec).length = 8 + inner.to_vec.length := by rw [List.length_append, hv]
  have hseg : onWire [Packet.udp usrc udst (BitVec.ofNat 16 (16 + inner.to_vec.length)), Packet.vxlan vni] inner.to_vec =
      be16 usrc ++ be16 udst ++ be16 (BitVec.ofNat 16 (8 + ((Packet.vxlan vni).data ++ inner.to_vec).length)) ++ be16 0#16 ++
        ((Packet.vxlan vni).data ++ inner.to_vec) := by
    rw [hpl, show 8 + (8 + inner.to_vec.length) = 16 + inner.to_vec.length by omega, onWire_cons, onWire_cons, onWire_nil, udp_data]
  have hl : (onWire [Packet.udp usrc udst (BitVec.ofNat 16 (16 + inner.to_vec.length)), Packet.vxlan vni] inner.to_vec).length =
      16 + inner.to_vec.length := by
    rw [hseg, List.length_append, hpl]; simp; omega
  rw [hostUdp, hin, host4 udpInput _ ha _ _ _ _ (fun g hg => by
    have := udp_needs g _ hg
    rw [hl]
    simp only [hpl] at this
    omega), whole_right, hl, hseg]
  refine and_iff_left_of_imp fun hw => ?_
  exact (udpInput_built false s d usrc udst 0#16 _ (by rw [hpl]; have := hw.2.1; omega)).mpr (.inl ⟨rfl, rfl⟩)

/-- **C105, IP in IPv4.** -/
theorem C105_ipip4 {inner : Packet} {s d : Bytes} (hs : to_ipv4_bytes src = .ok s) (hd : to_ipv4_bytes dst = .ok d)
    (h : create_ipv4ip_packet chk eth_dst eth_src ve vid pcp ihl src dst tos ttl id frag opts inner = .ok p) :
    ∃ q, finishIp (ipAt ve) p = .ok q ∧
      (ipInput q.to_vec = some ⟨false, if u8At inner.to_vec 0 / 16 = 6 then 41 else 4, s, d, inner.to_vec⟩ ↔
        Sound4 ihl frag inner.to_vec.length) ∧
      (Sound4 ihl frag inner.to_vec.length →
        endIpip q.to_vec = if u8At inner.to_vec 0 / 16 = 6 then ip6Input inner.to_vec else ip4Input inner.to_vec) := by
  obtain ⟨⟨⟨⟨m, hm⟩, n, hn⟩, -⟩, hi⟩ := (C41_ipv4ip_returns_iff ..).mp ⟨p, h⟩
  have e := C41_ipv4ip chk _ _ ve vid pcp m n hm hn ⟨ihl, tos, id, ttl, frag, 0#8, s, d⟩ _ _ hs hd opts inner hi
  obtain rfl := Except.ok.inj (h.symm.trans e)
  have ha : Ip4.Ok (Ip4.withProto ⟨ihl, tos, id, ttl, frag, 0#8, s, d⟩ (ipipProto inner.to_vec)) := ⟨C32_length _ _ hs, C32_length _ _ hd⟩
  obtain ⟨q, hq, hin⟩ := finishIp_host m n (C31_length _ _ hm) (C31_length _ _ hn) ve vid pcp _ ha
    (BitVec.ofNat 16 (20 + inner.to_vec.length)) (Ip4.ck (Ip4.withProto ⟨ihl, tos, id, ttl, frag, 0#8, s, d⟩ (ipipProto inner.to_vec))
      (BitVec.ofNat 16 (20 + inner.to_vec.length))) [] inner.to_vec
  have key : ipInput q.to_vec = some ⟨false, if u8At inner.to_vec 0 / 16 = 6 then 41 else 4, s, d, inner.to_vec⟩ ↔
      Sound4 ihl frag inner.to_vec.length := by
    rw [hin, onWire_nil, ← Option.bind_fun_some (ip4Input _),
      host4 some _ ha _ _ _ _ (fun g hg => by cases hg; exact Nat.le_refl _), whole_right]
    refine and_iff_left_of_imp fun _ => ?_
    simp only [Ip4.withProto, ipipProto]
    split <;> rfl
  refine ⟨q, hq, key, fun hw => ?_⟩
  rw [endIpip, key.mpr hw]
  simp only [Option.bind_some, ipipInput]
  split <;> simp

/-- The client of a GRE tunnel: the checksum, if the packet carries one, and the IPv4 header. -/
def finishGre (c : Bool) (n : Nat) (p : Packet) : R Packet := do
  let p ← if c then finishSum GREChksumOffset GREChksumOffset.chksum (coverAlone n) p else pure p
  finishIp n p

/-- **C105, GRE.** -/
theorem C105_gre {c r k q st : Bool} {flags ver : Byte} {gck goff : U16} {key seq : U32} {routing : Bytes} {inner : Option Packet}
    {s d : Bytes} (hs : to_ipv4_bytes src = .ok s) (hd : to_ipv4_bytes dst = .ok d)
    (h : create_gre_packet chk eth_dst eth_src ve vid pcp ihl src dst tos ttl id frag opts c r k q st flags ver gck goff key seq
      routing inner = .ok p) :
    ∃ f, finishGre c (ipAt ve) p = .ok f ∧
      (endGre f.to_vec = some ⟨s, d, (greProto (innerBytes inner)).toNat, c, if k then some key.toNat else none,
          if q then some seq.toNat else none, innerBytes inner⟩ ↔
        Sound4 ihl frag (4 + 4 * c.toNat + 4 * k.toNat + 4 * q.toNat + (innerBytes inner).length) ∧
          r = false ∧ st = false ∧ ver.toNat % 8 = 0) := by
  obtain ⟨⟨⟨⟨m, hm⟩, n, hn⟩, -⟩, hi⟩ := (C41_gre_returns_iff ..).mp ⟨p, h⟩
  have e := C41_gre chk _ _ ve vid pcp m n hm hn ⟨ihl, tos, id, ttl, frag, 0#8, s, d⟩ _ _ hs hd opts c r k q st flags ver gck goff
    key seq routing inner hi
  obtain rfl := Except.ok.inj (h.symm.trans e)
  have ha : Ip4.Ok (Ip4.withProto ⟨ihl, tos, id, ttl, frag, 0#8, s, d⟩ 47#8) := ⟨C32_length _ _ hs, C32_length _ _ hd⟩
  have hw : ∀ x : U16, onWire (Packet.gre c r k q st flags ver (greProto (innerBytes inner)) :: (optHdrs c (Packet.gre_chksum_offset x goff) ++
      (optHdrs k (Packet.gre_key key) ++ optHdrs q (Packet.gre_sequence_number seq)))) (innerBytes inner) =
        greSeg c r k q st flags ver (greProto (innerBytes inner)) x goff key seq (innerBytes inner) := by
    intro x
    cases c <;> cases k <;> cases q <;>
      simp [optHdrs, onWire, greSeg, Packet.gre_chksum_offset, Packet.gre_key, Packet.gre_sequence_number, HeaderDef.ofVec]
  have hl := fun x => greSeg_length c r k q st flags ver (greProto (innerBytes inner)) x goff key seq (innerBytes inner)
  -- whatever the checksum, the network layer hands on the segment
  have key2 : ∃ x f, finishGre c (ipAt ve) ⟨l2Hdrs m n ve vid pcp 0x0800#16 ++
      [(Ip4.withProto ⟨ihl, tos, id, ttl, frag, 0#8, s, d⟩ 47#8).hdr (BitVec.ofNat 16 (20 + (innerBytes inner).length + greLen c r k q routing)),
        Packet.gre c r k q st flags ver (greProto (innerBytes inner))] ++
      (optHdrs c (Packet.gre_chksum_offset gck goff) ++ (optHdrs k (Packet.gre_key key) ++
        optHdrs q (Packet.gre_sequence_number seq))), innerBytes inner⟩ = .ok f ∧
      (c = true → Verifies (greSeg c r k q st flags ver (greProto (innerBytes inner)) x goff key seq (innerBytes inner))) ∧
      ipInput f.to_vec = ip4Input (Ip4.raw (Ip4.withProto ⟨ihl, tos, id, ttl, frag, 0#8, s, d⟩ 47#8)
        (BitVec.ofNat 16 (20 + (greSeg c r k q st flags ver (greProto (innerBytes inner)) x goff key seq (innerBytes inner)).length))
        (rightCk (Ip4.withProto ⟨ihl, tos, id, ttl, frag, 0#8, s, d⟩ 47#8)
          (BitVec.ofNat 16 (20 + (greSeg c r k q st flags ver (greProto (innerBytes inner)) x goff key seq (innerBytes inner)).length))) ++
        greSeg c r k q st flags ver (greProto (innerBytes inner)) x goff key seq (innerBytes inner)) := by
    cases c with
    | false =>
      obtain ⟨f, hf, hin⟩ := finishIp_host m n (C31_length _ _ hm) (C31_length _ _ hn) ve vid pcp _ ha
        (BitVec.ofNat 16 (20 + (innerBytes inner).length + greLen false r k q routing))
        (Ip4.ck (Ip4.withProto ⟨ihl, tos, id, ttl, frag, 0#8, s, d⟩ 47#8)
          (BitVec.ofNat 16 (20 + (innerBytes inner).length + greLen false r k q routing)))
        (Packet.gre false r k q st flags ver (greProto (innerBytes inner)) :: (optHdrs false (Packet.gre_chksum_offset gck goff) ++
          (optHdrs k (Packet.gre_key key) ++ optHdrs q (Packet.gre_sequence_number seq)))) (innerBytes inner)
      rw [hw gck] at hin
      refine ⟨gck, f, ?_, nofun, hin⟩
      rw [← hf]
      simp only [List.append_assoc, List.cons_append, List.nil_append]
      rfl
    | true =>
      let D : U16 → Bytes := fun x => be16 x ++ be16 goff
      obtain ⟨f1, -⟩ := frame4 m n (C31_length _ _ hm) (C31_length _ _ hn) ve vid pcp 0x0800#16 _ ha
        (BitVec.ofNat 16 (20 + (innerBytes inner).length + greLen true r k q routing))
        (Ip4.ck (Ip4.withProto ⟨ihl, tos, id, ttl, frag, 0#8, s, d⟩ 47#8)
          (BitVec.ofNat 16 (20 + (innerBytes inner).length + greLen true r k q routing)))
        (Packet.gre true r k q st flags ver (greProto (innerBytes inner)) :: ⟨GREChksumOffset, D 0#16⟩ ::
          (optHdrs k (Packet.gre_key key) ++ optHdrs q (Packet.gre_sequence_number seq))) (innerBytes inner)
      obtain ⟨f, hf, hin⟩ := finish4_eq GREChksumOffset GREChksumOffset.chksum 0 rfl rfl (by decide) (coverAlone (ipAt ve)) m n
        (C31_length _ _ hm) (C31_length _ _ hn) ve vid pcp _ ha
        (BitVec.ofNat 16 (20 + (innerBytes inner).length + greLen true r k q routing))
        (Ip4.ck (Ip4.withProto ⟨ihl, tos, id, ttl, frag, 0#8, s, d⟩ 47#8)
          (BitVec.ofNat 16 (20 + (innerBytes inner).length + greLen true r k q routing)))
        [Packet.gre true r k q st flags ver (greProto (innerBytes inner))]
        (optHdrs k (Packet.gre_key key) ++ optHdrs q (Packet.gre_sequence_number seq)) (D gck) (innerBytes inner)
        (by decide) (by decide) (by decide) (by intro y hy; rw [List.mem_singleton] at hy; subst hy; show "GRE" ≠ "GREChksumOffset"; decide) rfl D
        (fun x => by simp [D, putAt, be16]) _ f1
      have hx := hw (BitVec.ofNat 16 (checksum (onWire (Packet.gre true r k q st flags ver (greProto (innerBytes inner)) ::
        ⟨GREChksumOffset, D 0#16⟩ :: (optHdrs k (Packet.gre_key key) ++ optHdrs q (Packet.gre_sequence_number seq))) (innerBytes inner))))
      refine ⟨_, f, ?_, fun _ => ?_, by rw [← hx]; exact hin⟩
      · rw [← hf, List.append_assoc]
        rfl
      · have h0 := hw 0#16
        have hv := checksum_verifies (Packet.gre true r k q st flags ver (greProto (innerBytes inner))).data
          (be16 goff ++ ((if k then be32 key else []) ++ ((if q then be32 seq else []) ++ innerBytes inner)))
          (by rw [show (Packet.gre true r k q st flags ver (greProto (innerBytes inner))).data.length = 4 from rfl])
        have h00 : onWire (Packet.gre true r k q st flags ver (greProto (innerBytes inner)) ::
          ⟨GREChksumOffset, D 0#16⟩ :: (optHdrs k (Packet.gre_key key) ++ optHdrs q (Packet.gre_sequence_number seq))) (innerBytes inner) = _ := h0
        rw [h00]
        simpa only [greSeg, if_true, List.append_assoc] using hv
  obtain ⟨x, f, hf, hver, hin⟩ := key2
  refine ⟨f, hf, ?_⟩
  rw [endGre, hin, host4 greInput _ ha _ _ _ _ (fun g hg => by
      have := gre_needs g _ hg
      rw [hl]
      cases k <;> cases q <;> simp at this <;> simp <;> omega), whole_right, hl]
  simp only [Ip4.withProto, show (47#8 : Byte).toNat = 47 from rfl, greInput_built, Option.ite_none_right_eq_some, and_true]
  refine and_congr_right fun _ => ?_
  exact ⟨fun h => ⟨h.1, h.2.1, h.2.2.1⟩, fun h => ⟨h.1, h.2.1, h.2.2, hver⟩⟩

/-- **C105, ERSPAN II.** -/
theorem C105_erspan2 {seq : U32} {vlan : U16} {cos en t : Byte} {sid : U16} {idx : U32} {inner : Option Packet} {s d : Bytes}
    (h1 : vlan.toNat < 4096) (h2 : cos.toNat < 8) (h3 : en.toNat < 4) (h4 : t.toNat < 2) (h5 : sid.toNat < 1024)
    (h6 : idx.toNat < 1048576) (hs : to_ipv4_bytes src = .ok s) (hd : to_ipv4_bytes dst = .ok d)
    (h : create_erspan_2_packet chk eth_dst eth_src ve vid pcp ihl src dst tos ttl id frag opts seq vlan cos en t sid idx inner
      = .ok p) :
    ∃ q, finishIp (ipAt ve) p = .ok q ∧
      (endErspan2 q.to_vec = some ⟨seq.toNat, vlan.toNat, cos.toNat, en.toNat, t.toNat, sid.toNat, idx.toNat, innerBytes inner⟩ ↔
        seq ≠ 0#32 ∧ Sound4 ihl frag (16 + (innerBytes inner).length)) := by
  obtain ⟨⟨⟨m, hm⟩, n, hn⟩, -⟩ := (C41_erspan2_returns_iff ..).mp ⟨p, h⟩
  have e := C41_erspan2 chk _ _ ve vid pcp m n hm hn ⟨ihl, tos, id, ttl, frag, 0#8, s, d⟩ _ _ hs hd opts seq vlan cos en t sid idx
    inner
  obtain rfl := Except.ok.inj (h.symm.trans e)
  have ha : Ip4.Ok (Ip4.withProto ⟨ihl, tos, id, ttl, frag, 0#8, s, d⟩ 47#8) := ⟨C32_length _ _ hs, C32_length _ _ hd⟩
  have hl := erspan2Seg_length seq vlan cos en t sid idx (innerBytes inner)
  obtain ⟨q, hq, hin⟩ := finishIp_host m n (C31_length _ _ hm) (C31_length _ _ hn) ve vid pcp _ ha
    (BitVec.ofNat 16 (20 + (innerBytes inner).length + (erspan2Len seq + innerLen inner)))
    (Ip4.ck (Ip4.withProto ⟨ihl, tos, id, ttl, frag, 0#8, s, d⟩ 47#8)
      (BitVec.ofNat 16 (20 + (innerBytes inner).length + (erspan2Len seq + innerLen inner))))
    (⟨GRE, [if seq ≠ 0#32 then 0x10#8 else 0#8, 0#8, 0x88#8, 0xbe#8]⟩ ::
      (optHdrs (seq ≠ 0#32) (Packet.gre_sequence_number seq) ++ [Packet.erspan2 vlan cos en t sid idx])) (innerBytes inner)
  refine ⟨q, ?_, ?_⟩
  · rw [← hq, List.append_assoc]; rfl
  rw [endErspan2, endGre, hin, erspan2_seg, Option.bind_assoc,
    host4 (fun g => (greInput g).bind erspan2Input) _ ha _ _ _ _ (fun g hg => by
      have := erspan2_needs g _ hg
      rw [hl, erspan2Len]
      simp only at this
      split <;> omega), whole_right, hl]
  simp only [Ip4.withProto, show (47#8 : Byte).toNat = 47 from rfl, erspanGre_input, Option.bind_some]
  rw [show (0x88be#16 : U16).toNat = 0x88be from rfl, erspan2Input_built s d _ vlan cos en t sid idx h1 h2 h3 h4 h5 h6]
  by_cases c : seq = 0#32
  · simp [c]
  have h16 : erspan2Len seq = 16 := by simp [erspan2Len, c]
  simp only [ne_eq, c, not_false_eq_true, decide_true, if_true, Option.bind_some, and_true, true_and, h16]

/-- The client of an ERSPAN III tunnel: the mirrored frame as payload of a packet built without one, the flag that announces the
sequence number, and the IPv4 header. -/
def finishErspan3 (n : Nat) (fr : Bytes) (p : Packet) : R Packet := do
  let p ← editField GRE GRE.name GRE.seqnum_present 1 (p.set_payload fr)
  finishIp n p

theorem erspan3_needs_frame (g : Datagram) (m : Erspan3Msg) (h : (greInput g).bind erspan3Input = some m) :
    20 + 8 * (m.other % 2) + m.frame.length ≤ g.data.length := by
  obtain ⟨x, hx, h⟩ := Option.bind_eq_some_iff.mp h
  have := gre_needs g x hx
  unfold erspan3Input at h
  obtain ⟨q, hq, h⟩ := Option.bind_eq_some_iff.mp h
  obtain ⟨⟨-, c2, -⟩, h⟩ := Option.ite_none_right_eq_some.mp h
  cases h
  rw [hq] at this
  simp only [Option.toList_some, List.length_singleton, List.length_drop] at this ⊢
  omega

/-- **C105, ERSPAN III.** For a sequence number other than zero, even ones included. -/
theorem C105_erspan3 {seq : U32} {vlan : U16} {cos en t : Byte} {sid : U16} {ts : U32} {sgt ft : U16} {pid : Byte} {info : U64}
    {s d : Bytes} (fr : Bytes) (h0 : seq ≠ 0#32)
    (h1 : vlan.toNat < 4096) (h2 : cos.toNat < 8) (h3 : en.toNat < 4) (h4 : t.toNat < 2) (h5 : sid.toNat < 1024)
    (hs : to_ipv4_bytes src = .ok s) (hd : to_ipv4_bytes dst = .ok d)
    (h : create_erspan_3_packet chk eth_dst eth_src ve vid pcp ihl src dst tos ttl id frag opts seq vlan cos en t sid ts sgt ft pid info
      none = .ok p) :
    ∃ q, finishErspan3 (ipAt ve) fr p = .ok q ∧
      (endErspan3 q.to_vec = some ⟨seq.toNat, vlan.toNat, cos.toNat, en.toNat, t.toNat, sid.toNat, ts.toNat, sgt.toNat, ft.toNat, fr⟩ ↔
        Sound4 ihl frag (20 + 8 * (ft.toNat % 2) + fr.length)) := by
  obtain ⟨⟨⟨m, hm⟩, n, hn⟩, -⟩ := (C41_erspan3_returns_iff ..).mp ⟨p, h⟩
  have e := C41_erspan3 chk _ _ ve vid pcp m n hm hn ⟨ihl, tos, id, ttl, frag, 0#8, s, d⟩ _ _ hs hd opts seq vlan cos en t sid ts sgt ft
    pid info none
  obtain rfl := Except.ok.inj (h.symm.trans e)
  have ha : Ip4.Ok (Ip4.withProto ⟨ihl, tos, id, ttl, frag, 0#8, s, d⟩ 47#8) := ⟨C32_length _ _ hs, C32_length _ _ hd⟩
  have hflag : Hdr.set ⟨GRE, [if seq.toNat % 2 = 1 then 0x10#8 else 0#8, 0#8, 0x22#8, 0xeb#8]⟩ GRE.seqnum_present 1 =
      .ok ⟨GRE, [0x10#8, 0#8, 0x22#8, 0xeb#8]⟩ := by
    split <;> decide +kernel
  obtain ⟨q, hq, hin⟩ := finishIp_host m n (C31_length _ _ hm) (C31_length _ _ hn) ve vid pcp _ ha
    (BitVec.ofNat 16 (20 + (innerBytes none).length + (erspan3Len seq ft + innerLen none)))
    (Ip4.ck (Ip4.withProto ⟨ihl, tos, id, ttl, frag, 0#8, s, d⟩ 47#8)
      (BitVec.ofNat 16 (20 + (innerBytes none).length + (erspan3Len seq ft + innerLen none))))
    (⟨GRE, [0x10#8, 0#8, 0x22#8, 0xeb#8]⟩ :: (optHdrs (seq ≠ 0#32) (Packet.gre_sequence_number seq) ++
        (Packet.erspan3 vlan cos en t sid ts sgt ft :: (optHdrs (ft.toNat % 2 = 1) (platform pid info) ++ [])))) fr
  have hseg : onWire (⟨GRE, [0x10#8, 0#8, 0x22#8, 0xeb#8]⟩ :: (optHdrs (seq ≠ 0#32) (Packet.gre_sequence_number seq) ++
        (Packet.erspan3 vlan cos en t sid ts sgt ft :: (optHdrs (ft.toNat % 2 = 1) (platform pid info) ++ [])))) fr =
      greSeg false false false true false 0 0 0x22eb#16 0 0 0 seq
        ((Packet.erspan3 vlan cos en t sid ts sgt ft).data ++ erspan3Rest ft pid info [] fr) := by
    simp [optHdrs, onWire, greSeg, h0, Packet.gre_sequence_number, HeaderDef.ofVec, erspan3Rest]
    rfl
  have hr := erspan3Rest_length ft pid info [] fr
  rw [show (hdrBytes []).length = 0 from rfl] at hr
  have hl : (greSeg false false false true false 0 0 0x22eb#16 0 0 0 seq
        ((Packet.erspan3 vlan cos en t sid ts sgt ft).data ++ erspan3Rest ft pid info [] fr)).length =
      20 + 8 * (ft.toNat % 2) + fr.length := by
    rw [greSeg_length, List.length_append, show (Packet.erspan3 vlan cos en t sid ts sgt ft).data.length = 12 from rfl, hr]
    simp only [Bool.toNat_false, Bool.toNat_true]
    omega
  refine ⟨q, ?_, ?_⟩
  · have u := edit_at GRE GRE.seqnum_present 1 (l2Hdrs m n ve vid pcp 0x0800#16 ++
        [Ip4.hdr (Ip4.withProto ⟨ihl, tos, id, ttl, frag, 0#8, s, d⟩ 47#8)
          (BitVec.ofNat 16 (20 + (innerBytes none).length + (erspan3Len seq ft + innerLen none)))])
      (optHdrs (seq ≠ 0#32) (Packet.gre_sequence_number seq) ++
        (Packet.erspan3 vlan cos en t sid ts sgt ft :: (optHdrs (ft.toNat % 2 = 1) (platform pid info) ++ []))) _ _ fr
      (before_names m n ve vid pcp 0x0800#16 (Ip4.hdr _ _) _ (by decide) (by decide) (show "IPv4" ≠ "GRE" by decide)) rfl hflag
    rw [List.append_assoc, List.append_assoc] at u
    rw [List.append_assoc]
    exact (congrArg (· >>= finishIp (ipAt ve)) u).trans hq
  rw [endErspan3, endGre, hin, hseg, Option.bind_assoc,
    host4 (fun g => (greInput g).bind erspan3Input) _ ha _ _ _ _ (fun g hg => by
      have := erspan3_needs_frame g _ hg
      rw [hl]
      exact this), whole_right, hl]
  refine and_iff_left_of_imp fun _ => ?_
  simp only [Ip4.withProto, show (47#8 : Byte).toNat = 47 from rfl, erspanGre_input, Option.bind_some]
  rw [show (0x22eb#16 : U16).toNat = 0x22eb from rfl, erspan3Input_built s d _ vlan cos en t sid ts sgt ft h1 h2 h3 h4 h5 _ (by rw [hr]; omega),
    erspan3Rest_drop]
  rfl

/-- The client of a VXLAN tunnel over IPv6: the inner frame as payload of a packet built around an empty one, both lengths, and the
checksum. -/
def finishVxlan6 (n : Nat) (fr : Bytes) (p : Packet) : R Packet := do
  let p ← editField UDP UDP.name UDP.length (BitVec.ofNat 64 (16 + fr.length)) (p.set_payload fr)
  let p ← editField IPv6 IPv6.name IPv6.payload_len (BitVec.ofNat 64 (16 + fr.length)) p
  finishSum UDP UDP.checksum (cover6 n) p

theorem ipv6_put (p6 : Ipv6FromStr) (tc : Byte) (flow : U32) (nh hl : Byte) (src dst : Str) (len l : U16) :
    putAt (Packet.ipv6 p6 tc flow nh hl src dst len).data 4 (be16 l) = (Packet.ipv6 p6 tc flow nh hl src dst l).data := by
  simp [Packet.ipv6, HeaderDef.ofVec, putAt, be16, be32]

/-- **C105, VXLAN over IPv6.** -/
theorem C105_vxlan6 {udst usrc : U16} {ck : Bool} {vni : U32} (fr : Bytes)
    (h : create_vxlanv6_packet chk p6 eth_dst eth_src ve vid pcp tc flow hl src dst udst usrc ck vni Packet.new = .ok p) :
    ∃ q, finishVxlan6 (ipAt ve) fr p = .ok q ∧
      (hostUdp q.to_vec = some ⟨to_ipv6_bytes p6 src, to_ipv6_bytes p6 dst, usrc.toNat, udst.toNat, (Packet.vxlan vni).data ++ fr⟩ ↔
        Flow6 flow ∧ 16 + fr.length < 65536) := by
  obtain ⟨⟨m, hm⟩, n, hn⟩ := (C41_vxlanv6_returns_iff ..).mp ⟨p, h⟩
  have e := C41_vxlanv6 chk p6 _ _ ve vid pcp m n hm hn src dst tc flow hl udst usrc ck vni Packet.new
  obtain rfl := Except.ok.inj (h.symm.trans e)
  have hv : (Packet.vxlan vni).data.length = 8 := rfl
  have hpl : ((Packet.vxlan vni).data ++ fr).length = 8 + fr.length := by rw [List.length_append, hv]
  let D : U16 → Bytes := fun c => be16 usrc ++ be16 udst ++ be16 (BitVec.ofNat 16 (16 + fr.length)) ++ be16 c
  have hDl : ∀ c, (D c ++ ((Packet.vxlan vni).data ++ fr)).length = 16 + fr.length := fun c => by
    rw [List.length_append, hpl]; simp only [D, List.length_append, be16_length]; omega
  obtain ⟨q, hq, hin⟩ := finish6_eq UDP UDP.checksum 6 rfl rfl (by decide) m n (C31_length _ _ hm) (C31_length _ _ hn) ve vid pcp p6 tc flow
    17#8 hl src dst (BitVec.ofNat 16 (16 + fr.length)) [Packet.vxlan vni] (D 0xffff#16) fr (by decide) (by decide) (by decide) rfl D
    (fun c => by simp [D, putAt, be16])
  simp only [onWire_nil, onWire_cons, hDl] at hin
  refine ⟨q, ?_, ?_⟩
  · have u := edit16 UDP UDP.length 4 rfl rfl (by decide) (l2Hdrs m n ve vid pcp 0x86DD#16 ++ [Packet.ipv6 p6 tc flow 17#8 hl src dst 16#16])
      [Packet.vxlan vni] (be16 usrc ++ be16 udst ++ be16 16#16 ++ be16 0xffff#16) fr (BitVec.ofNat 64 (16 + fr.length))
      (before_names m n ve vid pcp 0x86DD#16 (Packet.ipv6 p6 tc flow 17#8 hl src dst 16#16) _ (by decide) (by decide)
        (show "IPv6" ≠ "UDP" by decide)) rfl
    have i := edit16 IPv6 IPv6.payload_len 4 rfl rfl (by decide) (l2Hdrs m n ve vid pcp 0x86DD#16)
      [⟨UDP, D 0xffff#16⟩, Packet.vxlan vni] (Packet.ipv6 p6 tc flow 17#8 hl src dst 16#16).data fr (BitVec.ofNat 64 (16 + fr.length))
      (l2_names m n ve vid pcp 0x86DD#16 _ (by decide) (by decide)) (ipv6_u8 p6 tc flow 17#8 hl src dst 16#16 []).1
    rw [setWidth_ofNat16] at u i
    rw [ipv6_put] at i
    have hp : putAt (be16 usrc ++ be16 udst ++ be16 16#16 ++ be16 0xffff#16) 4 (be16 (BitVec.ofNat 16 (16 + fr.length))) = D 0xffff#16 := by
      simp [D, putAt, be16]
    have hass : ∀ x, l2Hdrs m n ve vid pcp 0x86DD#16 ++ [Packet.ipv6 p6 tc flow 17#8 hl src dst 16#16] ++ x =
        l2Hdrs m n ve vid pcp 0x86DD#16 ++ (Packet.ipv6 p6 tc flow 17#8 hl src dst 16#16 :: x) := fun x => List.append_assoc _ _ _
    rw [hp, hass, hass] at u
    rw [List.append_assoc]
    have e2 := congrArg (· >>= fun p => editField IPv6 IPv6.name IPv6.payload_len (BitVec.ofNat 64 (16 + fr.length)) p >>=
      finishSum UDP UDP.checksum (cover6 (ipAt ve))) u
    have e3 := congrArg (· >>= finishSum UDP UDP.checksum (cover6 (ipAt ve))) i
    exact e2.trans (e3.trans hq)
  rw [hostUdp, hin, host6 udpInput _ _ _ _ _ _ _ _ _ _ (fun g hg => by
    have := udp_needs g _ hg
    rw [hDl]
    simp only [hpl] at this
    omega), Whole6, hDl, and_assoc]
  refine and_congr_right fun _ => ?_
  rw [BitVec.toNat_ofNat, show (16 + fr.length) % 2 ^ 16 = 16 + fr.length ↔ 16 + fr.length < 65536 by omega]
  refine and_iff_left_of_imp fun hb => ?_
  have := udp_right true (to_ipv6_bytes p6 src) (to_ipv6_bytes p6 dst) (by rw [ipv6_len6, ipv6_len6]) usrc udst ((Packet.vxlan vni).data ++ fr)
    (by rw [hpl]; omega)
  rw [hpl, show 8 + (8 + fr.length) = 16 + fr.length by omega] at this
  exact this

end

/-! ## Cases -/

section
open Sample

/-- Arguments whose header sum `ipv4_checksum` folds wrong: the host gets nothing before and everything after, and the checksum of UDP is
not left out. -/
example :
    let p := get (create_udp_packet true mac1 mac2 true 10 3 5 "255.255.255.255".toList "255.255.255.254".toList 1 64 0x3ad0 0x4000 [] 53 1234
      true data)
    let q := get (finishSum UDP UDP.checksum (cover4 (ipAt true)) p >>= finishIp (ipAt true))
    hostUdp p.to_vec = none ∧ hostUdp q.to_vec = some ⟨[255, 255, 255, 255], [255, 255, 255, 254], 1234, 53, data⟩ ∧
      u16At (seg4 q.to_vec (ipAt true)) 6 ≠ 0 := by
  decide +kernel

/-- TCP and ICMP: the frames as built are not accepted, the finished ones are. -/
example :
    let q := get (finishSum TCP TCP.checksum (cover4 (ipAt true)) (get tcp) >>= finishIp (ipAt true))
    let r := get (finishSum ICMP ICMP.chksum (coverAlone (ipAt false)) (get icmp) >>= finishIp (ipAt false))
    hostTcp (get tcp).to_vec = none ∧ hostTcp q.to_vec = some ⟨[10, 0, 0, 1], [192, 168, 0, 2], 1234, 80, 7, 9, 2, 512, 0, data⟩ ∧
      hostIcmp (get icmp).to_vec = none ∧ hostIcmp r.to_vec = some ⟨[10, 0, 0, 1], [192, 168, 0, 2], 8, 0, data⟩ := by
  decide +kernel

/-- The same over IPv6. -/
example :
    let q := get (finishSum TCP TCP.checksum (cover6 (ipAt true)) (get tcpv6))
    let r := get (finishSum ICMP ICMP.chksum (cover6 (ipAt false)) (get icmpv6))
    let u := get (finishSum UDP UDP.checksum (cover6 (ipAt true)) (get udpv6))
    let s := to_ipv6_bytes p6 ip6a
    let d := to_ipv6_bytes p6 ip6b
    hostTcp (get tcpv6).to_vec = none ∧ hostTcp q.to_vec = some ⟨s, d, 1234, 80, 7, 9, 2, 512, 0, data⟩ ∧
      hostIcmp (get icmpv6).to_vec = none ∧ hostIcmp r.to_vec = some ⟨s, d, 128, 0, data⟩ ∧
      hostUdp (get udpv6).to_vec = none ∧ hostUdp u.to_vec = some ⟨s, d, 1234, 53, data⟩ := by
  decide +kernel

/-- VXLAN. -/
example :
    let q := get (finishIp (ipAt true) (get vxlan))
    let r := get (create_vxlanv6_packet true p6 mac1 mac2 true 10 3 7 0x12345 64 ip6a ip6b 4789 1234 true 0xabcd Packet.new >>=
      finishVxlan6 (ipAt true) innerFrame.to_vec)
    hostUdp (get vxlan).to_vec = none ∧
      hostUdp q.to_vec = some ⟨[10, 0, 0, 1], [192, 168, 0, 2], 1234, 4789, (Packet.vxlan 0xabcd).data ++ innerFrame.to_vec⟩ ∧
      hostUdp (get vxlanv6).to_vec = none ∧ hostUdp r.to_vec = some ⟨to_ipv6_bytes p6 ip6a, to_ipv6_bytes p6 ip6b, 1234, 4789,
        (Packet.vxlan 0xabcd).data ++ innerFrame.to_vec⟩ := by
  decide +kernel

/-- IP in IP, and GRE with a checksum. -/
example :
    endIpip (get (finishIp (ipAt true) (get ipv4ip))).to_vec = ip6Input innerIp6.to_vec ∧ ip6Input innerIp6.to_vec ≠ none ∧
      endGre (get (greWith true false true true)).to_vec = none ∧
      endGre (get (finishGre true (ipAt true) (get (greWith true false true true)))).to_vec =
        some ⟨[10, 0, 0, 1], [192, 168, 0, 2], 0x0800, true, some 0xc0ffee, some 7, innerIp.to_vec⟩ := by
  decide +kernel

/-- ERSPAN II with an inner frame, ERSPAN III with an inner frame and an even sequence number. -/
example :
    endErspan2 (get erspan2).to_vec = none ∧
      endErspan2 (get (finishIp (ipAt true) (get erspan2))).to_vec = some ⟨24, 100, 1, 2, 1, 77, 0x55, innerFrame.to_vec⟩ ∧
      endErspan3 (get (mirror3 24 none >>= finishErspan3 (ipAt true) innerFrame.to_vec)).to_vec =
        some ⟨24, 100, 1, 2, 1, 77, 0x55667788, 3, 0x101, innerFrame.to_vec⟩ := by
  decide +kernel

end

end PacketRs
