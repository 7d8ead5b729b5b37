import Verif.Spec.Napt
import Verif.Props.Turn
/-!
# Property C103: translating addresses and ports

A client between two networks parses a frame, replaces source or destination address and port, and updates both checksums from
what it replaced, as RFC 1624 has it; the payload is never looked at.  What the host behind it gets.
-/
namespace PacketRs
open Spec Utils

/-! ## The arithmetic -/

theorem fold16_eq (n : Nat) : fold16 n ≤ 65535 ∧ fold16 n % 65535 = n % 65535 ∧ (fold16 n = 0 ↔ n = 0) := by
  fun_induction fold16 n with
  | case1 n h => exact ⟨by omega, rfl, Iff.rfl⟩
  | case2 n h ih => exact ⟨ih.1, by omega, by omega⟩

theorem compl_sum (l : List Nat) (h : ∀ x ∈ l, x ≤ 65535) : ((l.map (65535 - ·)).sum + l.sum) % 65535 = 0 := by
  induction l with
  | nil => rfl
  | cons x l ih =>
    have h1 := ih fun y hy => h y (by simp [hy])
    have h2 := h x (by simp)
    simp only [List.map_cons, List.sum_cons]
    omega

/-- The new checksum with the new words weighs as much as the old one with the old words. -/
theorem adjust_sum (c : Nat) (old new : List Nat) (hc : c ≤ 65535) (h : ∀ x ∈ old, x ≤ 65535) :
    0 < adjust c old new ∧ adjust c old new ≤ 65535 ∧ (adjust c old new + new.sum) % 65535 = (c + old.sum) % 65535 := by
  have h1 := compl_sum old h
  obtain ⟨f1, f2, -⟩ := fold16_eq (65535 - c + (old.map (65535 - ·)).sum + new.sum)
  unfold adjust
  simp only
  generalize fold16 _ = F at *
  split <;> omega

/-- The sum of the words when some are replaced. -/
theorem sum_put (d : Bytes) (a : Nat) (w : Bytes) (ha : a % 2 = 0) (hw : w.length % 2 = 0) (h : a + w.length ≤ d.length) :
    (words (putAt d a w)).sum + (words ((d.drop a).take w.length)).sum = (words d).sum + (words w).sum := by
  have hl : (d.take a).length = a := by rw [List.length_take]; omega
  have hk : ((d.drop a).take w.length).length = w.length := by rw [List.length_take, List.length_drop]; omega
  conv => rhs; rw [putAt_split d a w.length h]
  unfold putAt
  rw [hk, words_append _ _ (by omega), words_append _ _ (by omega), words_append _ _ (by omega), words_append _ _ (by omega)]
  simp only [List.sum_append]
  omega

theorem sum_put_ge (d : Bytes) (a : Nat) (w : Bytes) (ha : a % 2 = 0) (hw : w.length % 2 = 0) (h : a + w.length ≤ d.length) :
    (words w).sum ≤ (words (putAt d a w)).sum := by
  have hl : (d.take a).length = a := by rw [List.length_take]; omega
  unfold putAt
  rw [words_append _ _ (by omega), words_append _ _ (by omega)]
  simp only [List.sum_append]
  omega

theorem words_halves (k : Nat) (h : k < 2 ^ 32) : (words (num32 k)).sum = (halves k).sum := by
  rw [num32, words_append _ _ (by simp [num16]), List.sum_append, words_num16, words_num16]
  simp only [halves, List.sum_cons, List.sum_nil]
  omega

theorem words_four (d : Bytes) (a : Nat) (h : a + 4 ≤ d.length) :
    (words ((d.drop a).take 4)).sum = (halves (65536 * u16At d a + u16At d (a + 2))).sum := by
  have e : (d.drop a).take 4 = (d.drop a).take 2 ++ (d.drop (a + 2)).take 2 := by
    rw [← List.drop_drop, ← List.take_add]
  have h1 := u16At_lt d a
  have h2 := u16At_lt d (a + 2)
  rw [e, words_append _ _ (by rw [List.length_take, List.length_drop]; omega), List.sum_append, words_at _ _ (by omega), words_at _ _ (by omega)]
  simp only [halves, List.sum_cons, List.sum_nil]
  omega

/-! ## The client -/

/-- The client reads a field: `pkt.get_header::<T>(name).unwrap().<f>()`. -/
def readField (chk : Bool) (T : HeaderDef) (f : Field) (p : Packet) : R U64 :=
  match p.get_header T T.name with
  | some h => h.get chk f
  | none => throw .unwrapNone

/-- Source (`dst = false`) or destination of an IPv4 packet with transport header `T` become `a` and `n`: `port` and `cs` are the
fields of port and checksum of `T`.  `opt`: a checksum that is zero says there is none (UDP), and is left. -/
def translate (chk dst : Bool) (T : HeaderDef) (port cs : Field) (opt : Bool) (a : U32) (n : U16) (p : Packet) : R Packet := do
  let addr := if dst then IPv4.dst else IPv4.src
  let oa ← readField chk IPv4 addr p
  let hc ← readField chk IPv4 IPv4.header_checksum p
  let on ← readField chk T port p
  let tc ← readField chk T cs p
  let p ← editField IPv4 IPv4.name addr (a.setWidth 64) p
  let p ← editField IPv4 IPv4.name IPv4.header_checksum (BitVec.ofNat 64 (adjust hc.toNat (halves oa.toNat) (halves a.toNat))) p
  let p ← editField T T.name port (n.setWidth 64) p
  if opt && tc == 0 then pure p
  else editField T T.name cs (BitVec.ofNat 64 (adjust tc.toNat (on.toNat :: halves oa.toNat) (n.toNat :: halves a.toNat))) p

/-- Reading with the types of the headers only. -/
theorem readField_types (chk : Bool) (T : HeaderDef) (x : Field) (p : Packet) (pre post : List HeaderDef)
    (hs : p.hdrs.map (·.ty) = pre ++ T :: post) (hpre : ∀ S ∈ pre, S.name ≠ T.name) (hwf : ∀ x ∈ p.hdrs, x.data.length = x.ty.size)
    (hx : x.Inside T.size) (hw : x.width ≤ 64) :
    ∃ v, readField chk T x p = .ok v ∧ v.toNat = fieldVal ((p.to_vec.drop (pre.map (·.size)).sum).take T.size) x.lo x.hi := by
  obtain ⟨a, b, e, ha, hb'⟩ := List.map_eq_append_iff.mp hs
  obtain ⟨g, r, rfl, hg, hr⟩ := List.map_eq_cons_iff.mp hb'
  have hf : IsFirstNamed p.hdrs T.name a g r :=
    ⟨e, by rw [Hdr.name, hg], fun x hx => hpre _ (ha ▸ List.mem_map_of_mem hx)⟩
  have hgl : g.data.length = T.size := by rw [hwf g (by rw [e]; simp), hg]
  have hl : (a.map (·.data)).flatten.length = (pre.map (·.size)).sum := by
    rw [sizes_eq (fun x hx => hwf x (by rw [e]; simp [hx])), ← ha, List.map_map]; rfl
  obtain ⟨v, e1, e2, -⟩ := C01_getter_value chk g x (by rw [hgl]; exact hx) hw
  refine ⟨v, ?_, ?_⟩
  · unfold readField Packet.get_header
    rw [(find_firstNamed _ _ _).mpr ⟨_, _, hf⟩]
    simp only [hg, if_true, e1]
  · rw [e2]
    congr 1
    obtain ⟨hd, pl⟩ := p
    obtain rfl := hf.1
    rw [wire_split, List.drop_left' hl, List.take_left' hgl]
/-- Fields of one and of two words. -/
theorem read_two {d : Bytes} (i a n : Nat) (hn : a + 2 ≤ n) (h : i + n ≤ d.length) :
    fieldVal ((d.drop i).take n) (8 * a) (8 * a + 15) = u16At d (i + a) := by
  rw [fieldVal_u16 _ _ (by rw [List.length_take, List.length_drop]; omega), u16At_take _ _ _ (by omega), u16At_drop_add]

theorem read_four {d : Bytes} (i a n : Nat) (hn : a + 4 ≤ n) (h : i + n ≤ d.length) :
    fieldVal ((d.drop i).take n) (8 * a) (8 * a + 31) = 65536 * u16At d (i + a) + u16At d (i + a + 2) := by
  have hl : ((d.drop i).take n).length = n := by rw [List.length_take, List.length_drop]; omega
  rw [fieldVal_split _ _ (8 * a + 15) _ (by omega) (by omega) (by omega), read_two i a n (by omega) h,
    show 8 * a + 15 + 1 = 8 * (a + 2) by omega, show 8 * a + 31 = 8 * (a + 2) + 15 by omega, read_two i (a + 2) n (by omega) h,
    show 8 * (a + 2) + 15 - (8 * a + 15) = 16 by omega, Nat.mul_comm]
  rfl

/-- A field of whole octets is set. -/
theorem set_whole (T : HeaderDef) (x : Field) (v : U64) (a : Nat) (w : Bytes) (hx1 : x.lo = 8 * a) (hx2 : x.hi + 1 = 8 * (a + w.length))
    (hw : 0 < w.length) (ha : a + w.length ≤ T.size) (hb : ∀ j, j < 8 * w.length → netBit w j = v.getLsbD (8 * w.length - 1 - j))
    (g : Hdr) (hg : g.ty = T) (hl : g.data.length = T.size) : g.set x v = .ok ⟨T, putAt g.data a w⟩ := by
  obtain ⟨g', e, ht, hl', hbits⟩ := set_bits g x v ⟨by omega, by rw [hl]; omega⟩
  rw [e]
  obtain ⟨ty, d⟩ := g'
  simp only at ht hl' hbits
  subst ht
  rw [hg]
  congr 2
  have hta : (g.data.take a).length = a := by rw [List.length_take]; omega
  apply eq_of_netBit
  · rw [putAt_length _ _ _ (by omega), hl']
  · intro i hi
    rw [hbits i]
    unfold putAt
    by_cases c1 : i < 8 * a
    · rw [netBit_append_left _ _ _ (by omega), netBit_take, if_neg (by omega), decide_eq_true c1, Bool.true_and]
    · rw [netBit_append_right _ _ _ (by omega), hta]
      by_cases c2 : i < 8 * (a + w.length)
      · rw [netBit_append_left _ _ _ (by omega), hb _ (by omega), if_pos (by omega)]
        congr 1; omega
      · rw [netBit_append_right _ _ _ (by omega), netBit_drop, if_neg (by omega)]
        congr 1; omega

/-- The same in a packet. -/
theorem edit_types (T : HeaderDef) (x : Field) (v : U64) (a : Nat) (w : Bytes) (hx1 : x.lo = 8 * a) (hx2 : x.hi + 1 = 8 * (a + w.length))
    (hw : 0 < w.length) (ha : a + w.length ≤ T.size) (hb : ∀ j, j < 8 * w.length → netBit w j = v.getLsbD (8 * w.length - 1 - j))
    (p : Packet) (pre post : List HeaderDef) (hs : p.hdrs.map (·.ty) = pre ++ T :: post) (hpre : ∀ S ∈ pre, S.name ≠ T.name)
    (hwf : ∀ x ∈ p.hdrs, x.data.length = x.ty.size) :
    ∃ q, editField T T.name x v p = .ok q ∧ q.hdrs.map (·.ty) = p.hdrs.map (·.ty) ∧ (∀ x ∈ q.hdrs, x.data.length = x.ty.size) ∧
      q.to_vec = putAt p.to_vec ((pre.map (·.size)).sum + a) w :=
  putIn_types T (fun h => h.set x v) a w (set_whole T x v a w hx1 hx2 hw ha hb) p pre post hs hpre hwf ha

theorem putAt_behind (l b : Bytes) (k i : Nat) (w : Bytes) (h : l.length = k) : putAt (l ++ b) (k + i) w = l ++ putAt b i w := by
  unfold putAt
  rw [Nat.add_assoc, drop_add_left _ _ _ _ h, List.take_append, h, List.take_of_length_le (by omega), List.append_assoc,
    show k + i - k = i by omega]

theorem putAt_inside (f : Bytes) (k i : Nat) (w : Bytes) (h : k ≤ f.length) : putAt f (k + i) w = f.take k ++ putAt (f.drop k) i w := by
  conv => lhs; rw [← List.take_append_drop k f]
  exact putAt_behind _ _ _ _ _ (by rw [List.length_take]; omega)

/-! ## The datagram -/

/-- Where source or destination stand in the IPv4 header. -/
def addrAt (dst : Bool) : Nat := if dst then 16 else 12

/-- An IPv4 header with another address and a checksum that is right again. -/
theorem ip4Input_moved {b : Bytes} {g : Datagram} (hi : ip4Input b = some g) (dst : Bool) (w c : Bytes) (hw : w.length = 4)
    (hc : c.length = 2) (h0 : (words c).sum ≠ 0)
    (hs : ((words c).sum + (words w).sum) % 65535 = (u16At b 10 + (words ((b.drop (addrAt dst)).take 4)).sum) % 65535) :
    ip4Input (putAt (putAt b (addrAt dst) w) 10 c) = some (g.moved dst w) := by
  have ha : addrAt dst = 12 ∨ addrAt dst = 16 := by cases dst; exact .inl rfl; exact .inr rfl
  unfold ip4Input at hi
  obtain ⟨⟨c1, c2, c3, c4, c5, c6, c7⟩, hi⟩ := Option.ite_none_right_eq_some.mp hi
  cases hi
  have l1 : addrAt dst + w.length ≤ b.length := by omega
  have l2 : 10 + c.length ≤ (putAt b (addrAt dst) w).length := by rw [putAt_length _ _ _ l1]; omega
  have u8 : ∀ j, j < 10 → u8At (putAt (putAt b (addrAt dst) w) 10 c) j = u8At b j := fun j hj => by
    rw [putAt_u8 _ _ _ l2 j (by omega), putAt_u8 _ _ _ l1 j (by omega)]
  have u16 : ∀ j, j < 9 → u16At (putAt (putAt b (addrAt dst) w) 10 c) j = u16At b j := fun j hj => by
    rw [u16At, u16At, u8 j (by omega), u8 (j + 1) (by omega)]
  have hihl : ihl (putAt (putAt b (addrAt dst) w) 10 c) 0 = ihl b 0 := by rw [ihl, u8 0 (by decide), ihl]
  have hver : Verifies ((putAt (putAt b (addrAt dst) w) 10 c).take (ihl b 0)) := by
    have hl : (b.take (ihl b 0)).length = ihl b 0 := by rw [List.length_take]; omega
    have k1 : addrAt dst + w.length ≤ (b.take (ihl b 0)).length := by omega
    have k2 : 10 + c.length ≤ (putAt (b.take (ihl b 0)) (addrAt dst) w).length := by rw [putAt_length _ _ _ k1]; omega
    rw [putAt_take _ _ _ _ l2 (by omega), putAt_take _ _ _ _ l1 (by omega)]
    have s1 := sum_put (b.take (ihl b 0)) (addrAt dst) w (by omega) (by omega) k1
    have s2 := sum_put _ 10 c rfl (by omega) k2
    rw [hc, words_at _ _ (by omega), putAt_u16 _ _ _ k1 10 (by omega), u16At_take _ _ _ (by omega)] at s2
    have s3 := sum_put_ge _ 10 c rfl (by omega) k2
    rw [hw, List.drop_take, List.take_take, Nat.min_eq_left (by omega)] at s1
    obtain ⟨v1, v2⟩ := (verifies_iff _).mp c6
    exact (verifies_iff _).mpr ⟨by omega, by omega⟩
  have hlen : (putAt (putAt b (addrAt dst) w) 10 c).length = b.length := by rw [putAt_length _ _ _ l2, putAt_length _ _ _ l1]
  have hdrop : (putAt (putAt b (addrAt dst) w) 10 c).drop (ihl b 0) = b.drop (ihl b 0) := by
    rw [putAt_drop _ _ _ l2 _ (by omega), putAt_drop _ _ _ l1 _ (by omega)]
  have range : ∀ k, 12 ≤ k → ((putAt (putAt b (addrAt dst) w) 10 c).drop k).take 4 = ((putAt b (addrAt dst) w).drop k).take 4 :=
    fun k hk => putAt_range _ _ _ _ _ l2 (by omega)
  have this := putAt_at b (addrAt dst) w l1
  rw [hw] at this
  unfold ip4Input
  rw [hihl, hlen, u8 0 (by decide), u8 9 (by decide), u16 2 (by decide), u16 6 (by decide),
    if_pos ⟨c1, c2, c3, c4, c5, hver, c7⟩, List.drop_take, List.drop_take, hdrop, range 12 (by decide), range 16 (by decide)]
  cases dst with
  | true =>
    rw [show addrAt true = 16 from rfl] at this l1 ⊢
    rw [this, putAt_range _ _ _ _ _ l1 (by omega)]
    rfl
  | false =>
    rw [show addrAt false = 12 from rfl] at this l1 ⊢
    rw [this, putAt_range _ _ _ _ _ l1 (by omega)]
    rfl

/-- What the client finds and what it puts, by octets: `l` is where the transport header begins, `P` and `C` are the places of
port and checksum in it. -/
theorem translate_frame {chk : Bool} {f : Bytes} {g : Datagram} {p : Packet} (hi : ipInput f = some g) (h4 : g.v6 = false) (ho : NoOptions f)
    (hp : Slow.parse chk f = .ok p) (hg : ∀ g ∈ p.hdrs, g.ty = GRE → greOptCount g.data ≤ 1) {T : HeaderDef} {l : Layer}
    {nx : Bytes → Layer} (hlp : l ≠ .payload) (hl : (if g.v6 then ipv6Next g.proto else ipv4Next g.proto) = l)
    (hstep : ∀ r, dstep l r = one T r (nx r)) (hn : T.name ≠ Ether.name ∧ T.name ≠ Vlan.name ∧ T.name ≠ IPv4.name ∧ T.name ≠ IPv6.name)
    (hsz : T.size ≤ g.data.length) (dst opt : Bool) (port cs : Field) (P C : Nat) (hP : port.lo = 8 * P ∧ port.hi = 8 * P + 15)
    (hC : cs.lo = 8 * C ∧ cs.hi = 8 * C + 15) (hPs : P + 2 ≤ T.size) (hCs : C + 2 ≤ T.size) (a : U32) (n : U16) :
    ∃ q o, translate chk dst T port cs opt a n p = .ok q ∧ o < 2 ^ 32 ∧
      (halves o).sum = (words (if dst then g.dst else g.src)).sum ∧
      ipInput q.to_vec = some { g.moved dst (num32 a.toNat) with
        data := if opt = true ∧ u16At g.data C = 0 then putAt g.data P (num16 n.toNat)
          else putAt (putAt g.data P (num16 n.toNat)) C
            (num16 (adjust (u16At g.data C) (u16At g.data P :: halves o) (n.toNat :: halves a.toNat))) } := by
  obtain ⟨y, hy, pre, post, hs, -, hpre, -⟩ := carries_parsed hi ho hp hg hlp hl hstep hn hsz
  obtain ⟨ip, post', hs', hty⟩ := seen_types hi hp
  obtain ⟨hv, hlen, hip, hsl, hdl⟩ := v6_type hi
  have hwf := frame_sizes hp
  have hvec := C23_roundtrip_frame chk f p hp hg
  have h14 := l3At_ge f
  rw [h4] at hv hip
  simp only [Bool.false_eq_true, if_false] at hip
  rw [if_neg (of_decide_eq_false hv.symm)] at hty
  obtain ⟨L, hL, hLs, hLn⟩ : ∃ L, p.hdrs.map (·.ty) = L ++ IPv4 :: post'.map (·.ty) ∧ (L.map (·.size)).sum = l3At f ∧
      ∀ S ∈ L, S.name ≠ IPv4.name := by
    by_cases c : u16At f 12 = 0x8100
    · refine ⟨[Ether, Vlan], by rw [hs', if_pos c, ← hty]; rfl, by rw [l3At, if_pos c]; rfl, ?_⟩
      intro S hS
      simp only [List.mem_cons, List.not_mem_nil, or_false] at hS
      rcases hS with rfl | rfl <;> decide
    · refine ⟨[Ether], by rw [hs', if_neg c, ← hty]; rfl, by rw [l3At, if_neg c]; rfl, ?_⟩
      intro S hS
      obtain rfl := List.mem_singleton.mp hS
      decide
  have hpl : sizes pre = l3At f + 20 := by
    rw [← sizes_eq (fun x hx => hwf x (by rw [hs.1]; simp [hx])), hpre, List.length_take, hip]; omega
  have hM : p.hdrs.map (·.ty) = pre.map (·.ty) ++ T :: post.map (·.ty) := by rw [hs.1]; simp
  have hMs : ((pre.map (·.ty)).map (·.size)).sum = l3At f + 20 := by rw [← hpl, List.map_map]; rfl
  have hMn : ∀ S ∈ pre.map (·.ty), S.name ≠ T.name := by
    intro S hS
    obtain ⟨x, hx, rfl⟩ := List.mem_map.mp hS
    exact hs.2.2 x hx
  rw [hip] at hy hlen
  have hfl : l3At f + 20 + g.data.length ≤ f.length := by
    have := congrArg List.length hy
    rw [List.length_drop, List.length_append] at this
    omega
  have cont : ∀ i, i + 1 < g.data.length → u16At f (l3At f + 20 + i) = u16At g.data i := by
    intro i h
    rw [contents_at hi ho i h, hip]
  have ha : addrAt dst = 12 ∨ addrAt dst = 16 := by cases dst; exact .inl rfl; exact .inr rfl
  -- what is read
  have hx : (if dst then IPv4.dst else IPv4.src).lo = 8 * addrAt dst ∧ (if dst then IPv4.dst else IPv4.src).hi = 8 * addrAt dst + 31 := by
    cases dst <;> exact ⟨rfl, rfl⟩
  have i20 : IPv4.size = 20 := rfl
  obtain ⟨oa, r1, o1⟩ := readField_types chk IPv4 (if dst then IPv4.dst else IPv4.src) p L _ hL hLn hwf ⟨by omega, by omega⟩
    (by unfold Field.width; omega)
  obtain ⟨hc, r2, o2⟩ := readField_types chk IPv4 IPv4.header_checksum p L _ hL hLn hwf ⟨by decide, by decide⟩ (by decide)
  obtain ⟨on, r3, o3⟩ := readField_types chk T port p _ _ hM hMn hwf ⟨by omega, by omega⟩ (by unfold Field.width; omega)
  obtain ⟨tc, r4, o4⟩ := readField_types chk T cs p _ _ hM hMn hwf ⟨by omega, by omega⟩ (by unfold Field.width; omega)
  rw [hLs, hvec, hx.1, hx.2, read_four _ _ _ (by omega) (by omega)] at o1
  rw [hLs, hvec, show IPv4.header_checksum.lo = 8 * 10 from rfl, show IPv4.header_checksum.hi = 8 * 10 + 15 from rfl,
    read_two _ _ _ (by decide) (by omega)] at o2
  rw [hMs, hvec, hP.1, hP.2, read_two _ _ _ hPs (by omega), cont _ (by omega)] at o3
  rw [hMs, hvec, hC.1, hC.2, read_two _ _ _ hCs (by omega), cont _ (by omega)] at o4
  -- the IPv4 header
  obtain ⟨b, hli, hb, hbi⟩ : ∃ b, linkInput f = some (0x0800, b) ∧ b = f.drop (l3At f) ∧ ip4Input b = some g := by
    unfold ipInput at hi
    split at hi
    rotate_left
    · cases hi
    next et b hli =>
    split at hi
    next he => exact ⟨b, he ▸ hli, (link_seen f b et hli (.inl he)).2.1, hi⟩
    next he =>
      obtain ⟨he6, hi⟩ := Option.ite_none_right_eq_some.mp hi
      unfold ip6Input at hi
      obtain ⟨-, hi⟩ := Option.ite_none_right_eq_some.mp hi
      cases hi
      cases h4
  have hbl : 20 ≤ b.length := by rw [hb, List.length_drop]; omega
  have q : ∀ i, u16At f (l3At f + i) = u16At b i := by intro i; rw [hb, u16At_drop_add]
  rw [Nat.add_assoc, q, q] at o1
  rw [q] at o2
  have owords : (halves oa.toNat).sum = (words ((b.drop (addrAt dst)).take 4)).sum := by rw [words_four _ _ (by omega), o1]
  have haddr : (b.drop (addrAt dst)).take 4 = if dst then g.dst else g.src := by
    unfold ip4Input at hbi
    obtain ⟨-, e⟩ := Option.ite_none_right_eq_some.mp hbi
    cases e
    cases dst <;> rfl
  have olt : oa.toNat < 2 ^ 32 := by
    have := u16At_lt b (addrAt dst)
    have := u16At_lt b (addrAt dst + 2)
    omega
  have hhalf : ∀ k, k < 2 ^ 32 → ∀ x ∈ halves k, x ≤ 65535 := by
    intro k hk x hx
    simp only [halves, List.mem_cons, List.not_mem_nil, or_false] at hx
    omega
  have alt : a.toNat < 2 ^ 32 := a.isLt
  obtain ⟨j1, j2, j3⟩ := adjust_sum hc.toNat (halves oa.toNat) (halves a.toNat) (by have := u16At_lt b 10; omega) (hhalf _ olt)
  obtain ⟨k1, k2, -⟩ := adjust_sum tc.toNat (on.toNat :: halves oa.toNat) (n.toNat :: halves a.toNat)
    (by have := u16At_lt g.data C; omega) (by
      intro x hx
      rcases List.mem_cons.mp hx with rfl | hx
      · have := u16At_lt g.data P; omega
      · exact hhalf _ olt x hx)
  generalize hK1 : adjust hc.toNat (halves oa.toNat) (halves a.toNat) = K1 at j1 j2 j3
  generalize hK2 : adjust tc.toNat (on.toNat :: halves oa.toNat) (n.toNat :: halves a.toNat) = K2 at k1 k2
  have kmod : K1 % 65536 = K1 := Nat.mod_eq_of_lt (by omega)
  have n32 : (num32 a.toNat).length = 4 := rfl
  have n16 : ∀ k, (num16 k).length = 2 := fun _ => rfl
  have b32 : ∀ j, j < 8 * (num32 a.toNat).length → netBit (num32 a.toNat) j = (a.setWidth 64).getLsbD (8 * (num32 a.toNat).length - 1 - j) := by
    intro j hj
    have := netBit_num32 (a.setWidth 64) j (by omega)
    rwa [BitVec.toNat_setWidth_of_le (by decide)] at this
  have b16 : ∀ k, k ≤ 65535 → ∀ j, j < 8 * (num16 k).length →
      netBit (num16 k) j = (BitVec.ofNat 64 k).getLsbD (8 * (num16 k).length - 1 - j) := by
    intro k hk j hj
    have := netBit_num16 (BitVec.ofNat 64 k) j (by rw [n16] at hj; omega)
    rwa [BitVec.toNat_ofNat, Nat.mod_eq_of_lt (by omega)] at this
  have hnw : n.setWidth 64 = BitVec.ofNat 64 n.toNat := by
    apply BitVec.eq_of_toNat_eq
    rw [BitVec.toNat_setWidth_of_le (by decide), BitVec.toNat_ofNat, Nat.mod_eq_of_lt (by have := n.isLt; omega)]
  obtain ⟨q1, e1, t1, w1, v1⟩ := edit_types IPv4 (if dst then IPv4.dst else IPv4.src) (a.setWidth 64) (addrAt dst) (num32 a.toNat) hx.1
    (by omega) (by omega) (by omega) b32 p L _ hL hLn hwf
  obtain ⟨q2, e2, t2, w2, v2⟩ := edit_types IPv4 IPv4.header_checksum (BitVec.ofNat 64 K1) 10 (num16 K1) rfl rfl (by rw [n16]; decide) (by rw [n16]; decide)
    (b16 _ j2) q1 L _ (by rw [t1, hL]) hLn w1
  obtain ⟨q3, e3, t3, w3, v3⟩ := edit_types T port (n.setWidth 64) P (num16 n.toNat) hP.1 (by rw [hP.2, n16]; omega) (by rw [n16]; decide)
    (by rw [n16]; omega) (by rw [hnw]; exact b16 _ (by have := n.isLt; omega)) q2 _ _ (by rw [t2, t1, hM]) hMn w2
  obtain ⟨q4, e4, t4, w4, v4⟩ := edit_types T cs (BitVec.ofNat 64 K2) C (num16 K2) hC.1 (by rw [hC.2, n16]; omega) (by rw [n16]; decide)
    (by rw [n16]; omega) (b16 _ k2) q3 _ _ (by rw [t3, t2, t1, hM]) hMn w3
  rw [hLs, hvec] at v1
  rw [hLs, v1, putAt_inside f _ _ _ (by omega)] at v2
  have ltk : (f.take (l3At f)).length = l3At f := by rw [List.length_take]; omega
  rw [putAt_behind _ _ _ _ _ ltk, ← hb] at v2
  have i2 : ipInput q2.to_vec = some (g.moved dst (num32 a.toNat)) := by
    rw [v2]
    unfold ipInput
    rw [linkInput_front hli]
    simp only [if_true]
    refine ip4Input_moved hbi dst _ _ n32 rfl (by rw [words_num16, kmod]; omega) ?_
    rw [words_num16, kmod, words_halves _ alt, j3, o2, owords]
  -- the shape of the frame
  have m1 : addrAt dst + (num32 a.toNat).length ≤ b.length := by omega
  have m2 : 10 + (num16 K1).length ≤ (putAt b (addrAt dst) (num32 a.toNat)).length := by rw [putAt_length _ _ _ m1, n16]; omega
  have hl2 : q2.to_vec.length = f.length := by
    rw [v2, List.length_append, putAt_length _ _ _ m2, putAt_length _ _ _ m1, ltk, hb, List.length_drop]; omega
  have hf2 : ∀ i, i < l3At f + 10 → u8At q2.to_vec i = u8At f i := by
    intro i h
    rw [v2]
    by_cases c : i < l3At f
    · rw [u8At_append_left _ _ _ (by omega), u8At_take _ _ _ c]
    · obtain ⟨k, rfl⟩ : ∃ k, i = l3At f + k := ⟨i - l3At f, by omega⟩
      rw [← u8At_drop_add, List.drop_left' ltk, putAt_u8 _ _ _ m2 _ (by omega), putAt_u8 _ _ _ m1 _ (by omega), hb, u8At_drop_add]
  obtain ⟨s1, s2, s3⟩ := turn_shape (f := f) q2.to_vec (by rw [u16At, hf2 12 (by omega), hf2 13 (by omega), u16At])
    (by rw [u16At, hf2 _ (by omega), hf2 _ (by omega), u16At]) (hf2 _ (by omega))
  have hdrop : q2.to_vec.drop (l3At f + 20) = g.data ++ y := by
    rw [← hy, v2, ← List.drop_drop, List.drop_left' ltk, putAt_drop _ _ _ m2 _ (by rw [n16]; decide), putAt_drop _ _ _ m1 _ (by omega), hb,
      List.drop_drop]
  have gd : (g.moved dst (num32 a.toNat)).data = g.data := by cases dst <;> rfl
  have fin : ∀ D', D'.length = g.data.length → ipInput (q2.to_vec.take (l3At f + 20) ++ (D' ++ y)) =
      some { g.moved dst (num32 a.toNat) with data := D' } := by
    intro D' hD
    have := ipInput_contents (D' := D') (y := y) i2 (s3 ho) (by rw [s1, s2, hip, gd]; exact hdrop) (by rw [gd]; exact hD)
    rwa [s1, s2, hip] at this
  have lp : P + (num16 n.toNat).length ≤ g.data.length := by rw [n16]; omega
  have lc : C + (num16 K2).length ≤ (putAt g.data P (num16 n.toNat)).length := by rw [putAt_length _ _ _ lp, n16]; omega
  have ltk2 : (q2.to_vec.take (l3At f + 20)).length = l3At f + 20 := by rw [List.length_take]; omega
  rw [hMs, putAt_inside _ _ _ _ (by omega), hdrop, putAt_append _ _ _ _ lp] at v3
  rw [hMs, v3, putAt_behind _ _ _ _ _ ltk2, putAt_append _ _ _ _ lc] at v4
  have tz : (tc == 0) = decide (u16At g.data C = 0) := by
    rw [← o4]
    have : tc == 0 ↔ tc.toNat = 0 := by
      rw [beq_iff_eq, ← BitVec.toNat_inj]; rfl
    exact Bool.eq_iff_iff.mpr (by simpa using this)
  have run : translate chk dst T port cs opt a n p = if opt && tc == 0 then .ok q3 else .ok q4 := by
    simp only [translate, r1, r2, r3, r4, e1, e2, e3, e4, hK1, hK2, bind, Except.bind]
    rfl
  rw [run, tz]
  by_cases c : opt = true ∧ u16At g.data C = 0
  · refine ⟨q3, oa.toNat, by rw [c.1, decide_eq_true c.2]; rfl, olt, by rw [owords, haddr], ?_⟩
    rw [if_pos c, v3]
    exact fin _ (putAt_length _ _ _ lp)
  · refine ⟨q4, oa.toNat, ?_, olt, by rw [owords, haddr], ?_⟩
    · rw [if_neg]
      intro h
      obtain ⟨h1, h2⟩ := Bool.and_eq_true_iff.mp h
      exact c ⟨h1, of_decide_eq_true h2⟩
    · rw [if_neg c, v4, ← o3, ← o4, hK2]
      exact fin _ (by rw [putAt_length _ _ _ lc, putAt_length _ _ _ lp])

/-! ## What the host gets -/

/-- The pseudo header with another address. -/
theorem pseudo_moved {f : Bytes} {g : Datagram} (hi : ipInput f = some g) (h4 : g.v6 = false) (dst : Bool) (w : Bytes) (hw : w.length = 4)
    (n : Nat) (D : Bytes) : (({ g.moved dst w with data := D } : Datagram).pseudo n).length % 2 = 0 ∧
      (words (({ g.moved dst w with data := D } : Datagram).pseudo n)).sum + (words (if dst then g.dst else g.src)).sum =
        (words (g.pseudo n)).sum + (words w).sum := by
  obtain ⟨-, -, -, hs, hd⟩ := v6_type hi
  rw [h4] at hs hd
  simp only [Bool.false_eq_true, if_false] at hs hd
  have hv : ∀ d, (g.moved d w).v6 = false := by intro d; cases d <;> exact h4
  have hp : ∀ d, (g.moved d w).proto = g.proto := by intro d; cases d <;> rfl
  have n16 : (num16 n).length = 2 := rfl
  have tri : ∀ x y : Bytes, x.length = 4 → y.length = 4 → (words (x ++ y ++ [0#8, BitVec.ofNat 8 g.proto] ++ num16 n)).sum =
      (words x).sum + (words y).sum + (words ([0#8, BitVec.ofNat 8 g.proto] ++ num16 n)).sum := by
    intro x y hx hy
    rw [List.append_assoc, List.append_assoc, words_append x _ (by omega), words_append y _ (by omega)]
    simp only [List.sum_append]
    omega
  simp only [Datagram.pseudo, hv, hp, h4, Bool.false_eq_true, if_false]
  cases dst with
  | true =>
    simp only [Datagram.moved, if_true]
    refine ⟨by simp only [List.length_append, n16, hs, hw, List.length_cons, List.length_nil], ?_⟩
    rw [tri _ _ (by omega) (by omega), tri _ _ (by omega) (by omega)]
    omega
  | false =>
    simp only [Datagram.moved, Bool.false_eq_true, if_false]
    refine ⟨by simp only [List.length_append, n16, hd, hw, List.length_cons, List.length_nil], ?_⟩
    rw [tri _ _ (by omega) (by omega), tri _ _ (by omega) (by omega)]
    omega

/-- The checksum over pseudo header and segment `r` is right again. -/
theorem moved_verifies {f : Bytes} {g : Datagram} (hi : ipInput f = some g) (h4 : g.v6 = false) (hpr : g.proto = 17 ∨ g.proto = 6)
    (dst : Bool) (a n P C o len : Nat) (ha : a < 2 ^ 32) (hn : n < 2 ^ 16) (holt : o < 2 ^ 32)
    (ho : (halves o).sum = (words (if dst then g.dst else g.src)).sum) (r D : Bytes)
    (hP : P % 2 = 0) (hC : C % 2 = 0) (hPC : P + 2 ≤ C) (hr : C + 2 ≤ r.length) (hv : Verifies (g.pseudo len ++ r)) :
    Verifies (({ g.moved dst (num32 a) with data := D } : Datagram).pseudo len ++
      putAt (putAt r P (num16 n)) C (num16 (adjust (u16At r C) (u16At r P :: halves o) (n :: halves a)))) := by
  have hhalf : ∀ x ∈ halves o, x ≤ 65535 := by
    intro x hx
    simp only [halves, List.mem_cons, List.not_mem_nil, or_false] at hx
    omega
  obtain ⟨k1, k2, k3⟩ := adjust_sum (u16At r C) (u16At r P :: halves o) (n :: halves a) (by have := u16At_lt r C; omega) (by
      intro x hx
      rcases List.mem_cons.mp hx with rfl | hx
      · have := u16At_lt r P; omega
      · exact hhalf x hx)
  generalize adjust (u16At r C) (u16At r P :: halves o) (n :: halves a) = K at *
  have n16 : ∀ k, (num16 k).length = 2 := fun _ => rfl
  obtain ⟨p1, p2⟩ := pseudo_moved hi h4 dst (num32 a) rfl len D
  obtain ⟨p3, p4⟩ := pseudo_ok hi hpr len
  have l1 : P + (num16 n).length ≤ r.length := by rw [n16]; omega
  have l2 : C + (num16 K).length ≤ (putAt r P (num16 n)).length := by rw [putAt_length _ _ _ l1, n16]; omega
  have s1 := sum_put r P (num16 n) hP (by rw [n16]) l1
  have s2 := sum_put _ C (num16 K) hC (by rw [n16]) l2
  have s3 := sum_put_ge _ C (num16 K) hC (by rw [n16]) l2
  have km : K % 65536 = K := Nat.mod_eq_of_lt (by omega)
  have nm : n % 65536 = n := Nat.mod_eq_of_lt (by omega)
  rw [n16, words_num16, words_at _ _ (by rw [putAt_length _ _ _ l1]; exact hr), km, putAt_u16 _ _ _ l1 _ (by rw [n16]; omega)] at s2
  rw [n16, words_num16, nm, words_at _ _ (by omega)] at s1
  rw [words_num16, km] at s3
  rw [words_halves _ ha] at p2
  obtain ⟨v1, v2⟩ := (verifies_iff _).mp hv
  rw [words_append _ _ p3, List.sum_append] at v1 v2
  simp only [List.sum_cons] at k3
  refine (verifies_iff _).mpr ?_
  rw [words_append _ _ p1, List.sum_append]
  constructor <;> omega

/-- **C103, UDP.** The host gets the message from, or to, the new address and port, with the data as they were. -/
theorem C103_udp {chk : Bool} {f : Bytes} {m : UdpMsg} {p : Packet} (hm : hostUdp f = some m) (h4 : u16At f (l3At f - 2) = 0x0800)
    (ho : NoOptions f) (hp : Slow.parse chk f = .ok p) (hg : ∀ g ∈ p.hdrs, g.ty = GRE → greOptCount g.data ≤ 1)
    (dst : Bool) (a : U32) (n : U16) :
    ∃ q, translate chk dst UDP (if dst then UDP.dst else UDP.src) UDP.checksum true a n p = .ok q ∧
      hostUdp q.to_vec = some (m.moved dst (num32 a.toNat) n.toNat) := by
  obtain ⟨g, hi, hm⟩ := Option.bind_eq_some_iff.mp hm
  have hv6 : g.v6 = false := by rw [(v6_type hi).1, h4]; rfl
  unfold udpInput at hm
  simp only at hm
  obtain ⟨⟨c1, c2, c3, c4⟩, hm⟩ := Option.ite_none_right_eq_some.mp hm
  cases hm
  obtain ⟨P, hP, hPs⟩ : ∃ P, ((if dst then UDP.dst else UDP.src).lo = 8 * P ∧ (if dst then UDP.dst else UDP.src).hi = 8 * P + 15) ∧
      P = if dst then 2 else 0 := by
    cases dst
    · exact ⟨0, ⟨rfl, rfl⟩, rfl⟩
    · exact ⟨2, ⟨rfl, rfl⟩, rfl⟩
  have hP2 : P = 0 ∨ P = 2 := by cases dst; exact .inl hPs; exact .inr hPs
  obtain ⟨q, o, e, o1, o2, h⟩ := translate_frame (T := UDP) (l := .udp) hi hv6 ho hp hg (by decide) (by rw [c1]; split <;> rfl) (fun _ => rfl)
    (by decide) (by show 8 ≤ g.data.length; omega) dst true (if dst then UDP.dst else UDP.src) UDP.checksum P 6 hP ⟨rfl, rfl⟩
    (by show P + 2 ≤ 8; omega) (by decide) a n
  refine ⟨q, e, ?_⟩
  rw [hostUdp, h, Option.bind_some]
  have pr : (g.moved dst (num32 a.toNat)).proto = 17 := by cases dst <;> exact c1
  have v6 : (g.moved dst (num32 a.toNat)).v6 = false := by cases dst <;> exact hv6
  have n16 : ∀ k, (num16 k).length = 2 := fun _ => rfl
  have nm : n.toNat % 65536 = n.toNat := Nat.mod_eq_of_lt n.isLt
  have l1 : P + (num16 n.toNat).length ≤ g.data.length := by rw [n16]; omega
  have d1 : ∀ j, 4 ≤ j → u16At (putAt g.data P (num16 n.toNat)) j = u16At g.data j := fun j hj =>
    putAt_u16 _ _ _ l1 _ (by rw [n16]; omega)
  have dP := putAt_num16 g.data P n.toNat (by omega)
  have drop1 : (putAt g.data P (num16 n.toNat)).drop 8 = g.data.drop 8 := putAt_drop _ _ _ l1 _ (by rw [n16]; omega)
  by_cases z : u16At g.data 6 = 0
  · rw [if_pos ⟨rfl, z⟩]
    unfold udpInput
    simp only
    rw [d1 4 (by decide), d1 6 (by decide), putAt_length _ _ _ l1, if_pos ⟨pr, c2, c3, .inl ⟨z, v6⟩⟩, List.drop_take, drop1, List.drop_take]
    rcases hP2 with rfl | rfl
    · cases dst
      · rw [dP, nm, putAt_u16 _ _ _ l1 2 (by rw [n16]; omega)]; rfl
      · cases hPs
    · cases dst
      · cases hPs
      · rw [dP, nm, putAt_u16 _ _ _ l1 0 (by omega)]; rfl
  · rw [if_neg (fun h => z h.2)]
    obtain ⟨-, hv⟩ := c4.resolve_left (fun h => z h.1)
    have tl : (g.data.take (u16At g.data 4)).length = u16At g.data 4 := by rw [List.length_take]; omega
    have hver := fun D => moved_verifies hi hv6 (.inl c1) dst a.toNat n.toNat P 6 o _ a.isLt n.isLt o1 o2 _ D (by omega) rfl (by omega)
      (by rw [tl]; exact c2) hv
    rw [u16At_take _ _ _ (by omega), u16At_take _ _ _ (by omega)] at hver
    obtain ⟨k1, k2, -⟩ := adjust_sum (u16At g.data 6) (u16At g.data P :: halves o) (n.toNat :: halves a.toNat)
      (by have := u16At_lt g.data 6; omega) (by
        intro x hx
        rcases List.mem_cons.mp hx with rfl | hx
        · have := u16At_lt g.data P; omega
        · simp only [halves, List.mem_cons, List.not_mem_nil, or_false] at hx
          omega)
    generalize adjust (u16At g.data 6) (u16At g.data P :: halves o) (n.toNat :: halves a.toNat) = K at *
    have l2 : 6 + (num16 K).length ≤ (putAt g.data P (num16 n.toNat)).length := by rw [putAt_length _ _ _ l1, n16]; omega
    have d6 := putAt_num16 (putAt g.data P (num16 n.toNat)) 6 K (by rw [putAt_length _ _ _ l1]; omega)
    have dj : ∀ j, j ≤ 4 → u16At (putAt (putAt g.data P (num16 n.toNat)) 6 (num16 K)) j = u16At (putAt g.data P (num16 n.toNat)) j :=
      fun j hj => putAt_u16 _ _ _ l2 _ (by omega)
    unfold udpInput
    simp only
    rw [dj 4 (by decide), dj 0 (by decide), dj 2 (by decide), d6, d1 4 (by decide), putAt_length _ _ _ l2, putAt_length _ _ _ l1,
      putAt_take _ _ _ _ l2 (by rw [n16]; omega), putAt_take _ _ _ _ l1 (by rw [n16]; omega),
      if_pos ⟨pr, c2, c3, .inr ⟨by omega, hver _⟩⟩, putAt_drop _ _ _ (by rw [putAt_length _ _ _ (by rw [tl, n16]; omega), tl, n16]; omega) _ (by rw [n16]),
      putAt_drop _ _ _ (by rw [tl, n16]; omega) _ (by rw [n16]; omega)]
    rcases hP2 with rfl | rfl
    · cases dst
      · rw [dP, nm, putAt_u16 _ _ _ l1 2 (by rw [n16]; omega)]; rfl
      · cases hPs
    · cases dst
      · cases hPs
      · rw [dP, nm, putAt_u16 _ _ _ l1 0 (by omega)]; rfl

/-- **C103, TCP.** The same for a segment, with all its numbers. -/
theorem C103_tcp {chk : Bool} {f : Bytes} {m : TcpSeg} {p : Packet} (hm : hostTcp f = some m) (h4 : u16At f (l3At f - 2) = 0x0800)
    (ho : NoOptions f) (hp : Slow.parse chk f = .ok p) (dst : Bool) (a : U32) (n : U16) :
    ∃ q, translate chk dst TCP (if dst then TCP.dst else TCP.src) TCP.checksum false a n p = .ok q ∧
      hostTcp q.to_vec = some (m.moved dst (num32 a.toNat) n.toNat) := by
  obtain ⟨g, hi, hm⟩ := Option.bind_eq_some_iff.mp hm
  have hv6 : g.v6 = false := by rw [(v6_type hi).1, h4]; rfl
  unfold tcpInput at hm
  simp only at hm
  obtain ⟨⟨c1, c2, c3, c4⟩, hm⟩ := Option.ite_none_right_eq_some.mp hm
  cases hm
  obtain ⟨P, hP, hPs⟩ : ∃ P, ((if dst then TCP.dst else TCP.src).lo = 8 * P ∧ (if dst then TCP.dst else TCP.src).hi = 8 * P + 15) ∧
      P = if dst then 2 else 0 := by
    cases dst
    · exact ⟨0, ⟨rfl, rfl⟩, rfl⟩
    · exact ⟨2, ⟨rfl, rfl⟩, rfl⟩
  have hP2 : P = 0 ∨ P = 2 := by cases dst; exact .inl hPs; exact .inr hPs
  have hl : (if g.v6 then ipv6Next g.proto else ipv4Next g.proto) = .tcp := by rw [c1]; split <;> rfl
  have hsz : TCP.size ≤ g.data.length := by show 20 ≤ g.data.length; omega
  obtain ⟨q, o, e, o1, o2, h⟩ := translate_frame (T := TCP) hi hv6 ho hp
    (no_gre hi ho hp (T := TCP) (by decide) hl (fun _ => rfl) hsz (by decide)) (by decide) hl (fun _ => rfl)
    (by decide) hsz dst false (if dst then TCP.dst else TCP.src) TCP.checksum P 16 hP ⟨rfl, rfl⟩
    (by show P + 2 ≤ 20; omega) (by decide) a n
  refine ⟨q, e, ?_⟩
  rw [hostTcp, h, Option.bind_some]
  have pr : (g.moved dst (num32 a.toNat)).proto = 6 := by cases dst <;> exact c1
  have n16 : ∀ k, (num16 k).length = 2 := fun _ => rfl
  have nm : n.toNat % 65536 = n.toNat := Nat.mod_eq_of_lt n.isLt
  have l1 : P + (num16 n.toNat).length ≤ g.data.length := by rw [n16]; omega
  have dP := putAt_num16 g.data P n.toNat (by omega)
  rw [if_neg (fun h => by cases h.1)]
  have hver := fun D => moved_verifies hi hv6 (.inr c1) dst a.toNat n.toNat P 16 o _ a.isLt n.isLt o1 o2 _ D (by omega) rfl (by omega)
    (by omega) c4
  generalize adjust (u16At g.data 16) (u16At g.data P :: halves o) (n.toNat :: halves a.toNat) = K at *
  have l2 : 16 + (num16 K).length ≤ (putAt g.data P (num16 n.toNat)).length := by rw [putAt_length _ _ _ l1, n16]; omega
  have d8 : ∀ j, 4 ≤ j → j < 16 ∨ 18 ≤ j → u8At (putAt (putAt g.data P (num16 n.toNat)) 16 (num16 K)) j = u8At g.data j := fun j hj hk => by
    rw [putAt_u8 _ _ _ l2 _ (by rw [n16]; omega), putAt_u8 _ _ _ l1 _ (by rw [n16]; omega)]
  have d16 : ∀ j, 4 ≤ j → j < 15 ∨ 18 ≤ j → u16At (putAt (putAt g.data P (num16 n.toNat)) 16 (num16 K)) j = u16At g.data j := fun j hj hk => by
    rw [u16At, u16At, d8 j hj (by omega), d8 (j + 1) (by omega) (by omega)]
  have dj : ∀ j, j ≤ 4 → u16At (putAt (putAt g.data P (num16 n.toNat)) 16 (num16 K)) j = u16At (putAt g.data P (num16 n.toNat)) j :=
    fun j hj => putAt_u16 _ _ _ l2 _ (by omega)
  unfold tcpInput
  simp only
  rw [dj 0 (by decide), dj 2 (by decide), d8 12 (by decide) (by decide), d8 13 (by decide) (by decide), d16 4 (by decide) (by decide),
    d16 6 (by decide) (by decide), d16 8 (by decide) (by decide), d16 10 (by decide) (by decide), d16 14 (by decide) (by decide),
    d16 18 (by decide) (by decide), putAt_length _ _ _ l2, putAt_length _ _ _ l1, if_pos ⟨pr, c2, c3, hver _⟩,
    putAt_drop _ _ _ l2 _ (by rw [n16]; omega), putAt_drop _ _ _ l1 _ (by rw [n16]; omega)]
  rcases hP2 with rfl | rfl
  · cases dst
    · rw [dP, nm, putAt_u16 _ _ _ l1 2 (by rw [n16]; omega)]; rfl
    · cases hPs
  · cases dst
    · cases hPs
    · rw [dP, nm, putAt_u16 _ _ _ l1 0 (by omega)]; rfl

/-! ## Answering an echo request -/

/-- A ping responder: addresses exchanged, another type, and the checksum updated for it. -/
def echoReply (chk v6 : Bool) (t : Byte) (p : Packet) : R Packet := do
  let ot ← readField chk ICMP ICMP.icmp_type p
  let code ← readField chk ICMP ICMP.icmp_code p
  let c ← readField chk ICMP ICMP.chksum p
  let p ← turnAddrs chk v6 p
  let p ← editField ICMP ICMP.name ICMP.icmp_type (t.setWidth 64) p
  editField ICMP ICMP.name ICMP.chksum
    (BitVec.ofNat 64 (adjust c.toNat [256 * ot.toNat + code.toNat] [256 * t.toNat + code.toNat])) p

/-- One octet in front of another is a word. -/
theorem put_first (d : Bytes) (x : Byte) (h : 2 ≤ d.length) : putAt d 0 [x] = putAt d 0 (num16 (256 * x.toNat + u8At d 1)) := by
  match d, h with
  | a :: b :: r, _ =>
    have e1 : BitVec.ofNat 8 ((256 * x.toNat + u8At (a :: b :: r) 1) / 256) = x := by
      have : u8At (a :: b :: r) 1 < 256 := by simp [u8At]; omega
      rw [show (256 * x.toNat + u8At (a :: b :: r) 1) / 256 = x.toNat by omega]
      simp
    have e2 : BitVec.ofNat 8 (256 * x.toNat + u8At (a :: b :: r) 1) = b := by
      apply BitVec.eq_of_toNat_eq
      have : u8At (a :: b :: r) 1 = b.toNat := by simp [u8At]
      rw [BitVec.toNat_ofNat, this]
      omega
    unfold num16
    rw [e1, e2]
    rfl

/-- The answer to an echo request, by octets and as a host takes it. -/
theorem echo_frame {chk : Bool} {f : Bytes} {g : Datagram} {m : IcmpMsg} {p : Packet} (hi : ipInput f = some g) (hu : icmpInput g = some m)
    (ho : NoOptions f) (hp : Slow.parse chk f = .ok p) (t : Byte) :
    ∃ q, echoReply chk (decide (u16At f (l3At f - 2) = 0x86DD)) t p = .ok q ∧
      hostIcmp q.to_vec = some { m with src := m.dst, dst := m.src, type := t.toNat } ∧ q.to_vec.length = f.length ∧
      q.to_vec.take (l3At f + ipLen f) =
        (swapAt (swapAt f 0 6) (l3At f + if g.v6 then 8 else 12) (if g.v6 then 16 else 4)).take (l3At f + ipLen f) := by
  obtain ⟨hlong, -, -, hpr⟩ := icmpInput_fields hu
  have hl : (if g.v6 then ipv6Next g.proto else ipv4Next g.proto) = .icmp := by
    rcases hpr with ⟨q1, q2⟩ | ⟨q1, q2⟩ <;> rw [q1, q2] <;> rfl
  have hsz : ICMP.size ≤ g.data.length := hlong
  have hg := no_gre (T := ICMP) (l := .icmp) hi ho hp (by decide) hl (fun _ => rfl) hlong (by decide)
  obtain ⟨y, hy, pre, post, hs, -, hpre, -⟩ := carries_parsed hi ho hp hg (T := ICMP) (by decide) hl (fun _ => rfl) (by decide) hsz
  obtain ⟨q1, e1, t1, w1, v1, i1⟩ := turnAddrs_frame hi hp hg
  obtain ⟨hv, hlen, hip, -, -⟩ := v6_type hi
  have hwf := frame_sizes hp
  have hvec := C23_roundtrip_frame chk f p hp hg
  have h14 := l3At_ge f
  have hpl : sizes pre = l3At f + ipLen f := by
    rw [← sizes_eq (fun x hx => hwf x (by rw [hs.1]; simp [hx])), hpre, List.length_take]; omega
  have hM : p.hdrs.map (·.ty) = pre.map (·.ty) ++ ICMP :: post.map (·.ty) := by rw [hs.1]; simp
  have hMs : ((pre.map (·.ty)).map (·.size)).sum = l3At f + ipLen f := by rw [← hpl, List.map_map]; rfl
  have hMn : ∀ S ∈ pre.map (·.ty), S.name ≠ ICMP.name := by
    intro S hS
    obtain ⟨x, hx, rfl⟩ := List.mem_map.mp hS
    exact hs.2.2 x hx
  -- what is read
  obtain ⟨ot, r1, o1⟩ := readField_types chk ICMP ICMP.icmp_type p _ _ hM hMn hwf ⟨by decide, by decide⟩ (by decide)
  obtain ⟨code, r2, o2⟩ := readField_types chk ICMP ICMP.icmp_code p _ _ hM hMn hwf ⟨by decide, by decide⟩ (by decide)
  obtain ⟨c, r3, o3⟩ := readField_types chk ICMP ICMP.chksum p _ _ hM hMn hwf ⟨by decide, by decide⟩ (by decide)
  have htl : ((g.data ++ y).take ICMP.size).length = 4 := by
    rw [List.length_take, List.length_append]
    have : ICMP.size = 4 := rfl
    omega
  have u8 : ∀ i, i < 4 → u8At ((g.data ++ y).take ICMP.size) i = u8At g.data i := fun i hi => by
    rw [u8At_take _ ICMP.size _ hi, u8At_append_left _ _ _ (by omega)]
  rw [hMs, hvec, hy] at o1 o2 o3
  have o1 : ot.toNat = u8At g.data 0 := by rw [o1, ← u8 0 (by decide)]; exact fieldVal_u8 _ 0 (by omega)
  have o2 : code.toNat = u8At g.data 1 := by rw [o2, ← u8 1 (by decide)]; exact fieldVal_u8 _ 1 (by omega)
  have o3 : c.toNat = u16At g.data 2 := by
    rw [o3, u16At, ← u8 2 (by decide), ← u8 3 (by decide)]; exact fieldVal_u16 _ 2 (by omega)
  have w0 : 256 * ot.toNat + code.toNat = u16At g.data 0 := by rw [o1, o2, u16At]
  -- what is put
  obtain ⟨k1, k2, k3⟩ := adjust_sum c.toNat [256 * ot.toNat + code.toNat] [256 * t.toNat + code.toNat]
    (by have := u16At_lt g.data 2; omega) (by
      intro x hx
      obtain rfl := List.mem_singleton.mp hx
      have := u16At_lt g.data 0; omega)
  generalize hK : adjust c.toNat [256 * ot.toNat + code.toNat] [256 * t.toNat + code.toNat] = K at k1 k2 k3
  have n16 : ∀ k, (num16 k).length = 2 := fun _ => rfl
  obtain ⟨q2, e2, t2, w2, v2⟩ := edit_types ICMP ICMP.icmp_type (t.setWidth 64) 0 [t] rfl rfl Nat.one_pos (show 0 + 1 ≤ 4 by decide) (by
      intro j hj
      have := netBit_num8 (t.setWidth 64) j hj
      rwa [BitVec.toNat_setWidth_of_le (by decide), BitVec.ofNat_toNat, BitVec.setWidth_eq] at this) q1 _ _ (by rw [t1, hM]) hMn w1
  obtain ⟨q3, e3, t3, w3, v3⟩ := edit_types ICMP ICMP.chksum (BitVec.ofNat 64 K) 2 (num16 K) rfl (by rw [n16]; rfl) (by rw [n16]; decide)
    (by rw [n16]; decide) (by
      intro j hj
      have := netBit_num16 (BitVec.ofNat 64 K) j (by rw [n16] at hj; omega)
      rwa [BitVec.toNat_ofNat, Nat.mod_eq_of_lt (by omega)] at this) q2 _ _ (by rw [t2, t1, hM]) hMn w2
  -- the shape of the frame after the addresses are exchanged
  obtain ⟨a1, a2, a3, a4⟩ := link_back hi
  have hl1 : (swapAt f 0 6).length = f.length := swapAt_length _ _ _ (by omega)
  have hle : l3At f + (if g.v6 then 8 else 12) + 2 * (if g.v6 then 16 else 4) ≤ (swapAt f 0 6).length := by
    rw [hl1]; rw [hip] at hlen; split at hlen <;> simp_all
  have hend : l3At f + (if g.v6 then 8 else 12) + 2 * (if g.v6 then 16 else 4) = l3At f + ipLen f := by
    rw [hip]; split <;> rfl
  have h8 : 8 ≤ if g.v6 then 8 else 12 := by split <;> decide
  obtain ⟨s1, s2, s3⟩ := turn_shape (f := swapAt f 0 6) q1.to_vec (by rw [v1]; exact swapAt_u16 _ _ _ hle _ (by omega))
    (by rw [v1, a2]; exact swapAt_u16 _ _ _ hle _ (by omega)) (by rw [v1, a2]; exact swapAt_u8 _ _ _ hle _ (by omega))
  have hlq : q1.to_vec.length = f.length := by rw [v1, swapAt_length _ _ _ hle, hl1]
  have hdrop : q1.to_vec.drop (l3At f + ipLen f) = g.data ++ y := by
    rw [v1, swapAt_drop _ _ _ hle _ (by omega), swapAt_drop _ _ _ (by omega) _ (by omega), hy]
  have m1 : 0 + [t].length ≤ g.data.length := by show 0 + 1 ≤ _; omega
  have m2 : 2 + (num16 K).length ≤ (putAt g.data 0 [t]).length := by rw [putAt_length _ _ _ m1, n16]; omega
  have ltk : (q1.to_vec.take (l3At f + ipLen f)).length = l3At f + ipLen f := by rw [List.length_take]; omega
  rw [hMs, putAt_inside _ _ _ _ (by omega), hdrop, putAt_append _ _ _ _ m1] at v2
  rw [hMs, v2, putAt_behind _ _ _ _ _ ltk, putAt_append _ _ _ _ m2] at v3
  have hc := ipInput_contents (D' := putAt (putAt g.data 0 [t]) 2 (num16 K)) (y := y) i1 (s3 (a4 ho))
    (by rw [s1, s2, a2, a3]; exact hdrop) (by rw [putAt_length _ _ _ m2, putAt_length _ _ _ m1]; rfl)
  rw [s1, s2, a2, a3, ← v3] at hc
  rw [hv] at e1
  refine ⟨q3, ?_, ?_, ?_, ?_⟩
  · simp only [echoReply, r1, r2, r3, e1, e2, hK, bind, Except.bind]
    exact e3
  rotate_left
  · have := congrArg List.length hdrop
    rw [List.length_drop, List.length_append] at this
    rw [v3, List.length_append, List.length_append, putAt_length _ _ _ m2, putAt_length _ _ _ m1, ltk]
    omega
  · rw [v3, List.take_left' ltk, v1]
  -- the message
  obtain ⟨hs2, hd2⟩ := even_addrs hi
  have hsum : (words (putAt (putAt g.data 0 [t]) 2 (num16 K))).sum % 65535 = (words g.data).sum % 65535 ∧
      0 < (words (putAt (putAt g.data 0 [t]) 2 (num16 K))).sum := by
    have f1 := put_first g.data t (by omega)
    rw [← o2] at f1
    rw [f1] at m2 ⊢
    have hN : 256 * t.toNat + code.toNat < 65536 := by
      have := t.isLt
      have : u8At g.data 1 < 256 := by unfold u8At; omega
      omega
    simp only [List.sum_cons, List.sum_nil, Nat.add_zero, w0] at k3
    clear f1
    generalize 256 * t.toNat + code.toNat = N at *
    have m1 : 0 + (num16 N).length ≤ g.data.length := by rw [n16]; omega
    have z1 := sum_put g.data 0 (num16 N) rfl (by rw [n16]) m1
    have z2 := sum_put _ 2 (num16 K) rfl (by rw [n16]) m2
    have z3 := sum_put_ge _ 2 (num16 K) rfl (by rw [n16]) m2
    have km : K % 65536 = K := Nat.mod_eq_of_lt (by omega)
    have nm : N % 65536 = N := Nat.mod_eq_of_lt hN
    rw [n16, words_num16, words_at _ _ (by rw [putAt_length _ _ _ m1]; omega), km, putAt_u16 _ _ _ m1 _ (by rw [n16]; omega)] at z2
    rw [n16, words_num16, nm, words_at _ _ (by omega)] at z1
    rw [words_num16, km] at z3
    constructor <;> omega
  unfold icmpInput at hu
  obtain ⟨⟨c1, c2⟩, hu⟩ := Option.ite_none_right_eq_some.mp hu
  cases hu
  rw [hostIcmp, hc, Option.bind_some]
  have ver : ∀ P P' : Bytes, P.length % 2 = 0 → P'.length % 2 = 0 → (words P').sum = (words P).sum → Verifies (P ++ g.data) →
      Verifies (P' ++ putAt (putAt g.data 0 [t]) 2 (num16 K)) := by
    intro P P' h1 h2 he hv
    rw [verifies_iff, words_append _ _ h1, List.sum_append] at hv
    rw [verifies_iff, words_append _ _ h2, List.sum_append]
    omega
  have hps : ∀ n D, ({ g.back with data := D } : Datagram).pseudo n = g.back.pseudo n := fun _ _ => rfl
  have hpl2 : ∀ n, (g.pseudo n).length % 2 = 0 ∧ (g.back.pseudo n).length % 2 = 0 := by
    intro n
    unfold Datagram.pseudo Datagram.back
    simp only
    split <;> simp only [List.length_append, num32, n16, List.length_cons, List.length_nil] <;> omega
  have hpsum : ∀ n, (words (g.back.pseudo n)).sum = (words (g.pseudo n)).sum := by
    intro n
    have tail : ∀ t : Bytes, (words (g.dst ++ (g.src ++ t))).sum = (words (g.src ++ (g.dst ++ t))).sum := by
      intro t
      rw [words_append _ _ hd2, words_append _ _ hs2, words_append _ _ hs2, words_append _ _ hd2]
      simp only [List.sum_append]
      omega
    unfold Datagram.pseudo Datagram.back
    simp only
    split
    · simpa only [List.append_assoc] using tail (num32 n ++ [0#8, 0#8, 0#8, BitVec.ofNat 8 g.proto])
    · simpa only [List.append_assoc] using tail ([0#8, BitVec.ofNat 8 g.proto] ++ num16 n)
  unfold icmpInput
  simp only
  have u80 : u8At (putAt (putAt g.data 0 [t]) 2 (num16 K)) 0 = t.toNat := by
    rw [putAt_u8 _ _ _ m2 _ (by omega)]
    rfl
  have u81 : u8At (putAt (putAt g.data 0 [t]) 2 (num16 K)) 1 = u8At g.data 1 := by
    rw [putAt_u8 _ _ _ m2 _ (by omega), putAt_u8 _ _ _ m1 _ (by right; show 0 + 1 ≤ 1; decide)]
  rw [u80, u81, putAt_length _ _ _ m2, putAt_length _ _ _ m1, putAt_drop _ _ _ m2 _ (by rw [n16]),
    putAt_drop _ _ _ m1 _ (by show 0 + 1 ≤ 4; decide), hps,
    if_pos ⟨c1, c2.imp (fun c => ⟨c.1, c.2.1, ver _ _ (hpl2 _).1 (hpl2 _).2 (hpsum _) c.2.2⟩)
      (fun c => ⟨c.1, c.2.1, by simpa using ver [] [] rfl rfl rfl (by simpa using c.2.2)⟩)⟩]
  rfl

/-- **C103, ping.** The host that asked gets its message back with the other type. -/
theorem C103_echo {chk : Bool} {f : Bytes} {m : IcmpMsg} {p : Packet} (hm : hostIcmp f = some m) (ho : NoOptions f)
    (hp : Slow.parse chk f = .ok p) (t : Byte) :
    ∃ q, echoReply chk (decide (u16At f (l3At f - 2) = 0x86DD)) t p = .ok q ∧
      hostIcmp q.to_vec = some { m with src := m.dst, dst := m.src, type := t.toNat } := by
  obtain ⟨g, hi, hu⟩ := Option.bind_eq_some_iff.mp hm
  obtain ⟨q, e, h, -⟩ := echo_frame hi hu ho hp t
  exact ⟨q, e, h⟩

/-! ## Frames -/

/-- A query over UDP leaves under another source; without a checksum it does so too, and still has none; a segment is sent on to
another server. -/
example :
    let f : Bytes := [0, 17, 34, 51, 68, 85, 0, 6, 7, 8, 9, 10, 8, 0, 69, 0, 0, 30, 18, 52, 0, 0, 64, 17, 157, 240, 10, 0, 0, 1, 192, 168, 0, 2,
      4, 210, 0, 53, 0, 10, 133, 108, 170, 187]
    let t := (Sample.get (create_tcp_packet true Sample.mac1 Sample.mac2 true 10 3 5 Sample.ip1 Sample.ip2 1 64 0x1234
      0 [] 0 1234 7 9 5 0 2 512 16307 true Sample.data)).to_vec
    hostUdp f = some ⟨[10, 0, 0, 1], [192, 168, 0, 2], 1234, 53, [170, 187]⟩ ∧ ihl f 14 = 20 ∧ u16At f (l3At f - 2) = 0x0800 ∧
      (Slow.parse true f >>= translate true false UDP UDP.src UDP.checksum true 0xC6336407 40000).map (fun q => hostUdp q.to_vec) =
        .ok (some ⟨[198, 51, 100, 7], [192, 168, 0, 2], 40000, 53, [170, 187]⟩) ∧
      (let z := putAt f 40 [0, 0]
       hostUdp z = hostUdp f ∧
        (Slow.parse true z >>= translate true false UDP UDP.src UDP.checksum true 0xC6336407 40000).map
            (fun q => (hostUdp q.to_vec, u16At q.to_vec 40)) =
          .ok (some ⟨[198, 51, 100, 7], [192, 168, 0, 2], 40000, 53, [170, 187]⟩, 0)) ∧
      (hostTcp t).isSome ∧ u16At t (l3At t - 2) = 0x0800 ∧ ihl t 18 = 20 ∧
      (Slow.parse true t >>= translate true true TCP TCP.dst TCP.checksum false 0x0A010203 8080).map (fun q => hostTcp q.to_vec) =
        .ok ((hostTcp t).map fun m => { m with dst := [10, 1, 2, 3], dport := 8080 }) := by
  decide +kernel

/-- Pings over IPv4 and IPv6.  In the second everything behind the code is zero: equation 3 alone would answer with zeros only,
which no host takes. -/
example :
    let e : Bytes := [0, 17, 34, 51, 68, 85, 0, 6, 7, 8, 9, 10, 8, 0]
    let h : Bytes := [69, 0, 0, 32, 18, 52, 0, 0, 64, 1, 157, 254, 10, 0, 0, 1, 192, 168, 0, 2]
    let f := e ++ h ++ [8, 0, 76, 63, 0, 1, 0, 2, 170, 187, 1, 2]
    let z := e ++ h ++ [8, 0, 247, 255, 0, 0, 0, 0, 0, 0, 0, 0]
    let s : Bytes := [0, 17, 34, 51, 68, 85, 0, 6, 7, 8, 9, 10, 134, 221, 96, 0, 0, 0, 0, 8, 58, 64, 32, 1, 0, 0, 0, 0, 0, 0, 0, 0, 0, 0, 0, 0,
      0, 1, 32, 1, 0, 0, 0, 0, 0, 0, 0, 0, 0, 0, 0, 0, 0, 2, 128, 0, 63, 181, 0, 1, 0, 2]
    hostIcmp f = some ⟨[10, 0, 0, 1], [192, 168, 0, 2], 8, 0, [0, 1, 0, 2, 170, 187, 1, 2]⟩ ∧
      (Slow.parse true f >>= echoReply true false 0).map (fun q => hostIcmp q.to_vec) =
        .ok (some ⟨[192, 168, 0, 2], [10, 0, 0, 1], 0, 0, [0, 1, 0, 2, 170, 187, 1, 2]⟩) ∧
      (Slow.parse true z >>= echoReply true false 0).map (fun q => (hostIcmp q.to_vec, u16At q.to_vec 36)) =
        .ok (some ⟨[192, 168, 0, 2], [10, 0, 0, 1], 0, 0, [0, 0, 0, 0, 0, 0, 0, 0]⟩, 0xffff) ∧
      hostIcmp (e ++ (h.take 12 ++ h.drop 16 ++ (h.drop 12).take 4) ++ List.replicate 12 0) = none ∧
      (hostIcmp s).isSome ∧
      (Slow.parse true s >>= echoReply true true 129).map (fun q => hostIcmp q.to_vec) =
        .ok ((hostIcmp s).map fun m => { m with src := m.dst, dst := m.src, type := 129 }) := by
  decide +kernel

end PacketRs
