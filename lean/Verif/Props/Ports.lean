import Verif.Props.Forward
/-!
# Property C100: editing the ports and the payload of a received frame

A client parses a frame, sets a port with `pkt["UDP"].set_dst(..)` or appends to the payload with `set_payload`, and sends the
result.  What the host behind it gets.
-/
namespace PacketRs
open Spec Utils

/-- The client: `let x: &mut T = (&mut pkt[name]).into(); x.set_<f>(v);` -/
def editField (T : HeaderDef) (name : String) (f : Field) (v : U64) (p : Packet) : R Packet :=
  p.withHeaderMut T name fun x => x.set f v

/-- A datagram whose contents are replaced by as many others. -/
theorem ipInput_contents {f D' y : Bytes} {g : Datagram} (hi : ipInput f = some g) (ho : NoOptions f)
    (hf : f.drop (l3At f + ipLen f) = g.data ++ y) (hl : D'.length = g.data.length) :
    ipInput (f.take (l3At f + ipLen f) ++ (D' ++ y)) = some { g with data := D' } := by
  unfold ipInput at hi
  split at hi
  rotate_left
  · cases hi
  next et b hli =>
  split at hi
  next he =>
    obtain ⟨e1, e2, e3, -⟩ := link_seen f b et hli (.inl he)
    have hip : ipLen f = 20 := by rw [ipLen, ← e1, if_pos he]
    have h20 : ihl b 0 = 20 := by rw [e2, ihl, u8At_drop_add, Nat.add_zero]; exact ho (e1 ▸ he)
    rw [hip] at hf ⊢
    rw [List.take_add, List.append_assoc, ← e2]
    rw [← List.drop_drop, ← e2] at hf
    unfold ipInput
    rw [linkInput_front hli]
    simp only [he, if_true]
    unfold ip4Input at hi ⊢
    split at hi
    rotate_left
    · cases hi
    next hc =>
    obtain ⟨c1, c2, c3, c4, c5, c6, c7⟩ := hc
    cases hi
    have hbl : (b.take 20).length = 20 := by rw [List.length_take]; omega
    have hu : ∀ i, i < 20 → u8At (b.take 20 ++ (D' ++ y)) i = u8At b i := by
      intro i hi
      rw [u8At_append_left _ _ _ (by omega), u8At_take _ _ _ hi]
    have hu2 : ∀ i, i + 1 < 20 → u16At (b.take 20 ++ (D' ++ y)) i = u16At b i := by
      intro i hi
      rw [u16At, u16At, hu i (by omega), hu (i + 1) hi]
    have hihl : ihl (b.take 20 ++ (D' ++ y)) 0 = 20 := by rw [ihl, hu 0 (by decide)]; exact h20
    have hlen : (b.take 20 ++ (D' ++ y)).length = b.length := by
      have := congrArg List.length hf
      simp only [List.length_append, List.length_drop] at this ⊢
      rw [h20] at this hl
      simp only [List.length_drop] at hl
      omega
    have hlen' : D'.length = u16At b 2 - 20 := by
      rw [h20] at hl
      simp only [List.length_drop, List.length_take] at hl
      omega
    rw [h20] at c3 c4 c6
    rw [hu 0 (by decide), hu 9 (by decide), hu2 2 (by decide), hu2 6 (by decide), hihl, hlen, List.take_left' hbl,
      if_pos ⟨c1, c2, c3, c4, c5, c6, c7⟩]
    have q : ∀ n, n + 4 ≤ 20 → ((b.take 20 ++ (D' ++ y)).drop n).take 4 = (b.drop n).take 4 := by
      intro n hn
      rw [List.drop_append_of_le_length (by omega), List.take_append_of_le_length (by rw [List.length_drop]; omega),
        List.drop_take, List.take_take, Nat.min_eq_left (by omega)]
    rw [q 12 (by decide), q 16 (by decide)]
    congr 2
    rw [List.drop_take, List.drop_left' hbl, List.take_left' hlen']
  next he =>
    split at hi
    rotate_left
    · cases hi
    next he6 =>
    obtain ⟨e1, e2, e3, -⟩ := link_seen f b et hli (.inr he6)
    have hip : ipLen f = 40 := by rw [ipLen, ← e1, if_neg he]
    rw [hip] at hf ⊢
    rw [List.take_add, List.append_assoc, ← e2]
    unfold ipInput
    rw [linkInput_front hli]
    simp only [if_neg he, if_pos he6]
    unfold ip6Input at hi ⊢
    split at hi
    rotate_left
    · cases hi
    next hc =>
    obtain ⟨c1, c2, c3⟩ := hc
    cases hi
    have hbl : (b.take 40).length = 40 := by rw [List.length_take]; omega
    have hu : ∀ i, i < 40 → u8At (b.take 40 ++ (D' ++ y)) i = u8At b i := by
      intro i hi
      rw [u8At_append_left _ _ _ (by omega), u8At_take _ _ _ hi]
    have hu2 : ∀ i, i + 1 < 40 → u16At (b.take 40 ++ (D' ++ y)) i = u16At b i := by
      intro i hi
      rw [u16At, u16At, hu i (by omega), hu (i + 1) hi]
    have hlen' : D'.length = u16At b 4 := by
      simp only [List.length_drop, List.length_take] at hl
      omega
    rw [hu 0 (by decide), hu 6 (by decide), hu2 4 (by decide),
      if_pos ⟨by rw [List.length_append, hbl]; omega, c2, by simp only [List.length_append, hbl]; omega⟩]
    have q : ∀ n, n + 16 ≤ 40 → ((b.take 40 ++ (D' ++ y)).drop n).take 16 = (b.drop n).take 16 := by
      intro n hn
      rw [List.drop_append_of_le_length (by omega), List.take_append_of_le_length (by rw [List.length_drop]; omega),
        List.drop_take, List.take_take, Nat.min_eq_left (by omega)]
    rw [q 8 (by decide), q 24 (by decide)]
    congr 2
    rw [List.drop_left' hbl, List.take_left' hlen']

theorem putAt_take (b : Bytes) (a : Nat) (w : Bytes) (n : Nat) (h : a + w.length ≤ b.length) (hn : a + w.length ≤ n) :
    (putAt b a w).take n = putAt (b.take n) a w := by
  have hl : (b.take a).length = a := by rw [List.length_take]; omega
  unfold putAt
  rw [List.take_take, Nat.min_eq_left (by omega), List.take_append, List.take_of_length_le (l := b.take a) (by omega), hl,
    List.take_append, List.take_of_length_le (l := w) (by omega), List.drop_take]
  congr 3; omega

theorem putAt_append (b y : Bytes) (a : Nat) (w : Bytes) (h : a + w.length ≤ b.length) : putAt (b ++ y) a w = putAt b a w ++ y := by
  unfold putAt
  rw [List.take_append_of_le_length (by omega), List.drop_append_of_le_length h]
  simp only [List.append_assoc]

/-- A packet whose headers up to the IP header are those of the frame, and behind them stand the contents `D` of a datagram, first
of all the header `T`. -/
def Carries (f : Bytes) (T : HeaderDef) (y : Bytes) (D : Bytes) (p : Packet) : Prop :=
  ∃ pre post, IsFirstNamed p.hdrs T.name pre ⟨T, (D ++ y).take T.size⟩ post ∧ T.size ≤ D.length ∧
    (pre.map (·.data)).flatten = f.take (l3At f + ipLen f) ∧ (post.map (·.data)).flatten ++ p.payload = (D ++ y).drop T.size

/-- A parsed frame. -/
theorem carries_parsed {chk : Bool} {f : Bytes} {g : Datagram} {p : Packet} (hi : ipInput f = some g) (ho : NoOptions f)
    (hp : Slow.parse chk f = .ok p) (hg : ∀ g ∈ p.hdrs, g.ty = GRE → greOptCount g.data ≤ 1) {T : HeaderDef} {l : Layer}
    {nx : Bytes → Layer} (hlp : l ≠ .payload) (hl : (if g.v6 then ipv6Next g.proto else ipv4Next g.proto) = l)
    (hstep : ∀ r, dstep l r = one T r (nx r)) (hn : T.name ≠ Ether.name ∧ T.name ≠ Vlan.name ∧ T.name ≠ IPv4.name ∧ T.name ≠ IPv6.name)
    (hsz : T.size ≤ g.data.length) : ∃ y, f.drop (l3At f + ipLen f) = g.data ++ y ∧ Carries f T y g.data p := by
  obtain ⟨front, ip, o, y, hf, hip, hlen, hx, hs, hd, hparse⟩ := datagram_seen f g hi
  obtain rfl := hx.mpr ho
  rw [List.nil_append] at hd hparse
  have hpq := hparse chk
  rw [hp, hl, parse_one _ hlp (hstep _) (by rw [List.length_append]; omega), map_prep] at hpq
  generalize hq : Slow.parseL chk (nx (g.data ++ y)) ((g.data ++ y).drop T.size) = r at hpq
  cases r with
  | error e => cases hpq
  | ok r =>
    have hpq := Except.ok.inj hpq
    have hfn : IsFirstNamed p.hdrs T.name (front ++ [ip]) ⟨T, (g.data ++ y).take T.size⟩ r.hdrs := by
      refine ⟨by rw [hpq]; simp [prep], rfl, fun h hh => ?_⟩
      rcases List.mem_append.mp hh with hh | hh
      · rcases hf h hh with e | e <;> simp only [Hdr.name, e]
        · exact hn.1.symm
        · exact hn.2.1.symm
      · obtain rfl := List.mem_singleton.mp hh
        rcases hip with ⟨e, -⟩ | ⟨e, -⟩ <;> simp only [Hdr.name, e]
        · exact hn.2.2.1.symm
        · exact hn.2.2.2.symm
    obtain ⟨w1, -, w3⟩ := wire_take_drop hp hg hfn.1
    rw [show sizes (front ++ [ip]) = l3At f + ipLen f from hs] at w1 w3
    refine ⟨y, hd, _, _, hfn, hsz, w1, ?_⟩
    rw [w3, ← List.drop_drop, hd]

/-- Behind TCP and ICMP comes payload, so no GRE header. -/
theorem no_gre {chk : Bool} {f : Bytes} {g : Datagram} {p : Packet} (hi : ipInput f = some g) (ho : NoOptions f)
    (hp : Slow.parse chk f = .ok p) {T : HeaderDef} {l : Layer} (hlp : l ≠ .payload)
    (hl : (if g.v6 then ipv6Next g.proto else ipv4Next g.proto) = l) (hstep : ∀ r, dstep l r = one T r .payload)
    (hsz : T.size ≤ g.data.length) (hT : T.name ≠ GRE.name) : ∀ g ∈ p.hdrs, g.ty = GRE → greOptCount g.data ≤ 1 := by
  obtain ⟨front, ip, o, y, hf, hip, hlen, hx, hs, hd, hparse⟩ := datagram_seen f g hi
  obtain rfl := hx.mpr ho
  have hpq := hparse chk
  rw [hp, hl, List.nil_append, parse_one _ hlp (hstep _) (by rw [List.length_append]; omega), map_prep] at hpq
  have hpq := Except.ok.inj hpq
  intro h hh e
  have e := congrArg HeaderDef.name e
  rw [hpq] at hh
  simp only [prep, Slow.accept, Packet.set_payload, Packet.new, List.append_assoc, List.mem_append, List.mem_singleton,
    List.not_mem_nil, or_false] at hh
  exfalso
  rcases hh with hh | rfl | rfl
  · rcases hf h hh with e' | e' <;> rw [e'] at e <;> revert e <;> decide
  · rcases hip with ⟨e', -⟩ | ⟨e', -⟩ <;> rw [e'] at e <;> revert e <;> decide
  · exact hT e

/-- Setting whole octets. -/
theorem Carries.edit {f y D : Bytes} {T : HeaderDef} {p : Packet} (h : Carries f T y D p) (x : Field) (v : U64) (a : Nat) (w : Bytes)
    (hx1 : x.lo = 8 * a) (hx2 : x.hi + 1 = 8 * (a + w.length)) (hw : 0 < w.length) (ha : a + w.length ≤ T.size)
    (hb : ∀ j, j < 8 * w.length → netBit w j = v.getLsbD (8 * w.length - 1 - j)) :
    ∃ q, editField T T.name x v p = .ok q ∧ Carries f T y (putAt D a w) q := by
  obtain ⟨pre, post, hs, hsz, w1, w3⟩ := h
  have hl : ((D ++ y).take T.size).length = T.size := by rw [List.length_take, List.length_append]; omega
  obtain ⟨g', e, ht, hl', hbits⟩ := set_bits ⟨T, (D ++ y).take T.size⟩ x v ⟨by omega, by simp only [hl]; omega⟩
  simp only at hl' hbits ht
  have hd : g'.data = (putAt D a w ++ y).take T.size := by
    rw [← putAt_append _ _ _ _ (by omega), putAt_take _ _ _ _ (by rw [List.length_append]; omega) ha]
    generalize (D ++ y).take T.size = t at *
    have hta : (t.take a).length = a := by rw [List.length_take]; omega
    symm
    apply eq_of_netBit
    · rw [putAt_length _ _ _ (by omega), hl']
    · rw [putAt_length _ _ _ (by omega)]
      intro i hi
      rw [hbits i]
      unfold putAt
      by_cases c1 : i < 8 * a
      · rw [netBit_append_left _ _ _ (by omega), netBit_take, if_neg (by omega), decide_eq_true c1, Bool.true_and]
      · rw [netBit_append_right _ _ _ (by omega), hta]
        by_cases c2 : i < 8 * (a + w.length)
        · rw [netBit_append_left _ _ _ (by omega), hb _ (by omega), if_pos (by omega)]
          congr 1; omega
        · rw [netBit_append_right _ _ _ (by omega), netBit_drop, if_neg (by omega)]
          congr 1; omega
  refine ⟨⟨pre ++ g' :: post, p.payload⟩, ?_, pre, post, ⟨?_, rfl, hs.2.2⟩, ?_, w1, ?_⟩
  · simp only [editField, Packet.withHeaderMut, modifyFirst_of_first hs, if_true, e, Except.map]
    rfl
  · rw [← hd, ← ht]
  · rw [putAt_length _ _ _ (by omega)]; exact hsz
  · rw [w3, ← putAt_append _ _ _ _ (by omega), putAt_drop _ _ _ (by rw [List.length_append]; omega) _ ha]

/-- What the host gets. -/
theorem Carries.input {f y D : Bytes} {g : Datagram} {T : HeaderDef} {p : Packet} (h : Carries f T y D p) (hi : ipInput f = some g)
    (ho : NoOptions f) (hf : f.drop (l3At f + ipLen f) = g.data ++ y) (hl : D.length = g.data.length) :
    ipInput p.to_vec = some { g with data := D } := by
  obtain ⟨pre, post, hs, hsz, w1, w3⟩ := h
  obtain ⟨hd, pl⟩ := p
  obtain rfl := hs.1
  rw [wire_split, w1, w3, List.take_append_drop]
  exact ipInput_contents hi ho hf hl

/-- Whole octets of the transport header of a datagram edited. -/
theorem edit_contents {chk : Bool} {f : Bytes} {g : Datagram} {p : Packet} (hi : ipInput f = some g) (ho : NoOptions f)
    (hp : Slow.parse chk f = .ok p) (hg : ∀ g ∈ p.hdrs, g.ty = GRE → greOptCount g.data ≤ 1) {T : HeaderDef} {l : Layer}
    {nx : Bytes → Layer} (hlp : l ≠ .payload) (hl : (if g.v6 then ipv6Next g.proto else ipv4Next g.proto) = l)
    (hstep : ∀ r, dstep l r = one T r (nx r)) (hn : T.name ≠ Ether.name ∧ T.name ≠ Vlan.name ∧ T.name ≠ IPv4.name ∧ T.name ≠ IPv6.name)
    (hsz : T.size ≤ g.data.length) (x : Field) (v : U64) (a : Nat) (w : Bytes)
    (hx1 : x.lo = 8 * a) (hx2 : x.hi + 1 = 8 * (a + w.length)) (hw : 0 < w.length) (ha : a + w.length ≤ T.size)
    (hb : ∀ j, j < 8 * w.length → netBit w j = v.getLsbD (8 * w.length - 1 - j)) :
    ∃ q, editField T T.name x v p = .ok q ∧ ipInput q.to_vec = some { g with data := putAt g.data a w } := by
  obtain ⟨y, hy, h⟩ := carries_parsed hi ho hp hg hlp hl hstep hn hsz
  obtain ⟨q, e, h⟩ := h.edit x v a w hx1 hx2 hw ha hb
  exact ⟨q, e, h.input hi ho hy (putAt_length _ _ _ (by omega))⟩

theorem putAt_split (d : Bytes) (a k : Nat) (h : a + k ≤ d.length) : d = putAt d a ((d.drop a).take k) := by
  unfold putAt
  have : ((d.drop a).take k).length = k := by rw [List.length_take, List.length_drop]; omega
  rw [this, ← List.drop_drop, List.take_append_drop, List.take_append_drop]

/-- Words replaced in a verified string. -/
theorem verifies_put (P d : Bytes) (a : Nat) (w : Bytes) (hP : P.length % 2 = 0) (hz : (words P).sum ≠ 0) (ha : a % 2 = 0)
    (hw : w.length % 2 = 0) (h : a + w.length ≤ d.length) (hv : Verifies (P ++ d)) :
    Verifies (P ++ putAt d a w) ↔ SameSum w ((d.drop a).take w.length) := by
  have hl : (d.take a).length = a := by rw [List.length_take]; omega
  have hk : ((d.drop a).take w.length).length = w.length := by rw [List.length_take, List.length_drop]; omega
  rw [putAt_split d a w.length h, verifies_iff, words_append _ _ hP, putAt, words_append _ _ (by omega), words_append _ _ (by omega),
    hk] at hv
  rw [verifies_iff, words_append _ _ hP, putAt, words_append _ _ (by omega), words_append _ _ (by omega), SameSum]
  simp only [List.sum_append] at hv ⊢
  omega

theorem pseudo_ok {f : Bytes} {g : Datagram} (hi : ipInput f = some g) (hp : g.proto = 17 ∨ g.proto = 6) (n : Nat) :
    (g.pseudo n).length % 2 = 0 ∧ (words (g.pseudo n)).sum ≠ 0 := by
  unfold ipInput at hi
  split at hi
  rotate_left
  · cases hi
  split at hi
  · unfold ip4Input at hi
    obtain ⟨c, h⟩ := Option.ite_none_right_eq_some.mp hi
    cases h
    simp only [Datagram.pseudo] at hp ⊢
    have h1 := c.1
    constructor
    · simp [num16]; omega
    · rw [if_neg (by simp), List.append_assoc, words_append _ _ (by simp; omega), List.sum_append]
      have := pseudo_tail _ hp (num16 n)
      omega
  · split at hi
    · unfold ip6Input at hi
      obtain ⟨c, h⟩ := Option.ite_none_right_eq_some.mp hi
      cases h
      simp only [Datagram.pseudo] at hp ⊢
      have h1 := c.1
      constructor
      · simp [num32, num16]; omega
      · rw [if_pos trivial, words_append _ _ (by simp [num32, num16]; omega), List.sum_append]
        rcases hp with h | h <;> rw [h] <;> simp [words]
    · cases hi

theorem words_num16 (k : Nat) : (words (num16 k)).sum = k % 65536 := by
  simp only [num16, words, BitVec.toNat_ofNat, List.sum_cons, List.sum_nil]
  omega

theorem words_at (d : Bytes) (a : Nat) (h : a + 2 ≤ d.length) : (words ((d.drop a).take 2)).sum = u16At d a := by
  obtain ⟨x, y, r, e⟩ : ∃ x y r, d.drop a = x :: y :: r := by
    match e : d.drop a with
    | [] => have := congrArg List.length e; simp at this; omega
    | [_] => have := congrArg List.length e; simp at this; omega
    | x :: y :: r => exact ⟨x, y, r, rfl⟩
  have := u16At_drop_add d a 0
  rw [Nat.add_zero, e] at this
  rw [← this, e]
  simp [words, u16At, u8At, Nat.mul_comm]

theorem num16_same (v : Nat) (d : Bytes) (a : Nat) (h : a + 2 ≤ d.length) :
    SameSum (num16 v) ((d.drop a).take 2) ↔ v % 65536 % 65535 = u16At d a % 65535 := by
  rw [SameSum, words_num16, words_at _ _ h]

theorem putAt_u16 (b : Bytes) (a : Nat) (w : Bytes) (h : a + w.length ≤ b.length) (i : Nat) (hi : i + 1 < a ∨ a + w.length ≤ i) :
    u16At (putAt b a w) i = u16At b i := by
  rw [u16At, u16At, putAt_u8 b a w h i (by omega), putAt_u8 b a w h (i + 1) (by omega)]

theorem putAt_num16 (b : Bytes) (a v : Nat) (h : a + 2 ≤ b.length) : u16At (putAt b a (num16 v)) a = v % 65536 := by
  have := words_at (putAt b a (num16 v)) a (by rw [putAt_length _ _ _ (by exact h)]; exact h)
  rw [← this, show 2 = (num16 v).length from rfl, putAt_at _ _ _ (by exact h), words_num16]

theorem netBit_num16 (v : U64) (j : Nat) (h : j < 16) : netBit (num16 v.toNat) j = v.getLsbD (15 - j) := by
  have := netBit_num32 v (16 + j) (by omega)
  rw [num32, netBit_append_right _ _ _ (by simp [num16])] at this
  rw [show 31 - (16 + j) = 15 - j by omega] at this
  rw [← this]
  congr 1
  simp [num16]

theorem netBit_num8 (v : U64) (j : Nat) (h : j < 8) : netBit [BitVec.ofNat 8 v.toNat] j = v.getLsbD (7 - j) := by
  rw [netBit_cons, if_pos h, BitVec.getMsbD, BitVec.getLsbD_ofNat, decide_eq_true h, decide_eq_true (show 8 - 1 - j < 8 by omega)]
  rfl

/-- UDP input when an even place before the length is replaced. -/
theorem udpInput_put {f : Bytes} {g : Datagram} {m : UdpMsg} (hi : ipInput f = some g) (hm : udpInput g = some m) (a : Nat) (w : Bytes)
    (ha : a % 2 = 0) (hw : w.length % 2 = 0) (h4 : a + w.length ≤ 4) :
    udpInput { g with data := putAt g.data a w } =
      if u16At g.data 6 = 0 ∨ SameSum w ((g.data.drop a).take w.length) then
        some { m with sport := u16At (putAt g.data a w) 0, dport := u16At (putAt g.data a w) 2 } else none := by
  unfold udpInput at hm ⊢
  simp only at hm ⊢
  obtain ⟨⟨c1, c2, c3, c4⟩, h⟩ := Option.ite_none_right_eq_some.mp hm
  cases h
  have hle : a + w.length ≤ g.data.length := by omega
  rw [putAt_u16 _ _ _ hle 4 (.inr h4), putAt_u16 _ _ _ hle 6 (.inr (by omega)), putAt_length _ _ _ hle,
    putAt_take _ _ _ _ hle (by omega), putAt_drop _ _ _ (by rw [List.length_take]; omega) 8 (by omega)]
  obtain ⟨p1, p2⟩ := pseudo_ok hi (.inl c1) (u16At g.data 4)
  have hps : ({ g with data := putAt g.data a w } : Datagram).pseudo (u16At g.data 4) = g.pseudo (u16At g.data 4) := rfl
  rw [hps]
  have he : ((g.data.take (u16At g.data 4)).drop a).take w.length = (g.data.drop a).take w.length := by
    rw [List.drop_take, List.take_take, Nat.min_eq_left (by omega)]
  have key : ∀ hv : Verifies (g.pseudo (u16At g.data 4) ++ g.data.take (u16At g.data 4)), _ := fun hv =>
    verifies_put _ (g.data.take (u16At g.data 4)) a w p1 p2 ha hw (by rw [List.length_take]; omega) hv
  rw [he] at key
  by_cases z : u16At g.data 6 = 0
  · have hv6 : g.v6 = false := by rcases c4 with c | c; exact c.2; exact absurd z c.1
    rw [if_pos ⟨c1, c2, c3, .inl ⟨z, hv6⟩⟩, if_pos (.inl z)]
  · have hv : Verifies (g.pseudo (u16At g.data 4) ++ g.data.take (u16At g.data 4)) := by
      rcases c4 with c | c
      · exact absurd c.1 z
      · exact c.2
    by_cases ss : SameSum w ((g.data.drop a).take w.length)
    · rw [if_pos ⟨c1, c2, c3, .inr ⟨z, (key hv).mpr ss⟩⟩, if_pos (.inr ss)]
    · rw [if_neg (by
        rintro ⟨-, -, -, c | c⟩
        · exact z c.1
        · exact ss ((key hv).mp c.2)), if_neg (by rintro (c | c); exact z c; exact ss c)]

/-- Where the transport header begins. -/
theorem contents_at {f : Bytes} {g : Datagram} (hi : ipInput f = some g) (ho : NoOptions f) (i : Nat) (h : i + 1 < g.data.length) :
    u16At g.data i = u16At f (l3At f + ipLen f + i) := by
  obtain ⟨front, ip, o, y, -, -, -, hx, -, hd, -⟩ := datagram_seen f g hi
  obtain rfl := hx.mpr ho
  rw [← u16At_drop_add, hd, List.nil_append, u16At_append_left _ _ _ h]

theorem num16_length (k : Nat) : (num16 k).length = 2 := rfl

theorem num32_length (k : Nat) : (num32 k).length = 4 := rfl

/-- What UDP, TCP and ICMP input say of a datagram. -/
theorem udpInput_fields {g : Datagram} {m : UdpMsg} (h : udpInput g = some m) :
    g.proto = 17 ∧ 8 ≤ g.data.length ∧ m.sport = u16At g.data 0 ∧ m.dport = u16At g.data 2 := by
  have h' := udp_long h
  unfold udpInput at h
  obtain ⟨c, h⟩ := Option.ite_none_right_eq_some.mp h
  cases h
  exact ⟨c.1, h', rfl, rfl⟩

theorem edit_udp {chk : Bool} {f : Bytes} {g : Datagram} {m : UdpMsg} {p : Packet} (hi : ipInput f = some g) (hu : udpInput g = some m)
    (ho : NoOptions f) (hp : Slow.parse chk f = .ok p) (hg : ∀ g ∈ p.hdrs, g.ty = GRE → greOptCount g.data ≤ 1) (v : U64) (x : Field)
    (a : Nat) (hx1 : x.lo = 8 * a) (hx2 : x.hi + 1 = 8 * (a + 2)) (ha : a % 2 = 0) (h4 : a + 2 ≤ 4) :
    ∃ q, editField UDP "UDP" x v p = .ok q ∧ hostUdp q.to_vec =
      if u16At f (l3At f + ipLen f + 6) = 0 ∨ v.toNat % 65536 % 65535 = u16At g.data a % 65535 then
        some { m with sport := u16At (putAt g.data a (num16 v.toNat)) 0, dport := u16At (putAt g.data a (num16 v.toNat)) 2 }
        else none := by
  obtain ⟨hpr, hlong, -, -⟩ := udpInput_fields hu
  have h2 := num16_length v.toNat
  have h8 : UDP.size = 8 := rfl
  obtain ⟨q, e, h⟩ := edit_contents (T := UDP) (l := .udp) hi ho hp hg (nx := fun r => if u16At r 2 = 4789 then .vxlan else .payload)
    (by decide) (by rw [hpr]; split <;> rfl) (fun _ => rfl) (by decide) hlong x v a (num16 v.toNat) hx1 hx2
    (by omega) (by omega) (fun j hj => netBit_num16 v j hj)
  refine ⟨q, e, ?_⟩
  rw [hostUdp, h, Option.bind_some, udpInput_put hi hu a _ ha (by omega) (by omega), ← contents_at hi ho 6 (by omega)]
  simp only [h2, num16_same v.toNat g.data a (by omega)]

/-- **C100, UDP source port.** A UDP message with another source port.  The host behind takes it iff the message carries no checksum
or the new port counts like the old one (the same, or 0 and 65535), and then gets it with the new port and otherwise as before. -/
theorem C100_udp_source {chk : Bool} {f : Bytes} {m : UdpMsg} {p : Packet} (hm : hostUdp f = some m) (ho : NoOptions f)
    (hp : Slow.parse chk f = .ok p) (hg : ∀ g ∈ p.hdrs, g.ty = GRE → greOptCount g.data ≤ 1) (v : U64) :
    ∃ q, editField UDP "UDP" UDP.src v p = .ok q ∧ hostUdp q.to_vec =
      if u16At f (l3At f + ipLen f + 6) = 0 ∨ v.toNat % 65536 % 65535 = m.sport % 65535 then
        some { m with sport := v.toNat % 65536 } else none := by
  obtain ⟨g, hi, hu⟩ := Option.bind_eq_some_iff.mp hm
  obtain ⟨-, hlong, e0, e2⟩ := udpInput_fields hu
  have h2 := num16_length v.toNat
  obtain ⟨q, e, h⟩ := edit_udp hi hu ho hp hg v UDP.src 0 rfl rfl rfl (by decide)
  refine ⟨q, e, ?_⟩
  rw [h, putAt_num16 _ _ _ (by omega), putAt_u16 _ _ _ (by omega) 2 (by omega), ← e0, ← e2]

/-- **C100, UDP destination port.** Likewise. -/
theorem C100_udp_destination {chk : Bool} {f : Bytes} {m : UdpMsg} {p : Packet} (hm : hostUdp f = some m) (ho : NoOptions f)
    (hp : Slow.parse chk f = .ok p) (hg : ∀ g ∈ p.hdrs, g.ty = GRE → greOptCount g.data ≤ 1) (v : U64) :
    ∃ q, editField UDP "UDP" UDP.dst v p = .ok q ∧ hostUdp q.to_vec =
      if u16At f (l3At f + ipLen f + 6) = 0 ∨ v.toNat % 65536 % 65535 = m.dport % 65535 then
        some { m with dport := v.toNat % 65536 } else none := by
  obtain ⟨g, hi, hu⟩ := Option.bind_eq_some_iff.mp hm
  obtain ⟨-, hlong, e0, e2⟩ := udpInput_fields hu
  have h2 := num16_length v.toNat
  obtain ⟨q, e, h⟩ := edit_udp hi hu ho hp hg v UDP.dst 2 rfl rfl rfl (by decide)
  refine ⟨q, e, ?_⟩
  rw [h, putAt_num16 _ _ _ (by omega), putAt_u16 _ _ _ (by omega) 0 (by omega), ← e0, ← e2]

/-- The client that rewrites both ports and drops the checksum first. -/
def rewritePorts (s d : U64) (p : Packet) : R Packet := do
  let p ← editField UDP "UDP" UDP.checksum 0 p
  let p ← editField UDP "UDP" UDP.src s p
  editField UDP "UDP" UDP.dst d p

/-- **C100, without the checksum.** Rewriting the ports of a UDP message with its checksum set to zero works for every two ports over
IPv4, and for none over IPv6. -/
theorem C100_udp_clear {chk : Bool} {f : Bytes} {m : UdpMsg} {p : Packet} (hm : hostUdp f = some m) (ho : NoOptions f)
    (hp : Slow.parse chk f = .ok p) (hg : ∀ g ∈ p.hdrs, g.ty = GRE → greOptCount g.data ≤ 1) (s d : U64) :
    ∃ q, rewritePorts s d p = .ok q ∧ hostUdp q.to_vec =
      if m.src.length = 4 then some { m with sport := s.toNat % 65536, dport := d.toNat % 65536 } else none := by
  obtain ⟨g, hi, hu⟩ := Option.bind_eq_some_iff.mp hm
  obtain ⟨hpr, hlong, -, -⟩ := udpInput_fields hu
  have h8 : UDP.size = 8 := rfl
  have l0 := num16_length (0 : U64).toNat
  have l1 := num16_length s.toNat
  have l2 := num16_length d.toNat
  obtain ⟨y, hy, h⟩ := carries_parsed (T := UDP) (l := .udp) (nx := fun r => if u16At r 2 = 4789 then .vxlan else .payload) hi ho hp hg
    (by decide) (by rw [hpr]; split <;> rfl) (fun _ => rfl) (by decide) hlong
  obtain ⟨q0, e0, h⟩ := h.edit UDP.checksum 0 6 (num16 (0 : U64).toNat) rfl rfl (by omega) (by omega) (fun j hj => netBit_num16 0 j hj)
  obtain ⟨q1, e1, h⟩ := h.edit UDP.src s 0 (num16 s.toNat) rfl rfl (by omega) (by omega) (fun j hj => netBit_num16 s j hj)
  obtain ⟨q2, e2, h⟩ := h.edit UDP.dst d 2 (num16 d.toNat) rfl rfl (by omega) (by omega) (fun j hj => netBit_num16 d j hj)
  have k0 : (putAt g.data 6 (num16 (0 : U64).toNat)).length = g.data.length := putAt_length _ _ _ (by omega)
  have k1 : (putAt (putAt g.data 6 (num16 (0 : U64).toNat)) 0 (num16 s.toNat)).length = g.data.length := by
    rw [putAt_length _ _ _ (by omega), k0]
  have h := h.input hi ho hy (by rw [putAt_length _ _ _ (by omega), k1])
  refine ⟨q2, ?_, ?_⟩
  · rw [rewritePorts, show editField UDP "UDP" UDP.checksum 0 p = _ from e0]
    simp only [bind, Except.bind]
    rw [show editField UDP "UDP" UDP.src s q0 = _ from e1]
    exact e2
  · have hv : m.src.length = 4 ↔ g.v6 = false := by
      have hs : m.src = g.src := by
        unfold udpInput at hu
        cases (Option.ite_none_right_eq_some.mp hu).2
        rfl
      rw [hs]
      unfold ipInput at hi
      split at hi
      rotate_left
      · cases hi
      split at hi
      · unfold ip4Input at hi
        obtain ⟨c, h⟩ := Option.ite_none_right_eq_some.mp hi
        cases h
        simp; omega
      · split at hi
        · unfold ip6Input at hi
          obtain ⟨c, h⟩ := Option.ite_none_right_eq_some.mp hi
          cases h
          simp; omega
        · cases hi
    rw [hostUdp, h, Option.bind_some]
    unfold udpInput at hu ⊢
    simp only at hu ⊢
    obtain ⟨⟨c1, c2, c3, -⟩, hu⟩ := Option.ite_none_right_eq_some.mp hu
    cases hu
    have u6 : u16At (putAt (putAt (putAt g.data 6 (num16 (0 : U64).toNat)) 0 (num16 s.toNat)) 2 (num16 d.toNat)) 6 = 0 := by
      rw [putAt_u16 _ _ _ (by omega) 6 (by omega), putAt_u16 _ _ _ (by omega) 6 (by omega), putAt_num16 _ _ _ (by omega)]
      rfl
    have u4 : u16At (putAt (putAt (putAt g.data 6 (num16 (0 : U64).toNat)) 0 (num16 s.toNat)) 2 (num16 d.toNat)) 4 = u16At g.data 4 := by
      rw [putAt_u16 _ _ _ (by omega) 4 (by omega), putAt_u16 _ _ _ (by omega) 4 (by omega), putAt_u16 _ _ _ (by omega) 4 (by omega)]
    have u0 : u16At (putAt (putAt (putAt g.data 6 (num16 (0 : U64).toNat)) 0 (num16 s.toNat)) 2 (num16 d.toNat)) 0 = s.toNat % 65536 := by
      rw [putAt_u16 _ _ _ (by omega) 0 (by omega), putAt_num16 _ _ _ (by omega)]
    have u2 : u16At (putAt (putAt (putAt g.data 6 (num16 (0 : U64).toNat)) 0 (num16 s.toNat)) 2 (num16 d.toNat)) 2 = d.toNat % 65536 :=
      putAt_num16 _ _ _ (by omega)
    have dd : ((putAt (putAt (putAt g.data 6 (num16 (0 : U64).toNat)) 0 (num16 s.toNat)) 2 (num16 d.toNat)).take (u16At g.data 4)).drop 8 =
        (g.data.take (u16At g.data 4)).drop 8 := by
      rw [List.drop_take, List.drop_take, putAt_drop _ _ _ (by omega) 8 (by omega), putAt_drop _ _ _ (by omega) 8 (by omega),
        putAt_drop _ _ _ (by omega) 8 (by omega)]
    rw [u6, u4, u0, u2, dd, putAt_length _ _ _ (by omega), k1]
    by_cases c : g.v6 = false
    · rw [if_pos ⟨c1, c2, c3, .inl ⟨rfl, c⟩⟩, if_pos (hv.mpr c)]
    · rw [if_neg (by
        rintro ⟨-, -, -, ⟨-, c'⟩ | ⟨c', -⟩⟩
        · exact c c'
        · exact c' rfl), if_neg (fun c' => c (hv.mp c'))]

/-- TCP input when an even place other than that of the data offset is replaced. -/
theorem tcpInput_put {f : Bytes} {g : Datagram} {m : TcpSeg} (hi : ipInput f = some g) (hm : tcpInput g = some m) (a : Nat) (w : Bytes)
    (ha : a % 2 = 0) (hw : w.length % 2 = 0) (h20 : a + w.length ≤ 20) (hu : u8At (putAt g.data a w) 12 = u8At g.data 12) :
    tcpInput { g with data := putAt g.data a w } =
      if SameSum w ((g.data.drop a).take w.length) then
        let d := putAt g.data a w
        some ⟨m.src, m.dst, u16At d 0, u16At d 2, 65536 * u16At d 4 + u16At d 6, 65536 * u16At d 8 + u16At d 10, u8At d 13, u16At d 14,
          u16At d 18, m.data⟩ else none := by
  unfold tcpInput at hm ⊢
  simp only at hm ⊢
  obtain ⟨⟨c1, c2, c3, c4⟩, h⟩ := Option.ite_none_right_eq_some.mp hm
  cases h
  have hle : a + w.length ≤ g.data.length := by omega
  rw [hu, putAt_length _ _ _ hle, putAt_drop _ _ _ hle _ (by omega)]
  obtain ⟨p1, p2⟩ := pseudo_ok hi (.inr c1) g.data.length
  have hps : ({ g with data := putAt g.data a w } : Datagram).pseudo g.data.length = g.pseudo g.data.length := rfl
  rw [hps]
  have key := verifies_put _ g.data a w p1 p2 ha hw hle c4
  by_cases ss : SameSum w ((g.data.drop a).take w.length)
  · rw [if_pos ⟨c1, c2, c3, key.mpr ss⟩, if_pos ss]
  · rw [if_neg (fun c => ss (key.mp c.2.2.2)), if_neg ss]

theorem tcpInput_fields {g : Datagram} {m : TcpSeg} (h : tcpInput g = some m) :
    g.proto = 6 ∧ 20 ≤ g.data.length ∧ m.sport = u16At g.data 0 ∧ m.dport = u16At g.data 2 ∧
      m.seq = 65536 * u16At g.data 4 + u16At g.data 6 ∧ m.ack = 65536 * u16At g.data 8 + u16At g.data 10 ∧
      m.flags = u8At g.data 13 ∧ m.window = u16At g.data 14 ∧ m.urg = u16At g.data 18 := by
  unfold tcpInput at h
  obtain ⟨c, h⟩ := Option.ite_none_right_eq_some.mp h
  cases h
  exact ⟨c.1, by omega, rfl, rfl, rfl, rfl, rfl, rfl, rfl⟩

theorem edit_tcp {chk : Bool} {f : Bytes} {g : Datagram} {m : TcpSeg} {p : Packet} (hi : ipInput f = some g) (hu : tcpInput g = some m)
    (ho : NoOptions f) (hp : Slow.parse chk f = .ok p) (v : U64) (x : Field) (a : Nat) (w : Bytes)
    (hx1 : x.lo = 8 * a) (hx2 : x.hi + 1 = 8 * (a + w.length)) (ha : a % 2 = 0) (hw : w.length % 2 = 0)
    (h0 : 0 < w.length) (h20 : a + w.length ≤ 12 ∨ 14 ≤ a ∧ a + w.length ≤ 20)
    (hb : ∀ j, j < 8 * w.length → netBit w j = v.getLsbD (8 * w.length - 1 - j)) :
    ∃ q, editField TCP "TCP" x v p = .ok q ∧ hostTcp q.to_vec =
      if SameSum w ((g.data.drop a).take w.length) then
        let d := putAt g.data a w
        some ⟨m.src, m.dst, u16At d 0, u16At d 2, 65536 * u16At d 4 + u16At d 6, 65536 * u16At d 8 + u16At d 10, u8At d 13, u16At d 14,
          u16At d 18, m.data⟩ else none := by
  obtain ⟨hpr, hlong, -⟩ := tcpInput_fields hu
  have h8 : TCP.size = 20 := rfl
  have hg := no_gre (T := TCP) (l := .tcp) hi ho hp (by decide) (by rw [hpr]; split <;> rfl) (fun _ => rfl) hlong (by decide)
  obtain ⟨q, e, h⟩ := edit_contents (T := TCP) (l := .tcp) hi ho hp hg (nx := fun r => .payload)
    (by decide) (by rw [hpr]; split <;> rfl) (fun _ => rfl) (by decide) hlong x v a w hx1 hx2 h0 (by omega) hb
  refine ⟨q, e, ?_⟩
  rw [hostTcp, h, Option.bind_some, tcpInput_put hi hu a _ ha hw (by omega) (putAt_u8 _ _ _ (by omega) 12 (by omega))]

theorem words_num32 (k : Nat) : (words (num32 k)).sum % 65535 = k % 4294967296 % 65535 := by
  rw [num32, words_append _ _ (by rw [num16_length]), List.sum_append, words_num16, words_num16]
  have : k % 4294967296 = 65536 * (k / 65536 % 65536) + k % 65536 := by omega
  omega

theorem words_at4 (d : Bytes) (a : Nat) (h : a + 4 ≤ d.length) : (words ((d.drop a).take 4)).sum = u16At d a + u16At d (a + 2) := by
  rw [show 4 = 2 + 2 from rfl, List.take_add, List.drop_drop, words_append _ _ (by rw [List.length_take, List.length_drop]; omega),
    List.sum_append, words_at _ _ (by omega), words_at _ _ (by omega)]

theorem num32_same (v : Nat) (d : Bytes) (a : Nat) (h : a + 4 ≤ d.length) :
    SameSum (num32 v) ((d.drop a).take 4) ↔ v % 4294967296 % 65535 = (65536 * u16At d a + u16At d (a + 2)) % 65535 := by
  rw [SameSum, words_num32, words_at4 _ _ h]
  omega

theorem putAt_num32 (b : Bytes) (a v : Nat) (h : a + 4 ≤ b.length) :
    65536 * u16At (putAt b a (num32 v)) a + u16At (putAt b a (num32 v)) (a + 2) = v % 4294967296 := by
  have hl : (b.take a).length = a := by rw [List.length_take]; omega
  have key : ∀ i, u8At (putAt b a (num32 v)) (a + i) = u8At (num32 v ++ b.drop (a + 4)) i := by
    intro i
    rw [putAt, u8At_append_right _ _ _ (by omega), hl, Nat.add_sub_cancel_left]
    rfl
  have e1 : u16At (putAt b a (num32 v)) a = v / 65536 % 65536 := by
    rw [u16At, key 1, show u8At (putAt b a (num32 v)) a = _ from key 0]
    simp [num32, num16, u8At]
    omega
  have e2 : u16At (putAt b a (num32 v)) (a + 2) = v % 65536 := by
    rw [u16At, key 2, show a + 2 + 1 = a + 3 from rfl, key 3]
    simp [num32, num16, u8At]
    omega
  rw [e1, e2]
  omega

section
variable {chk : Bool} {f : Bytes} {m : TcpSeg} {p : Packet} (hm : hostTcp f = some m) (ho : NoOptions f)
  (hp : Slow.parse chk f = .ok p) (v : U64)
include hm ho hp

/-- **C100, TCP ports.** A TCP segment with another port.  The host behind takes it iff the new port counts like the old one. -/
theorem C100_tcp_source : ∃ q, editField TCP "TCP" TCP.src v p = .ok q ∧ hostTcp q.to_vec =
    if v.toNat % 65536 % 65535 = m.sport % 65535 then some { m with sport := v.toNat % 65536 } else none := by
  obtain ⟨g, hi, hu⟩ := Option.bind_eq_some_iff.mp hm
  obtain ⟨-, hlong, e0, e2, e4, e8, e13, e14, e18⟩ := tcpInput_fields hu
  have h2 := num16_length v.toNat
  obtain ⟨q, e, h⟩ := edit_tcp hi hu ho hp v TCP.src 0 (num16 v.toNat) rfl rfl rfl (by omega) (by omega) (by omega)
    (fun j hj => netBit_num16 v j hj)
  refine ⟨q, e, ?_⟩
  dsimp only at h
  have o : ∀ i, 2 ≤ i → u16At (putAt g.data 0 (num16 v.toNat)) i = u16At g.data i :=
    fun i hi => putAt_u16 _ _ _ (by omega) i (by omega)
  rw [h, putAt_num16 _ _ _ (by omega), putAt_u8 _ _ _ (by omega) 13 (by omega)]
  simp only [h2, o, num16_same v.toNat g.data 0 (by omega), e0, e2, e4, e8, e13, e14, e18, Nat.reduceLeDiff]

@[inherit_doc C100_tcp_source]
theorem C100_tcp_destination : ∃ q, editField TCP "TCP" TCP.dst v p = .ok q ∧ hostTcp q.to_vec =
    if v.toNat % 65536 % 65535 = m.dport % 65535 then some { m with dport := v.toNat % 65536 } else none := by
  obtain ⟨g, hi, hu⟩ := Option.bind_eq_some_iff.mp hm
  obtain ⟨-, hlong, e0, e2, e4, e8, e13, e14, e18⟩ := tcpInput_fields hu
  have h2 := num16_length v.toNat
  obtain ⟨q, e, h⟩ := edit_tcp hi hu ho hp v TCP.dst 2 (num16 v.toNat) rfl rfl rfl (by omega) (by omega) (by omega)
    (fun j hj => netBit_num16 v j hj)
  refine ⟨q, e, ?_⟩
  dsimp only at h
  have o : ∀ i, 4 ≤ i → u16At (putAt g.data 2 (num16 v.toNat)) i = u16At g.data i :=
    fun i hi => putAt_u16 _ _ _ (by omega) i (by omega)
  rw [h, putAt_num16 _ _ _ (by omega), putAt_u8 _ _ _ (by omega) 13 (by omega), putAt_u16 _ _ _ (by omega) 0 (by omega)]
  simp only [h2, o, num16_same v.toNat g.data 2 (by omega), e0, e2, e4, e8, e13, e14, e18, Nat.reduceLeDiff, Nat.le_refl]

/-- **C100, sequence and acknowledgement number.** Taken iff the number counts like the old one. -/
theorem C100_tcp_sequence : ∃ q, editField TCP "TCP" TCP.seq_no v p = .ok q ∧ hostTcp q.to_vec =
    if v.toNat % 4294967296 % 65535 = m.seq % 65535 then some { m with seq := v.toNat % 4294967296 } else none := by
  obtain ⟨g, hi, hu⟩ := Option.bind_eq_some_iff.mp hm
  obtain ⟨-, hlong, e0, e2, e4, e8, e13, e14, e18⟩ := tcpInput_fields hu
  have h2 := num32_length v.toNat
  obtain ⟨q, e, h⟩ := edit_tcp hi hu ho hp v TCP.seq_no 4 (num32 v.toNat) rfl rfl rfl (by omega) (by omega) (by omega)
    (fun j hj => netBit_num32 v j hj)
  refine ⟨q, e, ?_⟩
  dsimp only at h
  have o : ∀ i, i + 1 < 4 ∨ 8 ≤ i → u16At (putAt g.data 4 (num32 v.toNat)) i = u16At g.data i :=
    fun i hi => putAt_u16 _ _ _ (by omega) i (by omega)
  rw [h, putAt_num32 _ 4 _ (by omega), putAt_u8 _ _ _ (by omega) 13 (by omega), o 0 (by decide), o 2 (by decide), o 8 (by decide),
    o 10 (by decide), o 14 (by decide), o 18 (by decide)]
  simp only [h2, num32_same v.toNat g.data 4 (by omega), e0, e2, e4, e8, e13, e14, e18]

@[inherit_doc C100_tcp_sequence]
theorem C100_tcp_acknowledgement : ∃ q, editField TCP "TCP" TCP.ack_no v p = .ok q ∧ hostTcp q.to_vec =
    if v.toNat % 4294967296 % 65535 = m.ack % 65535 then some { m with ack := v.toNat % 4294967296 } else none := by
  obtain ⟨g, hi, hu⟩ := Option.bind_eq_some_iff.mp hm
  obtain ⟨-, hlong, e0, e2, e4, e8, e13, e14, e18⟩ := tcpInput_fields hu
  have h2 := num32_length v.toNat
  obtain ⟨q, e, h⟩ := edit_tcp hi hu ho hp v TCP.ack_no 8 (num32 v.toNat) rfl rfl rfl (by omega) (by omega) (by omega)
    (fun j hj => netBit_num32 v j hj)
  refine ⟨q, e, ?_⟩
  dsimp only at h
  have o : ∀ i, i + 1 < 8 ∨ 12 ≤ i → u16At (putAt g.data 8 (num32 v.toNat)) i = u16At g.data i :=
    fun i hi => putAt_u16 _ _ _ (by omega) i (by omega)
  rw [h, putAt_num32 _ 8 _ (by omega), putAt_u8 _ _ _ (by omega) 13 (by omega), o 0 (by decide), o 2 (by decide), o 4 (by decide),
    o 6 (by decide), o 14 (by decide), o 18 (by decide)]
  simp only [h2, num32_same v.toNat g.data 8 (by omega), e0, e2, e4, e8, e13, e14, e18]

/-- **C100, window.** Taken iff it counts like the old one. -/
theorem C100_tcp_window : ∃ q, editField TCP "TCP" TCP.window v p = .ok q ∧ hostTcp q.to_vec =
    if v.toNat % 65536 % 65535 = m.window % 65535 then some { m with window := v.toNat % 65536 } else none := by
  obtain ⟨g, hi, hu⟩ := Option.bind_eq_some_iff.mp hm
  obtain ⟨-, hlong, e0, e2, e4, e8, e13, e14, e18⟩ := tcpInput_fields hu
  have h2 := num16_length v.toNat
  obtain ⟨q, e, h⟩ := edit_tcp hi hu ho hp v TCP.window 14 (num16 v.toNat) rfl rfl rfl (by omega) (by omega) (by omega)
    (fun j hj => netBit_num16 v j hj)
  refine ⟨q, e, ?_⟩
  dsimp only at h
  have o : ∀ i, i + 1 < 14 ∨ 16 ≤ i → u16At (putAt g.data 14 (num16 v.toNat)) i = u16At g.data i :=
    fun i hi => putAt_u16 _ _ _ (by omega) i (by omega)
  rw [h, putAt_num16 _ _ _ (by omega), putAt_u8 _ _ _ (by omega) 13 (by omega), o 0 (by decide), o 2 (by decide), o 4 (by decide),
    o 6 (by decide), o 8 (by decide), o 10 (by decide), o 18 (by decide)]
  simp only [h2, num16_same v.toNat g.data 14 (by omega), e0, e2, e4, e8, e13, e14, e18]

/-- **C100, flags.** A segment with other flags is not taken. -/
theorem C100_tcp_flags : ∃ q, editField TCP "TCP" TCP.flags v p = .ok q ∧ hostTcp q.to_vec =
    if v.toNat % 256 = m.flags then some m else none := by
  obtain ⟨g, hi, hu⟩ := Option.bind_eq_some_iff.mp hm
  obtain ⟨hpr, hlong, e0, e2, e4, e8, e13, e14, e18⟩ := tcpInput_fields hu
  have h8 : TCP.size = 20 := rfl
  have h1 : [BitVec.ofNat 8 v.toNat].length = 1 := rfl
  have hg := no_gre (T := TCP) (l := .tcp) hi ho hp (by decide) (by rw [hpr]; split <;> rfl) (fun _ => rfl) hlong (by decide)
  obtain ⟨q, e, h⟩ := edit_contents (T := TCP) (l := .tcp) hi ho hp hg (nx := fun r => .payload)
    (by decide) (by rw [hpr]; split <;> rfl) (fun _ => rfl) (by decide) hlong TCP.flags v 13 [BitVec.ofNat 8 v.toNat] rfl rfl (by omega)
    (by omega) (fun j hj => netBit_num8 v j hj)
  refine ⟨q, e, ?_⟩
  obtain ⟨x, hx⟩ : ∃ x, (g.data.drop 12).take 2 = [x, BitVec.ofNat 8 m.flags] := by
    match e : g.data.drop 12 with
    | [] => have := congrArg List.length e; simp at this; omega
    | [_] => have := congrArg List.length e; simp at this; omega
    | x :: y :: r =>
      refine ⟨x, ?_⟩
      have := u8At_drop_add g.data 12 1
      rw [e] at this
      rw [e13, ← this]
      simp [u8At]
  have hput : putAt g.data 13 [BitVec.ofNat 8 v.toNat] = putAt g.data 12 [x, BitVec.ofNat 8 v.toNat] := by
    have : g.data.take 13 = g.data.take 12 ++ [x] := by
      rw [show 13 = 12 + 1 from rfl, List.take_add]
      congr 1
      have := congrArg (List.take 1) hx
      rw [List.take_take] at this
      exact this
    unfold putAt
    rw [this, List.append_assoc]
    rfl
  have hf : m.flags < 256 := by rw [e13, u8At]; omega
  have h2 : [x, BitVec.ofNat 8 v.toNat].length = 2 := rfl
  have hu12 : u8At (putAt g.data 13 [BitVec.ofNat 8 v.toNat]) 12 = u8At g.data 12 := putAt_u8 _ _ _ (by omega) 12 (by omega)
  by_cases c : v.toNat % 256 = m.flags
  · have : BitVec.ofNat 8 v.toNat = BitVec.ofNat 8 m.flags := by
      apply BitVec.eq_of_toNat_eq
      simp only [BitVec.toNat_ofNat]
      omega
    rw [if_pos c, hostTcp, h, hput, this, ← hx, ← putAt_split _ _ _ (by omega), ← hu]
    rfl
  · rw [if_neg c, hostTcp, h, Option.bind_some, hput, tcpInput_put hi hu 12 _ rfl (by omega) (by omega) (hput ▸ hu12), if_neg]
    rw [h2, hx, SameSum]
    simp only [words, List.sum_cons, List.sum_nil, BitVec.toNat_ofNat]
    omega

end

/-- ICMP messages. -/
theorem icmpInput_fields {g : Datagram} {m : IcmpMsg} (h : icmpInput g = some m) :
    4 ≤ g.data.length ∧ m.type = u8At g.data 0 ∧ m.code = u8At g.data 1 ∧
      ((g.v6 = true ∧ g.proto = 58) ∨ (g.v6 = false ∧ g.proto = 1)) := by
  unfold icmpInput at h
  obtain ⟨⟨c, d⟩, h⟩ := Option.ite_none_right_eq_some.mp h
  cases h
  exact ⟨c, rfl, rfl, by rcases d with d | d <;> simp [d]⟩

theorem pseudo_even {f : Bytes} {g : Datagram} (hi : ipInput f = some g) (n : Nat) : (g.pseudo n).length % 2 = 0 := by
  unfold ipInput at hi
  split at hi
  rotate_left
  · cases hi
  split at hi
  · unfold ip4Input at hi
    obtain ⟨c, h⟩ := Option.ite_none_right_eq_some.mp hi
    cases h
    simp [Datagram.pseudo, num16]; omega
  · split at hi
    · unfold ip6Input at hi
      obtain ⟨c, h⟩ := Option.ite_none_right_eq_some.mp hi
      cases h
      simp [Datagram.pseudo, num32, num16]; omega
    · cases hi

/-- One of the first two octets changed. -/
theorem not_verifies_first (P r : Bytes) (x y x' y' : Byte) (hP : P.length % 2 = 0) (hv : Verifies (P ++ x :: y :: r))
    (hd : (x' ≠ x ∧ y' = y) ∨ (x' = x ∧ y' ≠ y)) : ¬ Verifies (P ++ x' :: y' :: r) := by
  rw [verifies_iff, words_append _ _ hP] at hv ⊢
  simp only [words, List.sum_append, List.sum_cons] at hv ⊢
  have h1 := x.isLt
  have h2 := y.isLt
  have h3 := x'.isLt
  have h4 := y'.isLt
  rcases hd with ⟨h, rfl⟩ | ⟨rfl, h⟩
  · have : x'.toNat ≠ x.toNat := fun c => h (BitVec.eq_of_toNat_eq c)
    omega
  · have : y'.toNat ≠ y.toNat := fun c => h (BitVec.eq_of_toNat_eq c)
    omega

theorem icmpInput_first {f : Bytes} {g : Datagram} {m : IcmpMsg} (hi : ipInput f = some g) (hm : icmpInput g = some m) (x y x' y' : Byte)
    (r : Bytes) (hr : g.data = x :: y :: r) (hd : (x' ≠ x ∧ y' = y) ∨ (x' = x ∧ y' ≠ y)) :
    icmpInput { g with data := x' :: y' :: r } = none := by
  unfold icmpInput at hm ⊢
  obtain ⟨⟨c, d⟩, -⟩ := Option.ite_none_right_eq_some.mp hm
  have hl : g.data.length = r.length + 2 := by rw [hr]; rfl
  rw [if_neg]
  rintro ⟨-, e⟩
  simp only [List.length_cons] at e
  rw [show r.length + 1 + 1 = g.data.length by omega] at e
  rcases d with ⟨d1, d2, d3⟩ | ⟨d1, d2, d3⟩
  · rcases e with ⟨-, -, e3⟩ | ⟨e1, -⟩
    · rw [hr] at d3
      rw [hr] at e3
      exact not_verifies_first _ r x y x' y' (pseudo_even hi _) d3 hd e3
    · rw [d1] at e1; cases e1
  · rcases e with ⟨e1, -⟩ | ⟨-, -, e3⟩
    · rw [d1] at e1; cases e1
    · rw [hr] at d3
      exact not_verifies_first [] r x y x' y' rfl d3 hd e3

theorem edit_icmp {chk : Bool} {f : Bytes} {g : Datagram} {m : IcmpMsg} {p : Packet} (hi : ipInput f = some g) (hu : icmpInput g = some m)
    (ho : NoOptions f) (hp : Slow.parse chk f = .ok p) (v : U64) (x : Field) (a : Nat) (hx1 : x.lo = 8 * a) (hx2 : x.hi + 1 = 8 * (a + 1))
    (ha : a < 4) : ∃ q, editField ICMP "ICMP" x v p = .ok q ∧
      ipInput q.to_vec = some { g with data := putAt g.data a [BitVec.ofNat 8 v.toNat] } := by
  obtain ⟨hlong, -, -, hpr⟩ := icmpInput_fields hu
  have h4 : ICMP.size = 4 := rfl
  have h1 : [BitVec.ofNat 8 v.toNat].length = 1 := rfl
  have hl : (if g.v6 then ipv6Next g.proto else ipv4Next g.proto) = .icmp := by
    rcases hpr with ⟨q1, q2⟩ | ⟨q1, q2⟩ <;> rw [q1, q2] <;> rfl
  have hg := no_gre (T := ICMP) (l := .icmp) hi ho hp (by decide) hl (fun _ => rfl) hlong (by decide)
  exact edit_contents (T := ICMP) (l := .icmp) hi ho hp hg (nx := fun r => .payload) (by decide) hl (fun _ => rfl) (by decide) hlong
    x v a _ hx1 hx2 (by omega) (by omega) (fun j hj => netBit_num8 v j hj)

theorem first_two {d : Bytes} (h : 4 ≤ d.length) :
    ∃ r, d = BitVec.ofNat 8 (u8At d 0) :: BitVec.ofNat 8 (u8At d 1) :: r := by
  match d, h with
  | x :: y :: r, _ => exact ⟨r, by simp [u8At]⟩

theorem ofNat8_iff (a b : Nat) (hb : b < 256) : BitVec.ofNat 8 a = BitVec.ofNat 8 b ↔ a % 256 = b := by
  rw [← BitVec.toNat_inj, BitVec.toNat_ofNat, BitVec.toNat_ofNat]
  omega

section
variable {chk : Bool} {f : Bytes} {m : IcmpMsg} {p : Packet} (hm : hostIcmp f = some m) (ho : NoOptions f)
  (hp : Slow.parse chk f = .ok p) (v : U64)
include hm ho hp

/-- **C100, ICMP type and code.** A message with another type or code is not taken. -/
theorem C100_icmp_type : ∃ q, editField ICMP "ICMP" ICMP.icmp_type v p = .ok q ∧ hostIcmp q.to_vec =
    if v.toNat % 256 = m.type then some m else none := by
  obtain ⟨g, hi, hu⟩ := Option.bind_eq_some_iff.mp hm
  obtain ⟨hlong, e0, e1, -⟩ := icmpInput_fields hu
  obtain ⟨q, e, h⟩ := edit_icmp hi hu ho hp v ICMP.icmp_type 0 rfl rfl (by decide)
  refine ⟨q, e, ?_⟩
  obtain ⟨r, hr⟩ := first_two hlong
  rw [← e0, ← e1] at hr
  have hput : putAt g.data 0 [BitVec.ofNat 8 v.toNat] = BitVec.ofNat 8 v.toNat :: BitVec.ofNat 8 m.code :: r := by
    rw [hr]; rfl
  have ht := ofNat8_iff v.toNat m.type (by rw [e0, u8At]; omega)
  rw [hostIcmp, h, hput, Option.bind_some]
  by_cases c : v.toNat % 256 = m.type
  · rw [if_pos c, ht.mpr c, ← hr, ← hu]
  · rw [if_neg c]
    exact icmpInput_first hi hu _ _ _ _ r hr (.inl ⟨fun c' => c (ht.mp c'), rfl⟩)

@[inherit_doc C100_icmp_type]
theorem C100_icmp_code : ∃ q, editField ICMP "ICMP" ICMP.icmp_code v p = .ok q ∧ hostIcmp q.to_vec =
    if v.toNat % 256 = m.code then some m else none := by
  obtain ⟨g, hi, hu⟩ := Option.bind_eq_some_iff.mp hm
  obtain ⟨hlong, e0, e1, -⟩ := icmpInput_fields hu
  obtain ⟨q, e, h⟩ := edit_icmp hi hu ho hp v ICMP.icmp_code 1 rfl rfl (by decide)
  refine ⟨q, e, ?_⟩
  obtain ⟨r, hr⟩ := first_two hlong
  rw [← e0, ← e1] at hr
  have hput : putAt g.data 1 [BitVec.ofNat 8 v.toNat] = BitVec.ofNat 8 m.type :: BitVec.ofNat 8 v.toNat :: r := by
    rw [hr]; rfl
  have ht := ofNat8_iff v.toNat m.code (by rw [e1, u8At]; omega)
  rw [hostIcmp, h, hput, Option.bind_some]
  by_cases c : v.toNat % 256 = m.code
  · rw [if_pos c, ht.mpr c, ← hr, ← hu]
  · rw [if_neg c]
    exact icmpInput_first hi hu _ _ _ _ r hr (.inr ⟨rfl, fun c' => c (ht.mp c')⟩)

end

/-- **C100, payload.** More payload changes nothing for the host: the lengths in the headers stay. -/
theorem C100_payload {chk : Bool} {f : Bytes} {p : Packet} (hp : Slow.parse chk f = .ok p)
    (hg : ∀ g ∈ p.hdrs, g.ty = GRE → greOptCount g.data ≤ 1) (b : Bytes) :
    (p.set_payload b).to_vec = f ++ b ∧
      (∀ m, hostUdp f = some m → hostUdp (p.set_payload b).to_vec = some m) ∧
      (∀ m, hostTcp f = some m → hostTcp (p.set_payload b).to_vec = some m) ∧
      (∀ m, hostIcmp f = some m → hostIcmp (p.set_payload b).to_vec = some m) := by
  have h : (p.set_payload b).to_vec = f ++ b := by
    have := C23_roundtrip_frame chk f p hp hg
    rw [← this]
    simp [Packet.set_payload, Packet.to_vec]
  rw [h]
  refine ⟨rfl, fun m hm => ?_, fun m hm => ?_, fun m hm => ?_⟩
  all_goals
    obtain ⟨g, h1, h2⟩ := Option.bind_eq_some_iff.mp hm
    exact Option.bind_eq_some_iff.mpr ⟨g, (ipInput_more b h1).1, h2⟩

/-- A UDP message without checksum: any port will do; 65535 behind it changes nothing. -/
example :
    let f := (Sample.get Sample.udp).to_vec
    let p := Sample.get (Slow.parse true f)
    let m : UdpMsg := ⟨[10, 0, 0, 1], [192, 168, 0, 2], 1234, 53, Sample.data⟩
    hostUdp f = some m ∧ u16At f (l3At f - 2) = 0x0800 ∧ ihl f (l3At f) = 20 ∧ Slow.parse true f = .ok p ∧
      (∀ g ∈ p.hdrs, g.ty ≠ GRE) ∧ u16At f (l3At f + ipLen f + 6) = 0 ∧
      hostUdp (Sample.get (editField UDP "UDP" UDP.dst 4000 p)).to_vec = some { m with dport := 4000 } ∧
      hostUdp (p.set_payload [1, 2, 3]).to_vec = some m ∧
      hostUdp (Sample.get (rewritePorts 7 65545 p)).to_vec = some { m with sport := 7, dport := 9 } := by
  decide +kernel

/-- One with a checksum, over IPv4 and over IPv6: another port is not taken, and dropping the checksum helps over IPv4 only. -/
example :
    let f : Bytes := [0, 17, 34, 51, 68, 85, 0, 6, 7, 8, 9, 10, 8, 0, 69, 0, 0, 30, 0, 1, 0, 0, 64, 17, 176, 35, 10, 0, 0, 1, 192, 168, 0,
      2, 4, 210, 0, 53, 0, 10, 133, 108, 170, 187]
    let p := Sample.get (Slow.parse true f)
    let m : UdpMsg := ⟨[10, 0, 0, 1], [192, 168, 0, 2], 1234, 53, [170, 187]⟩
    hostUdp f = some m ∧ ihl f (l3At f) = 20 ∧ Slow.parse true f = .ok p ∧ u16At f (l3At f + ipLen f + 6) ≠ 0 ∧
      hostUdp (Sample.get (editField UDP "UDP" UDP.dst 4000 p)).to_vec = none ∧
      hostUdp (Sample.get (rewritePorts 7 9 p)).to_vec = some { m with sport := 7, dport := 9 } := by
  decide +kernel

/-- Over IPv6. -/
example :
    let f : Bytes := [0, 17, 34, 51, 68, 85, 0, 6, 7, 8, 9, 10, 134, 221, 96, 0, 0, 0, 0, 10, 17, 64, 32, 1, 0, 0, 0, 0, 0, 0, 0, 0, 0, 0,
      0, 0, 0, 1, 32, 1, 0, 0, 0, 0, 0, 0, 0, 0, 0, 0, 0, 0, 0, 2, 4, 210, 0, 53, 0, 10, 16, 19, 170, 187]
    let p := Sample.get (Slow.parse true f)
    (hostUdp f).isSome ∧ u16At f (l3At f - 2) = 0x86DD ∧ Slow.parse true f = .ok p ∧
      hostUdp (Sample.get (editField UDP "UDP" UDP.dst 4000 p)).to_vec = none ∧
      hostUdp (Sample.get (rewritePorts 7 9 p)).to_vec = none := by
  decide +kernel

/-- TCP: port 0 counts like 65535, and sequence number 65542 like 7. -/
example :
    let f := (Sample.get (create_tcp_packet true Sample.mac1 Sample.mac2 true 10 3 5 Sample.ip1 Sample.ip2 1 64 0x1234
      0 [] 0 1234 7 9 5 0 2 512 16307 true Sample.data)).to_vec
    let p := Sample.get (Slow.parse true f)
    let m : TcpSeg := ⟨[10, 0, 0, 1], [192, 168, 0, 2], 1234, 0, 7, 9, 2, 512, 16307, Sample.data⟩
    hostTcp f = some m ∧ u16At f (l3At f - 2) = 0x0800 ∧ ihl f (l3At f) = 20 ∧ Slow.parse true f = .ok p ∧
      hostTcp (Sample.get (editField TCP "TCP" TCP.dst 65535 p)).to_vec = some { m with dport := 65535 } ∧
      hostTcp (Sample.get (editField TCP "TCP" TCP.dst 80 p)).to_vec = none ∧
      hostTcp (Sample.get (editField TCP "TCP" TCP.seq_no 65542 p)).to_vec = some { m with seq := 65542 } ∧
      hostTcp (Sample.get (editField TCP "TCP" TCP.flags 18 p)).to_vec = none := by
  decide +kernel

/-- ICMP. -/
example :
    let f := (Sample.get (create_icmp_packet true Sample.mac1 Sample.mac2 false 10 3 5 Sample.ip1 Sample.ip2 1 64
      0x1234 0 [] 0x61 0x62 [1, 2] true Sample.data)).to_vec
    let p := Sample.get (Slow.parse true f)
    (hostIcmp f).isSome ∧ u16At f (l3At f - 2) = 0x0800 ∧ ihl f (l3At f) = 20 ∧ Slow.parse true f = .ok p ∧
      hostIcmp (Sample.get (editField ICMP "ICMP" ICMP.icmp_type 0x61 p)).to_vec = hostIcmp f ∧
      hostIcmp (Sample.get (editField ICMP "ICMP" ICMP.icmp_type 8 p)).to_vec = none := by
  decide +kernel

/-- `NoOptions` is needed: with options the parser takes them for the UDP header, so setting a port spoils the IP header. -/
example :
    let f : Bytes := [0, 17, 34, 51, 68, 85, 0, 6, 7, 8, 9, 10, 8, 0, 70, 0, 0, 34, 0, 1, 0, 0, 64, 17, 173, 29, 10, 0, 0, 1, 192, 168, 0,
      2, 1, 1, 1, 1, 4, 210, 0, 53, 0, 10, 0, 0, 170, 187]
    let p := Sample.get (Slow.parse true f)
    (hostUdp f).isSome ∧ Slow.parse true f = .ok p ∧ ¬ ihl f (l3At f) = 20 ∧
      hostUdp (Sample.get (editField UDP "UDP" UDP.dst 4000 p)).to_vec = none ∧
      hostUdp (Sample.get (rewritePorts 1234 53 p)).to_vec = none := by
  decide +kernel

end PacketRs
