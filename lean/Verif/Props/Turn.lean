import Verif.Spec.Turn
import Verif.Props.Bridge
/-!
# Property C102: answering a frame with the frame itself

A client parses a frame and exchanges source and destination on every layer.  No checksum is touched, and none has to be.
-/
namespace PacketRs
open Spec Utils

/-! ## Exchanging neighbours -/

theorem swapAt_w (b : Bytes) (i n : Nat) (h : i + 2 * n ≤ b.length) :
    ((b.drop (i + n)).take n ++ (b.drop i).take n).length = 2 * n := by
  simp only [List.length_append, List.length_take, List.length_drop]; omega

theorem swapAt_length (b : Bytes) (i n : Nat) (h : i + 2 * n ≤ b.length) : (swapAt b i n).length = b.length :=
  putAt_length _ _ _ (by rw [swapAt_w b i n h]; exact h)

theorem swapAt_u8 (b : Bytes) (i n : Nat) (h : i + 2 * n ≤ b.length) (j : Nat) (hj : j < i ∨ i + 2 * n ≤ j) :
    u8At (swapAt b i n) j = u8At b j :=
  putAt_u8 _ _ _ (by rw [swapAt_w b i n h]; exact h) j (by rw [swapAt_w b i n h]; exact hj)

theorem swapAt_u16 (b : Bytes) (i n : Nat) (h : i + 2 * n ≤ b.length) (j : Nat) (hj : j + 1 < i ∨ i + 2 * n ≤ j) :
    u16At (swapAt b i n) j = u16At b j := by
  rw [u16At, u16At, swapAt_u8 b i n h j (by omega), swapAt_u8 b i n h (j + 1) (by omega)]

theorem swapAt_drop (b : Bytes) (i n : Nat) (h : i + 2 * n ≤ b.length) (j : Nat) (hj : i + 2 * n ≤ j) :
    (swapAt b i n).drop j = b.drop j :=
  putAt_drop _ _ _ (by rw [swapAt_w b i n h]; exact h) j (by rw [swapAt_w b i n h]; exact hj)

theorem swapAt_fst (b : Bytes) (i n : Nat) (h : i + 2 * n ≤ b.length) : ((swapAt b i n).drop i).take n = (b.drop (i + n)).take n := by
  have := putAt_at b i ((b.drop (i + n)).take n ++ (b.drop i).take n) (by rw [swapAt_w b i n h]; exact h)
  rw [swapAt_w b i n h] at this
  have := congrArg (List.take n) this
  rwa [List.take_take, Nat.min_eq_left (by omega), List.take_left' (by simp; omega)] at this

theorem swapAt_snd (b : Bytes) (i n : Nat) (h : i + 2 * n ≤ b.length) : ((swapAt b i n).drop (i + n)).take n = (b.drop i).take n := by
  have := putAt_at b i ((b.drop (i + n)).take n ++ (b.drop i).take n) (by rw [swapAt_w b i n h]; exact h)
  rw [swapAt_w b i n h] at this
  have := congrArg (List.drop n) this
  rwa [List.drop_take, List.drop_drop, List.drop_left' (by simp; omega), show 2 * n - n = n by omega] at this

theorem swapAt_append (b y : Bytes) (i n : Nat) (h : i + 2 * n ≤ b.length) : swapAt (b ++ y) i n = swapAt b i n ++ y := by
  unfold swapAt
  rw [List.drop_append_of_le_length (by omega), List.take_append_of_le_length (by rw [List.length_drop]; omega),
    List.drop_append_of_le_length (by omega), List.take_append_of_le_length (by rw [List.length_drop]; omega),
    putAt_append _ _ _ _ (by rw [swapAt_w b i n h]; exact h)]

theorem swapAt_behind (a b : Bytes) (k i n : Nat) (ha : a.length = k) : swapAt (a ++ b) (k + i) n = a ++ swapAt b i n := by
  unfold swapAt putAt
  rw [Nat.add_assoc, drop_add_left _ _ _ _ ha, drop_add_left _ _ _ _ ha, Nat.add_assoc, drop_add_left _ _ _ _ ha, List.take_append, ha,
    List.take_of_length_le (by omega), List.append_assoc, show k + i - k = i by omega]

theorem swapAt_take (b : Bytes) (i n m : Nat) (h : i + 2 * n ≤ m) (hm : m ≤ b.length) : (swapAt b i n).take m = swapAt (b.take m) i n := by
  have hl : (b.take m).length = m := by rw [List.length_take]; omega
  conv => lhs; rw [← List.take_append_drop m b]
  rw [swapAt_append _ _ _ _ (by omega), List.take_left' (by rw [swapAt_length _ _ _ (by omega), hl])]

/-- The sum of the words is the same. -/
theorem swapAt_sum (b : Bytes) (i n : Nat) (h : i + 2 * n ≤ b.length) (hi : i % 2 = 0) (hn : n % 2 = 0) :
    (words (swapAt b i n)).sum = (words b).sum := by
  have e : b = b.take i ++ ((b.drop i).take n ++ ((b.drop (i + n)).take n ++ b.drop (i + 2 * n))) := by
    rw [show i + 2 * n = i + n + n by omega, ← List.drop_drop (l := b) (i := n) (j := i + n), List.take_append_drop,
      ← List.drop_drop (l := b) (i := n) (j := i), List.take_append_drop, List.take_append_drop]
  have l1 : (b.take i).length = i := by rw [List.length_take]; omega
  have l2 : ((b.drop i).take n).length = n := by rw [List.length_take, List.length_drop]; omega
  have l3 : ((b.drop (i + n)).take n).length = n := by rw [List.length_take, List.length_drop]; omega
  unfold swapAt putAt
  rw [swapAt_w b i n h]
  conv => rhs; rw [e]
  rw [List.append_assoc, words_append _ _ (by omega), words_append _ _ (by omega), words_append _ _ (by omega),
    words_append _ _ (by omega), words_append _ _ (by omega), words_append _ _ (by omega)]
  simp only [List.sum_append]
  omega

/-! ## The client -/

/-- The client exchanges two neighbouring ranges of `n` octets of the first header of that type, the first one at octet `i`:
`let x: &mut T = (&mut pkt[name]).into(); let a = x.bytes(..); let b = x.bytes(..); x.set_bytes(.., &b); x.set_bytes(.., &a);` -/
def exchangeIn (chk : Bool) (T : HeaderDef) (i n : Nat) (p : Packet) : R Packet :=
  p.withHeaderMut T T.name fun h => do
    let a ← h.bytes chk (8 * i + 8 * n - 1) (8 * i)
    let b ← h.bytes chk (8 * (i + n) + 8 * n - 1) (8 * (i + n))
    let h ← h.set_bytes chk (8 * i + 8 * n - 1) (8 * i) b
    h.set_bytes chk (8 * (i + n) + 8 * n - 1) (8 * (i + n)) a

/-- `set_bytes` at a byte boundary. -/
theorem setBytes_put (chk : Bool) (d : Bytes) (k : Nat) (a : Bytes) (hn : a ≠ []) (h : k + a.length ≤ d.length)
    (hs : 8 * a.length < 2 ^ 64) : setBytes chk d (8 * k + 8 * a.length - 1) (8 * k) a = .ok (putAt d k a) := by
  obtain ⟨d', s1, s2, s3⟩ := setBytes_ok chk d (8 * k) a hn (by omega) hs
  rw [s1]
  congr 1
  apply eq_of_netBit
  · rw [putAt_length _ _ _ h, s2]
  · intro i hi
    have hta : (d.take k).length = k := by rw [List.length_take]; omega
    rw [s3 i]
    unfold putAt
    by_cases c1 : i < 8 * k
    · rw [netBit_append_left _ _ _ (by omega), netBit_take, if_neg (by omega), decide_eq_true c1, Bool.true_and]
    · rw [netBit_append_right _ _ _ (by omega), hta]
      by_cases c2 : i < 8 * (k + a.length)
      · rw [netBit_append_left _ _ _ (by omega), if_pos (by omega)]
      · rw [netBit_append_right _ _ _ (by omega), netBit_drop, if_neg (by omega)]
        congr 1; omega

theorem putAt_putAt (d : Bytes) (i : Nat) (a b : Bytes) (h : i + a.length + b.length ≤ d.length) :
    putAt (putAt d i a) (i + a.length) b = putAt d i (a ++ b) := by
  have hl : (d.take i).length = i := by rw [List.length_take]; omega
  have hd := putAt_drop d i a (by omega) (i + a.length + b.length) (by omega)
  have ht : (putAt d i a).take (i + a.length) = d.take i ++ a := by
    unfold putAt
    rw [← List.append_assoc, List.take_left' (by rw [List.length_append, hl])]
  rw [show putAt (putAt d i a) (i + a.length) b = (putAt d i a).take (i + a.length) ++ (b ++ (putAt d i a).drop (i + a.length + b.length)) from rfl,
    hd, ht]
  unfold putAt
  rw [List.length_append, List.append_assoc, List.append_assoc, Nat.add_assoc]

/-- What `exchangeIn` does to the serialized packet. -/
theorem exchangeIn_packet (chk : Bool) (T : HeaderDef) (i n : Nat) (p : Packet) (pre post : List Hdr) (g : Hdr)
    (hs : IsFirstNamed p.hdrs T.name pre g post) (hT : g.ty = T) (hwf : ∀ x ∈ p.hdrs, x.data.length = x.ty.size) (hn : 0 < n)
    (h : i + 2 * n ≤ T.size) (hb : 8 * n < 2 ^ 64) :
    ∃ g', exchangeIn chk T i n p = .ok ⟨pre ++ g' :: post, p.payload⟩ ∧ g'.ty = T ∧ g'.data.length = g'.ty.size ∧
      (⟨pre ++ g' :: post, p.payload⟩ : Packet).to_vec = swapAt p.to_vec (sizes pre + i) n := by
  have hg : g.data.length = T.size := by rw [hwf g (by rw [hs.1]; simp), hT]
  have la : ((g.data.drop i).take n).length = n := by rw [List.length_take, List.length_drop]; omega
  have lb : ((g.data.drop (i + n)).take n).length = n := by rw [List.length_take, List.length_drop]; omega
  have ne : ∀ l : Bytes, l.length = n → l ≠ [] := by
    rintro l hl rfl
    rw [List.length_nil] at hl
    omega
  have q1 := C06_bytes_aligned chk g i n (by omega) (by omega) hb
  have q2 := C06_bytes_aligned chk g (i + n) n (by omega) (by omega) hb
  have q3 := setBytes_put chk g.data i _ (ne _ lb) (by omega) (by omega)
  have q4 := setBytes_put chk (putAt g.data i ((g.data.drop (i + n)).take n)) (i + n) _ (ne _ la)
    (by rw [putAt_length _ _ _ (by omega)]; omega) (by omega)
  rw [lb] at q3
  have e := putAt_putAt g.data i ((g.data.drop (i + n)).take n) ((g.data.drop i).take n) (by omega)
  rw [lb] at e
  rw [la, e] at q4
  have hpre : (pre.map (·.data)).flatten.length = sizes pre := sizes_eq (fun x hx => hwf x (by rw [hs.1]; simp [hx]))
  refine ⟨⟨g.ty, swapAt g.data i n⟩, ?_, hT, ?_, ?_⟩
  · simp only [exchangeIn, Packet.withHeaderMut, modifyFirst_of_first hs, hT, if_true, q1, q2, bind, Except.bind, Hdr.set_bytes, q3, q4, pure,
      Except.pure, Except.map]
    rfl
  · simp only
    rw [swapAt_length _ _ _ (by omega), hg, hT]
  · obtain ⟨hd, pl⟩ := p
    obtain rfl := hs.1
    rw [wire_split, wire_split, swapAt_behind _ _ _ _ _ hpre, swapAt_append _ _ _ _ (by omega)]

/-- The same with the types of the headers only: types and sizes of all headers stay. -/
theorem exchangeIn_types (chk : Bool) (T : HeaderDef) (i n : Nat) (p : Packet) (pre post : List HeaderDef)
    (hs : p.hdrs.map (·.ty) = pre ++ T :: post) (hpre : ∀ S ∈ pre, S.name ≠ T.name) (hwf : ∀ x ∈ p.hdrs, x.data.length = x.ty.size)
    (hn : 0 < n) (h : i + 2 * n ≤ T.size) (hb : 8 * n < 2 ^ 64) :
    ∃ q, exchangeIn chk T i n p = .ok q ∧ q.hdrs.map (·.ty) = p.hdrs.map (·.ty) ∧ (∀ x ∈ q.hdrs, x.data.length = x.ty.size) ∧
      q.to_vec = swapAt p.to_vec ((pre.map (·.size)).sum + i) n := by
  obtain ⟨a, b, e, ha, hb'⟩ := List.map_eq_append_iff.mp hs
  obtain ⟨g, r, rfl, hg, hr⟩ := List.map_eq_cons_iff.mp hb'
  have hf : IsFirstNamed p.hdrs T.name a g r :=
    ⟨e, by rw [Hdr.name, hg], fun x hx => hpre _ (ha ▸ List.mem_map_of_mem hx)⟩
  obtain ⟨g', k1, k2, k3, k4⟩ := exchangeIn_packet chk T i n p a r g hf hg hwf hn h hb
  refine ⟨_, k1, ?_, ?_, ?_⟩
  · rw [e]; simp [k2, hg]
  · intro x hx
    simp only [List.mem_append, List.mem_cons] at hx
    rcases hx with hx | rfl | hx
    · exact hwf x (by rw [e]; simp [hx])
    · exact k3
    · exact hwf x (by rw [e]; simp [hx])
  · rw [k4, ← ha, List.map_map]; rfl

/-- The client exchanges the link addresses and the addresses of the IP header. -/
def turnAddrs (chk v6 : Bool) (p : Packet) : R Packet := do
  let p ← exchangeIn chk Ether 0 6 p
  if v6 then exchangeIn chk IPv6 8 16 p else exchangeIn chk IPv4 12 4 p

/-- The client also exchanges the ports, the first two fields of the transport header `T`. -/
def turnPorts (chk v6 : Bool) (T : HeaderDef) (p : Packet) : R Packet := do
  let p ← turnAddrs chk v6 p
  exchangeIn chk T 0 2 p

/-! ## The frame -/

theorem l3At_ge (f : Bytes) : 14 ≤ l3At f := by unfold l3At; split <;> decide

/-- The datagram for the way back. -/
def Spec.Datagram.back (g : Datagram) : Datagram := { g with src := g.dst, dst := g.src }

/-- Whether the Ethernet type says IPv6. -/
theorem v6_type {f : Bytes} {g : Datagram} (hi : ipInput f = some g) : g.v6 = decide (u16At f (l3At f - 2) = 0x86DD) ∧
    l3At f + ipLen f ≤ f.length ∧ ipLen f = (if g.v6 then 40 else 20) ∧ g.src.length = (if g.v6 then 16 else 4) ∧
    g.dst.length = (if g.v6 then 16 else 4) := by
  unfold ipInput at hi
  split at hi
  rotate_left
  · cases hi
  next et b hli =>
  split at hi
  next he =>
    obtain ⟨e1, e2, e3, -⟩ := link_seen f b et hli (.inl he)
    unfold ip4Input at hi
    obtain ⟨⟨c1, -⟩, hi⟩ := Option.ite_none_right_eq_some.mp hi
    cases hi
    have : b.length = f.length - l3At f := by rw [e2, List.length_drop]
    rw [ipLen, ← e1, if_pos he, decide_eq_false (by omega)]
    refine ⟨rfl, by omega, rfl, ?_, ?_⟩ <;> simp only [List.length_take, List.length_drop, Bool.false_eq_true, if_false] <;> omega
  next he =>
    obtain ⟨he6, hi⟩ := Option.ite_none_right_eq_some.mp hi
    obtain ⟨e1, e2, e3, -⟩ := link_seen f b et hli (.inr he6)
    unfold ip6Input at hi
    obtain ⟨⟨c1, -⟩, hi⟩ := Option.ite_none_right_eq_some.mp hi
    cases hi
    have : b.length = f.length - l3At f := by rw [e2, List.length_drop]
    rw [ipLen, ← e1, if_neg he, decide_eq_true he6]
    refine ⟨rfl, by omega, rfl, ?_, ?_⟩ <;> simp only [List.length_take, List.length_drop, if_true] <;> omega

/-- Exchanged addresses in the IP header: the header checksum still verifies. -/
theorem ipInput_back {f : Bytes} {g : Datagram} (hi : ipInput f = some g) :
    ipInput (swapAt f (l3At f + if g.v6 then 8 else 12) (if g.v6 then 16 else 4)) = some g.back := by
  obtain ⟨hv, hlen, hip, -, -⟩ := v6_type hi
  unfold ipInput at hi
  split at hi
  rotate_left
  · cases hi
  next et b hli =>
  have front : ∀ i n, l3At f ≤ f.length → swapAt f (l3At f + i) n = f.take (l3At f) ++ swapAt (f.drop (l3At f)) i n := by
    intro i n h
    conv => lhs; arg 1; rw [← List.take_append_drop (l3At f) f]
    rw [swapAt_behind _ _ _ _ _ (by rw [List.length_take]; omega)]
  split at hi
  next he =>
    obtain ⟨e1, e2, e3, -⟩ := link_seen f b et hli (.inl he)
    unfold ip4Input at hi
    obtain ⟨⟨c1, c2, c3, c4, c5, c6, c7⟩, hi⟩ := Option.ite_none_right_eq_some.mp hi
    cases hi
    simp only [Bool.false_eq_true, if_false]
    have hle : 12 + 2 * 4 ≤ b.length := by omega
    rw [front _ _ e3, ← e2]
    unfold ipInput
    rw [linkInput_front hli]
    simp only [he, if_true]
    unfold ip4Input
    have u8 : ∀ j, j < 12 → u8At (swapAt b 12 4) j = u8At b j := fun j hj => swapAt_u8 _ _ _ hle j (by omega)
    have u16 : ∀ j, j < 11 → u16At (swapAt b 12 4) j = u16At b j := fun j hj => swapAt_u16 _ _ _ hle j (by omega)
    have hihl : ihl (swapAt b 12 4) 0 = ihl b 0 := by rw [ihl, u8 0 (by decide), ihl]
    have hver : Verifies ((swapAt b 12 4).take (ihl b 0)) := by
      rw [swapAt_take _ _ _ _ (by omega) (by omega), verifies_iff, swapAt_sum _ _ _ (by rw [List.length_take]; omega) rfl rfl]
      exact (verifies_iff _).mp c6
    rw [hihl, swapAt_length _ _ _ hle, u8 0 (by decide), u8 9 (by decide), u16 2 (by decide), u16 6 (by decide),
      if_pos ⟨c1, c2, c3, c4, c5, hver, c7⟩, swapAt_fst _ _ _ hle, swapAt_snd b 12 4 hle, List.drop_take, List.drop_take,
      swapAt_drop _ _ _ hle _ (by omega)]
    rfl
  next he =>
    obtain ⟨he6, hi⟩ := Option.ite_none_right_eq_some.mp hi
    obtain ⟨e1, e2, e3, -⟩ := link_seen f b et hli (.inr he6)
    unfold ip6Input at hi
    obtain ⟨⟨c1, c2, c3⟩, hi⟩ := Option.ite_none_right_eq_some.mp hi
    cases hi
    simp only [if_true]
    have hle : 8 + 2 * 16 ≤ b.length := by omega
    rw [front _ _ e3, ← e2]
    unfold ipInput
    rw [linkInput_front hli]
    simp only [if_neg he, if_pos he6]
    unfold ip6Input
    have u8 : ∀ j, j < 8 → u8At (swapAt b 8 16) j = u8At b j := fun j hj => swapAt_u8 _ _ _ hle j (by omega)
    rw [swapAt_length _ _ _ hle, u8 0 (by decide), u8 6 (by decide), swapAt_u16 _ _ _ hle 4 (by omega),
      if_pos ⟨c1, c2, c3⟩, swapAt_fst _ _ _ hle, swapAt_snd b 8 16 hle, swapAt_drop _ _ _ hle _ (by omega)]
    rfl

/-- What stands where stays. -/
theorem turn_shape {f : Bytes} (f' : Bytes) (h12 : u16At f' 12 = u16At f 12) (hty : u16At f' (l3At f - 2) = u16At f (l3At f - 2))
    (h0 : u8At f' (l3At f) = u8At f (l3At f)) : l3At f' = l3At f ∧ ipLen f' = ipLen f ∧ (NoOptions f → NoOptions f') := by
  have h3 : l3At f' = l3At f := by rw [l3At, h12, l3At]
  refine ⟨h3, by rw [ipLen, h3, hty, ipLen], fun h => ?_⟩
  intro h4
  rw [h3, hty] at h4
  rw [h3, ihl, h0, ← ihl]
  exact h h4

/-- Exchanged link addresses. -/
theorem link_back {f : Bytes} {g : Datagram} (hi : ipInput f = some g) : ipInput (swapAt f 0 6) = some g ∧
    l3At (swapAt f 0 6) = l3At f ∧ ipLen (swapAt f 0 6) = ipLen f ∧ (NoOptions f → NoOptions (swapAt f 0 6)) := by
  have h14 := l3At_ge f
  have hl := (v6_type hi).2.1
  have hle : 0 + 2 * 6 ≤ f.length := by omega
  refine ⟨?_, turn_shape _ (swapAt_u16 _ _ _ hle _ (by omega)) (swapAt_u16 _ _ _ hle _ (by omega)) (swapAt_u8 _ _ _ hle _ (by omega))⟩
  rw [← hi]
  refine ipInput_ignored (swapAt_length _ _ _ hle) fun i h => ?_
  have h96 : 96 ≤ i := by
    by_contra c
    exact h (.inl (by omega))
  have := congrArg (fun d => netBit d (i - 96)) (swapAt_drop f 0 6 hle 12 (by omega))
  simp only [netBit_drop] at this
  rwa [show 8 * 12 + (i - 96) = i by omega] at this

/-- What `turnAddrs` makes of a frame. -/
theorem turnAddrs_frame {chk : Bool} {f : Bytes} {g : Datagram} {p : Packet} (hi : ipInput f = some g)
    (hp : Slow.parse chk f = .ok p) (hg : ∀ g ∈ p.hdrs, g.ty = GRE → greOptCount g.data ≤ 1) :
    ∃ q, turnAddrs chk g.v6 p = .ok q ∧ q.hdrs.map (·.ty) = p.hdrs.map (·.ty) ∧ (∀ x ∈ q.hdrs, x.data.length = x.ty.size) ∧
      q.to_vec = swapAt (swapAt f 0 6) (l3At f + if g.v6 then 8 else 12) (if g.v6 then 16 else 4) ∧ ipInput q.to_vec = some g.back := by
  obtain ⟨ip, post, hs, hty⟩ := seen_types hi hp
  obtain ⟨hv, -⟩ := v6_type hi
  have hwf := frame_sizes hp
  have hvec := C23_roundtrip_frame chk f p hp hg
  obtain ⟨k1, k2, -⟩ := link_back hi
  obtain ⟨L, hL, hLs, hLn⟩ : ∃ L, p.hdrs.map (·.ty) = Ether :: L ++ ip.ty :: post.map (·.ty) ∧ ((Ether :: L).map (·.size)).sum = l3At f ∧
      ∀ S ∈ Ether :: L, S = Ether ∨ S = Vlan := by
    by_cases c : u16At f 12 = 0x8100
    · refine ⟨[Vlan], by rw [hs, if_pos c]; rfl, by rw [l3At, if_pos c]; rfl, ?_⟩
      simp
    · refine ⟨[], by rw [hs, if_neg c]; rfl, by rw [l3At, if_neg c]; rfl, ?_⟩
      simp
  obtain ⟨q1, e1, t1, w1, v1⟩ := exchangeIn_types chk Ether 0 6 p [] (L ++ ip.ty :: post.map (·.ty)) (by rw [hL]; rfl) (by simp) hwf
    (by decide) (by decide) (by decide)
  rw [hvec] at v1
  have hb := ipInput_back k1
  rw [k2] at hb
  have names : ∀ T : HeaderDef, T = IPv4 ∨ T = IPv6 → ∀ S ∈ Ether :: L, S.name ≠ T.name := by
    intro T hT S hS
    rcases hT with rfl | rfl <;> rcases hLn S hS with rfl | rfl <;> decide
  cases h6 : g.v6 with
  | true =>
    rw [h6] at hv hb
    rw [if_pos (of_decide_eq_true hv.symm)] at hty
    obtain ⟨q, e, t, w, v⟩ := exchangeIn_types chk IPv6 8 16 q1 (Ether :: L) (post.map (·.ty)) (by rw [t1, hL, hty])
      (names _ (.inr rfl)) w1 (by decide) (by decide) (by decide)
    rw [hLs, v1] at v
    refine ⟨q, ?_, by rw [t, t1], w, v, ?_⟩
    · simp only [turnAddrs, e1, bind, Except.bind, if_true, e]
    · rw [v]; exact hb
  | false =>
    rw [h6] at hv hb
    rw [if_neg (of_decide_eq_false hv.symm)] at hty
    obtain ⟨q, e, t, w, v⟩ := exchangeIn_types chk IPv4 12 4 q1 (Ether :: L) (post.map (·.ty)) (by rw [t1, hL, hty])
      (names _ (.inl rfl)) w1 (by decide) (by decide) (by decide)
    rw [hLs, v1] at v
    refine ⟨q, ?_, by rw [t, t1], w, v, ?_⟩
    · simp only [turnAddrs, e1, bind, Except.bind, Bool.false_eq_true, if_false, e]
    · rw [v]; exact hb

/-- What `turnPorts` makes of a frame. -/
theorem turnPorts_frame {chk : Bool} {f : Bytes} {g : Datagram} {p : Packet} (hi : ipInput f = some g) (ho : NoOptions f)
    (hp : Slow.parse chk f = .ok p) (hg : ∀ g ∈ p.hdrs, g.ty = GRE → greOptCount g.data ≤ 1) {T : HeaderDef} {l : Layer}
    {nx : Bytes → Layer} (hlp : l ≠ .payload) (hl : (if g.v6 then ipv6Next g.proto else ipv4Next g.proto) = l)
    (hstep : ∀ r, dstep l r = one T r (nx r)) (hn : T.name ≠ Ether.name ∧ T.name ≠ Vlan.name ∧ T.name ≠ IPv4.name ∧ T.name ≠ IPv6.name)
    (hsz : T.size ≤ g.data.length) (h4 : 4 ≤ T.size) :
    ∃ q, turnPorts chk g.v6 T p = .ok q ∧ ipInput q.to_vec = some { g.back with data := swapAt g.data 0 2 } := by
  obtain ⟨y, hy, pre, post, hs, -, hpre, -⟩ := carries_parsed hi ho hp hg hlp hl hstep hn hsz
  obtain ⟨q1, e1, t1, w1, v1, i1⟩ := turnAddrs_frame hi hp hg
  obtain ⟨hv, hlen, hip, -, -⟩ := v6_type hi
  have hwf := frame_sizes hp
  have h14 := l3At_ge f
  have hpl : sizes pre = l3At f + ipLen f := by
    rw [← sizes_eq (fun x hx => hwf x (by rw [hs.1]; simp [hx])), hpre, List.length_take]; omega
  obtain ⟨q, e, -, -, v⟩ := exchangeIn_types chk T 0 2 q1 (pre.map (·.ty)) (post.map (·.ty)) (by rw [t1, hs.1]; simp)
    (by intro S hS
        obtain ⟨x, hx, rfl⟩ := List.mem_map.mp hS
        exact hs.2.2 x hx) w1 (by decide) (by omega) (by decide)
  rw [List.map_map, show ((pre.map ((·.size) ∘ (·.ty))).sum) = sizes pre from rfl, hpl, Nat.add_zero] at v
  refine ⟨q, by simp only [turnPorts, e1, bind, Except.bind, e], ?_⟩
  -- the shape of the frame after the addresses are exchanged
  obtain ⟨k1, k2, k3, k4⟩ := link_back hi
  have hl1 : (swapAt f 0 6).length = f.length := swapAt_length _ _ _ (by omega)
  have hle : l3At f + (if g.v6 then 8 else 12) + 2 * (if g.v6 then 16 else 4) ≤ (swapAt f 0 6).length := by
    rw [hl1]; rw [hip] at hlen; split at hlen <;> simp_all
  have hend : l3At f + (if g.v6 then 8 else 12) + 2 * (if g.v6 then 16 else 4) = l3At f + ipLen f := by
    rw [hip]; split <;> rfl
  have h8 : 8 ≤ if g.v6 then 8 else 12 := by split <;> decide
  obtain ⟨s1, s2, s3⟩ := turn_shape (f := swapAt f 0 6) q1.to_vec (by rw [v1]; exact swapAt_u16 _ _ _ hle _ (by omega))
    (by rw [v1, k2]; exact swapAt_u16 _ _ _ hle _ (by omega)) (by rw [v1, k2]; exact swapAt_u8 _ _ _ hle _ (by omega))
  have hlq : q1.to_vec.length = f.length := by rw [v1, swapAt_length _ _ _ hle, hl1]
  have hdrop : q1.to_vec.drop (l3At f + ipLen f) = g.data ++ y := by
    rw [v1, swapAt_drop _ _ _ hle _ (by omega), swapAt_drop _ _ _ (by omega) _ (by omega), hy]
  have hc := ipInput_contents (D' := swapAt g.data 0 2) (y := y) i1 (s3 (k4 ho)) (by rw [s1, s2, k2, k3]; exact hdrop)
    (swapAt_length _ _ _ (by show 0 + 2 * 2 ≤ g.data.length; omega))
  rw [s1, s2, k2, k3] at hc
  rw [v, ← hc]
  congr 1
  conv => lhs; arg 1; rw [← List.take_append_drop (l3At f + ipLen f) q1.to_vec]
  have := swapAt_behind (q1.to_vec.take (l3At f + ipLen f)) (q1.to_vec.drop (l3At f + ipLen f)) (l3At f + ipLen f) 0 2
    (by rw [List.length_take]; omega)
  rw [Nat.add_zero] at this
  rw [this, hdrop, swapAt_append _ _ _ _ (by omega)]

/-! ## What the host gets -/

/-- The sum over pseudo header and contents for the way back. -/
theorem back_verifies {g : Datagram} (hs : g.src.length % 2 = 0) (hd : g.dst.length % 2 = 0) (n : Nat) (r r' : Bytes)
    (hr : (words r').sum = (words r).sum) : Verifies (g.back.pseudo n ++ r') ↔ Verifies (g.pseudo n ++ r) := by
  have tail : ∀ t : Bytes, t.length % 2 = 0 →
      (words (g.dst ++ (g.src ++ (t ++ r')))).sum = (words (g.src ++ (g.dst ++ (t ++ r)))).sum := by
    intro t ht
    rw [words_append _ _ hd, words_append _ _ hs, words_append _ _ hs, words_append _ _ hd, words_append _ _ ht, words_append _ _ ht]
    simp only [List.sum_append, hr]
    omega
  have : (words (g.back.pseudo n ++ r')).sum = (words (g.pseudo n ++ r)).sum := by
    unfold Datagram.pseudo Datagram.back
    simp only
    split
    · have := tail (num32 n ++ [0#8, 0#8, 0#8, BitVec.ofNat 8 g.proto]) (by simp [num32, num16])
      simpa only [List.append_assoc] using this
    · have := tail ([0#8, BitVec.ofNat 8 g.proto] ++ num16 n) (by simp [num16])
      simpa only [List.append_assoc] using this
  rw [verifies_iff, verifies_iff, this]

theorem even_addrs {f : Bytes} {g : Datagram} (hi : ipInput f = some g) : g.src.length % 2 = 0 ∧ g.dst.length % 2 = 0 := by
  obtain ⟨-, -, -, h1, h2⟩ := v6_type hi
  rw [h1, h2]
  split <;> decide

theorem swapAt_ports (d : Bytes) (h : 4 ≤ d.length) : u16At (swapAt d 0 2) 0 = u16At d 2 ∧ u16At (swapAt d 0 2) 2 = u16At d 0 := by
  have hl := swapAt_length d 0 2 (by omega)
  constructor
  · rw [← words_at _ 0 (by omega), swapAt_fst _ _ _ (by omega), ← words_at _ 2 (by omega)]
  · rw [← words_at _ 2 (by omega), show ((swapAt d 0 2).drop 2).take 2 = (d.drop 0).take 2 from swapAt_snd d 0 2 (by omega), words_at _ 0 (by omega)]

/-- **C102, UDP.** The message comes back: addresses and ports exchanged, the data as they were. -/
theorem C102_udp {chk : Bool} {f : Bytes} {m : UdpMsg} {p : Packet} (hm : hostUdp f = some m) (ho : NoOptions f)
    (hp : Slow.parse chk f = .ok p) (hg : ∀ g ∈ p.hdrs, g.ty = GRE → greOptCount g.data ≤ 1) :
    ∃ q, turnPorts chk (decide (u16At f (l3At f - 2) = 0x86DD)) UDP p = .ok q ∧
      hostUdp q.to_vec = some { m with src := m.dst, dst := m.src, sport := m.dport, dport := m.sport } := by
  obtain ⟨g, hi, hm⟩ := Option.bind_eq_some_iff.mp hm
  obtain ⟨hs, hd⟩ := even_addrs hi
  unfold udpInput at hm
  simp only at hm
  obtain ⟨⟨c1, c2, c3, c4⟩, hm⟩ := Option.ite_none_right_eq_some.mp hm
  cases hm
  have hle : 0 + 2 * 2 ≤ g.data.length := by omega
  obtain ⟨q, e, h⟩ := turnPorts_frame (T := UDP) (l := .udp) hi ho hp hg (by decide) (by rw [c1]; split <;> rfl) (fun _ => rfl)
    (by decide) (by show 8 ≤ g.data.length; omega) (by decide)
  rw [(v6_type hi).1] at e
  refine ⟨q, e, ?_⟩
  rw [hostUdp, h, Option.bind_some]
  unfold udpInput
  simp only
  obtain ⟨p0, p2⟩ := swapAt_ports g.data (by omega)
  rw [swapAt_u16 _ _ _ hle 4 (by omega), swapAt_u16 _ _ _ hle 6 (by omega), swapAt_length _ _ _ hle, p0, p2,
    swapAt_take _ _ _ _ (by omega) c3,
    if_pos ⟨c1, c2, c3, c4.imp id fun c => ⟨c.1, (back_verifies hs hd _ _ _ (swapAt_sum _ _ _
      (by rw [List.length_take]; omega) rfl rfl)).mpr c.2⟩⟩, swapAt_drop _ _ _ (by rw [List.length_take]; omega) _ (by omega)]
  rfl

/-- **C102, TCP.** The segment comes back with all its numbers. -/
theorem C102_tcp {chk : Bool} {f : Bytes} {m : TcpSeg} {p : Packet} (hm : hostTcp f = some m) (ho : NoOptions f)
    (hp : Slow.parse chk f = .ok p) :
    ∃ q, turnPorts chk (decide (u16At f (l3At f - 2) = 0x86DD)) TCP p = .ok q ∧
      hostTcp q.to_vec = some { m with src := m.dst, dst := m.src, sport := m.dport, dport := m.sport } := by
  obtain ⟨g, hi, hm⟩ := Option.bind_eq_some_iff.mp hm
  obtain ⟨hs, hd⟩ := even_addrs hi
  unfold tcpInput at hm
  simp only at hm
  obtain ⟨⟨c1, c2, c3, c4⟩, hm⟩ := Option.ite_none_right_eq_some.mp hm
  cases hm
  have hle : 0 + 2 * 2 ≤ g.data.length := by omega
  have hl : (if g.v6 then ipv6Next g.proto else ipv4Next g.proto) = .tcp := by rw [c1]; split <;> rfl
  have hsz : TCP.size ≤ g.data.length := by show 20 ≤ g.data.length; omega
  obtain ⟨q, e, h⟩ := turnPorts_frame (T := TCP) hi ho hp
    (no_gre hi ho hp (T := TCP) (by decide) hl (fun _ => rfl) hsz (by decide)) (by decide) hl (fun _ => rfl) (by decide) hsz (by decide)
  rw [(v6_type hi).1] at e
  refine ⟨q, e, ?_⟩
  rw [hostTcp, h, Option.bind_some]
  unfold tcpInput
  simp only
  obtain ⟨p0, p2⟩ := swapAt_ports g.data (by omega)
  have u16 : ∀ j, 4 ≤ j → u16At (swapAt g.data 0 2) j = u16At g.data j := fun j hj => swapAt_u16 _ _ _ hle j (by omega)
  have u8 : ∀ j, 4 ≤ j → u8At (swapAt g.data 0 2) j = u8At g.data j := fun j hj => swapAt_u8 _ _ _ hle j (by omega)
  rw [swapAt_length _ _ _ hle, p0, p2, u8 12 (by decide), u8 13 (by decide), u16 4 (by decide), u16 6 (by decide), u16 8 (by decide),
    u16 10 (by decide), u16 14 (by decide), u16 18 (by decide),
    if_pos ⟨c1, c2, c3, (back_verifies hs hd _ _ _ (swapAt_sum _ _ _ hle rfl rfl)).mpr c4⟩, swapAt_drop _ _ _ hle _ (by omega)]
  rfl

/-- **C102, ICMP.** With the addresses exchanged the message is taken as it was, over IPv4 and over IPv6. -/
theorem C102_icmp {chk : Bool} {f : Bytes} {m : IcmpMsg} {p : Packet} (hm : hostIcmp f = some m)
    (hp : Slow.parse chk f = .ok p) (hg : ∀ g ∈ p.hdrs, g.ty = GRE → greOptCount g.data ≤ 1) :
    ∃ q, turnAddrs chk (decide (u16At f (l3At f - 2) = 0x86DD)) p = .ok q ∧
      hostIcmp q.to_vec = some { m with src := m.dst, dst := m.src } := by
  obtain ⟨g, hi, hm⟩ := Option.bind_eq_some_iff.mp hm
  obtain ⟨hs, hd⟩ := even_addrs hi
  obtain ⟨q, e, -, -, -, h⟩ := turnAddrs_frame hi hp hg
  rw [(v6_type hi).1] at e
  refine ⟨q, e, ?_⟩
  unfold icmpInput at hm
  obtain ⟨⟨c1, c2⟩, hm⟩ := Option.ite_none_right_eq_some.mp hm
  cases hm
  rw [hostIcmp, h, Option.bind_some]
  unfold icmpInput
  rw [if_pos ⟨c1, c2.imp (fun c => ⟨c.1, c.2.1, (back_verifies hs hd _ _ _ rfl).mpr c.2.2⟩) id⟩]
  rfl

/-! ## Address resolution -/

theorem linkInput_eq (f : Bytes) :
    linkInput f = if f.length < l3At f then none else some (u16At f (l3At f - 2), f.drop (l3At f)) := by
  unfold linkInput l3At
  by_cases c : u16At f 12 = 0x8100
  · simp only [c, ne_eq, not_true_eq_false, if_false, if_true]
    by_cases h : f.length < 18
    · simp [h]
    · rw [if_neg (by omega)]
  · simp only [c, ne_eq, not_false_eq_true, if_false, if_true]

/-- Whole octets of the first header of a type replaced. -/
theorem putIn_types (T : HeaderDef) (F : Hdr → R Hdr) (i : Nat) (w : Bytes)
    (hF : ∀ g : Hdr, g.ty = T → g.data.length = T.size → F g = .ok ⟨T, putAt g.data i w⟩) (p : Packet) (pre post : List HeaderDef)
    (hs : p.hdrs.map (·.ty) = pre ++ T :: post) (hpre : ∀ S ∈ pre, S.name ≠ T.name) (hwf : ∀ x ∈ p.hdrs, x.data.length = x.ty.size)
    (h : i + w.length ≤ T.size) :
    ∃ q, p.withHeaderMut T T.name F = .ok q ∧ q.hdrs.map (·.ty) = p.hdrs.map (·.ty) ∧ (∀ x ∈ q.hdrs, x.data.length = x.ty.size) ∧
      q.to_vec = putAt p.to_vec ((pre.map (·.size)).sum + i) w := by
  obtain ⟨a, b, e, ha, hb'⟩ := List.map_eq_append_iff.mp hs
  obtain ⟨g, r, rfl, hg, hr⟩ := List.map_eq_cons_iff.mp hb'
  have hf : IsFirstNamed p.hdrs T.name a g r :=
    ⟨e, by rw [Hdr.name, hg], fun x hx => hpre _ (ha ▸ List.mem_map_of_mem hx)⟩
  have hgl : g.data.length = T.size := by rw [hwf g (by rw [e]; simp), hg]
  refine ⟨⟨a ++ ⟨T, putAt g.data i w⟩ :: r, p.payload⟩, ?_, ?_, ?_, ?_⟩
  · simp only [Packet.withHeaderMut, modifyFirst_of_first hf, hg, if_true, hF g hg hgl, bind, Except.bind, pure, Except.pure, Except.map]
  · rw [e]; simp [hg]
  · intro x hx
    simp only [List.mem_append, List.mem_cons] at hx
    rcases hx with hx | rfl | hx
    · exact hwf x (by rw [e]; simp [hx])
    · exact (putAt_length _ _ _ (by omega)).trans hgl
    · exact hwf x (by rw [e]; simp [hx])
  · have hl : (a.map (·.data)).flatten.length = (pre.map (·.size)).sum := by
      rw [sizes_eq (fun x hx => hwf x (by rw [e]; simp [hx])), ← ha, List.map_map]; rfl
    obtain ⟨hd, pl⟩ := p
    obtain rfl := hf.1
    rw [wire_split, wire_split]
    conv => rhs; unfold putAt
    rw [Nat.add_assoc, drop_add_left _ _ _ _ hl, List.take_append, List.take_of_length_le (by omega), hl, Nat.add_sub_cancel_left,
      ← List.append_assoc, ← List.append_assoc, List.append_assoc, List.append_assoc, ← putAt_append _ _ _ _ (by omega)]
    unfold putAt
    simp only [List.append_assoc]

/-- An ARP responder: sender and target exchanged, operation 2, its own address as the sender; the answer goes to where the
request came from. -/
def arpReply (chk : Bool) (mac : Bytes) (p : Packet) : R Packet := do
  let p ← exchangeIn chk ARP 8 10 p
  let p ← p.withHeaderMut ARP ARP.name fun h => h.set ARP.opcode 2
  let p ← p.withHeaderMut ARP ARP.name fun h => h.set_bytes chk 111 64 mac
  let p ← exchangeIn chk Ether 0 6 p
  p.withHeaderMut Ether Ether.name fun h => h.set_bytes chk 95 48 mac

/-- The headers of a frame with an ARP message. -/
theorem arp_types {chk : Bool} {f : Bytes} {m : ArpMsg} (hm : hostArp f = some m) :
    ∃ p L, Slow.parse chk f = .ok p ∧ p.hdrs.map (·.ty) = Ether :: L ++ [ARP] ∧ ((Ether :: L).map (·.size)).sum = l3At f ∧
      (∀ S ∈ Ether :: L, S = Ether ∨ S = Vlan) ∧ l3At f + 28 ≤ f.length ∧ u16At f (l3At f - 2) = 0x0806 ∧
      arpInput (f.drop (l3At f)) = some m := by
  unfold hostArp at hm
  rw [linkInput_eq] at hm
  by_cases c : f.length < l3At f
  · rw [if_pos c] at hm; cases hm
  rw [if_neg c] at hm
  obtain ⟨he, hm⟩ := Option.ite_none_right_eq_some.mp hm
  have h28 : 28 ≤ (f.drop (l3At f)).length := by
    unfold arpInput at hm
    exact (Option.ite_none_right_eq_some.mp hm).1.1
  have h14 := l3At_ge f
  have hlen : l3At f + 28 ≤ f.length := by rw [List.length_drop] at h28; omega
  by_cases d : u16At f 12 = 0x8100
  · have h18 : l3At f = 18 := by rw [l3At, if_pos d]
    rw [h18] at he h28 hlen hm ⊢
    have e : Slow.parse chk f = (Slow.parseL chk .payload (f.drop 46)).map
        (prep [⟨Ether, f.take 14⟩, ⟨Vlan, (f.drop 14).take 4⟩, ⟨ARP, (f.drop 18).take 28⟩]) := by
      rw [Slow.parse_eq, if_neg (by omega), if_neg (by omega), parse_one f (by decide) rfl (show 14 ≤ f.length by omega), d,
        show etherNext 0x8100 = .vlan from rfl,
        parse_one (f.drop Ether.size) (by decide) rfl (show 4 ≤ (f.drop 14).length by rw [List.length_drop]; omega), map_prep,
        List.drop_drop, u16At_drop_add, show u16At f (Ether.size + 2) = 0x0806 from he, show etherNext 0x0806 = .arp from rfl,
        parse_one (f.drop _) (by decide) rfl (show 28 ≤ (f.drop 18).length from h28), map_prep, List.drop_drop]
      rfl
    exact ⟨_, [Vlan], e, rfl, rfl, by simp, hlen, he, hm⟩
  · have h14' : l3At f = 14 := by rw [l3At, if_neg d]
    rw [h14'] at he h28 hlen hm ⊢
    have e : Slow.parse chk f = (Slow.parseL chk .payload (f.drop 42)).map
        (prep [⟨Ether, f.take 14⟩, ⟨ARP, (f.drop 14).take 28⟩]) := by
      have he' : u16At f 12 = 0x0806 := he
      rw [Slow.parse_eq, if_neg (by omega), if_neg (by omega), parse_one f (by decide) rfl (show 14 ≤ f.length by omega), he',
        show etherNext 0x0806 = .arp from rfl,
        parse_one (f.drop _) (by decide) rfl (show 28 ≤ (f.drop 14).length from h28), map_prep, List.drop_drop]
      rfl
    exact ⟨_, [], e, rfl, rfl, by simp, hlen, he, hm⟩

theorem set_opcode (g : Hdr) (hg : g.ty = ARP) (hl : g.data.length = ARP.size) :
    g.set ARP.opcode 2 = .ok ⟨ARP, putAt g.data 6 [0#8, 2#8]⟩ := by
  have hl : g.data.length = 28 := hl
  obtain ⟨g', e, ht, hl', hbits⟩ := set_bits g ARP.opcode 2 ⟨by decide, by rw [hl]; decide⟩
  rw [e]
  obtain ⟨ty, d⟩ := g'
  simp only at ht hl' hbits
  subst ht
  rw [hg]
  congr 2
  have hta : (g.data.take 6).length = 6 := by rw [List.length_take]; omega
  have hle : 6 + [0#8, 2#8].length ≤ g.data.length := by rw [hl]; decide
  apply eq_of_netBit
  · rw [putAt_length _ _ _ hle, hl']
  · intro i hi
    rw [hbits i]
    unfold putAt
    by_cases c1 : i < 48
    · rw [if_neg (fun h => by have : 48 ≤ i := h.1; omega), netBit_append_left _ _ _ (by omega), netBit_take, decide_eq_true (by omega),
        Bool.true_and]
    · rw [netBit_append_right _ _ _ (by omega), hta]
      by_cases c2 : i < 64
      · rw [if_pos ⟨show 48 ≤ i by omega, show i ≤ 63 by omega⟩, netBit_append_left _ _ _ (by simp; omega)]
        have := netBit_num16 2 (i - 48) (by omega)
        rw [show num16 (2 : U64).toNat = [0#8, 2#8] from rfl] at this
        rw [this, show ARP.opcode.hi = 63 from rfl]
        congr 1; omega
      · rw [if_neg (fun h => by have : i ≤ 63 := h.2; omega), netBit_append_right _ _ _ (by simp; omega), netBit_drop]
        congr 1
        simp only [List.length_cons, List.length_nil]
        omega

/-- Part of a range. -/
theorem range_part (b : Bytes) (i k j n : Nat) (h : j + n ≤ k) : (((b.drop i).take k).drop j).take n = (b.drop (i + j)).take n := by
  rw [List.drop_take, List.take_take, Nat.min_eq_left (by omega), List.drop_drop]

theorem putAt_range (b : Bytes) (a : Nat) (w : Bytes) (i n : Nat) (h : a + w.length ≤ b.length) (hi : i + n ≤ a ∨ a + w.length ≤ i) :
    ((putAt b a w).drop i).take n = (b.drop i).take n := by
  rcases hi with hi | hi
  · have ht : (putAt b a w).take a = b.take a := by
      unfold putAt
      rw [List.take_append_of_le_length (by rw [List.length_take]; omega), List.take_take, Nat.min_self]
    have := congrArg (fun d => (d.drop i).take n) ht
    simpa only [List.drop_take, List.take_take, Nat.min_eq_left (show n ≤ a - i by omega)] using this
  · rw [putAt_drop _ _ _ h _ hi]

/-- **C102, address resolution.** The request names the responder: its answer says so, and is sent to whoever asked. -/
theorem C102_arp_reply {chk : Bool} {f : Bytes} {m : ArpMsg} (hm : hostArp f = some m) (mac : Bytes) (hmac : mac.length = 6) :
    ∃ p q, Slow.parse chk f = .ok p ∧ arpReply chk mac p = .ok q ∧
      hostArp q.to_vec = some ⟨2, mac, m.tpa, m.sha, m.spa⟩ ∧
      q.to_vec.length = f.length ∧ q.to_vec.take 6 = (f.drop 6).take 6 ∧ (q.to_vec.drop 6).take 6 = mac := by
  obtain ⟨p, L, hp, ht, hsz, hn, hlen, he, ha⟩ := arp_types (chk := chk) hm
  have h14 := l3At_ge f
  have hwf := frame_sizes hp
  have hvec : p.to_vec = f := C23_roundtrip_frame chk f p hp (by
    intro g hg e
    have : GRE ∈ p.hdrs.map (·.ty) := e ▸ List.mem_map_of_mem hg
    rw [ht] at this
    have := congrArg HeaderDef.name (List.mem_singleton.mp ((List.mem_append.mp this).resolve_left (fun h => by
      rcases hn _ h with e | e <;> have e := congrArg HeaderDef.name e <;> revert e <;> decide)))
    exact absurd this (by decide))
  have hA : ∀ S ∈ Ether :: L, S.name ≠ ARP.name := by
    intro S hS
    rcases hn S hS with rfl | rfl <;> decide
  have hE : ∀ S ∈ ([] : List HeaderDef), S.name ≠ Ether.name := by simp
  have hne : mac ≠ [] := by rintro rfl; cases hmac
  obtain ⟨q1, e1, t1, w1, v1⟩ := exchangeIn_types chk ARP 8 10 p (Ether :: L) [] ht hA hwf (by decide) (by decide) (by decide)
  obtain ⟨q2, e2, t2, w2, v2⟩ := putIn_types ARP (fun h => h.set ARP.opcode 2) 6 [0#8, 2#8] set_opcode q1 (Ether :: L) []
    (by rw [t1, ht]) hA w1 (by decide)
  obtain ⟨q3, e3, t3, w3, v3⟩ := putIn_types ARP (fun h => h.set_bytes chk 111 64 mac) 8 mac (by
      intro g hg hl
      have hl : g.data.length = 28 := hl
      have := setBytes_put chk g.data 8 mac hne (by omega) (by omega)
      rw [hmac] at this
      simp only [Hdr.set_bytes, this, bind, Except.bind, pure, Except.pure, hg])
    q2 (Ether :: L) [] (by rw [t2, t1, ht]) hA w2 (by rw [hmac]; decide)
  obtain ⟨q4, e4, t4, w4, v4⟩ := exchangeIn_types chk Ether 0 6 q3 [] (L ++ [ARP]) (by rw [t3, t2, t1, ht]; rfl) hE w3
    (by decide) (by decide) (by decide)
  obtain ⟨q, e5, t5, w5, v5⟩ := putIn_types Ether (fun h => h.set_bytes chk 95 48 mac) 6 mac (by
      intro g hg hl
      have hl : g.data.length = 14 := hl
      have := setBytes_put chk g.data 6 mac hne (by omega) (by omega)
      rw [hmac] at this
      simp only [Hdr.set_bytes, this, bind, Except.bind, pure, Except.pure, hg])
    q4 [] (L ++ [ARP]) (by rw [t4, t3, t2, t1, ht]; rfl) hE w4 (by rw [hmac]; decide)
  rw [hsz, hvec] at v1
  rw [hsz, v1] at v2
  rw [hsz] at v3
  simp only [List.map_nil, List.sum_nil, Nat.zero_add] at v4 v5
  -- the lengths
  have l1 : (swapAt f (l3At f + 8) 10).length = f.length := swapAt_length _ _ _ (by omega)
  have l2 : q2.to_vec.length = f.length := by rw [v2, putAt_length _ _ _ (by simp; omega), l1]
  have l3 : q3.to_vec.length = f.length := by rw [v3, putAt_length _ _ _ (by omega), l2]
  have l4 : q4.to_vec.length = f.length := by rw [v4, swapAt_length _ _ _ (by omega), l3]
  have l5 : q.to_vec.length = f.length := by rw [v5, putAt_length _ _ _ (by omega), l4]
  -- link addresses and Ethernet types
  have u16 : ∀ j, 12 ≤ j → j + 1 < l3At f → u16At q.to_vec j = u16At f j := by
    intro j h1 h2
    rw [v5, putAt_u16 _ _ _ (by omega) _ (by omega), v4, swapAt_u16 _ _ _ (by omega) _ (by omega), v3,
      putAt_u16 _ _ _ (by omega) _ (by omega), v2, putAt_u16 _ _ _ (by simp; omega) _ (by omega),
      swapAt_u16 _ _ _ (by omega) _ (by omega)]
  have h3 : l3At q.to_vec = l3At f := by rw [l3At, u16 12 (by omega) (by omega), l3At]
  -- the message
  have hdrop : q.to_vec.drop (l3At f) = putAt (putAt (swapAt (f.drop (l3At f)) 8 10) 6 [0#8, 2#8]) 8 mac := by
    have dp : ∀ (b : Bytes) (i : Nat) (w : Bytes), l3At f ≤ b.length → (putAt b (l3At f + i) w).drop (l3At f) = putAt (b.drop (l3At f)) i w := by
      intro b i w hb
      unfold putAt
      rw [List.drop_append_of_le_length (by rw [List.length_take]; omega), List.drop_take, Nat.add_sub_cancel_left, List.drop_drop, Nat.add_assoc]
    rw [v5, putAt_drop _ _ _ (by omega) _ (by omega), v4, swapAt_drop _ _ _ (by omega) _ (by omega), v3, dp _ _ _ (by omega), v2,
      dp _ _ _ (by omega)]
    congr 2
    conv => lhs; arg 2; arg 1; rw [← List.take_append_drop (l3At f) f]
    have hl : (f.take (l3At f)).length = l3At f := by rw [List.length_take]; omega
    rw [swapAt_behind _ _ _ _ _ hl, List.drop_left' hl]
  refine ⟨p, q, hp, ?_, ?_, l5, ?_, ?_⟩
  · simp only [arpReply, e1, e2, e3, e4, e5, bind, Except.bind]
  · unfold hostArp
    rw [linkInput_eq, h3, l5, if_neg (by omega), u16 (l3At f - 2) (by omega) (by omega)]
    simp only [he, if_true]
    rw [hdrop]
    have hbl : 28 ≤ (f.drop (l3At f)).length := by rw [List.length_drop]; omega
    generalize f.drop (l3At f) = b at ha hbl ⊢
    unfold arpInput at ha ⊢
    obtain ⟨⟨c1, c2, c3, c4, c5⟩, ha⟩ := Option.ite_none_right_eq_some.mp ha
    cases ha
    have s0 : 8 + 2 * 10 ≤ b.length := by omega
    have s1 := swapAt_length b 8 10 s0
    have s2 : 6 + [0#8, 2#8].length ≤ (swapAt b 8 10).length := by rw [s1]; simp; omega
    have s3 := putAt_length _ _ _ s2
    have s4 : 8 + mac.length ≤ (putAt (swapAt b 8 10) 6 [0#8, 2#8]).length := by omega
    have w6 : u16At (putAt (swapAt b 8 10) 6 [0#8, 2#8]) 6 = 2 := putAt_num16 (swapAt b 8 10) 6 2 (by omega)
    have f1 := swapAt_fst b 8 10 s0
    have f2 : ((swapAt b 8 10).drop 18).take 10 = (b.drop 8).take 10 := swapAt_snd b 8 10 s0
    have g1 : ((swapAt b 8 10).drop 14).take 4 = (b.drop 24).take 4 := by
      have := congrArg (fun d => (d.drop 6).take 4) f1
      simpa only [range_part _ _ _ _ _ (show 6 + 4 ≤ 10 by decide)] using this
    have g2 : ((swapAt b 8 10).drop 18).take 6 = (b.drop 8).take 6 := by
      have := congrArg (fun d => (d.drop 0).take 6) f2
      simpa only [range_part _ _ _ _ _ (show 0 + 6 ≤ 10 by decide)] using this
    have g3 : ((swapAt b 8 10).drop 24).take 4 = (b.drop 14).take 4 := by
      have := congrArg (fun d => (d.drop 6).take 4) f2
      simpa only [range_part _ _ _ _ _ (show 6 + 4 ≤ 10 by decide)] using this
    have k : [0#8, 2#8].length = 2 := rfl
    have w8 := putAt_at _ _ _ s4
    rw [hmac] at w8
    rw [putAt_length _ _ _ s4, s3, s1, putAt_u16 _ _ _ s4 0 (by omega), putAt_u16 _ _ _ s4 2 (by omega), putAt_u8 _ _ _ s4 4 (by omega),
      putAt_u8 _ _ _ s4 5 (by omega), putAt_u16 _ _ _ s4 6 (by omega), w6,
      putAt_u16 _ _ _ s2 0 (by omega), putAt_u16 _ _ _ s2 2 (by omega), putAt_u8 _ _ _ s2 4 (by omega), putAt_u8 _ _ _ s2 5 (by omega),
      swapAt_u16 _ _ _ s0 0 (by omega), swapAt_u16 _ _ _ s0 2 (by omega), swapAt_u8 _ _ _ s0 4 (by omega), swapAt_u8 _ _ _ s0 5 (by omega),
      if_pos ⟨c1, c2, c3, c4, c5⟩, w8, putAt_range _ _ _ 14 4 s4 (by omega), putAt_range _ _ _ 18 6 s4 (by omega),
      putAt_range _ _ _ 24 4 s4 (by omega), putAt_range _ _ _ 14 4 s2 (by omega), putAt_range _ _ _ 18 6 s2 (by omega),
      putAt_range _ _ _ 24 4 s2 (by omega), g1, g2, g3]
  · have a1 := putAt_range q4.to_vec 6 mac 0 6 (by omega) (by omega)
    have a2 := swapAt_fst q3.to_vec 0 6 (by omega)
    rw [← v5] at a1
    rw [← v4] at a2
    simp only [List.drop_zero, Nat.zero_add] at a1 a2
    rw [a1, a2, v3, putAt_range _ _ _ _ _ (by omega) (by omega), v2, putAt_range _ _ _ _ _ (by simp; omega) (by omega), swapAt,
      putAt_range _ _ _ _ _ (by rw [swapAt_w _ _ _ (by omega)]; omega) (by omega)]
  · have := putAt_at q4.to_vec 6 mac (by omega)
    rwa [hmac, ← v5] at this

/-- **C102, the request.** What a host takes from the frame of `create_arp_packet`: the arguments. -/
theorem C102_arp_create (eth_dst eth_src : Str) (ve : Bool) (vid : U16) (pcp : Byte) (opcode : U16) (smac tmac sip tip : Str)
    (payload d s sm tm si ti : Bytes) (hd : to_mac_bytes eth_dst = .ok d) (hs : to_mac_bytes eth_src = .ok s)
    (h1 : to_mac_bytes smac = .ok sm) (h2 : to_mac_bytes tmac = .ok tm) (h3 : to_ipv4_bytes sip = .ok si)
    (h4 : to_ipv4_bytes tip = .ok ti) :
    ∃ p, create_arp_packet eth_dst eth_src ve vid pcp opcode smac tmac sip tip payload = .ok p ∧
      hostArp p.to_vec = some ⟨opcode.toNat, sm, si, tm, ti⟩ := by
  have e : Packet.arp opcode smac tmac sip tip =
      .ok ⟨ARP, be16 1 ++ be16 0x0800#16 ++ [6#8] ++ [4#8] ++ be16 opcode ++ sm ++ si ++ tm ++ ti⟩ := by
    unfold Packet.arp
    rw [h1, h2, h3, h4]
    rfl
  refine ⟨_, C41_arp eth_dst eth_src ve vid pcp d s hd hs payload opcode smac tmac sip tip _ e, ?_⟩
  have ld := C31_length _ _ hd
  have ls := C31_length _ _ hs
  have l1 := C31_length _ _ h1
  have l2 := C31_length _ _ h2
  have l3 := C32_length _ _ h3
  have l4 := C32_length _ _ h4
  generalize hA : be16 1 ++ be16 0x0800#16 ++ [6#8] ++ [4#8] ++ be16 opcode ++ sm ++ si ++ tm ++ ti = A
  have hm : arpInput (A ++ payload) = some ⟨opcode.toNat, sm, si, tm, ti⟩ := by
    have hA' : A ++ payload = [0#8, 1#8, 8#8, 0#8, 6#8, 4#8] ++ (be16 opcode ++ (sm ++ (si ++ (tm ++ (ti ++ payload))))) := by
      rw [← hA]; simp only [List.append_assoc]; rfl
    rw [hA']
    have dr : ∀ (x r : Bytes) (k n : Nat), x.length = n → (x ++ r).drop (n + k) = r.drop k := fun x r k n h => drop_add_left _ _ _ _ h
    have lo : (be16 opcode).length = 2 := rfl
    have hu : u16At ([0#8, 1#8, 8#8, 0#8, 6#8, 4#8] ++ (be16 opcode ++ (sm ++ (si ++ (tm ++ (ti ++ payload)))))) 6 = opcode.toNat := by
      exact u16At_be16 opcode (sm ++ (si ++ (tm ++ (ti ++ payload))))
    unfold arpInput
    rw [if_pos ⟨by simp only [List.length_append, lo, l1, l2, l3, l4, List.length_cons, List.length_nil]; omega, rfl, rfl, rfl, rfl⟩, hu]
    have x0 : ([0#8, 1#8, 8#8, 0#8, 6#8, 4#8] : Bytes).length = 6 := rfl
    generalize ([0#8, 1#8, 8#8, 0#8, 6#8, 4#8] : Bytes) = X at x0 ⊢
    have d8 : (X ++ (be16 opcode ++ (sm ++ (si ++ (tm ++ (ti ++ payload)))))).drop 8 = sm ++ (si ++ (tm ++ (ti ++ payload))) :=
      (dr X _ 2 6 x0).trans (dr _ _ 0 2 lo)
    have d14 : (X ++ (be16 opcode ++ (sm ++ (si ++ (tm ++ (ti ++ payload)))))).drop 14 = si ++ (tm ++ (ti ++ payload)) :=
      (dr X _ 8 6 x0).trans ((dr _ _ 6 2 lo).trans (dr _ _ 0 6 l1))
    have d18 : (X ++ (be16 opcode ++ (sm ++ (si ++ (tm ++ (ti ++ payload)))))).drop 18 = tm ++ (ti ++ payload) :=
      (dr X _ 12 6 x0).trans ((dr _ _ 10 2 lo).trans ((dr _ _ 4 6 l1).trans (dr _ _ 0 4 l3)))
    have d24 : (X ++ (be16 opcode ++ (sm ++ (si ++ (tm ++ (ti ++ payload)))))).drop 24 = ti ++ payload :=
      (dr X _ 18 6 x0).trans ((dr _ _ 16 2 lo).trans ((dr _ _ 10 6 l1).trans ((dr _ _ 6 4 l3).trans (dr _ _ 0 6 l2))))
    rw [d8, d14, d18, d24, List.take_left' l1, List.take_left' l3, List.take_left' l2, List.take_left' l4]
  have ty : ∀ (t : U16) (r : Bytes), u16At (d ++ s ++ (be16 t ++ r)) 12 = t.toNat := by
    intro t r
    have := u16At_drop_add (d ++ s ++ (be16 t ++ r)) 12 0
    rw [List.drop_left' (by rw [List.length_append]; omega), u16At_be16] at this
    exact this.symm
  have dty : ∀ (t : U16) (r : Bytes), (d ++ s ++ (be16 t ++ r)).drop 14 = r := by
    intro t r
    rw [← List.append_assoc, List.drop_left' (by simp only [List.length_append, ld, ls]; rfl)]
  cases ve with
  | false =>
    have hv : (⟨l2Hdrs d s false vid pcp 0x0806#16 ++ [⟨ARP, A⟩], payload⟩ : Packet).to_vec = d ++ s ++ (be16 0x0806#16 ++ (A ++ payload)) := by
      simp [Packet.to_vec, Hdr.to_vec, l2Hdrs]
    unfold hostArp linkInput
    rw [hv, ty, if_neg (by simp only [List.length_append, ld, ls, show (be16 0x0806#16).length = 2 from rfl]; omega), if_pos (by decide), dty]
    exact hm
  | true =>
    have hv : (⟨l2Hdrs d s true vid pcp 0x0806#16 ++ [⟨ARP, A⟩], payload⟩ : Packet).to_vec =
        d ++ s ++ (be16 0x8100#16 ++ (be16 (vid ||| (pcp.setWidth 16 <<< 13)) ++ (be16 0x0806#16 ++ (A ++ payload)))) := by
      simp [Packet.to_vec, Hdr.to_vec, l2Hdrs]
    have hx : ∀ x r : Bytes, x.length = 2 → u16At (d ++ s ++ (be16 0x8100#16 ++ (x ++ (be16 0x0806#16 ++ r)))) 16 = 0x0806 ∧
        (d ++ s ++ (be16 0x8100#16 ++ (x ++ (be16 0x0806#16 ++ r)))).drop 18 = r := by
      intro x r hx
      have h14 := dty 0x8100#16 (x ++ (be16 0x0806#16 ++ r))
      constructor
      · have := u16At_drop_add (d ++ s ++ (be16 0x8100#16 ++ (x ++ (be16 0x0806#16 ++ r)))) 14 2
        rw [← this, h14, ← Nat.add_zero 2, ← u16At_drop_add, List.drop_left' hx, u16At_be16]
        rfl
      · rw [show 18 = 14 + 4 from rfl, ← List.drop_drop, h14, ← List.append_assoc, List.drop_left' (by rw [List.length_append, hx]; rfl)]
    obtain ⟨hx1, hx2⟩ := hx (be16 (vid ||| (pcp.setWidth 16 <<< 13))) (A ++ payload) rfl
    unfold hostArp linkInput
    rw [hv, ty, if_neg (by simp only [List.length_append, ld, ls, show ∀ t, (be16 t).length = 2 from fun _ => rfl]; omega),
      if_neg (by decide), if_neg (by simp only [List.length_append, ld, ls, show ∀ t, (be16 t).length = 2 from fun _ => rfl]; omega),
      hx1, hx2]
    exact hm

/-- A query over UDP comes back; an ARP request in a VLAN is answered, with six octets of padding left where they were. -/
example :
    let f : Bytes := [0, 17, 34, 51, 68, 85, 0, 6, 7, 8, 9, 10, 134, 221, 96, 0, 0, 0, 0, 10, 17, 64, 32, 1, 0, 0, 0, 0, 0, 0, 0, 0, 0, 0,
      0, 0, 0, 1, 32, 1, 0, 0, 0, 0, 0, 0, 0, 0, 0, 0, 0, 0, 0, 2, 4, 210, 0, 53, 0, 10, 16, 19, 170, 187]
    let m : UdpMsg := ⟨[32, 1, 0, 0, 0, 0, 0, 0, 0, 0, 0, 0, 0, 0, 0, 1], [32, 1, 0, 0, 0, 0, 0, 0, 0, 0, 0, 0, 0, 0, 0, 2], 1234, 53,
      [170, 187]⟩
    let a : Bytes := [255, 255, 255, 255, 255, 255, 0, 6, 7, 8, 9, 10, 129, 0, 32, 5, 8, 6, 0, 1, 8, 0, 6, 4, 0, 1, 0, 6, 7, 8, 9, 10,
      10, 0, 0, 1, 0, 0, 0, 0, 0, 0, 10, 0, 0, 2, 0, 0, 0, 0, 0, 0]
    hostUdp f = some m ∧ NoOptions f ∧
      (Slow.parse true f >>= turnPorts true true UDP).map (fun q => hostUdp q.to_vec) =
        .ok (some ⟨m.dst, m.src, 53, 1234, m.data⟩) ∧
      hostArp a = some ⟨1, [0, 6, 7, 8, 9, 10], [10, 0, 0, 1], [0, 0, 0, 0, 0, 0], [10, 0, 0, 2]⟩ ∧
      (Slow.parse true a >>= arpReply true [2, 2, 2, 2, 2, 2]).map (·.to_vec) = .ok
        [0, 6, 7, 8, 9, 10, 2, 2, 2, 2, 2, 2, 129, 0, 32, 5, 8, 6, 0, 1, 8, 0, 6, 4, 0, 2, 2, 2, 2, 2, 2, 2,
          10, 0, 0, 2, 0, 6, 7, 8, 9, 10, 10, 0, 0, 1, 0, 0, 0, 0, 0, 0] := by
  refine ⟨by decide +kernel, ?_, by decide +kernel, by decide +kernel, by decide +kernel⟩
  unfold NoOptions
  decide +kernel

/-- The same over IPv4: TCP with addresses and ports exchanged, ICMP behind IPv4 options with the addresses
exchanged. -/
example :
    let t := (Sample.get (create_tcp_packet true Sample.mac1 Sample.mac2 true 10 3 5 Sample.ip1 Sample.ip2 1 64 0x1234
      0 [] 0 1234 7 9 5 0 2 512 16307 true Sample.data)).to_vec
    let i : Bytes := [0, 17, 34, 51, 68, 85, 0, 6, 7, 8, 9, 10, 8, 0, 70, 0, 0, 34, 18, 52, 0, 0, 64, 1, 154, 251, 10, 0, 0, 1, 192, 168, 0, 2, 1, 1, 1, 0, 8, 0, 77, 65, 0, 1, 0, 2, 170, 187]
    (hostTcp t).isSome ∧ ihl t 18 = 20 ∧ hostIcmp i = some ⟨[10, 0, 0, 1], [192, 168, 0, 2], 8, 0, [0, 1, 0, 2, 170, 187]⟩ ∧
      (Slow.parse true t >>= turnPorts true false TCP).map (fun q => hostTcp q.to_vec) =
        .ok ((hostTcp t).map fun m => { m with src := m.dst, dst := m.src, sport := m.dport, dport := m.sport }) ∧
      (Slow.parse true i >>= turnAddrs true false).map (fun q => hostIcmp q.to_vec) =
        .ok ((hostIcmp i).map fun m => { m with src := m.dst, dst := m.src }) := by
  decide +kernel

example : (Utils.create_arp_packet "ff:ff:ff:ff:ff:ff".toList "00:06:07:08:09:0a".toList true 5#16 1#8 1#16 "00:06:07:08:09:0a".toList
    "00:00:00:00:00:00".toList "10.0.0.1".toList "10.0.0.2".toList []).map (fun p => hostArp p.to_vec) =
    .ok (some ⟨1, [0, 6, 7, 8, 9, 10], [10, 0, 0, 1], [0, 0, 0, 0, 0, 0], [10, 0, 0, 2]⟩) := by
  decide +kernel

end PacketRs
