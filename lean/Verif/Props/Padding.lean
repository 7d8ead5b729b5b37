import Verif.Props.Parser
/-!
# C110: frames cut short: padding that keeps the parsers from panicking, and what the cut frame shows

A capture often holds only the first octets of a frame, and on such a frame `parse` panics (C22).  A
caller can append octets first.  Which octets, and how many?
-/
namespace PacketRs
open Spec

/-! ## What follows the end of the captured octets -/

/-- Going through `b` step by step from layer `l` ends within `fuel` steps without a panic. -/
def reaches : Nat → Layer → Bytes → Bool
  | 0, _, _ => false
  | fuel + 1, l, b =>
    if l = .payload then true
    else match lay l b with
      | none => false
      | some (_, n, l') => reaches fuel l' (b.drop n)

theorem Dissect_of_reaches : ∀ (fuel : Nat) (l : Layer) (b : Bytes), reaches fuel l b = true →
    ∃ hs pl, Dissect l b hs pl := by
  intro fuel
  induction fuel with
  | zero => intro l b h; exact nomatch h
  | succ fuel ih =>
    intro l b h
    unfold reaches at h
    split at h
    · rename_i hl; subst hl; exact ⟨_, _, .payload _⟩
    · match e : lay l b with
      | none => rw [e] at h; exact nomatch h
      | some (hs, n, l') =>
        rw [e] at h
        obtain ⟨hs', pl, hd⟩ := ih _ _ h
        have e' : dstep l b = some (cut b hs, n, l') := by rw [dstep_eq_lay, e]; rfl
        exact ⟨_, _, Dissect_step e' hd⟩

/-- All layers. -/
def allLayers : List Layer :=
  [.ether, .vlan, .mpls, .mplsBos, .ipv4, .ipv6, .gre, .erspan2, .erspan3, .arp, .icmp, .tcp, .udp,
    .vxlan, .dot3, .llc, .snap, .payload]

theorem mem_allLayers (l : Layer) : l ∈ allLayers := by cases l <;> decide

/-- Sixty equal octets, odd and not 41, are enough for every layer. -/
theorem reaches_const : ∀ x : Byte, x.toNat % 2 = 1 → x.toNat ≠ 41 →
    ∀ l : Layer, reaches 6 l (List.replicate 60 x) = true := by
  have h : ∀ n < 256, n % 2 = 1 → n ≠ 41 →
      ∀ l ∈ allLayers, reaches 6 l (List.replicate 60 (BitVec.ofNat 8 n)) = true := by decide +kernel
  intro x h1 h2 l
  have := h x.toNat x.isLt h1 h2 l (mem_allLayers l)
  rwa [BitVec.ofNat_toNat, BitVec.setWidth_eq] at this

theorem Dissect_const_more {x : Byte} {l : Layer} {T k : Nat}
    (h : ∃ hs pl, Dissect l (List.replicate T x) hs pl) (hk : T ≤ k) :
    ∃ hs pl, Dissect l (List.replicate k x) hs pl := by
  obtain ⟨hs, pl, h⟩ := h
  have := Dissect_append (List.replicate (k - T) x) h
  rw [List.replicate_append_replicate, show T + (k - T) = k by omega] at this
  exact ⟨_, _, this⟩

/-- One induction for all paddings: `need` says how many octets `x` each layer needs when nothing else
is left, and `room` that they are there. -/
theorem Dissect_padded (x : Byte) (K : Nat) (hK : 40 ≤ K) (need : Layer → Nat)
    (tail : ∀ l, ∃ hs pl, Dissect l (List.replicate (need l) x) hs pl)
    (start : ∀ l, need l ≤ K)
    (room : ∀ l (b : Bytes) hs n l', dstep l (b ++ List.replicate K x) = some (hs, n, l') →
      b.length < n → need l' ≤ K - (n - b.length)) :
    ∀ m (l : Layer) (b : Bytes), b.length ≤ m →
      ∃ hs pl, Dissect l (b ++ List.replicate K x) hs pl := by
  intro m
  induction m with
  | zero =>
    intro l b hb
    have : b = [] := List.length_eq_zero_iff.mp (by omega)
    subst this
    exact Dissect_const_more (tail l) (start l)
  | succ m ih =>
    intro l b hb
    by_cases hl : l = .payload
    · subst hl; exact ⟨_, _, .payload _⟩
    have hle := dstep_le l (b ++ List.replicate K x)
    match e : dstep l (b ++ List.replicate K x) with
    | none =>
      rw [e] at hle
      simp only [List.length_append, List.length_replicate] at hle
      rcases hle with hle | hle
      · exact absurd hle hl
      · omega
    | some (hs, n, l') =>
      have hn := dstep_bounds e
      by_cases hnb : n ≤ b.length
      · obtain ⟨hs', pl, hd⟩ := ih l' (b.drop n) (by simp; omega)
        refine ⟨_, _, Dissect_step e (hs' := hs') (pl := pl) ?_⟩
        rw [List.drop_append_of_le_length hnb]; exact hd
      · obtain ⟨hs', pl, hd⟩ := Dissect_const_more (tail l') (room l b hs n l' e (by omega))
        refine ⟨_, _, Dissect_step e (hs' := hs') (pl := pl) ?_⟩
        rw [List.drop_append, List.drop_of_length_le (by omega), List.nil_append, List.drop_replicate]
        exact hd

/-! ## Seventy-three octets 0xFF -/

/-- How many octets 0xFF each layer needs when nothing else is left (33 for those that need less). -/
def needFF : Layer → Nat
  | .ipv6 => 40
  | .erspan3 => 34
  | _ => 33

theorem tailFF (l : Layer) : ∃ hs pl, Dissect l (List.replicate (needFF l) 0xFF#8) hs pl :=
  Dissect_of_reaches 6 l _ (by cases l <;> decide +kernel)

theorem etherNext_ne (et : Nat) : etherNext et ≠ .erspan3 := by
  unfold etherNext; repeat' split
  all_goals decide

theorem ipv4Next_ne (p : Nat) : ipv4Next p ≠ .erspan3 := by
  unfold ipv4Next; repeat' split
  all_goals decide

theorem ipv6Next_ne (p : Nat) : ipv6Next p ≠ .erspan3 := by
  unfold ipv6Next; repeat' split
  all_goals decide

theorem ipv6Next_eq_ipv6 {p : Nat} (h : ipv6Next p = .ipv6) : p = 41 := by
  unfold ipv6Next at h
  repeat' split at h
  all_goals first | assumption | exact nomatch h

theorem dstep_gre_le {b : Bytes} {hs : List Hdr} {n : Nat} {l' : Layer}
    (e : dstep .gre b = some (hs, n, l')) : n ≤ 16 := by
  simp only [dstep] at e
  have hopt : ∀ p, optLen p 4 ≤ 4 := by intro p; cases p <;> decide
  have h1 := hopt (bitAt b 0 7)
  have h2 := hopt (bitAt b 0 5)
  have h3 := hopt (bitAt b 0 4)
  split at e
  · injection e with e
    injection e with _ e
    injection e with e _
    omega
  · exact nomatch e

theorem dstep_erspan3_next {b : Bytes} {hs : List Hdr} {n : Nat} {l' : Layer}
    (e : dstep .erspan3 b = some (hs, n, l')) : l' = .ether ∧ n ≤ 20 := by
  simp only [dstep] at e
  have h1 : optLen (bitAt b 11 0) 8 ≤ 8 := by cases bitAt b 11 0 <;> decide
  split at e
  · injection e with e
    injection e with _ e
    injection e with e e2
    exact ⟨e2.symm, by omega⟩
  · exact nomatch e

/-- The next layer is ERSPAN III only behind GRE, and IPv6 behind at most 20 octets or behind IPv6. -/
theorem dstep_next {l l' : Layer} {b : Bytes} {hs : List Hdr} {n : Nat}
    (e : dstep l b = some (hs, n, l')) :
    (l' = .erspan3 → n ≤ 16) ∧ (l' = .ipv6 → n ≤ 20 ∨ n = 40 ∧ u8At b 6 = 41) := by
  cases l with
  | payload => exact nomatch e
  | gre => have := dstep_gre_le e; exact ⟨fun _ => this, fun _ => .inl (by omega)⟩
  | erspan3 =>
    obtain ⟨rfl, h⟩ := dstep_erspan3_next e
    exact ⟨fun h => (nomatch h), fun h => (nomatch h)⟩
  | ether =>
    obtain ⟨-, -, rfl, rfl⟩ := one_inv e
    exact ⟨fun h => absurd h (etherNext_ne _), fun _ => .inl (by decide)⟩
  | vlan =>
    obtain ⟨-, -, rfl, rfl⟩ := one_inv e
    exact ⟨fun h => absurd h (etherNext_ne _), fun _ => .inl (by decide)⟩
  | mpls =>
    obtain ⟨-, -, rfl, rfl⟩ := one_inv e
    exact ⟨fun _ => by decide, fun _ => .inl (by decide)⟩
  | mplsBos =>
    simp only [dstep] at e
    split at e
    · obtain ⟨-, -, rfl, rfl⟩ := one_inv e
      exact ⟨fun _ => by decide, fun _ => .inl (by decide)⟩
    · exact nomatch e
  | ipv4 =>
    obtain ⟨-, -, rfl, rfl⟩ := one_inv e
    exact ⟨fun h => absurd h (ipv4Next_ne _), fun _ => .inl (by decide)⟩
  | ipv6 =>
    obtain ⟨-, -, rfl, rfl⟩ := one_inv e
    exact ⟨fun h => absurd h (ipv6Next_ne _), fun h => .inr ⟨rfl, ipv6Next_eq_ipv6 h⟩⟩
  | erspan2 =>
    obtain ⟨-, -, rfl, rfl⟩ := one_inv e
    exact ⟨fun h => (nomatch h), fun h => (nomatch h)⟩
  | udp =>
    obtain ⟨-, -, rfl, rfl⟩ := one_inv e
    exact ⟨fun _ => by decide, fun _ => .inl (by decide)⟩
  | llc =>
    obtain ⟨-, -, rfl, rfl⟩ := one_inv e
    exact ⟨fun _ => by decide, fun _ => .inl (by decide)⟩
  | _ =>
    obtain ⟨-, -, rfl, rfl⟩ := one_inv e
    exact ⟨fun h => (nomatch h), fun h => (nomatch h)⟩

theorem u8At_append_const (b : Bytes) (x : Byte) (K i : Nat) (h : b.length ≤ i) (h2 : i < b.length + K) :
    u8At (b ++ List.replicate K x) i = x.toNat := by
  unfold u8At
  rw [List.getD_eq_getElem?_getD, List.getElem?_append_right h, List.getElem?_replicate, if_pos (by omega)]
  rfl

theorem Dissect_padFF (l : Layer) (b : Bytes) (K : Nat) (hK : 73 ≤ K) :
    ∃ hs pl, Dissect l (b ++ List.replicate K 0xFF#8) hs pl := by
  refine Dissect_padded 0xFF#8 K (by omega) needFF tailFF ?_ ?_ b.length l b (Nat.le_refl _)
  · intro l; cases l <;> simp only [needFF] <;> omega
  · intro l b hs n l' e hb
    have hle := dstep_le l (b ++ List.replicate K 0xFF#8)
    rw [e] at hle
    simp only at hle
    obtain ⟨h1, h2⟩ := dstep_next e
    by_cases h3 : l' = .erspan3
    · subst h3; have := h1 rfl; simp only [needFF]; omega
    by_cases h4 : l' = .ipv6
    · subst h4
      simp only [needFF]
      rcases h2 rfl with h | ⟨h, h6⟩
      · omega
      · by_cases hb6 : b.length ≤ 6
        · rw [u8At_append_const _ _ _ _ hb6 (by omega)] at h6
          exact absurd h6 (by decide)
        · omega
    · have : needFF l' = 33 := by
        cases l' <;> first | rfl | exact absurd rfl h3 | exact absurd rfl h4
      omega

theorem parse_ok_of_Dissect {chk : Bool} {l : Layer} {b : Bytes} (h : ∃ hs pl, Dissect l b hs pl) :
    ∃ p, Slow.parseL chk l b = .ok p := by
  obtain ⟨hs, pl, h⟩ := h
  exact ⟨_, parse_of_Dissect h⟩

/-- **C110**: with 73 octets 0xFF appended, no byte string makes a parser function panic. -/
theorem C110_pad (chk : Bool) (l : Layer) (b : Bytes) (K : Nat) (hK : 73 ≤ K) :
    ∃ p, Slow.parseL chk l (b ++ List.replicate K 0xFF#8) = .ok p :=
  parse_ok_of_Dissect (Dissect_padFF l b K hK)

theorem parse_padFF (chk : Bool) (b : Bytes) (K : Nat) (hK : 73 ≤ K) :
    ∃ p, Slow.parse chk (b ++ List.replicate K 0xFF#8) = .ok p := by
  rw [Slow.parse_eq, if_neg (by simp; omega)]
  exact C110_pad chk _ b K hK

/-- Ethernet, then the first seven octets of an IPv6 header whose contents are again IPv6. -/
def cutInIpv6 : Bytes :=
  List.replicate 12 2#8 ++ [0x86#8, 0xDD#8, 0x60#8, 0#8, 0#8, 0#8, 0#8, 0#8, 41#8]

/-- **C110**: 73 is the least such number: with `K` octets 0xFF appended every frame cut anywhere, and
every byte string, parses iff `73 ≤ K`. -/
theorem C110_least (chk : Bool) (K : Nat) :
    (∀ b, ∃ p, Slow.parse chk (b ++ List.replicate K 0xFF#8) = .ok p) ↔ 73 ≤ K := by
  constructor
  · intro h
    refine Decidable.byContradiction fun hK => ?_
    obtain ⟨p, hp⟩ := h cutInIpv6
    have := C25_trailing_frame chk _ (List.replicate (72 - K) 0xFF#8) _ _ hp
    rw [List.append_assoc, List.replicate_append_replicate, show K + (72 - K) = 72 by omega] at this
    revert this
    have hno : ∀ chk, Slow.parse chk (cutInIpv6 ++ List.replicate 72 0xFF#8) = .error .index := by
      decide +kernel
    rw [hno]
    exact fun h => nomatch h
  · intro hK b
    exact parse_padFF chk b K hK

/-! ## Which octets can be used -/

theorem dstep_none_no {l : Layer} {b : Bytes} (hl : l ≠ .payload) (e : dstep l b = none) :
    ¬ ∃ hs pl, Dissect l b hs pl := by
  rintro ⟨hs, pl, h⟩
  have := parse_of_Dissect (chk := true) h
  rw [Slow.parseL_eq _ _ _ hl, e] at this
  exact nomatch this

theorem dstep_some_no {l l' : Layer} {b : Bytes} {hs : List Hdr} {n : Nat} (hl : l ≠ .payload)
    (e : dstep l b = some (hs, n, l')) (hno : ¬ ∃ hs pl, Dissect l' (b.drop n) hs pl) :
    ¬ ∃ hs pl, Dissect l b hs pl := by
  rintro ⟨hs', pl, h⟩
  have := parse_of_Dissect (chk := true) h
  rw [Slow.parseL_eq _ _ _ hl, e] at this
  simp only [stepThen] at this
  match hp : Slow.parseL true l' (b.drop n) with
  | .error e => rw [hp] at this; exact nomatch this
  | .ok p => exact hno ⟨_, _, Dissect_of_parse hp⟩

/-- A layer that, on equal octets, always comes back to itself never ends. -/
theorem no_Dissect_const (x : Byte) (l : Layer) (T : HeaderDef) (hT : 0 < T.size) (hl : l ≠ .payload)
    (h : ∀ K, dstep l (List.replicate K x) = one T (List.replicate K x) l) :
    ∀ m K, K ≤ m → ¬ ∃ hs pl, Dissect l (List.replicate K x) hs pl := by
  intro m
  induction m with
  | zero =>
    intro K hK
    refine dstep_none_no hl ?_
    rw [h, one, if_neg (by simp; omega)]
  | succ m ih =>
    intro K hK
    by_cases hs : T.size ≤ K
    · refine dstep_some_no hl (by rw [h, one, if_pos (by simp; omega)]) ?_
      rw [List.drop_replicate]
      exact ih _ (by omega)
    · refine dstep_none_no hl ?_
      rw [h, one, if_neg (by simp; omega)]

theorem u8At_replicate (x : Byte) (K i : Nat) (h : i < K) : u8At (List.replicate K x) i = x.toNat := by
  have := u8At_append_const [] x K i (Nat.zero_le _) (by simpa using h)
  simpa using this

theorem one_const_next {T : HeaderDef} {x : Byte} {K : Nat} {l l' : Layer}
    (h : T.size ≤ K → l' = l) : one T (List.replicate K x) l' = one T (List.replicate K x) l := by
  unfold one
  by_cases hK : T.size ≤ K
  · rw [h hK]
  · rw [if_neg (by simp; omega), if_neg (by simp; omega)]

/-- An Ethernet header announcing MPLS; an Ethernet header announcing IPv6. -/
def etherMpls : Bytes := List.replicate 12 2#8 ++ [0x88#8, 0x47#8]
def etherIpv6 : Bytes := List.replicate 12 2#8 ++ [0x86#8, 0xDD#8]

theorem parse_ether_const (chk : Bool) (b : Bytes) (x : Byte) (K : Nat) (l : Layer)
    (hb : b.length = 14) (ht : ¬ u16At b 12 < 1500) (hn : etherNext (u16At b 12) = l)
    (hno : ¬ ∃ hs pl, Dissect l (List.replicate K x) hs pl) :
    ¬ ∃ p, Slow.parse chk (b ++ List.replicate K x) = .ok p := by
  rintro ⟨p, hp⟩
  rw [Slow.parse_eq, if_neg (by simp; omega), u16At_append_left _ _ _ (by omega), if_neg ht] at hp
  refine dstep_some_no (l := .ether) (l' := l) (b := b ++ List.replicate K x) (n := 14)
    (hs := [⟨Ether, b⟩]) (by decide) ?_ ?_ ⟨_, _, Dissect_of_parse hp⟩
  · simp only [dstep]
    rw [one_append hb, u16At_append_left _ _ _ (by omega), hn]
    rfl
  · rw [drop_append_len hb]; exact hno

/-- **C110**: a fixed number of octets `x` keeps every byte string from making `parse` panic iff `x` is
odd (so that an MPLS label made of it is the last one) and not 41 (so that an IPv6 header made of it is
not followed by another). -/
theorem C110_constant_iff (chk : Bool) (x : Byte) :
    (∃ K, ∀ b, ∃ p, Slow.parse chk (b ++ List.replicate K x) = .ok p) ↔
      x.toNat % 2 = 1 ∧ x.toNat ≠ 41 := by
  constructor
  · rintro ⟨K, h⟩
    constructor
    · refine Decidable.byContradiction fun hx => ?_
      refine parse_ether_const chk etherMpls x K .mpls rfl (by decide) (by decide) ?_ (h _)
      refine no_Dissect_const x .mpls MPLS (by decide) (by decide) ?_ K K (Nat.le_refl _)
      intro K
      simp only [dstep]
      refine one_const_next fun hK => ?_
      have h4 : 4 ≤ K := hK
      rw [if_neg]
      simp only [bitAt, u8At_replicate x K 2 (by omega), decide_eq_true_eq]
      omega
    · intro hx
      refine parse_ether_const chk etherIpv6 x K .ipv6 rfl (by decide) (by decide) ?_ (h _)
      refine no_Dissect_const x .ipv6 IPv6 (by decide) (by decide) ?_ K K (Nat.le_refl _)
      intro K
      simp only [dstep]
      refine one_const_next fun hK => ?_
      have h4 : 40 ≤ K := hK
      rw [u8At_replicate x K 6 (by omega), hx]
      rfl
  · rintro ⟨h1, h2⟩
    refine ⟨100, fun b => ?_⟩
    rw [Slow.parse_eq, if_neg (by simp)]
    refine parse_ok_of_Dissect ?_
    refine Dissect_padded x 100 (by decide) (fun _ => 60)
      (fun l => Dissect_of_reaches 6 l _ (reaches_const x h1 h2 l)) (fun _ => by decide) ?_
      b.length _ b (Nat.le_refl _)
    intro l b hs n l' e hb
    have hle := dstep_le l (b ++ List.replicate 100 x)
    rw [e] at hle
    simp only at hle
    omega

-- 0x2F can be used, 0x00 and 0x29 cannot
example : (∃ K, ∀ b, ∃ p, Slow.parse true (b ++ List.replicate K 0x2F#8) = .ok p) ∧
    ¬ (∃ K, ∀ b, ∃ p, Slow.parse true (b ++ List.replicate K 0#8) = .ok p) ∧
    ¬ (∃ K, ∀ b, ∃ p, Slow.parse true (b ++ List.replicate K 0x29#8) = .ok p) := by
  rw [C110_constant_iff, C110_constant_iff, C110_constant_iff]; decide

/-! ## What a cut frame shows -/

/-- The headers among the first `n` octets of the buffer: type, place and octets. -/
def headersWithin (n : Nat) (p : Fast.PacketSlice) : List (HeaderDef × Nat × Bytes) :=
  (p.hdrs.filter fun s => s.win.off + s.ty.size ≤ n).map fun s => (s.ty, s.win.off, s.win.bytes)

theorem u8At_agree {a b : Bytes} {m i : Nat} (h : a.take m = b.take m) (hi : i < m) :
    u8At a i = u8At b i := by
  unfold u8At
  rw [List.getD_eq_getElem?_getD, List.getD_eq_getElem?_getD, ← List.getElem?_take_of_lt hi, h,
    List.getElem?_take_of_lt hi]

theorem u16At_agree {a b : Bytes} {m i : Nat} (h : a.take m = b.take m) (hi : i + 1 < m) :
    u16At a i = u16At b i := by
  unfold u16At
  rw [u8At_agree h (by omega), u8At_agree h hi]

theorem bitAt_agree {a b : Bytes} {m i k : Nat} (h : a.take m = b.take m) (hi : i < m) :
    bitAt a i k = bitAt b i k := by
  unfold bitAt; rw [u8At_agree h hi]

theorem take_agree {a b : Bytes} {m k : Nat} (h : a.take m = b.take m) (hk : k ≤ m) :
    a.take k = b.take k := by
  have := congrArg (List.take k) h
  rwa [List.take_take, List.take_take, Nat.min_eq_left hk] at this

/-- Steps on two byte strings that agree on their first `m` octets: either they are the same as far as
the headers go, and the same layer follows or the `m` octets are used up; or none of their headers lies
in the first `m` octets. -/
def SameStep (m : Nat) (x y : List (HeaderDef × Nat) × Nat × Layer) : Prop :=
  (x.1 = y.1 ∧ x.2.1 = y.2.1 ∧ (x.2.2 = y.2.2 ∨ m ≤ x.2.1)) ∨
    (m < x.2.1 ∧ m < y.2.1 ∧ (∀ z ∈ x.1, m < z.2 + z.1.size) ∧ ∀ z ∈ y.1, m < z.2 + z.1.size)

theorem lone_same {T : HeaderDef} {a b : Bytes} {m : Nat} {l l' : Layer}
    {x y : List (HeaderDef × Nat) × Nat × Layer} (h : T.size ≤ m → l = l' ∨ m ≤ T.size)
    (ea : lone T a l = some x) (eb : lone T b l' = some y) : SameStep m x y := by
  obtain ⟨x1, x2, x3⟩ := x
  obtain ⟨y1, y2, y3⟩ := y
  have hl : ∀ {c : Bytes} {l l' : Layer} {hs : List (HeaderDef × Nat)} {n : Nat},
      lone T c l = some (hs, n, l') → l' = l := by
    intro c l l' hs n e
    unfold lone at e
    split at e
    · injection e with e
      injection e with _ e
      injection e with _ e
      exact e.symm
    · exact nomatch e
  obtain rfl := hl ea
  obtain rfl := hl eb
  obtain ⟨rfl, rfl, -⟩ := Fast.lone_chain ea
  obtain ⟨rfl, rfl, -⟩ := Fast.lone_chain eb
  by_cases hm : T.size ≤ m
  · exact .inl ⟨rfl, rfl, h hm⟩
  · refine .inr ⟨by simp only; omega, by simp only; omega, ?_, ?_⟩
    all_goals
      intro z hz
      obtain rfl := List.mem_singleton.mp hz
      simp only; omega

theorem lay_same {l : Layer} {a b : Bytes} {m : Nat} (h : a.take m = b.take m)
    {x y : List (HeaderDef × Nat) × Nat × Layer}
    (ea : lay l a = some x) (eb : lay l b = some y) : SameStep m x y := by
  cases l with
  | payload => exact nomatch ea
  | ether =>
    refine lone_same (fun hm => .inl ?_) ea eb
    have : 14 ≤ m := hm
    rw [u16At_agree h (by omega)]
  | vlan =>
    refine lone_same (fun hm => .inl ?_) ea eb
    have : 4 ≤ m := hm
    rw [u16At_agree h (by omega)]
  | mpls =>
    refine lone_same (fun hm => .inl ?_) ea eb
    have : 4 ≤ m := hm
    rw [bitAt_agree h (by omega)]
  | mplsBos =>
    simp only [lay] at ea eb
    split at ea
    · split at eb
      · refine lone_same (fun hm => ?_) ea eb
        have h4 : 4 ≤ m := hm
        by_cases h5 : m ≤ 4
        · exact .inr h5
        · rw [u8At_agree h (by omega)]; exact .inl rfl
      · exact nomatch eb
    · exact nomatch ea
  | ipv4 =>
    refine lone_same (fun hm => .inl ?_) ea eb
    have : 20 ≤ m := hm
    rw [u8At_agree h (by omega)]
  | ipv6 =>
    refine lone_same (fun hm => .inl ?_) ea eb
    have : 40 ≤ m := hm
    rw [u8At_agree h (by omega)]
  | udp =>
    refine lone_same (fun hm => .inl ?_) ea eb
    have : 8 ≤ m := hm
    rw [u16At_agree h (by omega)]
  | llc =>
    refine lone_same (fun hm => .inl ?_) ea eb
    have : 3 ≤ m := hm
    rw [take_agree h (by omega)]
  | gre =>
    simp only [lay] at ea eb
    by_cases hm : 4 ≤ m
    · rw [bitAt_agree h (by omega), bitAt_agree h (by omega), bitAt_agree h (by omega),
        u16At_agree h (by omega)] at ea
      split at ea
      · split at eb
        · obtain rfl := Option.some.inj ea
          obtain rfl := Option.some.inj eb
          exact .inl ⟨rfl, rfl, .inl rfl⟩
        · exact nomatch eb
      · exact nomatch ea
    · generalize bitAt a 0 7 = c at ea
      generalize bitAt a 0 5 = k at ea
      generalize bitAt a 0 4 = s at ea
      generalize bitAt b 0 7 = c' at eb
      generalize bitAt b 0 5 = k' at eb
      generalize bitAt b 0 4 = s' at eb
      have hz : ∀ (c k s : Bool), ∀ z ∈ (GRE, 0) :: (loptAt GRESequenceNum s (4 + optLen c 4 + optLen k 4)
          ++ (loptAt GREKey k (4 + optLen c 4) ++ loptAt GREChksumOffset c 4)),
          4 ≤ z.2 + z.1.size := by decide
      split at ea
      · split at eb
        · obtain rfl := Option.some.inj ea
          obtain rfl := Option.some.inj eb
          refine .inr ⟨by simp only; omega, by simp only; omega, ?_, ?_⟩
          · intro z h; have := hz c k s z h; omega
          · intro z h; have := hz c' k' s' z h; omega
        · exact nomatch eb
      · exact nomatch ea
  | erspan3 =>
    simp only [lay] at ea eb
    by_cases hm : 12 ≤ m
    · rw [bitAt_agree h (by omega)] at ea
      split at ea
      · split at eb
        · obtain rfl := Option.some.inj ea
          obtain rfl := Option.some.inj eb
          exact .inl ⟨rfl, rfl, .inl rfl⟩
        · exact nomatch eb
      · exact nomatch ea
    · generalize bitAt a 11 0 = o at ea
      generalize bitAt b 11 0 = o' at eb
      have hz : ∀ o : Bool, ∀ z ∈ (ERSPAN3, 0) :: loptAt ERSPANPLATFORM o 12,
          12 ≤ z.2 + z.1.size := by decide
      split at ea
      · split at eb
        · obtain rfl := Option.some.inj ea
          obtain rfl := Option.some.inj eb
          refine .inr ⟨by simp only; omega, by simp only; omega, ?_, ?_⟩
          · intro z h; have := hz o z h; omega
          · intro z h; have := hz o' z h; omega
        · exact nomatch eb
      · exact nomatch ea
  | _ => exact lone_same (fun _ => .inl rfl) ea eb

theorem lay_size_pos {l l' : Layer} {b : Bytes} {hs : List (HeaderDef × Nat)} {n : Nat}
    (e : lay l b = some (hs, n, l')) : ∀ x ∈ hs, 0 < x.1.size := by
  have one : ∀ {T : HeaderDef} {l : Layer}, 0 < T.size → lone T b l = some (hs, n, l') →
      ∀ x ∈ hs, 0 < x.1.size := by
    intro T l hT e x hx
    obtain ⟨rfl, -, -⟩ := Fast.lone_chain e
    obtain rfl := List.mem_singleton.mp hx
    exact hT
  cases l with
  | payload => exact nomatch e
  | mplsBos =>
    simp only [lay] at e
    split at e
    · exact one (by decide) e
    · exact nomatch e
  | gre =>
    simp only [lay] at e
    generalize bitAt b 0 7 = c at e
    generalize bitAt b 0 5 = k at e
    generalize bitAt b 0 4 = s at e
    split at e
    · injection e with e
      injection e with e _
      subst e
      clear one
      revert c k s
      have : ∀ (c k s : Bool), ∀ x ∈ (GRE, 0) :: (loptAt GRESequenceNum s (4 + optLen c 4 + optLen k 4)
          ++ (loptAt GREKey k (4 + optLen c 4) ++ loptAt GREChksumOffset c 4)), 0 < x.1.size := by decide
      intro c k s _ _
      exact this c k s
    · exact nomatch e
  | erspan3 =>
    simp only [lay] at e
    generalize bitAt b 11 0 = o at e
    split at e
    · injection e with e
      injection e with e _
      subst e
      have : ∀ o : Bool, ∀ x ∈ (ERSPAN3, 0) :: loptAt ERSPANPLATFORM o 12, 0 < x.1.size := by decide
      exact this o
    · exact nomatch e
  | _ => exact one (by decide) e

theorem size_pos_of_parse {chk : Bool} {l : Layer} {w : Fast.Win} (hb : w.InBounds) {p : Fast.PacketSlice}
    (h : Fast.parseL chk l w = .ok p) : ∀ g ∈ p.hdrs, w.off ≤ g.win.off ∧ 0 < g.ty.size := by
  refine Fast.parse_induct (chk := chk) (M := fun _ w p => ∀ g ∈ p.hdrs, w.off ≤ g.win.off ∧ 0 < g.ty.size)
    ?_ ?_ l w p hb h
  · intro w g hg; exact nomatch hg
  · intro l w hs n l' p hb e hn ih g hg
    simp only [Fast.prepW, List.mem_append] at hg
    rcases hg with hg | hg
    · simp only [Fast.cutW, List.mem_map] at hg
      obtain ⟨x, hx, rfl⟩ := hg
      refine ⟨by simp only [Fast.Win.sub]; omega, ?_⟩
      exact lay_size_pos e x hx
    · have := ih g hg
      simp only [Fast.Win.sub] at this
      exact ⟨by omega, this.2⟩

/-- What of a parse lies in the first `n` octets, when none does. -/
theorem headersWithin_nil {n : Nat} {p : Fast.PacketSlice} (h : ∀ g ∈ p.hdrs, n < g.win.off + g.ty.size) :
    headersWithin n p = [] := by
  unfold headersWithin
  rw [List.filter_eq_nil_iff.mpr, List.map_nil]
  intro g hg
  have := h g hg
  simp only [decide_eq_true_eq]; omega

theorem headersWithin_prepW (n : Nat) (hs : List Fast.SHdr) (p : Fast.PacketSlice) :
    headersWithin n (Fast.prepW hs p) = headersWithin n ⟨hs, p.payload⟩ ++ headersWithin n p := by
  simp only [headersWithin, Fast.prepW, List.filter_append, List.map_append]

/-- Windows at the same place of buffers that agree on the first `n` octets. -/
theorem win_bytes_agree {a b : Bytes} {n o k : Nat} (h : a.take n = b.take n) (hk : o + k ≤ n) :
    (a.drop o).take k = (b.drop o).take k := by
  have := congrArg (List.drop o) (take_agree h hk)
  rwa [List.drop_take, List.drop_take, show o + k - o = k by omega] at this

theorem headersWithin_cutW {n : Nat} {v w : Fast.Win} (ho : v.off = w.off)
    (hn : v.base.take n = w.base.take n) (hs : List (HeaderDef × Nat)) (x y : Fast.Win) :
    headersWithin n ⟨Fast.cutW v hs, x⟩ = headersWithin n ⟨Fast.cutW w hs, y⟩ := by
  induction hs with
  | nil => rfl
  | cons z hs ih =>
    have key : ∀ (u t : Fast.Win), headersWithin n ⟨Fast.cutW u (z :: hs), t⟩ =
        (if u.off + z.2 + z.1.size ≤ n then
          [(z.1, u.off + z.2, ((u.base.drop (u.off + z.2)).take z.1.size))] else [])
          ++ headersWithin n ⟨Fast.cutW u hs, t⟩ := by
      intro u t
      simp only [headersWithin, Fast.cutW, List.map_cons, List.filter_cons, Fast.Win.sub, decide_eq_true_eq]
      by_cases h : u.off + z.2 + z.1.size ≤ n
      · simp only [h, if_true, List.map_cons, List.singleton_append, Fast.Win.bytes]
      · simp only [h, if_false, List.nil_append]
    rw [key, key, ih, ho]
    by_cases h : w.off + z.2 + z.1.size ≤ n
    · rw [if_pos h, if_pos h, win_bytes_agree hn h]
    · rw [if_neg h, if_neg h]

theorem within_agree {chk : Bool} (n : Nat) : ∀ (m : Nat) (l : Layer) (v w : Fast.Win) (p q : Fast.PacketSlice),
    v.len ≤ m → v.off = w.off → v.off + v.len = v.base.length → w.off + w.len = w.base.length →
    v.base.take n = w.base.take n → Fast.parseL chk l v = .ok p → Fast.parseL chk l w = .ok q →
    headersWithin n p = headersWithin n q := by
  intro m
  induction m with
  | zero =>
    intro l v w p q hm ho hv hw hn hp hq
    by_cases hl : l = .payload
    · subst hl
      obtain rfl := Except.ok.inj hp
      obtain rfl := Except.ok.inj hq
      rfl
    · have hb : v.InBounds := by unfold Fast.Win.InBounds; omega
      rw [Fast.parseL_eq _ _ _ hb hl] at hp
      obtain ⟨hs, k, l', p', e, -, -⟩ := Fast.stepThen_ok hp
      have := Fast.lay_bounds e
      rw [v.length_bytes hb] at this; omega
  | succ m ih =>
    intro l v w p q hm ho hv hw hn hp hq
    by_cases hl : l = .payload
    · subst hl
      obtain rfl := Except.ok.inj hp
      obtain rfl := Except.ok.inj hq
      rfl
    have hbv : v.InBounds := by unfold Fast.Win.InBounds; omega
    have hbw : w.InBounds := by unfold Fast.Win.InBounds; omega
    rw [Fast.parseL_eq _ _ _ hbv hl] at hp
    rw [Fast.parseL_eq _ _ _ hbw hl] at hq
    obtain ⟨hs, k, l', p', e, hp', rfl⟩ := Fast.stepThen_ok hp
    obtain ⟨hs2, k2, l2, q', e2, hq', rfl⟩ := Fast.stepThen_ok hq
    have b1 := Fast.lay_bounds e
    have b2 := Fast.lay_bounds e2
    rw [v.length_bytes hbv] at b1
    rw [w.length_bytes hbw] at b2
    have hag : v.bytes.take (n - v.off) = w.bytes.take (n - v.off) := by
      unfold Fast.Win.bytes
      rw [List.take_of_length_le (l := v.base.drop _) (by simp; omega),
        List.take_of_length_le (l := w.base.drop _) (by simp; omega), ← ho]
      by_cases h : v.off ≤ n
      · exact win_bytes_agree hn (by omega)
      · rw [show n - v.off = 0 by omega]; rfl
    have hsp := size_pos_of_parse (Fast.drop_inBounds v hbv k b1.2.2) hp'
    have hsq := size_pos_of_parse (Fast.drop_inBounds w hbw k2 b2.2.2) hq'
    simp only [Fast.Win.sub] at hsp hsq
    rw [headersWithin_prepW, headersWithin_prepW]
    rcases lay_same hag e e2 with ⟨h1, h2, h3⟩ | ⟨h1, h2, h3, h4⟩
    · simp only at h1 h2 h3
      subst h1 h2
      rw [headersWithin_cutW ho hn hs p'.payload q'.payload]
      congr 1
      rcases h3 with h3 | h3
      · subst h3
        refine ih l' _ _ p' q' ?_ ?_ ?_ ?_ ?_ hp' hq'
        · simp only [Fast.Win.sub]; omega
        · simp only [Fast.Win.sub]; omega
        · simp only [Fast.Win.sub]; omega
        · simp only [Fast.Win.sub]; omega
        · exact hn
      · rw [headersWithin_nil, headersWithin_nil]
        · intro g hg; have := hsq g hg; omega
        · intro g hg; have := hsp g hg; omega
    · simp only at h1 h2 h3 h4
      rw [headersWithin_nil, headersWithin_nil, headersWithin_nil, headersWithin_nil]
      · intro g hg; have := hsq g hg; omega
      · intro g hg
        simp only [Fast.cutW, List.mem_map] at hg
        obtain ⟨x, hx, rfl⟩ := hg
        have := h4 x hx
        simp only [Fast.Win.sub]; omega
      · intro g hg; have := hsp g hg; omega
      · intro g hg
        simp only [Fast.cutW, List.mem_map] at hg
        obtain ⟨x, hx, rfl⟩ := hg
        have := h3 x hx
        simp only [Fast.Win.sub]; omega

/-- **C110**: the headers lying within the first `n` octets depend on these octets only: two frames that
agree on them and are both accepted show the same headers there (type, place and octets, in the same
order). -/
theorem C110_within (chk : Bool) (n : Nat) (a b : Bytes) (p q : Fast.PacketSlice) (h : a.take n = b.take n)
    (hp : Fast.parse chk (.ofBytes a) = .ok p) (hq : Fast.parse chk (.ofBytes b) = .ok q) :
    headersWithin n p = headersWithin n q := by
  have hba : (Fast.Win.ofBytes a).InBounds := by simp [Fast.Win.InBounds, Fast.Win.ofBytes]
  have hbb : (Fast.Win.ofBytes b).InBounds := by simp [Fast.Win.InBounds, Fast.Win.ofBytes]
  have hy : ∀ c : Bytes, (Fast.Win.ofBytes c).bytes = c := by
    intro c; simp [Fast.Win.bytes, Fast.Win.ofBytes]
  rw [Fast.parse_eq _ _ hba, hy] at hp
  rw [Fast.parse_eq _ _ hbb, hy] at hq
  split at hp
  · exact nomatch hp
  split at hq
  · exact nomatch hq
  by_cases hn : 14 ≤ n
  · rw [u16At_agree h (by omega)] at hp
    exact within_agree n _ _ (.ofBytes a) (.ofBytes b) p q (Nat.le_refl _) rfl (by simp [Fast.Win.ofBytes])
      (by simp [Fast.Win.ofBytes]) h hp hq
  · have small : ∀ (c : Bytes) (t : Nat) (r : Fast.PacketSlice), (Fast.Win.ofBytes c).InBounds →
        Fast.parseL chk (if t < 1500 then .dot3 else .ether) (.ofBytes c) = .ok r → headersWithin n r = [] := by
      intro c t r hb hr
      refine headersWithin_nil fun g hg => ?_
      have hl : (if t < 1500 then Layer.dot3 else .ether) ≠ .payload := by split <;> decide
      rw [Fast.parseL_eq _ _ _ hb hl] at hr
      obtain ⟨hs, k, l', r', e, hr', rfl⟩ := Fast.stepThen_ok hr
      have hk : k = 14 ∧ hs.map (fun x => (x.2, x.1.size)) = [(0, 14)] := by
        split at e
        · obtain ⟨rfl, rfl, -⟩ := Fast.lone_chain e; exact ⟨rfl, rfl⟩
        · obtain ⟨rfl, rfl, -⟩ := Fast.lone_chain e; exact ⟨rfl, rfl⟩
      have hbd := Fast.lay_bounds e
      rw [Fast.Win.length_bytes _ hb] at hbd
      have hs' := size_pos_of_parse (Fast.drop_inBounds _ hb k hbd.2.2) hr'
      simp only [Fast.prepW, List.mem_append] at hg
      rcases hg with hg | hg
      · simp only [Fast.cutW, List.mem_map] at hg
        obtain ⟨x, hx, rfl⟩ := hg
        have hm : (x.2, x.1.size) ∈ hs.map (fun x => (x.2, x.1.size)) := List.mem_map_of_mem hx
        rw [hk.2, List.mem_singleton] at hm
        have := congrArg Prod.snd hm
        simp only at this
        simp only [Fast.Win.sub]; omega
      · have := hs' g hg
        simp only [Fast.Win.sub] at this
        omega
    rw [small a _ p hba hp, small b _ q hbb hq]

theorem fast_ok_iff (chk : Bool) (b : Bytes) :
    (∃ p, Fast.parse chk (.ofBytes b) = .ok p) ↔ ∃ p, Slow.parse chk b = .ok p := by
  have hb : (Fast.Win.ofBytes b).InBounds := by simp [Fast.Win.InBounds, Fast.Win.ofBytes]
  have h := C26_parse chk _ hb
  have hy : (Fast.Win.ofBytes b).bytes = b := by
    unfold Fast.Win.bytes Fast.Win.ofBytes
    rw [List.drop_zero, List.take_length]
  rw [hy] at h
  rw [← h]
  match Fast.parse chk (.ofBytes b) with
  | .error e => exact ⟨fun ⟨_, h⟩ => (nomatch h), fun ⟨_, h⟩ => (nomatch h)⟩
  | .ok q => exact ⟨fun _ => ⟨_, rfl⟩, fun _ => ⟨_, rfl⟩⟩

/-- **C110**: the same for the zero-copy parser. -/
theorem C110_fast (chk : Bool) (K : Nat) (x : Byte) :
    ((∀ b, ∃ p, Fast.parse chk (.ofBytes (b ++ List.replicate K 0xFF#8)) = .ok p) ↔ 73 ≤ K) ∧
    ((∃ K, ∀ b, ∃ p, Fast.parse chk (.ofBytes (b ++ List.replicate K x)) = .ok p) ↔
      x.toNat % 2 = 1 ∧ x.toNat ≠ 41) := by
  simp only [fast_ok_iff]
  exact ⟨C110_least chk K, C110_constant_iff chk x⟩

/-- **C110**: a capture of the first `n` octets of an accepted frame, with 73 octets 0xFF appended, is
accepted, and shows of the frame exactly the headers that were captured whole. -/
theorem C110_capture (chk : Bool) (f : Bytes) (n K : Nat) (hn : n ≤ f.length) (hK : 73 ≤ K)
    (p : Fast.PacketSlice) (hp : Fast.parse chk (.ofBytes f) = .ok p) :
    ∃ q, Fast.parse chk (.ofBytes (f.take n ++ List.replicate K 0xFF#8)) = .ok q ∧
      headersWithin n q = headersWithin n p := by
  obtain ⟨q, hq⟩ := ((C110_fast chk K 0#8).1.mpr hK) (f.take n)
  refine ⟨q, hq, C110_within chk n _ _ q p ?_ hq hp⟩
  rw [List.take_append_of_le_length (by simp; omega), List.take_take, Nat.min_self]

/-- The names of the headers shown within the first `n` octets. -/
def namesWithin (n : Nat) (r : R Fast.PacketSlice) : List (String × Nat) :=
  match r with
  | .ok p => (headersWithin n p).map fun x => (x.1.name, x.2.1)
  | .error _ => []

-- the frame of C20 cut inside the inner Ethernet header: without the padding it panics, with it the five
-- outer headers are there
example : Fast.parse true (.ofBytes (exFrame.take 60)) = .error .index ∧
    namesWithin 60 (Fast.parse true (.ofBytes (exFrame.take 60 ++ List.replicate 73 0xFF#8))) =
      [("Ether", 0), ("Vlan", 14), ("IPv4", 18), ("UDP", 38), ("Vxlan", 46)] := by
  decide +kernel

end PacketRs
