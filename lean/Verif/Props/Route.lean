import Verif.Spec.Route
import Verif.Props.Napt
import Verif.Samples
/-!
# Property C111: through any number of routers, and back

A router parses a frame, takes one from the time to live (or hop limit), puts the checksum of an IPv4 header right and sends the frame
to the next station.  What arrives behind a path of such routers, and whether an echo comes back.
-/
namespace PacketRs
open Spec Utils

/-! ## The client -/

/-- A router: whether it computes the checksum with the crate (as in C99) or updates it (RFC 1624, as in C103), and the link addresses
it sends to and from. -/
structure Router where
  own : Bool
  dst : Bytes
  src : Bytes

/-- What the router does to the IP header. -/
def Router.edit (chk v6 : Bool) (r : Router) (t : U64) (p : Packet) : R Packet :=
  if v6 then editField IPv6 IPv6.name IPv6.hop_limit (t - 1) p
  else if r.own then editAndRefresh chk IPv4.ttl (t - 1) p
  else do
    let pr ← readField chk IPv4 IPv4.protocol p
    let c ← readField chk IPv4 IPv4.header_checksum p
    let p ← editField IPv4 IPv4.name IPv4.ttl (t - 1) p
    editField IPv4 IPv4.name IPv4.header_checksum
      (BitVec.ofNat 64 (adjust c.toNat [256 * t.toNat + pr.toNat] [256 * (t - 1).toNat + pr.toNat])) p

/-- The hops left, read from a packet. -/
def readHops (chk v6 : Bool) (p : Packet) : R U64 :=
  if v6 then readField chk IPv6 IPv6.hop_limit p else readField chk IPv4 IPv4.ttl p

/-- The router on a parsed packet:
`let t = ip.ttl(); if t <= 1 { return None }; ip.set_ttl(t - 1); ...; eth.set_bytes(95, 0, &[dst, src].concat());` -/
def Router.forward (chk v6 : Bool) (r : Router) (p : Packet) : R (Option Packet) := do
  let t ← readHops chk v6 p
  if t.toNat ≤ 1 then pure none
  else
    let p ← r.edit chk v6 t p
    let p ← p.withHeaderMut Ether Ether.name fun h => h.set_bytes chk 95 0 (r.dst ++ r.src)
    pure (some p)

/-- The router on a frame: what is no right datagram is dropped. -/
def Router.pass (chk : Bool) (r : Router) (f : Bytes) : R (Option Bytes) :=
  match ipInput f with
  | none => pure none
  | some g => do
    let p ← Slow.parse chk f
    let q ← r.forward chk g.v6 p
    pure (q.map Packet.to_vec)

/-- One router after the other. -/
def along (chk : Bool) : List Router → Bytes → R (Option Bytes)
  | [], f => pure (some f)
  | r :: rs, f => do
    match ← r.pass chk f with
    | none => pure none
    | some f' => along chk rs f'

/-! ## Octets -/

theorem putChecksum_eq_put (d : Bytes) (c : Nat) (h : 12 ≤ d.length) : putChecksum d c = putAt d 10 (num16 c) := by
  apply List.ext_getElem?
  intro i
  have hl : (d.take 10).length = 10 := by rw [List.length_take]; omega
  unfold putChecksum putAt num16
  by_cases c1 : i < 10
  · rw [List.getElem?_set_ne (by omega), List.getElem?_set_ne (by omega), List.getElem?_append_left (by omega),
      List.getElem?_take, if_pos c1]
  · rw [List.getElem?_append_right (by omega), hl]
    by_cases c2 : i = 10
    · subst c2
      rw [List.getElem?_set_ne (by omega), List.getElem?_set_self (by omega)]
      rfl
    · by_cases c3 : i = 11
      · subst c3
        rw [List.getElem?_set_self (by rw [List.length_set]; omega)]
        rfl
      · rw [List.getElem?_set_ne (by omega), List.getElem?_set_ne (by omega), List.getElem?_append_right (by simp; omega),
          List.getElem?_drop]
        congr 1
        simp only [List.length_cons, List.length_nil]
        omega

theorem plainSum_put (d : Bytes) (c : Nat) : plainSum (putChecksum d c) = plainSum d := by
  unfold plainSum putChecksum
  congr 2
  simp only [List.set_comm _ _ (show (11 : Nat) ≠ 10 by decide), List.set_set]

/-- A frame with the same types and the same octets behind the IP header is parsed like the first. -/
theorem parse_body {chk : Bool} {f f' : Bytes} {g : Datagram} {p : Packet} (hi : ipInput f = some g) (hp : Slow.parse chk f = .ok p)
    (hg : ∀ g ∈ p.hdrs, g.ty = GRE → greOptCount g.data ≤ 1) (hl : f'.length = f.length) (h12 : u16At f' 12 = u16At f 12)
    (hty : u16At f' (l3At f - 2) = u16At f (l3At f - 2))
    (hpr : u8At f' (l3At f + if g.v6 then 6 else 9) = u8At f (l3At f + if g.v6 then 6 else 9))
    (hd : f'.drop (l3At f + ipLen f) = f.drop (l3At f + ipLen f)) :
    ∃ p', Slow.parse chk f' = .ok p' ∧ ∀ g ∈ p'.hdrs, g.ty = GRE → greOptCount g.data ≤ 1 := by
  have h3 : l3At f' = l3At f := by rw [l3At, h12, l3At]
  obtain ⟨hv, hlen, hip, -, -⟩ := v6_type hi
  unfold ipInput at hi
  split at hi
  rotate_left
  · cases hi
  next et b hli =>
  have key : ∀ (T : HeaderDef) (nx : Bytes → Layer) (l : Layer), l = etherNext et → l ≠ .payload → (et = 0x0800 ∨ et = 0x86DD) →
      (∀ r, dstep l r = one T r (nx r)) → T.size = ipLen f → T ≠ GRE → (nx (f'.drop (l3At f)) = nx (f.drop (l3At f))) →
      ∃ p', Slow.parse chk f' = .ok p' ∧ ∀ g ∈ p'.hdrs, g.ty = GRE → greOptCount g.data ≤ 1 := by
    intro T nx l hll hl0 het hds hT hTg hnx
    obtain ⟨e1, e2, e3, front, hf, -, hq⟩ := link_seen f b et hli het
    have hli' : linkInput f' = some (et, f'.drop (l3At f)) := by
      rw [linkInput_eq, h3, hty, hl, if_neg (by omega), e1]
    obtain ⟨-, -, -, front', hf', -, hq'⟩ := link_seen f' _ et hli' het
    have hbl : T.size ≤ b.length := by rw [e2, List.length_drop]; omega
    rw [hq, ← hll, parse_one b hl0 (hds b) hbl, map_prep, e2, List.drop_drop, hT] at hp
    rw [hq', ← hll, parse_one _ hl0 (hds _) (by rw [List.length_drop]; omega), map_prep, List.drop_drop, hT, hd, hnx]
    generalize Slow.parseL chk _ _ = c at hp
    cases c with
    | error e => cases hp
    | ok r =>
      refine ⟨_, rfl, ?_⟩
      cases hp
      intro x hx hxg
      simp only [prep, List.mem_append, List.mem_singleton] at hx
      rcases hx with (hx | rfl) | hx
      · rcases hf' x hx with h | h <;> rw [h] at hxg <;> exact absurd hxg (by decide)
      · exact absurd hxg hTg
      · exact hg x (by simp [prep, hx]) hxg
  split at hi
  next he =>
    have e1 := (link_seen f b et hli (.inl he)).1
    have hv4 : g.v6 = false := by rw [hv, ← e1, he]; rfl
    rw [hv4] at hpr hip
    exact key IPv4 (fun r => ipv4Next (u8At r 9)) .ipv4 (by rw [he]; rfl) (by decide) (.inl he) (fun r => rfl) hip.symm (by decide)
      (by simp only [u8At_drop_add]; rw [show l3At f + 9 = l3At f + if false = true then 6 else 9 from rfl, hpr])
  next he =>
    obtain ⟨he6, -⟩ := Option.ite_none_right_eq_some.mp hi
    have e1 := (link_seen f b et hli (.inr he6)).1
    have hv6 : g.v6 = true := by rw [hv, ← e1, he6]; rfl
    rw [hv6] at hpr hip
    exact key IPv6 (fun r => ipv6Next (u8At r 6)) .ipv6 (by rw [he6]; rfl) (by decide) (.inr he6) (fun r => rfl) hip.symm (by decide)
      (by simp only [u8At_drop_add]; rw [show l3At f + 6 = l3At f + if true = true then 6 else 9 from rfl, hpr])

theorem eq_of_u8At {a b : Bytes} (hl : a.length = b.length) (h : ∀ i, i < a.length → u8At a i = u8At b i) : a = b := by
  apply List.ext_getElem hl
  intro i h1 h2
  have := h i h1
  rw [u8At, u8At, List.getD_eq_getElem?_getD, List.getD_eq_getElem?_getD, List.getElem?_eq_getElem h1, List.getElem?_eq_getElem h2] at this
  exact BitVec.eq_of_toNat_eq this

theorem putAt_own (d : Bytes) (a : Nat) (x : Nat) (h : a < d.length) (hx : x < 256) : u8At (putAt d a [BitVec.ofNat 8 x]) a = x := by
  have hl : (d.take a).length = a := by rw [List.length_take]; omega
  have := u8At_drop_add (putAt d a [BitVec.ofNat 8 x]) a 0
  rw [Nat.add_zero] at this
  rw [← this, putAt, List.drop_left' hl]
  simp [u8At, Nat.mod_eq_of_lt hx]

/-- The types of a frame on its way. -/
theorem Spec.Onward.types {f f' : Bytes} {t : Nat} (h : Onward f f' t) :
    u16At f' 12 = u16At f 12 ∧ l3At f' = l3At f ∧ u16At f' (l3At f - 2) = u16At f (l3At f - 2) ∧ ipLen f' = ipLen f := by
  have h14 := l3At_ge f
  have e : ∀ i, 12 ≤ i → i + 1 < l3At f → u16At f' i = u16At f i := by
    intro i h1 h2
    rw [u16At, u16At, h.same i h1 (by split <;> omega) (.inr (by omega)), h.same (i + 1) (by omega) (by split <;> omega) (.inr (by omega))]
  have e1 := e 12 (by omega) (by omega)
  have e2 : l3At f' = l3At f := by rw [l3At, e1, l3At]
  have e3 := e (l3At f - 2) (by omega) (by omega)
  exact ⟨e1, e2, e3, by rw [ipLen, e2, e3, ipLen]⟩

theorem Spec.Onward.trans {f f' f'' : Bytes} {t t' : Nat} (h : Onward f f' t) (h' : Onward f' f'' t') : Onward f f'' t' := by
  obtain ⟨-, e2, e3, -⟩ := h.types
  refine ⟨h'.length.trans h.length, fun i h1 h2 h3 => ?_, h'.hops⟩
  rw [h'.same i h1 (by rw [e2, e3]; exact h2) (by rw [e2, e3]; exact h3), h.same i h1 h2 h3]

theorem Spec.Onward.rest {f f' : Bytes} {t : Nat} (h : Onward f f' t) (n : Nat)
    (hn : l3At f + 12 ≤ n) : f'.drop n = f.drop n := by
  have h14 := l3At_ge f
  refine eq_of_u8At (by rw [List.length_drop, List.length_drop, h.length]) fun i _ => ?_
  rw [u8At_drop_add, u8At_drop_add]
  exact h.same _ (by omega) (by split <;> omega) (.inr (by omega))

theorem u8At_set_at (d : Bytes) (k : Nat) (x : Byte) (i : Nat) (h : k < d.length) : u8At (d.set k x) i = if i = k then x.toNat else u8At d i := by
  unfold u8At
  rw [List.getD_eq_getElem?_getD, List.getD_eq_getElem?_getD]
  split
  · next e => subst e; rw [List.getElem?_set_self h]; rfl
  · next e => rw [List.getElem?_set_ne (Ne.symm e)]

/-- The sum over an IPv4 header counts neither the old time to live nor the old checksum. -/
theorem Spec.Onward.sum {f f' : Bytes} {t : Nat} (h : Onward f f' t) (h4 : u16At f (l3At f - 2) = 0x0800) (hl : l3At f + 20 ≤ f.length) (s : Nat) :
    plainSum (ttlHdr f' s) = plainSum (ttlHdr f s) := by
  obtain ⟨-, e2, -, -⟩ := h.types
  have h14 := l3At_ge f
  have len : ∀ b : Bytes, b.length = f.length → l3At b = l3At f → (ip4Hdr b).length = 20 ∧ (ttlHdr b s).length = 20 := by
    intro b h1 h2
    have : (ip4Hdr b).length = 20 := by rw [ip4Hdr, List.length_take, List.length_drop]; omega
    exact ⟨this, by rw [ttlHdr, putAt_length _ _ _ (by rw [this]; exact (by decide : 8 + 1 ≤ 20)), this]⟩
  obtain ⟨l1, l2⟩ := len f rfl rfl
  obtain ⟨l3, l4⟩ := len f' h.length e2
  unfold plainSum
  congr 2
  refine eq_of_u8At (by rw [length_putChecksum, length_putChecksum, l2, l4]) fun i hi => ?_
  rw [length_putChecksum, l4] at hi
  unfold putChecksum
  rw [u8At_set_at _ _ _ _ (by rw [List.length_set, l4]; decide), u8At_set_at _ _ _ _ (by rw [l4]; decide),
    u8At_set_at _ _ _ _ (by rw [List.length_set, l2]; decide), u8At_set_at _ _ _ _ (by rw [l2]; decide)]
  by_cases c1 : i = 11
  · rw [if_pos c1, if_pos c1]
  by_cases c2 : i = 10
  · rw [if_neg c1, if_neg c1, if_pos c2, if_pos c2]
  rw [if_neg c1, if_neg c2, if_neg c1, if_neg c2]
  unfold ttlHdr
  by_cases c3 : i = 8
  · have : ∀ d : Bytes, d.length = 20 → ∀ x : Byte, u8At (putAt d 8 [x]) 8 = x.toNat := by
      intro d hd x
      have := putAt_own d 8 x.toNat (by omega) x.isLt
      rwa [BitVec.ofNat_toNat, BitVec.setWidth_eq] at this
    rw [c3, this _ l1, this _ l3]
  · rw [putAt_u8 _ _ _ (by rw [l3]; exact (by decide : 8 + 1 ≤ 20)) _ (by simp; omega), putAt_u8 _ _ _ (by rw [l1]; exact (by decide : 8 + 1 ≤ 20)) _ (by simp; omega), ip4Hdr, ip4Hdr,
      u8At_take _ _ _ hi, u8At_take _ _ _ hi, u8At_drop_add, u8At_drop_add, e2]
    exact h.same _ (by omega) (by rw [h4]; simp; omega) (.inr (by omega))

/-- What counts for a refreshed checksum is the same all the way. -/
theorem Spec.Onward.refresh {f f' : Bytes} {t : Nat} (h : Onward f f' t) (h4 : u16At f (l3At f - 2) = 0x0800) (hl : l3At f + 20 ≤ f.length) (s : Nat) :
    RefreshRight (ttlHdr f' s) (ip4Opts f') ↔ RefreshRight (ttlHdr f s) (ip4Opts f) := by
  obtain ⟨-, e2, -, -⟩ := h.types
  have h14 := l3At_ge f
  have ho : ip4Opts f' = ip4Opts f := by
    rw [ip4Opts, ip4Opts, e2, h.rest _ (by omega), ihl, ihl, h.same _ (by omega) (by split <;> omega) (.inr (by omega))]
  have hf : FoldsOnce (ttlHdr f' s) ↔ FoldsOnce (ttlHdr f s) := by unfold FoldsOnce; rw [h.sum h4 hl]
  rw [ho, RefreshRight, RefreshRight, if_congr hf rfl rfl]

/-- A frame on its way is parsed like the first. -/
theorem Spec.Onward.parsed {chk : Bool} {f f' : Bytes} {t : Nat} {g : Datagram} {p : Packet} (h : Onward f f' t) (hi : ipInput f = some g)
    (hp : Slow.parse chk f = .ok p) (hg : ∀ g ∈ p.hdrs, g.ty = GRE → greOptCount g.data ≤ 1) :
    ∃ p', Slow.parse chk f' = .ok p' ∧ ∀ g ∈ p'.hdrs, g.ty = GRE → greOptCount g.data ≤ 1 := by
  obtain ⟨e1, e2, e3, -⟩ := h.types
  obtain ⟨hv, hlen, hip, -, -⟩ := v6_type hi
  have h14 := l3At_ge f
  refine parse_body hi hp hg h.length e1 e3 ?_ ?_
  · exact h.same _ (by omega) (by split <;> split <;> omega) (by
      cases hv6 : g.v6 with
      | true => rw [hv6] at hv; exact .inl (of_decide_eq_true hv.symm)
      | false => exact .inr (by simp))
  · refine eq_of_u8At (by rw [List.length_drop, List.length_drop, h.length]) fun i _ => ?_
    rw [u8At_drop_add, u8At_drop_add]
    have : 20 ≤ ipLen f := by unfold ipLen; split <;> omega
    exact h.same _ (by omega) (by split <;> omega) (.inr (by omega))

/-- Other link addresses. -/
theorem Spec.Onward.link {f f' : Bytes} {t : Nat} (h : Onward f f' t) (hl : 14 ≤ f.length) (m : Bytes) (hm : m.length = 12) :
    Onward f (putAt f' 0 m) t ∧ ipInput (putAt f' 0 m) = ipInput f' ∧ (putAt f' 0 m).take 12 = m := by
  have h14 := l3At_ge f
  have hle : 0 + m.length ≤ f'.length := by rw [h.length]; omega
  have u8 : ∀ i, 12 ≤ i → u8At (putAt f' 0 m) i = u8At f' i := fun i hi => putAt_u8 _ _ _ hle _ (by omega)
  refine ⟨⟨by rw [putAt_length _ _ _ hle, h.length], fun i h1 h2 h3 => by rw [u8 i h1, h.same i h1 h2 h3], ?_⟩, ?_, ?_⟩
  · rw [← h.hops, hopsLeft, hopsLeft]
    have e1 : l3At (putAt f' 0 m) = l3At f' := by rw [l3At, u16At, u8 12 (by omega), u8 13 (by omega), ← u16At, l3At]
    have := l3At_ge f'
    have e2 : u16At (putAt f' 0 m) (l3At f' - 2) = u16At f' (l3At f' - 2) := by rw [u16At, u8 _ (by omega), u8 _ (by omega), u16At]
    rw [e1, e2, u8 _ (by omega)]
  · refine ipInput_ignored (putAt_length _ _ _ hle) fun i hi => ?_
    have h96 : 96 ≤ i := by
      refine Decidable.byContradiction fun c => hi (.inl (by omega))
    have := congrArg (fun d => netBit d (i - 96)) (putAt_drop f' 0 m hle 12 (by omega))
    simp only [netBit_drop] at this
    rwa [show 8 * 12 + (i - 96) = i by omega] at this
  · have := putAt_at f' 0 m hle
    rwa [List.drop_zero, hm] at this

/-- The types of the headers up to the IP header. -/
theorem front_types {chk : Bool} {f : Bytes} {g : Datagram} {p : Packet} (hi : ipInput f = some g) (hp : Slow.parse chk f = .ok p) :
    ∃ L post, p.hdrs.map (·.ty) = Ether :: L ++ (if g.v6 then IPv6 else IPv4) :: post ∧ ((Ether :: L).map (·.size)).sum = l3At f ∧
      ∀ S ∈ Ether :: L, S = Ether ∨ S = Vlan := by
  obtain ⟨ip, post, hs, hty⟩ := seen_types hi hp
  obtain ⟨hv, -⟩ := v6_type hi
  have hty : ip.ty = if g.v6 then IPv6 else IPv4 := by rw [hty, hv]; simp
  by_cases c : u16At f 12 = 0x8100
  · refine ⟨[Vlan], post.map (·.ty), by rw [hs, if_pos c, ← hty]; rfl, by rw [l3At, if_pos c]; rfl, ?_⟩
    simp
  · refine ⟨[], post.map (·.ty), by rw [hs, if_neg c, ← hty]; rfl, by rw [l3At, if_neg c]; rfl, ?_⟩
    simp

/-- An IPv6 frame with another hop limit. -/
theorem onward6 {f : Bytes} {g : Datagram} (hi : ipInput f = some g) (h6 : g.v6 = true) (t : Nat) (ht : t < 256) :
    Onward f (putAt f (l3At f + 7) [BitVec.ofNat 8 t]) t ∧ ipInput (putAt f (l3At f + 7) [BitVec.ofNat 8 t]) = some g := by
  obtain ⟨hv, hlen, hip, -, -⟩ := v6_type hi
  have h14 := l3At_ge f
  rw [h6] at hv hip
  have h86 := of_decide_eq_true hv.symm
  rw [hip, if_pos rfl] at hlen
  have hle : l3At f + 7 + [BitVec.ofNat 8 t].length ≤ f.length := by show _ + 1 ≤ _; omega
  have u8 : ∀ i, i ≠ l3At f + 7 → u8At (putAt f (l3At f + 7) [BitVec.ofNat 8 t]) i = u8At f i :=
    fun i h => putAt_u8 _ _ _ hle _ (by simp; omega)
  have e1 : l3At (putAt f (l3At f + 7) [BitVec.ofNat 8 t]) = l3At f := by
    rw [l3At, u16At, u8 12 (by omega), u8 13 (by omega), ← u16At, l3At]
  refine ⟨⟨putAt_length _ _ _ hle, fun i h1 h2 _ => u8 i (by rw [h86] at h2; exact h2), ?_⟩, ?_⟩
  · have e2 : u16At (putAt f (l3At f + 7) [BitVec.ofNat 8 t]) (l3At f - 2) = u16At f (l3At f - 2) := by
      rw [u16At, u8 _ (by omega), u8 _ (by omega), u16At]
    rw [hopsLeft, e1, e2, h86, if_pos rfl]
    exact putAt_own _ _ _ (by omega) ht
  · rw [← hi]
    refine ipInput_ignored (putAt_length _ _ _ hle) fun i hi' => ?_
    unfold netBit
    have hne : i / 8 ≠ l3At f + 7 := fun c => hi' (.inr (.inr ⟨h86, .inr (by omega)⟩))
    have := u8 _ hne
    unfold u8At at this
    rw [BitVec.eq_of_toNat_eq this]

/-- An IPv4 frame with another time to live and checksum. -/
theorem onward4 {f : Bytes} {g : Datagram} (hi : ipInput f = some g) (h4 : g.v6 = false) (t c : Nat) (ht : t < 256) :
    Onward f (putAt (putAt f (l3At f + 8) [BitVec.ofNat 8 t]) (l3At f + 10) (num16 c)) t := by
  obtain ⟨hv, hlen, hip, -, -⟩ := v6_type hi
  have h14 := l3At_ge f
  rw [h4] at hv hip
  have h86 := of_decide_eq_false hv.symm
  rw [hip, if_neg (by decide)] at hlen
  have hle : l3At f + 8 + [BitVec.ofNat 8 t].length ≤ f.length := by show _ + 1 ≤ _; omega
  have hle2 : l3At f + 10 + (num16 c).length ≤ (putAt f (l3At f + 8) [BitVec.ofNat 8 t]).length := by
    rw [putAt_length _ _ _ hle]; show _ + 2 ≤ _; omega
  have u8' : ∀ i, i ≠ l3At f + 10 → i ≠ l3At f + 11 →
      u8At (putAt (putAt f (l3At f + 8) [BitVec.ofNat 8 t]) (l3At f + 10) (num16 c)) i = u8At (putAt f (l3At f + 8) [BitVec.ofNat 8 t]) i :=
    fun i h2 h3 => putAt_u8 _ _ _ hle2 _ (by show _ ∨ _ + 2 ≤ _; omega)
  have u8 : ∀ i, i ≠ l3At f + 8 → i ≠ l3At f + 10 → i ≠ l3At f + 11 →
      u8At (putAt (putAt f (l3At f + 8) [BitVec.ofNat 8 t]) (l3At f + 10) (num16 c)) i = u8At f i := by
    intro i h1 h2 h3
    rw [u8' i h2 h3, putAt_u8 _ _ _ hle _ (by show _ ∨ _ + 1 ≤ _; omega)]
  have e1 : l3At (putAt (putAt f (l3At f + 8) [BitVec.ofNat 8 t]) (l3At f + 10) (num16 c)) = l3At f := by
    rw [l3At, u16At, u8 12 (by omega) (by omega) (by omega), u8 13 (by omega) (by omega) (by omega), ← u16At, l3At]
  refine ⟨by rw [putAt_length _ _ _ hle2, putAt_length _ _ _ hle], fun i h1 h2 h3 => ?_, ?_⟩
  · have h3 := h3.resolve_left h86
    rw [if_neg h86] at h2
    exact u8 i h2 h3.1 h3.2
  · have e2 : u16At (putAt (putAt f (l3At f + 8) [BitVec.ofNat 8 t]) (l3At f + 10) (num16 c)) (l3At f - 2) = u16At f (l3At f - 2) := by
      rw [u16At, u8 _ (by omega) (by omega) (by omega), u8 _ (by omega) (by omega) (by omega), u16At]
    rw [hopsLeft, e1, e2, if_neg h86, u8' _ (by omega) (by omega)]
    exact putAt_own _ _ _ (by omega) ht

/-- The checksum updated for another time to live. -/
theorem ip4Input_ttl {b : Bytes} {g : Datagram} (hi : ip4Input b = some g) (t K : Nat) (ht : t < 256) (hK : 0 < K) (hK' : K ≤ 65535)
    (hs : (K + (256 * t + u8At b 9)) % 65535 = (u16At b 10 + u16At b 8) % 65535) :
    ip4Input (putAt (putAt b 8 [BitVec.ofNat 8 t]) 10 (num16 K)) = some g := by
  unfold ip4Input at hi
  obtain ⟨⟨c1, c2, c3, c4, c5, c6, c7⟩, hi⟩ := Option.ite_none_right_eq_some.mp hi
  cases hi
  have n16 : ∀ k, (num16 k).length = 2 := fun _ => rfl
  have n1 : [BitVec.ofNat 8 t].length = 1 := rfl
  have l1 : 8 + [BitVec.ofNat 8 t].length ≤ b.length := by omega
  have l2 : 10 + (num16 K).length ≤ (putAt b 8 [BitVec.ofNat 8 t]).length := by rw [putAt_length _ _ _ l1, n16]; omega
  have u8 : ∀ j, j < 10 → j ≠ 8 → u8At (putAt (putAt b 8 [BitVec.ofNat 8 t]) 10 (num16 K)) j = u8At b j := fun j hj h8 => by
    rw [putAt_u8 _ _ _ l2 j (by omega), putAt_u8 _ _ _ l1 j (by omega)]
  have u16 : ∀ j, j < 7 → u16At (putAt (putAt b 8 [BitVec.ofNat 8 t]) 10 (num16 K)) j = u16At b j := fun j hj => by
    rw [u16At, u16At, u8 j (by omega) (by omega), u8 (j + 1) (by omega) (by omega)]
  have hihl : ihl (putAt (putAt b 8 [BitVec.ofNat 8 t]) 10 (num16 K)) 0 = ihl b 0 := by rw [ihl, u8 0 (by decide) (by decide), ihl]
  have hver : Verifies ((putAt (putAt b 8 [BitVec.ofNat 8 t]) 10 (num16 K)).take (ihl b 0)) := by
    have hl : (b.take (ihl b 0)).length = ihl b 0 := by rw [List.length_take]; omega
    -- one octet is the first of a word
    have hw : putAt (b.take (ihl b 0)) 8 [BitVec.ofNat 8 t] = putAt (b.take (ihl b 0)) 8 (num16 (256 * t + u8At b 9)) := by
      have := put_first ((b.take (ihl b 0)).drop 8) (BitVec.ofNat 8 t) (by rw [List.length_drop]; omega)
      rw [BitVec.toNat_ofNat, Nat.mod_eq_of_lt ht, u8At_drop_add, u8At_take _ _ _ (by omega)] at this
      have h1 := putAt_inside (b.take (ihl b 0)) 8 0 [BitVec.ofNat 8 t] (by omega)
      have h2 := putAt_inside (b.take (ihl b 0)) 8 0 (num16 (256 * t + u8At b 9)) (by omega)
      rw [Nat.add_zero] at h1 h2
      rw [h1, h2, this]
    have h9 := u8At_lt b 9
    have k1 : 8 + (num16 (256 * t + u8At b 9)).length ≤ (b.take (ihl b 0)).length := by rw [n16]; omega
    have k2 : 10 + (num16 K).length ≤ (putAt (b.take (ihl b 0)) 8 (num16 (256 * t + u8At b 9))).length := by
      rw [putAt_length _ _ _ k1, n16]; omega
    rw [putAt_take _ _ _ _ l2 (by rw [n16]; omega), putAt_take _ _ _ _ l1 (by omega), hw]
    have s1 := sum_put (b.take (ihl b 0)) 8 (num16 (256 * t + u8At b 9)) rfl (by rw [n16]) k1
    have s2 := sum_put _ 10 (num16 K) rfl (by rw [n16]) k2
    rw [n16, words_at _ _ (by rw [putAt_length _ _ _ k1]; omega), putAt_u16 _ _ _ k1 10 (by rw [n16]; omega), u16At_take _ _ _ (by omega), words_num16,
      Nat.mod_eq_of_lt (by omega)] at s2
    have s3 := sum_put_ge _ 10 (num16 K) rfl (by rw [n16]) k2
    rw [n16, words_at _ _ (by omega), u16At_take _ _ _ (by omega), words_num16, Nat.mod_eq_of_lt (by omega)] at s1
    rw [words_num16, Nat.mod_eq_of_lt (by omega)] at s3
    obtain ⟨v1, v2⟩ := (verifies_iff _).mp c6
    exact (verifies_iff _).mpr ⟨by omega, by omega⟩
  have hlen : (putAt (putAt b 8 [BitVec.ofNat 8 t]) 10 (num16 K)).length = b.length := by rw [putAt_length _ _ _ l2, putAt_length _ _ _ l1]
  have hdrop : ∀ n, 12 ≤ n → (putAt (putAt b 8 [BitVec.ofNat 8 t]) 10 (num16 K)).drop n = b.drop n := fun n hn => by
    rw [putAt_drop _ _ _ l2 _ (by rw [n16]; omega), putAt_drop _ _ _ l1 _ (by omega)]
  unfold ip4Input
  rw [hihl, hlen, u8 0 (by decide) (by decide), u8 9 (by decide) (by decide), u16 2 (by decide), u16 6 (by decide),
    if_pos ⟨c1, c2, c3, c4, c5, hver, c7⟩, List.drop_take, List.drop_take, hdrop (ihl b 0) (by omega), hdrop 12 (by decide), hdrop 16 (by decide)]

theorem edit_frame {chk : Bool} {f : Bytes} {g : Datagram} {p : Packet} (hi : ipInput f = some g) (hp : Slow.parse chk f = .ok p)
    (hg : ∀ g ∈ p.hdrs, g.ty = GRE → greOptCount g.data ≤ 1) (r : Router) (t : U64) (ht : t.toNat = hopsLeft f) (h1 : 1 < t.toNat) :
    ∃ q, r.edit chk g.v6 t p = .ok q ∧ q.hdrs.map (·.ty) = p.hdrs.map (·.ty) ∧ (∀ x ∈ q.hdrs, x.data.length = x.ty.size) ∧
      Onward f q.to_vec (hopsLeft f - 1) ∧
      ipInput q.to_vec = if u16At f (l3At f - 2) = 0x0800 → r.own = true → RefreshRight (ttlHdr f (hopsLeft f - 1)) (ip4Opts f)
        then some g else none := by
  obtain ⟨hv, hlen, hip, -, -⟩ := v6_type hi
  obtain ⟨L, post, hL, hLs, hLn⟩ := front_types hi hp
  have hwf := frame_sizes hp
  have hvec := C23_roundtrip_frame chk f p hp hg
  have h14 := l3At_ge f
  have h256 : hopsLeft f < 256 := by unfold hopsLeft; exact u8At_lt _ _
  have hsub : (t - 1).toNat = hopsLeft f - 1 := by
    rw [BitVec.toNat_sub_of_le (by rw [BitVec.le_def]; exact Nat.le_of_lt h1), ht]; rfl
  have b8 : ∀ j, j < 8 * [BitVec.ofNat 8 (hopsLeft f - 1)].length →
      netBit [BitVec.ofNat 8 (hopsLeft f - 1)] j = (t - 1).getLsbD (8 * [BitVec.ofNat 8 (hopsLeft f - 1)].length - 1 - j) := by
    intro j hj
    have := netBit_num8 (t - 1) j hj
    rwa [hsub] at this
  cases h6 : g.v6 with
  | true =>
    rw [h6] at hL hv hip
    have h86 := of_decide_eq_true hv.symm
    have hne : u16At f (l3At f - 2) ≠ 0x0800 := by rw [h86]; decide
    obtain ⟨q, e, t1, w1, v1⟩ := edit_types IPv6 IPv6.hop_limit (t - 1) 7 [BitVec.ofNat 8 (hopsLeft f - 1)] rfl rfl Nat.one_pos
      (show 7 + 1 ≤ 40 by decide) b8 p (Ether :: L) post hL (fun S hS => by rcases hLn S hS with rfl | rfl <;> decide) hwf
    rw [hLs, hvec] at v1
    obtain ⟨o1, o2⟩ := onward6 hi h6 (hopsLeft f - 1) (by omega)
    refine ⟨q, by simp only [Router.edit, if_true]; exact e, t1, w1, v1 ▸ o1, ?_⟩
    rw [if_pos fun h => absurd h hne, v1, o2]
  | false =>
    have hs4 := ip4_shape hi h6 hp
    obtain ⟨hli, hbi, -, h08, front, ip, post', hfirst, hty, hsz⟩ := hs4
    rw [h6] at hL hv hip
    rw [hip, if_neg (by decide)] at hlen
    have hLn' : ∀ S ∈ Ether :: L, S.name ≠ IPv4.name := fun S hS => by rcases hLn S hS with rfl | rfl <;> decide
    have h86 := of_decide_eq_false hv.symm
    have htk : (f.take (l3At f)).length = l3At f := by rw [List.length_take]; omega
    have hhop : hopsLeft f = u8At f (l3At f + 8) := by rw [hopsLeft, if_neg h86]
    have n16 : ∀ k, (num16 k).length = 2 := fun _ => rfl
    cases ho : r.own with
    | true =>
      obtain ⟨w1, w2, w3⟩ := wire_take_drop hp hg hfirst.1
      rw [hsz, show ip.ty.size = 20 by rw [hty]; rfl] at w2 w3
      have hl : ip.data.length = 20 := by rw [hwf ip (by rw [hfirst.1]; simp), hty]; rfl
      obtain ⟨g', c, e, ht', hl', hc, he⟩ := edit_refresh chk p front post' ip hfirst hty hl IPv4.ttl ⟨by decide, by decide⟩ (t - 1)
      rw [set_whole IPv4 IPv4.ttl (t - 1) 8 [BitVec.ofNat 8 (hopsLeft f - 1)] rfl rfl Nat.one_pos (show 8 + 1 ≤ 20 by decide) b8 ip hty
        hl] at e
      obtain rfl := Except.ok.inj e
      simp only at he hl' hc
      obtain ⟨q, e', hq, -⟩ := C99_forward hi h08 hp hg (t - 1)
      rw [hsub] at hq
      rw [he] at e'
      obtain rfl := Except.ok.inj e'
      refine ⟨_, by simp only [Router.edit, ho, Bool.false_eq_true, if_false, if_true]; exact he, ?_, ?_, ?_, ?_⟩
      · rw [hfirst.1]; simp [hty]
      · intro x hx
        simp only [List.mem_append, List.mem_cons] at hx
        rcases hx with hx | rfl | hx
        · exact hwf x (by rw [hfirst.1]; simp [hx])
        · rw [length_putChecksum, hl']; rfl
        · exact hwf x (by rw [hfirst.1]; simp [hx])
      · have := onward4 hi h6 (hopsLeft f - 1) c.toNat (by omega)
        rw [putAt_inside f _ _ _ (by omega), putAt_behind _ _ _ _ _ htk] at this
        rw [wire_split, w1, w3, hsz, putChecksum_eq_put _ _ (by rw [hl']; decide), w2]
        have e3 : f.drop (l3At f) = (f.drop (l3At f)).take 20 ++ f.drop (l3At f + 20) := by
          rw [← List.drop_drop, List.take_append_drop]
        have hd20 : ((f.drop (l3At f)).take 20).length = 20 := by rw [List.length_take, List.length_drop]; omega
        rw [e3, putAt_append _ _ _ _ (by rw [hd20]; exact (by decide : 8 + 1 ≤ 20)), putAt_append _ _ _ _ (by
          rw [putAt_length _ _ _ (by rw [hd20]; exact (by decide : 8 + 1 ≤ 20)), hd20, n16]; decide)] at this
        exact this
      · rw [hq]
        refine if_congr ?_ rfl rfl
        exact ⟨fun h _ _ => h, fun h => h h08 rfl⟩
    | false =>
      obtain ⟨pr, r1, o1⟩ := readField_types chk IPv4 IPv4.protocol p (Ether :: L) post hL hLn' hwf ⟨by decide, by decide⟩ (by decide)
      obtain ⟨c, r2, o2⟩ := readField_types chk IPv4 IPv4.header_checksum p (Ether :: L) post hL hLn' hwf ⟨by decide, by decide⟩ (by decide)
      have i20 : IPv4.size = 20 := rfl
      rw [hLs, hvec, show IPv4.protocol.lo = 8 * 9 from rfl, show IPv4.protocol.hi = 8 * 9 + 7 from rfl,
        fieldVal_u8 _ _ (by rw [List.length_take, List.length_drop]; omega), u8At_take _ _ _ (by decide), u8At_drop_add] at o1
      rw [hLs, hvec, show IPv4.header_checksum.lo = 8 * 10 from rfl, show IPv4.header_checksum.hi = 8 * 10 + 15 from rfl,
        read_two _ _ _ (by decide) (by omega)] at o2
      have p9 := u8At_lt f (l3At f + 9)
      obtain ⟨k1, k2, k3⟩ := adjust_sum c.toNat [256 * t.toNat + pr.toNat] [256 * (t - 1).toNat + pr.toNat]
        (by have := u16At_lt f (l3At f + 10); omega) (by
          intro x hx
          obtain rfl := List.mem_singleton.mp hx
          omega)
      generalize hK : adjust c.toNat [256 * t.toNat + pr.toNat] [256 * (t - 1).toNat + pr.toNat] = K at k1 k2 k3
      obtain ⟨q1, e1, t1, w1, v1⟩ := edit_types IPv4 IPv4.ttl (t - 1) 8 [BitVec.ofNat 8 (hopsLeft f - 1)] rfl rfl Nat.one_pos
        (show 8 + 1 ≤ 20 by decide) b8 p (Ether :: L) post hL hLn' hwf
      obtain ⟨q2, e2, t2, w2, v2⟩ := edit_types IPv4 IPv4.header_checksum (BitVec.ofNat 64 K) 10 (num16 K) rfl rfl (by rw [n16]; decide)
        (by rw [n16]; decide) (by
          intro j hj
          have := netBit_num16 (BitVec.ofNat 64 K) j (by rw [n16] at hj; omega)
          rwa [BitVec.toNat_ofNat, Nat.mod_eq_of_lt (by omega)] at this) q1 (Ether :: L) post (by rw [t1, hL]; rfl) hLn' w1
      rw [hLs, hvec] at v1
      rw [hLs, v1] at v2
      refine ⟨q2, ?_, by rw [t2, t1], w2, v2 ▸ onward4 hi h6 (hopsLeft f - 1) K (by omega), ?_⟩
      · simp only [Router.edit, ho, Bool.false_eq_true, if_false, r1, r2, e1, hK, bind, Except.bind]
        exact e2
      · rw [if_pos (fun _ h => (nomatch h)), v2, putAt_inside f _ _ _ (by omega), putAt_behind _ _ _ _ _ htk]
        unfold ipInput
        rw [linkInput_front hli]
        simp only [if_true]
        refine ip4Input_ttl hbi _ _ (by omega) k1 k2 ?_
        simp only [List.sum_cons, List.sum_nil, Nat.add_zero] at k3
        rw [u8At_drop_add, u16At_drop_add, u16At_drop_add, ← o1, ← o2, ← hsub, k3, u16At, ← hhop, ← ht, o1]

theorem hop_read {chk : Bool} {f : Bytes} {g : Datagram} {p : Packet} (hi : ipInput f = some g) (hp : Slow.parse chk f = .ok p)
    (hg : ∀ g ∈ p.hdrs, g.ty = GRE → greOptCount g.data ≤ 1) :
    ∃ t : U64, readHops chk g.v6 p = .ok t ∧ t.toNat = hopsLeft f := by
  unfold readHops
  obtain ⟨hv, hlen, hip, -, -⟩ := v6_type hi
  obtain ⟨L, post, hL, hLs, hLn⟩ := front_types hi hp
  have hwf := frame_sizes hp
  have hvec := C23_roundtrip_frame chk f p hp hg
  cases h6 : g.v6 with
  | true =>
    rw [h6] at hL hv hip
    rw [hip, if_pos rfl] at hlen
    have h86 := of_decide_eq_true hv.symm
    obtain ⟨t, r1, o1⟩ := readField_types chk IPv6 IPv6.hop_limit p (Ether :: L) post hL
      (fun S hS => by rcases hLn S hS with rfl | rfl <;> decide) hwf ⟨by decide, by decide⟩ (by decide)
    have i40 : IPv6.size = 40 := rfl
    rw [hLs, hvec, show IPv6.hop_limit.lo = 8 * 7 from rfl, show IPv6.hop_limit.hi = 8 * 7 + 7 from rfl,
      fieldVal_u8 _ _ (by rw [List.length_take, List.length_drop]; omega), u8At_take _ _ _ (by decide), u8At_drop_add] at o1
    exact ⟨t, r1, by rw [o1, hopsLeft, if_pos h86]⟩
  | false =>
    rw [h6] at hL hv hip
    rw [hip, if_neg (by decide)] at hlen
    have h86 := of_decide_eq_false hv.symm
    obtain ⟨t, r1, o1⟩ := readField_types chk IPv4 IPv4.ttl p (Ether :: L) post hL
      (fun S hS => by rcases hLn S hS with rfl | rfl <;> decide) hwf ⟨by decide, by decide⟩ (by decide)
    have i20 : IPv4.size = 20 := rfl
    rw [hLs, hvec, show IPv4.ttl.lo = 8 * 8 from rfl, show IPv4.ttl.hi = 8 * 8 + 7 from rfl,
      fieldVal_u8 _ _ (by rw [List.length_take, List.length_drop]; omega), u8At_take _ _ _ (by decide), u8At_drop_add] at o1
    exact ⟨t, r1, by rw [o1, hopsLeft, if_neg h86]⟩

/-! ## One router, and any number of them -/

/-- **C111, one router.** With a hop left it sends the frame on, else it does not; the next station takes what it sends unless the
router summed an IPv4 header up with the crate and the sum was folded wrong. -/
theorem C111_router {chk : Bool} {f : Bytes} {g : Datagram} {p : Packet} (hi : ipInput f = some g) (hp : Slow.parse chk f = .ok p)
    (hg : ∀ g ∈ p.hdrs, g.ty = GRE → greOptCount g.data ≤ 1) (r : Router) (hr : r.dst.length = 6 ∧ r.src.length = 6) :
    (hopsLeft f ≤ 1 → r.pass chk f = .ok none) ∧
      (1 < hopsLeft f → ∃ f', r.pass chk f = .ok (some f') ∧ Onward f f' (hopsLeft f - 1) ∧ f'.take 12 = r.dst ++ r.src ∧
        ipInput f' = if u16At f (l3At f - 2) = 0x0800 → r.own = true → RefreshRight (ttlHdr f (hopsLeft f - 1)) (ip4Opts f)
          then some g else none) := by
  obtain ⟨t, e, ht⟩ := hop_read hi hp hg
  refine ⟨fun h => ?_, fun h => ?_⟩
  · simp only [Router.pass, hi, hp, bind, Except.bind, Router.forward, e, if_pos (show t.toNat ≤ 1 by omega)]
    rfl
  · obtain ⟨q, e1, t1, w1, o1, i1⟩ := edit_frame hi hp hg r t ht (by omega)
    obtain ⟨L, post, hL, -, -⟩ := front_types hi hp
    obtain ⟨-, hlen, -⟩ := v6_type hi
    have h14 := l3At_ge f
    have hm : (r.dst ++ r.src).length = 12 := by rw [List.length_append, hr.1, hr.2]
    obtain ⟨q', e2, -, -, v2⟩ := putIn_types Ether (fun h => h.set_bytes chk 95 0 (r.dst ++ r.src)) 0 (r.dst ++ r.src) (by
        intro g hg hl
        have hl : g.data.length = 14 := hl
        have := setBytes_put chk g.data 0 (r.dst ++ r.src) (fun h => by rw [h] at hm; cases hm) (by omega) (by omega)
        rw [hm] at this
        simp only [Hdr.set_bytes, this, bind, Except.bind, pure, Except.pure, hg])
      q [] (L ++ (if g.v6 then IPv6 else IPv4) :: post) (by rw [t1, hL]; rfl) (by simp) w1 (by rw [hm]; decide)
    simp only [List.map_nil, List.sum_nil, Nat.zero_add] at v2
    obtain ⟨l1, l2, l3⟩ := o1.link (by omega) _ hm
    refine ⟨q'.to_vec, ?_, v2 ▸ l1, v2 ▸ l3, ?_⟩
    · simp only [Router.pass, hi, hp, bind, Except.bind, Router.forward, e, if_neg (show ¬ t.toNat ≤ 1 by omega), e1, e2]
      rfl
    · rw [v2, l2, i1]

theorem Spec.Onward.passes {f f' : Bytes} (h : Onward f f' (hopsLeft f - 1)) (h1 : 1 < hopsLeft f) (hl : l3At f + ipLen f ≤ f.length) (o : Bool)
    (os : List Bool) : Passes f (o :: os) ↔
      (u16At f (l3At f - 2) = 0x0800 → o = true → RefreshRight (ttlHdr f (hopsLeft f - 1)) (ip4Opts f)) ∧ Passes f' os := by
  obtain ⟨-, e2, e3, -⟩ := h.types
  have key : ∀ k s, u16At f (l3At f - 2) = 0x0800 → s = hopsLeft f - 1 - (k + 1) →
      (RefreshRight (ttlHdr f' s) (ip4Opts f') ↔ RefreshRight (ttlHdr f (hopsLeft f - (k + 1 + 1))) (ip4Opts f)) := by
    intro k s h4 hs
    have hl' : l3At f + 20 ≤ f.length := by rw [ipLen, if_pos h4] at hl; exact hl
    rw [h.refresh h4 hl', hs, show hopsLeft f - 1 - (k + 1) = hopsLeft f - (k + 1 + 1) by omega]
  unfold Passes
  rw [h.hops, e2, e3]
  constructor
  · rintro ⟨a, b⟩
    refine ⟨fun h4 ho => b 0 (by simp [ho]) h4, fun hos => ?_, fun k hk h4 => ?_⟩
    · have := a (by simp)
      simp only [List.length_cons] at this
      omega
    · exact (key k _ h4 rfl).mpr (b (k + 1) (by simpa using hk) h4)
  · rintro ⟨a, b, c⟩
    refine ⟨fun _ => ?_, fun k hk h4 => ?_⟩
    · cases os with
      | nil => simpa using h1
      | cons x xs => have := b (by simp); simp only [List.length_cons] at this ⊢; omega
    · cases k with
      | zero => exact a h4 (by simpa using hk)
      | succ k => exact (key k _ h4 rfl).mp (c k (by simpa using hk) h4)

/-- **C111, a path.** Through any number of routers: iff nothing fails on the way (`Passes`), the station behind the last one gets the
datagram the sender had sent, in a frame that is the first one but for link addresses, hops left and header checksum. -/
theorem C111_path {chk : Bool} {f : Bytes} {g : Datagram} {p : Packet} (hi : ipInput f = some g) (hp : Slow.parse chk f = .ok p)
    (hg : ∀ g ∈ p.hdrs, g.ty = GRE → greOptCount g.data ≤ 1) (rs : List Router) (hr : ∀ r ∈ rs, r.dst.length = 6 ∧ r.src.length = 6) :
    ∃ x, along chk rs f = .ok x ∧
      (Passes f (rs.map (·.own)) → ∃ f', x = some f' ∧ ipInput f' = some g ∧ Onward f f' (hopsLeft f - rs.length) ∧
        ∀ z ∈ rs.getLast?, f'.take 12 = z.dst ++ z.src) ∧
      (¬ Passes f (rs.map (·.own)) → x.bind ipInput = none) := by
  induction rs generalizing f p with
  | nil =>
    refine ⟨some f, rfl, fun _ => ⟨f, rfl, hi, ⟨rfl, fun _ _ _ _ => rfl, rfl⟩, by simp⟩, fun h => absurd ?_ h⟩
    exact ⟨fun h => absurd rfl h, by simp⟩
  | cons r rs ih =>
    obtain ⟨a1, a2⟩ := C111_router hi hp hg r (hr r (by simp))
    by_cases h1 : hopsLeft f ≤ 1
    · refine ⟨none, by simp only [along, a1 h1, bind, Except.bind]; rfl, fun h => ?_, fun _ => rfl⟩
      have := h.1 (by simp)
      simp only [List.length_map, List.length_cons] at this
      omega
    · obtain ⟨f', e, o, hm, hi'⟩ := a2 (by omega)
      have hps := o.passes (by omega) (v6_type hi).2.1 r.own (rs.map (·.own))
      by_cases hc : u16At f (l3At f - 2) = 0x0800 → r.own = true → RefreshRight (ttlHdr f (hopsLeft f - 1)) (ip4Opts f)
      · rw [if_pos hc] at hi'
        obtain ⟨p', hp', hg'⟩ := o.parsed hi hp hg
        obtain ⟨x, ex, x1, x2⟩ := ih hi' hp' hg' (fun z hz => hr z (by simp [hz]))
        refine ⟨x, by simp only [along, e, bind, Except.bind]; exact ex, fun h => ?_, fun h => ?_⟩
        · obtain ⟨f'', y1, y2, y3, y4⟩ := x1 (hps.mp h).2
          refine ⟨f'', y1, y2, ?_, ?_⟩
          · have := o.trans y3
            rwa [o.hops, show hopsLeft f - 1 - rs.length = hopsLeft f - (r :: rs).length by simp only [List.length_cons]; omega] at this
          · cases rs with
            | nil =>
              obtain rfl : some f' = x := Except.ok.inj ex
              obtain rfl := Option.some.inj y1
              intro z hz
              obtain rfl : r = z := by simpa using hz
              exact hm
            | cons a b => exact fun z hz => y4 z (by simpa using hz)
        · exact x2 fun h' => h (hps.mpr ⟨hc, h'⟩)
      · rw [if_neg hc] at hi'
        have hnot : ¬ Passes f ((r :: rs).map (·.own)) := fun h => hc (hps.mp h).1
        cases rs with
        | nil => exact ⟨some f', by simp only [along, e, bind, Except.bind]; rfl, fun h => absurd h hnot, fun _ => hi'⟩
        | cons z zs =>
          refine ⟨none, ?_, fun h => absurd h hnot, fun _ => rfl⟩
          have : z.pass chk f' = .ok none := by simp only [Router.pass, hi']; rfl
          simp only [along, e, this, bind, Except.bind]
          rfl

/-- What a path leaves to a host: all or nothing. -/
theorem C111_hosts {chk : Bool} {f : Bytes} {g : Datagram} {p : Packet} (hi : ipInput f = some g) (hp : Slow.parse chk f = .ok p)
    (hg : ∀ g ∈ p.hdrs, g.ty = GRE → greOptCount g.data ≤ 1) (rs : List Router) (hr : ∀ r ∈ rs, r.dst.length = 6 ∧ r.src.length = 6) :
    ∃ x, along chk rs f = .ok x ∧
      (Passes f (rs.map (·.own)) → x.bind hostUdp = hostUdp f ∧ x.bind hostTcp = hostTcp f ∧ x.bind hostIcmp = hostIcmp f) ∧
      (¬ Passes f (rs.map (·.own)) → x.bind hostUdp = none ∧ x.bind hostTcp = none ∧ x.bind hostIcmp = none) := by
  obtain ⟨x, e, h1, h2⟩ := C111_path hi hp hg rs hr
  refine ⟨x, e, fun h => ?_, fun h => ?_⟩
  · obtain ⟨f', rfl, h3, -⟩ := h1 h
    simp only [Option.bind_some, hostUdp, hostTcp, hostIcmp, h3, hi, and_self]
  · cases x with
    | none => exact ⟨rfl, rfl, rfl⟩
    | some f' =>
      have : ipInput f' = none := h2 h
      simp only [Option.bind_some, hostUdp, hostTcp, hostIcmp, this, Option.bind_none, and_self]

/-- The hypotheses on samples.  A datagram (with VLAN tag) through three routers, one of which sums up with the crate; and one of a
header for which the sum with time to live 62 is folded wrong: it passes one router, not two, and not three. -/
example :
    let r : Router := ⟨true, [1, 2, 3, 4, 5, 6], [7, 8, 9, 10, 11, 12]⟩
    let n : Router := ⟨false, [2, 2, 3, 4, 5, 6], [8, 8, 9, 10, 11, 12]⟩
    let f := (Sample.get Sample.udp).to_vec
    let z : Bytes := [0, 17, 34, 51, 68, 85, 0, 6, 7, 8, 9, 10, 8, 0, 69, 0, 0, 32, 178, 51, 0, 0, 64, 1, 253, 254, 10, 0, 0, 1, 192, 168, 0, 2,
      8, 0, 76, 63, 0, 1, 0, 2, 170, 187, 1, 2]
    let host (x : R (Option Bytes)) := x.map fun x => x.bind hostIcmp
    (hostUdp f).isSome ∧ (∀ g ∈ (Sample.get (Slow.parse true f)).hdrs, g.ty ≠ GRE) ∧ hopsLeft f = 64 ∧
      (along true [n, r, n] f).map (fun x => x.map fun f' => (hostUdp f', hopsLeft f', f'.take 12)) =
        .ok (some (hostUdp f, 61, [2, 2, 3, 4, 5, 6, 8, 8, 9, 10, 11, 12])) ∧
      (hostIcmp z).isSome ∧ ¬ FoldsOnce (ttlHdr z 62) ∧ FoldsOnce (ttlHdr z 63) ∧ FoldsOnce (ttlHdr z 61) ∧
      host (along true [r] z) = .ok (hostIcmp z) ∧ host (along true [r, r] z) = .ok none ∧ host (along true [r, r, r] z) = .ok none ∧
      host (along true [r, n, r] z) = .ok (hostIcmp z) ∧
      along true (List.replicate 64 n) z = .ok none ∧ host (along true (List.replicate 63 n) z) = .ok (hostIcmp z) := by
  decide +kernel

/-! ## There and back -/

theorem passes_append {f f' : Bytes} (os os' : List Bool) (h : Onward f f' (hopsLeft f - os.length)) (hl : l3At f + ipLen f ≤ f.length) :
    Passes f (os ++ os') ↔ Passes f os ∧ Passes f' os' := by
  obtain ⟨-, e2, e3, -⟩ := h.types
  have key : ∀ k, u16At f (l3At f - 2) = 0x0800 →
      (RefreshRight (ttlHdr f' (hopsLeft f - os.length - (k + 1))) (ip4Opts f') ↔
        RefreshRight (ttlHdr f (hopsLeft f - (os.length + k + 1))) (ip4Opts f)) := by
    intro k h4
    have hl' : l3At f + 20 ≤ f.length := by rw [ipLen, if_pos h4] at hl; exact hl
    rw [h.refresh h4 hl', show hopsLeft f - os.length - (k + 1) = hopsLeft f - (os.length + k + 1) by omega]
  unfold Passes
  rw [h.hops, e2, e3]
  constructor
  · rintro ⟨a, b⟩
    refine ⟨⟨fun ho => ?_, fun k hk h4 => b k ?_ h4⟩, fun ho => ?_, fun k hk h4 => (key k h4).mpr (b _ ?_ h4)⟩
    · have := a (by simp [ho])
      rw [List.length_append] at this
      omega
    · rw [List.getElem?_append_left (List.getElem?_eq_some_iff.mp hk).1, hk]
    · have := a (by simp [ho])
      rw [List.length_append] at this
      omega
    · rw [List.getElem?_append_right (by omega), Nat.add_sub_cancel_left, hk]
  · rintro ⟨⟨a, b⟩, c, d⟩
    refine ⟨fun ho => ?_, fun k hk h4 => ?_⟩
    · rw [List.length_append]
      cases os' with
      | nil => rw [List.append_nil] at ho; have := a ho; simpa using this
      | cons x xs => have := c (by simp); omega
    · by_cases hk' : k < os.length
      · rw [List.getElem?_append_left hk'] at hk
        exact b k hk h4
      · rw [List.getElem?_append_right (by omega)] at hk
        have := (key _ h4).mp (d _ hk h4)
        rwa [show os.length + (k - os.length) + 1 = k + 1 by omega] at this

/-- An ICMP message a host takes is parsed. -/
theorem icmp_parsed {chk : Bool} {f : Bytes} {g : Datagram} {m : IcmpMsg} (hi : ipInput f = some g) (hu : icmpInput g = some m)
    (ho : NoOptions f) : ∃ p, Slow.parse chk f = .ok p ∧ ∀ g ∈ p.hdrs, g.ty = GRE → greOptCount g.data ≤ 1 := by
  obtain ⟨hlong, -, -, hpr⟩ := icmpInput_fields hu
  have hl : (if g.v6 then ipv6Next g.proto else ipv4Next g.proto) = .icmp := by
    rcases hpr with ⟨q1, q2⟩ | ⟨q1, q2⟩ <;> rw [q1, q2] <;> rfl
  obtain ⟨front, ip, o, y, hf, hip, hlen, hx, hs, hd, hparse⟩ := datagram_seen f g hi
  obtain rfl := hx.mpr ho
  have hpq := hparse chk
  rw [hl, List.nil_append, parse_one _ (by decide) rfl (show 4 ≤ _ by rw [List.length_append]; omega), map_prep] at hpq
  have hpq : ∃ p, Slow.parse chk f = .ok p := ⟨_, hpq⟩
  obtain ⟨p, hp⟩ := hpq
  exact ⟨p, hp, no_gre (T := ICMP) (l := .icmp) hi ho hp (by decide) hl (fun _ => rfl) hlong (by decide)⟩

set_option maxRecDepth 4000 in
theorem plainSum_turn (d : Bytes) (x : Byte) (h : d.length = 20) :
    plainSum (putAt (swapAt d 12 4) 8 [x]) = plainSum (putAt d 8 [x]) := by
  match d, h with
  | [a0, a1, a2, a3, a4, a5, a6, a7, a8, a9, a10, a11, a12, a13, a14, a15, a16, a17, a18, a19], _ =>
    simp only [plainSum, putChecksum, putAt, swapAt, List.drop_succ_cons, List.drop_zero, List.take_succ_cons, List.take_zero, List.cons_append,
      List.nil_append, List.length_cons, List.length_nil, List.set_cons_succ, List.set_cons_zero, words, List.sum_cons, List.sum_nil,
      Nat.reduceAdd, List.drop_nil, List.take_nil]
    omega

/-- The answer has as many hops left as the request had when it arrived, and its header sums up as the request's. -/
theorem answer_passes {f f' : Bytes} {g : Datagram} (hi : ipInput f = some g) (hl : f'.length = f.length)
    (ht : f'.take (l3At f + ipLen f) =
      (swapAt (swapAt f 0 6) (l3At f + if g.v6 then 8 else 12) (if g.v6 then 16 else 4)).take (l3At f + ipLen f)) (ho : NoOptions f) :
    NoOptions f' ∧ hopsLeft f' = hopsLeft f ∧ ∀ os, Passes f' os ↔ Passes f os := by
  obtain ⟨hv, hlen, hip, -, -⟩ := v6_type hi
  have h14 := l3At_ge f
  have hl1 : (swapAt f 0 6).length = f.length := swapAt_length _ _ _ (by omega)
  have hle : l3At f + (if g.v6 then 8 else 12) + 2 * (if g.v6 then 16 else 4) ≤ (swapAt f 0 6).length := by
    rw [hl1]; rw [hip] at hlen; split at hlen <;> simp_all
  have hend : l3At f + (if g.v6 then 8 else 12) + 2 * (if g.v6 then 16 else 4) = l3At f + ipLen f := by
    rw [hip]; split <;> rfl
  have u8 : ∀ i, 12 ≤ i → i < l3At f + (if g.v6 then 8 else 12) → u8At f' i = u8At f i := by
    intro i h1 h2
    have : u8At (f'.take _) i = u8At (List.take _ _) i := congrArg (fun d => u8At d i) ht
    rw [u8At_take _ _ _ (by omega), u8At_take _ _ _ (by omega), swapAt_u8 _ _ _ hle _ (.inl h2), swapAt_u8 _ _ _ (by omega) _ (by omega)] at this
    exact this
  have h8 : 8 ≤ if g.v6 then 8 else 12 := by split <;> decide
  have e12 : u16At f' 12 = u16At f 12 := by rw [u16At, u8 12 (by omega) (by omega), u8 13 (by omega) (by omega), u16At]
  have ety : u16At f' (l3At f - 2) = u16At f (l3At f - 2) := by
    rw [u16At, u8 _ (by omega) (by omega), u8 _ (by omega) (by omega), u16At]
  obtain ⟨s1, s2, s3⟩ := turn_shape (f := f) f' e12 ety (u8 _ (by omega) (by omega))
  have hh : hopsLeft f' = hopsLeft f := by
    rw [hopsLeft, hopsLeft, s1, ety]
    refine u8 _ (by omega) ?_
    rw [hv]
    by_cases c : u16At f (l3At f - 2) = 0x86DD <;> simp [c]
  refine ⟨s3 ho, hh, fun os => ?_⟩
  unfold Passes
  rw [hh, s1, ety]
  refine and_congr_right fun _ => forall_congr' fun k => imp_congr_right fun _ => imp_congr_right fun h4 => ?_
  rw [C99_no_options f _ h4 ho, C99_no_options f' _ (by rw [s1, ety]; exact h4) (s3 ho)]
  have h4' : g.v6 = false := by rw [hv, h4]; rfl
  rw [h4'] at ht hip hle
  simp only [Bool.false_eq_true, if_false] at ht hip hle
  rw [hip] at ht hlen
  have hsum : ∀ s, plainSum (ttlHdr f' s) = plainSum (ttlHdr f s) := by
    intro s
    have hd : ip4Hdr f' = swapAt (ip4Hdr f) 12 4 := by
      have := congrArg (fun d => d.drop (l3At f)) ht
      simp only [List.drop_take, Nat.add_sub_cancel_left] at this
      rw [ip4Hdr, s1, this]
      have hf : swapAt f 0 6 = (swapAt f 0 6).take (l3At f) ++ f.drop (l3At f) := by
        conv => lhs; rw [← List.take_append_drop (l3At f) (swapAt f 0 6)]
        rw [swapAt_drop _ _ _ (by omega) _ (by omega)]
      have hk : ((swapAt f 0 6).take (l3At f)).length = l3At f := by rw [List.length_take, hl1]; omega
      rw [hf, swapAt_behind _ _ _ _ _ hk, List.drop_left' hk, swapAt_take _ _ _ _ (by decide) (by rw [List.length_drop]; omega), ip4Hdr]
    unfold ttlHdr
    rw [hd, plainSum_turn _ _ (by rw [ip4Hdr, List.length_take, List.length_drop]; omega)]
  unfold FoldsOnce
  rw [hsum]

/-- A message sent along `rs`, answered by the host behind with type `t` (`echoReply`, C103), the answer sent along `rs'`. -/
def ping (chk : Bool) (t : Byte) (rs rs' : List Router) (f : Bytes) : R (Option Bytes) := do
  match ← along chk rs f with
  | none => pure none
  | some f' =>
    match hostIcmp f' with
    | none => pure none
    | some _ => do
      let p ← Slow.parse chk f'
      let q ← echoReply chk (decide (u16At f' (l3At f' - 2) = 0x86DD)) t p
      along chk rs' q.to_vec

/-- **C111, there and back.** The answer does not get hops of its own: it comes back iff the request would have passed the routers of
both ways. -/
theorem C111_ping {f : Bytes} {m : IcmpMsg} (chk : Bool) (t : Byte) (rs rs' : List Router) (hm : hostIcmp f = some m) (ho : NoOptions f)
    (hr : ∀ r ∈ rs ++ rs', r.dst.length = 6 ∧ r.src.length = 6) :
    ∃ x, ping chk t rs rs' f = .ok x ∧
      (Passes f ((rs ++ rs').map (·.own)) → ∃ f', x = some f' ∧ hopsLeft f' = hopsLeft f - (rs.length + rs'.length) ∧
        f'.length = f.length ∧ hostIcmp f' = some { m with src := m.dst, dst := m.src, type := t.toNat }) ∧
      (¬ Passes f ((rs ++ rs').map (·.own)) → x.bind hostIcmp = none) := by
  obtain ⟨g, hi, hu⟩ := Option.bind_eq_some_iff.mp hm
  obtain ⟨p, hp, hg⟩ := icmp_parsed (chk := chk) hi hu ho
  obtain ⟨x, e, h1, h2⟩ := C111_path hi hp hg rs (fun r h => hr r (by simp [h]))
  rw [List.map_append]
  by_cases hc : Passes f (rs.map (·.own))
  rotate_left
  · have hnot : ¬ Passes f (rs.map (·.own) ++ rs'.map (·.own)) := fun h => hc (by
      refine ⟨fun hne => ?_, fun k hk h4 => h.2 k (by rw [List.getElem?_append_left (List.getElem?_eq_some_iff.mp hk).1, hk]) h4⟩
      have := h.1 (by simp only [ne_eq, List.append_eq_nil_iff, not_and]; exact fun h => absurd h hne)
      rw [List.length_append] at this
      omega)
    refine ⟨none, ?_, fun h => absurd h hnot, fun _ => rfl⟩
    cases x with
    | none => simp only [ping, e, bind, Except.bind]; rfl
    | some f' =>
      have : hostIcmp f' = none := by rw [hostIcmp, show ipInput f' = none from h2 hc]; rfl
      simp only [ping, e, this, bind, Except.bind]; rfl
  obtain ⟨f1, rfl, i1, o1, -⟩ := h1 hc
  obtain ⟨-, a2, a3, -⟩ := o1.types
  have h14 := l3At_ge f
  have ho1 : NoOptions f1 := by
    intro h4
    rw [a2, a3] at h4
    rw [a2, ihl, o1.same _ (by omega) (by split <;> omega) (.inr (by omega)), ← ihl]
    exact ho h4
  have hm1 : hostIcmp f1 = some m := by rw [hostIcmp, i1]; exact hu
  obtain ⟨p1, hp1, hg1⟩ := icmp_parsed (chk := chk) i1 hu ho1
  obtain ⟨q, e1, m2, l2, t2⟩ := echo_frame i1 hu ho1 hp1 t
  obtain ⟨ho2, hops2, hps2⟩ := answer_passes i1 l2 t2 ho1
  obtain ⟨g2, i2, u2⟩ := Option.bind_eq_some_iff.mp m2
  obtain ⟨p2, hp2, hg2⟩ := icmp_parsed (chk := chk) i2 u2 ho2
  obtain ⟨x, ex, x1, x2⟩ := C111_path i2 hp2 hg2 rs' (fun r h => hr r (by simp [h]))
  have happ := passes_append (rs.map (·.own)) (rs'.map (·.own)) (by rw [List.length_map]; exact o1) (v6_type hi).2.1
  refine ⟨x, ?_, fun h => ?_, fun h => ?_⟩
  · simp only [ping, e, hm1, hp1, e1, bind, Except.bind]
    exact ex
  · obtain ⟨f3, rfl, y2, y3, -⟩ := x1 ((hps2 _).mpr (happ.mp h).2)
    refine ⟨f3, rfl, ?_, by rw [y3.length, l2, o1.length], by rw [hostIcmp, y2]; exact u2⟩
    rw [y3.hops, hops2, o1.hops]
    omega
  · have : x.bind ipInput = none := x2 fun h' => h (happ.mpr ⟨hc, (hps2 _).mp h'⟩)
    cases x with
    | none => rfl
    | some f3 => simp only [Option.bind_some, hostIcmp] at this ⊢; rw [this]; rfl

/-- Two routers there and three back, over IPv4 with a time to live of six, and over IPv6 with a hop limit of five that does not do. -/
example :
    let r : Router := ⟨true, [1, 2, 3, 4, 5, 6], [7, 8, 9, 10, 11, 12]⟩
    let n : Router := ⟨false, [2, 2, 3, 4, 5, 6], [8, 8, 9, 10, 11, 12]⟩
    let f : Bytes := [0, 17, 34, 51, 68, 85, 0, 6, 7, 8, 9, 10, 8, 0, 69, 0, 0, 32, 18, 52, 0, 0, 6, 1, 215, 254, 10, 0, 0, 1, 192, 168, 0, 2,
      8, 0, 76, 63, 0, 1, 0, 2, 170, 187, 1, 2]
    let s : Bytes := [0, 17, 34, 51, 68, 85, 0, 6, 7, 8, 9, 10, 134, 221, 96, 0, 0, 0, 0, 8, 58, 5, 32, 1, 0, 0, 0, 0, 0, 0, 0, 0, 0, 0, 0, 0,
      0, 1, 32, 1, 0, 0, 0, 0, 0, 0, 0, 0, 0, 0, 0, 0, 0, 2, 128, 0, 63, 181, 0, 1, 0, 2]
    hostIcmp f = some ⟨[10, 0, 0, 1], [192, 168, 0, 2], 8, 0, [0, 1, 0, 2, 170, 187, 1, 2]⟩ ∧ ihl f (l3At f) = 20 ∧
      (ping true 0 [r, n] [n, r, r] f).map (fun x => x.map fun f' => (hostIcmp f', hopsLeft f')) =
        .ok (some (some ⟨[192, 168, 0, 2], [10, 0, 0, 1], 0, 0, [0, 1, 0, 2, 170, 187, 1, 2]⟩, 1)) ∧
      (hostIcmp s).isSome ∧ ping true 129 [r, n] [n, r, r] s = .ok none ∧
      (ping true 129 [r, n] [n, r] s).map (fun x => x.bind hostIcmp) =
        .ok ((hostIcmp s).map fun m => { m with src := m.dst, dst := m.src, type := 129 }) := by
  decide +kernel

/-! ## How much fails -/

/-- Routers that update the checksum, or carry IPv6: only the hops count. -/
theorem C111_hops (f : Bytes) (os : List Bool) (h : u16At f (l3At f - 2) = 0x86DD ∨ ∀ o ∈ os, o = false) :
    Passes f os ↔ os = [] ∨ os.length < hopsLeft f := by
  constructor
  · intro hp
    by_cases c : os = []
    · exact .inl c
    · exact .inr (hp.1 c)
  · intro hp
    refine ⟨fun c => hp.resolve_left c, fun k hk h4 => ?_⟩
    rcases h with h | h
    · rw [h] at h4; exact absurd h4 (by decide)
    · exact absurd (h _ (List.mem_of_getElem? hk)) (by decide)

theorem plainSum_ttl (d : Bytes) (h : d.length = 20) : ∃ S, S ≤ 655095 ∧ ∀ t, t < 256 → plainSum (putAt d 8 [BitVec.ofNat 8 t]) = S + 256 * t := by
  match d, h with
  | [a0, a1, a2, a3, a4, a5, a6, a7, a8, a9, a10, a11, a12, a13, a14, a15, a16, a17, a18, a19], _ =>
    refine ⟨plainSum (putAt [a0, a1, a2, a3, a4, a5, a6, a7, a8, a9, a10, a11, a12, a13, a14, a15, a16, a17, a18, a19] 8 [0#8]), ?_, fun t ht => ?_⟩
    all_goals
      simp only [plainSum, putChecksum, putAt, List.drop_succ_cons, List.drop_zero, List.take_succ_cons, List.take_zero, List.cons_append,
        List.nil_append, List.length_cons, List.length_nil, List.set_cons_succ, List.set_cons_zero, words, List.sum_cons, List.sum_nil,
        Nat.reduceAdd, BitVec.toNat_ofNat]
      omega

/-- **C111, how much fails.** Without options there is at most one time to live with which the crate's checksum is wrong. -/
theorem C111_once (f : Bytes) (hl : l3At f + 20 ≤ f.length) (t t' : Nat) (ht : t < 256) (ht' : t' < 256)
    (h : ¬ FoldsOnce (ttlHdr f t)) (h' : ¬ FoldsOnce (ttlHdr f t')) : t = t' := by
  obtain ⟨S, hS, e⟩ := plainSum_ttl (ip4Hdr f) (by rw [ip4Hdr, List.length_take, List.length_drop]; omega)
  unfold FoldsOnce ttlHdr at h h'
  rw [e t ht] at h
  rw [e t' ht'] at h'
  have key : ∀ s, s < 256 → ¬ ((S + 256 * s) / 65536 + (S + 256 * s) % 65536 < 65536) → (S / 256 + s) % 256 = 255 := by
    intro s hs h
    have h1 : (S + 256 * s) % 65536 / 256 = (S / 256 + s) % 256 := by omega
    have h2 : (S + 256 * s) / 65536 ≤ 10 := by omega
    omega
  have := key t ht h
  have := key t' ht' h'
  omega

end PacketRs
