import Verif.Spec.Gateway
import Verif.Props.Route
import Verif.Props.Finish
/-!
# Property C116: a gateway that translates addresses and ports

The gateway parses frames with the crate, reads addresses and ports with the getters, keeps a table, and translates as in C103.  Who
gets what over every execution.
-/
namespace PacketRs
open Spec Utils

/-! ## The client -/

/-- A frame from behind the gateway. -/
def gatewayOut (chk : Bool) (own : U32) (t : List NatEntry) (n : U16) (f : Bytes) : R (List NatEntry × Option Bytes) :=
  match natSeg f with
  | none => pure (t, none)
  | some _ => do
    let p ← Slow.parse chk f
    let a ← readField chk IPv4 IPv4.src p
    let s ← readField chk TCP TCP.src p
    match t.find? fun e => e.addr = a.setWidth 32 ∧ e.port = s.setWidth 16 with
    | some e => do
      let q ← translate chk false TCP TCP.src TCP.checksum false own e.ext p
      pure (t, some q.to_vec)
    | none =>
      if t.any fun e => e.ext = n then pure (t, none)
      else do
        let q ← translate chk false TCP TCP.src TCP.checksum false own n p
        pure (⟨n, a.setWidth 32, s.setWidth 16⟩ :: t, some q.to_vec)

/-- A frame from outside. -/
def gatewayIn (chk : Bool) (own : U32) (t : List NatEntry) (f : Bytes) : R (Option Bytes) :=
  match natSeg f with
  | none => pure none
  | some _ => do
    let p ← Slow.parse chk f
    let a ← readField chk IPv4 IPv4.dst p
    let d ← readField chk TCP TCP.dst p
    match if own = a.setWidth 32 then t.find? fun e => e.ext = d.setWidth 16 else none with
    | some e => do
      let q ← translate chk true TCP TCP.dst TCP.checksum false e.addr e.port p
      pure (some q.to_vec)
    | none => pure none

/-! ## One frame -/

theorem slice_num16 (d : Bytes) (a : Nat) (h : a + 2 ≤ d.length) : (d.drop a).take 2 = num16 (u16At d a) := by
  obtain ⟨v, -, h1, h2⟩ := get_be16 true ⟨Ether, d⟩ ⟨"", 8 * a, 8 * a + 15⟩ a rfl rfl h
  simp only at h1 h2
  rw [← h1, ← h2, num16_be16]

theorem slice_num32 (d : Bytes) (a : Nat) (h : a + 4 ≤ d.length) :
    (d.drop a).take 4 = num32 (65536 * u16At d a + u16At d (a + 2)) := by
  have w1 := u16At_lt d a
  have w2 := u16At_lt d (a + 2)
  have e : ∀ x y, y < 65536 → num16 (65536 * x + y) = num16 y := by
    intro x y hy
    simp only [num16, List.cons.injEq, and_true]
    constructor <;> apply BitVec.eq_of_toNat_eq <;> simp only [BitVec.toNat_ofNat] <;> omega
  rw [num32, e _ _ w2, show (65536 * u16At d a + u16At d (a + 2)) / 65536 = u16At d a by omega, ← slice_num16 _ _ (by omega),
    ← slice_num16 _ _ (by omega), show 4 = 2 + 2 from rfl, List.take_add, List.drop_drop]

/-- A segment over IPv4 without options is parsed, and the getters read its addresses and ports. -/
theorem natSeg_read {chk : Bool} {f : Bytes} {m : TcpSeg} (hm : natSeg f = some m) :
    ∃ p, Slow.parse chk f = .ok p ∧ hostTcp f = some m ∧ u16At f (l3At f - 2) = 0x0800 ∧ NoOptions f ∧
      ∀ dst : Bool, ∃ a s : U64, readField chk IPv4 (if dst then IPv4.dst else IPv4.src) p = .ok a ∧
        readField chk TCP (if dst then TCP.dst else TCP.src) p = .ok s ∧ a.toNat < 2 ^ 32 ∧ s.toNat < 2 ^ 16 ∧
        (if dst then m.dst else m.src) = num32 a.toNat ∧ s.toNat = if dst then m.dport else m.sport := by
  unfold natSeg at hm
  obtain ⟨⟨h4, hihl⟩, hm⟩ := Option.ite_none_right_eq_some.mp hm
  have hm' := hm
  obtain ⟨g, hi, hu⟩ := Option.bind_eq_some_iff.mp hm
  have ho : NoOptions f := fun _ => hihl
  have hv6 : g.v6 = false := by rw [(v6_type hi).1, h4]; rfl
  unfold tcpInput at hu
  simp only at hu
  obtain ⟨⟨c1, c2, c3, c4⟩, hu⟩ := Option.ite_none_right_eq_some.mp hu
  have hl : (if g.v6 then ipv6Next g.proto else ipv4Next g.proto) = .tcp := by rw [c1]; split <;> rfl
  have hsz : TCP.size ≤ g.data.length := by show 20 ≤ g.data.length; omega
  obtain ⟨p, hp⟩ : ∃ p, Slow.parse chk f = .ok p := by
    obtain ⟨front, ip, o, y, hf, hip, hlen, hx, hs, hd, hparse⟩ := datagram_seen f g hi
    obtain rfl := hx.mpr ho
    have hpq := hparse chk
    rw [hl, List.nil_append, parse_one _ (by decide) rfl (show 20 ≤ _ by rw [List.length_append]; exact Nat.le_add_right_of_le hsz), map_prep] at hpq
    exact ⟨_, hpq⟩
  refine ⟨p, hp, hm', h4, ho, fun dst => ?_⟩
  have hg := no_gre (T := TCP) (l := .tcp) hi ho hp (by decide) hl (fun _ => rfl) hsz (by decide)
  obtain ⟨y, hy, pre, post, hs, -, hpre, -⟩ := carries_parsed (T := TCP) hi ho hp hg (by decide) hl (fun _ => rfl) (by decide) hsz
  obtain ⟨L, post', hL, hLs, hLn⟩ := front_types hi hp
  obtain ⟨hv, hlen, hip, hsl, hdl⟩ := v6_type hi
  have hwf := frame_sizes hp
  have hvec := C23_roundtrip_frame chk f p hp hg
  have h14 := l3At_ge f
  rw [hv6] at hv hip hL
  simp only [Bool.false_eq_true, if_false] at hip hL
  have hpl : sizes pre = l3At f + 20 := by
    rw [← sizes_eq (fun x hx => hwf x (by rw [hs.1]; simp [hx])), hpre, List.length_take, hip]; omega
  have hM : p.hdrs.map (·.ty) = pre.map (·.ty) ++ TCP :: post.map (·.ty) := by rw [hs.1]; simp
  have hMs : ((pre.map (·.ty)).map (·.size)).sum = l3At f + 20 := by rw [← hpl, List.map_map]; rfl
  have hMn : ∀ S ∈ pre.map (·.ty), S.name ≠ TCP.name := by
    intro S hS
    obtain ⟨x, hx, rfl⟩ := List.mem_map.mp hS
    exact hs.2.2 x hx
  rw [hip] at hy hlen
  have hfl : l3At f + 20 + g.data.length ≤ f.length := by
    have := congrArg List.length hy
    rw [List.length_drop, List.length_append] at this
    omega
  have cont : ∀ i, i + 1 < g.data.length → u16At f (l3At f + 20 + i) = u16At g.data i := by
    intro i h
    rw [contents_at hi ho i h, hip]
  have t20 : TCP.size = 20 := rfl
  have i20 : IPv4.size = 20 := rfl
  have ha : addrAt dst = 12 ∨ addrAt dst = 16 := by cases dst; exact .inl rfl; exact .inr rfl
  have hx : (if dst then IPv4.dst else IPv4.src).lo = 8 * addrAt dst ∧ (if dst then IPv4.dst else IPv4.src).hi = 8 * addrAt dst + 31 := by
    cases dst <;> exact ⟨rfl, rfl⟩
  obtain ⟨P, hP, hPs⟩ : ∃ P, ((if dst then TCP.dst else TCP.src).lo = 8 * P ∧ (if dst then TCP.dst else TCP.src).hi = 8 * P + 15) ∧
      P = if dst then 2 else 0 := by
    cases dst
    · exact ⟨0, ⟨rfl, rfl⟩, rfl⟩
    · exact ⟨2, ⟨rfl, rfl⟩, rfl⟩
  have hP2 : P = 0 ∨ P = 2 := by cases dst; exact .inl hPs; exact .inr hPs
  obtain ⟨a, r1, o1⟩ := readField_types chk IPv4 (if dst then IPv4.dst else IPv4.src) p _ _ hL
    (fun S hS => by rcases hLn S hS with rfl | rfl <;> decide) hwf ⟨by omega, by omega⟩ (by unfold Field.width; omega)
  obtain ⟨s, r2, o2⟩ := readField_types chk TCP (if dst then TCP.dst else TCP.src) p _ _ hM hMn hwf ⟨by omega, by omega⟩
    (by unfold Field.width; omega)
  rw [hLs, hvec, hx.1, hx.2, read_four _ _ _ (by omega) (by omega)] at o1
  rw [hMs, hvec, hP.1, hP.2, read_two _ _ _ (by omega) (by omega), cont _ (by omega)] at o2
  obtain ⟨b, hli, hb, hbi⟩ : ∃ b, linkInput f = some (0x0800, b) ∧ b = f.drop (l3At f) ∧ ip4Input b = some g := by
    unfold ipInput at hi
    split at hi
    rotate_left
    · cases hi
    next et b hli =>
    split at hi
    next he => exact ⟨b, he ▸ hli, (link_seen f b et hli (.inl he)).2.1, hi⟩
    next he =>
      obtain ⟨he6, hi⟩ := Option.ite_none_right_eq_some.mp hi
      unfold ip6Input at hi
      obtain ⟨-, hi⟩ := Option.ite_none_right_eq_some.mp hi
      cases hi
      cases hv6
  have hbl : 20 ≤ b.length := by rw [hb, List.length_drop]; omega
  have q : ∀ i, u16At f (l3At f + i) = u16At b i := by intro i; rw [hb, u16At_drop_add]
  rw [Nat.add_assoc, q, q] at o1
  have haddr : (b.drop (addrAt dst)).take 4 = if dst then g.dst else g.src := by
    unfold ip4Input at hbi
    obtain ⟨-, e⟩ := Option.ite_none_right_eq_some.mp hbi
    cases e
    cases dst <;> rfl
  have w1 := u16At_lt b (addrAt dst)
  have w2 := u16At_lt b (addrAt dst + 2)
  have w3 := u16At_lt g.data P
  refine ⟨a, s, r1, r2, by omega, by omega, ?_, ?_⟩
  · cases hu
    show (if dst then g.dst else g.src) = _
    rw [← haddr]
    rw [o1, slice_num32 _ _ (by omega)]
  · cases hu
    rw [o2, hPs]
    cases dst <;> rfl

theorem beNat_num32 (k : Nat) (h : k < 2 ^ 32) : beNat (num32 k) = k := by
  simp only [num32, num16, beNat, List.cons_append, List.nil_append, List.foldl_cons, List.foldl_nil, BitVec.toNat_ofNat]
  omega

theorem num32_inj {x y : Nat} (hx : x < 2 ^ 32) (hy : y < 2 ^ 32) : num32 x = num32 y ↔ x = y :=
  ⟨fun h => by rw [← beNat_num32 x hx, h, beNat_num32 y hy], fun h => h ▸ rfl⟩

/-- What is read is that of the segment. -/
theorem same_sender (e : NatEntry) (m : TcpSeg) (a s : U64) (ha : a.toNat < 2 ^ 32) (hs : s.toNat < 2 ^ 16) (h1 : m.src = num32 a.toNat)
    (h2 : s.toNat = m.sport) : (e.addr = a.setWidth 32 ∧ e.port = s.setWidth 16) ↔ e.OfSender m := by
  have w1 : (a.setWidth 32).toNat = a.toNat := by rw [BitVec.toNat_setWidth, Nat.mod_eq_of_lt ha]
  have w2 : (s.setWidth 16).toNat = s.toNat := by rw [BitVec.toNat_setWidth, Nat.mod_eq_of_lt hs]
  rw [NatEntry.OfSender, h1, num32_inj e.addr.isLt ha, ← h2, ← w1, ← w2, BitVec.toNat_inj, BitVec.toNat_inj]

theorem entry_made (n : U16) (m : TcpSeg) (a s : U64) (ha : a.toNat < 2 ^ 32) (h1 : m.src = num32 a.toNat)
    (h2 : s.toNat = m.sport) : (⟨n, a.setWidth 32, s.setWidth 16⟩ : NatEntry) = .make n m := by
  rw [NatEntry.make, h1, beNat_num32 _ ha, ← h2]
  rfl

/-- **C116** (a frame from behind): the gateway does not panic, does with its table what RFC 3022 says, and sends a frame a host takes as
the segment from the gateway's address and port, or none. -/
theorem C116_out (chk : Bool) (own : U32) (t : List NatEntry) (n : U16) (f : Bytes) (m : TcpSeg) (hm : natSeg f = some m) :
    ∃ g, gatewayOut chk own t n f = .ok ((natOut own t n m).1, g) ∧
      match (natOut own t n m).2 with
      | none => g = none
      | some m' => ∃ r, g = some r ∧ hostTcp r = some m' := by
  obtain ⟨p, hp, hh, h4, ho, hr⟩ := natSeg_read (chk := chk) hm
  obtain ⟨a, s, r1, r2, ha, hs, e1, e2⟩ := hr false
  simp only [Bool.false_eq_true, if_false] at r1 r2 e1 e2
  have hf : (t.find? fun e => decide (e.addr = a.setWidth 32 ∧ e.port = s.setWidth 16)) = t.find? fun e => decide (e.OfSender m) := by
    congr 1
    funext e
    exact decide_eq_decide.mpr (same_sender e m a s ha hs e1 e2)
  unfold gatewayOut natOut
  simp only [hm, hp, r1, r2, bind, Except.bind, hf, pure, Except.pure]
  cases hfd : t.find? fun e => decide (e.OfSender m) with
  | some e =>
    obtain ⟨q, k1, k2⟩ := C103_tcp hh h4 ho hp false own e.ext
    simp only [Bool.false_eq_true, if_false] at k1
    simp only [k1]
    exact ⟨_, rfl, _, rfl, k2⟩
  | none =>
    by_cases c : (t.any fun e => decide (e.ext = n)) = true
    · simp only [c, if_true]
      exact ⟨_, rfl, rfl⟩
    · obtain ⟨q, k1, k2⟩ := C103_tcp hh h4 ho hp false own n
      simp only [Bool.false_eq_true, if_false] at k1
      simp only [c, Bool.false_eq_true, if_false, k1, entry_made n m a s ha e1 e2]
      exact ⟨_, rfl, _, rfl, k2⟩

/-- **C116** (a frame from outside). -/
theorem C116_in (chk : Bool) (own : U32) (t : List NatEntry) (f : Bytes) (m : TcpSeg) (hm : natSeg f = some m) :
    ∃ g, gatewayIn chk own t f = .ok g ∧
      match natIn own t m with
      | none => g = none
      | some m' => ∃ r, g = some r ∧ hostTcp r = some m' := by
  obtain ⟨p, hp, hh, h4, ho, hr⟩ := natSeg_read (chk := chk) hm
  obtain ⟨a, s, r1, r2, ha, hs, e1, e2⟩ := hr true
  simp only [if_true] at r1 r2 e1 e2
  have w1 : (a.setWidth 32).toNat = a.toNat := by rw [BitVec.toNat_setWidth, Nat.mod_eq_of_lt ha]
  have w2 : (s.setWidth 16).toNat = s.toNat := by rw [BitVec.toNat_setWidth, Nat.mod_eq_of_lt hs]
  have hf : (if own = a.setWidth 32 then t.find? fun e => decide (e.ext = s.setWidth 16) else none) =
      t.find? fun e => decide (e.OfTarget own m) := by
    have k1 : num32 own.toNat = m.dst ↔ own = a.setWidth 32 := by rw [e1, num32_inj own.isLt ha, ← w1, BitVec.toNat_inj]
    have k2 : ∀ e : NatEntry, e.ext.toNat = m.dport ↔ e.ext = s.setWidth 16 := by intro e; rw [← e2, ← w2, BitVec.toNat_inj]
    simp only [NatEntry.OfTarget, k1, k2]
    split
    · next h => simp [h]
    · next h => simp only [h, false_and, decide_false]; exact (List.find?_eq_none.mpr (by simp)).symm
  unfold gatewayIn natIn
  simp only [hm, hp, r1, r2, bind, Except.bind, hf, pure, Except.pure]
  cases hfd : t.find? fun e => decide (e.OfTarget own m) with
  | some e =>
    obtain ⟨q, k1, k2⟩ := C103_tcp hh h4 ho hp true e.addr e.port
    simp only [if_true] at k1
    simp only [k1, Option.map_some]
    exact ⟨_, rfl, _, rfl, k2⟩
  | none => exact ⟨_, rfl, rfl⟩

/-! ## Executions -/

/-- One event: the table after it and the frame sent, outside for `out` and to a host behind the gateway for `inn`. -/
def natStep (chk : Bool) (own : U32) (t : List NatEntry) : NatEvent → R (List NatEntry × Option Bytes)
  | .out n f => gatewayOut chk own t n f
  | .inn f => do
    let g ← gatewayIn chk own t f
    pure (t, g)
  | .forget n => pure (t.filter fun e => e.ext ≠ n, none)

/-- The table after an execution. -/
def natRun (chk : Bool) (own : U32) : List NatEntry → List NatEvent → R (List NatEntry)
  | t, [] => pure t
  | t, e :: es => do
    let r ← natStep chk own t e
    natRun chk own r.1 es

/-- What holds in every state: no port stands for two, and none has two. -/
def NatGood (t : List NatEntry) : Prop := t.Pairwise fun d e => d.ext ≠ e.ext ∧ ¬ (d.addr = e.addr ∧ d.port = e.port)

theorem natSeg_sender {f : Bytes} {m : TcpSeg} (hm : natSeg f = some m) :
    ∃ a : U32, m.src = num32 a.toNat ∧ m.sport < 65536 := by
  obtain ⟨p, -, -, -, -, hr⟩ := natSeg_read (chk := true) hm
  obtain ⟨a, s, -, -, ha, hs, e1, e2⟩ := hr false
  simp only [Bool.false_eq_true, if_false] at e1 e2
  refine ⟨a.setWidth 32, ?_, by omega⟩
  rw [BitVec.toNat_setWidth, Nat.mod_eq_of_lt ha, e1]

theorem make_sender {f : Bytes} {m : TcpSeg} (hm : natSeg f = some m) (n : U16) : (NatEntry.make n m).OfSender m := by
  obtain ⟨a, h1, h2⟩ := natSeg_sender hm
  refine ⟨?_, ?_⟩
  · rw [NatEntry.make, h1, beNat_num32 _ a.isLt, BitVec.ofNat_toNat]
    rfl
  · show (BitVec.ofNat 16 m.sport).toNat = _
    rw [BitVec.toNat_ofNat, Nat.mod_eq_of_lt h2]

theorem ofSender_same {d e : NatEntry} {m : TcpSeg} (hd : d.OfSender m) (he : e.OfSender m) : d.addr = e.addr ∧ d.port = e.port :=
  ⟨BitVec.eq_of_toNat_eq ((num32_inj d.addr.isLt e.addr.isLt).mp (hd.1.trans he.1.symm)), BitVec.eq_of_toNat_eq (hd.2.trans he.2.symm)⟩

/-- The table after a frame from behind: what was sent stands in it. -/
theorem natOut_good {own : U32} {t : List NatEntry} (ht : NatGood t) (n : U16) {f : Bytes} {m : TcpSeg} (hm : natSeg f = some m) :
    NatGood (natOut own t n m).1 ∧ (∀ e ∈ t, e ∈ (natOut own t n m).1) ∧ (∀ e ∈ (natOut own t n m).1, e ∈ t ∨ e.OfSender m) ∧
      (∀ m', (natOut own t n m).2 = some m' → ∃ e ∈ (natOut own t n m).1, e.OfSender m ∧ m' = m.moved false (num32 own.toNat) e.ext.toNat) ∧
      ((natOut own t n m).2 = none → (natOut own t n m).1 = t) := by
  unfold natOut
  split
  · next e he =>
    have h1 := List.find?_some he
    have h2 := List.mem_of_find?_eq_some he
    exact ⟨ht, fun _ h => h, fun _ h => .inl h, fun m' h => ⟨e, h2, of_decide_eq_true h1, (Option.some.inj h).symm⟩, fun h => (nomatch h)⟩
  · next hn =>
    split
    · exact ⟨ht, fun _ h => h, fun _ h => .inl h, fun m' h => (nomatch h), fun _ => rfl⟩
    · next hu =>
      have hs := make_sender hm n
      refine ⟨List.pairwise_cons.mpr ⟨fun e he => ⟨fun h => hu (List.any_eq_true.mpr ⟨e, he, decide_eq_true h.symm⟩), fun h => ?_⟩, ht⟩,
        fun e he => List.mem_cons_of_mem _ he, fun e he => ?_, fun m' h => ⟨_, List.mem_cons_self, hs, (Option.some.inj h).symm⟩,
        fun h => (nomatch h)⟩
      · have := List.find?_eq_none.mp hn e he
        simp only [decide_eq_true_eq] at this
        exact this ⟨by rw [← h.1]; exact hs.1, by rw [← h.2]; exact hs.2⟩
      · rcases List.mem_cons.mp he with rfl | he
        · exact .inr hs
        · exact .inl he

/-- In a good table the port decides. -/
theorem natIn_eq {own : U32} {t : List NatEntry} (ht : NatGood t) {e : NatEntry} (he : e ∈ t) {m : TcpSeg} (hm : e.OfTarget own m) :
    natIn own t m = some (m.moved true (num32 e.addr.toNat) e.port.toNat) := by
  have : t.find? (fun e => decide (e.OfTarget own m)) = some e := by
    induction t with
    | nil => cases he
    | cons d t ih =>
      obtain ⟨h1, h2⟩ := List.pairwise_cons.mp ht
      rcases List.mem_cons.mp he with rfl | he
      · exact List.find?_cons_of_pos (by simpa using hm)
      · rw [List.find?_cons_of_neg (by
          simp only [decide_eq_true_eq]
          exact fun hd => (h1 e he).1 (BitVec.eq_of_toNat_eq (hd.2.trans hm.2.symm)))]
        exact ih h2 he
  rw [natIn, this]
  rfl

/-- One event. -/
theorem natStep_facts (chk : Bool) (own : U32) {t : List NatEntry} (ht : NatGood t) (ev : NatEvent) :
    ∃ t' g, natStep chk own t ev = .ok (t', g) ∧ NatGood t' ∧ (∀ e ∈ t, ev ≠ .forget e.ext → e ∈ t') ∧
      (∀ e ∈ t', (e ∈ t ∧ ev ≠ .forget e.ext) ∨
        ∃ n f m r, ev = .out n f ∧ natSeg f = some m ∧ e.OfSender m ∧ g = some r ∧
          hostTcp r = some (m.moved false (num32 own.toNat) e.ext.toNat)) ∧
      ∀ n f, ev = .out n f → ∀ r, g = some r → ∃ m, natSeg f = some m ∧ ∃ e ∈ t', e.OfSender m ∧
        hostTcp r = some (m.moved false (num32 own.toNat) e.ext.toNat) := by
  cases ev with
  | out n f =>
    cases hm : natSeg f with
    | none =>
      refine ⟨t, none, ?_, ht, fun e he _ => he, fun e he => .inl ⟨he, by simp⟩, fun _ _ _ r h => (nomatch h)⟩
      simp only [natStep, gatewayOut, hm]
      rfl
    | some m =>
      obtain ⟨g, e1, e2⟩ := C116_out chk own t n f m hm
      obtain ⟨g1, g2, g3, g4, g5⟩ := natOut_good (own := own) ht n hm
      refine ⟨_, g, e1, g1, fun e he _ => g2 e he, fun e he => ?_, ?_⟩
      · cases ho : (natOut own t n m).2 with
        | none =>
          rw [g5 ho] at he
          exact .inl ⟨he, by simp⟩
        | some m' =>
          rcases g3 e he with h | h
          · exact .inl ⟨h, by simp⟩
          · rw [ho] at e2
            obtain ⟨r, rfl, hr⟩ := e2
            obtain ⟨d, hd, hd2, hd3⟩ := g4 m' ho
            have : d = e := by
              by_contra hne
              rcases List.mem_iff_getElem.mp hd with ⟨i, hi, rfl⟩
              rcases List.mem_iff_getElem.mp he with ⟨j, hj, rfl⟩
              have hs := ofSender_same hd2 h
              rcases Nat.lt_trichotomy i j with hij | hij | hij
              · exact (List.pairwise_iff_getElem.mp g1 i j hi hj hij).2 hs
              · subst hij; exact hne rfl
              · exact (List.pairwise_iff_getElem.mp g1 j i hj hi hij).2 ⟨hs.1.symm, hs.2.symm⟩
            subst this
            exact .inr ⟨n, f, m, r, rfl, hm, h, rfl, by rw [hr, hd3]⟩
      · intro n' f' hev r hg
        cases hev
        refine ⟨m, hm, ?_⟩
        cases ho : (natOut own t n m).2 with
        | none => rw [ho] at e2; rw [e2] at hg; cases hg
        | some m' =>
          rw [ho] at e2
          obtain ⟨r', hr', hr⟩ := e2
          obtain ⟨d, hd, hd2, hd3⟩ := g4 m' ho
          rw [hg] at hr'
          cases hr'
          exact ⟨d, hd, hd2, by rw [hr, hd3]⟩
  | inn f =>
    obtain ⟨g, hg⟩ : ∃ g, gatewayIn chk own t f = .ok g := by
      cases hm : natSeg f with
      | none => exact ⟨none, by simp only [gatewayIn, hm]; rfl⟩
      | some m => obtain ⟨g, e1, -⟩ := C116_in chk own t f m hm; exact ⟨g, e1⟩
    refine ⟨t, g, ?_, ht, fun e he _ => he, fun e he => .inl ⟨he, by simp⟩, fun _ _ h => (nomatch h)⟩
    simp only [natStep, hg]
    rfl
  | forget n =>
    refine ⟨_, none, rfl, ht.filter _, fun e he hne => ?_, fun e he => ?_, fun _ _ h => (nomatch h)⟩
    · exact List.mem_filter.mpr ⟨he, decide_eq_true fun h => hne (by rw [h])⟩
    · obtain ⟨h1, h2⟩ := List.mem_filter.mp he
      exact .inl ⟨h1, fun h => of_decide_eq_true h2 (by cases h; rfl)⟩

/-- **C116** (executions): whatever comes in, the gateway never panics, and no port ever stands for two senders at once or two ports for one. -/
theorem C116_run (chk : Bool) (own : U32) (es : List NatEvent) :
    ∀ t, NatGood t → ∃ t', natRun chk own t es = .ok t' ∧ NatGood t' := by
  induction es with
  | nil => exact fun t ht => ⟨t, rfl, ht⟩
  | cons ev es ih =>
    intro t ht
    obtain ⟨t1, g, e1, h1, -⟩ := natStep_facts chk own ht ev
    obtain ⟨t2, e2, h2⟩ := ih t1 h1
    exact ⟨t2, by simp only [natRun, e1, bind, Except.bind, e2], h2⟩

theorem run_good {chk : Bool} {own : U32} {es : List NatEvent} {t t' : List NatEntry} (ht : NatGood t) (h : natRun chk own t es = .ok t') :
    NatGood t' := by
  obtain ⟨t'', e, h'⟩ := C116_run chk own es t ht
  obtain rfl := Except.ok.inj (h.symm.trans e)
  exact h'

theorem run_append (chk : Bool) (own : U32) (es fs : List NatEvent) (t t' : List NatEntry) :
    natRun chk own t (es ++ fs) = .ok t' ↔ ∃ u, natRun chk own t es = .ok u ∧ natRun chk own u fs = .ok t' := by
  induction es generalizing t with
  | nil => exact ⟨fun h => ⟨t, rfl, h⟩, fun ⟨u, h1, h2⟩ => by obtain rfl := Except.ok.inj h1; exact h2⟩
  | cons ev es ih =>
    simp only [List.cons_append, natRun, bind, Except.bind]
    cases natStep chk own t ev with
    | error e => exact ⟨fun h => (nomatch h), fun ⟨_, h, _⟩ => (nomatch h)⟩
    | ok r => exact ih r.1

/-- An entry stays until its port is given up. -/
theorem run_keeps {chk : Bool} {own : U32} {es : List NatEvent} {e : NatEntry} (hn : .forget e.ext ∉ es) :
    ∀ {t t' : List NatEntry}, NatGood t → natRun chk own t es = .ok t' → e ∈ t → e ∈ t' := by
  induction es with
  | nil => intro t t' _ h he; obtain rfl := Except.ok.inj h; exact he
  | cons ev es ih =>
    intro t t' ht h he
    obtain ⟨t1, g, e1, h1, h2, -⟩ := natStep_facts chk own ht ev
    simp only [natRun, e1, bind, Except.bind] at h
    exact ih (fun h => hn (List.mem_cons_of_mem _ h)) h1 h (h2 e he fun h => hn (h ▸ List.mem_cons_self))

/-- An entry comes from a segment that was sent with its port, and the port was not given up since. -/
theorem run_origin {chk : Bool} {own : U32} (es : List NatEvent) {t : List NatEntry} (h : natRun chk own [] es = .ok t) {e : NatEntry}
    (he : e ∈ t) : ∃ pre n f post m u u' r, es = pre ++ .out n f :: post ∧ .forget e.ext ∉ post ∧ natRun chk own [] pre = .ok u ∧
      natStep chk own u (.out n f) = .ok (u', some r) ∧ natSeg f = some m ∧ e.OfSender m ∧
      hostTcp r = some (m.moved false (num32 own.toNat) e.ext.toNat) := by
  induction es using List.reverseRecOn generalizing t with
  | nil => obtain rfl := Except.ok.inj h; cases he
  | append_singleton es ev ih =>
    obtain ⟨u, h1, h2⟩ := (run_append chk own es [ev] [] t).mp h
    obtain ⟨t1, g, e1, -, -, h3, -⟩ := natStep_facts chk own (run_good .nil h1) ev
    simp only [natRun, e1, bind, Except.bind] at h2
    obtain rfl := Except.ok.inj h2
    rcases h3 e he with ⟨h4, h5⟩ | ⟨n, f, m, r, rfl, hm, hs, rfl, hr⟩
    · obtain ⟨pre, n, f, post, m, v, v', r, rfl, k2, k3⟩ := ih h1 h4
      refine ⟨pre, n, f, post ++ [ev], m, v, v', r, by simp, fun hx => ?_, k3⟩
      rcases List.mem_append.mp hx with hx | hx
      · exact k2 hx
      · exact h5 (List.mem_singleton.mp hx).symm
    · exact ⟨es, n, f, [], m, u, _, r, rfl, List.not_mem_nil, h1, e1, hm, hs, hr⟩

/-- **C116** (outside): what leaves has the gateway's address, and is else the segment that came. -/
theorem C116_outside {chk : Bool} {own : U32} {es : List NatEvent} {t t' : List NatEntry} (h : natRun chk own [] es = .ok t) {n : U16} {f r : Bytes}
    (hs : natStep chk own t (.out n f) = .ok (t', some r)) :
    ∃ m x, natSeg f = some m ∧ hostTcp r = some (m.moved false (num32 own.toNat) x) := by
  obtain ⟨t1, g, e1, -, -, -, h1⟩ := natStep_facts chk own (run_good .nil h) (.out n f)
  obtain ⟨rfl, rfl⟩ := Prod.mk.injEq .. ▸ Except.ok.inj (hs.symm.trans e1)
  obtain ⟨m, hm, e, -, -, he⟩ := h1 n f rfl r rfl
  exact ⟨m, _, hm, he⟩

/-- **C116** (nobody gets what they did not ask for): what is sent to a host behind the gateway is a segment to the gateway, with the
address and port of a host that has sent a segment under the port it is for, which has not been given up since. -/
theorem C116_solicited {chk : Bool} {own : U32} {es : List NatEvent} {t t' : List NatEntry} (h : natRun chk own [] es = .ok t) {f r : Bytes}
    (hs : natStep chk own t (.inn f) = .ok (t', some r)) :
    ∃ m, natSeg f = some m ∧ m.dst = num32 own.toNat ∧
      ∃ x pre n f0 post m0 u u' r0, es = pre ++ .out n f0 :: post ∧ .forget x ∉ post ∧ x.toNat = m.dport ∧ natRun chk own [] pre = .ok u ∧
        natStep chk own u (.out n f0) = .ok (u', some r0) ∧ natSeg f0 = some m0 ∧
        hostTcp r0 = some (m0.moved false (num32 own.toNat) m.dport) ∧ hostTcp r = some (m.moved true m0.src m0.sport) := by
  cases hm : natSeg f with
  | none =>
    simp only [natStep, gatewayIn, hm] at hs
    cases hs
  | some m =>
    obtain ⟨g, e1, e2⟩ := C116_in chk own t f m hm
    simp only [natStep, e1, bind, Except.bind, pure, Except.pure] at hs
    obtain ⟨rfl, rfl⟩ := Prod.mk.injEq .. ▸ Except.ok.inj hs
    cases hi : t.find? fun e => decide (e.OfTarget own m) with
    | none => simp only [natIn, hi, Option.map_none] at e2; cases e2
    | some e =>
      have he := List.find?_some hi
      replace he := of_decide_eq_true he
      simp only [natIn, hi, Option.map_some] at e2
      obtain ⟨r', hr', hr⟩ := e2
      cases hr'
      obtain ⟨pre, n, f0, post, m0, u, u', r0, k1, k2, k3, k4, k5, k6, k7⟩ := run_origin es h (List.mem_of_find?_eq_some hi)
      refine ⟨m, rfl, he.1.symm, e.ext, pre, n, f0, post, m0, u, u', r0, k1, k2, he.2, k3, k4, k5, ?_, ?_⟩
      · rw [k7, he.2]
      · rw [hr, k6.1, k6.2]

/-- **C116** (the way back): after a segment has left, and until its port is given up, every segment to the address and port it left
with gets to its sender. -/
theorem C116_back {chk : Bool} {own : U32} {es mid : List NatEvent} {t t1 t2 : List NatEntry} (h : natRun chk own [] es = .ok t) {n : U16}
    {f0 r0 : Bytes} {m0 m1 : TcpSeg} (h0 : natStep chk own t (.out n f0) = .ok (t1, some r0)) (hm0 : natSeg f0 = some m0)
    (hm1 : hostTcp r0 = some m1) (hmid : natRun chk own t1 mid = .ok t2) (hn : ∀ x, x.toNat = m1.sport → NatEvent.forget x ∉ mid) {f : Bytes} {m : TcpSeg}
    (hm : natSeg f = some m) (hd : m.dst = m1.src) (hp : m.dport = m1.sport) :
    ∃ r, natStep chk own t2 (.inn f) = .ok (t2, some r) ∧ hostTcp r = some (m.moved true m0.src m0.sport) := by
  obtain ⟨u, g, e1, h1, -, -, h2⟩ := natStep_facts chk own (run_good .nil h) (.out n f0)
  obtain ⟨rfl, rfl⟩ := Prod.mk.injEq .. ▸ Except.ok.inj (h0.symm.trans e1)
  obtain ⟨m', hm', e, he, hs, hr⟩ := h2 n f0 rfl r0 rfl
  obtain rfl := Option.some.inj (hm0.symm.trans hm')
  obtain rfl := Option.some.inj (hm1.symm.trans hr)
  have he2 := run_keeps (hn e.ext rfl) h1 hmid he
  have hi := natIn_eq (own := own) (run_good h1 hmid) he2 (m := m) ⟨hd.symm, hp.symm⟩
  obtain ⟨g, k1, k2⟩ := C116_in chk own t2 f m hm
  rw [hi] at k2
  obtain ⟨r, rfl, hr⟩ := k2
  refine ⟨r, by simp only [natStep, k1, bind, Except.bind]; rfl, ?_⟩
  rw [hr, hs.1, hs.2]

/-- **C116** (apart): while the port of a segment that has left is not given up, a segment that leaves has the same port if and only if
it is from the same sender. -/
theorem C116_apart {chk : Bool} {own : U32} {es mid : List NatEvent} {t t1 t2 t3 : List NatEntry} (h : natRun chk own [] es = .ok t) {n n' : U16}
    {f0 r0 f r : Bytes} {m0 m1 m m2 : TcpSeg} (h0 : natStep chk own t (.out n f0) = .ok (t1, some r0)) (hm0 : natSeg f0 = some m0)
    (hm1 : hostTcp r0 = some m1) (hmid : natRun chk own t1 mid = .ok t2) (hn : ∀ x, x.toNat = m1.sport → NatEvent.forget x ∉ mid)
    (h3 : natStep chk own t2 (.out n' f) = .ok (t3, some r)) (hm : natSeg f = some m) (hm2 : hostTcp r = some m2) :
    m2.sport = m1.sport ↔ m.src = m0.src ∧ m.sport = m0.sport := by
  obtain ⟨u, g, e1, h1, -, -, h2⟩ := natStep_facts chk own (run_good .nil h) (.out n f0)
  obtain ⟨rfl, rfl⟩ := Prod.mk.injEq .. ▸ Except.ok.inj (h0.symm.trans e1)
  obtain ⟨m', hm', e, he, hs, hr⟩ := h2 n f0 rfl r0 rfl
  obtain rfl := Option.some.inj (hm0.symm.trans hm')
  obtain rfl := Option.some.inj (hm1.symm.trans hr)
  have he2 := run_keeps (hn e.ext rfl) h1 hmid he
  obtain ⟨u, g, e1, k1, k2, -, k3⟩ := natStep_facts chk own (run_good h1 hmid) (.out n' f)
  obtain ⟨rfl, rfl⟩ := Prod.mk.injEq .. ▸ Except.ok.inj (h3.symm.trans e1)
  obtain ⟨m', hm', d, hd, hs', hr'⟩ := k3 n' f rfl r rfl
  obtain rfl := Option.some.inj (hm.symm.trans hm')
  obtain rfl := Option.some.inj (hm2.symm.trans hr')
  have he3 := k2 e he2 (by simp)
  show d.ext.toNat = e.ext.toNat ↔ _
  rw [BitVec.toNat_inj]
  have uniq : ∀ c ∈ t3, ∀ b ∈ t3, c.ext = b.ext ∨ (c.addr = b.addr ∧ c.port = b.port) → c = b := by
    intro c hc b hb hor
    by_contra hne
    rcases List.mem_iff_getElem.mp hc with ⟨i, hi, rfl⟩
    rcases List.mem_iff_getElem.mp hb with ⟨j, hj, rfl⟩
    rcases Nat.lt_trichotomy i j with hij | hij | hij
    · have := List.pairwise_iff_getElem.mp k1 i j hi hj hij
      exact hor.elim this.1 this.2
    · subst hij; exact hne rfl
    · have := List.pairwise_iff_getElem.mp k1 j i hj hi hij
      exact hor.elim (fun h => this.1 h.symm) fun h => this.2 ⟨h.1.symm, h.2.symm⟩
  constructor
  · intro hx
    obtain rfl := uniq d hd e he3 (.inl hx)
    exact ⟨hs'.1.symm.trans hs.1, hs'.2.symm.trans hs.2⟩
  · intro hx
    exact congrArg NatEntry.ext (uniq d hd e he3 (.inr (ofSender_same hs' ⟨hs.1.trans hx.1.symm, hs.2.trans hx.2.symm⟩)))

/-! ## Frames -/

/-- From 10.0.0.1 port 1000, from 10.0.0.2 port 1000, and from outside to 198.51.100.7 port 40000. -/
def gwOne : Bytes := [0, 17, 34, 51, 68, 85, 0, 6, 7, 8, 9, 10, 8, 0, 69, 0, 0, 42, 18, 52, 0, 0, 64, 6, 156, 144, 10, 0, 0, 1, 192, 0,
  2, 9, 3, 232, 0, 80, 0, 0, 0, 7, 0, 0, 0, 9, 80, 24, 2, 0, 220, 118, 0, 0, 1, 2]
@[inherit_doc gwOne] def gwTwo : Bytes := [0, 17, 34, 51, 68, 85, 0, 6, 7, 8, 9, 10, 8, 0, 69, 0, 0, 41, 18, 52, 0, 0, 64, 6, 156, 144, 10, 0, 0, 2, 192, 0,
  2, 9, 3, 232, 0, 80, 0, 0, 0, 7, 0, 0, 0, 9, 80, 24, 2, 0, 218, 120, 0, 0, 3]
@[inherit_doc gwOne] def gwBack : Bytes := [0, 17, 34, 51, 68, 85, 0, 6, 7, 8, 9, 10, 8, 0, 69, 0, 0, 42, 18, 52, 0, 0, 64, 6, 124, 86, 192, 0, 2, 9, 198, 51,
  100, 7, 0, 80, 156, 64, 0, 0, 0, 7, 0, 0, 0, 9, 80, 24, 2, 0, 32, 225, 0, 0, 4, 5]

/-- The address 198.51.100.7. -/
def gwOwn : U32 := 0xC6336407

/-- What is sent, as a host takes it: source, destination, ports and data. -/
def gwSees (es : List NatEvent) (ev : NatEvent) : Option (Bytes × Nat × Bytes × Nat × Bytes) :=
  match natRun true gwOwn [] es with
  | .ok t => match natStep true gwOwn t ev with
    | .ok (_, some r) => (hostTcp r).map fun m => (m.src, m.sport, m.dst, m.dport, m.data)
    | _ => none
  | _ => none

-- the hypotheses of the theorems hold of these
example : natSeg gwOne = some ⟨[10, 0, 0, 1], [192, 0, 2, 9], 1000, 80, 7, 9, 24, 512, 0, [1, 2]⟩ ∧ (natSeg gwTwo).isSome ∧
    natSeg gwBack = some ⟨[192, 0, 2, 9], [198, 51, 100, 7], 80, 40000, 7, 9, 24, 512, 0, [4, 5]⟩ := by decide +kernel

/-- Two hosts with the same port; the second cannot have the port of the first; an answer gets to the first until the port is given up,
and to nobody before the first has sent. -/
theorem C116_sample :
    gwSees [] (.out 40000 gwOne) = some ([198, 51, 100, 7], 40000, [192, 0, 2, 9], 80, [1, 2]) ∧
      gwSees [.out 40000 gwOne] (.out 41000 gwOne) = some ([198, 51, 100, 7], 40000, [192, 0, 2, 9], 80, [1, 2]) ∧
      gwSees [.out 40000 gwOne] (.out 40000 gwTwo) = none ∧
      gwSees [.out 40000 gwOne] (.out 40001 gwTwo) = some ([198, 51, 100, 7], 40001, [192, 0, 2, 9], 80, [3]) ∧
      gwSees [.out 40000 gwOne, .out 40001 gwTwo] (.inn gwBack) = some ([192, 0, 2, 9], 80, [10, 0, 0, 1], 1000, [4, 5]) ∧
      gwSees [.out 40000 gwTwo] (.inn gwBack) = some ([192, 0, 2, 9], 80, [10, 0, 0, 2], 1000, [4, 5]) ∧
      gwSees [.out 40000 gwOne, .forget 40000] (.inn gwBack) = none ∧ gwSees [] (.inn gwBack) = none := by
  refine ⟨?_, ?_, ?_, ?_, ?_, ?_, ?_, ?_⟩ <;> decide +kernel

end PacketRs
