import Verif.Props.Guard
/-!
# Property C123: a connection across careful routers among hostile frames

The network of C120 with the routers of C122, and anybody putting any octets anywhere.
-/
namespace PacketRs
open Spec Utils

/-! ## What a router does not change -/

/-- Headers that come before any GRE or ERSPAN header are the first octets. -/
theorem Dissect_front {l : Layer} {b : Bytes} {hs : List Hdr} {pl : Bytes} (h : Dissect l b hs pl) :
    ∀ pre post, hs = pre ++ post → (∀ x ∈ pre, x.ty ≠ GRE ∧ x.ty ≠ ERSPAN3) → ∃ r, b = (pre.map (·.data)).flatten ++ r := by
  have key : ∀ (T : HeaderDef) (h r : Bytes) (hs : List Hdr),
      (∀ pre post, hs = pre ++ post → (∀ x ∈ pre, x.ty ≠ GRE ∧ x.ty ≠ ERSPAN3) → ∃ r', r = (pre.map (·.data)).flatten ++ r') →
      ∀ pre post, (⟨T, h⟩ : Hdr) :: hs = pre ++ post → (∀ x ∈ pre, x.ty ≠ GRE ∧ x.ty ≠ ERSPAN3) →
        ∃ r', h ++ r = (pre.map (·.data)).flatten ++ r' := by
    intro T h r hs ih pre post e hn
    cases pre with
    | nil => exact ⟨h ++ r, by simp⟩
    | cons x pre =>
      rw [List.cons_append, List.cons.injEq] at e
      obtain ⟨rfl, e⟩ := e
      obtain ⟨r', rfl⟩ := ih pre post e (fun x hx => hn x (by simp [hx]))
      exact ⟨r', by simp⟩
  induction h with
  | payload b => exact fun pre post e _ => ⟨b, by rw [(List.append_eq_nil_iff.mp e.symm).1]; simp⟩
  | gre _ _ _ _ _ _ =>
    intro pre post e hn
    cases pre with
    | nil => exact ⟨_, rfl⟩
    | cons x pre =>
      rw [List.cons_append, List.cons.injEq] at e
      exact absurd rfl (e.1 ▸ (hn x (by simp)).1)
  | erspan3 _ _ _ _ =>
    intro pre post e hn
    cases pre with
    | nil => exact ⟨_, rfl⟩
    | cons x pre =>
      rw [List.cons_append, List.cons.injEq] at e
      exact absurd rfl (e.1 ▸ (hn x (by simp)).2)
  | _ => exact key _ _ _ _ (by assumption)

/-- The headers in front of what an IP datagram carries are written back as they were, whatever it carries. -/
theorem front_kept {chk : Bool} {f : Bytes} {g : Datagram} {p : Packet} (hi : ipInput f = some g) (hp : Slow.parse chk f = .ok p) :
    l3At f + ipLen f ≤ p.to_vec.length ∧ p.to_vec.take (l3At f + ipLen f) = f.take (l3At f + ipLen f) := by
  obtain ⟨L, post, hL, hLs, hLn⟩ := front_types hi hp
  obtain ⟨-, -, hip, -⟩ := v6_type hi
  have hwf := frame_sizes hp
  have hd := ((C21_parse_frame chk _ _ _).mp hp).2
  rw [show Ether :: L ++ (if g.v6 then IPv6 else IPv4) :: post = (Ether :: L ++ [if g.v6 then IPv6 else IPv4]) ++ post by simp] at hL
  obtain ⟨a, b, e, ha, -⟩ := List.map_eq_append_iff.mp hL
  have hn : ((a.map (·.data)).flatten).length = l3At f + ipLen f := by
    have : (a.map fun h => h.data.length).sum = (a.map fun h => h.ty.size).sum :=
      congrArg List.sum (List.map_congr_left fun x hx => hwf x (by rw [e]; simp [hx]))
    rw [List.length_flatten, List.map_map]
    show (a.map fun h => h.data.length).sum = _
    rw [this, show (a.map fun h => h.ty.size) = (a.map (·.ty)).map (·.size) by rw [List.map_map]; rfl, ha, List.map_append, List.sum_append,
      hLs, hip]
    cases g.v6 <;> rfl
  obtain ⟨r, hr⟩ := Dissect_front hd a b e (by
    intro x hx
    have : x.ty ∈ Ether :: L ++ [if g.v6 then IPv6 else IPv4] := ha ▸ List.mem_map_of_mem hx
    rcases List.mem_append.mp this with h | h
    · rcases hLn _ h with h | h <;> rw [h] <;> decide
    · rw [List.mem_singleton.mp h]; cases g.v6 <;> decide)
  have hv : p.to_vec = (a.map (·.data)).flatten ++ ((b.map (·.data)).flatten ++ p.payload) := by
    rw [to_vec_eq_wire, wire, e, List.map_append, List.flatten_append, List.append_assoc]
  refine ⟨by rw [hv, List.length_append, hn]; omega, ?_⟩
  generalize l3At f + ipLen f = n at hn
  rw [hv, hr, List.take_left' hn, List.take_left' hn]

/-- With any number of GRE options: behind the link addresses, a router changes hops left and IPv4 checksum of the IP header, no more. -/
theorem pass_kept {chk : Bool} {f f' : Bytes} {g : Datagram} {r : Router} (hr : r.Ok) (hi : ipInput f = some g)
    (h : r.pass chk f = .ok (some f')) : ∀ i, 12 ≤ i → i < l3At f + ipLen f → i ≠ l3At f + (if g.v6 then 7 else 8) →
      (g.v6 = true ∨ (i ≠ l3At f + 10 ∧ i ≠ l3At f + 11)) → u8At f' i = u8At f i := by
  intro i h12 hlt h7 h10
  have h14 := l3At_ge f
  cases hp : Slow.parse chk f with
  | error e => simp only [Router.pass, hi, hp, bind, Except.bind] at h; cases h
  | ok p =>
  obtain ⟨k1, k2⟩ := front_kept hi hp
  have e0 : u8At p.to_vec i = u8At f i := by rw [← u8At_take _ _ _ hlt, k2, u8At_take _ _ _ hlt]
  rw [← e0]
  obtain ⟨L, post, hL, hLs, hLn⟩ := front_types hi hp
  obtain ⟨-, -, hip, -⟩ := v6_type hi
  have hwf := frame_sizes hp
  have hm : (r.dst ++ r.src).length = 12 := by rw [List.length_append, hr.1, hr.2]
  have b8 : ∀ (v : U64) j, j < 8 * [BitVec.ofNat 8 v.toNat].length →
      netBit [BitVec.ofNat 8 v.toNat] j = v.getLsbD (8 * [BitVec.ofNat 8 v.toNat].length - 1 - j) := fun v j hj => netBit_num8 v j hj
  have he : ∀ t q, r.edit chk g.v6 t p = .ok q → q.hdrs.map (·.ty) = p.hdrs.map (·.ty) ∧ (∀ x ∈ q.hdrs, x.data.length = x.ty.size) ∧
      q.to_vec.length = p.to_vec.length ∧ u8At q.to_vec i = u8At p.to_vec i := by
    intro t q hq
    cases h6 : g.v6 with
    | true =>
      rw [h6] at hL h7 hq hip
      obtain ⟨q', e, t1, w1, v1⟩ := edit_types IPv6 IPv6.hop_limit (t - 1) 7 [BitVec.ofNat 8 (t - 1).toNat] rfl rfl Nat.one_pos
        (show 7 + 1 ≤ 40 by decide) (b8 _) p (Ether :: L) post hL (fun S hS => by rcases hLn S hS with rfl | rfl <;> decide) hwf
      simp only [Router.edit, if_true] at hq
      obtain rfl := Except.ok.inj (hq.symm.trans e)
      rw [hLs] at v1
      simp only [if_true] at h7 hip
      have hl : l3At f + 7 + [BitVec.ofNat 8 (t - 1).toNat].length ≤ p.to_vec.length := by simp only [List.length_singleton]; omega
      exact ⟨t1, w1, by rw [v1, putAt_length _ _ _ hl], by rw [v1, putAt_u8 _ _ _ hl _ (by simp only [List.length_singleton]; omega)]⟩
    | false =>
      obtain ⟨-, -, -, -, front, ip, post', hfirst, hty, hsz⟩ := ip4_shape hi h6 hp
      rw [h6] at hL h7 h10 hq hip
      simp only [Bool.false_eq_true, if_false, false_or] at h7 h10 hip
      have hLn' : ∀ S ∈ Ether :: L, S.name ≠ IPv4.name := fun S hS => by rcases hLn S hS with rfl | rfl <;> decide
      have puts : ∀ K, ∀ q : Packet, q.to_vec = putAt (putAt p.to_vec (l3At f + 8) [BitVec.ofNat 8 (t - 1).toNat]) (l3At f + 10) (num16 K) →
          q.to_vec.length = p.to_vec.length ∧ u8At q.to_vec i = u8At p.to_vec i := by
        intro K q hq
        have hl1 : l3At f + 8 + [BitVec.ofNat 8 (t - 1).toNat].length ≤ p.to_vec.length := by simp only [List.length_singleton]; omega
        have hl2 : l3At f + 10 + (num16 K).length ≤ (putAt p.to_vec (l3At f + 8) [BitVec.ofNat 8 (t - 1).toNat]).length := by
          rw [putAt_length _ _ _ hl1, show (num16 K).length = 2 from rfl]; omega
        refine ⟨by rw [hq, putAt_length _ _ _ hl2, putAt_length _ _ _ hl1], ?_⟩
        rw [hq, putAt_u8 _ _ _ hl2 _ (by rw [show (num16 K).length = 2 from rfl]; omega),
          putAt_u8 _ _ _ hl1 _ (by simp only [List.length_singleton]; omega)]
      cases ho : r.own with
      | true =>
        have hl : ip.data.length = 20 := by rw [hwf ip (by rw [hfirst.1]; simp), hty]; rfl
        obtain ⟨g', c, e, ht', hl', hc, hed⟩ := edit_refresh chk p front post' ip hfirst hty hl IPv4.ttl ⟨by decide, by decide⟩ (t - 1)
        rw [set_whole IPv4 IPv4.ttl (t - 1) 8 [BitVec.ofNat 8 (t - 1).toNat] rfl rfl Nat.one_pos (show 8 + 1 ≤ 20 by decide) (b8 _) ip hty
          hl] at e
        obtain rfl := Except.ok.inj e
        simp only [Router.edit, ho, Bool.false_eq_true, if_false, if_true] at hq
        obtain rfl := Except.ok.inj (hq.symm.trans hed)
        simp only at hl'
        have hfl : ((front.map (·.data)).flatten).length = l3At f := by
          rw [← hsz, List.length_flatten, List.map_map]
          exact congrArg List.sum (List.map_congr_left fun x hx => hwf x (by rw [hfirst.1]; simp [hx]))
        refine ⟨by rw [hfirst.1]; simp [hty], ?_, puts c.toNat _ ?_⟩
        · intro x hx
          simp only [List.mem_append, List.mem_cons] at hx
          rcases hx with hx | rfl | hx
          · exact hwf x (by rw [hfirst.1]; simp [hx])
          · rw [length_putChecksum, hl']; rfl
          · exact hwf x (by rw [hfirst.1]; simp [hx])
        · have hv : p.to_vec = (front.map (·.data)).flatten ++ (ip.data ++ ((post'.map (·.data)).flatten ++ p.payload)) := by
            rw [← wire_split, ← hfirst.1]
          rw [wire_split, hv, putAt_behind _ _ _ _ _ hfl, putAt_behind _ _ _ _ _ hfl, putAt_append _ _ _ _ (by rw [hl]; exact (by decide : 8 + 1 ≤ 20)),
            putAt_append _ _ _ _ (by rw [hl']; exact (by decide : 10 + 2 ≤ 20)), putChecksum_eq_put _ _ (by rw [hl']; decide)]
      | false =>
        obtain ⟨pr, r1, -⟩ := readField_types chk IPv4 IPv4.protocol p (Ether :: L) post hL hLn' hwf ⟨by decide, by decide⟩ (by decide)
        obtain ⟨c, r2, -⟩ := readField_types chk IPv4 IPv4.header_checksum p (Ether :: L) post hL hLn' hwf ⟨by decide, by decide⟩ (by decide)
        obtain ⟨q1, e1, t1, w1, v1⟩ := edit_types IPv4 IPv4.ttl (t - 1) 8 [BitVec.ofNat 8 (t - 1).toNat] rfl rfl Nat.one_pos
          (show 8 + 1 ≤ 20 by decide) (b8 _) p (Ether :: L) post hL hLn' hwf
        obtain ⟨q2, e2, t2, w2, v2⟩ := edit_types IPv4 IPv4.header_checksum
          (BitVec.ofNat 64 (adjust c.toNat [256 * t.toNat + pr.toNat] [256 * (t - 1).toNat + pr.toNat])) 10 (num16 _) rfl rfl (Nat.zero_lt_succ 1)
          (show 10 + 2 ≤ 20 by decide) (fun j hj => netBit_num16 _ j hj) q1 (Ether :: L) post (by rw [t1, hL]; rfl) hLn' w1
        simp only [Router.edit, ho, Bool.false_eq_true, if_false, r1, r2, e1, bind, Except.bind] at hq
        obtain rfl := Except.ok.inj (hq.symm.trans e2)
        rw [hLs] at v1
        rw [hLs, v1] at v2
        exact ⟨by rw [t2, t1], w2, puts _ _ v2⟩
  simp only [Router.pass, hi, hp, bind, Except.bind, Router.forward] at h
  split at h
  · cases h
  next q? hq? =>
  split at hq?
  · cases hq?
  next t ht =>
  split at hq?
  · cases hq?; cases h
  split at hq?
  · cases hq?
  next q hq =>
  obtain ⟨t1, w1, l1, u1⟩ := he t q hq
  obtain ⟨q', e2, -, -, v2⟩ := putIn_types Ether (fun h => h.set_bytes chk 95 0 (r.dst ++ r.src)) 0 (r.dst ++ r.src) (by
      intro g hg hl
      have hl : g.data.length = 14 := hl
      have := setBytes_put chk g.data 0 (r.dst ++ r.src) (fun h => by rw [h] at hm; cases hm) (by omega) (by omega)
      rw [hm] at this
      simp only [Hdr.set_bytes, this, bind, Except.bind, pure, Except.pure, hg])
    q [] (L ++ (if g.v6 then IPv6 else IPv4) :: post) (by rw [t1, hL]; rfl) (by simp) w1 (by rw [hm]; decide)
  rw [e2] at hq?
  obtain rfl := Except.ok.inj hq?
  obtain rfl := Option.some.inj (Except.ok.inj h)
  simp only [List.map_nil, List.sum_nil, Nat.zero_add] at v2
  rw [v2, putAt_u8 _ _ _ (by rw [hm, l1]; omega) _ (by rw [hm]; omega), u1]

theorem proto_at {f : Bytes} {g : Datagram} (hi : ipInput f = some g) : g.proto = u8At f (l3At f + if g.v6 then 6 else 9) := by
  obtain ⟨hv, -⟩ := v6_type hi
  unfold ipInput at hi
  split at hi
  rotate_left
  · cases hi
  next et b hl =>
  split at hi
  next h4 =>
    obtain ⟨-, rfl, -⟩ := link_seen f b et hl (.inl h4)
    unfold ip4Input at hi
    obtain ⟨-, hi⟩ := Option.ite_none_right_eq_some.mp hi
    cases hi
    simp only [u8At_drop_add, Bool.false_eq_true, if_false]
  next h4 =>
    obtain ⟨h6, hi⟩ := Option.ite_none_right_eq_some.mp hi
    obtain ⟨-, rfl, -⟩ := link_seen f b et hl (.inr h6)
    unfold ip6Input at hi
    obtain ⟨-, hi⟩ := Option.ite_none_right_eq_some.mp hi
    cases hi
    simp only [u8At_drop_add, if_true]

/-- A packet with TCP in it has no GRE header, with or without IPv4 options. -/
theorem tcp_no_gre {chk : Bool} {f : Bytes} {g : Datagram} {p : Packet} (hi : ipInput f = some g) (hp : Slow.parse chk f = .ok p)
    (h6 : g.proto = 6) : ∀ g ∈ p.hdrs, g.ty = GRE → greOptCount g.data ≤ 1 := by
  have hl : (if g.v6 then ipv6Next g.proto else ipv4Next g.proto) = .tcp := by rw [h6]; split <;> rfl
  obtain ⟨front, ip, x, y, hf, hip, -, -, -, -, hparse⟩ := datagram_seen f g hi
  have hpq := hparse chk
  rw [hl, hp] at hpq
  cases hq : Slow.parseL chk .tcp (x ++ (g.data ++ y)) with
  | error e => rw [hq] at hpq; cases hpq
  | ok q =>
    rw [hq] at hpq
    obtain rfl := Except.ok.inj hpq
    have hd := Dissect_of_parse hq
    obtain ⟨hs, pl⟩ := q
    generalize x ++ (g.data ++ y) = b at hd
    simp only at hd
    cases hd with
    | @tcp h r hs' _ hl' hd' =>
      cases hd'
      intro z hz hg
      simp only [prep, List.mem_append, List.mem_singleton] at hz
      rcases hz with (hz | rfl) | rfl
      · rcases hf z hz with h | h <;> rw [hg] at h <;> exact absurd h (by decide)
      · rcases hip with ⟨h, -⟩ | ⟨h, -⟩ <;> rw [hg] at h <;> exact absurd h (by decide)
      · exact absurd hg (show TCP ≠ GRE by decide)

/-- What a host reads as a segment behind a router was that segment before it. -/
theorem pass_host {chk : Bool} {f f' : Bytes} {r : Router} (hr : r.Ok) (h : r.pass chk f = .ok (some f')) {m : TcpSeg}
    (hm : hostTcp f' = some m) : hostTcp f = some m := by
  cases hi : ipInput f with
  | none => simp only [Router.pass, hi] at h; cases h
  | some g =>
    have h14 := l3At_ge f
    obtain ⟨hv, hlen, hip, -⟩ := v6_type hi
    have k := pass_kept hr hi h
    obtain ⟨g', hi', hu⟩ := Option.bind_eq_some_iff.mp hm
    have h20 : 20 ≤ ipLen f := by rw [hip]; split <;> decide
    have low : ∀ i, 12 ≤ i → i + 1 < l3At f → u16At f' i = u16At f i := fun i h1 h2 => by
      rw [u16At, u16At, k i h1 (by omega) (by split <;> omega) (.inr (by omega)), k (i + 1) (by omega) (by omega) (by split <;> omega) (.inr (by omega))]
    have e3 : l3At f' = l3At f := by rw [l3At, low 12 (by decide) (by omega), l3At]
    have ev : g'.v6 = g.v6 := by rw [(v6_type hi').1, hv, e3, low _ (by omega) (by omega)]
    have hp6 : g.proto = 6 := by
      rw [← (tcpInput_fields hu).1, proto_at hi, proto_at hi', e3, ev]
      refine (k _ (by omega) ?_ ?_ ?_).symm
      · rw [hip]; split <;> omega
      · cases g.v6 <;> simp
      · cases g.v6 <;> simp
    cases hp : Slow.parse chk f with
    | error e => simp only [Router.pass, hi, hp, bind, Except.bind] at h; cases h
    | ok p =>
      obtain ⟨c1, c2⟩ := C111_router hi hp (tcp_no_gre hi hp hp6) r hr
      by_cases c : hopsLeft f ≤ 1
      · rw [c1 c] at h; cases h
      · obtain ⟨f2, e, -, -, e2⟩ := c2 (by omega)
        rw [e] at h
        obtain rfl := Option.some.inj (Except.ok.inj h)
        rw [hi'] at e2
        split at e2
        · obtain rfl := Option.some.inj e2
          rw [hostTcp, hi]
          exact hu
        · cases e2

theorem guarded_host {chk : Bool} {f f' : Bytes} {r : Router} (hr : r.Ok) (h : r.passGuarded chk f = .ok (some f')) {m : TcpSeg}
    (hm : hostTcp f' = some m) : hostTcp f = some m := by
  obtain ⟨o, e, h1, h2⟩ := C122_router chk f r hr
  obtain rfl := Except.ok.inj (h.symm.trans e)
  by_cases c : Fatal f
  · cases h1 c
  · exact pass_host hr (h2 c) hm

/-! ## The network -/

/-- The network of C120, and frames somebody else put there. -/
structure Hostile where
  net : Internet
  junk : List Bytes

/-- What can happen: what happens in C120, with the careful routers of C122; somebody puts octets anywhere; these, or what a router made of
them, come to a router (perhaps again) or to a side of the connection. -/
inductive HostileStep where
  | net (e : NetStep)
  | inject (f : Bytes)
  | pass (j : Nat) (r : Router)
  | deliver (b : Bool) (j : Nat)

/-- All routers are careful ones. -/
def Hostile.step (chk : Bool) (p6 : Ipv6FromStr) (P : Bool → Party) (c : Conn) (s : Hostile) : HostileStep → R Hostile
  | .net (.hop b j r) =>
    match (s.net.air b)[j]? with
    | some x => do
      let f ← r.passGuarded chk x.frame
      pure { s with net := { s.net with air := change s.net.air b (s.net.air b ++ (f.map fun f => ⟨f, x.origin, x.by_ ++ [r]⟩).toList) } }
    | none => pure s
  | .net e => do
    let n ← s.net.step chk p6 P c e
    pure { s with net := n }
  | .inject f => pure { s with junk := s.junk ++ [f] }
  | .pass j r =>
    match s.junk[j]? with
    | some f => do
      let x ← r.passGuarded chk f
      pure { s with junk := s.junk ++ x.toList }
    | none => pure s
  | .deliver b j =>
    match s.junk[j]? with
    | some f => pure { s with net := { s.net with ends := s.net.ends.take P c b f } }
    | none => pure s

/-- One event after the other. -/
def Hostile.run (chk : Bool) (p6 : Ipv6FromStr) (P : Bool → Party) (c : Conn) : List HostileStep → Hostile → R Hostile
  | [], s => pure s
  | e :: es, s => do
    let s' ← s.step chk p6 P c e
    Hostile.run chk p6 P c es s'

/-- The connection is open; nothing has been sent by anybody. -/
def Hostile.start (P : Bool → Party) : Hostile := ⟨Internet.start P, []⟩

/-- No host reads a segment of this connection from the octets. -/
def Foreign (c : Conn) (f : Bytes) : Prop := ∀ m, hostTcp f = some m → ∀ b, m.conn ≠ sideConn c b

/-- As in C120; whatever is put in, it is not forged. -/
def HostileStep.Valid (p6 : Ipv6FromStr) (P : Bool → Party) (c : Conn) : HostileStep → Prop
  | .net e => e.Valid p6 P c
  | .inject f => Foreign c f
  | .pass _ r => r.Ok
  | .deliver _ _ => True

/-- The invariant. -/
structure Hostile.Ok (chk : Bool) (P : Bool → Party) (c : Conn) (s : Hostile) : Prop where
  net : s.net.Ok chk P c
  junk : ∀ f ∈ s.junk, Foreign c f

/-- On the frames of the connection a careful router is a router. -/
theorem Hostile.net_step (chk : Bool) (p6 : Ipv6FromStr) (P : Bool → Party) (c : Conn) (s : Hostile) (hs : s.net.Ok chk P c) (e : NetStep)
    (he : e.Valid p6 P c) : s.step chk p6 P c (.net e) = (s.net.step chk p6 P c e).map fun n => { s with net := n } := by
  cases e with
  | hop b j r =>
    cases hj : (s.net.air b)[j]? with
    | none => simp only [Hostile.step, Internet.step, hj]; rfl
    | some x =>
      obtain ⟨s', y, e, -⟩ := s.net.hop_step chk p6 P c hs b j r he hj
      simp only [Internet.step, hj, bind, Except.bind] at e
      simp only [Hostile.step, Internet.step, hj, bind, Except.bind]
      cases hp : r.pass chk x.frame with
      | error k => rw [hp] at e; cases e
      | ok z =>
        have hn : ¬ Fatal x.frame := fun c => by
          obtain ⟨_, h⟩ := (C121_router chk x.frame r he).mpr c
          rw [hp] at h
          cases h
        obtain ⟨o, e1, -, e2⟩ := C122_router chk x.frame r he
        have e2 := e2 hn
        rw [hp] at e2
        obtain rfl := Except.ok.inj e2
        rw [e1]
        rfl
  | send b a i n => simp only [Hostile.step, bind, Except.bind]; cases s.net.step chk p6 P c (.send b a i n) <;> rfl
  | deliver b j => simp only [Hostile.step, bind, Except.bind]; cases s.net.step chk p6 P c (.deliver b j) <;> rfl
  | other b f => simp only [Hostile.step, bind, Except.bind]; cases s.net.step chk p6 P c (.other b f) <;> rfl

theorem Hostile.step_ok (chk : Bool) (p6 : Ipv6FromStr) (P : Bool → Party) (c : Conn) (hP : ∀ b, (P b).D.length < 4294967296) (s : Hostile)
    (hs : s.Ok chk P c) (e : HostileStep) (he : e.Valid p6 P c) :
    ∃ s' es, s.step chk p6 P c e = .ok s' ∧ s'.Ok chk P c ∧ (∀ x ∈ es, x.Valid p6 P c) ∧ s.net.run chk p6 P c es = .ok s'.net := by
  cases e with
  | net e =>
    obtain ⟨n, e1, h1, -⟩ := s.net.step_ok chk p6 P c hP hs.net e he
    refine ⟨{ s with net := n }, [e], by rw [s.net_step chk p6 P c hs.net e he, e1]; rfl, ⟨h1, hs.junk⟩, fun x hx => by rw [List.mem_singleton.mp hx]; exact he, ?_⟩
    simp only [Internet.run, e1, bind, Except.bind]
    rfl
  | inject f =>
    refine ⟨_, [], rfl, ⟨hs.net, fun x hx => ?_⟩, by simp, rfl⟩
    rcases List.mem_append.mp hx with h | h
    · exact hs.junk x h
    · rw [List.mem_singleton.mp h]; exact he
  | pass j r =>
    cases hj : s.junk[j]? with
    | none => exact ⟨s, [], by simp only [Hostile.step, hj]; rfl, hs, by simp, rfl⟩
    | some f =>
      obtain ⟨o, e1, -⟩ := C122_router chk f r he
      refine ⟨{ s with junk := s.junk ++ o.toList }, [], by simp only [Hostile.step, hj, e1, bind, Except.bind]; rfl, ⟨hs.net, fun x hx => ?_⟩, by simp, rfl⟩
      rcases List.mem_append.mp hx with h | h
      · exact hs.junk x h
      · obtain rfl := Option.mem_toList.mp h
        intro m hm b
        exact hs.junk f (List.mem_of_getElem? hj) m (guarded_host he e1 hm) b
  | deliver b j =>
    cases hj : s.junk[j]? with
    | none => exact ⟨s, [], by simp only [Hostile.step, hj]; rfl, hs, by simp, rfl⟩
    | some f =>
      have hv : (NetStep.other b f).Valid p6 P c := fun m hm => hs.junk f (List.mem_of_getElem? hj) m hm (!b)
      obtain ⟨n, e1, h1, -⟩ := s.net.step_ok chk p6 P c hP hs.net (.other b f) hv
      have e2 : n = { s.net with ends := s.net.ends.take P c b f } := (Except.ok.inj e1).symm
      refine ⟨{ s with net := n }, [.other b f], by simp only [Hostile.step, hj, e2]; rfl, ⟨h1, hs.junk⟩, by simpa using hv, ?_⟩
      simp only [Internet.run, e1, bind, Except.bind]
      rfl

theorem Hostile.run_ok (chk : Bool) (p6 : Ipv6FromStr) (P : Bool → Party) (c : Conn) (hP : ∀ b, (P b).D.length < 4294967296)
    (es : List HostileStep) (s : Hostile) (hs : s.Ok chk P c) (he : ∀ e ∈ es, e.Valid p6 P c) :
    ∃ s' es', s.run chk p6 P c es = .ok s' ∧ s'.Ok chk P c ∧ (∀ x ∈ es', x.Valid p6 P c) ∧ s.net.run chk p6 P c es' = .ok s'.net := by
  induction es generalizing s with
  | nil => exact ⟨s, [], rfl, hs, by simp, rfl⟩
  | cons e es ih =>
    obtain ⟨s1, f1, e1, h1, v1, r1⟩ := s.step_ok chk p6 P c hP hs e (he e (List.mem_cons_self ..))
    obtain ⟨s2, f2, e2, h2, v2, r2⟩ := ih s1 h1 (fun x hx => he x (List.mem_cons_of_mem _ hx))
    refine ⟨s2, f1 ++ f2, by simp only [Hostile.run, e1, bind, Except.bind]; exact e2, h2, ?_, by rw [Internet.run_append, r1]; exact r2⟩
    intro x hx
    rcases List.mem_append.mp hx with h | h
    · exact v1 x h
    · exact v2 x h

theorem Hostile.run_append (chk : Bool) (p6 : Ipv6FromStr) (P : Bool → Party) (c : Conn) (es es' : List HostileStep) (s : Hostile) :
    s.run chk p6 P c (es ++ es') = s.run chk p6 P c es >>= Hostile.run chk p6 P c es' := by
  induction es generalizing s with
  | nil => rfl
  | cons e es ih =>
    simp only [List.cons_append, Hostile.run, bind, Except.bind]
    cases s.step chk p6 P c e with
    | error k => rfl
    | ok s' => exact ih s'

theorem Hostile.net_run (chk : Bool) (p6 : Ipv6FromStr) (P : Bool → Party) (c : Conn) (hP : ∀ b, (P b).D.length < 4294967296)
    (es : List NetStep) (s : Hostile) (hs : s.net.Ok chk P c) (he : ∀ e ∈ es, e.Valid p6 P c) :
    s.run chk p6 P c (es.map .net) = (s.net.run chk p6 P c es).map fun n => { s with net := n } := by
  induction es generalizing s with
  | nil => rfl
  | cons e es ih =>
    obtain ⟨n, e1, h1, -⟩ := s.net.step_ok chk p6 P c hP hs e (he e (List.mem_cons_self ..))
    simp only [List.map_cons, Hostile.run, Internet.run, bind, Except.bind]
    rw [s.net_step chk p6 P c hs e (he e (List.mem_cons_self ..)), e1]
    exact ih { s with net := n } h1 (fun x hx => he x (List.mem_cons_of_mem _ hx))

/-! ## The property -/

/-- **C123** (nothing gained): over every execution nobody panics, and for the connection it was an execution of C120, so that everything
said there holds; what is under way of the hostile frames is still not of the connection. -/
theorem C123_refines (chk : Bool) (p6 : Ipv6FromStr) (P : Bool → Party) (c : Conn) (hP : ∀ b, (P b).D.length < 4294967296)
    (es : List HostileStep) (he : ∀ e ∈ es, e.Valid p6 P c) :
    ∃ s es', (Hostile.start P).run chk p6 P c es = .ok s ∧ (∀ f ∈ s.junk, Foreign c f) ∧
      (∀ e ∈ es', e.Valid p6 P c) ∧ (Internet.start P).run chk p6 P c es' = .ok s.net := by
  obtain ⟨s, es', e, h, v, r⟩ := (Hostile.start P).run_ok chk p6 P c hP es ⟨Internet.start_ok chk P c, fun _ h => (nomatch h)⟩ he
  exact ⟨s, es', e, h.junk, v, r⟩

/-- **C123** (no segment out of nothing): what a host reads as a segment behind a router, careless or careful, was that segment before it. -/
theorem C123_behind {chk : Bool} {f f' : Bytes} {r : Router} (hr : r.Ok)
    (h : r.pass chk f = .ok (some f') ∨ r.passGuarded chk f = .ok (some f')) {m : TcpSeg} (hm : hostTcp f' = some m) : hostTcp f = some m :=
  h.elim (fun h => pass_host hr h hm) fun h => guarded_host hr h hm

/-- **C123** (safety). -/
theorem C123_safe (chk : Bool) (p6 : Ipv6FromStr) (P : Bool → Party) (c : Conn) (hP : ∀ b, (P b).D.length < 4294967296)
    (es : List HostileStep) (he : ∀ e ∈ es, e.Valid p6 P c) :
    ∃ s, (Hostile.start P).run chk p6 P c es = .ok s ∧ ∀ b,
      (s.net.ends.recv (!b)).got <+: (P b).D ∧ s.net.ends.una b ≤ (s.net.ends.recv (!b)).got.length ∧
      (s.net.ends.una b = (P b).D.length → (s.net.ends.recv (!b)).got = (P b).D) := by
  obtain ⟨s, es', e, -, v, r⟩ := C123_refines chk p6 P c hP es he
  obtain ⟨n, r', h⟩ := C120_safe chk p6 P c hP es' v
  obtain rfl := Except.ok.inj (r'.symm.trans r)
  exact ⟨s, e, fun b => ⟨(h b).1, (h b).2.1, (h b).2.2.2⟩⟩

/-- **C123** (it can always be completed), whatever has been put into the network. -/
theorem C123_completes (chk : Bool) (p6 : Ipv6FromStr) (P : Bool → Party) (c : Conn) (hP : ∀ b, (P b).D.length < 4294967296)
    (a : Bool → TcpArgs) (ha : ∀ b, (a b).For p6 (sideConn c b)) (hf : ∀ b, (a b).Fit 1) (rs : Bool → List Router) (hr : ∀ b, ∀ r ∈ rs b, r.Ok)
    (hw : ∀ b, (∃ o, (a b).ip = .inr o) ∨ ∀ r ∈ rs b, r.own = false) (hl : ∀ b, rs b = [] ∨ (rs b).length < (a b).hops)
    (es : List HostileStep) (he : ∀ e ∈ es, e.Valid p6 P c) :
    ∃ es' s, (∀ e ∈ es', e.Valid p6 P c) ∧ (Hostile.start P).run chk p6 P c (es ++ es') = .ok s ∧
      ∀ b, s.net.ends.una b = (P b).D.length ∧ (s.net.ends.recv (!b)).got = (P b).D := by
  obtain ⟨s, es1, e, h, v, r⟩ := (Hostile.start P).run_ok chk p6 P c hP es ⟨Internet.start_ok chk P c, fun _ h => (nomatch h)⟩ he
  obtain ⟨es2, n, v2, r2, h2⟩ := C120_completes chk p6 P c hP a ha hf rs hr hw hl es1 v
  rw [Internet.run_append, show (Internet.start P).run chk p6 P c es1 = .ok s.net from r] at r2
  refine ⟨es2.map .net, { s with net := n }, ?_, ?_, h2⟩
  · intro x hx
    obtain ⟨y, hy, rfl⟩ := List.mem_map.mp hx
    exact v2 y hy
  · rw [Hostile.run_append, e]
    show Hostile.run chk p6 P c _ s = _
    rw [s.net_run chk p6 P c hP es2 h.net v2, show Internet.run chk p6 P c es2 s.net = .ok n from r2]
    rfl

/-- **C123** (careful routers are needed): a fatal frame is no segment, so that it may be put in, and any router of C111 it comes to
panics. -/
theorem C123_careless (chk : Bool) (c : Conn) {f : Bytes} (hf : Fatal f) :
    Foreign c f ∧ ∀ r : Router, r.Ok → ∃ e, r.pass chk f = .error e :=
  ⟨fun _ hm => absurd hf (C121_tcp hm), fun r hr => (C121_router chk f r hr).mpr hf⟩

/-! ## Cases -/

/-- The execution of C120 among two fatal frames, a frame a router sends on, a segment of another connection and no frame at all. -/
def sampleHostile : List HostileStep :=
  [.inject fatalUdp, .inject survivedUdp, .inject [1, 2, 3], .pass 0 hopUpdate, .pass 1 hopCrate, .pass 2 hopUpdate, .deliver true 0, .deliver false 3] ++
    sampleInternet.map .net ++
    [.inject (frameOf true Sample.p6 streamArgs6 1 streamData 0 4), .inject fatalOption, .pass 4 hopCrate, .pass 5 hopUpdate, .deliver true 6, .pass 99 hopUpdate]

-- none of it is forged
example : Foreign streamConn4 fatalUdp ∧ Foreign streamConn4 survivedUdp ∧ Foreign streamConn4 [1, 2, 3] ∧ Foreign streamConn4 fatalOption := by
  have key : ∀ f, hostTcp f = none → Foreign streamConn4 f := fun f h m hm => by rw [h] at hm; cases hm
  exact ⟨key _ (by decide +kernel), key _ (by decide +kernel), key _ (by decide +kernel), key _ (by decide +kernel)⟩
example : Foreign streamConn4 (frameOf true Sample.p6 streamArgs6 1 streamData 0 4) := by
  intro m hm b
  have : (hostTcp (frameOf true Sample.p6 streamArgs6 1 streamData 0 4)).map TcpSeg.conn = some streamConn6 := by decide +kernel
  rw [hm] at this
  rw [Option.some.inj this]
  cases b <;> decide +kernel

-- what happens to the connection is what happened in C120; of the hostile frames two got through a router
example : ((Hostile.start sampleParties).run true Sample.p6 sampleParties streamConn4 sampleHostile).toOption.map (·.net.ends.view) =
    some ([7#8, 8#8, 9#8], streamData, 10, 0) := by decide +kernel
example : ((Hostile.start sampleParties).run true Sample.p6 sampleParties streamConn4 sampleHostile).toOption.map
    (fun s => s.junk.map hopsLeft) = some [64, 64, 0, 63, 64, 64, 63] := by decide +kernel

end PacketRs
