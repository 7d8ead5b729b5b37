import Verif.Spec.Through
import Verif.Props.Transfer
import Verif.Props.Gateway
/-!
# Property C119: a connection through a gateway that translates addresses and ports

C113's two sides, one behind C116's gateway.  Each side has its own idea of who it talks to.
-/
namespace PacketRs
open Spec Utils

/-! ## The clients -/

/-- Both sides as in C113 (`sent b` are the frames side `b` sent, which the gateway may get), the frames of each side that the gateway
sent on, and its table. -/
structure Through where
  ends : Transfer
  passed : Bool → List Bytes
  table : List NatEntry

/-- What can happen: a side sends as in C113; the `k`-th frame of side `b` comes to the gateway (perhaps again, late or never), with a
port to take if it needs one; the `k`-th frame the gateway sent on for the other side comes to side `b`; a frame that belongs to
something else comes to side `b`; something else happens at the gateway. -/
inductive ThroughEvent where
  | send (b : Bool) (a : TcpArgs) (i n : Nat)
  | pass (b : Bool) (m : U16) (k : Nat)
  | deliver (b : Bool) (k : Nat)
  | other (b : Bool) (f : Bytes)
  | gateway (e : NatEvent)

/-- Side `false` is behind the gateway. -/
def Through.step (chk : Bool) (p6 : Ipv6FromStr) (P : Bool → Party) (g : Passage) (s : Through) : ThroughEvent → R Through
  | .send b a i n => do
    let t ← s.ends.step chk p6 P (g.leg b) (.send b a i n)
    pure { s with ends := t }
  | .pass b m k =>
    match (s.ends.sent b)[k]? with
    | some f => do
      let r ← natStep chk g.own s.table (if b then .inn f else .out m f)
      pure { s with table := r.1, passed := change s.passed b (s.passed b ++ r.2.toList) }
    | none => pure s
  | .deliver b k =>
    match (s.passed (!b))[k]? with
    | some f => pure { s with ends := s.ends.take P (g.leg b) b f }
    | none => pure s
  | .other b f => pure { s with ends := s.ends.take P (g.leg b) b f }
  | .gateway e => do
    let r ← natStep chk g.own s.table e
    pure { s with table := r.1 }

/-- One event after the other. -/
def Through.run (chk : Bool) (p6 : Ipv6FromStr) (P : Bool → Party) (g : Passage) : List ThroughEvent → Through → R Through
  | [], s => pure s
  | e :: es, s => do
    let s' ← s.step chk p6 P g e
    Through.run chk p6 P g es s'

/-- The connection is open; nothing has been sent. -/
def Through.start (P : Bool → Party) (t : List NatEntry) : Through := ⟨Transfer.start P, fun _ => [], t⟩

/-- As in C113, each side with its own idea of the connection; and the port is not given up. -/
def ThroughEvent.Valid (p6 : Ipv6FromStr) (P : Bool → Party) (g : Passage) : ThroughEvent → Prop
  | .send b a i n => a.For p6 (sideConn (g.leg b) b) ∧ a.Fit n ∧ i ≤ (P b).D.length
  | .other b f => ∀ s, hostTcp f = some s → s.conn ≠ sideConn (g.leg b) (!b)
  | .gateway e => e ≠ .forget g.entry.ext
  | .pass _ _ _ => True
  | .deliver _ _ => True

/-! ## The gateway and the segments -/

theorem natGood_uniq {t : List NatEntry} (ht : NatGood t) {d e : NatEntry} (hd : d ∈ t) (he : e ∈ t) (h : d.addr = e.addr ∧ d.port = e.port) :
    d = e := by
  by_contra hne
  rcases List.mem_iff_getElem.mp hd with ⟨i, hi, rfl⟩
  rcases List.mem_iff_getElem.mp he with ⟨j, hj, rfl⟩
  rcases Nat.lt_trichotomy i j with hij | hij | hij
  · exact (List.pairwise_iff_getElem.mp ht i j hi hj hij).2 h
  · subst hij; exact hne rfl
  · exact (List.pairwise_iff_getElem.mp ht j i hj hi hij).2 ⟨h.1.symm, h.2.symm⟩

theorem natSeg_host {f : Bytes} {m : TcpSeg} (h : natSeg f = some m) : hostTcp f = some m := by
  unfold natSeg at h
  exact (Option.ite_none_right_eq_some.mp h).2

/-- A segment of the connection at the gateway, from side `b`: it is sent on as one of the other leg, or the frame is one the gateway
does not translate. -/
theorem pass_conn (chk : Bool) (g : Passage) {t : List NatEntry} (ht : NatGood t) (hg : g.entry ∈ t) (b : Bool) (n : U16) {f : Bytes}
    {m : TcpSeg} (hm : hostTcp f = some m) (hc : m.conn = sideConn (g.leg b) b) :
    ∃ t' r, natStep chk g.own t (if b then .inn f else .out n f) = .ok (t', r) ∧ NatGood t' ∧ g.entry ∈ t' ∧
      (natSeg f = none ∧ r = none ∨ natSeg f = some m ∧ ∃ f' m', r = some f' ∧ hostTcp f' = some m' ∧ m'.conn = sideConn (g.leg (!b)) b ∧
        m'.seq = m.seq ∧ m'.ack = m.ack ∧ m'.data = m.data) := by
  cases hn : natSeg f with
  | none =>
    refine ⟨t, none, ?_, ht, hg, .inl ⟨rfl, rfl⟩⟩
    cases b <;> simp [natStep, gatewayOut, gatewayIn, hn, bind, Except.bind, pure, Except.pure]
  | some m1 =>
    obtain rfl := Option.some.inj (hm.symm.trans (natSeg_host hn))
    obtain ⟨s, d, sp, dp, sq, ak, fl, wn, ur, da⟩ := m
    cases b with
    | false =>
      simp only [TcpSeg.conn, sideConn, Passage.leg, Bool.false_eq_true, if_false, Conn.mk.injEq] at hc
      obtain ⟨rfl, rfl, rfl, rfl⟩ := hc
      obtain ⟨r, h1, h2⟩ := C116_out chk g.own t n f _ hn
      obtain ⟨k1, k2, -, k4, -⟩ := natOut_good (own := g.own) ht n hn
      cases ho : (natOut g.own t n (⟨num32 g.entry.addr.toNat, g.far, g.entry.port.toNat, g.farPort, sq, ak, fl, wn, ur, da⟩ : TcpSeg)).2 with
      | none =>
        exfalso
        unfold natOut at ho
        split at ho
        · cases ho
        · next hf => exact absurd (by simpa using List.find?_eq_none.mp hf g.entry hg : ¬ g.entry.OfSender _) (fun h => h ⟨rfl, rfl⟩)
      | some m' =>
        rw [ho] at h2
        obtain ⟨e, he, hs, hm'⟩ := k4 m' ho
        obtain rfl := natGood_uniq k1 he (k2 _ hg) (ofSender_same hs ⟨rfl, rfl⟩)
        obtain ⟨f', rfl, hf'⟩ := h2
        subst hm'
        exact ⟨_, _, h1, k1, k2 _ hg, .inr ⟨rfl, f', _, rfl, hf', rfl, rfl, rfl, rfl⟩⟩
    | true =>
      simp only [TcpSeg.conn, sideConn, Passage.leg, if_true, Conn.rev, Conn.mk.injEq] at hc
      obtain ⟨rfl, rfl, rfl, rfl⟩ := hc
      obtain ⟨r, h1, h2⟩ := C116_in chk g.own t f _ hn
      rw [natIn_eq ht hg ⟨rfl, rfl⟩] at h2
      obtain ⟨f', rfl, hf'⟩ := h2
      refine ⟨t, some f', ?_, ht, hg, .inr ⟨rfl, f', _, rfl, hf', rfl, rfl, rfl, rfl⟩⟩
      simp only [if_true, natStep, h1, bind, Except.bind]
      rfl

/-- The IPv4 header of a segment. -/
theorem made4_head {chk : Bool} {p6 : Ipv6FromStr} {a : TcpArgs} {c : Conn} {iss : U32} {D : Bytes} {i n : Nat} {o : Out4} (ha : a.For p6 c)
    (ho : a.ip = .inl o) {q : Packet} (hq : tcpSegment chk p6 a iss D i n = .ok q) :
    u16At q.to_vec (l3At q.to_vec - 2) = 0x0800 ∧ ∃ ck rest, q.to_vec.drop (l3At q.to_vec) =
      ipv4Raw o.ihl o.tos o.id o.ttl o.frag 6#8 c.src c.dst (BitVec.ofNat 16 (20 + (20 + (chunk D i n).length))) ck ++ rest := by
  obtain ⟨⟨⟨m, hm⟩, k, hk⟩, -, -, h⟩ := ha
  unfold tcpSegment at hq
  rw [ho] at hq h
  simp only at hq h
  obtain ⟨hs, hd⟩ := h
  have e := C41_tcp chk _ _ a.ve a.vid a.pcp m k hm hk ⟨o.ihl, o.tos, o.id, o.ttl, o.frag, 0#8, c.src, c.dst⟩ _ _ hs hd o.opts (chunk D i n) a.tdst
    a.tsrc (iss + BitVec.ofNat 32 i) a.ack a.off a.res a.flags a.window a.urg a.ck
  simp only at e
  rw [e] at hq
  have hip : Ip4.Ok (Ip4.withProto ⟨o.ihl, o.tos, o.id, o.ttl, o.frag, 0#8, c.src, c.dst⟩ 6#8) := ⟨C32_length _ _ hs, C32_length _ _ hd⟩
  have hraw : ∀ L C, (Ip4.withProto ⟨o.ihl, o.tos, o.id, o.ttl, o.frag, 0#8, c.src, c.dst⟩ 6#8).raw L C =
      ipv4Raw o.ihl o.tos o.id o.ttl o.frag 6#8 c.src c.dst L C := fun _ _ => rfl
  generalize Ip4.withProto ⟨o.ihl, o.tos, o.id, o.ttl, o.frag, 0#8, c.src, c.dst⟩ 6#8 = ip at hq hip hraw
  generalize chunk D i n = pl at hq ⊢
  have hm6 := C31_length _ _ hm
  have hk6 := C31_length _ _ hk
  let T : U16 → Bytes := fun x => (Packet.tcp a.tsrc a.tdst (iss + BitVec.ofNat 32 i) a.ack a.off a.res a.flags a.window x a.urg).data
  obtain ⟨x, hx⟩ : ∃ x : U16, finishSum TCP TCP.checksum (cover4 (ipAt a.ve)) ⟨l2Hdrs m k a.ve a.vid a.pcp 0x0800#16 ++
      [ip.hdr (BitVec.ofNat 16 (20 + pl.length + 20)),
        Packet.tcp a.tsrc a.tdst (iss + BitVec.ofNat 32 i) a.ack a.off a.res a.flags a.window 0 a.urg], pl⟩ = .ok
      ⟨l2Hdrs m k a.ve a.vid a.pcp 0x0800#16 ++ ip.hdr (BitVec.ofNat 16 (20 + pl.length + 20)) :: [⟨TCP, T x⟩], pl⟩ := by
    have e := finishSum_eq TCP TCP.checksum 16 rfl rfl (by decide) (cover4 (ipAt a.ve)) (l2Hdrs m k a.ve a.vid a.pcp 0x0800#16 ++
      [ip.hdr (BitVec.ofNat 16 (20 + pl.length + 20))]) []
      (T 0#16) pl (before_names m k a.ve a.vid a.pcp 0x0800#16 _ _ (by decide) (by decide) (by show "IPv4" ≠ "TCP"; decide)) rfl T
      (fun x => by simp [T, Packet.tcp, HeaderDef.ofVec, putAt, be16, be32])
    simp only [List.append_assoc, List.cons_append, List.nil_append] at e
    exact ⟨_, e⟩
  have hz : (T x).length = 20 := rfl
  generalize T x = z at hx hz
  change (finishSum _ _ _ _ >>= finishIp _) = _ at hq
  rw [hx] at hq
  simp only [bind, Except.bind] at hq
  have hfin := finishIp_eq (ipAt a.ve) (l2Hdrs m k a.ve a.vid a.pcp 0x0800#16) [⟨TCP, z⟩] pl ip hip (BitVec.ofNat 16 (20 + pl.length + 20))
    (ip.ck (BitVec.ofNat 16 (20 + pl.length + 20)))
    (l2_names m k a.ve a.vid a.pcp _ _ (by decide) (by decide)) (l2_wire m k hm6 hk6 a.ve a.vid a.pcp _)
  simp only at hfin
  obtain rfl := Except.ok.inj (hq.symm.trans hfin)
  have hl := linkInput_frame m k hm6 hk6 a.ve a.vid a.pcp 0x0800#16 (by decide) ⟨IPv4, ip.raw (BitVec.ofNat 16 (20 + (onWire [⟨TCP, z⟩] pl).length))
    (rightCk ip (BitVec.ofNat 16 (20 + (onWire [⟨TCP, z⟩] pl).length)))⟩ [⟨TCP, z⟩] pl
  rw [linkInput_eq] at hl
  split at hl
  · cases hl
  obtain ⟨k1, k2⟩ := Prod.mk.injEq .. ▸ Option.some.inj hl
  refine ⟨k1, rightCk ip (BitVec.ofNat 16 (20 + (onWire [⟨TCP, z⟩] pl).length)), onWire [⟨TCP, z⟩] pl, k2.trans ?_⟩
  have hl : (onWire [⟨TCP, z⟩] pl).length = 20 + pl.length := by simp [onWire, hz]
  rw [← hl, ← hraw]

/-- What is in front of a segment made over IPv4: no options, and the time to live that was asked for. -/
theorem made4 {chk : Bool} {p6 : Ipv6FromStr} {a : TcpArgs} {c : Conn} {iss : U32} {D : Bytes} {i n : Nat} {o : Out4} (ha : a.For p6 c)
    (hf : a.Fit n) (ho : a.ip = .inl o) {q : Packet} (hq : tcpSegment chk p6 a iss D i n = .ok q) :
    u16At q.to_vec (l3At q.to_vec - 2) = 0x0800 ∧ ihl q.to_vec (l3At q.to_vec) = 20 ∧ u8At q.to_vec (l3At q.to_vec + 8) = o.ttl.toNat := by
  obtain ⟨k1, ck, rest, k2⟩ := made4_head ha ho hq
  obtain ⟨-, hf⟩ := hf
  rw [ho] at hf
  simp only at hf
  refine ⟨k1, ?_, ?_⟩
  · rw [ihl, ← Nat.add_zero (l3At _), ← u8At_drop_add, k2]
    show 4 * ((0x40#8 ||| o.ihl).toNat % 16) = 20
    rcases hf.1 with h | h <;> rw [h] <;> rfl
  · rw [← u8At_drop_add, k2]
    rfl

/-- A segment made over IPv4 is one the gateway translates. -/
theorem made_nat {chk : Bool} {p6 : Ipv6FromStr} {a : TcpArgs} {c : Conn} {iss : U32} {D : Bytes} {i n : Nat} (ha : a.For p6 c)
    (hf : a.Fit n) (h4 : c.src.length = 4 ∨ c.dst.length = 4) {q : Packet} (hq : tcpSegment chk p6 a iss D i n = .ok q) :
    natSeg q.to_vec = hostTcp q.to_vec := by
  cases ho : a.ip with
  | inl o =>
    obtain ⟨k1, k2, -⟩ := made4 ha hf ho hq
    unfold natSeg
    rw [if_pos ⟨k1, k2⟩]
  | inr o =>
    exfalso
    have h := ha.2.2.2
    rw [ho] at h
    rw [← h.1, ← h.2, ipv6_len6, ipv6_len6] at h4
    omega

/-! ## The invariant -/

/-- The sides without their frames. -/
def Transfer.bare (t : Transfer) : Transfer := { t with sent := fun _ => [] }

theorem Transfer.Good.any {P : Bool → Party} {c c' : Conn} {t : Transfer} {b : Bool} (h : t.bare.Good P c b) : t.bare.Good P c' b :=
  ⟨h.is, h.una, h.sent, h.nxt, fun _ h => (nomatch h)⟩

theorem Transfer.bare_take (P : Bool → Party) (c : Conn) (t : Transfer) (b : Bool) (f : Bytes) : (t.take P c b f).bare = t.bare.take P c b f := by
  unfold Transfer.take
  split
  · rfl
  · next s _ => by_cases h : s.conn = sideConn c (!b) <;> simp only [h, if_true, if_false, Transfer.bare]

theorem Transfer.take_sent (P : Bool → Party) (c : Conn) (t : Transfer) (b : Bool) (f : Bytes) : (t.take P c b f).sent = t.sent := by
  unfold Transfer.take
  split
  · rfl
  · split <;> rfl

theorem Transfer.take_nxt (P : Bool → Party) (c : Conn) (t : Transfer) (b : Bool) (f : Bytes) : (t.take P c b f).nxt = t.nxt := by
  unfold Transfer.take
  split
  · rfl
  · split <;> rfl

/-- C113's invariant for the two sides; the frames of a side are of its leg, those the gateway sent on of the other leg; the gateway keeps
the port. -/
structure Through.Ok (P : Bool → Party) (g : Passage) (s : Through) : Prop where
  ends : ∀ b c, s.ends.bare.Good P c b
  sent : ∀ b, ∀ f ∈ s.ends.sent b, s.ends.FrameOk P (g.leg b) b f
  passed : ∀ b, ∀ f ∈ s.passed b, s.ends.FrameOk P (g.leg (!b)) b f
  table : NatGood s.table
  entry : g.entry ∈ s.table

/-- Nothing is taken back. -/
structure Through.Later (s s' : Through) : Prop where
  have_ : ∀ b, s.ends.have_ b ≤ s'.ends.have_ b
  una : ∀ b, s.ends.una b ≤ s'.ends.una b
  nxt : ∀ b, s.ends.nxt b ≤ s'.ends.nxt b
  sent : ∀ b, s.ends.sent b <+: s'.ends.sent b
  passed : ∀ b, s.passed b <+: s'.passed b

theorem Through.Later.refl (s : Through) : s.Later s :=
  ⟨fun _ => Nat.le_refl _, fun _ => Nat.le_refl _, fun _ => Nat.le_refl _, fun _ => List.prefix_refl _, fun _ => List.prefix_refl _⟩

theorem Through.Later.trans {s s' s'' : Through} (h : s.Later s') (h' : s'.Later s'') : s.Later s'' :=
  ⟨fun b => Nat.le_trans (h.have_ b) (h'.have_ b), fun b => Nat.le_trans (h.una b) (h'.una b), fun b => Nat.le_trans (h.nxt b) (h'.nxt b),
    fun b => (h.sent b).trans (h'.sent b), fun b => (h.passed b).trans (h'.passed b)⟩

theorem Through.start_ok (P : Bool → Party) (g : Passage) {t : List NatEntry} (ht : NatGood t) (he : g.entry ∈ t) : (Through.start P t).Ok P g :=
  ⟨fun b c => Transfer.start_good P c b, fun _ _ h => (nomatch h), fun _ _ h => (nomatch h), ht, he⟩

/-- A side sends. -/
theorem Through.send_step (chk : Bool) (p6 : Ipv6FromStr) (P : Bool → Party) (g : Passage) (s : Through) (hs : s.Ok P g)
    (b : Bool) (a : TcpArgs) (i n : Nat) (he : (ThroughEvent.send b a i n).Valid p6 P g) :
    ∃ f s' m, s.step chk p6 P g (.send b a i n) = .ok s' ∧ s'.Ok P g ∧ s.Later s' ∧ s'.ends.recv = s.ends.recv ∧ s'.passed = s.passed ∧
      s'.ends.sent b = s.ends.sent b ++ [f] ∧ hostTcp f = some m ∧ natSeg f = some m ∧ m.conn = sideConn (g.leg b) b ∧
        m.seq = ((P b).iss.toNat + i) % 4294967296 ∧ m.data = chunk (P b).D i n ∧
        m.ack = ((P (!b)).iss.toNat + s.ends.have_ b) % 4294967296 ∧ min (i + n) (P b).D.length ≤ s'.ends.nxt b := by
  obtain ⟨f, t', e, k1, k2, k3, k4, m, m1, m2, m3, m4, m5, m6⟩ :=
    s.ends.bare.send_step chk p6 P (g.leg b) (fun b' => hs.ends b' _) b a i n he
  simp only [Transfer.step] at e
  change (tcpSegment chk p6 { a with ack := BitVec.ofNat 32 (s.ends.recv b).next } (P b).iss (P b).D i n >>= _) = _ at e
  cases hq : tcpSegment chk p6 { a with ack := BitVec.ofNat 32 (s.ends.recv b).next } (P b).iss (P b).D i n with
  | error x => rw [hq] at e; cases e
  | ok q =>
    rw [hq] at e
    obtain rfl := Except.ok.inj e
    simp only [Transfer.bare, change_self, List.nil_append, List.cons.injEq, and_true] at k4 m6
    subst k4
    have h4 : (sideConn (g.leg b) b).src.length = 4 ∨ (sideConn (g.leg b) b).dst.length = 4 := by
      cases b
      · exact .inl rfl
      · exact .inr rfl
    have hn := made_nat (a := { a with ack := BitVec.ofNat 32 (s.ends.recv b).next }) he.1 he.2.1 h4 hq
    have hx : ∀ b', s.ends.nxt b' ≤ change s.ends.nxt b (max (s.ends.nxt b) (min (i + n) (P b).D.length)) b' := by
      intro b'
      rcases bool_or_not b b' with rfl | rfl
      · rw [change_self]; exact Nat.le_max_left _ _
      · rw [change_not]
    refine ⟨_, ⟨⟨s.ends.recv, s.ends.una, change s.ends.nxt b (max (s.ends.nxt b) (min (i + n) (P b).D.length)),
      change s.ends.sent b (s.ends.sent b ++ [q.to_vec])⟩, s.passed, s.table⟩, m, ?_, ⟨?_, ?_, ?_, hs.table, hs.entry⟩, ?_, rfl, rfl,
      change_self .., m1, hn.trans m1, m2, m3, m4, m5, ?_⟩
    · simp only [Through.step, Transfer.step, hq, bind, Except.bind]; rfl
    · intro b' c
      have := k1 b'
      exact ⟨this.is, this.una, this.sent, this.nxt, fun _ h => (nomatch h)⟩
    · intro b' f hf
      dsimp only at hf
      rcases bool_or_not b b' with rfl | rfl
      · rw [change_self] at hf
        rcases List.mem_append.mp hf with hf | hf
        · exact (hs.sent _ f hf).mono (hx _) (Nat.le_refl _)
        · rw [List.mem_singleton.mp hf]
          exact ⟨m, i, n, s.ends.have_ b', m1, m2, m3, m4, he.2.2, by simp only [change_self]; exact Nat.le_max_right _ _, Nat.le_refl _, m5⟩
      · rw [change_not] at hf
        exact (hs.sent _ f hf).mono (hx _) (Nat.le_refl _)
    · intro b' f hf
      exact (hs.passed b' f hf).mono (hx _) (Nat.le_refl _)
    · refine ⟨fun _ => Nat.le_refl _, fun _ => Nat.le_refl _, hx, fun b' => ?_, fun _ => List.prefix_refl _⟩
      rcases bool_or_not b b' with rfl | rfl
      · simp only [change_self]; exact List.prefix_append _ _
      · simp only [change_not]; exact List.prefix_refl _
    · simp only [change_self]; exact Nat.le_max_right _ _

/-- A frame of the connection is at the gateway. -/
theorem Through.pass_step (chk : Bool) (p6 : Ipv6FromStr) (P : Bool → Party) (g : Passage) (s : Through) (hs : s.Ok P g)
    (b : Bool) (n : U16) (k : Nat) {f : Bytes} (hk : (s.ends.sent b)[k]? = some f) :
    ∃ s' r, s.step chk p6 P g (.pass b n k) = .ok s' ∧ s'.Ok P g ∧ s.Later s' ∧ s'.ends = s.ends ∧ s'.passed b = s.passed b ++ r ∧
      ∀ m, natSeg f = some m → ∃ f' m', r = [f'] ∧ hostTcp f' = some m' ∧ m'.conn = sideConn (g.leg (!b)) b ∧ m'.seq = m.seq ∧ m'.ack = m.ack ∧
        m'.data = m.data := by
  obtain ⟨m, i, l, r, a1, a2, a3, a4, a5, a6, a7, a8⟩ := hs.sent b f (List.mem_of_getElem? hk)
  obtain ⟨t', o, e, h1, h2, h3⟩ := pass_conn chk g hs.table hs.entry b n a1 a2
  refine ⟨⟨s.ends, change s.passed b (s.passed b ++ o.toList), t'⟩, o.toList, ?_, ⟨hs.ends, hs.sent, ?_, h1, h2⟩, ?_, rfl, change_self .., ?_⟩
  · simp only [Through.step, hk, e, bind, Except.bind]; rfl
  · intro b' f' hf'
    dsimp only at hf'
    rcases bool_or_not b b' with rfl | rfl
    · rw [change_self] at hf'
      rcases List.mem_append.mp hf' with hf' | hf'
      · exact hs.passed _ f' hf'
      · rcases h3 with ⟨-, rfl⟩ | ⟨-, f1, m', rfl, c1, c2, c3, c4, c5⟩
        · cases hf'
        · obtain rfl := List.mem_singleton.mp hf'
          exact ⟨m', i, l, r, c1, c2, c3.trans a3, c5.trans a4, a5, a6, a7, c4.trans a8⟩
    · rw [change_not] at hf'
      exact hs.passed _ f' hf'
  · refine ⟨fun _ => Nat.le_refl _, fun _ => Nat.le_refl _, fun _ => Nat.le_refl _, fun _ => List.prefix_refl _, fun b' => ?_⟩
    rcases bool_or_not b b' with rfl | rfl
    · simp only [change_self]; exact List.prefix_append _ _
    · simp only [change_not]; exact List.prefix_refl _
  · intro m1 hm1
    rcases h3 with ⟨h, -⟩ | ⟨h, f1, m', rfl, c⟩
    · rw [h] at hm1; cases hm1
    · obtain rfl := Option.some.inj (h.symm.trans hm1)
      exact ⟨f1, m', rfl, c⟩

/-- A frame the gateway sent on comes. -/
theorem Through.deliver_step (chk : Bool) (p6 : Ipv6FromStr) (P : Bool → Party) (g : Passage) (hP : ∀ b, (P b).D.length < 4294967296) (s : Through)
    (hs : s.Ok P g) (b : Bool) (k : Nat) {f : Bytes} (hk : (s.passed (!b))[k]? = some f) {m : TcpSeg} {i n r : Nat} (hm : hostTcp f = some m)
    (hc : m.conn = sideConn (g.leg b) (!b)) (hq : m.seq = ((P (!b)).iss.toNat + i) % 4294967296) (hd : m.data = chunk (P (!b)).D i n)
    (hi : i ≤ (P (!b)).D.length) (hn : min (i + n) (P (!b)).D.length ≤ s.ends.nxt (!b)) (hr : r ≤ s.ends.have_ (!b))
    (ha : m.ack = ((P b).iss.toNat + r) % 4294967296) :
    ∃ s', s.step chk p6 P g (.deliver b k) = .ok s' ∧ s'.Ok P g ∧ s.Later s' ∧ r ≤ s'.ends.una b ∧
      (i ≤ s.ends.have_ b → min (i + n) (P (!b)).D.length ≤ s'.ends.have_ b) := by
  obtain ⟨k1, -, -, k4, k5, k6⟩ := s.ends.bare.take_ok P (g.leg b) hP (fun b' => hs.ends b' _) b hm hc hq hd hi hn hr ha
  rw [← Transfer.bare_take] at k1 k4 k5 k6
  have e1 : ∀ b', s.ends.have_ b' ≤ (s.ends.take P (g.leg b) b f).have_ b' := by
    intro b'
    rcases bool_or_not b b' with rfl | rfl
    · change _ ≤ (s.ends.take P (g.leg b') b' f).bare.have_ b'
      rw [k6]
      change _ ≤ if _ ≤ s.ends.have_ b' ∧ s.ends.have_ b' < _ then _ else s.ends.have_ b'
      split <;> omega
    · exact Nat.le_of_eq k5.symm
  have e2 : ∀ b', s.ends.una b' ≤ (s.ends.take P (g.leg b) b f).una b' := by
    intro b'
    change _ ≤ (s.ends.take P (g.leg b) b f).bare.una b'
    rw [k4]
    rcases bool_or_not b b' with rfl | rfl
    · rw [change_self]; exact Nat.le_max_left _ _
    · rw [change_not]; exact Nat.le_refl _
  have e3 : ∀ b', s.ends.nxt b' ≤ (s.ends.take P (g.leg b) b f).nxt b' := fun b' => by rw [Transfer.take_nxt]
  refine ⟨⟨s.ends.take P (g.leg b) b f, s.passed, s.table⟩, ?_, ⟨fun b' c => (k1 b').any, ?_, ?_, hs.table, hs.entry⟩, ⟨e1, e2, e3, ?_, ?_⟩, ?_, ?_⟩
  · simp only [Through.step, hk]; rfl
  · intro b' f' hf'
    dsimp only at hf'
    rw [Transfer.take_sent] at hf'
    exact (hs.sent b' f' hf').mono (e3 b') (e1 b')
  · intro b' f' hf'
    exact (hs.passed b' f' hf').mono (e3 b') (e1 b')
  · intro b'
    dsimp only
    rw [Transfer.take_sent]
    exact List.prefix_refl _
  · exact fun b' => List.prefix_refl _
  · change _ ≤ (s.ends.take P (g.leg b) b f).bare.una b
    rw [k4, change_self]
    exact Nat.le_max_right _ _
  · intro h
    change _ ≤ (s.ends.take P (g.leg b) b f).bare.have_ b
    rw [k6]
    change _ ≤ if _ ≤ s.ends.have_ b ∧ s.ends.have_ b < _ then _ else s.ends.have_ b
    split <;> omega

theorem Through.step_ok (chk : Bool) (p6 : Ipv6FromStr) (P : Bool → Party) (g : Passage) (hP : ∀ b, (P b).D.length < 4294967296) (s : Through)
    (hs : s.Ok P g) (e : ThroughEvent) (he : e.Valid p6 P g) : ∃ s', s.step chk p6 P g e = .ok s' ∧ s'.Ok P g ∧ s.Later s' := by
  cases e with
  | send b a i n =>
    obtain ⟨f, s', m, e, h1, h2, -⟩ := s.send_step chk p6 P g hs b a i n he
    exact ⟨s', e, h1, h2⟩
  | pass b m k =>
    cases hk : (s.ends.sent b)[k]? with
    | none => exact ⟨s, by simp only [Through.step, hk]; rfl, hs, .refl s⟩
    | some f =>
      obtain ⟨s', r, e, h1, h2, -⟩ := s.pass_step chk p6 P g hs b m k hk
      exact ⟨s', e, h1, h2⟩
  | deliver b k =>
    cases hk : (s.passed (!b))[k]? with
    | none => exact ⟨s, by simp only [Through.step, hk]; rfl, hs, .refl s⟩
    | some f =>
      obtain ⟨m, i, n, r, a1, a2, a3, a4, a5, a6, a7, a8⟩ := hs.passed (!b) f (List.mem_of_getElem? hk)
      rw [Bool.not_not] at a2 a8
      obtain ⟨s', e, h1, h2, -⟩ := s.deliver_step chk p6 P g hP hs b k hk a1 a2 a3 a4 a5 a6 a7 a8
      exact ⟨s', e, h1, h2⟩
  | other b f => exact ⟨s, by simp only [Through.step, s.ends.take_other P (g.leg b) b f he]; rfl, hs, .refl s⟩
  | gateway e =>
    obtain ⟨t', r, h, h1, h2, -⟩ := natStep_facts chk g.own hs.table e
    exact ⟨⟨s.ends, s.passed, t'⟩, by simp only [Through.step, h, bind, Except.bind]; rfl, ⟨hs.ends, hs.sent, hs.passed, h1, h2 _ hs.entry he⟩,
      ⟨fun _ => Nat.le_refl _, fun _ => Nat.le_refl _, fun _ => Nat.le_refl _, fun _ => List.prefix_refl _, fun _ => List.prefix_refl _⟩⟩

theorem Through.run_ok (chk : Bool) (p6 : Ipv6FromStr) (P : Bool → Party) (g : Passage) (hP : ∀ b, (P b).D.length < 4294967296)
    (es : List ThroughEvent) (s : Through) (hs : s.Ok P g) (he : ∀ e ∈ es, e.Valid p6 P g) :
    ∃ s', s.run chk p6 P g es = .ok s' ∧ s'.Ok P g ∧ s.Later s' := by
  induction es generalizing s with
  | nil => exact ⟨s, rfl, hs, .refl s⟩
  | cons e es ih =>
    obtain ⟨s1, e1, h1, l1⟩ := s.step_ok chk p6 P g hP hs e (he e (List.mem_cons_self ..))
    obtain ⟨s2, e2, h2, l2⟩ := ih s1 h1 (fun x hx => he x (List.mem_cons_of_mem _ hx))
    exact ⟨s2, by simp only [Through.run, e1, bind, Except.bind]; exact e2, h2, l1.trans l2⟩

theorem Through.run_append (chk : Bool) (p6 : Ipv6FromStr) (P : Bool → Party) (g : Passage) (es es' : List ThroughEvent) (s : Through) :
    s.run chk p6 P g (es ++ es') = s.run chk p6 P g es >>= Through.run chk p6 P g es' := by
  induction es generalizing s with
  | nil => rfl
  | cons e es ih =>
    rw [List.cons_append]
    unfold Through.run
    cases s.step chk p6 P g e with
    | error x => rfl
    | ok s' => exact ih s'

theorem prefix_getElem? {α : Type} {l l' l'' : List α} {x : α} (h : l ++ [x] <+: l') (h' : l'' = l') : l''[l.length]? = some x := by
  subst h'
  obtain ⟨y, rfl⟩ := h
  simp

/-- One segment makes its way. -/
theorem Through.trip (chk : Bool) (p6 : Ipv6FromStr) (P : Bool → Party) (g : Passage) (hP : ∀ b, (P b).D.length < 4294967296) (s : Through)
    (hs : s.Ok P g) (b : Bool) (a : TcpArgs) (i n : Nat) (m : U16) (es1 es2 es3 : List ThroughEvent)
    (he : ∀ e ∈ .send b a i n :: (es1 ++ es2 ++ es3), e.Valid p6 P g) :
    ∃ s1 s2 s3, s.run chk p6 P g (.send b a i n :: es1) = .ok s1 ∧ s1.run chk p6 P g (.pass b m (s.ends.sent b).length :: es2) = .ok s2 ∧
      s2.run chk p6 P g (.deliver (!b) (s1.passed b).length :: es3) = .ok s3 ∧ s3.Ok P g ∧ s.Later s3 ∧ s.ends.have_ b ≤ s3.ends.una (!b) ∧
      (i ≤ s.ends.have_ (!b) → min (i + n) (P b).D.length ≤ s3.ends.have_ (!b)) := by
  have v := he _ (List.mem_cons_self ..)
  obtain ⟨f, u1, x, e1, o1, l1, -, -, hf, x1, x2, x3, x4, x5, x6, x7⟩ := s.send_step chk p6 P g hs b a i n v
  obtain ⟨s1, r1, o1', l1'⟩ := u1.run_ok chk p6 P g hP es1 o1 (fun e h => he e (by simp [h]))
  have k1 : (s1.ends.sent b)[(s.ends.sent b).length]? = some f := prefix_getElem? (hf ▸ l1'.sent b) rfl
  obtain ⟨u2, r, e2, o2, l2, q2, p2, w⟩ := s1.pass_step chk p6 P g o1' b m _ k1
  obtain ⟨f', x', rfl, y1, y2, y3, y4, y5⟩ := w x x2
  obtain ⟨s2, r2, o2', l2'⟩ := u2.run_ok chk p6 P g hP es2 o2 (fun e h => he e (by simp [h]))
  have k2 : (s2.passed b)[(s1.passed b).length]? = some f' := prefix_getElem? (p2 ▸ l2'.passed b) rfl
  have hn : min (i + n) (P b).D.length ≤ s2.ends.nxt b :=
    Nat.le_trans x7 (Nat.le_trans (l1'.nxt b) (Nat.le_trans (l2.nxt b) (l2'.nxt b)))
  have lh : ∀ b', s.ends.have_ b' ≤ s2.ends.have_ b' := fun b' =>
    Nat.le_trans (l1.have_ b') (Nat.le_trans (l1'.have_ b') (Nat.le_trans (l2.have_ b') (l2'.have_ b')))
  obtain ⟨u3, e3, o3, l3, z1, z2⟩ := s2.deliver_step chk p6 P g hP o2' (!b) (s1.passed b).length (f := f') (m := x') (i := i) (n := n)
    (r := s.ends.have_ b) (by rw [Bool.not_not]; exact k2) y1 (by rw [Bool.not_not]; exact y2) (by rw [Bool.not_not]; exact y3.trans x4)
    (by rw [Bool.not_not]; exact y5.trans x5) (by rw [Bool.not_not]; exact v.2.2) (by rw [Bool.not_not]; exact hn)
    (by rw [Bool.not_not]; exact lh b) (y4.trans x6)
  rw [Bool.not_not] at z2
  obtain ⟨s3, r3, o3', l3'⟩ := u3.run_ok chk p6 P g hP es3 o3 (fun e h => he e (by simp [h]))
  refine ⟨s1, s2, s3, ?_, ?_, ?_, o3', l1.trans (l1'.trans (l2.trans (l2'.trans (l3.trans l3')))), Nat.le_trans z1 (l3'.una _), fun h =>
    Nat.le_trans (z2 (Nat.le_trans h (lh _))) (l3'.have_ _)⟩
  · simp only [Through.run, e1, bind, Except.bind]; exact r1
  · simp only [Through.run, e2, bind, Except.bind]; exact r2
  · simp only [Through.run, e3, bind, Except.bind]; exact r3

/-! ## The theorems -/

/-- What the invariant says to the outside. -/
theorem Through.Ok.says {P : Bool → Party} {g : Passage} {s : Through} (h : s.Ok P g) (b : Bool) :
    (s.ends.recv (!b)).got <+: (P b).D ∧ s.ends.una b ≤ (s.ends.recv (!b)).got.length ∧ (P b).D.take (s.ends.una b) <+: (s.ends.recv (!b)).got ∧
      (s.ends.una b = (P b).D.length → (s.ends.recv (!b)).got = (P b).D) ∧ (s.ends.recv (!b)).got = (P b).D.take (s.ends.have_ (!b)) := by
  have k := h.ends b (g.leg b)
  have hl : s.ends.have_ (!b) ≤ (P b).D.length := Nat.le_trans k.sent k.nxt
  have hu : s.ends.una b ≤ s.ends.have_ (!b) := k.una
  have hgot : (s.ends.recv (!b)).got = (P b).D.take (s.ends.have_ (!b)) := congrArg Recv.got k.is
  refine ⟨hgot ▸ List.take_prefix _ _, hu, ?_, fun h => ?_, hgot⟩
  · rw [hgot]; exact List.take_prefix_take_left hu
  · rw [hgot, List.take_of_length_le]
    omega

/-- **C119**: a host behind the gateway and one outside exchange streams as in C113.  The gateway has done anything before, has a port for
the host, and does anything meanwhile except give the port up; frames are lost, repeated, delayed and reordered on the way to the gateway
and on the way from it.  For streams below 2^32 octets nobody panics; what a program has read is a beginning of what the other side
sends; what a side takes for acknowledged the other side's program has read. -/
theorem C119_safe (chk : Bool) (p6 : Ipv6FromStr) (P : Bool → Party) (g : Passage) (hP : ∀ b, (P b).D.length < 4294967296)
    {ns : List NatEvent} {t : List NatEntry} (ht : natRun chk g.own [] ns = .ok t) (hg : g.entry ∈ t)
    (es : List ThroughEvent) (he : ∀ e ∈ es, e.Valid p6 P g) :
    ∃ s, (Through.start P t).run chk p6 P g es = .ok s ∧ ∀ b,
      (s.ends.recv (!b)).got <+: (P b).D ∧ s.ends.una b ≤ (s.ends.recv (!b)).got.length ∧
      (P b).D.take (s.ends.una b) <+: (s.ends.recv (!b)).got ∧ (s.ends.una b = (P b).D.length → (s.ends.recv (!b)).got = (P b).D) := by
  obtain ⟨s, e, h, -⟩ := (Through.start P t).run_ok chk p6 P g hP es (Through.start_ok P g (run_good .nil ht) hg) he
  exact ⟨s, e, fun b => ⟨(h.says b).1, (h.says b).2.1, (h.says b).2.2.1, (h.says b).2.2.2.1⟩⟩

/-- **C119** (nothing is taken back). -/
theorem C119_grows (chk : Bool) (p6 : Ipv6FromStr) (P : Bool → Party) (g : Passage) (hP : ∀ b, (P b).D.length < 4294967296)
    {ns : List NatEvent} {t : List NatEntry} (ht : natRun chk g.own [] ns = .ok t) (hg : g.entry ∈ t)
    (es es' : List ThroughEvent) (he : ∀ e ∈ es ++ es', e.Valid p6 P g) :
    ∃ s s', (Through.start P t).run chk p6 P g es = .ok s ∧ (Through.start P t).run chk p6 P g (es ++ es') = .ok s' ∧ ∀ b,
      (s.ends.recv b).got <+: (s'.ends.recv b).got ∧ s.ends.una b ≤ s'.ends.una b := by
  obtain ⟨s, e, h, -⟩ := (Through.start P t).run_ok chk p6 P g hP es (Through.start_ok P g (run_good .nil ht) hg) (fun x h => he x (by simp [h]))
  obtain ⟨s', e', h', l⟩ := s.run_ok chk p6 P g hP es' h (fun x h => he x (by simp [h]))
  refine ⟨s, s', e, by rw [Through.run_append, e]; exact e', fun b => ⟨?_, l.una b⟩⟩
  have h1 := (h.says (!b)).2.2.2.2
  have h2 := (h'.says (!b)).2.2.2.2
  rw [Bool.not_not] at h1 h2
  rw [h1, h2]
  exact List.take_prefix_take_left (l.have_ b)

/-- C119_progress, from a state with the invariant. -/
theorem Through.progress_from (chk : Bool) (p6 : Ipv6FromStr) (P : Bool → Party) (g : Passage) (hP : ∀ b, (P b).D.length < 4294967296)
    (s : Through) (hs : s.Ok P g) (b : Bool) (a a' : TcpArgs) (i n i' n' : Nat) (m m' : U16) (hi : i ≤ s.ends.una b)
    (es1 es2 es3 es4 es5 : List ThroughEvent)
    (he : ∀ e ∈ .send b a i n :: .send (!b) a' i' n' :: (es1 ++ es2 ++ es3 ++ es4 ++ es5), e.Valid p6 P g) :
    ∃ s1 s2 s3 s4 s5 s6, s.run chk p6 P g (.send b a i n :: es1) = .ok s1 ∧
      s1.run chk p6 P g (.pass b m (s.ends.sent b).length :: es2) = .ok s2 ∧
      s2.run chk p6 P g (.deliver (!b) (s1.passed b).length :: es3) = .ok s3 ∧
      s3.run chk p6 P g (.send (!b) a' i' n' :: es4) = .ok s4 ∧
      s4.run chk p6 P g (.pass (!b) m' (s3.ends.sent (!b)).length :: es5) = .ok s5 ∧
      s5.run chk p6 P g [.deliver b (s4.passed (!b)).length] = .ok s6 ∧ s6.Ok P g ∧ s.Later s6 ∧
      min (i + n) (P b).D.length ≤ s6.ends.una b := by
  obtain ⟨s1, s2, s3, r1, r2, r3, o3, l3, -, z3⟩ := s.trip chk p6 P g hP hs b a i n m es1 es2 es3 (by
    intro e h
    refine he e ?_
    simp only [List.mem_cons, List.mem_append] at h ⊢
    tauto)
  obtain ⟨s4, s5, s6, r4, r5, r6, o6, l6, z6, -⟩ := s3.trip chk p6 P g hP o3 (!b) a' i' n' m' es4 es5 [] (by
    intro e h
    refine he e ?_
    simp only [List.mem_cons, List.mem_append, List.not_mem_nil] at h ⊢
    tauto)
  rw [Bool.not_not] at r6 z6
  have hu : s.ends.una b ≤ s.ends.have_ (!b) := (hs.ends b (g.leg b)).una
  exact ⟨s1, s2, s3, s4, s5, s6, r1, r2, r3, r4, r5, r6, o6, l3.trans l6, Nat.le_trans (z3 (Nat.le_trans hi hu)) z6⟩

/-- **C119** (progress): at any time side `b` sends `n` octets from its first unacknowledged one (or before it) on; the segment comes to
the gateway, and what the gateway sends on comes to the other side; then that side sends a segment, any one, which comes to the gateway,
and what it sends on comes to side `b`.  With anything else between these, the `n` octets are then acknowledged, or all there are. -/
theorem C119_progress (chk : Bool) (p6 : Ipv6FromStr) (P : Bool → Party) (g : Passage) (hP : ∀ b, (P b).D.length < 4294967296)
    {ns : List NatEvent} {t : List NatEntry} (ht : natRun chk g.own [] ns = .ok t) (hg : g.entry ∈ t)
    (es0 : List ThroughEvent) (he0 : ∀ e ∈ es0, e.Valid p6 P g) (s : Through) (hs : (Through.start P t).run chk p6 P g es0 = .ok s)
    (b : Bool) (a a' : TcpArgs) (i n i' n' : Nat) (m m' : U16) (hi : i ≤ s.ends.una b) (es1 es2 es3 es4 es5 : List ThroughEvent)
    (he : ∀ e ∈ .send b a i n :: .send (!b) a' i' n' :: (es1 ++ es2 ++ es3 ++ es4 ++ es5), e.Valid p6 P g) :
    ∃ s1 s2 s3 s4 s5 s6, s.run chk p6 P g (.send b a i n :: es1) = .ok s1 ∧
      s1.run chk p6 P g (.pass b m (s.ends.sent b).length :: es2) = .ok s2 ∧
      s2.run chk p6 P g (.deliver (!b) (s1.passed b).length :: es3) = .ok s3 ∧
      s3.run chk p6 P g (.send (!b) a' i' n' :: es4) = .ok s4 ∧
      s4.run chk p6 P g (.pass (!b) m' (s3.ends.sent (!b)).length :: es5) = .ok s5 ∧
      s5.run chk p6 P g [.deliver b (s4.passed (!b)).length] = .ok s6 ∧ min (i + n) (P b).D.length ≤ s6.ends.una b := by
  obtain ⟨u, e, h, -⟩ := (Through.start P t).run_ok chk p6 P g hP es0 (Through.start_ok P g (run_good .nil ht) hg) he0
  obtain rfl := Except.ok.inj (hs.symm.trans e)
  obtain ⟨s1, s2, s3, s4, s5, s6, r1, r2, r3, r4, r5, r6, -, -, z⟩ :=
    s.progress_from chk p6 P g hP h b a a' i n i' n' m m' hi es1 es2 es3 es4 es5 he
  exact ⟨s1, s2, s3, s4, s5, s6, r1, r2, r3, r4, r5, r6, z⟩

/-- One side gets everything acknowledged. -/
theorem Through.completes_from (chk : Bool) (p6 : Ipv6FromStr) (P : Bool → Party) (g : Passage) (hP : ∀ b, (P b).D.length < 4294967296)
    (a : Bool → TcpArgs) (ha : ∀ b, (a b).For p6 (sideConn (g.leg b) b)) (hf : ∀ b, (a b).Fit 1) (b : Bool) (k : Nat) :
    ∀ s : Through, s.Ok P g → (P b).D.length - s.ends.una b ≤ k →
      ∃ es s', (∀ e ∈ es, e.Valid p6 P g) ∧ s.run chk p6 P g es = .ok s' ∧ s'.Ok P g ∧ s.Later s' ∧ (P b).D.length ≤ s'.ends.una b := by
  induction k with
  | zero => intro s hs hk; exact ⟨[], s, by simp, rfl, hs, .refl s, by omega⟩
  | succ k ih =>
    intro s hs hk
    have hu : s.ends.una b ≤ (P b).D.length := by
      have := hs.ends b (g.leg b)
      exact Nat.le_trans this.una (Nat.le_trans this.sent this.nxt)
    have v1 : (ThroughEvent.send b (a b) (s.ends.una b) 1).Valid p6 P g := ⟨ha b, hf b, hu⟩
    have v2 : (ThroughEvent.send (!b) (a (!b)) 0 0).Valid p6 P g := ⟨ha _, (hf _).mono (by omega), Nat.zero_le _⟩
    obtain ⟨s1, s2, s3, s4, s5, s6, r1, r2, r3, r4, r5, r6, o6, l6, z⟩ := s.progress_from chk p6 P g hP hs b (a b) (a (!b)) (s.ends.una b) 1 0 0 0 0
      (Nat.le_refl _) [] [] [] [] [] (by
        intro e he
        simp only [List.append_nil, List.mem_cons, List.not_mem_nil, or_false] at he
        rcases he with rfl | rfl
        · exact v1
        · exact v2)
    obtain ⟨es, s', w, r, o', l', hu'⟩ := ih s6 o6 (by omega)
    refine ⟨[.send b (a b) (s.ends.una b) 1] ++ ([.pass b 0 (s.ends.sent b).length] ++ ([.deliver (!b) (s1.passed b).length] ++
      ([.send (!b) (a (!b)) 0 0] ++ ([.pass (!b) 0 (s3.ends.sent (!b)).length] ++ ([.deliver b (s4.passed (!b)).length] ++ es))))), s', ?_, ?_, o',
      l6.trans l', hu'⟩
    · intro e he
      simp only [List.mem_append, List.mem_singleton] at he
      rcases he with rfl | rfl | rfl | rfl | rfl | rfl | he
      · exact v1
      · trivial
      · trivial
      · exact v2
      · trivial
      · trivial
      · exact w e he
    · rw [Through.run_append, r1]
      show Through.run chk p6 P g _ s1 = _
      rw [Through.run_append, r2]
      show Through.run chk p6 P g _ s2 = _
      rw [Through.run_append, r3]
      show Through.run chk p6 P g _ s3 = _
      rw [Through.run_append, r4]
      show Through.run chk p6 P g _ s4 = _
      rw [Through.run_append, r5]
      show Through.run chk p6 P g _ s5 = _
      rw [Through.run_append, r6]
      exact r

/-- **C119** (it can always be finished): whatever has happened, if each side has arguments with which one octet fits there is a
continuation after which everything is read and acknowledged on both sides. -/
theorem C119_completes (chk : Bool) (p6 : Ipv6FromStr) (P : Bool → Party) (g : Passage) (hP : ∀ b, (P b).D.length < 4294967296)
    {ns : List NatEvent} {t : List NatEntry} (ht : natRun chk g.own [] ns = .ok t) (hg : g.entry ∈ t)
    (a : Bool → TcpArgs) (ha : ∀ b, (a b).For p6 (sideConn (g.leg b) b)) (hf : ∀ b, (a b).Fit 1)
    (es : List ThroughEvent) (he : ∀ e ∈ es, e.Valid p6 P g) :
    ∃ es' s, (∀ e ∈ es', e.Valid p6 P g) ∧ (Through.start P t).run chk p6 P g (es ++ es') = .ok s ∧
      ∀ b, s.ends.una b = (P b).D.length ∧ (s.ends.recv (!b)).got = (P b).D := by
  obtain ⟨s, e, h, -⟩ := (Through.start P t).run_ok chk p6 P g hP es (Through.start_ok P g (run_good .nil ht) hg) he
  obtain ⟨es1, s1, w1, r1, o1, l1, u1⟩ := Through.completes_from chk p6 P g hP a ha hf false _ s h (Nat.le_refl _)
  obtain ⟨es2, s2, w2, r2, o2, l2, u2⟩ := Through.completes_from chk p6 P g hP a ha hf true _ s1 o1 (Nat.le_refl _)
  refine ⟨es1 ++ es2, s2, ?_, ?_, fun b => ?_⟩
  · intro x hx
    rcases List.mem_append.mp hx with h | h
    · exact w1 x h
    · exact w2 x h
  · rw [Through.run_append, e]
    show Through.run chk p6 P g _ s = _
    rw [Through.run_append, r1]
    exact r2
  · have hu : (P b).D.length ≤ s2.ends.una b := by
      cases b with
      | false => exact Nat.le_trans u1 (l2.una false)
      | true => exact u2
    have k := o2.ends b (g.leg b)
    have h1 : s2.ends.una b ≤ s2.ends.have_ (!b) := k.una
    have h2 : s2.ends.have_ (!b) ≤ s2.ends.nxt b := k.sent
    have h3 : s2.ends.nxt b ≤ (P b).D.length := k.nxt
    have : s2.ends.una b = (P b).D.length := by omega
    exact ⟨this, (o2.says b).2.2.2.1 this⟩

/-- **C119** (the port must be kept): when the gateway has given the port up, nothing of the other end gets through; and what the host
sends next comes to the other end as one of this connection only if the gateway takes the same port again. -/
theorem C119_forgotten (chk : Bool) (g : Passage) {ns : List NatEvent} {t : List NatEntry} (ht : natRun chk g.own [] ns = .ok t)
    (hg : g.entry ∈ t) :
    ∃ t', natStep chk g.own t (.forget g.entry.ext) = .ok (t', none) ∧
      (∀ f m, hostTcp f = some m → m.conn = sideConn (g.leg true) true → natStep chk g.own t' (.inn f) = .ok (t', none)) ∧
      ∀ n f m t'' r m', hostTcp f = some m → m.conn = sideConn (g.leg false) false → natStep chk g.own t' (.out n f) = .ok (t'', some r) →
        hostTcp r = some m' → (m'.conn = sideConn (g.leg true) false ↔ n = g.entry.ext) := by
  have hgood := run_good .nil ht
  refine ⟨t.filter fun e => e.ext ≠ g.entry.ext, rfl, fun f m hm hc => ?_, fun n f m t'' r m' hm hc hs hm' => ?_⟩
  · cases hn : natSeg f with
    | none => simp [natStep, gatewayIn, hn, bind, Except.bind, pure, Except.pure]
    | some m1 =>
      obtain rfl := Option.some.inj (hm.symm.trans (natSeg_host hn))
      obtain ⟨o, h1, h2⟩ := C116_in chk g.own (t.filter fun e => e.ext ≠ g.entry.ext) f _ hn
      have : natIn g.own (t.filter fun e => e.ext ≠ g.entry.ext) m = none := by
        unfold natIn
        rw [Option.map_eq_none_iff, List.find?_eq_none]
        intro e he
        simp only [List.mem_filter, decide_eq_true_eq] at he ⊢
        intro h
        refine he.2 (BitVec.eq_of_toNat_eq (h.2.trans ?_))
        exact congrArg Conn.dport hc
      rw [this] at h2
      subst h2
      simp only [natStep, h1, bind, Except.bind]
      rfl
  · cases hn : natSeg f with
    | none =>
      simp only [natStep, gatewayOut, hn] at hs
      cases hs
    | some m1 =>
      obtain rfl := Option.some.inj (hm.symm.trans (natSeg_host hn))
      obtain ⟨s, d, sp, dp, sq, ak, fl, wn, ur, da⟩ := m
      simp only [TcpSeg.conn, sideConn, Passage.leg, Bool.false_eq_true, if_false, Conn.mk.injEq] at hc
      obtain ⟨rfl, rfl, rfl, rfl⟩ := hc
      obtain ⟨o, h1, h2⟩ := C116_out chk g.own (t.filter fun e => e.ext ≠ g.entry.ext) n f _ hn
      have hf : (t.filter fun e => e.ext ≠ g.entry.ext).find? (fun e => decide (e.OfSender
          (⟨num32 g.entry.addr.toNat, g.far, g.entry.port.toNat, g.farPort, sq, ak, fl, wn, ur, da⟩ : TcpSeg))) = none := by
        rw [List.find?_eq_none]
        intro e he
        simp only [List.mem_filter, decide_eq_true_eq] at he ⊢
        intro h
        exact he.2 (congrArg NatEntry.ext (natGood_uniq hgood he.1 hg (ofSender_same h ⟨rfl, rfl⟩)))
      change gatewayOut chk g.own _ n f = _ at hs
      rw [h1] at hs
      obtain ⟨-, rfl⟩ := Prod.mk.injEq .. ▸ Except.ok.inj hs
      unfold natOut at h2
      rw [hf] at h2
      simp only at h2
      by_cases ha : ((t.filter fun e => e.ext ≠ g.entry.ext).any fun e => decide (e.ext = n)) = true
      · rw [if_pos ha] at h2
        cases h2
      · rw [if_neg ha] at h2
        obtain ⟨r', e, h3⟩ := h2
        obtain rfl := Option.some.inj e
        obtain rfl := Option.some.inj (hm'.symm.trans h3)
        simp only [TcpSeg.moved, Bool.false_eq_true, if_false, TcpSeg.conn, sideConn, Passage.leg, if_true, Conn.mk.injEq, true_and, and_true]
        exact BitVec.toNat_inj

/-! ## Cases -/

/-- The host at 10.0.0.1 behind the gateway at 198.51.100.7, port 40000, talks to 192.168.0.2. -/
def samplePassage : Passage := ⟨gwOwn, ⟨40000, 0x0A000001, 1234⟩, [192#8, 168#8, 0#8, 2#8], 80⟩

/-- Arguments of the other end, which talks to the gateway. -/
def passageArgsBack : TcpArgs :=
  ⟨Sample.mac2, Sample.mac1, false, 10, 3, .inl ⟨5, Sample.ip2, "198.51.100.7".toList, 1, 64, 0x4321, 0, []⟩, 40000, 80, 9, 5, 0, 0x10, 512, 0, true⟩

/-- What the gateway did before: another host got a port, then this one. -/
def passageBefore : List NatEvent := [.out 40001 gwOne, .out 40000 (frameOf true Sample.p6 streamArgs4 0xfffffffe#32 streamData 0 0)]

/-- Its table then. -/
def passageTable : List NatEntry := [⟨40000, 0x0A000001, 1234⟩, ⟨40001, 0x0A000001, 1000⟩]

/-- Segments get to the gateway out of order, the first twice; the gateway has other things to do, and frames get to both ends that are not
of the connection, one of them the untranslated frame of the host itself. -/
def samplePassing : List ThroughEvent :=
  [.send false streamArgs4 0 4, .send false streamArgs4 4 6, .pass false 5 1, .deliver true 0, .pass false 5 0, .gateway (.forget 40001),
    .deliver true 1, .send true passageArgsBack 0 3, .gateway (.out 40001 gwTwo), .pass true 0 0, .pass false 5 0,
    .other true (frameOf true Sample.p6 streamArgs4 0xfffffffe#32 streamData 0 4), .deliver false 0, .deliver true 0, .deliver true 2,
    .send true passageArgsBack 0 0, .pass true 0 1, .deliver false 1]

theorem passage_args : streamArgs4.For Sample.p6 (sideConn (samplePassage.leg false) false) ∧
    passageArgsBack.For Sample.p6 (sideConn (samplePassage.leg true) true) := by
  have hm : Addrs2 Sample.mac1 Sample.mac2 := ⟨⟨[0x00#8, 0x11#8, 0x22#8, 0x33#8, 0x44#8, 0x55#8], by decide +kernel⟩,
    [0x00#8, 0x06#8, 0x07#8, 0x08#8, 0x09#8, 0x0a#8], by decide +kernel⟩
  exact ⟨⟨hm, rfl, rfl, by decide +kernel, by decide +kernel⟩, ⟨⟨hm.2, hm.1⟩, rfl, rfl, by decide +kernel, by decide +kernel⟩⟩

-- the hypotheses hold
example : (natRun true samplePassage.own [] passageBefore).toOption = some passageTable ∧ samplePassage.entry ∈ passageTable := by decide +kernel

example : ∀ e ∈ samplePassing, e.Valid Sample.p6 sampleParties samplePassage := by
  obtain ⟨h0, h1⟩ := passage_args
  have f0 : streamArgs4.Fit 6 := ⟨by decide, show Sound4 5 0 (20 + 6) by decide⟩
  have f1 : passageArgsBack.Fit 3 := ⟨by decide, show Sound4 5 0 (20 + 3) by decide⟩
  intro e he
  simp only [samplePassing, List.mem_cons, List.not_mem_nil, or_false] at he
  rcases he with rfl | rfl | rfl | rfl | rfl | rfl | rfl | rfl | rfl | rfl | rfl | rfl | rfl | rfl | rfl | rfl | rfl | rfl
  · exact ⟨h0, f0.mono (by decide), by decide⟩
  · exact ⟨h0, f0, by decide⟩
  · trivial
  · trivial
  · trivial
  · exact fun h => absurd (NatEvent.forget.inj h) (by decide)
  · trivial
  · exact ⟨h1, f1, by decide⟩
  · exact NatEvent.noConfusion
  · trivial
  · trivial
  · intro s hs
    have : (hostTcp (frameOf true Sample.p6 streamArgs4 0xfffffffe#32 streamData 0 4)).map TcpSeg.conn = some streamConn4 := by decide +kernel
    rw [hs] at this
    rw [Option.some.inj this]
    decide +kernel
  · trivial
  · trivial
  · trivial
  · exact ⟨h1, f1.mono (by decide), by decide⟩
  · trivial
  · trivial

-- what happens: all is read, all that the host behind sent is acknowledged
example : ((Through.start sampleParties passageTable).run true Sample.p6 sampleParties samplePassage samplePassing).toOption.map
    (fun s => s.ends.view) = some ([7#8, 8#8, 9#8], streamData, 10, 0) := by decide +kernel

-- a third of it
example : ((Through.start sampleParties passageTable).run true Sample.p6 sampleParties samplePassage (samplePassing.take 13)).toOption.map
    (fun s => s.ends.view) = some ([7#8, 8#8, 9#8], streamData.take 4, 4, 0) := by decide +kernel

-- without the gateway nothing of the host is taken: its frames are not from the address the other end talks to
example : ((Transfer.start sampleParties).take sampleParties (samplePassage.leg true) true
    (frameOf true Sample.p6 streamArgs4 0xfffffffe#32 streamData 0 4)).view = ([], [], 0, 0) := by decide +kernel

-- the port is given up after the first segment, and the host gets another: the other end takes nothing more
example : ((Through.start sampleParties passageTable).run true Sample.p6 sampleParties samplePassage
    [.send false streamArgs4 0 4, .pass false 5 0, .deliver true 0, .gateway (.forget 40000), .send false streamArgs4 4 6, .pass false 5 1,
      .deliver true 1, .send true passageArgsBack 0 3, .pass true 0 0, .deliver false 0]).toOption.map
    (fun s => (s.ends.view, s.table.length, (s.passed false).length, (s.passed true).length)) =
      some (([], streamData.take 4, 0, 0), 2, 2, 0) := by decide +kernel

end PacketRs
