import Verif.Props.Through
/-!
# Property C120: a connection across routers, over routes that change

C113's two sides, with C111's routers between them.  Every frame goes its own way; a way may lead through a router more than once.
-/
namespace PacketRs
open Spec Utils

/-! ## The clients -/

/-- A frame under way: which frame of its sender it was, and the routers it has passed. -/
structure Flight where
  frame : Bytes
  origin : Nat
  by_ : List Router

/-- Both sides as in C113, and the frames of each side that are or were under way. -/
structure Internet where
  ends : Transfer
  air : Bool → List Flight

/-- What can happen: a side sends as in C113; the `j`-th frame under way of side `b` gets to router `r` (perhaps again; a copy may go
elsewhere); the `j`-th frame under way of the other side comes to side `b` (perhaps again, late or never); a frame that belongs to
something else comes to side `b`. -/
inductive NetStep where
  | send (b : Bool) (a : TcpArgs) (i n : Nat)
  | hop (b : Bool) (j : Nat) (r : Router)
  | deliver (b : Bool) (j : Nat)
  | other (b : Bool) (f : Bytes)

/-- What is sent is under way. -/
def Internet.step (chk : Bool) (p6 : Ipv6FromStr) (P : Bool → Party) (c : Conn) (s : Internet) : NetStep → R Internet
  | .send b a i n => do
    let t ← s.ends.step chk p6 P c (.send b a i n)
    pure ⟨t, change s.air b (s.air b ++ ((t.sent b).drop (s.ends.sent b).length).map fun f => ⟨f, (s.ends.sent b).length, []⟩)⟩
  | .hop b j r =>
    match (s.air b)[j]? with
    | some x => do
      let f ← r.pass chk x.frame
      pure { s with air := change s.air b (s.air b ++ (f.map fun f => ⟨f, x.origin, x.by_ ++ [r]⟩).toList) }
    | none => pure s
  | .deliver b j =>
    match (s.air (!b))[j]? with
    | some x => pure { s with ends := s.ends.take P c b x.frame }
    | none => pure s
  | .other b f => pure { s with ends := s.ends.take P c b f }

/-- One event after the other. -/
def Internet.run (chk : Bool) (p6 : Ipv6FromStr) (P : Bool → Party) (c : Conn) : List NetStep → Internet → R Internet
  | [], s => pure s
  | e :: es, s => do
    let s' ← s.step chk p6 P c e
    Internet.run chk p6 P c es s'

/-- The connection is open; nothing has been sent. -/
def Internet.start (P : Bool → Party) : Internet := ⟨Transfer.start P, fun _ => []⟩

/-- Link addresses have six octets. -/
def Router.Ok (r : Router) : Prop := r.dst.length = 6 ∧ r.src.length = 6

/-- As in C113; any routers. -/
def NetStep.Valid (p6 : Ipv6FromStr) (P : Bool → Party) (c : Conn) : NetStep → Prop
  | .send b a i n => a.For p6 (sideConn c b) ∧ a.Fit n ∧ i ≤ (P b).D.length
  | .hop _ _ r => r.Ok
  | .deliver _ _ => True
  | .other b f => ∀ s, hostTcp f = some s → s.conn ≠ sideConn c (!b)

/-- The time to live or hop limit asked for. -/
def TcpArgs.hops (a : TcpArgs) : Nat :=
  match a.ip with
  | .inl o => o.ttl.toNat
  | .inr o => o.hl.toNat

/-! ## The segments -/

/-- What is in front of a segment made over IPv6. -/
theorem made6 {chk : Bool} {p6 : Ipv6FromStr} {a : TcpArgs} {c : Conn} {iss : U32} {D : Bytes} {i n : Nat} {o : Out6} (ha : a.For p6 c)
    (ho : a.ip = .inr o) {q : Packet} (hq : tcpSegment chk p6 a iss D i n = .ok q) :
    u16At q.to_vec (l3At q.to_vec - 2) = 0x86DD ∧ u8At q.to_vec (l3At q.to_vec + 7) = o.hl.toNat := by
  obtain ⟨⟨⟨m, hm⟩, k, hk⟩, -, -, -⟩ := ha
  unfold tcpSegment at hq
  rw [ho] at hq
  simp only at hq
  have e := C41_tcpv6 chk p6 _ _ a.ve a.vid a.pcp m k hm hk o.src o.dst (chunk D i n) o.tc o.flow o.hl a.tdst a.tsrc (iss + BitVec.ofNat 32 i)
    a.ack a.off a.res a.flags a.window a.urg
  rw [e] at hq
  generalize chunk D i n = pl at hq
  have hhl : ∀ L r, u8At ((Packet.ipv6 p6 o.tc o.flow 6#8 o.hl o.src o.dst L).data ++ r) 7 = o.hl.toNat := fun L r => by
    simp [Packet.ipv6, HeaderDef.ofVec, be16, be32, u8At]
  have hn : (Packet.ipv6 p6 o.tc o.flow 6#8 o.hl o.src o.dst (BitVec.ofNat 16 (pl.length + 20))).ty = IPv6 := rfl
  generalize hI : Packet.ipv6 p6 o.tc o.flow 6#8 o.hl o.src o.dst (BitVec.ofNat 16 (pl.length + 20)) = ip at hq hn
  have hm6 := C31_length _ _ hm
  have hk6 := C31_length _ _ hk
  let T : U16 → Bytes := fun x => (Packet.tcp a.tsrc a.tdst (iss + BitVec.ofNat 32 i) a.ack a.off a.res a.flags a.window x a.urg).data
  obtain ⟨x, hx⟩ : ∃ x : U16, finishSum TCP TCP.checksum (cover6 (ipAt a.ve)) ⟨l2Hdrs m k a.ve a.vid a.pcp 0x86DD#16 ++
      [ip, Packet.tcp a.tsrc a.tdst (iss + BitVec.ofNat 32 i) a.ack a.off a.res a.flags a.window 0 a.urg], pl⟩ = .ok
      ⟨l2Hdrs m k a.ve a.vid a.pcp 0x86DD#16 ++ ip :: [⟨TCP, T x⟩], pl⟩ := by
    have e := finishSum_eq TCP TCP.checksum 16 rfl rfl (by decide) (cover6 (ipAt a.ve)) (l2Hdrs m k a.ve a.vid a.pcp 0x86DD#16 ++ [ip]) []
      (T 0#16) pl (before_names m k a.ve a.vid a.pcp 0x86DD#16 _ _ (by decide) (by decide) (by rw [Hdr.name, hn]; show "IPv6" ≠ "TCP"; decide)) rfl T
      (fun x => by simp [T, Packet.tcp, HeaderDef.ofVec, putAt, be16, be32])
    simp only [List.append_assoc, List.cons_append, List.nil_append] at e
    exact ⟨_, e⟩
  generalize T x = z at hx
  simp only [bind, Except.bind] at hq
  rw [hx] at hq
  obtain rfl := Except.ok.inj hq
  have hl := linkInput_frame m k hm6 hk6 a.ve a.vid a.pcp 0x86DD#16 (by decide) ip [⟨TCP, z⟩] pl
  rw [linkInput_eq] at hl
  split at hl
  · cases hl
  obtain ⟨k1, k2⟩ := Prod.mk.injEq .. ▸ Option.some.inj hl
  refine ⟨k1, ?_⟩
  rw [← u8At_drop_add, k2, ← hI]
  exact hhl _ _

/-- The hops a segment has left are those asked for, and there are no options. -/
theorem made_hops {chk : Bool} {p6 : Ipv6FromStr} {a : TcpArgs} {c : Conn} {iss : U32} {D : Bytes} {i n : Nat} (ha : a.For p6 c) (hf : a.Fit n)
    {q : Packet} (hq : tcpSegment chk p6 a iss D i n = .ok q) :
    NoOptions q.to_vec ∧ hopsLeft q.to_vec = a.hops ∧ ((∃ o, a.ip = .inr o) → u16At q.to_vec (l3At q.to_vec - 2) = 0x86DD) := by
  cases ho : a.ip with
  | inl o =>
    obtain ⟨k1, k2, k3⟩ := made4 ha hf ho hq
    refine ⟨fun _ => k2, ?_, fun h => ?_⟩
    · rw [hopsLeft, k1, if_neg (by decide), k3, TcpArgs.hops, ho]
    · obtain ⟨_, h⟩ := h; cases h
  | inr o =>
    obtain ⟨k1, k2⟩ := made6 ha ho hq
    refine ⟨fun h => ?_, ?_, fun _ => k1⟩
    · rw [k1] at h; exact absurd h (by decide)
    · rw [hopsLeft, k1, if_pos rfl, k2, TcpArgs.hops, ho]

/-- A router can work on it. -/
def Routable (chk : Bool) (f : Bytes) : Prop :=
  ∃ g p, ipInput f = some g ∧ Slow.parse chk f = .ok p ∧ ∀ g ∈ p.hdrs, g.ty = GRE → greOptCount g.data ≤ 1

/-- A segment a host takes is parsed. -/
theorem tcp_routable (chk : Bool) {f : Bytes} {m : TcpSeg} (hm : hostTcp f = some m) (ho : NoOptions f) : Routable chk f := by
  obtain ⟨g, hi, hu⟩ := Option.bind_eq_some_iff.mp hm
  obtain ⟨hpr, hlong, -⟩ := tcpInput_fields hu
  have hl : (if g.v6 then ipv6Next g.proto else ipv4Next g.proto) = .tcp := by rw [hpr]; split <;> rfl
  obtain ⟨front, ip, o, y, hf, hip, hlen, hx, hs, hd, hparse⟩ := datagram_seen f g hi
  obtain rfl := hx.mpr ho
  have hpq := hparse chk
  rw [hl, List.nil_append, parse_one _ (by decide) rfl (show 20 ≤ _ by rw [List.length_append]; omega), map_prep] at hpq
  have hpq : ∃ p, Slow.parse chk f = .ok p := ⟨_, hpq⟩
  obtain ⟨p, hp⟩ := hpq
  exact ⟨g, p, hi, hp, no_gre (T := TCP) (l := .tcp) hi ho hp (by decide) hl (fun _ => rfl) hlong (by decide)⟩

theorem along_append (chk : Bool) (rs rs' : List Router) (f : Bytes) :
    along chk (rs ++ rs') f = (do match ← along chk rs f with | none => pure none | some f' => along chk rs' f') := by
  induction rs generalizing f with
  | nil => rfl
  | cons r rs ih =>
    simp only [List.cons_append, along]
    cases r.pass chk f with
    | error e => rfl
    | ok x =>
      cases x with
      | none => rfl
      | some f' => exact ih f'

theorem along_one (chk : Bool) (r : Router) (f : Bytes) : along chk [r] f = r.pass chk f := by
  simp only [along]
  cases r.pass chk f with
  | error e => rfl
  | ok x => cases x <;> rfl

/-- What comes out has been in no more routers than it had hops for. -/
theorem along_hops {chk : Bool} (rs : List Router) {f f' : Bytes} (hf : Routable chk f) (hr : ∀ r ∈ rs, r.Ok) (h : along chk rs f = .ok (some f')) :
    rs = [] ∨ rs.length < hopsLeft f := by
  induction rs generalizing f with
  | nil => exact .inl rfl
  | cons r rs ih =>
    obtain ⟨g, p, hi, hp, hg⟩ := hf
    obtain ⟨a1, a2⟩ := C111_router hi hp hg r (hr r (by simp))
    by_cases h1 : hopsLeft f ≤ 1
    · simp only [along, a1 h1, bind, Except.bind] at h
      cases h
    · obtain ⟨f1, e, o, -, hi'⟩ := a2 (by omega)
      simp only [along, e, bind, Except.bind] at h
      refine .inr ?_
      cases rs with
      | nil => simp only [List.length_cons, List.length_nil]; omega
      | cons z zs =>
        split at hi'
        · obtain ⟨p', hp', hg'⟩ := o.parsed hi hp hg
          have := (ih ⟨g, p', hi', hp', hg'⟩ (fun x hx => hr x (by simp [hx])) h).resolve_left (by simp)
          rw [o.hops] at this
          simp only [List.length_cons] at this ⊢
          omega
        · have hz : z.pass chk f1 = .ok none := by simp only [Router.pass, hi']; rfl
          simp only [along, hz, bind, Except.bind] at h
          cases h

/-- What a host reads of a frame that comes out: what it would have read at the sender, or nothing. -/
theorem along_host {chk : Bool} (rs : List Router) {f f' : Bytes} (hf : Routable chk f) (hr : ∀ r ∈ rs, r.Ok) (h : along chk rs f = .ok (some f')) :
    (Passes f (rs.map (·.own)) → hostTcp f' = hostTcp f) ∧ (¬ Passes f (rs.map (·.own)) → hostTcp f' = none) := by
  obtain ⟨g, p, hi, hp, hg⟩ := hf
  obtain ⟨x, e, h1, h2⟩ := C111_hosts hi hp hg rs hr
  obtain rfl := Except.ok.inj (e.symm.trans h)
  exact ⟨fun h => (h1 h).2.1, fun h => (h2 h).2.1⟩

/-! ## The invariant -/

/-- C113's invariant; what is under way is what the routers made of a frame that was sent. -/
structure Internet.Ok (chk : Bool) (P : Bool → Party) (c : Conn) (s : Internet) : Prop where
  ends : ∀ b, s.ends.Good P c b
  sent : ∀ b, ∀ f ∈ s.ends.sent b, Routable chk f
  air : ∀ b, ∀ x ∈ s.air b, ∃ f, (s.ends.sent b)[x.origin]? = some f ∧ along chk x.by_ f = .ok (some x.frame) ∧ ∀ r ∈ x.by_, r.Ok

/-- Nothing is taken back. -/
structure Internet.Later (s s' : Internet) : Prop where
  ends : s.ends.Later s'.ends
  nxt : ∀ b, s.ends.nxt b ≤ s'.ends.nxt b
  air : ∀ b, s.air b <+: s'.air b

theorem Internet.Later.refl (s : Internet) : s.Later s := ⟨.refl _, fun _ => Nat.le_refl _, fun _ => List.prefix_refl _⟩

theorem Internet.Later.trans {s s' s'' : Internet} (h : s.Later s') (h' : s'.Later s'') : s.Later s'' :=
  ⟨h.ends.trans h'.ends, fun b => Nat.le_trans (h.nxt b) (h'.nxt b), fun b => (h.air b).trans (h'.air b)⟩

theorem Internet.start_ok (chk : Bool) (P : Bool → Party) (c : Conn) : (Internet.start P).Ok chk P c :=
  ⟨Transfer.start_good P c, fun _ _ h => (nomatch h), fun _ _ h => (nomatch h)⟩

theorem prefix_some {α : Type} {l l' : List α} (h : l <+: l') {k : Nat} {x : α} (hx : l[k]? = some x) : l'[k]? = some x := by
  obtain ⟨y, rfl⟩ := h
  rw [List.getElem?_append_left (List.getElem?_eq_some_iff.mp hx).1, hx]

/-- A side sends. -/
theorem Internet.send_step (chk : Bool) (p6 : Ipv6FromStr) (P : Bool → Party) (c : Conn) (s : Internet) (hs : s.Ok chk P c)
    (b : Bool) (a : TcpArgs) (i n : Nat) (he : (NetStep.send b a i n).Valid p6 P c) :
    ∃ f s' m, s.step chk p6 P c (.send b a i n) = .ok s' ∧ s'.Ok chk P c ∧ s.Later s' ∧ s'.ends.sent b = s.ends.sent b ++ [f] ∧
      s'.air b = s.air b ++ [⟨f, (s.ends.sent b).length, []⟩] ∧ hopsLeft f = a.hops ∧
      ((∃ o, a.ip = .inr o) → u16At f (l3At f - 2) = 0x86DD) ∧ hostTcp f = some m ∧ m.conn = sideConn c b ∧
        m.seq = ((P b).iss.toNat + i) % 4294967296 ∧ m.data = chunk (P b).D i n ∧
        m.ack = ((P (!b)).iss.toNat + s.ends.have_ b) % 4294967296 ∧ min (i + n) (P b).D.length ≤ s'.ends.nxt b := by
  obtain ⟨f, t', e, k1, k2, k3, k4, m, m1, m2, m3, m4, m5, m6⟩ := s.ends.send_step chk p6 P c hs.ends b a i n he
  have hnx : ∀ b', s.ends.nxt b' ≤ t'.nxt b' := Transfer.step_nxt chk p6 P c s.ends t' _ e
  have hso : t'.sent (!b) = s.ends.sent (!b) ∧ NoOptions f ∧ hopsLeft f = a.hops ∧
      ((∃ o, a.ip = .inr o) → u16At f (l3At f - 2) = 0x86DD) := by
    simp only [Transfer.step] at e
    cases hq : tcpSegment chk p6 { a with ack := BitVec.ofNat 32 (s.ends.recv b).next } (P b).iss (P b).D i n with
    | error x => rw [hq] at e; cases e
    | ok q =>
      rw [hq] at e
      obtain rfl := Except.ok.inj e
      simp only [change_self, List.append_cancel_left_eq, List.cons.injEq, and_true] at k4
      subst k4
      exact ⟨change_not .., made_hops (a := { a with ack := BitVec.ofNat 32 (s.ends.recv b).next }) he.1 he.2.1 hq⟩
  obtain ⟨hso, ho, hh, h6⟩ := hso
  refine ⟨f, ⟨t', change s.air b (s.air b ++ [⟨f, (s.ends.sent b).length, []⟩])⟩, m, ?_, ⟨k1, ?_, ?_⟩, ⟨k2, hnx, ?_⟩, k4, change_self .., hh, h6,
    m1, m2, m3, m4, m5, m6⟩
  · simp only [Internet.step, e, bind, Except.bind, k4, List.drop_left]; rfl
  · intro b' f' hf'
    rcases bool_or_not b b' with rfl | rfl
    · rw [k4] at hf'
      rcases List.mem_append.mp hf' with h | h
      · exact hs.sent _ f' h
      · rw [List.mem_singleton.mp h]
        exact tcp_routable chk m1 ho
    · rw [hso] at hf'
      exact hs.sent _ f' hf'
  · intro b' x hx
    dsimp only at hx
    have old : x ∈ s.air b' → ∃ f, (t'.sent b')[x.origin]? = some f ∧ along chk x.by_ f = .ok (some x.frame) ∧ ∀ r ∈ x.by_, r.Ok := by
      intro h
      obtain ⟨f0, y1, y2⟩ := hs.air b' x h
      exact ⟨f0, prefix_some (k2.sent b') y1, y2⟩
    rcases bool_or_not b b' with rfl | rfl
    · rw [change_self] at hx
      rcases List.mem_append.mp hx with h | h
      · exact old h
      · rw [List.mem_singleton.mp h]
        exact ⟨f, by rw [k4]; simp, rfl, fun _ h => (nomatch h)⟩
    · rw [change_not] at hx
      exact old hx
  · intro b'
    rcases bool_or_not b b' with rfl | rfl
    · simp only [change_self]; exact List.prefix_append _ _
    · simp only [change_not]; exact List.prefix_refl _

/-- A frame gets to a router. -/
theorem Internet.hop_step (chk : Bool) (p6 : Ipv6FromStr) (P : Bool → Party) (c : Conn) (s : Internet) (hs : s.Ok chk P c)
    (b : Bool) (j : Nat) (r : Router) (hr : r.Ok) {x : Flight} (hj : (s.air b)[j]? = some x) :
    ∃ s' y, s.step chk p6 P c (.hop b j r) = .ok s' ∧ s'.Ok chk P c ∧ s.Later s' ∧ s'.ends = s.ends ∧
      s'.air b = s.air b ++ (y.map fun f => ⟨f, x.origin, x.by_ ++ [r]⟩).toList ∧
      ∀ f, (s.ends.sent b)[x.origin]? = some f → Passes f ((x.by_ ++ [r]).map (·.own)) → ∃ f', y = some f' := by
  obtain ⟨f, h1, h2, h3⟩ := hs.air b x (List.mem_of_getElem? hj)
  obtain ⟨g, p, hi, hp, hg⟩ := hs.sent b f (List.mem_of_getElem? h1)
  have hall : ∀ z ∈ x.by_ ++ [r], z.Ok := fun z hz => by
    rcases List.mem_append.mp hz with h | h
    · exact h3 z h
    · rw [List.mem_singleton.mp h]; exact hr
  obtain ⟨y, e, y1, -⟩ := C111_path hi hp hg (x.by_ ++ [r]) hall
  have e' : r.pass chk x.frame = .ok y := by
    rw [along_append, h2] at e
    simp only [bind, Except.bind] at e
    rwa [along_one] at e
  refine ⟨⟨s.ends, change s.air b (s.air b ++ (y.map fun f => ⟨f, x.origin, x.by_ ++ [r]⟩).toList)⟩, y, ?_, ⟨hs.ends, hs.sent, ?_⟩, ⟨.refl _, fun _ =>
    Nat.le_refl _, ?_⟩, rfl, change_self .., ?_⟩
  · simp only [Internet.step, hj, e', bind, Except.bind]; rfl
  · intro b' z hz
    dsimp only at hz
    rcases bool_or_not b b' with rfl | rfl
    · rw [change_self] at hz
      rcases List.mem_append.mp hz with h | h
      · exact hs.air _ z h
      · cases y with
        | none => cases h
        | some f' =>
          obtain rfl := List.mem_singleton.mp h
          exact ⟨f, h1, e, hall⟩
    · rw [change_not] at hz
      exact hs.air _ z hz
  · intro b'
    rcases bool_or_not b b' with rfl | rfl
    · simp only [change_self]; exact List.prefix_append _ _
    · simp only [change_not]; exact List.prefix_refl _
  · intro f1 hf1 hps
    obtain rfl := Option.some.inj (h1.symm.trans hf1)
    obtain ⟨f', q, -⟩ := y1 hps
    exact ⟨f', q⟩

/-- A frame that came through comes to the other side. -/
theorem Internet.deliver_step (chk : Bool) (p6 : Ipv6FromStr) (P : Bool → Party) (c : Conn) (hP : ∀ b, (P b).D.length < 4294967296)
    (s : Internet) (hs : s.Ok chk P c) (b : Bool) (j : Nat) {x : Flight} (hj : (s.air (!b))[j]? = some x) :
    ∃ s', s.step chk p6 P c (.deliver b j) = .ok s' ∧ s'.Ok chk P c ∧ s.Later s' ∧
      ∀ m i n r, hostTcp x.frame = some m → m.conn = sideConn c (!b) → m.seq = ((P (!b)).iss.toNat + i) % 4294967296 →
        m.data = chunk (P (!b)).D i n → i ≤ (P (!b)).D.length → min (i + n) (P (!b)).D.length ≤ s.ends.nxt (!b) → r ≤ s.ends.have_ (!b) →
        m.ack = ((P b).iss.toNat + r) % 4294967296 →
        r ≤ s'.ends.una b ∧ (i ≤ s.ends.have_ b → min (i + n) (P (!b)).D.length ≤ s'.ends.have_ b) := by
  obtain ⟨f, h1, h2, h3⟩ := hs.air (!b) x (List.mem_of_getElem? hj)
  have hf := hs.sent _ f (List.mem_of_getElem? h1)
  have hst : s.step chk p6 P c (.deliver b j) = .ok { s with ends := s.ends.take P c b x.frame } := by simp only [Internet.step, hj]; rfl
  have hsame : hostTcp x.frame = none ∨ hostTcp x.frame = hostTcp f := by
    by_cases h : Passes f (x.by_.map (·.own))
    · exact .inr ((along_host _ hf h3 h2).1 h)
    · exact .inl ((along_host _ hf h3 h2).2 h)
  cases hx : hostTcp x.frame with
  | none =>
    have e : s.ends.take P c b x.frame = s.ends := s.ends.take_other P c b _ (fun m hm => by rw [hx] at hm; cases hm)
    rw [e] at hst
    exact ⟨s, hst, hs, .refl s, fun m i n r hm => (nomatch hm)⟩
  | some m =>
    rw [hx] at hsame
    have hfo := (hs.ends (!b)).frames f (List.mem_of_getElem? h1)
    unfold Transfer.FrameOk at hfo
    rw [← hsame.resolve_left (by simp), ← hx] at hfo
    obtain ⟨l1, l2⟩ := s.ends.take_later P c hP hs.ends b (f := x.frame) hfo
    refine ⟨_, hst, ⟨l1, ?_, ?_⟩, ⟨l2, fun b' => by dsimp only; rw [Transfer.take_nxt], fun _ => List.prefix_refl _⟩, ?_⟩
    · intro b' f' hf'
      dsimp only at hf'
      rw [Transfer.take_sent] at hf'
      exact hs.sent b' f' hf'
    · intro b' z hz
      dsimp only
      rw [Transfer.take_sent]
      exact hs.air b' z hz
    · intro m1 i n r hm hc hq hd hi hn hr ha
      obtain rfl := Option.some.inj hm
      obtain ⟨-, -, -, k4, -, k6⟩ := s.ends.take_ok P c hP hs.ends b hx hc hq hd hi hn hr ha
      refine ⟨?_, fun h => ?_⟩
      · dsimp only
        rw [k4, change_self]
        exact Nat.le_max_right _ _
      · dsimp only
        rw [k6]
        split <;> omega

theorem Internet.step_ok (chk : Bool) (p6 : Ipv6FromStr) (P : Bool → Party) (c : Conn) (hP : ∀ b, (P b).D.length < 4294967296) (s : Internet)
    (hs : s.Ok chk P c) (e : NetStep) (he : e.Valid p6 P c) : ∃ s', s.step chk p6 P c e = .ok s' ∧ s'.Ok chk P c ∧ s.Later s' := by
  cases e with
  | send b a i n =>
    obtain ⟨f, s', m, e, h1, h2, -⟩ := s.send_step chk p6 P c hs b a i n he
    exact ⟨s', e, h1, h2⟩
  | hop b j r =>
    cases hj : (s.air b)[j]? with
    | none => exact ⟨s, by simp only [Internet.step, hj]; rfl, hs, .refl s⟩
    | some x =>
      obtain ⟨s', y, e, h1, h2, -⟩ := s.hop_step chk p6 P c hs b j r he hj
      exact ⟨s', e, h1, h2⟩
  | deliver b j =>
    cases hj : (s.air (!b))[j]? with
    | none => exact ⟨s, by simp only [Internet.step, hj]; rfl, hs, .refl s⟩
    | some x =>
      obtain ⟨s', e, h1, h2, -⟩ := s.deliver_step chk p6 P c hP hs b j hj
      exact ⟨s', e, h1, h2⟩
  | other b f => exact ⟨s, by simp only [Internet.step, s.ends.take_other P c b f he]; rfl, hs, .refl s⟩

theorem Internet.run_ok (chk : Bool) (p6 : Ipv6FromStr) (P : Bool → Party) (c : Conn) (hP : ∀ b, (P b).D.length < 4294967296)
    (es : List NetStep) (s : Internet) (hs : s.Ok chk P c) (he : ∀ e ∈ es, e.Valid p6 P c) :
    ∃ s', s.run chk p6 P c es = .ok s' ∧ s'.Ok chk P c ∧ s.Later s' := by
  induction es generalizing s with
  | nil => exact ⟨s, rfl, hs, .refl s⟩
  | cons e es ih =>
    obtain ⟨s1, e1, h1, l1⟩ := s.step_ok chk p6 P c hP hs e (he e (List.mem_cons_self ..))
    obtain ⟨s2, e2, h2, l2⟩ := ih s1 h1 (fun x hx => he x (List.mem_cons_of_mem _ hx))
    exact ⟨s2, by simp only [Internet.run, e1, bind, Except.bind]; exact e2, h2, l1.trans l2⟩

theorem Internet.run_append (chk : Bool) (p6 : Ipv6FromStr) (P : Bool → Party) (c : Conn) (es es' : List NetStep) (s : Internet) :
    s.run chk p6 P c (es ++ es') = s.run chk p6 P c es >>= Internet.run chk p6 P c es' := by
  induction es generalizing s with
  | nil => rfl
  | cons e es ih =>
    rw [List.cons_append]
    unfold Internet.run
    cases s.step chk p6 P c e with
    | error x => rfl
    | ok s' => exact ih s'

/-- One segment makes its way. -/
theorem Internet.trip (chk : Bool) (p6 : Ipv6FromStr) (P : Bool → Party) (c : Conn) (hP : ∀ b, (P b).D.length < 4294967296) (s : Internet)
    (hs : s.Ok chk P c) (b : Bool) (a : TcpArgs) (i n : Nat) (es1 es2 : List NetStep) (he : ∀ e ∈ .send b a i n :: (es1 ++ es2), e.Valid p6 P c)
    {s1 : Internet} (h1 : s.run chk p6 P c (.send b a i n :: es1) = .ok s1) {j : Nat} {x : Flight} (hj : (s1.air b)[j]? = some x)
    (ho : x.origin = (s.ends.sent b).length) (hx : (hostTcp x.frame).isSome) :
    ∃ s2, s1.run chk p6 P c (.deliver (!b) j :: es2) = .ok s2 ∧ s2.Ok chk P c ∧ s.Later s2 ∧ s.ends.have_ b ≤ s2.ends.una (!b) ∧
      (i ≤ s.ends.have_ (!b) → min (i + n) (P b).D.length ≤ s2.ends.have_ (!b)) := by
  have v := he _ (List.mem_cons_self ..)
  obtain ⟨f, u1, m, e1, o1, l1, hf, -, -, -, x1, x2, x3, x4, x5, x6⟩ := s.send_step chk p6 P c hs b a i n v
  obtain ⟨s1', r1, o1', l1'⟩ := u1.run_ok chk p6 P c hP es1 o1 (fun e h => he e (by simp [h]))
  have : s.run chk p6 P c (.send b a i n :: es1) = .ok s1' := by simp only [Internet.run, e1, bind, Except.bind]; exact r1
  obtain rfl := Except.ok.inj (h1.symm.trans this)
  have k1 : (s1.ends.sent b)[x.origin]? = some f := by rw [ho]; exact prefix_getElem? (hf ▸ l1'.ends.sent b) rfl
  obtain ⟨f1, y1, y2, y3⟩ := o1'.air b x (List.mem_of_getElem? hj)
  obtain rfl := Option.some.inj (k1.symm.trans y1)
  have hh := along_host _ (o1'.sent b f (List.mem_of_getElem? k1)) y3 y2
  have hm : hostTcp x.frame = some m := by
    by_cases h : Passes f (x.by_.map (·.own))
    · rw [hh.1 h, x1]
    · rw [hh.2 h] at hx; cases hx
  obtain ⟨u2, e2, o2, l2, w⟩ := s1.deliver_step chk p6 P c hP o1' (!b) j (x := x) (by rw [Bool.not_not]; exact hj)
  have lh : ∀ b', s.ends.have_ b' ≤ s1.ends.have_ b' := fun b' => Nat.le_trans (l1.ends.have_ b') (l1'.ends.have_ b')
  obtain ⟨z1, z2⟩ := w m i n (s.ends.have_ b) hm (by rw [Bool.not_not]; exact x2) (by rw [Bool.not_not]; exact x3)
    (by rw [Bool.not_not]; exact x4) (by rw [Bool.not_not]; exact v.2.2) (by rw [Bool.not_not]; exact Nat.le_trans x6 (l1'.nxt b))
    (by rw [Bool.not_not]; exact lh b) x5
  rw [Bool.not_not] at z2
  obtain ⟨s2, r2, o2', l2'⟩ := u2.run_ok chk p6 P c hP es2 o2 (fun e h => he e (by simp [h]))
  refine ⟨s2, ?_, o2', l1.trans (l1'.trans (l2.trans l2')), Nat.le_trans z1 (l2'.ends.una _), fun h =>
    Nat.le_trans (z2 (Nat.le_trans h (lh _))) (l2'.ends.have_ _)⟩
  simp only [Internet.run, e2, bind, Except.bind]; exact r2

/-- A frame goes along routers that do not break it. -/
theorem Internet.route (chk : Bool) (p6 : Ipv6FromStr) (P : Bool → Party) (c : Conn) (b : Bool) (f : Bytes) (rs : List Router) :
    ∀ (s : Internet) (j : Nat) (x : Flight), s.Ok chk P c → (s.air b)[j]? = some x → (s.ends.sent b)[x.origin]? = some f → (∀ r ∈ rs, r.Ok) →
      (u16At f (l3At f - 2) = 0x86DD ∨ ∀ r ∈ x.by_ ++ rs, r.own = false) → (rs = [] ∨ x.by_.length + rs.length < hopsLeft f) →
      ∃ (es : List NetStep) (s' : Internet) (j' : Nat) (x' : Flight), (∀ e ∈ es, e.Valid p6 P c) ∧ s.run chk p6 P c es = .ok s' ∧ s'.Ok chk P c ∧ s.Later s' ∧
        (s'.air b)[j']? = some x' ∧
        x'.origin = x.origin ∧ x'.by_ = x.by_ ++ rs := by
  induction rs with
  | nil =>
    intro s j x hs hj _ _ _ _
    exact ⟨[], s, j, x, by simp, rfl, hs, .refl s, hj, rfl, (List.append_nil _).symm⟩
  | cons r rs ih =>
    intro s j x hs hj hf hr hw hl
    have hl := hl.resolve_left (by simp)
    simp only [List.length_cons] at hl
    obtain ⟨s1, y, e1, o1, l1, q1, a1, w1⟩ := s.hop_step chk p6 P c hs b j r (hr r (by simp)) hj
    have hw1 : u16At f (l3At f - 2) = 0x86DD ∨ ∀ o ∈ (x.by_ ++ [r]).map (·.own), o = false := by
      refine hw.imp_right fun h o ho => ?_
      obtain ⟨z, hz, rfl⟩ := List.mem_map.mp ho
      refine h z ?_
      simp only [List.mem_append, List.mem_cons, List.not_mem_nil, or_false] at hz ⊢
      tauto
    have hps := (C111_hops f _ hw1).mpr (.inr (by simp only [List.length_map, List.length_append, List.length_cons, List.length_nil]; omega))
    obtain ⟨f', rfl⟩ := w1 f hf hps
    have k1 : (s1.air b)[(s.air b).length]? = some ⟨f', x.origin, x.by_ ++ [r]⟩ := by rw [a1]; simp
    obtain ⟨es, s', j', x', v, r', o', l', hj', ho', hb'⟩ := ih s1 _ _ o1 k1 (by rw [q1]; exact hf) (fun z hz => hr z (by simp [hz]))
      (hw.imp_right fun h z hz => h z (by simpa [or_assoc] using hz))
      (.inr (by simp only [List.length_append, List.length_cons, List.length_nil]; omega))
    refine ⟨.hop b j r :: es, s', j', x', ?_, ?_, o', l1.trans l', hj', ho', by rw [hb']; simp⟩
    · intro e he
      rcases List.mem_cons.mp he with rfl | he
      · exact hr r (by simp)
      · exact v e he
    · simp only [Internet.run, e1, bind, Except.bind]; exact r'

/-- A segment is sent, goes along a route and comes. -/
theorem Internet.route_trip (chk : Bool) (p6 : Ipv6FromStr) (P : Bool → Party) (c : Conn) (hP : ∀ b, (P b).D.length < 4294967296) (s : Internet)
    (hs : s.Ok chk P c) (b : Bool) (a : TcpArgs) (i n : Nat) (rs : List Router) (he : (NetStep.send b a i n).Valid p6 P c) (hr : ∀ r ∈ rs, r.Ok)
    (hw : (∃ o, a.ip = .inr o) ∨ ∀ r ∈ rs, r.own = false) (hl : rs = [] ∨ rs.length < a.hops) :
    ∃ es s', (∀ e ∈ es, e.Valid p6 P c) ∧ s.run chk p6 P c es = .ok s' ∧ s'.Ok chk P c ∧ s.Later s' ∧ s.ends.have_ b ≤ s'.ends.una (!b) ∧
      (i ≤ s.ends.have_ (!b) → min (i + n) (P b).D.length ≤ s'.ends.have_ (!b)) := by
  obtain ⟨f, u, m, e1, o1, l1, hf, ha, hh, h6, x1, -⟩ := s.send_step chk p6 P c hs b a i n he
  have hw' : u16At f (l3At f - 2) = 0x86DD ∨ ∀ r ∈ rs, r.own = false := hw.imp_left h6
  rw [← hh] at hl
  obtain ⟨es, s1, j, x, v, r1, o1', l1', hj, ho, hb⟩ := Internet.route chk p6 P c b f rs u (s.air b).length ⟨f, (s.ends.sent b).length, []⟩ o1
    (by rw [ha]; simp) (by rw [hf]; simp) hr hw' (hl.imp_right fun h => by simpa using h)
  rw [List.nil_append] at hb
  obtain ⟨f1, y1, y2, y3⟩ := o1'.air b x (List.mem_of_getElem? hj)
  have : (s1.ends.sent b)[x.origin]? = some f := by rw [ho]; exact prefix_getElem? (hf ▸ l1'.ends.sent b) rfl
  obtain rfl := Option.some.inj (this.symm.trans y1)
  have hps : Passes f (x.by_.map (·.own)) := by
    rw [hb, C111_hops]
    · refine hl.imp (fun h => by rw [h]; rfl) fun h => by rwa [List.length_map]
    · refine hw'.imp_right fun h o ho => ?_
      obtain ⟨z, hz, rfl⟩ := List.mem_map.mp ho
      exact h z hz
  have hx := (along_host _ (o1'.sent b f (List.mem_of_getElem? y1)) y3 y2).1 hps
  have r1' : s.run chk p6 P c (.send b a i n :: es) = .ok s1 := by simp only [Internet.run, e1, bind, Except.bind]; exact r1
  obtain ⟨s2, r2, o2, l2, z⟩ := s.trip chk p6 P c hP hs b a i n es [] (by
      intro e h
      rcases List.mem_cons.mp h with rfl | h
      · exact he
      · exact v e (by simpa using h)) r1' hj ho (by rw [hx, x1]; rfl)
  refine ⟨(.send b a i n :: es) ++ [.deliver (!b) j], s2, ?_, ?_, o2, l2, z⟩
  · intro e h
    simp only [List.mem_append, List.mem_cons, List.not_mem_nil, or_false] at h
    rcases h with (rfl | h) | rfl
    · exact he
    · exact v e h
    · trivial
  · rw [Internet.run_append, r1']
    exact r2

/-! ## The theorems -/

/-- What the invariant says to the outside. -/
theorem Internet.Ok.says {chk : Bool} {P : Bool → Party} {c : Conn} {s : Internet} (h : s.Ok chk P c) (b : Bool) :
    (s.ends.recv (!b)).got <+: (P b).D ∧ s.ends.una b ≤ (s.ends.recv (!b)).got.length ∧ (P b).D.take (s.ends.una b) <+: (s.ends.recv (!b)).got ∧
      (s.ends.una b = (P b).D.length → (s.ends.recv (!b)).got = (P b).D) ∧ (s.ends.recv (!b)).got = (P b).D.take (s.ends.have_ (!b)) := by
  have k := h.ends b
  have hl : s.ends.have_ (!b) ≤ (P b).D.length := Nat.le_trans k.sent k.nxt
  have hu : s.ends.una b ≤ s.ends.have_ (!b) := k.una
  have hgot : (s.ends.recv (!b)).got = (P b).D.take (s.ends.have_ (!b)) := congrArg Recv.got k.is
  refine ⟨hgot ▸ List.take_prefix _ _, hu, ?_, fun h => ?_, hgot⟩
  · rw [hgot]; exact List.take_prefix_take_left hu
  · rw [hgot, List.take_of_length_le]
    omega

/-- **C120**: two hosts exchange streams as in C113.  Every frame goes from router to router as it pleases: different frames over different
routers, copies of one frame over different routers, in circles, through routers that compute the checksum with the crate and break a
header; frames are lost, repeated, delayed and reordered everywhere.  For streams below 2^32 octets nobody panics, no router either; what a
program has read is a beginning of what the other side sends; what a side takes for acknowledged the other side's program has read. -/
theorem C120_safe (chk : Bool) (p6 : Ipv6FromStr) (P : Bool → Party) (c : Conn) (hP : ∀ b, (P b).D.length < 4294967296)
    (es : List NetStep) (he : ∀ e ∈ es, e.Valid p6 P c) :
    ∃ s, (Internet.start P).run chk p6 P c es = .ok s ∧ ∀ b,
      (s.ends.recv (!b)).got <+: (P b).D ∧ s.ends.una b ≤ (s.ends.recv (!b)).got.length ∧
      (P b).D.take (s.ends.una b) <+: (s.ends.recv (!b)).got ∧ (s.ends.una b = (P b).D.length → (s.ends.recv (!b)).got = (P b).D) := by
  obtain ⟨s, e, h, -⟩ := (Internet.start P).run_ok chk p6 P c hP es (Internet.start_ok chk P c) he
  exact ⟨s, e, fun b => ⟨(h.says b).1, (h.says b).2.1, (h.says b).2.2.1, (h.says b).2.2.2.1⟩⟩

/-- **C120** (nothing is taken back). -/
theorem C120_grows (chk : Bool) (p6 : Ipv6FromStr) (P : Bool → Party) (c : Conn) (hP : ∀ b, (P b).D.length < 4294967296)
    (es es' : List NetStep) (he : ∀ e ∈ es ++ es', e.Valid p6 P c) :
    ∃ s s', (Internet.start P).run chk p6 P c es = .ok s ∧ (Internet.start P).run chk p6 P c (es ++ es') = .ok s' ∧ ∀ b,
      (s.ends.recv b).got <+: (s'.ends.recv b).got ∧ s.ends.una b ≤ s'.ends.una b := by
  obtain ⟨s, e, h, -⟩ := (Internet.start P).run_ok chk p6 P c hP es (Internet.start_ok chk P c) (fun x h => he x (by simp [h]))
  obtain ⟨s', e', h', l⟩ := s.run_ok chk p6 P c hP es' h (fun x h => he x (by simp [h]))
  refine ⟨s, s', e, by rw [Internet.run_append, e]; exact e', fun b => ⟨?_, l.ends.una b⟩⟩
  have h1 := (h.says (!b)).2.2.2.2
  have h2 := (h'.says (!b)).2.2.2.2
  rw [Bool.not_not] at h1 h2
  rw [h1, h2]
  exact List.take_prefix_take_left (l.ends.have_ b)

/-- **C120** (every frame under way): at any time, a frame under way is what the routers it passed made of the frame its sender sent; these
routers, counted as often as it passed them, are fewer than the hops it was sent with (so that no frame goes in a circle for ever); and a
host reads from it the segment that was sent, or, if a router on the way folded the checksum wrong, nothing. -/
theorem C120_route (chk : Bool) (p6 : Ipv6FromStr) (P : Bool → Party) (c : Conn) (hP : ∀ b, (P b).D.length < 4294967296)
    (es : List NetStep) (he : ∀ e ∈ es, e.Valid p6 P c) {s : Internet} (hs : (Internet.start P).run chk p6 P c es = .ok s) (b : Bool) :
    ∀ x ∈ s.air b, ∃ f, (s.ends.sent b)[x.origin]? = some f ∧ along chk x.by_ f = .ok (some x.frame) ∧
      (x.by_ = [] ∨ x.by_.length < hopsLeft f) ∧ x.by_.length < 255 ∧ (hostTcp f).isSome ∧
      (Passes f (x.by_.map (·.own)) → hostTcp x.frame = hostTcp f) ∧ (¬ Passes f (x.by_.map (·.own)) → hostTcp x.frame = none) := by
  obtain ⟨s', e, h, -⟩ := (Internet.start P).run_ok chk p6 P c hP es (Internet.start_ok chk P c) he
  obtain rfl := Except.ok.inj (hs.symm.trans e)
  intro x hx
  obtain ⟨f, y1, y2, y3⟩ := h.air b x hx
  have hf := h.sent b f (List.mem_of_getElem? y1)
  have hl := along_hops _ hf y3 y2
  obtain ⟨m, i, n, r, hm, -⟩ := (h.ends b).frames f (List.mem_of_getElem? y1)
  refine ⟨f, y1, y2, hl, ?_, by rw [hm]; rfl, along_host _ hf y3 y2⟩
  have h256 : hopsLeft f < 256 := by unfold hopsLeft; exact u8At_lt _ _
  rcases hl with h | h
  · rw [h]; decide
  · omega

/-- **C120** (progress): at any time side `b` sends `n` octets from its first unacknowledged one (or before it) on; after anything else a
right copy of the segment, over whatever routers, comes to the other side; after anything else that side sends a segment, any one; after
anything else a right copy of this comes to side `b`.  Then the `n` octets are acknowledged, or all there are. -/
theorem C120_progress (chk : Bool) (p6 : Ipv6FromStr) (P : Bool → Party) (c : Conn) (hP : ∀ b, (P b).D.length < 4294967296)
    (es0 : List NetStep) (he0 : ∀ e ∈ es0, e.Valid p6 P c) {s s1 : Internet} (hs : (Internet.start P).run chk p6 P c es0 = .ok s)
    (b : Bool) (a a' : TcpArgs) (i n i' n' : Nat) (hi : i ≤ s.ends.una b) (es1 es2 es3 : List NetStep)
    (he : ∀ e ∈ .send b a i n :: .send (!b) a' i' n' :: (es1 ++ es2 ++ es3), e.Valid p6 P c)
    (h1 : s.run chk p6 P c (.send b a i n :: es1) = .ok s1) {j : Nat} {x : Flight} (hj : (s1.air b)[j]? = some x)
    (ho : x.origin = (s.ends.sent b).length) (hx : (hostTcp x.frame).isSome) :
    ∃ s2 s3, s1.run chk p6 P c (.deliver (!b) j :: es2) = .ok s2 ∧ s2.run chk p6 P c (.send (!b) a' i' n' :: es3) = .ok s3 ∧
      ∀ j' x', (s3.air (!b))[j']? = some x' → x'.origin = (s2.ends.sent (!b)).length → (hostTcp x'.frame).isSome →
        ∃ s4, s3.run chk p6 P c [.deliver b j'] = .ok s4 ∧ min (i + n) (P b).D.length ≤ s4.ends.una b := by
  obtain ⟨u, e, h, -⟩ := (Internet.start P).run_ok chk p6 P c hP es0 (Internet.start_ok chk P c) he0
  obtain rfl := Except.ok.inj (hs.symm.trans e)
  obtain ⟨s2, r2, o2, l2, -, z2⟩ := s.trip chk p6 P c hP h b a i n es1 es2 (by
    intro e h
    refine he e ?_
    simp only [List.mem_cons, List.mem_append] at h ⊢
    tauto) h1 hj ho hx
  have v3 : ∀ e ∈ NetStep.send (!b) a' i' n' :: es3, e.Valid p6 P c := by
    intro e h
    refine he e ?_
    simp only [List.mem_cons, List.mem_append] at h ⊢
    tauto
  obtain ⟨s3, r3, -, -⟩ := s2.run_ok chk p6 P c hP _ o2 v3
  refine ⟨s2, s3, r2, r3, fun j' x' hj' ho' hx' => ?_⟩
  obtain ⟨s4, r4, -, -, z4, -⟩ := s2.trip chk p6 P c hP o2 (!b) a' i' n' es3 [] (by rwa [List.append_nil]) r3 hj' ho' hx'
  rw [Bool.not_not] at r4 z4
  have hu : s.ends.una b ≤ s.ends.have_ (!b) := (h.ends b).una
  exact ⟨s4, r4, Nat.le_trans (z2 (Nat.le_trans hi hu)) z4⟩

/-- One side gets everything acknowledged. -/
theorem Internet.completes_from (chk : Bool) (p6 : Ipv6FromStr) (P : Bool → Party) (c : Conn) (hP : ∀ b, (P b).D.length < 4294967296)
    (a : Bool → TcpArgs) (ha : ∀ b, (a b).For p6 (sideConn c b)) (hf : ∀ b, (a b).Fit 1) (rs : Bool → List Router) (hr : ∀ b, ∀ r ∈ rs b, r.Ok)
    (hw : ∀ b, (∃ o, (a b).ip = .inr o) ∨ ∀ r ∈ rs b, r.own = false) (hl : ∀ b, rs b = [] ∨ (rs b).length < (a b).hops) (b : Bool) (k : Nat) :
    ∀ s : Internet, s.Ok chk P c → (P b).D.length - s.ends.una b ≤ k →
      ∃ es s', (∀ e ∈ es, e.Valid p6 P c) ∧ s.run chk p6 P c es = .ok s' ∧ s'.Ok chk P c ∧ s.Later s' ∧ (P b).D.length ≤ s'.ends.una b := by
  induction k with
  | zero => intro s hs hk; exact ⟨[], s, by simp, rfl, hs, .refl s, by omega⟩
  | succ k ih =>
    intro s hs hk
    have hu : s.ends.una b ≤ (P b).D.length := by
      have := hs.ends b
      exact Nat.le_trans this.una (Nat.le_trans this.sent this.nxt)
    obtain ⟨es1, s1, w1, r1, o1, l1, -, z1⟩ := s.route_trip chk p6 P c hP hs b (a b) (s.ends.una b) 1 (rs b) ⟨ha b, hf b, hu⟩ (hr b) (hw b) (hl b)
    obtain ⟨es2, s2, w2, r2, o2, l2, z2, -⟩ := s1.route_trip chk p6 P c hP o1 (!b) (a (!b)) 0 0 (rs (!b))
      ⟨ha _, (hf _).mono (by omega), Nat.zero_le _⟩ (hr _) (hw _) (hl _)
    rw [Bool.not_not] at z2
    have z1 := z1 (hs.ends b).una
    obtain ⟨es, s', w, r, o', l', hu'⟩ := ih s2 o2 (by omega)
    refine ⟨es1 ++ (es2 ++ es), s', ?_, ?_, o', l1.trans (l2.trans l'), hu'⟩
    · intro e he
      simp only [List.mem_append] at he
      rcases he with he | he | he
      · exact w1 e he
      · exact w2 e he
      · exact w e he
    · rw [Internet.run_append, r1]
      show Internet.run chk p6 P c _ s1 = _
      rw [Internet.run_append, r2]
      exact r

/-- **C120** (it can always be finished): whatever has happened, if each side has arguments with which one octet fits, and a route of
fewer routers than the hops it asks for (that update the checksum of an IPv4 header, or over IPv6), there is a continuation over these
routes after which everything is read and acknowledged on both sides. -/
theorem C120_completes (chk : Bool) (p6 : Ipv6FromStr) (P : Bool → Party) (c : Conn) (hP : ∀ b, (P b).D.length < 4294967296)
    (a : Bool → TcpArgs) (ha : ∀ b, (a b).For p6 (sideConn c b)) (hf : ∀ b, (a b).Fit 1) (rs : Bool → List Router) (hr : ∀ b, ∀ r ∈ rs b, r.Ok)
    (hw : ∀ b, (∃ o, (a b).ip = .inr o) ∨ ∀ r ∈ rs b, r.own = false) (hl : ∀ b, rs b = [] ∨ (rs b).length < (a b).hops)
    (es : List NetStep) (he : ∀ e ∈ es, e.Valid p6 P c) :
    ∃ es' s, (∀ e ∈ es', e.Valid p6 P c) ∧ (Internet.start P).run chk p6 P c (es ++ es') = .ok s ∧
      ∀ b, s.ends.una b = (P b).D.length ∧ (s.ends.recv (!b)).got = (P b).D := by
  obtain ⟨s, e, h, -⟩ := (Internet.start P).run_ok chk p6 P c hP es (Internet.start_ok chk P c) he
  obtain ⟨es1, s1, w1, r1, o1, l1, u1⟩ := Internet.completes_from chk p6 P c hP a ha hf rs hr hw hl false _ s h (Nat.le_refl _)
  obtain ⟨es2, s2, w2, r2, o2, l2, u2⟩ := Internet.completes_from chk p6 P c hP a ha hf rs hr hw hl true _ s1 o1 (Nat.le_refl _)
  refine ⟨es1 ++ es2, s2, ?_, ?_, fun b => ?_⟩
  · intro x hx
    rcases List.mem_append.mp hx with h | h
    · exact w1 x h
    · exact w2 x h
  · rw [Internet.run_append, e]
    show Internet.run chk p6 P c _ s = _
    rw [Internet.run_append, r1]
    exact r2
  · have hu : (P b).D.length ≤ s2.ends.una b := by
      cases b with
      | false => exact Nat.le_trans u1 (l2.ends.una false)
      | true => exact u2
    have k := o2.ends b
    have h1 : s2.ends.una b ≤ s2.ends.have_ (!b) := k.una
    have h2 : s2.ends.have_ (!b) ≤ s2.ends.nxt b := k.sent
    have h3 : s2.ends.nxt b ≤ (P b).D.length := k.nxt
    have : s2.ends.una b = (P b).D.length := by omega
    exact ⟨this, (o2.says b).2.2.2.1 this⟩

/-! ## Routers that sum up with the crate -/

theorem Internet.step_made (chk : Bool) (p6 : Ipv6FromStr) (P : Bool → Party) (c : Conn) (b : Bool) (Q : Bytes → Prop) {s s' : Internet} (e : NetStep)
    (hQ : ∀ a i n, .send b a i n = e → ∀ k q, tcpSegment chk p6 { a with ack := k } (P b).iss (P b).D i n = .ok q → Q q.to_vec)
    (hs : ∀ f ∈ s.ends.sent b, Q f) (h : s.step chk p6 P c e = .ok s') : ∀ f ∈ s'.ends.sent b, Q f := by
  cases e with
  | send b' a i n =>
    simp only [Internet.step, Transfer.step] at h
    cases hq : tcpSegment chk p6 { a with ack := BitVec.ofNat 32 (s.ends.recv b').next } (P b').iss (P b').D i n with
    | error x => rw [hq] at h; cases h
    | ok q =>
      rw [hq] at h
      obtain rfl := Except.ok.inj h
      intro f hf
      dsimp only at hf
      rcases bool_or_not b' b with rfl | rfl
      · rw [change_self] at hf
        rcases List.mem_append.mp hf with hf | hf
        · exact hs f hf
        · rw [List.mem_singleton.mp hf]
          exact hQ a i n rfl _ q hq
      · rw [change_not] at hf
        exact hs f hf
  | hop b' j r =>
    cases hj : (s.air b')[j]? with
    | none =>
      simp only [Internet.step, hj] at h
      obtain rfl := Except.ok.inj h
      exact hs
    | some x =>
      simp only [Internet.step, hj] at h
      cases hp : r.pass chk x.frame with
      | error z => rw [hp] at h; cases h
      | ok y =>
        rw [hp] at h
        obtain rfl := Except.ok.inj h
        exact hs
  | deliver b' j =>
    cases hj : (s.air (!b'))[j]? with
    | none =>
      simp only [Internet.step, hj] at h
      obtain rfl := Except.ok.inj h
      exact hs
    | some x =>
      simp only [Internet.step, hj] at h
      obtain rfl := Except.ok.inj h
      dsimp only
      rw [Transfer.take_sent]
      exact hs
  | other b' f =>
    obtain rfl := Except.ok.inj h
    dsimp only
    rw [Transfer.take_sent]
    exact hs

/-- What is true of everything a side makes is true of everything it has sent. -/
theorem Internet.run_made (chk : Bool) (p6 : Ipv6FromStr) (P : Bool → Party) (c : Conn) (b : Bool) (Q : Bytes → Prop) (es : List NetStep)
    {s s' : Internet} (hQ : ∀ a i n, .send b a i n ∈ es → ∀ k q, tcpSegment chk p6 { a with ack := k } (P b).iss (P b).D i n = .ok q → Q q.to_vec)
    (hs : ∀ f ∈ s.ends.sent b, Q f) (h : s.run chk p6 P c es = .ok s') : ∀ f ∈ s'.ends.sent b, Q f := by
  induction es generalizing s with
  | nil => obtain rfl := Except.ok.inj h; exact hs
  | cons e es ih =>
    simp only [Internet.run] at h
    cases he : s.step chk p6 P c e with
    | error x => rw [he] at h; cases h
    | ok s1 =>
      rw [he] at h
      exact ih (fun a i n hm => hQ a i n (List.mem_cons_of_mem _ hm))
        (s.step_made chk p6 P c b Q e (fun a i n hm => hQ a i n (hm ▸ List.mem_cons_self ..)) hs he) h

/-- The words of the header with another time to live; the checksum does not count. -/
theorem raw_ttl (ihl tos : Byte) (id : U16) (ttl ttl' : Byte) (frag : U16) (proto : Byte) (src dst : Bytes) (hs : src.length = 4) (hd : dst.length = 4)
    (len ck : U16) : plainSum (putAt (ipv4Raw ihl tos id ttl frag proto src dst len ck) 8 [ttl']) =
      plainSum (ipv4Raw ihl tos id ttl' frag proto src dst len 0#16) := by
  match src, hs with
  | [s0, s1, s2, s3], _ =>
    match dst, hd with
    | [d0, d1, d2, d3], _ => simp [plainSum, putChecksum, putAt, ipv4Raw, be16, words]

/-- **C120** (routers that sum up with the crate): if side `b` always asks for the same IPv4 header, and the header of a segment with one
octet is then folded wrong with the time to live that the first router sends, no octet gets through when the side sends one octet at a
time and the first router sums up with the crate: from what passed it a host reads no data, ever. -/
theorem C120_stuck (chk : Bool) (p6 : Ipv6FromStr) (P : Bool → Party) (c : Conn) (hP : ∀ b, (P b).D.length < 4294967296) (b : Bool) (o : Out4)
    (hw : ¬ FoldsOnce (ipv4Raw o.ihl o.tos o.id (o.ttl - 1) o.frag 6#8 (sideConn c b).src (sideConn c b).dst 41#16 0#16)) (ht : o.ttl ≠ 0)
    (es : List NetStep) (he : ∀ e ∈ es, e.Valid p6 P c) (ho : ∀ a i n, .send b a i n ∈ es → a.ip = .inl o ∧ n ≤ 1)
    {s : Internet} (hs : (Internet.start P).run chk p6 P c es = .ok s) :
    ∀ x ∈ s.air b, (∃ r rs, x.by_ = r :: rs ∧ r.own = true) → ∀ m, hostTcp x.frame = some m → m.data = [] := by
  have hmade := (Internet.start P).run_made chk p6 P c b (fun f => (∃ m, hostTcp f = some m ∧ m.data = []) ∨
      (u16At f (l3At f - 2) = 0x0800 ∧ ¬ RefreshRight (ttlHdr f (hopsLeft f - 1)) (ip4Opts f))) es (s' := s) (by
    intro a i n hm k q hq
    obtain ⟨h1, h2⟩ := ho a i n hm
    obtain ⟨v1, v2, v3⟩ := he _ hm
    have v1' : ({ a with ack := k } : TcpArgs).For p6 (sideConn c b) := v1
    have v2' : ({ a with ack := k } : TcpArgs).Fit n := v2
    obtain ⟨q', m, e, hm, -, -, hd, -⟩ := segment_ack chk p6 { a with ack := k } (sideConn c b) (P b).iss (P b).D i n v1' v2'
    obtain rfl := Except.ok.inj (hq.symm.trans e)
    have hlen := chunk_length (P b).D i n
    by_cases h0 : (chunk (P b).D i n).length = 0
    · exact .inl ⟨m, hm, hd.trans (List.length_eq_zero_iff.mp h0)⟩
    · refine .inr ?_
      obtain ⟨k1, ck, rest, k2⟩ := made4_head (a := { a with ack := k }) v1' h1 hq
      obtain ⟨-, k3, k4⟩ := made4 (a := { a with ack := k }) v1' v2' h1 hq
      have ha4 := v1.2.2.2
      rw [h1] at ha4
      have l1 := C32_length _ _ ha4.1
      have l2 := C32_length _ _ ha4.2
      refine ⟨k1, fun hr => ?_⟩
      have hop : ip4Opts q.to_vec = [] := by rw [ip4Opts, k3, Nat.sub_self, List.take_zero]
      have hh : hopsLeft q.to_vec = o.ttl.toNat := by rw [hopsLeft, k1, if_neg (by decide), k4]
      have hl20 : (ipv4Raw o.ihl o.tos o.id o.ttl o.frag 6#8 (sideConn c b).src (sideConn c b).dst
          (BitVec.ofNat 16 (20 + (20 + (chunk (P b).D i n).length))) ck).length = 20 := by simp [ipv4Raw, l1, l2]
      have h1 : (chunk (P b).D i n).length = 1 := by omega
      have ht' : BitVec.ofNat 8 (o.ttl.toNat - 1) = o.ttl - 1 := by
        apply BitVec.eq_of_toNat_eq
        have : o.ttl.toNat ≠ 0 := fun h => ht (BitVec.eq_of_toNat_eq h)
        have := o.ttl.isLt
        rw [BitVec.toNat_ofNat, BitVec.toNat_sub, show (1 : Byte).toNat = 1 from rfl]
        omega
      refine hw ?_
      unfold RefreshRight at hr
      rw [hop, ttlHdr, ip4Hdr, k2, List.take_left' hl20, hh, h1, ht'] at hr
      by_cases hfo : FoldsOnce (putAt (ipv4Raw o.ihl o.tos o.id o.ttl o.frag 6#8 (sideConn c b).src (sideConn c b).dst
          (BitVec.ofNat 16 (20 + (20 + 1))) ck) 8 [o.ttl - 1])
      · unfold FoldsOnce at hfo ⊢
        rw [raw_ttl _ _ _ _ _ _ _ _ _ l1 l2] at hfo
        exact hfo
      · rw [if_neg hfo] at hr
        cases hr) (fun _ h => (nomatch h)) hs
  intro x hx hr m hm
  obtain ⟨r, rs, hb, hown⟩ := hr
  obtain ⟨f, y1, -, -, -, -, y6, y7⟩ := C120_route chk p6 P c hP es he hs b x hx
  rcases hmade f (List.mem_of_getElem? y1) with ⟨m', h1, h2⟩ | ⟨h1, h2⟩
  · by_cases h : Passes f (x.by_.map (·.own))
    · rw [y6 h, h1] at hm
      rw [← Option.some.inj hm, h2]
    · rw [y7 h] at hm; cases hm
  · have : ¬ Passes f (x.by_.map (·.own)) := fun h => h2 (h.2 0 (by rw [hb]; simp [hown]) h1)
    rw [y7 this] at hm; cases hm

/-! ## Cases -/

/-- A router that updates checksums, and one that sums up with the crate. -/
def hopUpdate : Router := ⟨false, [1, 2, 3, 4, 5, 6], [7, 8, 9, 10, 11, 12]⟩
@[inherit_doc hopUpdate] def hopCrate : Router := ⟨true, [2, 2, 3, 4, 5, 6], [8, 8, 9, 10, 11, 12]⟩

/-- Two segments; the second goes straight through one router, the first in a circle through two and comes later, twice; the answers come
over another router and over none. -/
def sampleInternet : List NetStep :=
  [.send false streamArgs4 0 4, .send false streamArgs4 4 6, .hop false 1 hopUpdate, .deliver true 2, .hop false 0 hopUpdate, .hop false 3 hopCrate,
    .hop false 4 hopUpdate, .deliver true 5, .send true streamArgs4Back 0 3, .hop true 0 hopCrate, .deliver false 1, .deliver true 2, .deliver true 5,
    .send true streamArgs4Back 0 0, .other false (frameOf true Sample.p6 streamArgs6 1 streamData 0 4), .deliver false 2, .hop true 9 hopCrate]

-- the hypotheses hold
example : ∀ e ∈ sampleInternet, e.Valid Sample.p6 sampleParties streamConn4 := by
  have hm : Addrs2 Sample.mac1 Sample.mac2 := ⟨⟨[0x00#8, 0x11#8, 0x22#8, 0x33#8, 0x44#8, 0x55#8], by decide +kernel⟩,
    [0x00#8, 0x06#8, 0x07#8, 0x08#8, 0x09#8, 0x0a#8], by decide +kernel⟩
  have h0 : streamArgs4.For Sample.p6 streamConn4 := ⟨hm, rfl, rfl, by decide +kernel, by decide +kernel⟩
  have h1 : streamArgs4Back.For Sample.p6 streamConn4.rev := ⟨⟨hm.2, hm.1⟩, rfl, rfl, by decide +kernel, by decide +kernel⟩
  have f0 : streamArgs4.Fit 6 := ⟨by decide, show Sound4 5 0 (20 + 6) by decide⟩
  have f1 : streamArgs4Back.Fit 3 := ⟨by decide, show Sound4 5 0 (20 + 3) by decide⟩
  intro e he
  simp only [sampleInternet, List.mem_cons, List.not_mem_nil, or_false] at he
  rcases he with rfl | rfl | rfl | rfl | rfl | rfl | rfl | rfl | rfl | rfl | rfl | rfl | rfl | rfl | rfl | rfl | rfl
  · exact ⟨h0, f0.mono (by decide), by decide⟩
  · exact ⟨h0, f0, by decide⟩
  · exact ⟨rfl, rfl⟩
  · trivial
  · exact ⟨rfl, rfl⟩
  · exact ⟨rfl, rfl⟩
  · exact ⟨rfl, rfl⟩
  · trivial
  · exact ⟨h1, f1, by decide⟩
  · exact ⟨rfl, rfl⟩
  · trivial
  · trivial
  · trivial
  · exact ⟨h1, f1.mono (by decide), by decide⟩
  · intro s hs
    have : (hostTcp (frameOf true Sample.p6 streamArgs6 1 streamData 0 4)).map TcpSeg.conn = some streamConn6 := by decide +kernel
    rw [hs] at this
    rw [Option.some.inj this]
    decide +kernel
  · trivial
  · exact ⟨rfl, rfl⟩

-- what happens: all is read, all that `false` sent is acknowledged
example : ((Internet.start sampleParties).run true Sample.p6 sampleParties streamConn4 sampleInternet).toOption.map (·.ends.view) =
    some ([7#8, 8#8, 9#8], streamData, 10, 0) := by decide +kernel

-- the first segment came after three routers, with 61 hops left
example : ((Internet.start sampleParties).run true Sample.p6 sampleParties streamConn4 sampleInternet).toOption.map
    (fun s => (s.air false).map fun x => [x.origin, x.by_.length, hopsLeft x.frame]) =
    some [[0, 0, 64], [1, 0, 64], [1, 1, 63], [0, 1, 63], [0, 2, 62], [0, 3, 61]] := by decide +kernel

-- the hypotheses of the last theorem, for a route of three routers there and none back, and for IPv6 through routers that would sum up
example : (∀ r ∈ [hopUpdate, hopUpdate, hopUpdate], r.Ok ∧ r.own = false) ∧ [hopUpdate, hopUpdate, hopUpdate].length < streamArgs4.hops ∧
    hopCrate.Ok ∧ [hopCrate].length < streamArgs6.hops := by
  refine ⟨fun r hr => ?_, by decide, ⟨rfl, rfl⟩, by decide⟩
  simp only [List.mem_cons, List.not_mem_nil, or_false, or_self] at hr
  subst hr
  exact ⟨⟨rfl, rfl⟩, rfl⟩

/-- Arguments with which the header of a segment of one octet, with time to live 63, is folded wrong. -/
def stuckArgs : TcpArgs :=
  ⟨Sample.mac1, Sample.mac2, false, 10, 3, .inl ⟨5, Sample.ip1, Sample.ip2, 0, 64, 0xb125, 0, []⟩, 80, 1234, 9, 5, 0, 0x18, 512, 0, true⟩

-- these are such; a segment of one octet is broken, one of two octets is not, and a router that updates the checksum breaks neither
example :
    let f (n : Nat) := frameOf true Sample.p6 stuckArgs 0xfffffffe#32 streamData 3 n
    ¬ FoldsOnce (ipv4Raw 5 0 0xb125 (64 - 1) 0 6#8 streamConn4.src streamConn4.dst 41#16 0#16) ∧
      (hostTcp (f 1)).isSome ∧ (along true [hopCrate] (f 1)).map (fun x => x.bind hostTcp) = .ok none ∧
      (along true [hopUpdate] (f 1)).map (fun x => x.bind hostTcp) = .ok (hostTcp (f 1)) ∧
      (along true [hopCrate] (f 2)).map (fun x => x.bind hostTcp) = .ok (hostTcp (f 2)) := by
  decide +kernel

example : stuckArgs.For Sample.p6 streamConn4 ∧ stuckArgs.Fit 1 ∧ stuckArgs.ip = .inl ⟨5, Sample.ip1, Sample.ip2, 0, 64, 0xb125, 0, []⟩ := by
  have hm : Addrs2 Sample.mac1 Sample.mac2 := ⟨⟨[0x00#8, 0x11#8, 0x22#8, 0x33#8, 0x44#8, 0x55#8], by decide +kernel⟩,
    [0x00#8, 0x06#8, 0x07#8, 0x08#8, 0x09#8, 0x0a#8], by decide +kernel⟩
  exact ⟨⟨hm, rfl, rfl, by decide +kernel, by decide +kernel⟩, ⟨by decide, show Sound4 5 0 (20 + 1) by decide⟩, rfl⟩

-- a frame with one hop left gets nowhere, and one in a circle does not stay
example :
    let f := frameOf true Sample.p6 streamArgs4 0xfffffffe#32 streamData 0 4
    (along true (List.replicate 63 hopUpdate) f).map (fun x => x.map hopsLeft) = .ok (some 1) ∧
      along true (List.replicate 64 hopUpdate) f = .ok none := by
  decide +kernel

end PacketRs
