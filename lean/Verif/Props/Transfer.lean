import Verif.Spec.Transfer
import Verif.Props.Stream
/-!
# Property C113: two hosts exchange streams with acknowledgements, in segments made with the crate

The segments are those of C109; each carries the number of the octet its sender expects next.
-/
namespace PacketRs
open Spec Utils

/-! ## The client -/

/-- What a side has to send, and the number of the first octet. -/
structure Party where
  D : Bytes
  iss : U32

/-- The direction in which side `b` sends. -/
def sideConn (c : Conn) (b : Bool) : Conn := if b then c.rev else c

/-- Both sides: what each has received, how many octets of its own stream are acknowledged (`una`) and sent (`nxt`), and every frame
it ever sent. -/
structure Transfer where
  recv : Bool → Recv
  una : Bool → Nat
  nxt : Bool → Nat
  sent : Bool → List Bytes

/-- One of two values changes. -/
def change {α : Type} (g : Bool → α) (b : Bool) (x : α) : Bool → α := fun y => if y = b then x else g y

@[simp] theorem change_self {α : Type} (g : Bool → α) (b : Bool) (x : α) : change g b x b = x := if_pos rfl
@[simp] theorem change_not {α : Type} (g : Bool → α) (b : Bool) (x : α) : change g b x (!b) = g (!b) := if_neg (by cases b <;> decide)

/-- A frame comes to side `b`. -/
def Transfer.take (P : Bool → Party) (c : Conn) (t : Transfer) (b : Bool) (f : Bytes) : Transfer :=
  match hostTcp f with
  | none => t
  | some s =>
    if s.conn = sideConn c (!b) then
      { t with
        recv := change t.recv b ((t.recv b).take (sideConn c (!b)) s)
        una := change t.una b (acked (P b).iss.toNat (t.una b) (t.nxt b) s.ack) }
    else t

/-- What can happen: side `b` sends octets `i` to `i + n - 1` of its stream (perhaps none, perhaps again); the `k`-th frame of the other
side comes to side `b` (perhaps again, perhaps late, perhaps never); a frame that belongs to something else comes. -/
inductive TcpEvent where
  | send (b : Bool) (a : TcpArgs) (i n : Nat)
  | deliver (b : Bool) (k : Nat)
  | other (b : Bool) (f : Bytes)

/-- The segment is made as in C109, with the number expected next as acknowledgement number. -/
def Transfer.step (chk : Bool) (p6 : Ipv6FromStr) (P : Bool → Party) (c : Conn) (t : Transfer) : TcpEvent → R Transfer
  | .send b a i n => do
    let q ← tcpSegment chk p6 { a with ack := BitVec.ofNat 32 (t.recv b).next } (P b).iss (P b).D i n
    pure { t with nxt := change t.nxt b (max (t.nxt b) (min (i + n) (P b).D.length)), sent := change t.sent b (t.sent b ++ [q.to_vec]) }
  | .deliver b k =>
    match (t.sent (!b))[k]? with
    | some f => pure (t.take P c b f)
    | none => pure t
  | .other b f => pure (t.take P c b f)

/-- One event after the other. -/
def Transfer.run (chk : Bool) (p6 : Ipv6FromStr) (P : Bool → Party) (c : Conn) : List TcpEvent → Transfer → R Transfer
  | [], t => pure t
  | e :: es, t => do
    let t' ← t.step chk p6 P c e
    Transfer.run chk p6 P c es t'

/-- The connection is open; nothing has been sent. -/
def Transfer.start (P : Bool → Party) : Transfer :=
  ⟨fun b => ⟨(P (!b)).iss.toNat, []⟩, fun _ => 0, fun _ => 0, fun _ => []⟩

/-- Segments are made with arguments that fit (C105), and begin in the stream or at its end; other frames are of other connections. -/
def TcpEvent.Valid (p6 : Ipv6FromStr) (P : Bool → Party) (c : Conn) : TcpEvent → Prop
  | .send b a i n => a.For p6 (sideConn c b) ∧ a.Fit n ∧ i ≤ (P b).D.length
  | .other b f => ∀ s, hostTcp f = some s → s.conn ≠ sideConn c (!b)
  | .deliver _ _ => True

/-! ## Segments with acknowledgements -/

/-- C109's segment, with the acknowledgement number a host reads. -/
theorem segment_ack (chk : Bool) (p6 : Ipv6FromStr) (a : TcpArgs) (c : Conn) (iss : U32) (D : Bytes) (i n : Nat) (ha : a.For p6 c)
    (hf : a.Fit n) :
    ∃ q s, tcpSegment chk p6 a iss D i n = .ok q ∧ hostTcp q.to_vec = some s ∧ s.conn = c ∧
      s.seq = (iss.toNat + i) % 4294967296 ∧ s.data = chunk D i n ∧ s.ack = a.ack.toNat := by
  have hseq : (iss + BitVec.ofNat 32 i).toNat = (iss.toNat + i) % 4294967296 := by
    simp [BitVec.toNat_add, BitVec.toNat_ofNat]
  have hf' := hf.mono (show (chunk D i n).length ≤ n by rw [chunk_length]; omega)
  obtain ⟨h1, h2, h3, h4⟩ := ha
  obtain ⟨f1, f2⟩ := hf'
  obtain ⟨cs, cd, csp, cdp⟩ := c
  simp only at h2 h3
  subst h2 h3
  unfold tcpSegment
  split at h4
  · next o ho =>
    rw [ho] at f2
    simp only at f2 h4 ⊢
    obtain ⟨p, hp⟩ := (C41_tcp_returns_iff (chk := chk) (eth_dst := a.eth_dst) (eth_src := a.eth_src) (ve := a.ve) (vid := a.vid)
      (pcp := a.pcp) (ihl := o.ihl) (src := o.src) (dst := o.dst) (tos := o.tos) (ttl := o.ttl) (id := o.id) (frag := o.frag)
      (opts := o.opts) (payload := chunk D i n) a.tdst a.tsrc (iss + BitVec.ofNat 32 i) a.ack a.off a.res a.flags a.window a.urg a.ck).2
      ⟨h1, ⟨_, h4.1⟩, _, h4.2⟩
    obtain ⟨q, hq, hh⟩ := C105_tcp4 h4.1 h4.2 hp
    refine ⟨q, _, by rw [hp]; exact hq, hh.2 ⟨f2, f1⟩, rfl, hseq, rfl, rfl⟩
  · next o ho =>
    rw [ho] at f2
    simp only at f2 h4 ⊢
    obtain ⟨p, hp⟩ := (C41_tcpv6_returns_iff (chk := chk) (p6 := p6) (eth_dst := a.eth_dst) (eth_src := a.eth_src) (ve := a.ve) (vid := a.vid)
      (pcp := a.pcp) (tc := o.tc) (flow := o.flow) (hl := o.hl) (src := o.src) (dst := o.dst)
      (payload := chunk D i n) a.tdst a.tsrc (iss + BitVec.ofNat 32 i) a.ack a.off a.res a.flags a.window a.urg).2 h1
    obtain ⟨q, hq, hh⟩ := C105_tcp6 hp
    refine ⟨q, _, by rw [hp]; exact hq, hh.2 ⟨f2.1, f2.2, f1⟩, ?_, hseq, rfl, rfl⟩
    simp [TcpSeg.conn, h4.1, h4.2]

/-- An acknowledgement of `r` octets, if no more than `nxt` are sent and these are fewer than 2^32. -/
theorem acked_eq (iss una nxt r : Nat) (h1 : una ≤ nxt) (h2 : r ≤ nxt) (h3 : nxt < 4294967296) :
    acked iss una nxt ((iss + r) % 4294967296) = max una r := by
  unfold acked
  simp only
  split <;> omega

/-! ## The invariant -/

/-- How many octets side `b` has received. -/
def Transfer.have_ (t : Transfer) (b : Bool) : Nat := (t.recv b).got.length

/-- A frame side `b` sent: a segment of its stream, within what it has sent, that acknowledges no more than the side has. -/
def Transfer.FrameOk (P : Bool → Party) (c : Conn) (t : Transfer) (b : Bool) (f : Bytes) : Prop :=
  ∃ s i n r, hostTcp f = some s ∧ s.conn = sideConn c b ∧ s.seq = ((P b).iss.toNat + i) % 4294967296 ∧ s.data = chunk (P b).D i n ∧
    i ≤ (P b).D.length ∧ min (i + n) (P b).D.length ≤ t.nxt b ∧ r ≤ t.have_ b ∧ s.ack = ((P (!b)).iss.toNat + r) % 4294967296

/-- What holds for the side that receives from side `b`. -/
structure Transfer.Good (P : Bool → Party) (c : Conn) (t : Transfer) (b : Bool) : Prop where
  is : t.recv (!b) = Recv.at (P b).iss (P b).D (t.have_ (!b))
  una : t.una b ≤ t.have_ (!b)
  sent : t.have_ (!b) ≤ t.nxt b
  nxt : t.nxt b ≤ (P b).D.length
  frames : ∀ f ∈ t.sent b, t.FrameOk P c b f

theorem at_got_length (iss : U32) (D : Bytes) (r : Nat) (h : r ≤ D.length) : (Recv.at iss D r).got.length = r := by
  simp only [Recv.at, List.length_take]; omega

theorem Transfer.start_good (P : Bool → Party) (c : Conn) (b : Bool) : (Transfer.start P).Good P c b := by
  refine ⟨?_, Nat.le_refl _, Nat.le_refl _, Nat.zero_le _, fun _ h => (nomatch h)⟩
  show (⟨(P (!!b)).iss.toNat, []⟩ : Recv) = Recv.at (P b).iss (P b).D 0
  rw [at_zero, Bool.not_not]

/-- More sent, more received: a frame stays what it is. -/
theorem Transfer.FrameOk.mono {P : Bool → Party} {c : Conn} {t t' : Transfer} {b : Bool} {f : Bytes} (h : t.FrameOk P c b f)
    (h1 : t.nxt b ≤ t'.nxt b) (h2 : t.have_ b ≤ t'.have_ b) : t'.FrameOk P c b f := by
  obtain ⟨s, i, n, r, a1, a2, a3, a4, a5, a6, a7, a8⟩ := h
  exact ⟨s, i, n, r, a1, a2, a3, a4, a5, Nat.le_trans a6 h1, Nat.le_trans a7 h2, a8⟩

/-- Side `b` takes a frame of the other side. -/
theorem Transfer.take_ok (P : Bool → Party) (c : Conn) (hP : ∀ b, (P b).D.length < 4294967296) (t : Transfer) (hg : ∀ b, t.Good P c b)
    (b : Bool) {f : Bytes} {s : TcpSeg} {i n r : Nat} (hs : hostTcp f = some s) (hc : s.conn = sideConn c (!b))
    (hq : s.seq = ((P (!b)).iss.toNat + i) % 4294967296) (hd : s.data = chunk (P (!b)).D i n) (hi : i ≤ (P (!b)).D.length)
    (hn : min (i + n) (P (!b)).D.length ≤ t.nxt (!b)) (hr : r ≤ t.have_ (!b)) (ha : s.ack = ((P b).iss.toNat + r) % 4294967296) :
    (∀ b', (t.take P c b f).Good P c b') ∧ (t.take P c b f).sent = t.sent ∧ (t.take P c b f).nxt = t.nxt ∧
      (t.take P c b f).una = change t.una b (max (t.una b) r) ∧ (t.take P c b f).have_ (!b) = t.have_ (!b) ∧
      (t.take P c b f).have_ b = (if i ≤ t.have_ b ∧ t.have_ b < i + min n ((P (!b)).D.length - i)
        then i + min n ((P (!b)).D.length - i) else t.have_ b) := by
  have g := hg (!b)
  have g' := hg b
  have gi := g.is
  have gs := g.sent
  have gn := g.nxt
  rw [Bool.not_not] at gi gs
  have hk : t.have_ b ≤ (P (!b)).D.length := by omega
  have e1 : (t.recv b).take (sideConn c (!b)) s = Recv.at (P (!b)).iss (P (!b)).D
      (if i ≤ t.have_ b ∧ t.have_ b < i + min n ((P (!b)).D.length - i) then i + min n ((P (!b)).D.length - i) else t.have_ b) := by
    conv => lhs; rw [gi]
    exact at_take _ _ _ _ i n s hc hq hd hk (.inl (hP _))
  have e2 : acked (P b).iss.toNat (t.una b) (t.nxt b) s.ack = max (t.una b) r := by
    rw [ha]
    exact acked_eq _ _ _ _ (Nat.le_trans g'.una g'.sent) (Nat.le_trans hr g'.sent) (Nat.lt_of_le_of_lt g'.nxt (hP b))
  have e : t.take P c b f = { t with
      recv := change t.recv b (Recv.at (P (!b)).iss (P (!b)).D
        (if i ≤ t.have_ b ∧ t.have_ b < i + min n ((P (!b)).D.length - i) then i + min n ((P (!b)).D.length - i) else t.have_ b))
      una := change t.una b (max (t.una b) r) } := by
    unfold Transfer.take
    simp only [hs, if_pos hc, e1, e2]
  rw [e]
  generalize hx : (if i ≤ t.have_ b ∧ t.have_ b < i + min n ((P (!b)).D.length - i) then i + min n ((P (!b)).D.length - i)
    else t.have_ b) = x
  have x1 : t.have_ b ≤ x := by rw [← hx]; split <;> omega
  have x2 : x ≤ t.nxt (!b) := by rw [← hx]; split <;> omega
  have xl : (Recv.at (P (!b)).iss (P (!b)).D x).got.length = x := at_got_length _ _ _ (by omega)
  have hb : ∀ t' : Transfer, t' = ({ t with recv := change t.recv b (Recv.at (P (!b)).iss (P (!b)).D x), una := change t.una b (max (t.una b) r) } : Transfer) →
      t'.have_ b = x ∧ t'.have_ (!b) = t.have_ (!b) := by
    rintro _ rfl
    exact ⟨by simp only [Transfer.have_, change_self, xl], by simp only [Transfer.have_, change_not]⟩
  obtain ⟨y1, y2⟩ := hb _ rfl
  refine ⟨fun b' => ?_, rfl, rfl, rfl, y2, y1⟩
  by_cases c' : b' = b
  · subst c'
    refine ⟨?_, ?_, ?_, g'.nxt, fun f hf => (g'.frames f hf).mono (Nat.le_refl _) (by rw [y1]; exact x1)⟩
    · rw [y2]; simp only [change_not]; exact g'.is
    · rw [y2]; simp only [change_self]; have := g'.una; omega
    · rw [y2]; exact g'.sent
  · have hb' : b' = !b := by cases b <;> cases b' <;> first | rfl | exact absurd rfl c'
    subst hb'
    refine ⟨?_, ?_, ?_, g.nxt, fun f hf => (g.frames f hf).mono (Nat.le_refl _) (by rw [y2])⟩
    · rw [Bool.not_not, y1]; simp only [change_self]
    · rw [Bool.not_not, y1]; simp only [change_not]; have := g.una; rw [Bool.not_not] at this; omega
    · rw [Bool.not_not, y1]; exact x2

/-- A frame of something else. -/
theorem Transfer.take_other (P : Bool → Party) (c : Conn) (t : Transfer) (b : Bool) (f : Bytes)
    (h : ∀ s, hostTcp f = some s → s.conn ≠ sideConn c (!b)) : t.take P c b f = t := by
  unfold Transfer.take
  split
  · rfl
  · next s hs => exact if_neg (h s hs)

/-- Nothing is taken back. -/
structure Transfer.Later (t t' : Transfer) : Prop where
  have_ : ∀ b, t.have_ b ≤ t'.have_ b
  una : ∀ b, t.una b ≤ t'.una b
  sent : ∀ b, t.sent b <+: t'.sent b

theorem Transfer.Later.refl (t : Transfer) : t.Later t := ⟨fun _ => Nat.le_refl _, fun _ => Nat.le_refl _, fun _ => List.prefix_refl _⟩

theorem Transfer.Later.trans {t t' t'' : Transfer} (h : t.Later t') (h' : t'.Later t'') : t.Later t'' :=
  ⟨fun b => Nat.le_trans (h.have_ b) (h'.have_ b), fun b => Nat.le_trans (h.una b) (h'.una b), fun b => (h.sent b).trans (h'.sent b)⟩

theorem bool_or_not (b b' : Bool) : b' = b ∨ b' = !b := by cases b <;> cases b' <;> simp

/-- A side sends. -/
theorem Transfer.send_step (chk : Bool) (p6 : Ipv6FromStr) (P : Bool → Party) (c : Conn) (t : Transfer) (hg : ∀ b, t.Good P c b)
    (b : Bool) (a : TcpArgs) (i n : Nat) (he : (TcpEvent.send b a i n).Valid p6 P c) :
    ∃ f t', t.step chk p6 P c (.send b a i n) = .ok t' ∧ (∀ b', t'.Good P c b') ∧ t.Later t' ∧ t'.recv = t.recv ∧
      t'.sent b = t.sent b ++ [f] ∧ ∃ s, hostTcp f = some s ∧ s.conn = sideConn c b ∧
        s.seq = ((P b).iss.toNat + i) % 4294967296 ∧ s.data = chunk (P b).D i n ∧
        s.ack = ((P (!b)).iss.toNat + t.have_ b) % 4294967296 ∧ min (i + n) (P b).D.length ≤ t'.nxt b := by
  obtain ⟨v1, v2, v3⟩ := he
  obtain ⟨q, s, e, h1, h2, h3, h4, h5⟩ := segment_ack chk p6 { a with ack := BitVec.ofNat 32 (t.recv b).next } (sideConn c b) (P b).iss (P b).D
    i n v1 v2
  have gi := (hg (!b)).is
  rw [Bool.not_not] at gi
  have h5 : s.ack = ((P (!b)).iss.toNat + t.have_ b) % 4294967296 := by
    rw [h5, gi]
    simp only [Recv.at, BitVec.toNat_ofNat]
    omega
  refine ⟨q.to_vec, { t with nxt := change t.nxt b (max (t.nxt b) (min (i + n) (P b).D.length)), sent := change t.sent b (t.sent b ++ [q.to_vec]) },
    ?_, fun b' => ?_, ?_, rfl, ?_, s, h1, h2, h3, h4, h5, ?_⟩
  · simp only [Transfer.step, e, bind, Except.bind]; rfl
  · have g := hg b'
    rcases bool_or_not b b' with rfl | rfl
    · refine ⟨g.is, g.una, ?_, ?_, fun f hf => ?_⟩
      · simp only [change_self]; have := g.sent; exact Nat.le_trans this (Nat.le_max_left _ _)
      · simp only [change_self]; have := g.nxt; omega
      · simp only [change_self] at hf
        rcases List.mem_append.mp hf with hf | hf
        · exact (g.frames f hf).mono (by simp only [change_self]; exact Nat.le_max_left _ _) (Nat.le_refl _)
        · rw [List.mem_singleton.mp hf]
          exact ⟨s, i, n, t.have_ b', h1, h2, h3, h4, v3, by simp only [change_self]; exact Nat.le_max_right _ _, Nat.le_refl _, h5⟩
    · refine ⟨g.is, g.una, ?_, ?_, fun f hf => ?_⟩
      · simp only [change_not]; exact g.sent
      · simp only [change_not]; exact g.nxt
      · simp only [change_not] at hf
        exact (g.frames f hf).mono (by simp only [change_not]; exact Nat.le_refl _) (Nat.le_refl _)
  · refine ⟨fun _ => Nat.le_refl _, fun _ => Nat.le_refl _, fun b' => ?_⟩
    rcases bool_or_not b b' with rfl | rfl
    · simp only [change_self]; exact List.prefix_append _ _
    · simp only [change_not]; exact List.prefix_refl _
  · simp only [change_self]
  · simp only [change_self]; exact Nat.le_max_right _ _

theorem Transfer.take_later (P : Bool → Party) (c : Conn) (hP : ∀ b, (P b).D.length < 4294967296) (t : Transfer) (hg : ∀ b, t.Good P c b)
    (b : Bool) {f : Bytes} (hf : t.FrameOk P c (!b) f) : (∀ b', (t.take P c b f).Good P c b') ∧ t.Later (t.take P c b f) := by
  obtain ⟨s, i, n, r, a1, a2, a3, a4, a5, a6, a7, a8⟩ := hf
  rw [Bool.not_not] at a8
  obtain ⟨h1, h2, h3, h4, h5, h6⟩ := t.take_ok P c hP hg b a1 a2 a3 a4 a5 a6 a7 a8
  refine ⟨h1, fun b' => ?_, fun b' => ?_, fun b' => by rw [h2]; exact List.prefix_refl _⟩
  · rcases bool_or_not b b' with rfl | rfl
    · rw [h6]; split <;> omega
    · rw [h5]
  · rw [h4]
    rcases bool_or_not b b' with rfl | rfl
    · rw [change_self]; exact Nat.le_max_left _ _
    · rw [change_not]

theorem Transfer.step_good (chk : Bool) (p6 : Ipv6FromStr) (P : Bool → Party) (c : Conn) (hP : ∀ b, (P b).D.length < 4294967296)
    (t : Transfer) (hg : ∀ b, t.Good P c b) (e : TcpEvent) (he : e.Valid p6 P c) :
    ∃ t', t.step chk p6 P c e = .ok t' ∧ (∀ b, t'.Good P c b) ∧ t.Later t' := by
  cases e with
  | send b a i n =>
    obtain ⟨f, t', e, h1, h2, -⟩ := t.send_step chk p6 P c hg b a i n he
    exact ⟨t', e, h1, h2⟩
  | deliver b k =>
    cases hk : (t.sent (!b))[k]? with
    | none => exact ⟨t, by simp only [Transfer.step, hk]; rfl, hg, .refl t⟩
    | some f =>
      obtain ⟨h1, h2⟩ := t.take_later P c hP hg b ((hg (!b)).frames f (List.mem_of_getElem? hk))
      exact ⟨_, by simp only [Transfer.step, hk]; rfl, h1, h2⟩
  | other b f => exact ⟨t, by simp only [Transfer.step, t.take_other P c b f he]; rfl, hg, .refl t⟩

theorem Transfer.run_good (chk : Bool) (p6 : Ipv6FromStr) (P : Bool → Party) (c : Conn) (hP : ∀ b, (P b).D.length < 4294967296)
    (es : List TcpEvent) (t : Transfer) (hg : ∀ b, t.Good P c b) (he : ∀ e ∈ es, e.Valid p6 P c) :
    ∃ t', t.run chk p6 P c es = .ok t' ∧ (∀ b, t'.Good P c b) ∧ t.Later t' := by
  induction es generalizing t with
  | nil => exact ⟨t, rfl, hg, .refl t⟩
  | cons e es ih =>
    obtain ⟨t1, e1, h1, l1⟩ := t.step_good chk p6 P c hP hg e (he e (List.mem_cons_self ..))
    obtain ⟨t2, e2, h2, l2⟩ := ih t1 h1 (fun x hx => he x (List.mem_cons_of_mem _ hx))
    exact ⟨t2, by simp only [Transfer.run, e1, bind, Except.bind]; exact e2, h2, l1.trans l2⟩

theorem Transfer.run_append (chk : Bool) (p6 : Ipv6FromStr) (P : Bool → Party) (c : Conn) (es es' : List TcpEvent) (t : Transfer) :
    t.run chk p6 P c (es ++ es') = t.run chk p6 P c es >>= Transfer.run chk p6 P c es' := by
  induction es generalizing t with
  | nil => rfl
  | cons e es ih =>
    rw [List.cons_append]
    unfold Transfer.run
    cases t.step chk p6 P c e with
    | error x => rfl
    | ok t' => exact ih t'

/-- What is sent stays sent. -/
theorem Transfer.step_nxt (chk : Bool) (p6 : Ipv6FromStr) (P : Bool → Party) (c : Conn) (t t' : Transfer) (e : TcpEvent)
    (h : t.step chk p6 P c e = .ok t') (b : Bool) : t.nxt b ≤ t'.nxt b := by
  have tk : ∀ b' f, (t.take P c b' f).nxt = t.nxt := by
    intro b' f
    unfold Transfer.take
    split
    · rfl
    · split <;> rfl
  cases e with
  | send b' a i n =>
    simp only [Transfer.step] at h
    cases hs : tcpSegment chk p6 { a with ack := BitVec.ofNat 32 (t.recv b').next } (P b').iss (P b').D i n with
    | error x => rw [hs] at h; cases h
    | ok q =>
      rw [hs] at h
      obtain rfl := Except.ok.inj h
      rcases bool_or_not b' b with rfl | rfl
      · simp only [change_self]; exact Nat.le_max_left _ _
      · simp only [change_not]; exact Nat.le_refl _
  | deliver b' k =>
    simp only [Transfer.step] at h
    split at h
    · obtain rfl := Except.ok.inj h; rw [tk]
    · obtain rfl := Except.ok.inj h; exact Nat.le_refl _
  | other b' f => obtain rfl := Except.ok.inj h; rw [tk]

theorem Transfer.run_nxt (chk : Bool) (p6 : Ipv6FromStr) (P : Bool → Party) (c : Conn) (es : List TcpEvent) (t t' : Transfer)
    (h : t.run chk p6 P c es = .ok t') (b : Bool) : t.nxt b ≤ t'.nxt b := by
  induction es generalizing t with
  | nil => obtain rfl := Except.ok.inj h; exact Nat.le_refl _
  | cons e es ih =>
    unfold Transfer.run at h
    cases hs : t.step chk p6 P c e with
    | error x => rw [hs] at h; cases h
    | ok t1 =>
      rw [hs] at h
      exact Nat.le_trans (t.step_nxt chk p6 P c t1 e hs b) (ih t1 h)

/-! ## The theorems -/

/-- **C113**: both sides send what they like of their streams, as often as they like and with whatever arguments fit, and the network
loses, repeats, delays and reorders frames and brings frames of other connections.  For streams below 2^32 octets nobody panics; what a
program has read is a beginning of what the other side sends; what a side takes for acknowledged the other side's program has read, so
that a side that sees everything acknowledged knows that everything has been read. -/
theorem C113_safe (chk : Bool) (p6 : Ipv6FromStr) (P : Bool → Party) (c : Conn) (hP : ∀ b, (P b).D.length < 4294967296)
    (es : List TcpEvent) (he : ∀ e ∈ es, e.Valid p6 P c) :
    ∃ t, (Transfer.start P).run chk p6 P c es = .ok t ∧ ∀ b,
      (t.recv (!b)).got <+: (P b).D ∧ t.una b ≤ (t.recv (!b)).got.length ∧
      (P b).D.take (t.una b) <+: (t.recv (!b)).got ∧ (t.una b = (P b).D.length → (t.recv (!b)).got = (P b).D) := by
  obtain ⟨t, e, hg, -⟩ := (Transfer.start P).run_good chk p6 P c hP es (Transfer.start_good P c) he
  refine ⟨t, e, fun b => ?_⟩
  have g := hg b
  have hl : t.have_ (!b) ≤ (P b).D.length := Nat.le_trans g.sent g.nxt
  have hgot : (t.recv (!b)).got = (P b).D.take (t.have_ (!b)) := congrArg Recv.got g.is
  refine ⟨hgot ▸ List.take_prefix _ _, g.una, ?_, fun h => ?_⟩
  · rw [hgot]; exact List.take_prefix_take_left g.una
  · rw [hgot, List.take_of_length_le]
    have := g.una
    omega

/-- **C113** (nothing is taken back): what has been read and what is acknowledged only grows. -/
theorem C113_grows (chk : Bool) (p6 : Ipv6FromStr) (P : Bool → Party) (c : Conn) (hP : ∀ b, (P b).D.length < 4294967296)
    (es es' : List TcpEvent) (he : ∀ e ∈ es ++ es', e.Valid p6 P c) :
    ∃ t t', (Transfer.start P).run chk p6 P c es = .ok t ∧ (Transfer.start P).run chk p6 P c (es ++ es') = .ok t' ∧ ∀ b,
      (t.recv b).got <+: (t'.recv b).got ∧ t.una b ≤ t'.una b := by
  obtain ⟨t, e, hg, -⟩ := (Transfer.start P).run_good chk p6 P c hP es (Transfer.start_good P c) (fun x h => he x (by simp [h]))
  obtain ⟨t', e', hg', l⟩ := t.run_good chk p6 P c hP es' hg (fun x h => he x (by simp [h]))
  refine ⟨t, t', e, by rw [Transfer.run_append, e]; exact e', fun b => ⟨?_, l.una b⟩⟩
  have g := (hg (!b)).is
  have g' := (hg' (!b)).is
  rw [Bool.not_not] at g g'
  have h1 : (t.recv b).got = (P (!b)).D.take (t.have_ b) := congrArg Recv.got g
  have h2 : (t'.recv b).got = (P (!b)).D.take (t'.have_ b) := congrArg Recv.got g'
  rw [h1, h2]
  exact List.take_prefix_take_left (l.have_ b)

/-- C113_progress, from a state with the invariant. -/
theorem Transfer.progress_from (chk : Bool) (p6 : Ipv6FromStr) (P : Bool → Party) (c : Conn) (hP : ∀ b, (P b).D.length < 4294967296)
    (t : Transfer) (hg : ∀ b, t.Good P c b) (b : Bool) (a a' : TcpArgs) (i n i' n' : Nat) (hi : i ≤ t.una b)
    (es1 es2 es3 : List TcpEvent) (he : ∀ e ∈ .send b a i n :: .send (!b) a' i' n' :: (es1 ++ es2 ++ es3), e.Valid p6 P c) :
    ∃ t1 t2 t3 t4, t.run chk p6 P c (.send b a i n :: es1) = .ok t1 ∧
      t1.run chk p6 P c (.deliver (!b) (t.sent b).length :: es2) = .ok t2 ∧
      t2.run chk p6 P c (.send (!b) a' i' n' :: es3) = .ok t3 ∧
      t3.run chk p6 P c [.deliver b (t2.sent (!b)).length] = .ok t4 ∧ (∀ b', t4.Good P c b') ∧ t.Later t4 ∧
      min (i + n) (P b).D.length ≤ t4.una b := by
  have q0 := he _ (List.mem_cons_self ..)
  have q0' := he _ (List.mem_cons_of_mem _ (List.mem_cons_self ..))
  have q1 : ∀ e ∈ es1, e.Valid p6 P c := fun e h => he e (by simp [h])
  have q2 : ∀ e ∈ es2, e.Valid p6 P c := fun e h => he e (by simp [h])
  have q3 : ∀ e ∈ es3, e.Valid p6 P c := fun e h => he e (by simp [h])
  -- the segment
  obtain ⟨f, u1, e1, g1, l1, hr1, hs1, s, hs, hc, hq, hd, hack, hn⟩ := t.send_step chk p6 P c hg b a i n q0
  obtain ⟨t1, r1, g1', l1'⟩ := u1.run_good chk p6 P c hP es1 g1 q1
  have k1 : (t1.sent b)[(t.sent b).length]? = some f := by
    obtain ⟨x, hx⟩ := l1'.sent b
    rw [← hx, hs1]
    simp
  -- it comes
  have fo : t1.FrameOk P c b f := (g1' b).frames f (List.mem_of_getElem? k1)
  have b1 : t1.step chk p6 P c (.deliver (!b) (t.sent b).length) = .ok (t1.take P c (!b) f) := by
    simp only [Transfer.step, Bool.not_not, k1]; rfl
  obtain ⟨s', i2, n2, r2, a1, a2, a3, a4, a5, a6, a7, a8⟩ := fo
  have hss := Option.some.inj (hs.symm.trans a1)
  subst hss
  have hnx : min (i + n) (P b).D.length ≤ t1.nxt b := by
    by_cases hz : (P b).D.length < i
    · exact absurd q0.2.2 (by omega)
    · -- the octets sent are still those
      exact Nat.le_trans hn (by
        clear a3 a4 a5 a6 a7 a8 a1
        exact Transfer.run_nxt chk p6 P c es1 u1 t1 r1 b)
  have tk := t1.take_ok P c hP g1' (!b) (i := i) (n := n) (r := r2) hs (by rw [Bool.not_not]; exact hc) (by rw [Bool.not_not]; exact hq)
    (by rw [Bool.not_not]; exact hd) (by rw [Bool.not_not]; exact q0.2.2) (by rw [Bool.not_not]; exact hnx)
    (by rw [Bool.not_not]; exact a7) a8
  obtain ⟨g2, y2, -, y4, y5, y6⟩ := tk
  rw [Bool.not_not] at y5 y6
  have hgot : min (i + n) (P b).D.length ≤ (t1.take P c (!b) f).have_ (!b) := by
    have h1 : i ≤ t1.have_ (!b) := by
      have := (hg b).una
      have := l1.have_ (!b)
      have := l1'.have_ (!b)
      omega
    have := q0.2.2
    rw [y6]
    split <;> omega
  obtain ⟨t2, r2', g2', l2'⟩ := (t1.take P c (!b) f).run_good chk p6 P c hP es2 g2 q2
  -- the answer
  obtain ⟨f', u3, e3, g3, l3, hr3, hs3, s3, hs', hc', hq', hd', hack', hn'⟩ := t2.send_step chk p6 P c g2' (!b) a' i' n' q0'
  obtain ⟨t3, r3, g3', l3'⟩ := u3.run_good chk p6 P c hP es3 g3 q3
  have k3 : (t3.sent (!b))[(t2.sent (!b)).length]? = some f' := by
    obtain ⟨x, hx⟩ := l3'.sent (!b)
    rw [← hx, hs3]
    simp
  have b3 : t3.step chk p6 P c (.deliver b (t2.sent (!b)).length) = .ok (t3.take P c b f') := by
    simp only [Transfer.step, k3]; rfl
  rw [Bool.not_not] at hack'
  have hv : t2.have_ (!b) ≤ t3.have_ (!b) := Nat.le_trans (l3.have_ _) (l3'.have_ _)
  have tk := t3.take_ok P c hP g3' b (i := i') (n := n') (r := t2.have_ (!b)) hs' hc' hq' hd' q0'.2.2
    (Nat.le_trans hn' (Transfer.run_nxt chk p6 P c es3 u3 t3 r3 (!b))) hv hack'
  obtain ⟨g4, z2, -, z4, z5, z6⟩ := tk
  have l2 : t1.Later (t1.take P c (!b) f) := (t1.take_later P c hP g1' (!b) (by
    rw [Bool.not_not]; exact (g1' b).frames f (List.mem_of_getElem? k1))).2
  have l4 : t3.Later (t3.take P c b f') := (t3.take_later P c hP g3' b ((g3' (!b)).frames f' (List.mem_of_getElem? k3))).2
  refine ⟨t1, t2, t3, _, ?_, ?_, ?_, ?_, g4, l1.trans (l1'.trans (l2.trans (l2'.trans (l3.trans (l3'.trans l4))))), ?_⟩
  · simp only [Transfer.run, e1, bind, Except.bind]; exact r1
  · simp only [Transfer.run, b1, bind, Except.bind]; exact r2'
  · simp only [Transfer.run, e3, bind, Except.bind]; exact r3
  · simp only [Transfer.run, b3, bind, Except.bind]; rfl
  · rw [z4, change_self]
    have := l2'.have_ (!b)
    omega

/-- **C113** (progress): at any time side `b` sends `n` octets from its first unacknowledged one (or before it) on; after anything else,
the segment comes to the other side; after anything else, that side sends a segment, any one; after anything else, this comes to side
`b`.  Then the `n` octets are acknowledged, or all there are. -/
theorem C113_progress (chk : Bool) (p6 : Ipv6FromStr) (P : Bool → Party) (c : Conn) (hP : ∀ b, (P b).D.length < 4294967296)
    (es0 : List TcpEvent) (he0 : ∀ e ∈ es0, e.Valid p6 P c) (t : Transfer) (ht : (Transfer.start P).run chk p6 P c es0 = .ok t)
    (b : Bool) (a a' : TcpArgs) (i n i' n' : Nat) (hi : i ≤ t.una b)
    (es1 es2 es3 : List TcpEvent) (he : ∀ e ∈ .send b a i n :: .send (!b) a' i' n' :: (es1 ++ es2 ++ es3), e.Valid p6 P c) :
    ∃ t1 t2 t3 t4, t.run chk p6 P c (.send b a i n :: es1) = .ok t1 ∧
      t1.run chk p6 P c (.deliver (!b) (t.sent b).length :: es2) = .ok t2 ∧
      t2.run chk p6 P c (.send (!b) a' i' n' :: es3) = .ok t3 ∧
      t3.run chk p6 P c [.deliver b (t2.sent (!b)).length] = .ok t4 ∧ min (i + n) (P b).D.length ≤ t4.una b := by
  obtain ⟨u, e, hg, -⟩ := (Transfer.start P).run_good chk p6 P c hP es0 (Transfer.start_good P c) he0
  obtain rfl := Except.ok.inj (ht.symm.trans e)
  obtain ⟨t1, t2, t3, t4, h1, h2, h3, h4, -, -, h5⟩ := t.progress_from chk p6 P c hP hg b a a' i n i' n' hi es1 es2 es3 he
  exact ⟨t1, t2, t3, t4, h1, h2, h3, h4, h5⟩

/-- One side gets everything acknowledged. -/
theorem Transfer.completes_from (chk : Bool) (p6 : Ipv6FromStr) (P : Bool → Party) (c : Conn) (hP : ∀ b, (P b).D.length < 4294967296)
    (a : Bool → TcpArgs) (ha : ∀ b, (a b).For p6 (sideConn c b)) (hf : ∀ b, (a b).Fit 1) (b : Bool) (m : Nat) :
    ∀ t : Transfer, (∀ b, t.Good P c b) → (P b).D.length - t.una b ≤ m →
      ∃ es t', (∀ e ∈ es, e.Valid p6 P c) ∧ t.run chk p6 P c es = .ok t' ∧ (∀ b, t'.Good P c b) ∧ t.Later t' ∧ (P b).D.length ≤ t'.una b := by
  induction m with
  | zero => intro t hg hm; exact ⟨[], t, by simp, rfl, hg, .refl t, by omega⟩
  | succ m ih =>
    intro t hg hm
    have hu : t.una b ≤ (P b).D.length := Nat.le_trans (hg b).una (Nat.le_trans (hg b).sent (hg b).nxt)
    have v1 : (TcpEvent.send b (a b) (t.una b) 1).Valid p6 P c := ⟨ha b, hf b, hu⟩
    have v2 : (TcpEvent.send (!b) (a (!b)) 0 0).Valid p6 P c := ⟨ha _, (hf _).mono (by omega), Nat.zero_le _⟩
    obtain ⟨t1, t2, t3, t4, h1, h2, h3, h4, g4, l4, h5⟩ := t.progress_from chk p6 P c hP hg b (a b) (a (!b)) (t.una b) 1 0 0 (Nat.le_refl _)
      [] [] [] (by
        intro e he
        simp only [List.append_nil, List.mem_cons, List.not_mem_nil, or_false] at he
        rcases he with rfl | rfl
        · exact v1
        · exact v2)
    obtain ⟨es, t', w, r, g', l', hu'⟩ := ih t4 g4 (by omega)
    refine ⟨[.send b (a b) (t.una b) 1] ++ ([.deliver (!b) (t.sent b).length] ++ ([.send (!b) (a (!b)) 0 0] ++
      ([.deliver b (t2.sent (!b)).length] ++ es))), t', ?_, ?_, g', l4.trans l', hu'⟩
    · intro e he
      simp only [List.mem_append, List.mem_singleton] at he
      rcases he with rfl | rfl | rfl | rfl | he
      · exact v1
      · trivial
      · exact v2
      · trivial
      · exact w e he
    · rw [Transfer.run_append, h1]
      show Transfer.run chk p6 P c _ t1 = _
      rw [Transfer.run_append, h2]
      show Transfer.run chk p6 P c _ t2 = _
      rw [Transfer.run_append, h3]
      show Transfer.run chk p6 P c _ t3 = _
      rw [Transfer.run_append, h4]
      exact r

/-- **C113** (it can always be finished): whatever has happened, if each side has arguments with which one octet fits there is a
continuation after which everything is read and acknowledged on both sides. -/
theorem C113_completes (chk : Bool) (p6 : Ipv6FromStr) (P : Bool → Party) (c : Conn) (hP : ∀ b, (P b).D.length < 4294967296)
    (a : Bool → TcpArgs) (ha : ∀ b, (a b).For p6 (sideConn c b)) (hf : ∀ b, (a b).Fit 1)
    (es : List TcpEvent) (he : ∀ e ∈ es, e.Valid p6 P c) :
    ∃ es' t, (∀ e ∈ es', e.Valid p6 P c) ∧ (Transfer.start P).run chk p6 P c (es ++ es') = .ok t ∧
      ∀ b, t.una b = (P b).D.length ∧ (t.recv (!b)).got = (P b).D := by
  obtain ⟨t, e, hg, -⟩ := (Transfer.start P).run_good chk p6 P c hP es (Transfer.start_good P c) he
  obtain ⟨es1, t1, w1, r1, g1, l1, u1⟩ := Transfer.completes_from chk p6 P c hP a ha hf false _ t hg (Nat.le_refl _)
  obtain ⟨es2, t2, w2, r2, g2, l2, u2⟩ := Transfer.completes_from chk p6 P c hP a ha hf true _ t1 g1 (Nat.le_refl _)
  refine ⟨es1 ++ es2, t2, ?_, ?_, fun b => ?_⟩
  · intro x hx
    rcases List.mem_append.mp hx with h | h
    · exact w1 x h
    · exact w2 x h
  · rw [Transfer.run_append, e]
    show Transfer.run chk p6 P c _ t = _
    rw [Transfer.run_append, r1]
    exact r2
  · have hu : (P b).D.length ≤ t2.una b := by
      cases b with
      | false => exact Nat.le_trans u1 (l2.una false)
      | true => exact u2
    have g := g2 b
    have h1 := g.una
    have h2 := g.sent
    have h3 := g.nxt
    refine ⟨by omega, ?_⟩
    have hgot : (t2.recv (!b)).got = (P b).D.take (t2.have_ (!b)) := congrArg Recv.got g.is
    rw [hgot, List.take_of_length_le (by omega)]

/-! ## Cases -/

/-- Ten octets one way, three the other, numbers about to wrap. -/
def sampleParties : Bool → Party
  | false => ⟨streamData, 0xfffffffe#32⟩
  | true => ⟨[7#8, 8#8, 9#8], 0xffffffff#32⟩

/-- Arguments for the other direction. -/
def streamArgs4Back : TcpArgs :=
  ⟨Sample.mac2, Sample.mac1, false, 10, 3, .inl ⟨5, Sample.ip2, Sample.ip1, 1, 64, 0x4321, 0, []⟩, 1234, 80, 9, 5, 0, 0x10, 512, 0, true⟩

/-- Side `false` sends ten octets in three segments, of which the second comes first and later again; the other side answers with data,
with nothing, and with what it sent before, and an answer is lost. -/
def sampleTransfer : List TcpEvent :=
  [.send false streamArgs4 0 4, .send false streamArgs4 4 4, .deliver true 1, .send true streamArgs4Back 0 2, .deliver true 0, .send true streamArgs4Back 0 0,
    .deliver false 1, .deliver false 0, .other false (frameOf true Sample.p6 streamArgs6 1 streamData 0 4), .send false streamArgs4 4 6, .deliver true 2,
    .deliver true 1, .send true streamArgs4Back 0 3, .deliver false 2, .send false streamArgs4 0 0]

/-- What is read and acknowledged: by `false`, by `true`, of `false`, of `true`. -/
def Transfer.view (t : Transfer) : Bytes × Bytes × Nat × Nat := ((t.recv false).got, (t.recv true).got, t.una false, t.una true)

-- the hypotheses hold
example : (∀ b, (sampleParties b).D.length < 4294967296) ∧ (∀ e ∈ sampleTransfer, e.Valid Sample.p6 sampleParties streamConn4) := by
  have hm : Addrs2 Sample.mac1 Sample.mac2 := ⟨⟨[0x00#8, 0x11#8, 0x22#8, 0x33#8, 0x44#8, 0x55#8], by decide +kernel⟩,
    [0x00#8, 0x06#8, 0x07#8, 0x08#8, 0x09#8, 0x0a#8], by decide +kernel⟩
  have h0 : streamArgs4.For Sample.p6 streamConn4 := ⟨hm, rfl, rfl, by decide +kernel, by decide +kernel⟩
  have h1 : streamArgs4Back.For Sample.p6 streamConn4.rev := ⟨⟨hm.2, hm.1⟩, rfl, rfl, by decide +kernel, by decide +kernel⟩
  have f0 : streamArgs4.Fit 6 := ⟨by decide, show Sound4 5 0 (20 + 6) by decide⟩
  have f1 : streamArgs4Back.Fit 3 := ⟨by decide, show Sound4 5 0 (20 + 3) by decide⟩
  refine ⟨fun b => by cases b <;> decide, fun e he => ?_⟩
  simp only [sampleTransfer, List.mem_cons, List.not_mem_nil, or_false] at he
  rcases he with rfl | rfl | rfl | rfl | rfl | rfl | rfl | rfl | rfl | rfl | rfl | rfl | rfl | rfl | rfl
  · exact ⟨h0, f0.mono (by decide), by decide⟩
  · exact ⟨h0, f0.mono (by decide), by decide⟩
  · trivial
  · exact ⟨h1, f1.mono (by decide), by decide⟩
  · trivial
  · exact ⟨h1, f1.mono (by decide), by decide⟩
  · trivial
  · trivial
  · intro s hs
    have : (hostTcp (frameOf true Sample.p6 streamArgs6 1 streamData 0 4)).map TcpSeg.conn = some streamConn6 := by decide +kernel
    rw [hs] at this
    rw [Option.some.inj this]
    decide +kernel
  · exact ⟨h0, f0, by decide⟩
  · trivial
  · trivial
  · exact ⟨h1, f1, by decide⟩
  · trivial
  · exact ⟨h0, f0.mono (by decide), by decide⟩

-- what happens: all is read, all that `false` sent is acknowledged; the last segment of `false` has not come
example : ((Transfer.start sampleParties).run true Sample.p6 sampleParties streamConn4 sampleTransfer).toOption.map Transfer.view =
    some ([7#8, 8#8, 9#8], streamData, 10, 2) := by decide +kernel

-- it comes
example : ((Transfer.start sampleParties).run true Sample.p6 sampleParties streamConn4 (sampleTransfer ++ [.deliver true 3])).toOption.map
    Transfer.view = some ([7#8, 8#8, 9#8], streamData, 10, 3) := by decide +kernel

-- half of it
example : ((Transfer.start sampleParties).run true Sample.p6 sampleParties streamConn4 (sampleTransfer.take 8)).toOption.map Transfer.view =
    some ([7#8, 8#8], streamData.take 4, 4, 0) := by decide +kernel

end PacketRs
