import Verif.Spec.Stream
import Verif.Props.Network
/-!
# Property C109: a stream of octets sent in TCP segments made with the crate
-/
namespace PacketRs
open Spec Utils

/-! ## The client -/

/-- Arguments for the TCP builders, but for sequence number and payload. -/
structure TcpArgs where
  eth_dst : Str
  eth_src : Str
  ve : Bool
  vid : U16
  pcp : Byte
  ip : Out4 ⊕ Out6
  tdst : U16
  tsrc : U16
  ack : U32
  off : Byte
  res : Byte
  flags : Byte
  window : U16
  urg : U16
  ck : Bool

/-- The client sends octets `i` to `i + n - 1` of the stream `D`: it builds the packet and puts checksums and length right (C105). -/
def tcpSegment (chk : Bool) (p6 : Ipv6FromStr) (a : TcpArgs) (iss : U32) (D : Bytes) (i n : Nat) : R Packet :=
  match a.ip with
  | .inl o =>
    create_tcp_packet chk a.eth_dst a.eth_src a.ve a.vid a.pcp o.ihl o.src o.dst o.tos o.ttl o.id o.frag o.opts a.tdst a.tsrc
      (iss + BitVec.ofNat 32 i) a.ack a.off a.res a.flags a.window a.urg a.ck (chunk D i n) >>= fun p =>
    finishSum TCP TCP.checksum (cover4 (ipAt a.ve)) p >>= finishIp (ipAt a.ve)
  | .inr o =>
    create_tcpv6_packet chk p6 a.eth_dst a.eth_src a.ve a.vid a.pcp o.tc o.flow o.hl o.src o.dst a.tdst a.tsrc
      (iss + BitVec.ofNat 32 i) a.ack a.off a.res a.flags a.window a.urg (chunk D i n) >>= fun p =>
    finishSum TCP TCP.checksum (cover6 (ipAt a.ve)) p

/-- The arguments are for this connection: the MAC addresses and IP addresses can be converted. -/
def TcpArgs.For (p6 : Ipv6FromStr) (a : TcpArgs) (c : Conn) : Prop :=
  Addrs2 a.eth_dst a.eth_src ∧ c.sport = a.tsrc.toNat ∧ c.dport = a.tdst.toNat ∧
  match a.ip with
  | .inl o => to_ipv4_bytes o.src = .ok c.src ∧ to_ipv4_bytes o.dst = .ok c.dst
  | .inr o => to_ipv6_bytes p6 o.src = c.src ∧ to_ipv6_bytes p6 o.dst = c.dst

/-- What a host requires of them for `n` octets of data (C105). -/
def TcpArgs.Fit (a : TcpArgs) (n : Nat) : Prop :=
  DataOffset5 a.off a.res ∧
  match a.ip with
  | .inl o => Sound4 o.ihl o.frag (20 + n)
  | .inr o => Flow6 o.flow ∧ 20 + n < 65536

theorem chunk_length (D : Bytes) (i n : Nat) : (chunk D i n).length = min n (D.length - i) := by
  simp [chunk]

theorem TcpArgs.Fit.mono {a : TcpArgs} {n m : Nat} (h : a.Fit n) (hm : m ≤ n) : a.Fit m := by
  obtain ⟨h1, h2⟩ := h
  refine ⟨h1, ?_⟩
  split at h2
  · exact ⟨h2.1, by have := h2.2.1; omega, h2.2.2⟩
  · exact ⟨h2.1, by have := h2.2; omega⟩

/-- **C109**: the client makes a segment without a panic, and a host gets it with the right number. -/
theorem C109_segment (chk : Bool) (p6 : Ipv6FromStr) (a : TcpArgs) (c : Conn) (iss : U32) (D : Bytes) (i n : Nat) (ha : a.For p6 c)
    (hf : a.Fit n) :
    ∃ q s, tcpSegment chk p6 a iss D i n = .ok q ∧ hostTcp q.to_vec = some s ∧ s.conn = c ∧
      s.seq = (iss.toNat + i) % 4294967296 ∧ s.data = chunk D i n := by
  have hseq : (iss + BitVec.ofNat 32 i).toNat = (iss.toNat + i) % 4294967296 := by
    simp [BitVec.toNat_add, BitVec.toNat_ofNat]
  have hf' := hf.mono (show (chunk D i n).length ≤ n by rw [chunk_length]; omega)
  obtain ⟨h1, h2, h3, h4⟩ := ha
  obtain ⟨f1, f2⟩ := hf'
  obtain ⟨cs, cd, csp, cdp⟩ := c
  simp only at h2 h3
  subst h2 h3
  unfold tcpSegment
  split at h4
  · next o ho =>
    rw [ho] at f2
    simp only at f2 h4 ⊢
    obtain ⟨p, hp⟩ := (C41_tcp_returns_iff (chk := chk) (eth_dst := a.eth_dst) (eth_src := a.eth_src) (ve := a.ve) (vid := a.vid)
      (pcp := a.pcp) (ihl := o.ihl) (src := o.src) (dst := o.dst) (tos := o.tos) (ttl := o.ttl) (id := o.id) (frag := o.frag)
      (opts := o.opts) (payload := chunk D i n) a.tdst a.tsrc (iss + BitVec.ofNat 32 i) a.ack a.off a.res a.flags a.window a.urg a.ck).2
      ⟨h1, ⟨_, h4.1⟩, _, h4.2⟩
    obtain ⟨q, hq, hh⟩ := C105_tcp4 h4.1 h4.2 hp
    refine ⟨q, _, by rw [hp]; exact hq, hh.2 ⟨f2, f1⟩, rfl, hseq, rfl⟩
  · next o ho =>
    rw [ho] at f2
    simp only at f2 h4 ⊢
    obtain ⟨p, hp⟩ := (C41_tcpv6_returns_iff (chk := chk) (p6 := p6) (eth_dst := a.eth_dst) (eth_src := a.eth_src) (ve := a.ve) (vid := a.vid)
      (pcp := a.pcp) (tc := o.tc) (flow := o.flow) (hl := o.hl) (src := o.src) (dst := o.dst)
      (payload := chunk D i n) a.tdst a.tsrc (iss + BitVec.ofNat 32 i) a.ack a.off a.res a.flags a.window a.urg).2 h1
    obtain ⟨q, hq, hh⟩ := C105_tcp6 hp
    refine ⟨q, _, by rw [hp]; exact hq, hh.2 ⟨f2.1, f2.2, f1⟩, ?_, hseq, rfl⟩
    simp [TcpSeg.conn, h4.1, h4.2]

/-- A frame that comes to the receiver: a segment of the stream, of any octets, with whatever other arguments, or a frame that is not
of this connection. -/
inductive Comes (chk : Bool) (p6 : Ipv6FromStr) (c : Conn) (iss : U32) (D : Bytes) : Bytes → Prop
  | segment (a : TcpArgs) (i n : Nat) (q : Packet) (ha : a.For p6 c) (hf : a.Fit n) (h : tcpSegment chk p6 a iss D i n = .ok q) :
      Comes chk p6 c iss D q.to_vec
  | other (f : Bytes) (h : ∀ s, hostTcp f = some s → s.conn ≠ c) : Comes chk p6 c iss D f

/-! ## The receiver -/

/-- The receiver after it got `r` octets of the stream. -/
def Recv.at (iss : U32) (D : Bytes) (r : Nat) : Recv := ⟨(iss.toNat + r) % 4294967296, D.take r⟩

/-- One frame comes. -/
def Spec.Recv.frame (c : Conn) (r : Recv) (f : Bytes) : Recv :=
  match hostTcp f with
  | some s => r.take c s
  | none => r

theorem streamGot_eq (c : Conn) (iss : Nat) (fs : List Bytes) : streamGot c iss fs = (fs.foldl (Recv.frame c) ⟨iss, []⟩).got := by
  unfold streamGot
  generalize (⟨iss, []⟩ : Recv) = r
  induction fs generalizing r with
  | nil => rfl
  | cons f fs ih =>
    rw [List.foldl_cons, ← ih]
    cases h : hostTcp f with
    | none => simp [h, Recv.frame]
    | some s => simp [h, Recv.frame]

theorem take_drop_chunk (D : Bytes) (r i n : Nat) (h1 : i ≤ r) (h2 : r < i + min n (D.length - i)) :
    D.take r ++ (chunk D i n).drop (r - i) = D.take (i + min n (D.length - i)) := by
  have : (chunk D i n).drop (r - i) = (D.drop r).take (i + min n (D.length - i) - r) := by
    unfold chunk
    rw [List.drop_take, List.drop_drop, show i + (r - i) = r by omega]
    apply List.take_eq_take_iff.2
    rw [List.length_drop]; omega
  rw [this, show i + min n (D.length - i) = r + (i + min n (D.length - i) - r) by omega, List.take_add]
  simp

/-- The next octets come in a segment that begins with the next octet or, for streams below 2^32 octets, wherever it begins. -/
theorem at_take (c : Conn) (iss : U32) (D : Bytes) (r i n : Nat) (s : TcpSeg) (hc : s.conn = c)
    (hq : s.seq = (iss.toNat + i) % 4294967296) (hd : s.data = chunk D i n) (hr : r ≤ D.length)
    (hD : D.length < 4294967296 ∨ i = r) :
    (Recv.at iss D r).take c s = Recv.at iss D (if i ≤ r ∧ r < i + min n (D.length - i) then i + min n (D.length - i) else r) := by
  have hl : s.data.length = min n (D.length - i) := by rw [hd, chunk_length]
  unfold Recv.take
  simp only [hl, hc, true_and]
  have hlt := iss.isLt
  by_cases hin : i ≤ r ∧ r < i + min n (D.length - i)
  · have hold : ((Recv.at iss D r).next + 4294967296 - s.seq) % 4294967296 = r - i := by
      rw [hq]; simp only [Recv.at]; omega
    rw [hold, if_pos (by omega), if_pos hin]
    simp only [Recv.at, Recv.mk.injEq]
    refine ⟨by omega, ?_⟩
    rw [hd, take_drop_chunk D r i n hin.1 hin.2]
  · rw [if_neg hin, if_neg]
    rw [hq]
    simp only [Recv.at]
    omega

theorem frame_comes (chk : Bool) (p6 : Ipv6FromStr) (c : Conn) (iss : U32) (D : Bytes) (hD : D.length < 4294967296) (r : Nat) (hr : r ≤ D.length)
    (f : Bytes) (hf : Comes chk p6 c iss D f) : ∃ r', r ≤ r' ∧ r' ≤ D.length ∧ (Recv.at iss D r).frame c f = Recv.at iss D r' := by
  cases hf with
  | segment a i n q ha hf h =>
    obtain ⟨q', s, e, h1, h2, h3, h4⟩ := C109_segment chk p6 a c iss D i n ha hf
    obtain rfl := Except.ok.inj (h.symm.trans e)
    refine ⟨_, ?_, ?_, by rw [Recv.frame, h1]; exact at_take c iss D r i n s h2 h3 h4 hr (Or.inl hD)⟩ <;> split <;> omega
  | other f h =>
    refine ⟨r, by omega, hr, ?_⟩
    unfold Recv.frame
    split
    · next s hs =>
      unfold Recv.take
      simp only
      rw [if_neg fun hh => h s hs hh.1]
    · rfl

theorem frames_come (chk : Bool) (p6 : Ipv6FromStr) (c : Conn) (iss : U32) (D : Bytes) (hD : D.length < 4294967296) (fs : List Bytes) :
    ∀ r, r ≤ D.length → (∀ f ∈ fs, Comes chk p6 c iss D f) →
      ∃ r', r ≤ r' ∧ r' ≤ D.length ∧ fs.foldl (Recv.frame c) (Recv.at iss D r) = Recv.at iss D r' := by
  induction fs with
  | nil => exact fun r hr _ => ⟨r, by omega, hr, rfl⟩
  | cons f fs ih =>
    intro r hr hf
    obtain ⟨r1, a1, a2, a3⟩ := frame_comes chk p6 c iss D hD r hr f (hf f (by simp))
    obtain ⟨r2, b1, b2, b3⟩ := ih r1 a2 fun f h => hf f (by simp [h])
    exact ⟨r2, by omega, b2, by rw [List.foldl_cons, a3, b3]⟩

theorem at_zero (iss : U32) (D : Bytes) : Recv.at iss D 0 = ⟨iss.toNat, []⟩ := by
  have := iss.isLt
  simp only [Recv.at, List.take_zero, Recv.mk.injEq, and_true]
  omega

/-! ## The theorems -/

/-- The frame of a segment. -/
def frameOf (chk : Bool) (p6 : Ipv6FromStr) (a : TcpArgs) (iss : U32) (D : Bytes) (i n : Nat) : Bytes :=
  match tcpSegment chk p6 a iss D i n with
  | .ok q => q.to_vec
  | .error _ => []

theorem frameOf_comes (chk : Bool) (p6 : Ipv6FromStr) (a : TcpArgs) (c : Conn) (iss : U32) (D : Bytes) (i n : Nat) (ha : a.For p6 c)
    (hf : a.Fit n) : Comes chk p6 c iss D (frameOf chk p6 a iss D i n) ∧
      ∃ s, hostTcp (frameOf chk p6 a iss D i n) = some s ∧ s.conn = c ∧ s.seq = (iss.toNat + i) % 4294967296 ∧ s.data = chunk D i n := by
  obtain ⟨q, s, e, h1, h2, h3, h4⟩ := C109_segment chk p6 a c iss D i n ha hf
  unfold frameOf
  rw [e]
  exact ⟨.segment a i n q ha hf e, s, h1, h2, h3, h4⟩

/-- The segments of a stream one after the other, the first `k` of them: `s` octets each, the other arguments as the
client likes. -/
def inOrder (chk : Bool) (p6 : Ipv6FromStr) (a : Nat → TcpArgs) (iss : U32) (D : Bytes) (s : Nat) (k : Nat) : List Bytes :=
  (List.range k).map fun j => frameOf chk p6 (a j) iss D (s * j) s

theorem in_order (chk : Bool) (p6 : Ipv6FromStr) (a : Nat → TcpArgs) (c : Conn) (iss : U32) (D : Bytes) (s : Nat) (ha : ∀ j, (a j).For p6 c)
    (hf : ∀ j, (a j).Fit s) (k : Nat) :
    (inOrder chk p6 a iss D s k).foldl (Recv.frame c) (Recv.at iss D 0) = Recv.at iss D (min (s * k) D.length) := by
  induction k with
  | zero => simp [inOrder]
  | succ k ih =>
    unfold inOrder at ih ⊢
    rw [List.range_succ, List.map_append, List.foldl_append, ih]
    obtain ⟨-, sg, h1, h2, h3, h4⟩ := frameOf_comes chk p6 (a k) c iss D (s * k) s (ha k) (hf k)
    simp only [List.map_cons, List.map_nil, List.foldl_cons, List.foldl_nil]
    rw [Recv.frame, h1]
    simp only
    by_cases hk : s * k ≤ D.length
    · rw [Nat.min_eq_left hk, at_take c iss D (s * k) (s * k) s sg h2 h3 h4 hk (Or.inr rfl)]
      congr 1
      have : s * (k + 1) = s * k + s := Nat.mul_succ s k
      split <;> omega
    · have hl : sg.data.length = 0 := by rw [h4, chunk_length]; omega
      have : s * (k + 1) = s * k + s := Nat.mul_succ s k
      rw [Nat.min_eq_right (by omega), Nat.min_eq_right (by omega)]
      unfold Recv.take
      simp only [hl]
      rw [if_neg (by omega)]

/-- **C109**: the program that reads the stream never gets anything but its beginning, whatever comes how often in what order, exactly
if the stream is shorter than 2^32 octets. -/
theorem C109_prefix_iff (chk : Bool) (p6 : Ipv6FromStr) (a : TcpArgs) (c : Conn) (iss : U32) (D : Bytes) (ha : a.For p6 c)
    (hf : a.Fit 1) :
    (∀ fs : List Bytes, (∀ f ∈ fs, Comes chk p6 c iss D f) → streamGot c iss.toNat fs <+: D) ↔ D.length < 4294967296 := by
  constructor
  · intro h
    by_contra hD
    have hm : ∀ f ∈ inOrder chk p6 (fun _ => a) iss D 1 D.length ++ [frameOf chk p6 a iss D (D.length - 4294967296) 1], Comes chk p6 c iss D f := by
      intro f hf'
      rcases List.mem_append.1 hf' with hf' | hf'
      · obtain ⟨j, -, rfl⟩ := List.mem_map.1 hf'
        exact (frameOf_comes chk p6 a c iss D _ 1 ha hf).1
      · obtain rfl := List.mem_singleton.1 hf'
        exact (frameOf_comes chk p6 a c iss D _ 1 ha hf).1
    have hp := (h _ hm).length_le
    obtain ⟨-, sg, h1, h2, h3, h4⟩ := frameOf_comes chk p6 a c iss D (D.length - 4294967296) 1 ha hf
    have hl : sg.data.length = 1 := by rw [h4, chunk_length]; omega
    rw [streamGot_eq, ← at_zero iss D, List.foldl_append, in_order chk p6 (fun _ => a) c iss D 1 (fun _ => ha) (fun _ => hf), Nat.one_mul, Nat.min_self, List.foldl_cons,
      List.foldl_nil, Recv.frame, h1] at hp
    simp only [Recv.take, hl] at hp
    rw [if_pos ⟨h2, by rw [h3]; simp only [Recv.at]; omega⟩] at hp
    simp only [Recv.at, List.length_append, List.take_length, List.length_drop, hl, h3] at hp
    omega
  · intro hD fs hfs
    obtain ⟨r, -, -, e⟩ := frames_come chk p6 c iss D hD fs 0 (by omega) hfs
    rw [streamGot_eq, ← at_zero iss D, e]
    exact List.take_prefix _ _

/-- **C109**: what comes later takes nothing back. -/
theorem C109_grows (chk : Bool) (p6 : Ipv6FromStr) (c : Conn) (iss : U32) (D : Bytes) (hD : D.length < 4294967296) (fs fs' : List Bytes)
    (h : ∀ f ∈ fs ++ fs', Comes chk p6 c iss D f) : streamGot c iss.toNat fs <+: streamGot c iss.toNat (fs ++ fs') := by
  obtain ⟨r, -, hr, e⟩ := frames_come chk p6 c iss D hD fs 0 (by omega) fun f hf => h f (by simp [hf])
  obtain ⟨r', hr', -, e'⟩ := frames_come chk p6 c iss D hD fs' r hr fun f hf => h f (by simp [hf])
  rw [streamGot_eq, streamGot_eq, ← at_zero iss D, List.foldl_append, e, e']
  simp only [Recv.at]
  exact List.take_prefix_take_left hr'

/-- **C109**: after a segment that begins no later than the next octet the program has everything up to its end. -/
theorem C109_progress (chk : Bool) (p6 : Ipv6FromStr) (a : TcpArgs) (c : Conn) (iss : U32) (D : Bytes) (hD : D.length < 4294967296)
    (fs : List Bytes) (h : ∀ f ∈ fs, Comes chk p6 c iss D f) (i n : Nat) (ha : a.For p6 c) (hf : a.Fit n)
    (hi : i ≤ (streamGot c iss.toNat fs).length) :
    (streamGot c iss.toNat (fs ++ [frameOf chk p6 a iss D i n])).length = max (streamGot c iss.toNat fs).length (min (i + n) D.length) := by
  obtain ⟨r, -, hr, e⟩ := frames_come chk p6 c iss D hD fs 0 (by omega) h
  obtain ⟨-, sg, h1, h2, h3, h4⟩ := frameOf_comes chk p6 a c iss D i n ha hf
  have hrec : streamGot c iss.toNat fs = D.take r := by
    rw [streamGot_eq, ← at_zero iss D, e]; rfl
  rw [hrec, List.length_take, Nat.min_eq_left hr] at hi ⊢
  rw [streamGot_eq, ← at_zero iss D, List.foldl_append, e, List.foldl_cons, List.foldl_nil, Recv.frame, h1]
  simp only
  rw [at_take c iss D r i n sg h2 h3 h4 hr (Or.inl hD)]
  simp only [Recv.at, List.length_take]
  split <;> omega

theorem sublist_come (chk : Bool) (p6 : Ipv6FromStr) (a : Nat → TcpArgs) (c : Conn) (iss : U32) (D : Bytes) (hD : D.length < 4294967296)
    (s : Nat) (ha : ∀ j, (a j).For p6 c) (hf : ∀ j, (a j).Fit s) (fs : List Bytes) : ∀ (js : List Nat) (j r : Nat), r ≤ D.length → min (s * j) D.length ≤ r →
    (∀ k, js[k]? = if k < js.length then some (j + k) else none) →
    (js.map fun j => frameOf chk p6 (a j) iss D (s * j) s).Sublist fs → (∀ f ∈ fs, Comes chk p6 c iss D f) →
    ∃ r', min (s * (j + js.length)) D.length ≤ r' ∧ r' ≤ D.length ∧ fs.foldl (Recv.frame c) (Recv.at iss D r) = Recv.at iss D r' := by
  induction fs with
  | nil =>
    intro js j r hr hj _ hs _
    have : js = [] := by simpa using List.sublist_nil.1 hs
    subst this
    exact ⟨r, hj, hr, rfl⟩
  | cons f fs ih =>
    intro js j r hr hj hjs hs hc
    have hcf := hc f (by simp)
    have hcs : ∀ f ∈ fs, Comes chk p6 c iss D f := fun f h => hc f (by simp [h])
    match js, hjs, hs with
    | [], _, _ =>
      obtain ⟨r', a1, a2, a3⟩ := frames_come chk p6 c iss D hD (f :: fs) r hr hc
      exact ⟨r', by simp only [List.length_nil, Nat.add_zero]; omega, a2, a3⟩
    | x :: js, hjs, hs =>
      have hx : x = j := by have := hjs 0; simpa using this
      subst hx
      rw [List.map_cons] at hs
      rcases List.sublist_cons_iff.1 hs with hs | ⟨l, e, hs⟩
      · obtain ⟨r1, a1, a2, a3⟩ := frame_comes chk p6 c iss D hD r hr f hcf
        obtain ⟨r2, b1, b2, b3⟩ := ih (x :: js) x r1 a2 (by omega) hjs (by rw [List.map_cons]; exact hs) hcs
        exact ⟨r2, b1, b2, by rw [List.foldl_cons, a3, b3]⟩
      · obtain ⟨rfl, rfl⟩ := List.cons.inj e
        obtain ⟨-, sg, h1, h2, h3, h4⟩ := frameOf_comes chk p6 (a x) c iss D (s * x) s (ha x) (hf x)
        have hst : (Recv.at iss D r).frame c (frameOf chk p6 (a x) iss D (s * x) s) =
            Recv.at iss D (if s * x ≤ r ∧ r < s * x + min s (D.length - s * x) then s * x + min s (D.length - s * x) else r) := by
          rw [Recv.frame, h1]; exact at_take c iss D r (s * x) s sg h2 h3 h4 hr (Or.inl hD)
        have hm : s * (x + 1) = s * x + s := Nat.mul_succ s x
        generalize hr1 : (if s * x ≤ r ∧ r < s * x + min s (D.length - s * x) then s * x + min s (D.length - s * x) else r) = r1 at hst
        have hr2 : r1 ≤ D.length ∧ min (s * (x + 1)) D.length ≤ r1 := by
          rw [← hr1, hm]; split <;> omega
        obtain ⟨r2, b1, b2, b3⟩ := ih js (x + 1) r1 hr2.1 hr2.2 (fun k => by
          have := hjs (k + 1)
          simp only [List.getElem?_cons_succ, List.length_cons, Nat.add_lt_add_iff_right] at this
          rw [this]
          split <;> simp; omega) hs hcs
        refine ⟨r2, ?_, b2, by rw [List.foldl_cons, hst, b3]⟩
        rw [List.length_cons, show x + (js.length + 1) = x + 1 + js.length by omega]
        exact b1

/-- **C109**: if all segments come, each after the one before it, whatever comes between them, before and after them, the program
gets the whole stream. -/
theorem C109_complete (chk : Bool) (p6 : Ipv6FromStr) (a : Nat → TcpArgs) (c : Conn) (iss : U32) (D : Bytes) (hD : D.length < 4294967296)
    (s : Nat) (ha : ∀ j, (a j).For p6 c) (hf : ∀ j, (a j).Fit s) (k : Nat) (hk : D.length ≤ s * k) (fs : List Bytes)
    (hs : (inOrder chk p6 a iss D s k).Sublist fs) (h : ∀ f ∈ fs, Comes chk p6 c iss D f) : streamGot c iss.toNat fs = D := by
  obtain ⟨r, a1, a2, a3⟩ := sublist_come chk p6 a c iss D hD s ha hf fs (List.range k) 0 0 (by omega) (by simp) (fun i => by
    rw [List.length_range]
    by_cases hi : i < k
    · rw [if_pos hi, List.getElem?_range hi, Nat.zero_add]
    · rw [if_neg hi, List.getElem?_eq_none]; simpa using hi) hs h
  rw [streamGot_eq, ← at_zero iss D, a3]
  rw [List.length_range, Nat.zero_add, Nat.min_eq_right hk] at a1
  simp only [Recv.at]
  exact List.take_of_length_le a1

/-! ## Samples -/

/-- Arguments for a connection over IPv4 with a VLAN tag, and for one over IPv6. -/
def streamArgs4 : TcpArgs :=
  ⟨Sample.mac1, Sample.mac2, true, 10, 3, .inl ⟨5, Sample.ip1, Sample.ip2, 1, 64, 0x1234, 0, []⟩, 80, 1234, 9, 5, 0, 0x18, 512, 0, true⟩
@[inherit_doc streamArgs4] def streamArgs6 : TcpArgs :=
  ⟨Sample.mac1, Sample.mac2, false, 10, 3, .inr ⟨7, 0x12345, 64, Sample.ip6a, Sample.ip6b⟩, 80, 1234, 9, 5, 0, 0x18, 512, 0, true⟩

def streamConn4 : Conn := ⟨[10#8, 0#8, 0#8, 1#8], [192#8, 168#8, 0#8, 2#8], 1234, 80⟩
def streamConn6 : Conn := ⟨to_ipv6_bytes Sample.p6 Sample.ip6a, to_ipv6_bytes Sample.p6 Sample.ip6b, 1234, 80⟩

-- the hypotheses hold, for segments of up to 65495 octets over IPv4, 65515 over IPv6
example : streamArgs4.For Sample.p6 streamConn4 ∧ streamArgs6.For Sample.p6 streamConn6 ∧ streamArgs4.Fit 65495 ∧ streamArgs6.Fit 65515 := by
  have hm : Addrs2 Sample.mac1 Sample.mac2 := ⟨⟨[0x00#8, 0x11#8, 0x22#8, 0x33#8, 0x44#8, 0x55#8], by decide +kernel⟩,
    [0x00#8, 0x06#8, 0x07#8, 0x08#8, 0x09#8, 0x0a#8], by decide +kernel⟩
  exact ⟨⟨hm, rfl, rfl, by decide +kernel, by decide +kernel⟩, ⟨hm, rfl, rfl, rfl, rfl⟩, ⟨by decide, show Sound4 5 0 (20 + 65495) by decide⟩,
    ⟨by decide, show Flow6 0x12345 ∧ 20 + 65515 < 65536 by decide⟩⟩

/-- A stream of ten octets. -/
def streamData : Bytes := [1#8, 2#8, 3#8, 4#8, 5#8, 6#8, 7#8, 8#8, 9#8, 10#8]

-- the numbers begin just below 2^32; segments come out of order, twice, cut otherwise, and with those of the other connection between them
example :
    let f := frameOf true Sample.p6 streamArgs4 0xfffffffe#32 streamData
    let g := frameOf true Sample.p6 streamArgs6 0xfffffffe#32 streamData
    streamGot streamConn4 0xfffffffe [f 4 4, f 0 4, g 4 4, f 2 3, f 0 4, f 4 4, f 8 4] = streamData ∧
    streamGot streamConn4 0xfffffffe [f 4 4, f 0 4, f 8 4] = streamData.take 4 ∧
    streamGot streamConn6 0xfffffffe [g 0 7, f 7 3, g 7 3] = streamData := by decide +kernel

end PacketRs
