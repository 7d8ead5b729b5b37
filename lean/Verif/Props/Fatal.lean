import Verif.Props.Internet
import Verif.Spec.Fatal
/-!
# Property C121: which right datagrams a router built on the crate does not survive

C111 takes the parse for granted.  Here: the frames on which the router of C111 panics, by what they carry.
-/
namespace PacketRs
open Spec Utils

/-! ## What is announced -/

theorem parse_fatal {f : Bytes} {g : Datagram} (hi : ipInput f = some g) (chk : Bool) :
    (∃ e, Slow.parse chk f = .error e) ↔ ¬ ∃ hs pl, Dissect (nextLayer g) (f.drop (l3At f + ipLen f)) hs pl := by
  obtain ⟨front, ip, x, y, -, -, -, -, -, hd, hparse⟩ := datagram_seen f g hi
  rw [hd, ← C22_panic_iff chk, hparse chk, nextLayer]
  cases Slow.parseL chk (if g.v6 then ipv6Next g.proto else ipv4Next g.proto) (x ++ (g.data ++ y)) with
  | error e => simp [Except.map]
  | ok p => simp [Except.map]

theorem Spec.Fatal.iff {f : Bytes} {g : Datagram} (hi : ipInput f = some g) :
    Fatal f ↔ ¬ ∃ hs pl, Dissect (nextLayer g) (f.drop (l3At f + ipLen f)) hs pl := by
  constructor
  · rintro ⟨g', hi', h⟩
    rw [hi] at hi'
    cases hi'
    exact h
  · exact fun h => ⟨g, hi, h⟩

theorem dissect_tcp (b : Bytes) : (∃ hs pl, Dissect .tcp b hs pl) ↔ 20 ≤ b.length := by
  constructor
  · rintro ⟨hs, pl, h⟩
    cases h with
    | tcp hl h => rw [List.length_append]; omega
  · intro h
    have := Dissect.tcp (h := b.take 20) (by rw [List.length_take]; omega) (.payload (b.drop 20))
    rw [List.take_append_drop] at this
    exact ⟨_, _, this⟩

theorem dissect_icmp (b : Bytes) : (∃ hs pl, Dissect .icmp b hs pl) ↔ 4 ≤ b.length := by
  constructor
  · rintro ⟨hs, pl, h⟩
    cases h with
    | icmp hl h => rw [List.length_append]; omega
  · intro h
    have := Dissect.icmp (h := b.take 4) (by rw [List.length_take]; omega) (.payload (b.drop 4))
    rw [List.take_append_drop] at this
    exact ⟨_, _, this⟩

theorem dissect_udp (b : Bytes) : (∃ hs pl, Dissect .udp b hs pl) ↔
    8 ≤ b.length ∧ (u16At b 2 = 4789 → ∃ hs pl, Dissect .vxlan (b.drop 8) hs pl) := by
  constructor
  · rintro ⟨hs, pl, h⟩
    cases h with
    | udp hl hn h =>
      refine ⟨by rw [List.length_append]; omega, fun c => absurd ?_ hn⟩
      rwa [u16At_append_left _ _ _ (by omega)] at c
    | udpVxlan hl hn h =>
      exact ⟨by rw [List.length_append]; omega, fun _ => ⟨_, _, by rw [List.drop_left' hl]; exact h⟩⟩
  · rintro ⟨h, c⟩
    have hl : (b.take 8).length = 8 := by rw [List.length_take]; omega
    have e : u16At (b.take 8) 2 = u16At b 2 := u16At_take _ _ _ (by omega)
    by_cases h4 : u16At b 2 = 4789
    · obtain ⟨hs, pl, hd⟩ := c h4
      have := Dissect.udpVxlan hl (e.trans h4) hd
      rw [List.take_append_drop] at this
      exact ⟨_, _, this⟩
    · have := Dissect.udp hl (e ▸ h4) (.payload (b.drop 8))
      rw [List.take_append_drop] at this
      exact ⟨_, _, this⟩

theorem dissect_vxlan (b : Bytes) (h : ∃ hs pl, Dissect .vxlan b hs pl) : 22 ≤ b.length := by
  obtain ⟨hs, pl, h⟩ := h
  cases h with
  | vxlan hl h =>
    cases h with
    | ether hl' h => simp only [List.length_append]; omega

/-! ## By what the datagram carries -/

/-- **C121, TCP.** A segment a host takes is never fatal, with or without IPv4 options. -/
theorem C121_tcp {f : Bytes} {m : TcpSeg} (hm : hostTcp f = some m) : ¬ Fatal f := by
  obtain ⟨g, hi, hu⟩ := Option.bind_eq_some_iff.mp hm
  obtain ⟨hp, hl, -⟩ := tcpInput_fields hu
  obtain ⟨front, ip, x, y, -, -, -, -, -, hd, -⟩ := datagram_seen f g hi
  rw [Fatal.iff hi, not_not, hd, nextLayer, hp, show (if g.v6 then ipv6Next 6 else ipv4Next 6) = .tcp by split <;> rfl, dissect_tcp]
  simp only [List.length_append]
  omega

/-- **C121, ICMP.** Nor is an ICMP message. -/
theorem C121_icmp {f : Bytes} {m : IcmpMsg} (hm : hostIcmp f = some m) : ¬ Fatal f := by
  obtain ⟨g, hi, hu⟩ := Option.bind_eq_some_iff.mp hm
  obtain ⟨hl, -, -, hpr⟩ := icmpInput_fields hu
  obtain ⟨front, ip, x, y, -, -, -, -, -, hd, -⟩ := datagram_seen f g hi
  rw [Fatal.iff hi, not_not, hd, show nextLayer g = .icmp by
    unfold nextLayer; rcases hpr with ⟨q1, q2⟩ | ⟨q1, q2⟩ <;> rw [q1, q2] <;> rfl, dissect_icmp]
  simp only [List.length_append]
  omega

/-- **C121, UDP.** A UDP message a host takes is fatal iff the two octets 2 and 3 behind the fixed IP header are 4789 and what begins
six octets on is not a VXLAN header and an inner frame with the headers it announces.  Without IPv4 options the two octets are the port
it is for. -/
theorem C121_udp {f : Bytes} {m : UdpMsg} (hm : hostUdp f = some m) :
    (Fatal f ↔ u16At f (l3At f + ipLen f + 2) = 4789 ∧ ¬ ∃ hs pl, Dissect .vxlan (f.drop (l3At f + ipLen f + 8)) hs pl) ∧
      (NoOptions f → u16At f (l3At f + ipLen f + 2) = m.dport) := by
  obtain ⟨g, hi, hu⟩ := Option.bind_eq_some_iff.mp hm
  obtain ⟨hp, hl, -, hdp⟩ := udpInput_fields hu
  obtain ⟨front, ip, x, y, -, -, -, hx, -, hd, -⟩ := datagram_seen f g hi
  refine ⟨?_, fun ho => ?_⟩
  · have h8 : 8 ≤ (f.drop (l3At f + ipLen f)).length := by rw [hd]; simp only [List.length_append]; omega
    rw [Fatal.iff hi, nextLayer, hp, show (if g.v6 then ipv6Next 17 else ipv4Next 17) = .udp by split <;> rfl, dissect_udp, u16At_drop_add,
      List.drop_drop]
    constructor
    · intro h
      by_cases c : u16At f (l3At f + ipLen f + 2) = 4789
      · exact ⟨c, fun h' => h ⟨h8, fun _ => h'⟩⟩
      · exact absurd ⟨h8, fun c' => absurd c' c⟩ h
    · rintro ⟨c, h⟩ ⟨-, h'⟩
      exact h (h' c)
  · obtain rfl := hx.mpr ho
    rw [← u16At_drop_add, hd, List.nil_append, u16At_append_left _ _ _ (by omega), hdp]

/-- **C121, short messages.** Without IPv4 options, a message for port 4789 in a frame that ends less than 22 octets behind the UDP
header is fatal. -/
theorem C121_short {f : Bytes} {m : UdpMsg} (hm : hostUdp f = some m) (ho : NoOptions f) (h : m.dport = 4789)
    (hs : f.length < l3At f + ipLen f + 30) : Fatal f := by
  obtain ⟨h1, h2⟩ := C121_udp hm
  refine h1.mpr ⟨(h2 ho).trans h, fun h => ?_⟩
  have := dissect_vxlan _ h
  rw [List.length_drop] at this
  omega

/-- **C121, other protocols.** No datagram is fatal whose protocol number the parser has no header for. -/
theorem C121_other {f : Bytes} {g : Datagram} (hi : ipInput f = some g) (h : ∀ n ∈ [4, 6, 17, 41, 47, if g.v6 then 58 else 1], g.proto ≠ n) :
    ¬ Fatal f := by
  rw [Fatal.iff hi, not_not]
  have e : nextLayer g = .payload := by
    simp only [List.mem_cons, List.not_mem_nil, or_false, forall_eq_or_imp, forall_eq] at h
    obtain ⟨h1, h2, h3, h4, h5, h6⟩ := h
    unfold nextLayer ipv6Next ipv4Next
    cases h7 : g.v6 <;> rw [h7] at h6 <;> simp only [Bool.false_eq_true, if_false, if_true] at h6 ⊢ <;>
      rw [if_neg h6, if_neg h1, if_neg h2, if_neg h3, if_neg h4, if_neg h5]
  rw [e]
  exact ⟨_, _, .payload _⟩

/-- **C121, padding.** Octets behind the frame change nothing of the datagram; they can take the fatality away, and enough of them
always do, but they never bring it. -/
theorem C121_padding {f : Bytes} {g : Datagram} (hi : ipInput f = some g) :
    (∀ z, ipInput (f ++ z) = some g) ∧ (∀ z, Fatal (f ++ z) → Fatal f) ∧ ∃ z, ¬ Fatal (f ++ z) := by
  have hlen := (v6_type hi).2.1
  have key : ∀ z, Fatal (f ++ z) ↔ ¬ ∃ hs pl, Dissect (nextLayer g) (f.drop (l3At f + ipLen f) ++ z) hs pl := fun z => by
    obtain ⟨h1, h2, h3⟩ := ipInput_more z hi
    rw [Fatal.iff h1, h2, h3, List.drop_append_of_le_length hlen]
  refine ⟨fun z => (ipInput_more z hi).1, fun z h => ?_, ?_⟩
  · rw [Fatal.iff hi]
    rintro ⟨hs, pl, hd⟩
    exact (key z).mp h ⟨_, _, Dissect_append z hd⟩
  · obtain ⟨hs, pl, hd⟩ := Dissect_extend_aux _ (nextLayer g) (f.drop (l3At f + ipLen f)) (Nat.le_refl _) 0
    exact ⟨_, fun h => (key _).mp h ⟨_, _, hd⟩⟩

/-! ## The router -/

/-- What has been parsed is forwarded or dropped without a panic, with any number of GRE options. -/
theorem forward_ok {chk : Bool} {f : Bytes} {g : Datagram} {p : Packet} (hi : ipInput f = some g) (hp : Slow.parse chk f = .ok p)
    (r : Router) (hr : r.Ok) : ∃ y, r.forward chk g.v6 p = .ok y := by
  obtain ⟨L, post, hL, -, hLn⟩ := front_types hi hp
  have hwf := frame_sizes hp
  have hm : (r.dst ++ r.src).length = 12 := by rw [List.length_append, hr.1, hr.2]
  have b8 : ∀ (v : U64) j, j < 8 * [BitVec.ofNat 8 v.toNat].length →
      netBit [BitVec.ofNat 8 v.toNat] j = v.getLsbD (8 * [BitVec.ofNat 8 v.toNat].length - 1 - j) := fun v j hj => netBit_num8 v j hj
  have he : ∀ t : U64, ∃ q, r.edit chk g.v6 t p = .ok q ∧ q.hdrs.map (·.ty) = p.hdrs.map (·.ty) ∧ ∀ x ∈ q.hdrs, x.data.length = x.ty.size := by
    intro t
    cases h6 : g.v6 with
    | true =>
      rw [h6] at hL
      obtain ⟨q, e, t1, w1, -⟩ := edit_types IPv6 IPv6.hop_limit (t - 1) 7 [BitVec.ofNat 8 (t - 1).toNat] rfl rfl Nat.one_pos (show 7 + 1 ≤ 40 by decide) (b8 _) p
        (Ether :: L) post hL (fun S hS => by rcases hLn S hS with rfl | rfl <;> decide) hwf
      exact ⟨q, by simp only [Router.edit, if_true]; exact e, t1, w1⟩
    | false =>
      obtain ⟨-, -, -, -, front, ip, post', hfirst, hty, -⟩ := ip4_shape hi h6 hp
      rw [h6] at hL
      have hLn' : ∀ S ∈ Ether :: L, S.name ≠ IPv4.name := fun S hS => by rcases hLn S hS with rfl | rfl <;> decide
      cases ho : r.own with
      | true =>
        have hl : ip.data.length = 20 := by rw [hwf ip (by rw [hfirst.1]; simp), hty]; rfl
        obtain ⟨g', c, -, -, hl', -, e⟩ := edit_refresh chk p front post' ip hfirst hty hl IPv4.ttl ⟨by decide, by decide⟩ (t - 1)
        refine ⟨_, by simp only [Router.edit, ho, Bool.false_eq_true, if_false, if_true]; exact e, ?_, ?_⟩
        · rw [hfirst.1]; simp [hty]
        · intro x hx
          simp only [List.mem_append, List.mem_cons] at hx
          rcases hx with hx | rfl | hx
          · exact hwf x (by rw [hfirst.1]; simp [hx])
          · rw [length_putChecksum, hl']; rfl
          · exact hwf x (by rw [hfirst.1]; simp [hx])
      | false =>
        obtain ⟨pr, r1, -⟩ := readField_types chk IPv4 IPv4.protocol p (Ether :: L) post hL hLn' hwf ⟨by decide, by decide⟩ (by decide)
        obtain ⟨c, r2, -⟩ := readField_types chk IPv4 IPv4.header_checksum p (Ether :: L) post hL hLn' hwf ⟨by decide, by decide⟩ (by decide)
        obtain ⟨q1, e1, t1, w1, -⟩ := edit_types IPv4 IPv4.ttl (t - 1) 8 [BitVec.ofNat 8 (t - 1).toNat] rfl rfl Nat.one_pos (show 8 + 1 ≤ 20 by decide) (b8 _) p
          (Ether :: L) post hL hLn' hwf
        obtain ⟨q2, e2, t2, w2, -⟩ := edit_types IPv4 IPv4.header_checksum
          (BitVec.ofNat 64 (adjust c.toNat [256 * t.toNat + pr.toNat] [256 * (t - 1).toNat + pr.toNat])) 10 (num16 _) rfl rfl (Nat.zero_lt_succ 1)
          (show 10 + 2 ≤ 20 by decide) (fun j hj => netBit_num16 _ j hj) q1 (Ether :: L) post (by rw [t1, hL]; rfl) hLn' w1
        refine ⟨q2, ?_, by rw [t2, t1], w2⟩
        simp only [Router.edit, ho, Bool.false_eq_true, if_false, r1, r2, e1, bind, Except.bind]
        exact e2
  have ht : ∃ t, readHops chk g.v6 p = .ok t := by
    unfold readHops
    cases h6 : g.v6 with
    | true =>
      rw [h6] at hL
      obtain ⟨t, e, -⟩ := readField_types chk IPv6 IPv6.hop_limit p (Ether :: L) post hL
        (fun S hS => by rcases hLn S hS with rfl | rfl <;> decide) hwf ⟨by decide, by decide⟩ (by decide)
      exact ⟨t, e⟩
    | false =>
      rw [h6] at hL
      obtain ⟨t, e, -⟩ := readField_types chk IPv4 IPv4.ttl p (Ether :: L) post hL
        (fun S hS => by rcases hLn S hS with rfl | rfl <;> decide) hwf ⟨by decide, by decide⟩ (by decide)
      exact ⟨t, e⟩
  obtain ⟨t, ht⟩ := ht
  by_cases h1 : t.toNat ≤ 1
  · exact ⟨none, by simp only [Router.forward, ht, bind, Except.bind, if_pos h1]; rfl⟩
  · obtain ⟨q, e1, t1, w1⟩ := he t
    obtain ⟨q', e2, -⟩ := putIn_types Ether (fun h => h.set_bytes chk 95 0 (r.dst ++ r.src)) 0 (r.dst ++ r.src) (by
        intro g hg hl
        have hl : g.data.length = 14 := hl
        have := setBytes_put chk g.data 0 (r.dst ++ r.src) (fun h => by rw [h] at hm; cases hm) (by omega) (by omega)
        rw [hm] at this
        simp only [Hdr.set_bytes, this, bind, Except.bind, pure, Except.pure, hg])
      q [] (L ++ (if g.v6 then IPv6 else IPv4) :: post) (by rw [t1, hL]; rfl) (by simp) w1 (by rw [hm]; decide)
    exact ⟨some q', by simp only [Router.forward, ht, bind, Except.bind, if_neg h1, e1, e2]; rfl⟩

/-- **C121, a station.** Either parser panics on a frame with a right datagram iff the frame is fatal. -/
theorem C121_station {f : Bytes} {g : Datagram} (hi : ipInput f = some g) (chk : Bool) :
    ((∃ e, Slow.parse chk f = .error e) ↔ Fatal f) ∧
      ∀ w : Fast.Win, w.InBounds → w.bytes = f → ((∃ e, Fast.parse chk w = .error e) ↔ Fatal f) := by
  have h := (parse_fatal hi chk).trans (Fatal.iff hi).symm
  refine ⟨h, fun w hb hw => ?_⟩
  rw [← h, ← hw, ← C26_parse chk w hb]
  cases Fast.parse chk w <;> simp [Except.map]

/-- **C121, a router.** On whatever frame: it panics iff the frame is fatal. -/
theorem C121_router (chk : Bool) (f : Bytes) (r : Router) (hr : r.Ok) : (∃ e, r.pass chk f = .error e) ↔ Fatal f := by
  unfold Router.pass
  cases hi : ipInput f with
  | none =>
    refine ⟨fun ⟨e, h⟩ => (nomatch h), ?_⟩
    rintro ⟨g, h, -⟩
    rw [hi] at h
    cases h
  | some g =>
    have h := (parse_fatal hi chk).trans (Fatal.iff hi).symm
    rw [← h]
    cases hp : Slow.parse chk f with
    | error e => exact ⟨fun _ => ⟨e, rfl⟩, fun _ => ⟨e, rfl⟩⟩
    | ok p =>
      obtain ⟨y, e⟩ := forward_ok hi hp r hr
      simp only [bind, Except.bind, e]
      exact ⟨fun ⟨_, h⟩ => (nomatch h), fun ⟨_, h⟩ => (nomatch h)⟩

/-- The router at work: `for f in frames { router.pass(f) }`. -/
def Router.serve (chk : Bool) (r : Router) : List Bytes → R (List (Option Bytes))
  | [] => pure []
  | f :: fs => do
    let x ← r.pass chk f
    let xs ← r.serve chk fs
    pure (x :: xs)

/-- **C121, a router at work.** It gets through what arrives iff none of it is fatal: one fatal frame stops it, whatever came before. -/
theorem C121_serve (chk : Bool) (r : Router) (hr : r.Ok) (fs : List Bytes) :
    (∃ e, r.serve chk fs = .error e) ↔ ∃ f ∈ fs, Fatal f := by
  induction fs with
  | nil => exact ⟨fun ⟨_, h⟩ => (nomatch h), by simp⟩
  | cons f fs ih =>
    have h1 := C121_router chk f r hr
    simp only [List.mem_cons, exists_eq_or_imp, ← ih, ← h1, Router.serve]
    cases r.pass chk f with
    | error e => simp [bind, Except.bind]
    | ok x =>
      cases r.serve chk fs with
      | error e => simp [bind, Except.bind]
      | ok xs => simp [bind, Except.bind, pure, Except.pure]

/-- **C121, a path.** On a path of routers it is the first that panics or none: what one router has sent on is fatal to none behind it. -/
theorem C121_path {chk : Bool} {f : Bytes} (hg : ∀ p, Slow.parse chk f = .ok p → ∀ g ∈ p.hdrs, g.ty = GRE → greOptCount g.data ≤ 1)
    (r : Router) (rs : List Router) (hr : ∀ x ∈ r :: rs, x.Ok) : (∃ e, along chk (r :: rs) f = .error e) ↔ Fatal f := by
  have h1 := C121_router chk f r (hr r (by simp))
  refine ⟨fun he => ?_, fun h => ?_⟩
  · by_contra h
    cases hi : ipInput f with
    | none =>
      obtain ⟨e, he⟩ := he
      simp only [along, Router.pass, hi, bind, Except.bind, pure, Except.pure] at he
      cases he
    | some g =>
      rw [← (C121_station hi chk).1] at h
      cases hp : Slow.parse chk f with
      | error e => exact h ⟨e, hp⟩
      | ok p =>
        obtain ⟨x, e, -⟩ := C111_path hi hp (hg p hp) (r :: rs) (fun x hx => hr x hx)
        rw [e] at he
        obtain ⟨_, he⟩ := he
        cases he
  · obtain ⟨e, he⟩ := h1.mpr h
    exact ⟨e, by simp only [along, he, bind, Except.bind]⟩

/-! ## Cases -/

/-- Three octets for port 4789. -/
def fatalUdp : Bytes := [2, 0, 0, 0, 0, 1, 2, 0, 0, 0, 0, 2, 8, 0, 69, 0, 0, 31, 0, 1, 0, 0, 64, 17, 102, 203, 10, 0, 0, 1, 10, 0, 0, 2, 48, 57, 18, 181, 0, 11, 0, 0, 7, 8, 9]
/-- The same for port 4790. -/
def survivedUdp : Bytes := [2, 0, 0, 0, 0, 1, 2, 0, 0, 0, 0, 2, 8, 0, 69, 0, 0, 31, 0, 1, 0, 0, 64, 17, 102, 203, 10, 0, 0, 1, 10, 0, 0, 2, 48, 57, 18, 182, 0, 11, 0, 0, 7, 8, 9]
/-- An empty message for port 53 behind an IPv4 option whose last two octets are 4789. -/
def fatalOption : Bytes := [2, 0, 0, 0, 0, 1, 2, 0, 0, 0, 0, 2, 8, 0, 70, 0, 0, 32, 0, 1, 0, 0, 64, 17, 76, 17, 10, 0, 0, 1, 10, 0, 0, 2, 7, 4, 18, 181, 48, 57, 0, 53, 0, 8, 0, 0]

-- all three are right messages
example : (hostUdp fatalUdp).map (·.data) = some [7, 8, 9] ∧ (hostUdp survivedUdp).map (·.dport) = some 4790 ∧
    (hostUdp fatalOption).map (·.dport) = some 53 := by decide +kernel
example : NoOptions fatalUdp ∧ ¬ NoOptions fatalOption := by unfold NoOptions; decide +kernel
-- the first and the third end a router of either kind
example : hopUpdate.pass true fatalUdp = .error .index ∧ hopCrate.pass false fatalUdp = .error .index := by decide +kernel
example : hopUpdate.pass true fatalOption = .error .index ∧ hopCrate.pass false fatalOption = .error .index := by decide +kernel
example : ((hopUpdate.pass true survivedUdp).toOption.bind id).map hopsLeft = some 63 := by decide +kernel
-- so does the first padded to the 60 octets of the shortest Ethernet frame; padded with 40 octets more it is forwarded
example : fatalUdp.length = 45 ∧ hopUpdate.pass true (fatalUdp ++ List.replicate 15 0) = .error .index := by decide +kernel
example : ((hopUpdate.pass true (fatalUdp ++ List.replicate 40 0)).toOption.bind id).map hopsLeft = some 63 := by decide +kernel
-- a router that has done well until then
example : hopUpdate.serve true [survivedUdp, fatalUdp, survivedUdp] = .error .index ∧
    ((hopUpdate.serve true [survivedUdp, survivedUdp]).toOption.map List.length) = some 2 := by decide +kernel
-- a segment and an echo request behind the same option, and a protocol the parser has no header for
example : let f : Bytes := [2, 0, 0, 0, 0, 1, 2, 0, 0, 0, 0, 2, 8, 0, 70, 0, 0, 44, 0, 1, 0, 0, 64, 6, 76, 16, 10, 0, 0, 1, 10, 0, 0, 2, 7, 4, 18, 181, 48, 57, 18, 181, 0, 0, 0, 1, 0, 0, 0, 0, 80, 2, 16, 0, 72, 241, 0, 0]
    (hostTcp f).map (·.dport) = some 4789 ∧ ¬ NoOptions f ∧ (hopCrate.pass true f).toOption.isSome := by unfold NoOptions; decide +kernel
example : let f : Bytes := [2, 0, 0, 0, 0, 1, 2, 0, 0, 0, 0, 2, 8, 0, 70, 0, 0, 32, 0, 1, 0, 0, 64, 1, 76, 33, 10, 0, 0, 1, 10, 0, 0, 2, 7, 4, 18, 181, 8, 0, 247, 253, 0, 1, 0, 1]
    (hostIcmp f).map (·.type) = some 8 ∧ ¬ NoOptions f ∧ (hopCrate.pass true f).toOption.isSome := by unfold NoOptions; decide +kernel
example : let f : Bytes := [2, 0, 0, 0, 0, 1, 2, 0, 0, 0, 0, 2, 8, 0, 69, 0, 0, 21, 0, 1, 0, 0, 64, 99, 102, 131, 10, 0, 0, 1, 10, 0, 0, 2, 1]
    (ipInput f).map (·.proto) = some 99 ∧ (hopCrate.pass true f).toOption.isSome := by decide +kernel
-- two octets of a GRE header
example : let f : Bytes := [2, 0, 0, 0, 0, 1, 2, 0, 0, 0, 0, 2, 8, 0, 69, 0, 0, 22, 0, 1, 0, 0, 64, 47, 102, 182, 10, 0, 0, 1, 10, 0, 0, 2, 0, 0]
    (ipInput f).map (·.proto) = some 47 ∧ hopCrate.pass true f = .error .index := by decide +kernel
-- the hypotheses of the others
example : hopUpdate.Ok ∧ hopCrate.Ok := by unfold Router.Ok; decide
example : Fatal fatalUdp := (C121_router true fatalUdp hopUpdate (by unfold Router.Ok; decide)).mp ⟨.index, by decide +kernel⟩

end PacketRs
