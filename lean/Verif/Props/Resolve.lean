import Verif.Spec.Resolve
import Verif.Props.Napt
import Verif.Samples
/-!
# Property C112: address resolution between stations that use the crate

Stations on a link make ARP requests with `create_arp_packet`, read what arrives with the getters and answer with the request itself,
edited (C102).  The link loses, repeats, delays and reorders frames.
-/
namespace PacketRs
open Spec Utils

/-! ## The client -/

/-- A station: its addresses as texts and as octets. -/
structure ArpStation where
  macText : Str
  ipText : Str
  mac : Bytes
  ip : Bytes
  hmac : to_mac_bytes macText = .ok mac
  hip : to_ipv4_bytes ipText = .ok ip

/-- The table of a station: from protocol addresses to link addresses, both as the getters give them. -/
abbrev ArpTable := U64 → Option U64

/-- A station takes a frame; what is no ARP message is left to others.
`let arp = pkt.get_header::<ARP>("ARP").unwrap(); let (op, sha, spa, tpa) = (arp.opcode(), arp.sender_hw_addr(), ..);`
`if tpa == own || table.contains_key(&spa) { table.insert(spa, sha); } if op == 1 && tpa == own { /* C102 */ }` -/
def ArpStation.receive (chk : Bool) (s : ArpStation) (t : ArpTable) (f : Bytes) : R (ArpTable × Option Bytes) :=
  match hostArp f with
  | none => pure (t, none)
  | some _ => do
    let p ← Slow.parse chk f
    let op ← readField chk ARP ARP.opcode p
    let sha ← readField chk ARP ARP.sender_hw_addr p
    let spa ← readField chk ARP ARP.sender_proto_addr p
    let tpa ← readField chk ARP ARP.target_proto_addr p
    let t' : ArpTable := fun a => if a = spa ∧ (tpa = addrNum s.ip ∨ (t a).isSome) then some sha else t a
    if op = 1 ∧ tpa = addrNum s.ip then do
      let q ← arpReply chk s.mac p
      pure (t', some q.to_vec)
    else pure (t', none)

/-- The link address all stations take. -/
def everyone : Bytes := List.replicate 6 255#8

/-- A station asks for the link address of `tip`. -/
def ArpStation.request (s : ArpStation) (ve : Bool) (vid : U16) (pcp : Byte) (tip : Str) (payload : Bytes) : R Bytes := do
  let p ← create_arp_packet "ff:ff:ff:ff:ff:ff".toList s.macText ve vid pcp 1 s.macText "00:00:00:00:00:00".toList s.ipText tip payload
  pure p.to_vec

/-- The tables of all stations, and every frame ever sent. -/
structure ArpLink where
  tables : Nat → ArpTable
  sent : List Bytes

/-- What can happen: a station asks; somebody sends another frame; a frame sent before reaches a station, perhaps again and perhaps
late (a frame that is lost never does); a station forgets an entry. -/
inductive ArpEvent where
  | ask (i : Nat) (ve : Bool) (vid : U16) (pcp : Byte) (tip : Str) (payload : Bytes)
  | other (f : Bytes)
  | deliver (i k : Nat)
  | forget (i : Nat) (a : U64)

/-- A station takes only frames to itself or to everyone. -/
def ArpLink.step (chk : Bool) (st : Nat → ArpStation) (n : ArpLink) : ArpEvent → R ArpLink
  | .ask i ve vid pcp tip payload => do
    let f ← (st i).request ve vid pcp tip payload
    pure ⟨n.tables, n.sent ++ [f]⟩
  | .other f => pure ⟨n.tables, n.sent ++ [f]⟩
  | .deliver i k =>
    match n.sent[k]? with
    | none => pure n
    | some f =>
      if f.take 6 = (st i).mac ∨ f.take 6 = everyone then do
        let x ← (st i).receive chk (n.tables i) f
        pure ⟨fun j => if j = i then x.1 else n.tables j, n.sent ++ x.2.toList⟩
      else pure n
  | .forget i a => pure ⟨fun j b => if j = i ∧ b = a then none else n.tables j b, n.sent⟩

/-- One event after the other. -/
def ArpLink.run (chk : Bool) (st : Nat → ArpStation) : List ArpEvent → ArpLink → R ArpLink
  | [], n => pure n
  | e :: es, n => do
    let n' ← n.step chk st e
    ArpLink.run chk st es n'

/-- Before anything happens. -/
def ArpLink.start : ArpLink := ⟨fun _ _ => none, []⟩

/-- The message tells the truth about its sender. -/
def TrueSender (st : Nat → ArpStation) (m : ArpMsg) : Prop := ∃ j, m.sha = (st j).mac ∧ m.spa = (st j).ip

/-- Requests are for addresses that can be converted, and no frame of others lies about the sender. -/
def ArpEvent.Honest (st : Nat → ArpStation) : ArpEvent → Prop
  | .ask _ _ _ _ tip _ => ∃ b, to_ipv4_bytes tip = .ok b
  | .other f => ∀ m, hostArp f = some m → TrueSender st m
  | _ => True

/-! ## Numbers and octets -/

theorem fieldVal_slice (d : Bytes) (a n : Nat) (hn : 0 < n) (h : a + n ≤ d.length) :
    fieldVal d (8 * a) (8 * a + 8 * n - 1) = beNat ((d.drop a).take n) := by
  have hl : ((d.drop a).take n).length = n := by rw [List.length_take, List.length_drop]; omega
  have ha : (d.take a).length = a := by rw [List.length_take]; omega
  have e : d = d.take a ++ ((d.drop a).take n ++ (d.drop a).drop n) := by rw [List.take_append_drop, List.take_append_drop]
  conv => lhs; rw [e]
  rw [fieldVal_append_right _ _ _ _ (by omega) (by omega) (by rw [List.length_append, List.length_drop, List.length_drop]; omega), ha,
    fieldVal_append_left _ _ _ _ (by omega), show 8 * a - 8 * a = 0 by omega, fieldVal_all _ _ (by omega)]

theorem addrNum_toNat (b : Bytes) (h : b.length ≤ 8) : (addrNum b).toNat = beNat b := by
  have := beNat_lt b
  have := Nat.pow_le_pow_right (show 0 < 256 by decide) h
  rw [addrNum, BitVec.toNat_ofNat, Nat.mod_eq_of_lt (by omega)]

/-- Addresses of the same length with the same number are the same. -/
theorem addrNum_inj {a b : Bytes} (ha : a.length ≤ 8) (hl : a.length = b.length) : addrNum a = addrNum b ↔ a = b := by
  refine ⟨fun h => beNat_inj a b hl ?_, fun h => by rw [h]⟩
  rw [← addrNum_toNat a ha, ← addrNum_toNat b (by omega), h]

theorem ArpStation.mac_length (s : ArpStation) : s.mac.length = 6 := C31_length _ _ s.hmac
theorem ArpStation.ip_length (s : ArpStation) : s.ip.length = 4 := C32_length _ _ s.hip

theorem arpInput_lengths {b : Bytes} {m : ArpMsg} (h : arpInput b = some m) :
    m.sha.length = 6 ∧ m.spa.length = 4 ∧ m.tha.length = 6 ∧ m.tpa.length = 4 := by
  unfold arpInput at h
  obtain ⟨⟨h1, -⟩, h⟩ := Option.ite_none_right_eq_some.mp h
  cases h
  simp only [List.length_take, List.length_drop]
  omega

theorem hostArp_lengths {f : Bytes} {m : ArpMsg} (h : hostArp f = some m) :
    m.sha.length = 6 ∧ m.spa.length = 4 ∧ m.tha.length = 6 ∧ m.tpa.length = 4 := by
  obtain ⟨-, -, -, -, -, -, -, -, h⟩ := arp_types (chk := true) h
  exact arpInput_lengths h

/-! ## One frame -/

/-- What the getters read from a frame with an ARP message. -/
theorem arp_read {chk : Bool} {f : Bytes} {m : ArpMsg} {p : Packet} (hm : hostArp f = some m) (hp : Slow.parse chk f = .ok p) :
    (∃ v, readField chk ARP ARP.opcode p = .ok v ∧ (v = 1 ↔ m.op = 1)) ∧
      readField chk ARP ARP.sender_hw_addr p = .ok (addrNum m.sha) ∧
      readField chk ARP ARP.sender_proto_addr p = .ok (addrNum m.spa) ∧
      readField chk ARP ARP.target_proto_addr p = .ok (addrNum m.tpa) := by
  obtain ⟨p', L, hp', ht, hsz, hn, hlen, he, ha⟩ := arp_types (chk := chk) hm
  obtain rfl := Except.ok.inj (hp.symm.trans hp')
  have hwf := frame_sizes hp
  have hvec : p.to_vec = f := C23_roundtrip_frame chk f p hp (by
    intro g hg e
    have : GRE ∈ p.hdrs.map (·.ty) := e ▸ List.mem_map_of_mem hg
    rw [ht] at this
    have := congrArg HeaderDef.name (List.mem_singleton.mp ((List.mem_append.mp this).resolve_left (fun h => by
      rcases hn _ h with e | e <;> have e := congrArg HeaderDef.name e <;> revert e <;> decide)))
    exact absurd this (by decide))
  have hA : ∀ S ∈ Ether :: L, S.name ≠ ARP.name := by
    intro S hS
    rcases hn S hS with rfl | rfl <;> decide
  have hb : 28 ≤ (f.drop (l3At f)).length := by rw [List.length_drop]; omega
  have rd : ∀ (x : Field), x.Inside ARP.size → x.width ≤ 64 → ∃ v, readField chk ARP x p = .ok v ∧
      v.toNat = fieldVal ((f.drop (l3At f)).take 28) x.lo x.hi := by
    intro x hx hw
    obtain ⟨v, e, hv⟩ := readField_types chk ARP x p (Ether :: L) [] ht hA hwf hx hw
    rw [hsz, hvec] at hv
    exact ⟨v, e, hv⟩
  generalize f.drop (l3At f) = b at ha hb rd
  have sl : ∀ a n, 0 < n → a + n ≤ 28 → fieldVal (b.take 28) (8 * a) (8 * a + 8 * n - 1) = beNat ((b.drop a).take n) := by
    intro a n h0 h1
    rw [fieldVal_slice _ _ _ h0 (by rw [List.length_take]; omega), List.drop_take, List.take_take, Nat.min_eq_left (by omega)]
  unfold arpInput at ha
  obtain ⟨-, ha⟩ := Option.ite_none_right_eq_some.mp ha
  cases ha
  have nm : ∀ (v : U64) (w : Bytes), w.length ≤ 8 → v.toNat = beNat w → v = addrNum w := by
    intro v w hw h
    exact BitVec.eq_of_toNat_eq (by rw [h, addrNum_toNat _ hw])
  obtain ⟨v0, e0, h0⟩ := rd ARP.opcode (by decide) (by decide)
  obtain ⟨v1, e1, h1⟩ := rd ARP.sender_hw_addr (by decide) (by decide)
  obtain ⟨v2, e2, h2⟩ := rd ARP.sender_proto_addr (by decide) (by decide)
  obtain ⟨v3, e3, h3⟩ := rd ARP.target_proto_addr (by decide) (by decide)
  have g1 := nm v1 _ (by rw [List.length_take]; omega) (h1.trans (sl 8 6 (by decide) (by decide)))
  have g2 := nm v2 _ (by rw [List.length_take]; omega) (h2.trans (sl 14 4 (by decide) (by decide)))
  have g3 := nm v3 _ (by rw [List.length_take]; omega) (h3.trans (sl 24 4 (by decide) (by decide)))
  refine ⟨⟨v0, e0, ?_⟩, g1 ▸ e1, g2 ▸ e2, g3 ▸ e3⟩
  have hv : v0.toNat = u16At b 6 := by
    refine h0.trans ((fieldVal_u16 (b.take 28) 6 (by rw [List.length_take]; omega)).trans ?_)
    conv => rhs; rw [← List.take_append_drop 28 b]
    rw [u16At_append_left]
    rw [List.length_take]; omega
  rw [← hv]
  exact ⟨fun h => by rw [h]; rfl, fun h => BitVec.eq_of_toNat_eq h⟩

/-- **C112** (one message): a station that takes an ARP message never panics; its table is then as RFC 826 says, and exactly a request
for its own address is answered, with its own addresses as the sender's, to the sender of the request, on the link to whom the
request came from. -/
theorem C112_receive {chk : Bool} (s : ArpStation) (t : ArpTable) {f : Bytes} {m : ArpMsg} (hm : hostArp f = some m) :
    ∃ g, s.receive chk t f = .ok (learn s.ip m t, g) ∧ (¬ ToAnswer s.ip m → g = none) ∧
      (ToAnswer s.ip m → ∃ r, g = some r ∧ hostArp r = some ⟨2, s.mac, s.ip, m.sha, m.spa⟩ ∧
        r.length = f.length ∧ r.take 6 = (f.drop 6).take 6 ∧ (r.drop 6).take 6 = s.mac) := by
  obtain ⟨p, q, hp, hq, h1, h2, h3, h4⟩ := C102_arp_reply (chk := chk) hm s.mac s.mac_length
  obtain ⟨⟨v, e0, hv⟩, e1, e2, e3⟩ := arp_read hm hp
  obtain ⟨-, -, -, l4⟩ := hostArp_lengths hm
  have ht : addrNum m.tpa = addrNum s.ip ↔ m.tpa = s.ip := addrNum_inj (by omega) (by rw [l4, s.ip_length])
  have hl : (fun a => if a = addrNum m.spa ∧ (addrNum m.tpa = addrNum s.ip ∨ (t a).isSome) then some (addrNum m.sha) else t a) =
      learn s.ip m t := by
    funext a
    simp only [learn, ht]
  unfold ArpStation.receive
  simp only [hm, hp, e0, e1, e2, e3, hq, bind, Except.bind, hl]
  by_cases c : v = 1 ∧ addrNum m.tpa = addrNum s.ip
  · have c' : ToAnswer s.ip m := ⟨hv.mp c.1, ht.mp c.2⟩
    rw [if_pos c]
    refine ⟨_, rfl, fun h => absurd c' h, fun _ => ⟨_, rfl, ?_, h2, h3, h4⟩⟩
    rw [h1, c'.2]
  · rw [if_neg c]
    exact ⟨_, rfl, fun _ => rfl, fun h => absurd ⟨hv.mpr h.1, ht.mpr h.2⟩ c⟩

/-- **C112** (a request): what a station sends when it asks for an address that can be converted. -/
theorem C112_request (s : ArpStation) (ve : Bool) (vid : U16) (pcp : Byte) (tip : Str) (payload b : Bytes)
    (hb : to_ipv4_bytes tip = .ok b) :
    ∃ f, s.request ve vid pcp tip payload = .ok f ∧ hostArp f = some ⟨1, s.mac, s.ip, List.replicate 6 0, b⟩ ∧
      f.take 6 = everyone ∧ (f.drop 6).take 6 = s.mac := by
  have hd : to_mac_bytes "ff:ff:ff:ff:ff:ff".toList = .ok everyone := by decide +kernel
  have hz : to_mac_bytes "00:00:00:00:00:00".toList = .ok (List.replicate 6 0) := by decide +kernel
  obtain ⟨p, hp, hm⟩ := C102_arp_create _ s.macText ve vid pcp 1 s.macText _ s.ipText tip payload _ _ _ _ _ _ hd s.hmac s.hmac hz s.hip hb
  refine ⟨p.to_vec, by simp only [ArpStation.request, hp, bind, Except.bind]; rfl, hm, ?_⟩
  have e : Packet.arp 1 s.macText "00:00:00:00:00:00".toList s.ipText tip =
      .ok ⟨ARP, be16 1 ++ be16 0x0800#16 ++ [6#8] ++ [4#8] ++ be16 1 ++ s.mac ++ s.ip ++ List.replicate 6 0 ++ b⟩ := by
    unfold Packet.arp
    rw [s.hmac, hz, s.hip, hb]
    rfl
  have e2 := C41_arp _ s.macText ve vid pcp _ _ hd s.hmac payload 1 s.macText _ s.ipText tip _ e
  obtain rfl := Except.ok.inj (hp.symm.trans e2)
  have lm := s.mac_length
  have : ∃ r, (⟨l2Hdrs everyone s.mac ve vid pcp 0x0806#16 ++
      [⟨ARP, be16 1 ++ be16 0x0800#16 ++ [6#8] ++ [4#8] ++ be16 1 ++ s.mac ++ s.ip ++ List.replicate 6 0 ++ b⟩], payload⟩ : Packet).to_vec =
      everyone ++ (s.mac ++ r) := by
    cases ve <;> simp [Packet.to_vec, Hdr.to_vec, l2Hdrs]
  obtain ⟨r, hr⟩ := this
  have le : everyone.length = 6 := rfl
  rw [hr, List.take_left' le, List.drop_left' le, List.take_left' lm]
  exact ⟨rfl, rfl⟩

/-! ## Executions -/

/-- What holds in every state: nobody lies on the link, and every entry is that of a station. -/
def ArpLink.Good (st : Nat → ArpStation) (n : ArpLink) : Prop :=
  (∀ f ∈ n.sent, ∀ m, hostArp f = some m → TrueSender st m) ∧
    ∀ i a h, n.tables i a = some h → ∃ j, a = addrNum (st j).ip ∧ h = addrNum (st j).mac

theorem ArpLink.start_good (st : Nat → ArpStation) : ArpLink.start.Good st := ⟨fun _ h => (nomatch h), fun _ _ _ h => (nomatch h)⟩

/-- A frame that reaches a station. -/
theorem ArpLink.deliver_step (chk : Bool) (st : Nat → ArpStation) (n : ArpLink) (i k : Nat) {f : Bytes} (hk : n.sent[k]? = some f)
    (ha : f.take 6 = (st i).mac ∨ f.take 6 = everyone) {m : ArpMsg} (hm : hostArp f = some m) :
    ∃ g : Option Bytes, n.step chk st (.deliver i k) =
        .ok ⟨fun j => if j = i then learn (st i).ip m (n.tables i) else n.tables j, n.sent ++ g.toList⟩ ∧
      (¬ ToAnswer (st i).ip m → g = none) ∧
      (ToAnswer (st i).ip m → ∃ r, g = some r ∧ hostArp r = some ⟨2, (st i).mac, (st i).ip, m.sha, m.spa⟩ ∧
        r.length = f.length ∧ r.take 6 = (f.drop 6).take 6 ∧ (r.drop 6).take 6 = (st i).mac) := by
  obtain ⟨g, e, h1, h2⟩ := C112_receive (chk := chk) (st i) (n.tables i) hm
  refine ⟨g, ?_, h1, h2⟩
  simp only [ArpLink.step, hk, if_pos ha, e, bind, Except.bind, pure, Except.pure]

/-- A delivery does nothing, or an ARP message is taken. -/
theorem ArpLink.deliver_cases (chk : Bool) (st : Nat → ArpStation) (n : ArpLink) (i k : Nat) :
    (∃ n', n.step chk st (.deliver i k) = .ok n' ∧ n'.tables = n.tables ∧ n'.sent = n.sent) ∨
      ∃ f m, n.sent[k]? = some f ∧ (f.take 6 = (st i).mac ∨ f.take 6 = everyone) ∧ hostArp f = some m := by
  cases hk : n.sent[k]? with
  | none => exact .inl ⟨n, by simp only [ArpLink.step, hk]; rfl, rfl, rfl⟩
  | some f =>
    by_cases ha : f.take 6 = (st i).mac ∨ f.take 6 = everyone
    · cases hm : hostArp f with
      | some m => exact .inr ⟨f, m, rfl, ha, hm⟩
      | none =>
        refine .inl ⟨⟨fun j => if j = i then n.tables i else n.tables j, n.sent ++ []⟩, ?_, ?_, List.append_nil _⟩
        · simp only [ArpLink.step, hk, if_pos ha, ArpStation.receive, hm, bind, Except.bind, pure, Except.pure]
          rfl
        · funext j
          by_cases c : j = i
          · subst c; exact if_pos rfl
          · exact if_neg c
    · exact .inl ⟨n, by simp only [ArpLink.step, hk, if_neg ha]; rfl, rfl, rfl⟩

/-- The table after a true message. -/
theorem learn_true {st : Nat → ArpStation} {m : ArpMsg} (hm : TrueSender st m) {own : Bytes} {t : ArpTable}
    (ht : ∀ a h, t a = some h → ∃ j, a = addrNum (st j).ip ∧ h = addrNum (st j).mac) {a h : U64} (h' : learn own m t a = some h) :
    ∃ j, a = addrNum (st j).ip ∧ h = addrNum (st j).mac := by
  unfold learn at h'
  split at h'
  · rename_i c
    obtain ⟨j, h1, h2⟩ := hm
    cases h'
    exact ⟨j, by rw [c.1, h2], by rw [h1]⟩
  · exact ht a h h'

theorem ArpLink.step_good (chk : Bool) (st : Nat → ArpStation) (n : ArpLink) (e : ArpEvent) (hn : n.Good st) (he : e.Honest st) :
    ∃ n', n.step chk st e = .ok n' ∧ n'.Good st ∧ n.sent <+: n'.sent := by
  have app : ∀ f, (∀ m, hostArp f = some m → TrueSender st m) → (⟨n.tables, n.sent ++ [f]⟩ : ArpLink).Good st := by
    intro f hf
    refine ⟨fun x hx => ?_, hn.2⟩
    rcases List.mem_append.mp hx with h | h
    · exact hn.1 x h
    · rw [List.mem_singleton.mp h]; exact hf
  cases e with
  | ask i ve vid pcp tip payload =>
    obtain ⟨b, hb⟩ := he
    obtain ⟨f, e, hm, -, -⟩ := C112_request (st i) ve vid pcp tip payload b hb
    refine ⟨⟨n.tables, n.sent ++ [f]⟩, by simp only [ArpLink.step, e, bind, Except.bind]; rfl, app f ?_, List.prefix_append _ _⟩
    intro m h
    rw [hm] at h
    cases h
    exact ⟨i, rfl, rfl⟩
  | other f => exact ⟨⟨n.tables, n.sent ++ [f]⟩, rfl, app f he, List.prefix_append _ _⟩
  | deliver i k =>
    rcases n.deliver_cases chk st i k with ⟨n', e, h1, h2⟩ | ⟨f, m, hk, ha, hm⟩
    · exact ⟨n', e, ⟨by rw [h2]; exact hn.1, by rw [h1]; exact hn.2⟩, by rw [h2]; exact List.prefix_refl _⟩
    · obtain ⟨g, e, h1, h2⟩ := n.deliver_step chk st i k hk ha hm
      have tm := hn.1 f (List.mem_of_getElem? hk) m hm
      refine ⟨_, e, ⟨?_, ?_⟩, List.prefix_append _ _⟩
      · intro x hx
        rcases List.mem_append.mp hx with h | h
        · exact hn.1 x h
        · by_cases c : ToAnswer (st i).ip m
          · obtain ⟨r, rfl, hr, -⟩ := h2 c
            rw [List.mem_singleton.mp h]
            intro m' h'
            rw [hr] at h'
            cases h'
            exact ⟨i, rfl, rfl⟩
          · rw [h1 c] at h; cases h
      · intro j a h hj
        simp only at hj
        split at hj
        · exact learn_true tm (hn.2 i) hj
        · exact hn.2 j a h hj
  | forget i a =>
    refine ⟨_, rfl, ⟨hn.1, fun j b h hj => ?_⟩, List.prefix_refl _⟩
    simp only at hj
    split at hj
    · cases hj
    · exact hn.2 j b h hj

theorem ArpLink.run_good (chk : Bool) (st : Nat → ArpStation) (es : List ArpEvent) (n : ArpLink) (hn : n.Good st)
    (he : ∀ e ∈ es, e.Honest st) : ∃ n', n.run chk st es = .ok n' ∧ n'.Good st ∧ n.sent <+: n'.sent := by
  induction es generalizing n with
  | nil => exact ⟨n, rfl, hn, List.prefix_refl _⟩
  | cons e es ih =>
    obtain ⟨n1, e1, h1, p1⟩ := n.step_good chk st e hn (he e (List.mem_cons_self ..))
    obtain ⟨n2, e2, h2, p2⟩ := ih n1 h1 (fun x hx => he x (List.mem_cons_of_mem _ hx))
    exact ⟨n2, by simp only [ArpLink.run, e1, bind, Except.bind]; exact e2, h2, p1.trans p2⟩

/-- **C112** (no wrong entries): whatever stations ask and whatever the link does, as long as no frame of others lies about its sender
no station panics, and every entry of every table is the pair of addresses of a station; if no two stations with
different link addresses have the same protocol address, an entry for a station's address is that station's link address. -/
theorem C112_safe (chk : Bool) (st : Nat → ArpStation) (es : List ArpEvent) (he : ∀ e ∈ es, e.Honest st) :
    ∃ n, ArpLink.start.run chk st es = .ok n ∧
      (∀ i a h, n.tables i a = some h → ∃ j, a = addrNum (st j).ip ∧ h = addrNum (st j).mac) ∧
      ((∀ i j, (st i).ip = (st j).ip → (st i).mac = (st j).mac) → ∀ i j h, n.tables i (addrNum (st j).ip) = some h → h = addrNum (st j).mac) := by
  obtain ⟨n, e, hg, -⟩ := ArpLink.start.run_good chk st es (ArpLink.start_good st) he
  refine ⟨n, e, hg.2, fun hd i j h hj => ?_⟩
  obtain ⟨k, h1, h2⟩ := hg.2 i _ h hj
  have := (addrNum_inj (by rw [(st j).ip_length]; decide) (by rw [(st j).ip_length, (st k).ip_length])).mp h1
  rw [h2, hd j k this]

/-- An entry stays what it is while it is not forgotten. -/
theorem ArpLink.run_keeps (chk : Bool) (st : Nat → ArpStation) (hd : ∀ i j, (st i).ip = (st j).ip → (st i).mac = (st j).mac) (es : List ArpEvent)
    (n n' : ArpLink) (hn : n.Good st) (he : ∀ e ∈ es, e.Honest st) (hr : n.run chk st es = .ok n') (i j : Nat)
    (hf : .forget i (addrNum (st j).ip) ∉ es) (ht : n.tables i (addrNum (st j).ip) = some (addrNum (st j).mac)) :
    n'.tables i (addrNum (st j).ip) = some (addrNum (st j).mac) := by
  induction es generalizing n with
  | nil => obtain rfl := Except.ok.inj hr; exact ht
  | cons e es ih =>
    obtain ⟨n1, e1, h1, -⟩ := n.step_good chk st e hn (he e (List.mem_cons_self ..))
    simp only [ArpLink.run, e1, bind, Except.bind] at hr
    refine ih n1 h1 (fun x hx => he x (List.mem_cons_of_mem _ hx)) hr (fun h => hf (List.mem_cons_of_mem _ h)) ?_
    have some_ : (n1.tables i (addrNum (st j).ip)).isSome → n1.tables i (addrNum (st j).ip) = some (addrNum (st j).mac) := by
      intro h
      obtain ⟨v, hv⟩ := Option.isSome_iff_exists.mp h
      obtain ⟨k, k1, k2⟩ := h1.2 i _ v hv
      have := (addrNum_inj (by rw [(st j).ip_length]; decide) (by rw [(st j).ip_length, (st k).ip_length])).mp k1
      rw [hv, k2, hd j k this]
    apply some_
    cases e with
    | ask i' ve vid pcp tip payload =>
      obtain ⟨b, hb⟩ := he _ (List.mem_cons_self ..)
      obtain ⟨f, e, -⟩ := C112_request (st i') ve vid pcp tip payload b hb
      simp only [ArpLink.step, e, bind, Except.bind] at e1
      obtain rfl := Except.ok.inj e1
      exact ht ▸ rfl
    | other f => obtain rfl := Except.ok.inj e1; exact ht ▸ rfl
    | deliver i' k =>
      rcases n.deliver_cases chk st i' k with ⟨n2, e2, h2, -⟩ | ⟨f, m, hk, ha, hm⟩
      · obtain rfl := Except.ok.inj (e1.symm.trans e2)
        rw [h2, ht]; rfl
      · obtain ⟨g, e2, -⟩ := n.deliver_step chk st i' k hk ha hm
        obtain rfl := Except.ok.inj (e1.symm.trans e2)
        simp only
        split
        · rename_i c
          subst c
          unfold learn
          split
          · rfl
          · rw [ht]; rfl
        · rw [ht]; rfl
    | forget i' a =>
      obtain rfl := Except.ok.inj e1
      simp only
      rw [if_neg (fun c => hf (by rw [c.1, c.2]; exact List.mem_cons_self ..)), ht]
      rfl

/-- A frame sent stays where it is. -/
theorem getElem?_of_prefix {α : Type} {a b : List α} (h : a <+: b) {k : Nat} {x : α} (hk : a[k]? = some x) : b[k]? = some x := by
  obtain ⟨c, rfl⟩ := h
  rw [List.getElem?_append_left (List.getElem?_eq_some_iff.mp hk).1, hk]

/-- **C112** (resolution): station `i` asks for the address of station `j`; after anything else, the request (the frame sent then) reaches
`j`; after anything else, the answer (the frame sent then) reaches `i`.  Then `j` is in `i`'s table with its right link address until the
entry is forgotten, and `i` is in `j`'s. -/
theorem C112_resolves (chk : Bool) (st : Nat → ArpStation) (hd : ∀ i j, (st i).ip = (st j).ip → (st i).mac = (st j).mac) (i j : Nat)
    (ve : Bool) (vid : U16) (pcp : Byte) (payload : Bytes) (es1 es2 es3 es4 : List ArpEvent)
    (he : ∀ e ∈ es1 ++ es2 ++ es3 ++ es4, e.Honest st) :
    ∃ n1 n2 n3 n4, ArpLink.start.run chk st es1 = .ok n1 ∧
      n1.run chk st (.ask i ve vid pcp (st j).ipText payload :: es2) = .ok n2 ∧
      n2.run chk st (.deliver j n1.sent.length :: es3) = .ok n3 ∧
      n3.run chk st (.deliver i n2.sent.length :: es4) = .ok n4 ∧
      (.forget j (addrNum (st i).ip) ∉ es3 → n3.tables j (addrNum (st i).ip) = some (addrNum (st i).mac)) ∧
      (.forget i (addrNum (st j).ip) ∉ es4 → n4.tables i (addrNum (st j).ip) = some (addrNum (st j).mac)) := by
  have q1 : ∀ e ∈ es1, e.Honest st := fun e h => he e (by simp [h])
  have q2 : ∀ e ∈ es2, e.Honest st := fun e h => he e (by simp [h])
  have q3 : ∀ e ∈ es3, e.Honest st := fun e h => he e (by simp [h])
  have q4 : ∀ e ∈ es4, e.Honest st := fun e h => he e (by simp [h])
  obtain ⟨n1, r1, g1, -⟩ := ArpLink.start.run_good chk st es1 (ArpLink.start_good st) q1
  -- the request
  obtain ⟨f, ef, hf, fa, fs⟩ := C112_request (st i) ve vid pcp (st j).ipText payload _ (st j).hip
  have ha : ArpEvent.Honest st (.ask i ve vid pcp (st j).ipText payload) := ⟨_, (st j).hip⟩
  obtain ⟨m1, s1, g1', -⟩ := n1.step_good chk st _ g1 ha
  have s1' : n1.step chk st (.ask i ve vid pcp (st j).ipText payload) = .ok ⟨n1.tables, n1.sent ++ [f]⟩ := by
    simp only [ArpLink.step, ef, bind, Except.bind]; rfl
  obtain rfl := Except.ok.inj (s1.symm.trans s1')
  obtain ⟨n2, r2, g2, p2⟩ := ArpLink.run_good chk st es2 _ g1' q2
  have k1 : n2.sent[n1.sent.length]? = some f := getElem?_of_prefix p2 (by simp)
  -- the answer
  obtain ⟨g, s2, -, hans⟩ := n2.deliver_step chk st j _ k1 (.inr fa) hf
  obtain ⟨r, rfl, hr, -, ra, -⟩ := hans ⟨rfl, rfl⟩
  rw [fs] at ra
  obtain ⟨m2, s2', g2', -⟩ := n2.step_good chk st (.deliver j n1.sent.length) g2 trivial
  obtain rfl := Except.ok.inj (s2'.symm.trans s2)
  obtain ⟨n3, r3, g3, p3⟩ := ArpLink.run_good chk st es3 _ g2' q3
  have k2 : n3.sent[n2.sent.length]? = some r := getElem?_of_prefix p3 (by simp)
  obtain ⟨g, s3, -, -⟩ := n3.deliver_step chk st i _ k2 (.inl ra) hr
  obtain ⟨m3, s3', g3', -⟩ := n3.step_good chk st (.deliver i n2.sent.length) g3 trivial
  obtain rfl := Except.ok.inj (s3'.symm.trans s3)
  obtain ⟨n4, r4, g4, p4⟩ := ArpLink.run_good chk st es4 _ g3' q4
  refine ⟨n1, n2, n3, n4, r1, ?_, ?_, ?_, fun hno => ?_, fun hno => ?_⟩
  · simp only [ArpLink.run, s1, bind, Except.bind]; exact r2
  · simp only [ArpLink.run, s2, bind, Except.bind]; exact r3
  · simp only [ArpLink.run, s3, bind, Except.bind]; exact r4
  · refine ArpLink.run_keeps chk st hd es3 _ n3 g2' q3 r3 j i hno ?_
    simp only [if_true]
    exact if_pos ⟨rfl, .inl rfl⟩
  · refine ArpLink.run_keeps chk st hd es4 _ n4 g3' q4 r4 i j hno ?_
    simp only [if_true]
    exact if_pos ⟨rfl, .inl rfl⟩

/-- **C112** (one lie is enough): an ARP message made with the crate that names any link address for any protocol address is believed by
the station it is for, whatever was in its table: that no frame lies is needed. -/
theorem C112_lie (chk : Bool) (st : Nat → ArpStation) (n : ArpLink) (i : Nat) (eth_src : Str) (ve : Bool) (vid : U16) (pcp : Byte)
    (opcode : U16) (smac tmac sip : Str) (payload s sm tm si : Bytes) (hs : to_mac_bytes eth_src = .ok s)
    (h1 : to_mac_bytes smac = .ok sm) (h2 : to_mac_bytes tmac = .ok tm) (h3 : to_ipv4_bytes sip = .ok si) :
    ∃ p n', create_arp_packet (st i).macText eth_src ve vid pcp opcode smac tmac sip (st i).ipText payload = .ok p ∧
      n.run chk st [.other p.to_vec, .deliver i n.sent.length] = .ok n' ∧ n'.tables i (addrNum si) = some (addrNum sm) := by
  obtain ⟨p, hp, hm⟩ := C102_arp_create _ eth_src ve vid pcp opcode smac tmac sip _ payload _ _ _ _ _ _ (st i).hmac hs h1 h2 h3 (st i).hip
  have ha : p.to_vec.take 6 = (st i).mac := by
    have e : Packet.arp opcode smac tmac sip (st i).ipText =
        .ok ⟨ARP, be16 1 ++ be16 0x0800#16 ++ [6#8] ++ [4#8] ++ be16 opcode ++ sm ++ si ++ tm ++ (st i).ip⟩ := by
      unfold Packet.arp
      rw [h1, h2, h3, (st i).hip]
      rfl
    have e2 := C41_arp _ eth_src ve vid pcp _ _ (st i).hmac hs payload opcode smac tmac sip (st i).ipText _ e
    obtain rfl := Except.ok.inj (hp.symm.trans e2)
    have lm := (st i).mac_length
    have : ∃ r, (⟨l2Hdrs (st i).mac s ve vid pcp 0x0806#16 ++
        [⟨ARP, be16 1 ++ be16 0x0800#16 ++ [6#8] ++ [4#8] ++ be16 opcode ++ sm ++ si ++ tm ++ (st i).ip⟩], payload⟩ : Packet).to_vec =
        (st i).mac ++ r := by
      cases ve <;> simp [Packet.to_vec, Hdr.to_vec, l2Hdrs]
    obtain ⟨r, hr⟩ := this
    rw [hr, List.take_left' lm]
  obtain ⟨n', e, ht⟩ : ∃ n', ArpLink.step chk st ⟨n.tables, n.sent ++ [p.to_vec]⟩ (.deliver i n.sent.length) = .ok n' ∧
      n'.tables i (addrNum si) = some (addrNum sm) := by
    obtain ⟨g, e, -⟩ := ArpLink.deliver_step chk st ⟨n.tables, n.sent ++ [p.to_vec]⟩ i n.sent.length (by simp) (.inl ha) hm
    refine ⟨_, e, ?_⟩
    simp only [if_true]
    exact if_pos ⟨rfl, .inl rfl⟩
  refine ⟨p, n', hp, ?_, ht⟩
  · simp only [ArpLink.run, show n.step chk st (.other p.to_vec) = .ok ⟨n.tables, n.sent ++ [p.to_vec]⟩ from rfl, e, bind, Except.bind]
    rfl

/-! ## Cases -/

/-- Two stations, and any number without interest. -/
def sampleStation : Nat → ArpStation
  | 0 => ⟨"00:00:00:00:00:0a".toList, "10.0.0.1".toList, [0, 0, 0, 0, 0, 10], [10, 0, 0, 1], by decide +kernel, by decide +kernel⟩
  | _ => ⟨"00:00:00:00:00:0b".toList, "10.0.0.2".toList, [0, 0, 0, 0, 0, 11], [10, 0, 0, 2], by decide +kernel, by decide +kernel⟩

/-- The sample meets what C112 asks for. -/
example : (∀ i j, (sampleStation i).ip = (sampleStation j).ip → (sampleStation i).mac = (sampleStation j).mac) ∧
    ArpEvent.Honest sampleStation (.ask 0 true 7 1 "10.0.0.2".toList [0, 0]) ∧ ArpEvent.Honest sampleStation (.other [1, 2, 3]) := by
  refine ⟨fun i j h => ?_, ⟨[10, 0, 0, 2], by decide +kernel⟩, fun m h => ?_⟩
  · match i, j with
    | 0, 0 | _ + 1, _ + 1 => rfl
    | 0, _ + 1 => exact absurd (show ([10, 0, 0, 1] : Bytes) = [10, 0, 0, 2] from h) (by decide)
    | _ + 1, 0 => exact absurd (show ([10, 0, 0, 2] : Bytes) = [10, 0, 0, 1] from h) (by decide)
  · have : hostArp [1, 2, 3] = none := by decide +kernel
    rw [this] at h; cases h

/-- A request reaches station 1 twice and its sender once; the second answer reaches the sender first; the first is lost.  Both tables are
right, nothing else was sent.  An entry forgotten is gone. -/
example :
    let show' (r : R ArpLink) := r.map fun n =>
      (n.sent.length, n.tables 0 (addrNum [10, 0, 0, 2]), n.tables 1 (addrNum [10, 0, 0, 1]), n.tables 0 (addrNum [10, 0, 0, 1]))
    let es : List ArpEvent := [.other [1, 2, 3], .ask 0 true 7 1 "10.0.0.2".toList [0, 0], .deliver 1 1, .deliver 1 1, .deliver 0 1,
      .deliver 0 0, .deliver 1 2]
    show' (ArpLink.start.run true sampleStation es) = .ok (4, none, some 10, none) ∧
      show' (ArpLink.start.run true sampleStation (es ++ [.deliver 0 3])) = .ok (4, some 11, some 10, none) ∧
      show' (ArpLink.start.run true sampleStation (es ++ [.deliver 0 3, .forget 0 0x0a000002])) = .ok (4, none, some 10, none) := by
  refine ⟨?_, ?_, ?_⟩ <;> decide +kernel

end PacketRs
