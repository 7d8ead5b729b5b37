import Verif.Props.Fatal
/-!
# Property C122: a parse that does not panic, with the crate's parser

The parser panics on what is cut off.  A client that first parses the frame with octets appended, and the frame itself only if all of them
are in the payload, gets the parser's answer on every frame it has one for, and is told when there is none.
-/
namespace PacketRs
open Spec Utils

/-! ## The client -/

/-- What the client appends. -/
def guardPad : Bytes := List.replicate 100 0xFF#8

/-- `if parse(&[f, &[0xff; 100]].concat()).payload().len() < 100 { None } else { Some(parse(f)) }` -/
def tryParse (chk : Bool) (f : Bytes) : R (Option Packet) := do
  let p ← Slow.parse chk (f ++ guardPad)
  if p.payload.length < 100 then pure none
  else do
    let q ← Slow.parse chk f
    pure (some q)

/-- The router of C111 with this parse: what cannot be parsed is dropped. -/
def Router.passGuarded (chk : Bool) (r : Router) (f : Bytes) : R (Option Bytes) :=
  match ipInput f with
  | none => pure none
  | some g => do
    match ← tryParse chk f with
    | none => pure none
    | some p => do
      let q ← r.forward chk g.v6 p
      pure (q.map Packet.to_vec)

/-! ## Octets behind -/

theorem Dissect_payload_le {l : Layer} {b : Bytes} {hs : List Hdr} {pl : Bytes} (h : Dissect l b hs pl) : pl.length ≤ b.length := by
  induction h <;> (try simp only [List.length_append]) <;> omega

theorem peel_left {h r b x : Bytes} (e : h ++ r = b ++ x) (hx : x.length ≤ r.length) : ∃ b', b = h ++ b' ∧ r = b' ++ x := by
  rcases List.append_eq_append_iff.mp e with ⟨a, rfl, rfl⟩ | ⟨a, rfl, rfl⟩
  · exact ⟨a, rfl, rfl⟩
  · rw [List.length_append] at hx
    have : a = [] := List.length_eq_zero_iff.mp (by omega)
    subst this
    exact ⟨[], by simp, by simp⟩

/-- If all appended octets are in the payload, the headers are those of the octets before. -/
theorem Dissect_trim {l : Layer} {c : Bytes} {hs : List Hdr} {pl : Bytes} (h : Dissect l c hs pl) :
    ∀ b x, c = b ++ x → x.length ≤ pl.length → ∃ pl', pl = pl' ++ x ∧ Dissect l b hs pl' := by
  induction h with
  | payload c => rintro b x rfl -; exact ⟨b, rfl, .payload b⟩
  | ether hl hd ih =>
    intro b x e hx
    obtain ⟨b', rfl, e'⟩ := peel_left e (hx.trans (Dissect_payload_le hd))
    obtain ⟨pl', rfl, hd'⟩ := ih b' x e' hx
    exact ⟨pl', rfl, .ether hl hd'⟩
  | vlan hl hd ih =>
    intro b x e hx
    obtain ⟨b', rfl, e'⟩ := peel_left e (hx.trans (Dissect_payload_le hd))
    obtain ⟨pl', rfl, hd'⟩ := ih b' x e' hx
    exact ⟨pl', rfl, .vlan hl hd'⟩
  | mpls hl hb hd ih =>
    intro b x e hx
    obtain ⟨b', rfl, e'⟩ := peel_left e (hx.trans (Dissect_payload_le hd))
    obtain ⟨pl', rfl, hd'⟩ := ih b' x e' hx
    exact ⟨pl', rfl, .mpls hl hb hd'⟩
  | mplsLast hl hb hd ih =>
    intro b x e hx
    obtain ⟨b', rfl, e'⟩ := peel_left e (hx.trans (Dissect_payload_le hd))
    obtain ⟨pl', rfl, hd'⟩ := ih b' x e' hx
    exact ⟨pl', rfl, .mplsLast hl hb hd'⟩
  | @mplsBos h r hs pl hl hr hd ih =>
    intro b x e hx
    obtain ⟨b', rfl, e'⟩ := peel_left e (hx.trans (Dissect_payload_le hd))
    obtain ⟨pl', rfl, hd'⟩ := ih b' x e' hx
    cases b' with
    | nil =>
      exfalso
      have key : ∀ l, l = .ipv4 ∨ l = .ipv6 ∨ l = .ether → ¬ Dissect l [] hs pl' := by
        rintro l (rfl | rfl | rfl) hc <;> generalize hb : ([] : Bytes) = bb at hc <;> cases hc <;>
          (have := congrArg List.length hb; simp only [List.length_append, List.length_nil] at this; omega)
      refine key _ ?_ hd'
      unfold bosNext
      split
      · exact .inl rfl
      · split
        · exact .inr (.inl rfl)
        · exact .inr (.inr rfl)
    | cons y ys =>
      have e0 : u8At r 0 = u8At (y :: ys) 0 := by rw [e']; rfl
      rw [e0] at hd'
      exact ⟨pl', rfl, .mplsBos hl (by simp) hd'⟩
  | ipv4 hl hd ih =>
    intro b x e hx
    obtain ⟨b', rfl, e'⟩ := peel_left e (hx.trans (Dissect_payload_le hd))
    obtain ⟨pl', rfl, hd'⟩ := ih b' x e' hx
    exact ⟨pl', rfl, .ipv4 hl hd'⟩
  | ipv6 hl hd ih =>
    intro b x e hx
    obtain ⟨b', rfl, e'⟩ := peel_left e (hx.trans (Dissect_payload_le hd))
    obtain ⟨pl', rfl, hd'⟩ := ih b' x e' hx
    exact ⟨pl', rfl, .ipv6 hl hd'⟩
  | @gre h c k s r hs pl hl hc hk hs' hd ih =>
    intro b x e hx
    have := Dissect_payload_le hd
    obtain ⟨b1, rfl, e1⟩ := peel_left e (by simp only [List.length_append]; omega)
    obtain ⟨b2, rfl, e2⟩ := peel_left e1 (by simp only [List.length_append]; omega)
    obtain ⟨b3, rfl, e3⟩ := peel_left e2 (by simp only [List.length_append]; omega)
    obtain ⟨b', rfl, e'⟩ := peel_left e3 (by omega)
    obtain ⟨pl', rfl, hd'⟩ := ih b' x e' hx
    exact ⟨pl', rfl, .gre hl hc hk hs' hd'⟩
  | erspan2 hl hd ih =>
    intro b x e hx
    obtain ⟨b', rfl, e'⟩ := peel_left e (hx.trans (Dissect_payload_le hd))
    obtain ⟨pl', rfl, hd'⟩ := ih b' x e' hx
    exact ⟨pl', rfl, .erspan2 hl hd'⟩
  | erspan3 hl hp hd ih =>
    intro b x e hx
    have := Dissect_payload_le hd
    obtain ⟨b1, rfl, e1⟩ := peel_left e (by simp only [List.length_append]; omega)
    obtain ⟨b', rfl, e'⟩ := peel_left e1 (by omega)
    obtain ⟨pl', rfl, hd'⟩ := ih b' x e' hx
    exact ⟨pl', rfl, .erspan3 hl hp hd'⟩
  | arp hl hd ih =>
    intro b x e hx
    obtain ⟨b', rfl, e'⟩ := peel_left e (hx.trans (Dissect_payload_le hd))
    obtain ⟨pl', rfl, hd'⟩ := ih b' x e' hx
    exact ⟨pl', rfl, .arp hl hd'⟩
  | icmp hl hd ih =>
    intro b x e hx
    obtain ⟨b', rfl, e'⟩ := peel_left e (hx.trans (Dissect_payload_le hd))
    obtain ⟨pl', rfl, hd'⟩ := ih b' x e' hx
    exact ⟨pl', rfl, .icmp hl hd'⟩
  | tcp hl hd ih =>
    intro b x e hx
    obtain ⟨b', rfl, e'⟩ := peel_left e (hx.trans (Dissect_payload_le hd))
    obtain ⟨pl', rfl, hd'⟩ := ih b' x e' hx
    exact ⟨pl', rfl, .tcp hl hd'⟩
  | udp hl hn hd ih =>
    intro b x e hx
    obtain ⟨b', rfl, e'⟩ := peel_left e (hx.trans (Dissect_payload_le hd))
    obtain ⟨pl', rfl, hd'⟩ := ih b' x e' hx
    exact ⟨pl', rfl, .udp hl hn hd'⟩
  | udpVxlan hl hn hd ih =>
    intro b x e hx
    obtain ⟨b', rfl, e'⟩ := peel_left e (hx.trans (Dissect_payload_le hd))
    obtain ⟨pl', rfl, hd'⟩ := ih b' x e' hx
    exact ⟨pl', rfl, .udpVxlan hl hn hd'⟩
  | vxlan hl hd ih =>
    intro b x e hx
    obtain ⟨b', rfl, e'⟩ := peel_left e (hx.trans (Dissect_payload_le hd))
    obtain ⟨pl', rfl, hd'⟩ := ih b' x e' hx
    exact ⟨pl', rfl, .vxlan hl hd'⟩
  | dot3 hl hd ih =>
    intro b x e hx
    obtain ⟨b', rfl, e'⟩ := peel_left e (hx.trans (Dissect_payload_le hd))
    obtain ⟨pl', rfl, hd'⟩ := ih b' x e' hx
    exact ⟨pl', rfl, .dot3 hl hd'⟩
  | llc hl hn hd ih =>
    intro b x e hx
    obtain ⟨b', rfl, e'⟩ := peel_left e (hx.trans (Dissect_payload_le hd))
    obtain ⟨pl', rfl, hd'⟩ := ih b' x e' hx
    exact ⟨pl', rfl, .llc hl hn hd'⟩
  | llcSnap hl hd ih =>
    intro b x e hx
    obtain ⟨b', rfl, e'⟩ := peel_left e (hx.trans (Dissect_payload_le hd))
    obtain ⟨pl', rfl, hd'⟩ := ih b' x e' hx
    exact ⟨pl', rfl, .llcSnap hl hd'⟩
  | snap hl hd ih =>
    intro b x e hx
    obtain ⟨b', rfl, e'⟩ := peel_left e (hx.trans (Dissect_payload_le hd))
    obtain ⟨pl', rfl, hd'⟩ := ih b' x e' hx
    exact ⟨pl', rfl, .snap hl hd'⟩

theorem DissectFrame_more {f : Bytes} {hs : List Hdr} {pl : Bytes} (x : Bytes) (h : DissectFrame f hs pl) :
    DissectFrame (f ++ x) hs (pl ++ x) := by
  refine ⟨by rw [List.length_append]; have := h.1; omega, ?_⟩
  rw [u16At_append_left _ _ _ (by have := h.1; omega)]
  exact Dissect_append x h.2

theorem DissectFrame_trim {f x : Bytes} {hs : List Hdr} {pl : Bytes} (h : DissectFrame (f ++ x) hs pl) (hx : x.length ≤ pl.length) :
    ∃ pl', pl = pl' ++ x ∧ DissectFrame f hs pl' := by
  obtain ⟨-, h⟩ := h
  obtain ⟨pl', rfl, hd⟩ := Dissect_trim h f x rfl hx
  have h14 : 14 ≤ f.length := by
    generalize hl : (if u16At (f ++ x) 12 < 1500 then Layer.dot3 else .ether) = l at hd
    have : l = .dot3 ∨ l = .ether := by rw [← hl]; split <;> simp
    rcases this with rfl | rfl <;> cases hd <;> rw [List.length_append] <;> omega
  rw [u16At_append_left _ _ _ (by omega)] at hd
  exact ⟨pl', rfl, h14, hd⟩

/-! ## The property -/

/-- **C122, the parse.** On every octet string the client gets an answer: the packet the parser makes of it if it makes one, and nothing
exactly if the parser panics. -/
theorem C122_parse (chk : Bool) (f : Bytes) : ∃ o, tryParse chk f = .ok o ∧
    (∀ p, o = some p ↔ Slow.parse chk f = .ok p) ∧ (o = none ↔ ∃ e, Slow.parse chk f = .error e) := by
  have hlen : guardPad.length = 100 := by simp [guardPad]
  obtain ⟨hs, pl, hd⟩ := Dissect_extend_aux _ (if u16At (f ++ guardPad) 12 < 1500 then .dot3 else .ether) f (Nat.le_refl _) 0
  have hd : DissectFrame (f ++ guardPad) hs pl := ⟨by rw [List.length_append, hlen]; omega, hd⟩
  have hp := (C21_parse_frame chk _ _ _).mpr hd
  by_cases c : pl.length < 100
  · refine ⟨none, by simp only [tryParse, hp, bind, Except.bind, if_pos c]; rfl, ?_, ?_⟩
    · intro p
      refine ⟨fun h => (nomatch h), fun h => ?_⟩
      obtain ⟨hs', pl'⟩ := p
      have := (C21_parse_frame chk _ _ _).mpr (DissectFrame_more guardPad ((C21_parse_frame chk _ _ _).mp h))
      rw [hp] at this
      cases this
      rw [List.length_append, hlen] at c
      omega
    · refine ⟨fun _ => ?_, fun _ => rfl⟩
      cases h : Slow.parse chk f with
      | error e => exact ⟨e, rfl⟩
      | ok p =>
        obtain ⟨hs', pl'⟩ := p
        have := (C21_parse_frame chk _ _ _).mpr (DissectFrame_more guardPad ((C21_parse_frame chk _ _ _).mp h))
        rw [hp] at this
        cases this
        rw [List.length_append, hlen] at c
        omega
  · obtain ⟨pl', rfl, hd'⟩ := DissectFrame_trim hd (by omega)
    have hp' := (C21_parse_frame chk _ _ _).mpr hd'
    refine ⟨some ⟨hs, pl'⟩, by simp only [tryParse, hp, bind, Except.bind, if_neg c, hp']; rfl, ?_, ?_⟩
    · intro p
      rw [hp', Option.some.injEq, Except.ok.injEq]
    · rw [hp']
      exact ⟨fun h => (nomatch h), fun ⟨_, h⟩ => (nomatch h)⟩

/-- **C122, the fast parser.** It does for the check as well: it takes every such buffer, and the parser makes a packet of the octets before
iff the payload of the slices has room for what was appended; the packet has the headers of the slices and their payload without it. -/
theorem C122_fast (chk : Bool) (f : Bytes) (w : Fast.Win) (hb : w.InBounds) (hw : w.bytes = f ++ guardPad) :
    ∃ s, Fast.parse chk w = .ok s ∧ (100 ≤ s.payload.len ↔ ∃ p, Slow.parse chk f = .ok p) ∧
      ∀ p, Slow.parse chk f = .ok p → p.hdrs = s.toPacket.hdrs ∧ p.payload ++ guardPad = s.toPacket.payload := by
  have hlen : guardPad.length = 100 := by simp [guardPad]
  obtain ⟨o, e, -, -⟩ := C122_parse chk f
  have h := C26_parse chk w hb
  rw [hw] at h
  unfold tryParse at e
  cases hf : Fast.parse chk w with
  | error x => rw [← h, hf] at e; cases e
  | ok s =>
    rw [hf] at h
    have hd := (C21_parse_frame chk _ _ _).mp h.symm
    have hpl : s.toPacket.payload.length = s.payload.len :=
      s.payload.length_bytes ((C27_frame chk w hb s hf).2.2.2.2.1 s.payload (by simp)).2.2.2
    have key : ∀ p, Slow.parse chk f = .ok p → p.hdrs = s.toPacket.hdrs ∧ p.payload ++ guardPad = s.toPacket.payload := by
      rintro ⟨hs, pl⟩ hp
      have := (C21_parse_frame chk _ _ _).mpr (DissectFrame_more guardPad ((C21_parse_frame chk _ _ _).mp hp))
      rw [← h] at this
      have e := Except.ok.inj this
      exact ⟨(congrArg Packet.hdrs e).symm, (congrArg Packet.payload e).symm⟩
    refine ⟨s, rfl, ⟨fun h1 => ?_, ?_⟩, key⟩
    · obtain ⟨pl', -, hd'⟩ := DissectFrame_trim hd (by rw [hlen]; exact hpl ▸ h1)
      exact ⟨_, (C21_parse_frame chk _ _ _).mpr hd'⟩
    · rintro ⟨p, hp⟩
      rw [← hpl, ← (key p hp).2, List.length_append, hlen]
      omega

/-- **C122, any client.** Whatever a client does with parsed packets: with this parse it does the same with every frame that can be parsed,
and with all others what it likes. -/
theorem C122_client {α : Type} (chk : Bool) (k : Packet → R α) (d : R α) (f : Bytes) :
    (tryParse chk f >>= fun o => o.elim d k) = match Slow.parse chk f with
      | .ok p => k p
      | .error _ => d := by
  obtain ⟨o, e, h1, h2⟩ := C122_parse chk f
  rw [e]
  cases o with
  | none =>
    obtain ⟨x, hx⟩ := h2.mp rfl
    rw [hx]
    rfl
  | some p =>
    rw [(h1 p).mp rfl]
    rfl

/-- **C122, a router.** With this parse the router of C111 panics on nothing; it drops the fatal frames and does with all others what it
did. -/
theorem C122_router (chk : Bool) (f : Bytes) (r : Router) (hr : r.Ok) : ∃ o, r.passGuarded chk f = .ok o ∧
    (Fatal f → o = none) ∧ (¬ Fatal f → r.pass chk f = .ok o) := by
  unfold Router.passGuarded Router.pass
  cases hi : ipInput f with
  | none => exact ⟨none, rfl, fun _ => rfl, fun _ => rfl⟩
  | some g =>
    obtain ⟨o, e, h1, h2⟩ := C122_parse chk f
    have h := (C121_station hi chk).1
    simp only [e, bind, Except.bind]
    cases o with
    | none => exact ⟨none, rfl, fun _ => rfl, fun c => absurd (h.mp (h2.mp rfl)) c⟩
    | some p =>
      have hp := (h1 p).mp rfl
      obtain ⟨y, e'⟩ := forward_ok hi hp r hr
      simp only [e', hp]
      refine ⟨_, rfl, fun c => ?_, fun _ => rfl⟩
      obtain ⟨e, he⟩ := h.mpr c
      rw [hp] at he
      cases he

/-! ## Cases -/

-- a frame the parser panics on, one it does not, and what is no frame at all
example : Slow.parse true (exFrame.take 60) = .error .index ∧ tryParse true (exFrame.take 60) = .ok none := by decide +kernel
example : (tryParse true exFrame).toOption.bind id = (Slow.parse true exFrame).toOption ∧ (Slow.parse true exFrame).toOption.isSome := by
  decide +kernel
example : tryParse true [] = .ok none ∧ tryParse false [1, 2, 3] = .ok none := by decide +kernel
-- the fatal frames of C121
example : hopUpdate.passGuarded true fatalUdp = .ok none ∧ hopUpdate.passGuarded true fatalOption = .ok none ∧
    hopUpdate.passGuarded true survivedUdp = hopUpdate.pass true survivedUdp := by decide +kernel

end PacketRs
