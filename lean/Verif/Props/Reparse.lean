import Verif.Spec.Chain
import Verif.Props.Parser
/-!
# Properties C57 - C59: serializing and parsing again
-/
namespace PacketRs
open Spec

theorem flatten_optH (T : HeaderDef) (x : Bytes) : ((optH T x).map (·.data)).flatten = x := by
  unfold optH; by_cases hx : x = [] <;> simp [hx]

theorem ty_optH (T : HeaderDef) (x y : Bytes) (h : x.length = y.length) :
    (optH T x).map (·.ty) = (optH T y).map (·.ty) := by
  have : x = [] ↔ y = [] := by rw [← List.length_eq_zero_iff, h, List.length_eq_zero_iff]
  unfold optH
  by_cases hx : x = []
  · rw [if_pos hx, if_pos (this.1 hx)]
  · rw [if_neg hx, if_neg (fun h => hx (this.2 h))]
    rfl

theorem wire_cons (h : Hdr) (hs : List Hdr) (pl : Bytes) : wire (h :: hs) pl = h.data ++ wire hs pl := by
  simp [wire]

theorem wire_append (a b : List Hdr) (pl : Bytes) : wire (a ++ b) pl = (a.map (·.data)).flatten ++ wire b pl := by
  simp [wire]

theorem wire_nil (pl : Bytes) : wire [] pl = pl := by simp [wire]

/-! ## C57: parse and serialize, twice -/

/-- What the induction shows: the re-serialized bytes dissect into the same kinds of headers, re-serializing those gives
the original bytes, and the first octet is kept. -/
def Back (l : Layer) (b : Bytes) (hs : List Hdr) (pl : Bytes) : Prop :=
  ∃ hs', Dissect l (wire hs pl) hs' pl ∧ wire hs' pl = b ∧ hs'.map (·.ty) = hs.map (·.ty) ∧
    (b ≠ [] → wire hs pl ≠ [] ∧ u8At (wire hs pl) 0 = u8At b 0)

theorem Back.cons {l l' : Layer} {T : HeaderDef} {h r : Bytes} {hs : List Hdr} {pl : Bytes} (hl : h ≠ [])
    (mk : ∀ r hs, Dissect l' r hs pl → Dissect l (h ++ r) (⟨T, h⟩ :: hs) pl) (ih : Back l' r hs pl) :
    Back l (h ++ r) (⟨T, h⟩ :: hs) pl := by
  obtain ⟨hs', d, e, t, -⟩ := ih
  refine ⟨⟨T, h⟩ :: hs', by rw [wire_cons]; exact mk _ _ d, by rw [wire_cons, e], by simp [t], fun _ => ⟨?_, ?_⟩⟩
  · rw [wire_cons]; simp [hl]
  · rw [wire_cons, u8At_append_left _ _ _ (List.length_pos_iff.mpr hl),
      u8At_append_left _ _ _ (List.length_pos_iff.mpr hl)]

theorem ne_nil_of_length {h : Bytes} {n : Nat} (e : h.length = n + 1) : h ≠ [] := by rintro rfl; simp at e

theorem split_opt (c k s r : Bytes) (pc pk ps : Bool) (hc : c.length = if pc then 4 else 0)
    (hk : k.length = if pk then 4 else 0) (hs : s.length = if ps then 4 else 0) :
    ∃ c' k' s', s ++ (k ++ (c ++ r)) = c' ++ (k' ++ (s' ++ r)) ∧ s' ++ (k' ++ c') = c ++ (k ++ s) ∧
      c'.length = c.length ∧ k'.length = k.length ∧ s'.length = s.length := by
  cases pc <;> cases pk <;> cases ps <;> simp only [Bool.false_eq_true, if_false, if_true, List.length_eq_zero_iff] at hc hk hs
  · subst hc hk hs; exact ⟨[], [], [], rfl, rfl, rfl, rfl, rfl⟩
  · subst hc hk; exact ⟨[], [], s, by simp, by simp, rfl, rfl, rfl⟩
  · subst hc hs; exact ⟨[], k, [], by simp, by simp, rfl, rfl, rfl⟩
  · subst hc; exact ⟨[], s, k, by simp, by simp, rfl, by omega, by omega⟩
  · subst hk hs; exact ⟨c, [], [], by simp, by simp, rfl, rfl, rfl⟩
  · subst hk; exact ⟨s, [], c, by simp, by simp, by omega, rfl, by omega⟩
  · subst hs; exact ⟨k, c, [], by simp, by simp, by omega, by omega, rfl⟩
  · exact ⟨s, k, c, by simp, by simp, by omega, by omega, by omega⟩

theorem back_of_Dissect {l : Layer} {b : Bytes} {hs : List Hdr} {pl : Bytes} (h : Dissect l b hs pl) :
    Back l b hs pl := by
  induction h with
  | payload b => exact ⟨[], by rw [wire_nil]; exact .payload b, wire_nil b, rfl, by rw [wire_nil]; exact fun h => ⟨h, rfl⟩⟩
  | ether hl _ ih => exact ih.cons (ne_nil_of_length hl) fun _ _ d => .ether hl d
  | vlan hl _ ih => exact ih.cons (ne_nil_of_length hl) fun _ _ d => .vlan hl d
  | mpls hl hb _ ih => exact ih.cons (ne_nil_of_length hl) fun _ _ d => .mpls hl hb d
  | mplsLast hl hb _ ih => exact ih.cons (ne_nil_of_length hl) fun _ _ d => .mplsLast hl hb d
  | @mplsBos h r hs pl hl hr d ih =>
    obtain ⟨hs', d, e, t, hne⟩ := ih
    obtain ⟨n1, n2⟩ := hne hr
    have hl' := ne_nil_of_length hl
    refine ⟨⟨MPLS, h⟩ :: hs', ?_, by rw [wire_cons, e], by simp [t], fun _ => ⟨?_, ?_⟩⟩
    · rw [wire_cons]
      exact .mplsBos hl n1 (by rw [n2]; exact d)
    · rw [wire_cons]; simp [hl']
    · rw [wire_cons, u8At_append_left _ _ _ (List.length_pos_iff.mpr hl'),
        u8At_append_left _ _ _ (List.length_pos_iff.mpr hl')]
  | ipv4 hl _ ih => exact ih.cons (ne_nil_of_length hl) fun _ _ d => .ipv4 hl d
  | ipv6 hl _ ih => exact ih.cons (ne_nil_of_length hl) fun _ _ d => .ipv6 hl d
  | @gre h c k s r hs pl hl hc hk hss _ ih =>
    obtain ⟨hs', d, e, t, -⟩ := ih
    have hl' := ne_nil_of_length hl
    obtain ⟨c', k', s', e1, e2, l1, l2, l3⟩ := split_opt c k s (wire hs pl) _ _ _ hc hk hss
    have w : ∀ (a b c : Bytes) (hs : List Hdr), wire (⟨GRE, h⟩ :: (optH GRESequenceNum a ++ (optH GREKey b ++
        (optH GREChksumOffset c ++ hs)))) pl = h ++ (a ++ (b ++ (c ++ wire hs pl))) := by
      intro a b c hs
      rw [wire_cons, wire_append, wire_append, wire_append, flatten_optH, flatten_optH, flatten_optH]
    refine ⟨⟨GRE, h⟩ :: (optH GRESequenceNum s' ++ (optH GREKey k' ++ (optH GREChksumOffset c' ++ hs'))), ?_, ?_, ?_,
      fun _ => ?_⟩
    · rw [w, e1]
      exact .gre hl (by rw [l1, hc]) (by rw [l2, hk]) (by rw [l3, hss]) d
    · rw [w, e]
      congr 1
      rw [← List.append_assoc k', ← List.append_assoc s', e2]
      simp
    · simp only [List.map_cons, List.map_append, t, ty_optH _ _ _ l1, ty_optH _ _ _ l2, ty_optH _ _ _ l3]
    · rw [w]
      refine ⟨by simp [hl'], ?_⟩
      rw [u8At_append_left _ _ _ (List.length_pos_iff.mpr hl'), u8At_append_left _ _ _ (List.length_pos_iff.mpr hl')]
  | erspan2 hl _ ih => exact ih.cons (ne_nil_of_length hl) fun _ _ d => .erspan2 hl d
  | @erspan3 h p r hs pl hl hp _ ih =>
    obtain ⟨hs', d, e, t, -⟩ := ih
    have hl' := ne_nil_of_length hl
    have w : ∀ (hs : List Hdr), wire (⟨ERSPAN3, h⟩ :: (optH ERSPANPLATFORM p ++ hs)) pl = h ++ (p ++ wire hs pl) := by
      intro hs
      rw [wire_cons, wire_append, flatten_optH]
    refine ⟨⟨ERSPAN3, h⟩ :: (optH ERSPANPLATFORM p ++ hs'), ?_, ?_, ?_, fun _ => ?_⟩
    · rw [w]; exact .erspan3 hl hp d
    · rw [w, e]
    · simp [t]
    · rw [w]
      refine ⟨by simp [hl'], ?_⟩
      rw [u8At_append_left _ _ _ (List.length_pos_iff.mpr hl'), u8At_append_left _ _ _ (List.length_pos_iff.mpr hl')]
  | arp hl _ ih => exact ih.cons (ne_nil_of_length hl) fun _ _ d => .arp hl d
  | icmp hl _ ih => exact ih.cons (ne_nil_of_length hl) fun _ _ d => .icmp hl d
  | tcp hl _ ih => exact ih.cons (ne_nil_of_length hl) fun _ _ d => .tcp hl d
  | udp hl hb _ ih => exact ih.cons (ne_nil_of_length hl) fun _ _ d => .udp hl hb d
  | udpVxlan hl hb _ ih => exact ih.cons (ne_nil_of_length hl) fun _ _ d => .udpVxlan hl hb d
  | vxlan hl _ ih => exact ih.cons (ne_nil_of_length hl) fun _ _ d => .vxlan hl d
  | dot3 hl _ ih => exact ih.cons (ne_nil_of_length hl) fun _ _ d => .dot3 hl d
  | llc hl hb _ ih => exact ih.cons (ne_nil_of_length hl) fun _ _ d => .llc hl hb d
  | llcSnap hl _ ih => exact ih.cons (by rw [hl]; simp) fun _ _ d => .llcSnap hl d
  | snap hl _ ih => exact ih.cons (ne_nil_of_length hl) fun _ _ d => .snap hl d

/-- **C57**: the re-serialization of a parsed input parses again, to the same kinds of headers and the same payload, and
serializing that gives back the input: parse-then-serialize undoes itself. -/
theorem C57_involution (chk : Bool) (l : Layer) (b : Bytes) (p : Packet) (h : Slow.parseL chk l b = .ok p) :
    ∃ p', Slow.parseL chk l p.to_vec = .ok p' ∧ p'.to_vec = b ∧ p'.hdrs.map (·.ty) = p.hdrs.map (·.ty) ∧
      p'.payload = p.payload := by
  obtain ⟨hs', d, e, t, -⟩ := back_of_Dissect (Dissect_of_parse h)
  exact ⟨⟨hs', p.payload⟩, by rw [to_vec_eq_wire]; exact parse_of_Dissect d, by rw [to_vec_eq_wire]; exact e, t, rfl⟩

theorem head14 {l : Layer} {b : Bytes} {hs : List Hdr} {pl : Bytes} (hl : l = .ether ∨ l = .dot3)
    (h : Dissect l b hs pl) : (wire hs pl).take 14 = b.take 14 ∧ 14 ≤ (wire hs pl).length := by
  have key : ∀ {T : HeaderDef} {h r : Bytes} {hs : List Hdr}, h.length = 14 →
      (wire (⟨T, h⟩ :: hs) pl).take 14 = (h ++ r).take 14 ∧ 14 ≤ (wire (⟨T, h⟩ :: hs) pl).length := by
    intro T h r hs hl
    rw [wire_cons, take_append_len hl, take_append_len hl]
    exact ⟨rfl, by simp [hl]⟩
  rcases hl with rfl | rfl
  · cases h with | ether hl _ => exact key hl
  · cases h with | dot3 hl _ => exact key hl

/-- **C57** for whole frames. -/
theorem C57_involution_frame (chk : Bool) (b : Bytes) (p : Packet) (h : Slow.parse chk b = .ok p) :
    ∃ p', Slow.parse chk p.to_vec = .ok p' ∧ p'.to_vec = b ∧ p'.hdrs.map (·.ty) = p.hdrs.map (·.ty) ∧
      p'.payload = p.payload := by
  obtain ⟨hb, d⟩ := (C21_parse_frame chk b p.hdrs p.payload).mp h
  obtain ⟨hs', d', e, t, -⟩ := back_of_Dissect d
  obtain ⟨t1, t2⟩ := head14 (by split <;> simp) d
  refine ⟨⟨hs', p.payload⟩, ?_, by rw [to_vec_eq_wire]; exact e, t, rfl⟩
  rw [C21_parse_frame, to_vec_eq_wire]
  refine ⟨t2, ?_⟩
  rw [← u16At_take _ 14 12 (by omega), t1, u16At_take _ 14 12 (by omega)]
  exact d'

/-- **C57**: no information is lost: frames parsed to packets that serialize to the same bytes (in particular, parsed to
the same packet) are the same frame, and the packets are the same. -/
theorem C57_injective (chk : Bool) (b b' : Bytes) (p p' : Packet) (h : Slow.parse chk b = .ok p)
    (h' : Slow.parse chk b' = .ok p') (e : p.to_vec = p'.to_vec) : b = b' ∧ p = p' := by
  obtain ⟨q, hq, e1, -⟩ := C57_involution_frame chk b p h
  obtain ⟨q', hq', e2, -⟩ := C57_involution_frame chk b' p' h'
  rw [e, hq', Except.ok.injEq] at hq
  subst hq
  obtain rfl := e1.symm.trans e2
  rw [h, Except.ok.injEq] at h'
  exact ⟨rfl, h'⟩

-- a frame whose GRE header carries two options: the bytes change, and change back
example : ∃ p p', Slow.parse true exGre = .ok p ∧ p.to_vec ≠ exGre ∧ Slow.parse true p.to_vec = .ok p' ∧
    p'.to_vec = exGre ∧ p'.hdrs ≠ p.hdrs :=
  ⟨okPkt (Slow.parse true exGre), okPkt (Slow.parse true (okPkt (Slow.parse true exGre)).to_vec), by decide +kernel,
    by decide +kernel, by decide +kernel, by decide +kernel, by decide +kernel⟩

/-! ## C58: which packets survive serializing and parsing -/

theorem Chain_of_Dissect {l : Layer} {b : Bytes} {hs : List Hdr} {pl : Bytes} (h : Dissect l b hs pl)
    (hb : b = wire hs pl) : Chain l hs := by
  have cut : ∀ {T : HeaderDef} {h r : Bytes} {hs : List Hdr} {pl : Bytes}, h ++ r = wire (⟨T, h⟩ :: hs) pl →
      r = wire hs pl := by
    intro T h r hs pl e
    rw [wire_cons] at e
    exact List.append_cancel_left e
  induction h with
  | payload b => exact .payload
  | ether hl _ ih => exact .ether hl (ih (cut hb))
  | vlan hl _ ih => exact .vlan hl (ih (cut hb))
  | mpls hl hb' _ ih => exact .mpls hl hb' (ih (cut hb))
  | mplsLast hl hb' _ ih => exact .mplsLast hl hb' (ih (cut hb))
  | @mplsBos h r hs pl hl hr d ih =>
    have ih := ih (cut hb)
    have hb := cut hb
    match hs with
    | [] =>
      -- the layer after the last label is never the payload
      exfalso
      revert ih
      unfold bosNext
      split
      · exact fun h => nomatch h
      · split <;> exact fun h => nomatch h
    | h2 :: hs =>
      refine .mplsBos hl ?_
      have : u8At r 0 = u8At h2.data 0 := by
        have hne : h2.data ≠ [] := by
          revert d
          unfold bosNext
          split
          · intro d; cases d with | ipv4 hl _ => exact ne_nil_of_length hl
          · split
            · intro d; cases d with | ipv6 hl _ => exact ne_nil_of_length hl
            · intro d; cases d with | ether hl _ => exact ne_nil_of_length hl
        rw [hb, wire_cons, u8At_append_left _ _ _ (List.length_pos_iff.mpr hne)]
      rw [← this]
      exact ih
  | ipv4 hl _ ih => exact .ipv4 hl (ih (cut hb))
  | ipv6 hl _ ih => exact .ipv6 hl (ih (cut hb))
  | @gre h c k s r hs pl hl hc hk hss _ ih =>
    have hb := cut hb
    rw [wire_append, wire_append, wire_append, flatten_optH, flatten_optH, flatten_optH] at hb
    have hb' : (c ++ k ++ s) ++ r = (s ++ k ++ c) ++ wire hs pl := by simpa using hb
    obtain ⟨e1, e2⟩ := List.append_inj hb' (by simp; omega)
    exact .gre hl hc hk hss e1.symm (ih e2)
  | erspan2 hl _ ih => exact .erspan2 hl (ih (cut hb))
  | @erspan3 h p r hs pl hl hp _ ih =>
    have hb := cut hb
    rw [wire_append, flatten_optH] at hb
    exact .erspan3 hl hp (ih (List.append_cancel_left hb))
  | arp hl d ih => cases d; exact .arp hl
  | icmp hl d ih => cases d; exact .icmp hl
  | tcp hl d ih => cases d; exact .tcp hl
  | udp hl hb' d ih => cases d; exact .udp hl hb'
  | udpVxlan hl hb' _ ih => exact .udpVxlan hl hb' (ih (cut hb))
  | vxlan hl _ ih => exact .vxlan hl (ih (cut hb))
  | dot3 hl _ ih => exact .dot3 hl (ih (cut hb))
  | llc hl hb' d ih => cases d; exact .llc hl hb'
  | llcSnap hl _ ih => subst hl; exact .llcSnap (ih (cut hb))
  | snap hl d ih => cases d; exact .snap hl

theorem Spec.Chain.head_ne {l : Layer} {h : Hdr} {hs : List Hdr} (c : Chain l (h :: hs)) : h.data ≠ [] := by
  cases c with
  | ether hl _ | vlan hl _ | mpls hl _ _ | mplsLast hl _ _ | mplsBos hl _ | ipv4 hl _ | ipv6 hl _ | gre hl _ _ _ _ _
  | erspan2 hl _ | erspan3 hl _ _ | arp hl | icmp hl | tcp hl | udp hl _ | udpVxlan hl _ _ | vxlan hl _ | dot3 hl _
  | llc hl _ | snap hl => exact ne_nil_of_length hl
  | llcSnap _ => simp

theorem Dissect_of_Chain {l : Layer} {hs : List Hdr} (h : Chain l hs) (pl : Bytes) : Dissect l (wire hs pl) hs pl := by
  induction h with
  | payload => rw [wire_nil]; exact .payload pl
  | ether hl _ ih => rw [wire_cons]; exact .ether hl ih
  | vlan hl _ ih => rw [wire_cons]; exact .vlan hl ih
  | mpls hl hb _ ih => rw [wire_cons]; exact .mpls hl hb ih
  | mplsLast hl hb _ ih => rw [wire_cons]; exact .mplsLast hl hb ih
  | @mplsBos h h2 hs hl hc ih =>
    have hne := hc.head_ne
    rw [wire_cons]
    refine .mplsBos hl (by rw [wire_cons]; simp [hne]) ?_
    have : u8At (wire (h2 :: hs) pl) 0 = u8At h2.data 0 := by
      rw [wire_cons, u8At_append_left _ _ _ (List.length_pos_iff.mpr hne)]
    rw [this]
    exact ih
  | ipv4 hl _ ih => rw [wire_cons]; exact .ipv4 hl ih
  | ipv6 hl _ ih => rw [wire_cons]; exact .ipv6 hl ih
  | @gre h c k s hs hl hc hk hss e _ ih =>
    rw [wire_cons, wire_append, wire_append, wire_append, flatten_optH, flatten_optH, flatten_optH]
    rw [← List.append_assoc k, ← List.append_assoc s, ← List.append_assoc s k, e, List.append_assoc, List.append_assoc]
    exact .gre hl hc hk hss ih
  | erspan2 hl _ ih => rw [wire_cons]; exact .erspan2 hl ih
  | erspan3 hl hp _ ih => rw [wire_cons, wire_append, flatten_optH]; exact .erspan3 hl hp ih
  | arp hl => rw [wire_cons]; exact .arp hl (by rw [wire_nil]; exact .payload pl)
  | icmp hl => rw [wire_cons]; exact .icmp hl (by rw [wire_nil]; exact .payload pl)
  | tcp hl => rw [wire_cons]; exact .tcp hl (by rw [wire_nil]; exact .payload pl)
  | udp hl hb => rw [wire_cons]; exact .udp hl hb (by rw [wire_nil]; exact .payload pl)
  | udpVxlan hl hb _ ih => rw [wire_cons]; exact .udpVxlan hl hb ih
  | vxlan hl _ ih => rw [wire_cons]; exact .vxlan hl ih
  | dot3 hl _ ih => rw [wire_cons]; exact .dot3 hl ih
  | llc hl hb => rw [wire_cons]; exact .llc hl hb (by rw [wire_nil]; exact .payload pl)
  | llcSnap _ ih => rw [wire_cons]; exact .llcSnap rfl ih
  | snap hl => rw [wire_cons]; exact .snap hl (by rw [wire_nil]; exact .payload pl)

/-- **C58**: a packet, however it was made, comes back unchanged from `to_vec` and the parser function of layer `l` iff
its headers form a chain beginning with that layer.  The payload does not matter. -/
theorem C58_survives_iff (chk : Bool) (l : Layer) (p : Packet) :
    Slow.parseL chk l p.to_vec = .ok p ↔ Chain l p.hdrs := by
  rw [to_vec_eq_wire]
  constructor
  · intro h; exact Chain_of_Dissect (Dissect_of_parse h) rfl
  · intro h; exact parse_of_Dissect (Dissect_of_Chain h p.payload)

theorem chain_head14 {l : Layer} {hs : List Hdr} (hl : l = .ether ∨ l = .dot3) (c : Chain l hs) :
    ∃ h t, hs = h :: t ∧ h.data.length = 14 := by
  rcases hl with rfl | rfl
  · cases c with | ether hl _ => exact ⟨_, _, rfl, hl⟩
  · cases c with | dot3 hl _ => exact ⟨_, _, rfl, hl⟩

/-- **C58** for whole frames: `parse(p.to_vec())` is `p` iff the headers of `p` form a frame. -/
theorem C58_survives_iff_frame (chk : Bool) (p : Packet) : Slow.parse chk p.to_vec = .ok p ↔ ChainFrame p.hdrs := by
  rw [to_vec_eq_wire, C21_parse_frame chk _ p.hdrs p.payload]
  have at12 : ∀ {h : Hdr} {t : List Hdr}, h.data.length = 14 → u16At (wire (h :: t) p.payload) 12 = u16At h.data 12 := by
    intro h t hl
    rw [wire_cons, u16At_append_left _ _ _ (by omega)]
  constructor
  · rintro ⟨-, d⟩
    have c := Chain_of_Dissect d rfl
    obtain ⟨h, t, e, hl⟩ := chain_head14 (by split <;> simp) c
    rw [e, at12 hl] at c
    rw [e]
    split at c
    · exact .dot3 ‹_› c
    · exact .ether (by omega) c
  · intro c
    have : ∀ {h : Hdr} {t : List Hdr}, p.hdrs = h :: t → h.data.length = 14 →
        Chain (if u16At h.data 12 < 1500 then .dot3 else .ether) (h :: t) → DissectFrame (wire p.hdrs p.payload) p.hdrs p.payload := by
      intro h t e hl c
      rw [e]
      refine ⟨by rw [wire_cons]; simp; omega, ?_⟩
      rw [at12 hl]
      exact Dissect_of_Chain c _
    generalize e : p.hdrs = hs at c this
    cases c with
    | dot3 hb c =>
      obtain ⟨_, _, e', hl⟩ := chain_head14 (.inr rfl) c
      cases e'
      exact this rfl hl (by rw [if_pos hb]; exact c)
    | ether hb c =>
      obtain ⟨_, _, e', hl⟩ := chain_head14 (.inl rfl) c
      cases e'
      exact this rfl hl (by rw [if_neg (by omega)]; exact c)

-- the example frame is a chain; with an EtherType that does not announce the VLAN tag it is not
example : ChainFrame (okPkt (Slow.parse true exFrame)).hdrs :=
  (C58_survives_iff_frame true _).mp (by decide +kernel)
example : ¬ ChainFrame [⟨Ether, Ether.dflt⟩, ⟨ARP, ARP.dflt⟩] :=
  fun h => absurd ((C58_survives_iff_frame true ⟨_, []⟩).mpr h) (by decide +kernel)
-- two GRE options survive only when their octets are the same in both orders
example : ChainFrame [⟨Ether, exBytes 12 id ++ [0x08, 0x00]⟩, ⟨IPv4, exBytes 9 id ++ 47#8 :: exBytes 10 id⟩,
    ⟨GRE, [0x30, 0, 0xff, 0xff]⟩, ⟨GRESequenceNum, [1, 2, 3, 4]⟩, ⟨GREKey, [1, 2, 3, 4]⟩] :=
  (C58_survives_iff_frame true ⟨_, []⟩).mp (by decide +kernel)
example : ¬ ChainFrame [⟨Ether, exBytes 12 id ++ [0x08, 0x00]⟩, ⟨IPv4, exBytes 9 id ++ 47#8 :: exBytes 10 id⟩,
    ⟨GRE, [0x30, 0, 0xff, 0xff]⟩, ⟨GRESequenceNum, [1, 2, 3, 4]⟩, ⟨GREKey, [1, 2, 3, 5]⟩] :=
  fun h => absurd ((C58_survives_iff_frame true ⟨_, []⟩).mpr h) (by decide +kernel)

/-! ## C59: edits that the parser does not see -/

theorem Spec.Edited.cons_inv {prev : Option HeaderDef} {h : Hdr} {hs hs' : List Hdr} (e : Edited prev (h :: hs) hs') :
    ∃ d t, hs' = ⟨h.ty, d⟩ :: t ∧ Stands prev h ⟨h.ty, d⟩ ∧ Edited (some h.ty) hs t := by
  match hs' with
  | [] => exact e.elim
  | h' :: t =>
    obtain ⟨s, e⟩ := e
    refine ⟨h'.data, t, ?_, ?_, e⟩
    · rw [← s.1]
    · rw [← s.1]; exact s

theorem Spec.Edited.nil_inv {prev : Option HeaderDef} {hs' : List Hdr} (e : Edited prev [] hs') : hs' = [] := by
  match hs' with
  | [] => rfl
  | _ :: _ => exact e.elim

theorem Spec.Edited.opt_inv {T : HeaderDef} {x : Bytes} {hs : List Hdr} : ∀ {prev : Option HeaderDef} {hs' : List Hdr},
    Edited prev (optH T x ++ hs) hs' → ∃ x' t prev', hs' = optH T x' ++ t ∧ x'.length = x.length ∧ Edited prev' hs t := by
  intro prev hs' e
  unfold optH at e
  by_cases hx : x = []
  · rw [if_pos hx] at e
    exact ⟨[], hs', prev, by simp [optH], by simp [hx], e⟩
  · rw [if_neg hx] at e
    obtain ⟨d, t, rfl, s, e⟩ := e.cons_inv
    have hd : d ≠ [] := by
      rintro rfl
      exact hx (List.length_eq_zero_iff.mp s.2.1.symm)
    exact ⟨d, t, _, by simp [optH, hd], s.2.1, e⟩

theorem follow_ether (d : Bytes) : follow ⟨Ether, d⟩ = (etherNext (u16At d 12), []) := rfl
theorem follow_vlan (d : Bytes) : follow ⟨Vlan, d⟩ = (etherNext (u16At d 2), []) := rfl
theorem follow_mpls (d : Bytes) : follow ⟨MPLS, d⟩ = (if bitAt d 2 0 then .mplsBos else .mpls, []) := rfl
theorem follow_ipv4 (d : Bytes) : follow ⟨IPv4, d⟩ = (ipv4Next (u8At d 9), []) := rfl
theorem follow_ipv6 (d : Bytes) : follow ⟨IPv6, d⟩ = (ipv6Next (u8At d 6), []) := rfl
theorem follow_gre (d : Bytes) : follow ⟨GRE, d⟩ =
    (greNext (u16At d 2), [bitAt d 0 7, bitAt d 0 5, bitAt d 0 4]) := rfl
theorem follow_erspan3 (d : Bytes) : follow ⟨ERSPAN3, d⟩ = (.ether, [bitAt d 11 0]) := rfl
theorem follow_udp (d : Bytes) : follow ⟨UDP, d⟩ = (if u16At d 2 = 4789 then .vxlan else .payload, []) := rfl
theorem follow_llc (d : Bytes) : follow ⟨LLC, d⟩ =
    (if d = [0xAA#8, 0xAA#8, 0x03#8] then .snap else .payload, []) := rfl

theorem palindrome_of_one {c k s : Bytes} {pc pk ps : Bool} (hc : c.length = if pc then 4 else 0)
    (hk : k.length = if pk then 4 else 0) (hs : s.length = if ps then 4 else 0)
    (h : pc.toNat + pk.toNat + ps.toNat ≤ 1) : s ++ k ++ c = c ++ k ++ s := by
  cases pc <;> cases pk <;> cases ps <;> simp_all

theorem chain_edited {l : Layer} {hs : List Hdr} (c : Chain l hs)
    (hg : ∀ g ∈ hs, g.ty = GRE → greOptCount g.data ≤ 1) :
    ∀ {prev : Option HeaderDef} {hs' : List Hdr}, Edited prev hs hs' → Chain l hs' := by
  induction c with
  | payload => intro _ _ e; rw [e.nil_inv]; exact .payload
  | ether hl _ ih =>
    intro _ _ e
    obtain ⟨d, t, rfl, ⟨-, s2, s3, -⟩, e⟩ := e.cons_inv
    simp only [follow_ether, Prod.mk.injEq, and_true] at s3
    exact .ether (s2.trans hl) (by rw [s3]; exact ih (fun g m => hg g (.tail _ m)) e)
  | vlan hl _ ih =>
    intro _ _ e
    obtain ⟨d, t, rfl, ⟨-, s2, s3, -⟩, e⟩ := e.cons_inv
    simp only [follow_vlan, Prod.mk.injEq, and_true] at s3
    exact .vlan (s2.trans hl) (by rw [s3]; exact ih (fun g m => hg g (.tail _ m)) e)
  | mpls hl hb _ ih =>
    intro _ _ e
    obtain ⟨d, t, rfl, ⟨-, s2, s3, -⟩, e⟩ := e.cons_inv
    simp only [follow_mpls, Prod.mk.injEq, and_true, hb] at s3
    refine .mpls (s2.trans hl) ?_ (ih (fun g m => hg g (.tail _ m)) e)
    cases hd : bitAt d 2 0 with
    | false => rfl
    | true => rw [hd] at s3; exact nomatch s3
  | mplsLast hl hb _ ih =>
    intro _ _ e
    obtain ⟨d, t, rfl, ⟨-, s2, s3, -⟩, e⟩ := e.cons_inv
    simp only [follow_mpls, Prod.mk.injEq, and_true, hb] at s3
    refine .mplsLast (s2.trans hl) ?_ (ih (fun g m => hg g (.tail _ m)) e)
    cases hd : bitAt d 2 0 with
    | true => rfl
    | false => rw [hd] at s3; exact nomatch s3
  | mplsBos hl _ ih =>
    intro _ _ e
    obtain ⟨d, t, rfl, ⟨-, s2, -, -⟩, e⟩ := e.cons_inv
    have c := ih (fun g m => hg g (.tail _ m)) e
    obtain ⟨d', t', rfl, ⟨-, -, -, s4⟩, -⟩ := e.cons_inv
    exact .mplsBos (s2.trans hl) (by rw [s4 rfl]; exact c)
  | ipv4 hl _ ih =>
    intro _ _ e
    obtain ⟨d, t, rfl, ⟨-, s2, s3, -⟩, e⟩ := e.cons_inv
    simp only [follow_ipv4, Prod.mk.injEq, and_true] at s3
    exact .ipv4 (s2.trans hl) (by rw [s3]; exact ih (fun g m => hg g (.tail _ m)) e)
  | ipv6 hl _ ih =>
    intro _ _ e
    obtain ⟨d, t, rfl, ⟨-, s2, s3, -⟩, e⟩ := e.cons_inv
    simp only [follow_ipv6, Prod.mk.injEq, and_true] at s3
    exact .ipv6 (s2.trans hl) (by rw [s3]; exact ih (fun g m => hg g (.tail _ m)) e)
  | gre hl hc hk hss hpal _ ih =>
    intro _ _ e
    obtain ⟨d, t, rfl, ⟨-, s2, s3, -⟩, e⟩ := e.cons_inv
    obtain ⟨s', t, _, rfl, ls, e⟩ := e.opt_inv
    obtain ⟨k', t, _, rfl, lk, e⟩ := e.opt_inv
    obtain ⟨c', t, _, rfl, lc, e⟩ := e.opt_inv
    simp only [follow_gre, Prod.mk.injEq, List.cons.injEq, and_true] at s3
    obtain ⟨s3, f1, f2, f3⟩ := s3
    have one := hg _ (.head _) rfl
    rw [← lc, ← f1] at hc
    rw [← lk, ← f2] at hk
    rw [← ls, ← f3] at hss
    refine .gre (s2.trans hl) hc hk hss (palindrome_of_one hc hk hss ?_) ?_
    · rw [f1, f2, f3]; exact one
    · rw [s3]
      exact ih (fun g m => hg g (.tail _ (List.mem_append_right _ (List.mem_append_right _
        (List.mem_append_right _ m))))) e
  | erspan2 hl _ ih =>
    intro _ _ e
    obtain ⟨d, t, rfl, ⟨-, s2, -, -⟩, e⟩ := e.cons_inv
    exact .erspan2 (s2.trans hl) (ih (fun g m => hg g (.tail _ m)) e)
  | erspan3 hl hp _ ih =>
    intro _ _ e
    obtain ⟨d, t, rfl, ⟨-, s2, s3, -⟩, e⟩ := e.cons_inv
    obtain ⟨p', t, _, rfl, lp, e⟩ := e.opt_inv
    simp only [follow_erspan3, Prod.mk.injEq, List.cons.injEq, and_true, true_and] at s3
    exact .erspan3 (s2.trans hl) (by rw [lp, hp, s3]) (ih (fun g m => hg g (.tail _ (List.mem_append_right _ m))) e)
  | arp hl =>
    intro _ _ e
    obtain ⟨d, t, rfl, ⟨-, s2, -, -⟩, e⟩ := e.cons_inv
    rw [e.nil_inv]; exact .arp (s2.trans hl)
  | icmp hl =>
    intro _ _ e
    obtain ⟨d, t, rfl, ⟨-, s2, -, -⟩, e⟩ := e.cons_inv
    rw [e.nil_inv]; exact .icmp (s2.trans hl)
  | tcp hl =>
    intro _ _ e
    obtain ⟨d, t, rfl, ⟨-, s2, -, -⟩, e⟩ := e.cons_inv
    rw [e.nil_inv]; exact .tcp (s2.trans hl)
  | udp hl hb =>
    intro _ _ e
    obtain ⟨d, t, rfl, ⟨-, s2, s3, -⟩, e⟩ := e.cons_inv
    simp only [follow_udp, Prod.mk.injEq, and_true, if_neg hb] at s3
    rw [e.nil_inv]
    refine .udp (s2.trans hl) fun h => ?_
    rw [if_pos h] at s3
    exact nomatch s3
  | udpVxlan hl hb _ ih =>
    intro _ _ e
    obtain ⟨d, t, rfl, ⟨-, s2, s3, -⟩, e⟩ := e.cons_inv
    simp only [follow_udp, Prod.mk.injEq, and_true, if_pos hb] at s3
    refine .udpVxlan (s2.trans hl) ?_ (ih (fun g m => hg g (.tail _ m)) e)
    refine Classical.byContradiction fun h => ?_
    rw [if_neg h] at s3
    exact nomatch s3
  | vxlan hl _ ih =>
    intro _ _ e
    obtain ⟨d, t, rfl, ⟨-, s2, -, -⟩, e⟩ := e.cons_inv
    exact .vxlan (s2.trans hl) (ih (fun g m => hg g (.tail _ m)) e)
  | dot3 hl _ ih =>
    intro _ _ e
    obtain ⟨d, t, rfl, ⟨-, s2, -, -⟩, e⟩ := e.cons_inv
    exact .dot3 (s2.trans hl) (ih (fun g m => hg g (.tail _ m)) e)
  | llc hl hb =>
    intro _ _ e
    obtain ⟨d, t, rfl, ⟨-, s2, s3, -⟩, e⟩ := e.cons_inv
    simp only [follow_llc, Prod.mk.injEq, and_true, if_neg hb] at s3
    rw [e.nil_inv]
    refine .llc (s2.trans hl) fun h => ?_
    rw [if_pos h] at s3
    exact nomatch s3
  | llcSnap _ ih =>
    intro _ _ e
    obtain ⟨d, t, rfl, ⟨-, s2, s3, -⟩, e'⟩ := e.cons_inv
    simp only [follow_llc, Prod.mk.injEq, and_true, if_true] at s3
    have hd : d = [0xAA#8, 0xAA#8, 0x03#8] := by
      refine Classical.byContradiction fun h => ?_
      rw [if_neg h] at s3
      exact nomatch s3
    subst hd
    exact .llcSnap (ih (fun g m => hg g (.tail _ m)) e')
  | snap hl =>
    intro _ _ e
    obtain ⟨d, t, rfl, ⟨-, s2, -, -⟩, e⟩ := e.cons_inv
    rw [e.nil_inv]; exact .snap (s2.trans hl)

theorem parsed_chain {chk : Bool} {l : Layer} {b : Bytes} {p : Packet} (h : Slow.parseL chk l b = .ok p)
    (hg : ∀ g ∈ p.hdrs, g.ty = GRE → greOptCount g.data ≤ 1) : Chain l p.hdrs :=
  (C58_survives_iff chk l p).mp (by rw [C23_roundtrip chk l b p h hg]; exact h)

/-- **C59**: take any parsed packet without double GRE options, change any headers to ones that can stand for them (same
size, announcing the same things) and the payload to anything: serializing and parsing returns the edited packet. -/
theorem C59_edit (chk : Bool) (l : Layer) (b : Bytes) (p : Packet) (h : Slow.parseL chk l b = .ok p)
    (hg : ∀ g ∈ p.hdrs, g.ty = GRE → greOptCount g.data ≤ 1) (hs' : List Hdr) (he : Edited none p.hdrs hs')
    (pl' : Bytes) : Slow.parseL chk l (Packet.to_vec ⟨hs', pl'⟩) = .ok ⟨hs', pl'⟩ :=
  (C58_survives_iff chk l ⟨hs', pl'⟩).mpr (chain_edited (parsed_chain h hg) hg he)

/-- **C59** for whole frames: the first header must also stay on its side of 1500. -/
theorem C59_edit_frame (chk : Bool) (b : Bytes) (p : Packet) (h : Slow.parse chk b = .ok p)
    (hg : ∀ g ∈ p.hdrs, g.ty = GRE → greOptCount g.data ≤ 1) (hs' : List Hdr) (he : Edited none p.hdrs hs')
    (h1500 : ∀ g g', p.hdrs.head? = some g → hs'.head? = some g' → (u16At g'.data 12 < 1500 ↔ u16At g.data 12 < 1500))
    (pl' : Bytes) : Slow.parse chk (Packet.to_vec ⟨hs', pl'⟩) = .ok ⟨hs', pl'⟩ := by
  have c : ChainFrame p.hdrs :=
    (C58_survives_iff_frame chk p).mp (by rw [C23_roundtrip_frame chk b p h hg]; exact h)
  refine (C58_survives_iff_frame chk ⟨hs', pl'⟩).mpr ?_
  clear h
  generalize p.hdrs = hs at *
  cases c with
  | dot3 hb c =>
    have c' := chain_edited c hg he
    obtain ⟨d, t, rfl, -, -⟩ := he.cons_inv
    exact .dot3 ((h1500 _ _ rfl rfl).mpr hb) c'
  | ether hb c =>
    have c' := chain_edited c hg he
    obtain ⟨d, t, rfl, -, -⟩ := he.cons_inv
    have := h1500 _ _ rfl rfl
    exact .ether (by omega) c'

theorem u8At_congr {d d' : Bytes} {a : Nat} (h : ∀ i, 8 * a ≤ i → i ≤ 8 * a + 7 → netBit d' i = netBit d i) :
    u8At d' a = u8At d a := by
  have key : ∀ k, k < 8 → (u8At d' a).testBit k = (u8At d a).testBit k := by
    intro k hk
    have := h (8 * a + 7 - k) (by omega) (by omega)
    rw [← bitAt_eq_netBit _ _ _ hk, ← bitAt_eq_netBit _ _ _ hk] at this
    simp only [bitAt] at this
    rw [Nat.testBit_eq_decide_div_mod_eq, Nat.testBit_eq_decide_div_mod_eq]
    exact this
  apply Nat.eq_of_testBit_eq
  intro k
  by_cases hk : k < 8
  · exact key k hk
  · have e : 2 ^ 8 ≤ 2 ^ k := Nat.pow_le_pow_right (by omega) (by omega)
    rw [Nat.testBit_lt_two_pow (Nat.lt_of_lt_of_le (u8At_lt d' a) e),
      Nat.testBit_lt_two_pow (Nat.lt_of_lt_of_le (u8At_lt d a) e)]

theorem u16At_congr {d d' : Bytes} {a : Nat} (h : ∀ i, 8 * a ≤ i → i ≤ 8 * a + 15 → netBit d' i = netBit d i) :
    u16At d' a = u16At d a := by
  unfold u16At
  rw [u8At_congr fun i h1 h2 => h i h1 (by omega), u8At_congr (a := a + 1) fun i h1 h2 => h i (by omega) (by omega)]

theorem nibble_congr {d d' : Bytes} (h : ∀ i, i < 4 → netBit d' i = netBit d i) :
    u8At d' 0 / 16 = u8At d 0 / 16 := by
  have key : ∀ k, 4 ≤ k → k < 8 → u8At d' 0 / 2 ^ k % 2 = u8At d 0 / 2 ^ k % 2 := by
    intro k h4 hk
    have := h (8 * 0 + 7 - k) (by omega)
    rw [← bitAt_eq_netBit _ _ _ hk, ← bitAt_eq_netBit _ _ _ hk] at this
    simp only [bitAt, decide_eq_decide] at this
    omega
  have h4 := key 4 (by omega) (by omega)
  have h5 := key 5 (by omega) (by omega)
  have h6 := key 6 (by omega) (by omega)
  have h7 := key 7 (by omega) (by omega)
  have l1 := u8At_lt d' 0
  have l2 := u8At_lt d 0
  omega

theorem bitAt_congr {d d' : Bytes} {a k : Nat} (hk : k < 8) (h : netBit d' (8 * a + 7 - k) = netBit d (8 * a + 7 - k)) :
    bitAt d' a k = bitAt d a k := by
  rw [bitAt_eq_netBit _ _ _ hk, bitAt_eq_netBit _ _ _ hk, h]

/-- What a header announces depends only on the bits listed in `seenBits`. -/
theorem follow_congr (T : HeaderDef) (d d' : Bytes) (hl : d'.length = d.length) (h3 : T = LLC → d.length = 3)
    (h : ∀ r ∈ seenBits T, ∀ i, r.1 ≤ i → i ≤ r.2 → netBit d' i = netBit d i) : follow ⟨T, d'⟩ = follow ⟨T, d⟩ := by
  have at16 : ∀ a, (8 * a, 8 * a + 15) ∈ seenBits T → u16At d' a = u16At d a := fun a m => u16At_congr (h _ m)
  have at8 : ∀ a, (8 * a, 8 * a + 7) ∈ seenBits T → u8At d' a = u8At d a := fun a m => u8At_congr (h _ m)
  have at1 : ∀ a k, k < 8 → (8 * a + 7 - k, 8 * a + 7 - k) ∈ seenBits T → bitAt d' a k = bitAt d a k := fun a k hk m =>
    bitAt_congr hk (h _ m _ (Nat.le_refl _) (Nat.le_refl _))
  by_cases c1 : T = Ether
  · subst c1; rw [follow_ether, follow_ether, at16 12 (by decide)]
  by_cases c2 : T = Vlan
  · subst c2; rw [follow_vlan, follow_vlan, at16 2 (by decide)]
  by_cases c3 : T = MPLS
  · subst c3; rw [follow_mpls, follow_mpls, at1 2 0 (by decide) (by decide)]
  by_cases c4 : T = IPv4
  · subst c4; rw [follow_ipv4, follow_ipv4, at8 9 (by decide)]
  by_cases c5 : T = IPv6
  · subst c5; rw [follow_ipv6, follow_ipv6, at8 6 (by decide)]
  by_cases c6 : T = GRE
  · subst c6
    rw [follow_gre, follow_gre, at16 2 (by decide), at1 0 7 (by decide) (by decide), at1 0 5 (by decide) (by decide),
      at1 0 4 (by decide) (by decide)]
  by_cases c7 : T = ERSPAN3
  · subst c7; rw [follow_erspan3, follow_erspan3, at1 11 0 (by decide) (by decide)]
  by_cases c8 : T = UDP
  · subst c8; rw [follow_udp, follow_udp, at16 2 (by decide)]
  by_cases c9 : T = LLC
  · subst c9
    rw [eq_of_netBit d' d hl fun i hi => h (0, 23) (by decide) i (by omega) (by have := h3 rfl; omega)]
  · simp [follow, c1, c2, c3, c4, c5, c6, c7, c8, c9]

theorem Spec.Stands.refl (prev : Option HeaderDef) (h : Hdr) : Stands prev h h := ⟨rfl, rfl, rfl, fun _ => rfl⟩

theorem Spec.Edited.refl : ∀ (prev : Option HeaderDef) (hs : List Hdr), Edited prev hs hs
  | _, [] => trivial
  | prev, h :: hs => ⟨Stands.refl prev h, Edited.refl _ hs⟩

theorem edited_set : ∀ (prev : Option HeaderDef) (hs : List Hdr) (i : Nat) (h h' : Hdr), hs[i]? = some h →
    Stands (if i = 0 then prev else hs[i - 1]?.map (·.ty)) h h' → Edited prev hs (hs.set i h')
  | _, [], _, _, _, e, _ => by simp at e
  | prev, g :: hs, 0, h, h', e, s => by
    simp only [List.getElem?_cons_zero, Option.some.injEq] at e
    subst e
    exact ⟨s, Edited.refl _ hs⟩
  | prev, g :: hs, i + 1, h, h', e, s => by
    refine ⟨Stands.refl _ _, edited_set (some g.ty) hs i h h' (by simpa using e) ?_⟩
    cases i with
    | zero => simpa using s
    | succ i => simpa using s

/-- **C59** for one field: in a parsed frame without double GRE options, set any field that contains none of the
announcing bits of its header (and, right after an MPLS label, none of the first four bits), and the payload to anything:
serializing and parsing returns exactly the edited packet. -/
theorem C59_set_field (chk : Bool) (b : Bytes) (p : Packet) (h : Slow.parse chk b = .ok p)
    (hg : ∀ g ∈ p.hdrs, g.ty = GRE → greOptCount g.data ≤ 1) (i : Nat) (g : Hdr) (hi : p.hdrs[i]? = some g) (f : Field)
    (hin : f.Inside g.data.length) (hseen : ∀ r ∈ seenBits g.ty, f.hi < r.1 ∨ r.2 < f.lo)
    (hprev : ∀ q, i ≠ 0 → p.hdrs[i - 1]? = some q → q.ty = MPLS → 4 ≤ f.lo) (v : U64) :
    ∃ g', g.set f v = .ok g' ∧ ∀ pl',
      Slow.parse chk (Packet.to_vec ⟨p.hdrs.set i g', pl'⟩) = .ok ⟨p.hdrs.set i g', pl'⟩ := by
  obtain ⟨g', e, t, l, fr⟩ := C03_set_frame g f v hin
  refine ⟨g', e, fun pl' => ?_⟩
  have acc : ∀ g ∈ p.hdrs, g.data.length = g.ty.size := by
    rw [Slow.parse_eq] at h
    split at h
    · exact nomatch h
    · exact (C24_accounts chk _ b p h).1
  have seen : ∀ r ∈ seenBits g.ty, ∀ j, r.1 ≤ j → j ≤ r.2 → netBit g'.data j = netBit g.data j := by
    intro r hr j h1 h2
    rcases hseen r hr with h3 | h3
    · exact fr j (by omega)
    · exact fr j (by omega)
  have st : Stands (if i = 0 then none else p.hdrs[i - 1]?.map (·.ty)) g g' := by
    refine ⟨t, l, ?_, ?_⟩
    · have := follow_congr g.ty g.data g'.data l (fun c => by
        rw [acc g (List.mem_of_getElem? hi), c]; rfl) seen
      have key : follow g' = follow ⟨g.ty, g'.data⟩ := by rw [← t]
      exact key.trans this
    · intro hp
      by_cases h0 : i = 0
      · rw [if_pos h0] at hp; exact nomatch hp
      · rw [if_neg h0, Option.map_eq_some_iff] at hp
        obtain ⟨q, hq, tq⟩ := hp
        have h4 := hprev q h0 hq tq
        exact nibble_congr fun j hj => fr j (by omega)
  refine C59_edit_frame chk b p h hg _ (edited_set none p.hdrs i g g' hi st) ?_ _
  intro x x' hx hx'
  by_cases h0 : i = 0
  · subst h0
    have e1 : x = g := by
      rw [List.head?_eq_getElem?, hi] at hx
      exact (Option.some.inj hx).symm
    have e2 : x' = g' := by
      have hlt : 0 < p.hdrs.length := by
        obtain ⟨hlt, -⟩ := List.getElem?_eq_some_iff.mp hi
        exact hlt
      rw [List.head?_eq_getElem?, List.getElem?_set_self hlt] at hx'
      exact (Option.some.inj hx').symm
    subst e1 e2
    have hty : x.ty = Ether ∨ x.ty = Dot3 := by
      have c : ChainFrame p.hdrs :=
        (C58_survives_iff_frame chk p).mp (by rw [C23_roundtrip_frame chk b p h hg]; exact h)
      revert hx
      generalize p.hdrs = hs at c
      intro hx
      cases c with
      | dot3 _ c => cases c; obtain rfl := Option.some.inj hx; exact .inr rfl
      | ether _ c => cases c; obtain rfl := Option.some.inj hx; exact .inl rfl
    have m : (96, 111) ∈ seenBits x.ty := by
      rcases hty with hty | hty <;> rw [hty] <;> decide
    rw [u16At_congr (seen _ m)]
  · have : x' = x := by
      rw [List.head?_eq_getElem?] at hx hx'
      rw [List.getElem?_set_ne (by omega), hx] at hx'
      exact (Option.some.inj hx').symm
    rw [this]

-- setting the VLAN id of the example frame
example : Slow.parse true (Packet.to_vec ⟨(okPkt (Slow.parse true exFrame)).hdrs.set 1 ⟨Vlan, [0x2f, 0xff, 0x08, 0x00]⟩,
      (okPkt (Slow.parse true exFrame)).payload⟩) =
    .ok ⟨(okPkt (Slow.parse true exFrame)).hdrs.set 1 ⟨Vlan, [0x2f, 0xff, 0x08, 0x00]⟩,
      (okPkt (Slow.parse true exFrame)).payload⟩ := by
  have hp : ∀ q, 1 ≠ 0 → (okPkt (Slow.parse true exFrame)).hdrs[1 - 1]? = some q → q.ty = MPLS → 4 ≤ Vlan.vid.lo :=
    fun _ _ _ _ => by decide
  obtain ⟨g', e, h⟩ := C59_set_field true exFrame (okPkt (Slow.parse true exFrame)) (by decide +kernel)
    (by decide +kernel) 1 ⟨Vlan, [0x20, 0x05, 0x08, 0x00]⟩ (by decide +kernel) Vlan.vid (by decide) (by decide) hp 0xfff
  have : g' = ⟨Vlan, [0x2f, 0xff, 0x08, 0x00]⟩ := Except.ok.inj (e.symm.trans (by decide +kernel))
  rw [this] at h
  exact h _
-- setting the UDP destination port, which is an announcing field, is seen: the packet does not come back
example : (okPkt (Slow.parse true exFrame)).hdrs[3]? = some ⟨UDP, [0, 1, 0x12, 0xb5, 0, 0, 0, 0]⟩ ∧
    Slow.parse true (Packet.to_vec ⟨(okPkt (Slow.parse true exFrame)).hdrs.set 3 ⟨UDP, [0, 1, 0, 53, 0, 0, 0, 0]⟩,
      (okPkt (Slow.parse true exFrame)).payload⟩) ≠
    .ok ⟨(okPkt (Slow.parse true exFrame)).hdrs.set 3 ⟨UDP, [0, 1, 0, 53, 0, 0, 0, 0]⟩,
      (okPkt (Slow.parse true exFrame)).payload⟩ := by decide +kernel

/-! ## C59, the other direction: a changed announcement is seen -/

theorem chain_kind {l : Layer} {hs : List Hdr} (c : Chain l hs) : hs.head?.map (·.ty) = kindOf l := by
  cases c <;> rfl

theorem kindOf_inj : ∀ l l', kindOf l = kindOf l' → l = l' ∨ (l = .mpls ∧ l' = .mplsBos) ∨ (l = .mplsBos ∧ l' = .mpls) := by
  intro l l'
  cases l <;> cases l' <;> decide

theorem not_both_mpls {hs : List Hdr} (c : Chain .mpls hs) (c' : Chain .mplsBos hs) : False := by
  have key : ∀ n, kindOf (bosNext n) ≠ some MPLS := by
    intro n
    unfold bosNext
    split
    · decide
    · split <;> decide
  cases c' with
  | mplsBos _ c' =>
    have k' := chain_kind c'
    cases c with
    | mpls _ _ c => exact key _ (k'.symm.trans (chain_kind c))
    | mplsLast _ _ c => exact key _ (k'.symm.trans (chain_kind c))

theorem layer_unique {l l' : Layer} {hs : List Hdr} (c : Chain l hs) (c' : Chain l' hs) : l = l' := by
  rcases kindOf_inj l l' ((chain_kind c).symm.trans (chain_kind c')) with h | ⟨rfl, rfl⟩ | ⟨rfl, rfl⟩
  · exact h
  · exact (not_both_mpls c c').elim
  · exact (not_both_mpls c' c).elim

theorem map_ty_optH {n : Nat} (T : HeaderDef) (x : Bytes) (b : Bool) (h : x.length = if b then n + 1 else 0) :
    (optH T x).map (·.ty) = if b then [T] else [] := by
  cases b
  · have : x = [] := List.length_eq_zero_iff.mp h
    simp [optH, this]
  · have : x ≠ [] := ne_nil_of_length h
    simp [optH, this]

/-- The types of the GRE options at the front of a stack determine the option flags. -/
theorem gre_flags {a b c a' b' c' : Bool} {r r' : List HeaderDef}
    (hr : ∀ T ∈ [GRESequenceNum, GREKey, GREChksumOffset], r.head? ≠ some T)
    (hr' : ∀ T ∈ [GRESequenceNum, GREKey, GREChksumOffset], r'.head? ≠ some T)
    (h : (if a then [GRESequenceNum] else []) ++ ((if b then [GREKey] else []) ++
        ((if c then [GREChksumOffset] else []) ++ r)) =
      (if a' then [GRESequenceNum] else []) ++ ((if b' then [GREKey] else []) ++
        ((if c' then [GREChksumOffset] else []) ++ r'))) : a = a' ∧ b = b' ∧ c = c' ∧ r = r' := by
  have n1 : GRESequenceNum ≠ GREKey := by decide
  have n2 : GRESequenceNum ≠ GREChksumOffset := by decide
  have n3 : GREKey ≠ GREChksumOffset := by decide
  have h1 := hr GRESequenceNum (by simp)
  have h2 := hr GREKey (by simp)
  have h3 := hr GREChksumOffset (by simp)
  have h1' := hr' GRESequenceNum (by simp)
  have h2' := hr' GREKey (by simp)
  have h3' := hr' GREChksumOffset (by simp)
  cases a <;> cases b <;> cases c <;> cases a' <;> cases b' <;> cases c' <;>
    simp_all [n1.symm, n2.symm, n3.symm] <;> (subst h; simp_all)

theorem gre_rest (n : Nat) {hs : List Hdr} (c : Chain (greNext n) hs) :
    ∀ T ∈ [GRESequenceNum, GREKey, GREChksumOffset], (hs.map (·.ty)).head? ≠ some T := by
  rw [List.head?_map, chain_kind c]
  unfold greNext
  split
  · decide
  · split
    · decide
    · split
      · decide
      · split <;> decide

theorem optH_tail (T : HeaderDef) {x y : Bytes} {r r' : List Hdr} (hl : x.length = y.length)
    (h : optH T x ++ r = optH T y ++ r') : r = r' := by
  refine (List.append_inj h ?_).2
  have := congrArg List.length (ty_optH T x y hl)
  simpa using this

/-- In two stacks that agree after the first header, the first headers announce the same. -/
theorem follow_of_rest {l : Layer} {g g' : Hdr} {post : List Hdr} (hm : g.ty ≠ MPLS) (c : Chain l (g :: post))
    (c' : Chain l (g' :: post)) : follow g' = follow g := by
  cases l with
  | ether => cases c with | ether _ c => cases c' with | ether _ c' => rw [follow_ether, follow_ether, layer_unique c c']
  | vlan => cases c with | vlan _ c => cases c' with | vlan _ c' => rw [follow_vlan, follow_vlan, layer_unique c c']
  | mpls => cases c <;> exact absurd rfl hm
  | mplsBos => cases c; exact absurd rfl hm
  | ipv4 => cases c with | ipv4 _ c => cases c' with | ipv4 _ c' => rw [follow_ipv4, follow_ipv4, layer_unique c c']
  | ipv6 => cases c with | ipv6 _ c => cases c' with | ipv6 _ c' => rw [follow_ipv6, follow_ipv6, layer_unique c c']
  | gre =>
    generalize e : g' :: post = x at c'
    cases c with
    | gre hl hc hk hs _ c =>
      cases c' with
      | gre hl' hc' hk' hs' _ c' =>
        obtain ⟨rfl, e2⟩ := List.cons.inj e
        have et := congrArg (List.map (·.ty)) e2
        simp only [List.map_append, map_ty_optH _ _ _ hc, map_ty_optH _ _ _ hk, map_ty_optH _ _ _ hs,
          map_ty_optH _ _ _ hc', map_ty_optH _ _ _ hk', map_ty_optH _ _ _ hs'] at et
        obtain ⟨f1, f2, f3, -⟩ := gre_flags (gre_rest _ c) (gre_rest _ c') et
        have e3 := optH_tail _ (by rw [hc, hc', f3]) (optH_tail _ (by rw [hk, hk', f2])
          (optH_tail _ (by rw [hs, hs', f1]) e2))
        subst e3
        rw [follow_gre, follow_gre, layer_unique c c', f1, f2, f3]
  | erspan2 => cases c; cases c'; rfl
  | erspan3 =>
    generalize e : g' :: post = x at c'
    cases c with
    | erspan3 hl hp c =>
      cases c' with
      | erspan3 hl' hp' c' =>
        obtain ⟨rfl, e2⟩ := List.cons.inj e
        have et := congrArg (List.map (·.ty)) e2
        simp only [List.map_append, map_ty_optH _ _ _ hp, map_ty_optH _ _ _ hp'] at et
        have k := chain_kind c
        have k' := chain_kind c'
        rw [← List.head?_map] at k k'
        rw [follow_erspan3, follow_erspan3]
        generalize bitAt _ 11 0 = b at et ⊢
        generalize bitAt _ 11 0 = b' at et ⊢
        have n : kindOf .ether ≠ some ERSPANPLATFORM := by decide
        cases b <;> cases b'
        · rfl
        · rw [show ∀ x : List HeaderDef, (if false = true then [ERSPANPLATFORM] else []) ++ x = x from fun _ => rfl] at et
          rw [et] at k; exact absurd k.symm n
        · rw [show ∀ x : List HeaderDef, (if false = true then [ERSPANPLATFORM] else []) ++ x = x from fun _ => rfl] at et
          rw [← et] at k'; exact absurd k'.symm n
        · rfl
  | arp => cases c; cases c'; rfl
  | icmp => cases c; cases c'; rfl
  | tcp => cases c; cases c'; rfl
  | udp =>
    cases c with
    | udp hl hp =>
      cases c' with
      | udp _ hp' => rw [follow_udp, follow_udp, if_neg hp, if_neg hp']
      | udpVxlan _ _ c' => cases c'
    | udpVxlan hl hp c =>
      cases c' with
      | udp _ hp' => cases c
      | udpVxlan _ hp' c' => rw [follow_udp, follow_udp, if_pos hp, if_pos hp']
  | vxlan => cases c; cases c'; rfl
  | dot3 => cases c; cases c'; rfl
  | llc =>
    cases c with
    | llc hl hp =>
      cases c' with
      | llc _ hp' => rw [follow_llc, follow_llc, if_neg hp, if_neg hp']
      | llcSnap c' => cases c'
    | llcSnap c =>
      cases c' with
      | llc _ hp' => cases c
      | llcSnap c' => rfl
  | snap => cases c; cases c'; rfl
  | payload => cases c

theorem opts_split {o hs pre post : List Hdr} {g : Hdr} (h : o ++ hs = pre ++ g :: post) :
    (∃ a, pre = o ++ a ∧ hs = a ++ g :: post) ∨ g ∈ o := by
  rcases List.append_eq_append_iff.mp h with ⟨a, rfl, e⟩ | ⟨c, rfl, e⟩
  · exact .inl ⟨a, rfl, e⟩
  · cases c with
    | nil => exact .inl ⟨[], by simp, by simpa using e.symm⟩
    | cons x c => exact .inr (by simp [(List.cons.inj e).1])

theorem follow_other {h : Hdr} (h1 : h.ty = GRESequenceNum ∨ h.ty = GREKey ∨ h.ty = GREChksumOffset ∨
    h.ty = ERSPANPLATFORM) : follow h = (.payload, []) := by
  obtain ⟨T, d⟩ := h
  rcases h1 with h | h | h | h <;> (simp only at h; subst h; rfl)

theorem mem_optH {T : HeaderDef} {x : Bytes} {g : Hdr} (h : g ∈ optH T x) : g.ty = T := by
  unfold optH at h
  split at h
  · simp at h
  · simp only [List.mem_singleton] at h; rw [h]

theorem bosNext_unique {n n' : Nat} (h : kindOf (bosNext n) = kindOf (bosNext n')) : bosNext n = bosNext n' := by
  have key : ∀ n, bosNext n ≠ .mpls ∧ bosNext n ≠ .mplsBos := by
    intro n
    unfold bosNext
    split
    · decide
    · split <;> decide
  rcases kindOf_inj _ _ h with h | ⟨h, -⟩ | ⟨h, -⟩
  · exact h
  · exact absurd h (key n).1
  · exact absurd h (key n).2

theorem chain_seen {l : Layer} {hs : List Hdr} (c : Chain l hs) : ∀ {pre post : List Hdr} {g g' : Hdr},
    hs = pre ++ g :: post → g.ty ≠ MPLS → g'.ty = g.ty → Chain l (pre ++ g' :: post) → follow g' = follow g := by
  induction c with
  | payload => intro pre post g g' e; simp at e
  | ether hl c ih =>
    intro pre post g g' e hm ht c'
    cases pre with
    | nil => exact follow_of_rest hm (by have q := Chain.ether hl c; rw [e] at q; exact q) c'
    | cons p pre =>
      obtain ⟨rfl, e2⟩ := List.cons.inj e
      cases c' with | ether _ c' => exact ih e2 hm ht c'
  | vlan hl c ih =>
    intro pre post g g' e hm ht c'
    cases pre with
    | nil => exact follow_of_rest hm (by have q := Chain.vlan hl c; rw [e] at q; exact q) c'
    | cons p pre =>
      obtain ⟨rfl, e2⟩ := List.cons.inj e
      cases c' with | vlan _ c' => exact ih e2 hm ht c'
  | ipv4 hl c ih =>
    intro pre post g g' e hm ht c'
    cases pre with
    | nil => exact follow_of_rest hm (by have q := Chain.ipv4 hl c; rw [e] at q; exact q) c'
    | cons p pre =>
      obtain ⟨rfl, e2⟩ := List.cons.inj e
      cases c' with | ipv4 _ c' => exact ih e2 hm ht c'
  | ipv6 hl c ih =>
    intro pre post g g' e hm ht c'
    cases pre with
    | nil => exact follow_of_rest hm (by have q := Chain.ipv6 hl c; rw [e] at q; exact q) c'
    | cons p pre =>
      obtain ⟨rfl, e2⟩ := List.cons.inj e
      cases c' with | ipv6 _ c' => exact ih e2 hm ht c'
  | erspan2 hl c ih =>
    intro pre post g g' e hm ht c'
    cases pre with
    | nil => exact follow_of_rest hm (by have q := Chain.erspan2 hl c; rw [e] at q; exact q) c'
    | cons p pre =>
      obtain ⟨rfl, e2⟩ := List.cons.inj e
      cases c' with | erspan2 _ c' => exact ih e2 hm ht c'
  | vxlan hl c ih =>
    intro pre post g g' e hm ht c'
    cases pre with
    | nil => exact follow_of_rest hm (by have q := Chain.vxlan hl c; rw [e] at q; exact q) c'
    | cons p pre =>
      obtain ⟨rfl, e2⟩ := List.cons.inj e
      cases c' with | vxlan _ c' => exact ih e2 hm ht c'
  | dot3 hl c ih =>
    intro pre post g g' e hm ht c'
    cases pre with
    | nil => exact follow_of_rest hm (by have q := Chain.dot3 hl c; rw [e] at q; exact q) c'
    | cons p pre =>
      obtain ⟨rfl, e2⟩ := List.cons.inj e
      cases c' with | dot3 _ c' => exact ih e2 hm ht c'
  | arp hl =>
    intro pre post g g' e hm ht c'
    cases pre with
    | nil => exact follow_of_rest hm (by have q := Chain.arp hl; rw [e] at q; exact q) c'
    | cons p pre => simp at e
  | icmp hl =>
    intro pre post g g' e hm ht c'
    cases pre with
    | nil => exact follow_of_rest hm (by have q := Chain.icmp hl; rw [e] at q; exact q) c'
    | cons p pre => simp at e
  | tcp hl =>
    intro pre post g g' e hm ht c'
    cases pre with
    | nil => exact follow_of_rest hm (by have q := Chain.tcp hl; rw [e] at q; exact q) c'
    | cons p pre => simp at e
  | snap hl =>
    intro pre post g g' e hm ht c'
    cases pre with
    | nil => exact follow_of_rest hm (by have q := Chain.snap hl; rw [e] at q; exact q) c'
    | cons p pre => simp at e
  | udp hl hp =>
    intro pre post g g' e hm ht c'
    cases pre with
    | nil => exact follow_of_rest hm (by have q := Chain.udp hl hp; rw [e] at q; exact q) c'
    | cons p pre => simp at e
  | llc hl hp =>
    intro pre post g g' e hm ht c'
    cases pre with
    | nil => exact follow_of_rest hm (by have q := Chain.llc hl hp; rw [e] at q; exact q) c'
    | cons p pre => simp at e
  | udpVxlan hl hp c ih =>
    intro pre post g g' e hm ht c'
    cases pre with
    | nil => exact follow_of_rest hm (by have q := Chain.udpVxlan hl hp c; rw [e] at q; exact q) c'
    | cons p pre =>
      obtain ⟨rfl, e2⟩ := List.cons.inj e
      generalize ex : pre ++ g' :: post = x at c'
      rw [List.cons_append, ex] at c'
      cases c' with
      | udp _ hp' => simp at ex
      | udpVxlan _ _ c' => subst ex; exact ih e2 hm ht c'
  | llcSnap c ih =>
    intro pre post g g' e hm ht c'
    cases pre with
    | nil => exact follow_of_rest hm (by have q := Chain.llcSnap c; rw [e] at q; exact q) c'
    | cons p pre =>
      obtain ⟨rfl, e2⟩ := List.cons.inj e
      generalize ex : pre ++ g' :: post = x at c'
      rw [List.cons_append, ex] at c'
      cases c' with
      | llc _ hp' => exact absurd rfl hp'
      | llcSnap c' => subst ex; exact ih e2 hm ht c'
  | mpls hl hb c ih =>
    intro pre post g g' e hm ht c'
    cases pre with
    | nil => exact absurd (by rw [← (List.cons.inj e).1]) hm
    | cons p pre =>
      obtain ⟨rfl, e2⟩ := List.cons.inj e
      cases c' with
      | mpls _ _ c' => exact ih e2 hm ht c'
      | mplsLast _ hb' c' => rw [hb] at hb'; exact absurd hb' (by decide)
  | mplsLast hl hb c ih =>
    intro pre post g g' e hm ht c'
    cases pre with
    | nil => exact absurd (by rw [← (List.cons.inj e).1]) hm
    | cons p pre =>
      obtain ⟨rfl, e2⟩ := List.cons.inj e
      cases c' with
      | mplsLast _ _ c' => exact ih e2 hm ht c'
      | mpls _ hb' c' => rw [hb] at hb'; exact absurd hb' (by decide)
  | mplsBos hl c ih =>
    intro pre post g g' e hm ht c'
    cases pre with
    | nil => exact absurd (by rw [← (List.cons.inj e).1]) hm
    | cons p pre =>
      obtain ⟨rfl, e2⟩ := List.cons.inj e
      generalize ex : pre ++ g' :: post = x at c'
      rw [List.cons_append, ex] at c'
      cases c' with
      | mplsBos _ c' =>
        have k := chain_kind c
        have k' := chain_kind c'
        rw [e2] at k
        rw [← ex] at k'
        have kk : ((pre ++ g :: post).head?.map (·.ty)) = ((pre ++ g' :: post).head?.map (·.ty)) := by
          cases pre with
          | nil => simp [ht]
          | cons _ _ => rfl
        have this := bosNext_unique (k.symm.trans (kk.trans k'))
        rw [← this, ← ex] at c'
        exact ih e2 hm ht c'
  | gre hl hc hk hs hw c ih =>
    intro pre post g g' e hm ht c'
    cases pre with
    | nil => exact follow_of_rest hm (by have q := Chain.gre hl hc hk hs hw c; rw [e] at q; exact q) c'
    | cons p pre =>
      obtain ⟨rfl, e2⟩ := List.cons.inj e
      generalize ex : pre ++ g' :: post = x at c'
      rw [List.cons_append, ex] at c'
      cases c' with
      | gre hl' hc' hk' hs' _ c' =>
        rw [← List.append_assoc, ← List.append_assoc] at e2
        rcases opts_split e2 with ⟨a, rfl, e3⟩ | hg
        · rw [List.append_assoc, List.append_assoc, List.append_assoc] at ex
          have := optH_tail _ (by rw [hc, hc']) (optH_tail _ (by rw [hk, hk']) (optH_tail _ (by rw [hs, hs']) ex))
          rw [← this] at c'
          exact ih e3 hm ht c'
        · have t : g.ty = GRESequenceNum ∨ g.ty = GREKey ∨ g.ty = GREChksumOffset ∨ g.ty = ERSPANPLATFORM := by
            rcases List.mem_append.mp hg with hg | hg
            · rcases List.mem_append.mp hg with hg | hg
              · exact .inl (mem_optH hg)
              · exact .inr (.inl (mem_optH hg))
            · exact .inr (.inr (.inl (mem_optH hg)))
          rw [follow_other t, follow_other (by rw [ht]; exact t)]
  | erspan3 hl hp c ih =>
    intro pre post g g' e hm ht c'
    cases pre with
    | nil => exact follow_of_rest hm (by have q := Chain.erspan3 hl hp c; rw [e] at q; exact q) c'
    | cons p pre =>
      obtain ⟨rfl, e2⟩ := List.cons.inj e
      generalize ex : pre ++ g' :: post = x at c'
      rw [List.cons_append, ex] at c'
      cases c' with
      | erspan3 hl' hp' c' =>
        rcases opts_split e2 with ⟨a, rfl, e3⟩ | hg
        · rw [List.append_assoc] at ex
          have := optH_tail _ (by rw [hp, hp']) ex
          rw [← this] at c'
          exact ih e3 hm ht c'
        · have t : g.ty = GRESequenceNum ∨ g.ty = GREKey ∨ g.ty = GREChksumOffset ∨ g.ty = ERSPANPLATFORM :=
            .inr (.inr (.inr (mem_optH hg)))
          rw [follow_other t, follow_other (by rw [ht]; exact t)]

/-- **C59**, the other direction: in a packet that comes back from `to_vec` and the parser, replace a header other than
an MPLS label by one of its type that announces something else: the new packet does not come back, whatever its
payload. -/
theorem C59_seen (chk : Bool) (l : Layer) (pre post : List Hdr) (g g' : Hdr) (pl pl' : Bytes) (hm : g.ty ≠ MPLS)
    (ht : g'.ty = g.ty)
    (h : Slow.parseL chk l (Packet.to_vec ⟨pre ++ g :: post, pl⟩) = .ok ⟨pre ++ g :: post, pl⟩)
    (hf : follow g' ≠ follow g) :
    Slow.parseL chk l (Packet.to_vec ⟨pre ++ g' :: post, pl'⟩) ≠ .ok ⟨pre ++ g' :: post, pl'⟩ := fun h' =>
  hf (chain_seen ((C58_survives_iff chk l _).mp h) rfl hm ht ((C58_survives_iff chk l _).mp h'))

/-- **C59**, the other direction, for whole frames. -/
theorem C59_seen_frame (chk : Bool) (pre post : List Hdr) (g g' : Hdr) (pl pl' : Bytes) (hm : g.ty ≠ MPLS)
    (ht : g'.ty = g.ty)
    (h : Slow.parse chk (Packet.to_vec ⟨pre ++ g :: post, pl⟩) = .ok ⟨pre ++ g :: post, pl⟩)
    (hf : follow g' ≠ follow g) :
    Slow.parse chk (Packet.to_vec ⟨pre ++ g' :: post, pl'⟩) ≠ .ok ⟨pre ++ g' :: post, pl'⟩ := by
  intro h'
  have c := (C58_survives_iff_frame chk _).mp h
  have c' := (C58_survives_iff_frame chk _).mp h'
  have k : ∀ {hs}, ChainFrame hs → ∃ l, Chain l hs ∧ (l = .ether ∨ l = .dot3) := by
    intro hs c
    cases c with
    | dot3 _ c => exact ⟨_, c, .inr rfl⟩
    | ether _ c => exact ⟨_, c, .inl rfl⟩
  obtain ⟨l, c, o⟩ := k c
  obtain ⟨l', c', -⟩ := k c'
  have kk : ((pre ++ g :: post).head?.map (·.ty)) = ((pre ++ g' :: post).head?.map (·.ty)) := by
    cases pre with
    | nil => simp [ht]
    | cons _ _ => rfl
  have hl : l = l' := by
    rcases kindOf_inj _ _ ((chain_kind c).symm.trans (kk.trans (chain_kind c'))) with h | ⟨h, -⟩ | ⟨h, -⟩
    · exact h
    · rw [h] at o; exact absurd o (by decide)
    · rw [h] at o; exact absurd o (by decide)
  subst hl
  exact hf (chain_seen c rfl hm ht c')

-- the example frame with another destination port, or another IP protocol number, does not come back
example (pl' : Bytes) : Slow.parse true (Packet.to_vec ⟨(okPkt (Slow.parse true exFrame)).hdrs.take 3 ++
        ⟨UDP, [0, 1, 0, 53, 0, 0, 0, 0]⟩ :: (okPkt (Slow.parse true exFrame)).hdrs.drop 4, pl'⟩) ≠
    .ok ⟨(okPkt (Slow.parse true exFrame)).hdrs.take 3 ++
        ⟨UDP, [0, 1, 0, 53, 0, 0, 0, 0]⟩ :: (okPkt (Slow.parse true exFrame)).hdrs.drop 4, pl'⟩ :=
  C59_seen_frame true _ _ ⟨UDP, [0, 1, 0x12, 0xb5, 0, 0, 0, 0]⟩ _ (okPkt (Slow.parse true exFrame)).payload pl'
    (by decide) rfl (by decide +kernel) (by decide)
-- why MPLS labels are left out: nothing looks at the bottom-of-stack bit of the second label
example : follow ⟨MPLS, [0, 0, 1, 0]⟩ ≠ follow ⟨MPLS, [0, 0, 0, 0]⟩ ∧
    ∀ m ∈ [(⟨MPLS, [0, 0, 1, 0]⟩ : Hdr), ⟨MPLS, [0, 0, 0, 0]⟩],
      Slow.parseL true .mpls (Packet.to_vec ⟨[⟨MPLS, [0, 0, 1, 0]⟩, m, ⟨IPv4, 0x45 :: List.replicate 19 0⟩], []⟩) =
        .ok ⟨[⟨MPLS, [0, 0, 1, 0]⟩, m, ⟨IPv4, 0x45 :: List.replicate 19 0⟩], []⟩ := by decide +kernel

end PacketRs
