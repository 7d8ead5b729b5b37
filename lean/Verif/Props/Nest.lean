import Verif.Props.Reparse
/-!
# Property C63: nested packets are parsed like packets of their own
-/
namespace PacketRs
open Spec

/-- Octets of a list of headers. -/
def octets (hs : List Hdr) : Nat := (hs.map fun h => h.data.length).sum

theorem one_local {T : HeaderDef} {b r' : Bytes} {l1 l2 l' : Layer} {hs : List Hdr} {n : Nat}
    (e : one T b l1 = some (hs, n, l')) (hn : T.size ≤ b.length → l1 = l2) :
    one T (b.take n ++ r') l2 = some (hs, n, l') := by
  unfold one at e
  split at e
  next h =>
    simp only [Option.some.injEq, Prod.mk.injEq] at e
    obtain ⟨rfl, rfl, rfl⟩ := e
    have e2 : (b.take T.size ++ r').take T.size = b.take T.size := by
      rw [List.take_append_of_le_length (by rw [List.length_take]; omega), List.take_take, Nat.min_self]
    rw [one, if_pos (by rw [List.length_append, List.length_take]; omega), e2, hn h]
  · exact nomatch e

theorem u8_local (b r' : Bytes) (n i : Nat) (h : i < n) (hn : n ≤ b.length) : u8At (b.take n ++ r') i = u8At b i := by
  rw [u8At_append_left _ _ _ (by rw [List.length_take]; omega), u8At_take _ _ _ h]

theorem u16_local (b r' : Bytes) (n i : Nat) (h : i + 1 < n) (hn : n ≤ b.length) :
    u16At (b.take n ++ r') i = u16At b i := by
  unfold u16At; rw [u8_local _ _ _ _ (by omega) hn, u8_local _ _ _ _ h hn]

theorem bit_local (b r' : Bytes) (n i k : Nat) (h : i < n) (hn : n ≤ b.length) :
    bitAt (b.take n ++ r') i k = bitAt b i k := by
  unfold bitAt; rw [u8_local _ _ _ _ h hn]

theorem opt_local (T : HeaderDef) (p : Bool) (b r' : Bytes) (n o : Nat) (h : o + optLen p T.size ≤ n) (hn : n ≤ b.length) :
    optAt T p (b.take n ++ r') o = optAt T p b o := by
  unfold optAt
  cases p with
  | false => rfl
  | true =>
    simp only [optLen, if_true] at h ⊢
    rw [List.drop_append_of_le_length (by rw [List.length_take]; omega),
      List.take_append_of_le_length (by rw [List.length_drop, List.length_take]; omega), List.drop_take, List.take_take,
      Nat.min_eq_left (by omega)]

theorem one_size {T : HeaderDef} {b : Bytes} {l1 l' : Layer} {hs : List Hdr} {n : Nat}
    (e : one T b l1 = some (hs, n, l')) : hs = [⟨T, b.take T.size⟩] ∧ n = T.size ∧ l' = l1 ∧ T.size ≤ b.length := by
  unfold one at e
  split at e
  next h =>
    simp only [Option.some.injEq, Prod.mk.injEq] at e
    obtain ⟨rfl, rfl, rfl⟩ := e
    exact ⟨rfl, rfl, rfl, h⟩
  · exact nomatch e

/-- A step looks at the bytes it consumes, except after the bottom label. -/
theorem dstep_local {l l' : Layer} {b : Bytes} {hs : List Hdr} {n : Nat} (e : dstep l b = some (hs, n, l')) (r' : Bytes)
    (hm : l = .mplsBos → r' ≠ [] ∧ bosNext (u8At r' 0 / 16) = l') :
    dstep l (b.take n ++ r') = some (hs, n, l') := by
  cases l with
  | payload => exact nomatch e
  | ether | vlan | mpls | ipv4 | ipv6 | erspan2 | arp | icmp | tcp | udp | vxlan | dot3 | snap =>
    obtain ⟨-, rfl, -, hle⟩ := one_size e
    refine one_local e fun h => ?_
    first
      | rfl
      | rw [u16_local _ _ _ _ (by decide) hle]
      | rw [u8_local _ _ _ _ (by decide) hle]
      | rw [bit_local _ _ _ _ _ (by decide) hle]
  | llc =>
    obtain ⟨-, rfl, -, hle⟩ := one_size e
    refine one_local e fun h => ?_
    have : (b.take LLC.size ++ r').take 3 = b.take 3 := by
      rw [List.take_append_of_le_length (by rw [List.length_take]; exact Nat.le_of_eq (Nat.min_eq_left h).symm),
        List.take_take]; rfl
    rw [this]
  | mplsBos =>
    obtain ⟨h1, h2⟩ := hm rfl
    simp only [dstep] at e ⊢
    split at e
    next h4 =>
      obtain ⟨-, rfl, e3, hle⟩ := one_size e
      have hs4 : MPLS.size = 4 := rfl
      have hpos : 0 < r'.length := List.length_pos_iff.mpr h1
      have hl : (b.take MPLS.size).length = 4 := by rw [List.length_take]; omega
      rw [if_pos (by rw [List.length_append, hl]; omega)]
      refine one_local e fun _ => ?_
      rw [u8At_append_right _ _ _ (by omega), hl, h2, e3]
    · exact nomatch e
  | gre =>
    simp only [dstep] at e
    split at e
    next h =>
      simp only [Option.some.injEq, Prod.mk.injEq] at e
      obtain ⟨rfl, rfl, rfl⟩ := e
      generalize hn : 4 + optLen (bitAt b 0 7) 4 + optLen (bitAt b 0 5) 4 + optLen (bitAt b 0 4) 4 = n at h
      have e1 : ∀ i k, i < 4 → bitAt (b.take n ++ r') i k = bitAt b i k := fun i k hi =>
        bit_local _ _ _ _ _ (by omega) h
      have e3 : (b.take n ++ r').take 4 = b.take 4 := by
        rw [List.take_append_of_le_length (by rw [List.length_take]; omega), List.take_take, Nat.min_eq_left (by omega)]
      simp only [dstep, e1 _ _ (show 0 < 4 by omega), hn, e3, u16_local b r' n 2 (by omega) h]
      have z1 : GRESequenceNum.size = 4 := rfl
      have z2 : GREKey.size = 4 := rfl
      have z3 : GREChksumOffset.size = 4 := rfl
      rw [if_pos (by rw [List.length_append, List.length_take]; omega),
        opt_local _ _ _ _ _ _ (by rw [z1]; omega) h, opt_local _ _ _ _ _ _ (by rw [z2]; omega) h,
        opt_local _ _ _ _ _ _ (by rw [z3]; omega) h]
    · exact nomatch e
  | erspan3 =>
    simp only [dstep] at e
    split at e
    next h =>
      simp only [Option.some.injEq, Prod.mk.injEq] at e
      obtain ⟨rfl, rfl, rfl⟩ := e
      generalize hn : 12 + optLen (bitAt b 11 0) 8 = n at h
      have e3 : (b.take n ++ r').take 12 = b.take 12 := by
        rw [List.take_append_of_le_length (by rw [List.length_take]; omega), List.take_take, Nat.min_eq_left (by omega)]
      simp only [dstep, bit_local b r' n 11 0 (by omega) h, hn, e3]
      have z1 : ERSPANPLATFORM.size = 8 := rfl
      rw [if_pos (by rw [List.length_append, List.length_take]; omega), opt_local _ _ _ _ _ _ (by rw [z1]; omega) h]
    · exact nomatch e

theorem octets_optAt (T : HeaderDef) (p : Bool) (b : Bytes) (o : Nat) (h : o + optLen p T.size ≤ b.length) :
    octets (optAt T p b o) = optLen p T.size := by
  cases p with
  | false => rfl
  | true =>
    simp only [optLen, if_true] at h
    simp only [octets, optAt, optLen, if_true, List.map_cons, List.map_nil, List.sum_cons, List.sum_nil, List.length_take,
      List.length_drop]
    omega

theorem octets_append (a b : List Hdr) : octets (a ++ b) = octets a + octets b := by
  simp [octets]

theorem octets_cons (h : Hdr) (b : List Hdr) : octets (h :: b) = h.data.length + octets b := by
  simp [octets]

theorem mem_optAt {T : HeaderDef} {p : Bool} {b : Bytes} {o : Nat} {g : Hdr} (h : g ∈ optAt T p b o) : g.ty = T := by
  unfold optAt at h
  split at h
  · rw [List.mem_singleton] at h; rw [h]
  · exact nomatch h

/-- A step returns one header of the layer and optional ones, and consumes exactly their octets. -/
theorem dstep_shape {l l' : Layer} {b : Bytes} {hs : List Hdr} {n : Nat} (e : dstep l b = some (hs, n, l')) :
    ∃ h o, hs = h :: o ∧ kindOf l = some h.ty ∧ (∀ g ∈ o, Optional g.ty) ∧ octets hs = n := by
  cases l with
  | payload => exact nomatch e
  | ether | vlan | mpls | ipv4 | ipv6 | erspan2 | arp | icmp | tcp | udp | vxlan | dot3 | snap | llc =>
    obtain ⟨rfl, rfl, -, hle⟩ := one_size e
    exact ⟨_, [], rfl, rfl, (fun _ h => nomatch h), by simp [octets, Nat.min_eq_left hle]⟩
  | mplsBos =>
    simp only [dstep] at e
    split at e
    next h4 =>
      obtain ⟨rfl, rfl, -, hle⟩ := one_size e
      exact ⟨_, [], rfl, rfl, (fun _ h => nomatch h), by simp [octets, Nat.min_eq_left hle]⟩
    · exact nomatch e
  | gre =>
    simp only [dstep] at e
    split at e
    next h =>
      simp only [Option.some.injEq, Prod.mk.injEq] at e
      obtain ⟨rfl, rfl, rfl⟩ := e
      refine ⟨_, _, rfl, rfl, fun g hg => ?_, ?_⟩
      · rw [List.mem_append, List.mem_append] at hg
        rcases hg with hg | hg | hg
        · exact .inl (mem_optAt hg)
        · exact .inr (.inl (mem_optAt hg))
        · exact .inr (.inr (.inl (mem_optAt hg)))
      · have z1 : GRESequenceNum.size = 4 := rfl
        have z2 : GREKey.size = 4 := rfl
        have z3 : GREChksumOffset.size = 4 := rfl
        rw [octets_cons, octets_append, octets_append, octets_optAt _ _ _ _ (by rw [z1]; omega),
          octets_optAt _ _ _ _ (by rw [z2]; omega), octets_optAt _ _ _ _ (by rw [z3]; omega), z1, z2, z3]
        simp only [List.length_take]
        omega
    · exact nomatch e
  | erspan3 =>
    simp only [dstep] at e
    split at e
    next h =>
      simp only [Option.some.injEq, Prod.mk.injEq] at e
      obtain ⟨rfl, rfl, rfl⟩ := e
      refine ⟨_, _, rfl, rfl, fun g hg => .inr (.inr (.inr (mem_optAt hg))), ?_⟩
      have z1 : ERSPANPLATFORM.size = 8 := rfl
      rw [octets_cons, octets_optAt _ _ _ _ (by rw [z1]; omega), z1]
      simp only [List.length_take]
      omega
    · exact nomatch e

theorem parse_kind {chk : Bool} {l : Layer} {b : Bytes} {p : Packet} (h : Slow.parseL chk l b = .ok p) :
    kindOf l = p.hdrs.head?.map (·.ty) := by
  by_cases hl : l = .payload
  · subst hl
    have : p = ⟨[], b⟩ := by injection h with h; exact h.symm
    subst this; rfl
  · rw [Slow.parseL_eq _ _ _ hl] at h
    obtain ⟨hs, n, l', p', e, -, rfl⟩ := stepThen_ok h
    obtain ⟨g, o, rfl, k, -, -⟩ := dstep_shape e
    rw [k]; rfl

theorem map_prep_prep (x : R Packet) (a c : List Hdr) : (x.map (prep a)).map (prep c) = x.map (prep (c ++ a)) := by
  cases x with
  | error e => rfl
  | ok p => simp [Except.map, prep]

theorem bosNext_ne (n : Nat) : bosNext n ≠ .mpls ∧ bosNext n ≠ .mplsBos ∧ bosNext n ≠ .payload := by
  unfold bosNext
  split
  · simp
  · split <;> simp

/-- What may follow an MPLS label that is followed by something else than a label: octets that begin with the nibble
for the layer. -/
def AfterLabel (pre : List Hdr) (l' : Layer) (r' : Bytes) : Prop :=
  pre.getLast?.map (·.ty) = some MPLS → l' ≠ .mpls → l' ≠ .mplsBos → l' ≠ .payload → r' ≠ [] ∧ bosNext (u8At r' 0 / 16) = l'

theorem dstep_mplsBos {b : Bytes} {hs : List Hdr} {n : Nat} {l' : Layer} (e : dstep .mplsBos b = some (hs, n, l')) :
    ∃ x, hs = [⟨MPLS, x⟩] ∧ n = 4 ∧ 4 < b.length ∧ l' = bosNext (u8At (b.drop 4) 0 / 16) := by
  simp only [dstep] at e
  split at e
  next h4 =>
    obtain ⟨rfl, rfl, rfl, hle⟩ := one_size e
    refine ⟨_, rfl, rfl, h4, ?_⟩
    simp [u8At, List.getD_eq_getElem?_getD]
  · exact nomatch e

/-- **C63**: split the headers of a parsed packet anywhere before a header that is not an option. The octets from there
on, given to the parser of that header's layer, give exactly the remaining headers and the payload; and whatever octets are
put in their place, the parser returns the headers before the split and then whatever that layer's parser makes of them,
also when it fails. -/
theorem C63_nest (chk : Bool) (l : Layer) (b : Bytes) (p : Packet) (h : Slow.parseL chk l b = .ok p)
    (pre post : List Hdr) (hsplit : p.hdrs = pre ++ post) (hopt : ∀ g, post.head? = some g → ¬ Optional g.ty) :
    ∃ l', kindOf l' = post.head?.map (·.ty) ∧ octets pre ≤ b.length ∧
      Slow.parseL chk l' (b.drop (octets pre)) = .ok ⟨post, p.payload⟩ ∧
      ∀ r', AfterLabel pre l' r' →
        Slow.parseL chk l (b.take (octets pre) ++ r') = (Slow.parseL chk l' r').map (prep pre) := by
  refine parse_induct (chk := chk) (M := fun l b p => Slow.parseL chk l b = .ok p → ∀ pre post, p.hdrs = pre ++ post →
    (∀ g, post.head? = some g → ¬ Optional g.ty) → ∃ l', kindOf l' = post.head?.map (·.ty) ∧ octets pre ≤ b.length ∧
      Slow.parseL chk l' (b.drop (octets pre)) = .ok ⟨post, p.payload⟩ ∧
      ∀ r', AfterLabel pre l' r' →
        Slow.parseL chk l (b.take (octets pre) ++ r') = (Slow.parseL chk l' r').map (prep pre))
    ?_ ?_ l b p h h pre post hsplit hopt
  · intro b _ pre post e _
    obtain ⟨rfl, rfl⟩ := List.append_eq_nil_iff.mp e.symm
    exact ⟨.payload, rfl, Nat.zero_le _, rfl, fun r' _ => rfl⟩
  · clear h hsplit hopt pre post p b l
    intro l b hs n l1 p e hp ih hfull pre post hsplit hopt
    have hlp : l ≠ .payload := by rintro rfl; exact nomatch e
    obtain ⟨g, o, rfl, k, ho, hn⟩ := dstep_shape e
    obtain ⟨-, -, hnb⟩ := dstep_bounds e
    have same : ∀ x : R Packet, x.map (prep []) = x := fun x => by cases x <;> rfl
    cases pre with
    | nil =>
      refine ⟨l, by rw [parse_kind hfull, hsplit]; rfl, Nat.zero_le _, ?_, fun r' _ => ?_⟩
      · have : (⟨post, (prep (g :: o) p).payload⟩ : Packet) = prep (g :: o) p := by
          rw [show post = (prep (g :: o) p).hdrs from hsplit.symm]
        rw [this]; exact hfull
      · exact (same _).symm
    | cons g' pre' =>
      have h1 : o ++ p.hdrs = pre' ++ post ∧ g = g' := by
        simp only [prep, List.cons_append, List.cons.injEq] at hsplit
        exact ⟨hsplit.2, hsplit.1⟩
      obtain ⟨h1, rfl⟩ := h1
      have h2 : ∃ c, pre' = o ++ c ∧ p.hdrs = c ++ post := by
        rcases List.append_eq_append_iff.mp h1 with ⟨c, e1, e2⟩ | ⟨c, e1, e2⟩
        · exact ⟨c, e1, e2⟩
        · cases c with
          | nil => exact ⟨[], by simpa using e1.symm, by simpa using e2.symm⟩
          | cons x c =>
            subst e2
            exact absurd (ho x (by rw [e1]; simp)) (hopt x rfl)
      obtain ⟨c, rfl, hc⟩ := h2
      obtain ⟨l', k', hle, hrest, hrepl⟩ := ih hp c post hc hopt
      have hoct : octets (g :: (o ++ c)) = n + octets c := by
        rw [← List.cons_append, octets_append, hn]
      rw [List.length_drop] at hle
      rw [List.drop_drop] at hrest
      refine ⟨l', k', by omega, by rw [hoct]; exact hrest, fun r' hr => ?_⟩
      have htake : b.take (octets (g :: (o ++ c))) = b.take n ++ (b.drop n).take (octets c) := by
        rw [hoct, List.take_add]
      rw [htake, List.append_assoc]
      have hstep : dstep l (b.take n ++ ((b.drop n).take (octets c) ++ r')) = some (g :: o, n, l1) := by
        refine dstep_local e _ fun hl => ?_
        subst hl
        obtain ⟨x, e1, rfl, h4, e3⟩ := dstep_mplsBos e
        by_cases hc0 : octets c = 0
        · -- the split is right after the label
          have hcn : c = [] := by
            cases c with
            | nil => rfl
            | cons y c =>
              have := (C24_accounts chk l1 _ p hp).1 y (by rw [hc]; simp)
              rw [octets_cons] at hc0
              have hk := parse_kind hp
              rw [hc, List.cons_append, List.head?_cons, Option.map_some] at hk
              rw [e3] at hk
              exfalso
              unfold bosNext at hk
              have hy : y.ty.size ≠ 0 := by
                split at hk
                · rw [← Option.some.inj hk]; decide
                · split at hk <;> (rw [← Option.some.inj hk]; decide)
              omega
          subst hcn
          have hl' : l' = l1 := by
            have a1 := parse_kind hp
            rw [hc, List.nil_append, ← k'] at a1
            rcases kindOf_inj l1 l' a1 with h | ⟨rfl, -⟩ | ⟨rfl, -⟩
            · exact h.symm
            · exact absurd e3.symm (bosNext_ne _).1
            · exact absurd e3.symm (bosNext_ne _).2.1
          have := hr (by
            simp only [List.cons.injEq] at e1
            obtain ⟨rfl, rfl⟩ := e1
            rfl) (by rw [hl', e3]; exact (bosNext_ne _).1) (by rw [hl', e3]; exact (bosNext_ne _).2.1)
              (by rw [hl', e3]; exact (bosNext_ne _).2.2)
          rw [hc0, List.take_zero, List.nil_append, ← hl']
          exact this
        · have hpos : 0 < ((b.drop 4).take (octets c)).length := by
            rw [List.length_take, List.length_drop]; omega
          refine ⟨fun h => ?_, ?_⟩
          · rw [List.append_eq_nil_iff] at h
            rw [h.1] at hpos; exact Nat.lt_irrefl _ hpos
          · rw [u8At_append_left _ _ _ hpos, u8At_take _ _ _ (by omega), e3]
      rw [Slow.parseL_eq _ _ _ hlp, hstep]
      simp only [stepThen]
      have hdrop : (b.take n ++ ((b.drop n).take (octets c) ++ r')).drop n = (b.drop n).take (octets c) ++ r' := by
        rw [List.drop_append_of_le_length (by rw [List.length_take]; omega), List.drop_take]
        simp
      rw [hdrop, hrepl r' ?_, map_prep_prep]
      · rfl
      · intro hm
        refine hr ?_
        cases c with
        | nil => exact nomatch hm
        | cons y c =>
          rw [← List.cons_append, List.getLast?_append]
          cases hz : (y :: c).getLast? with
          | none => rw [hz] at hm; exact nomatch hm
          | some z => rw [hz] at hm; exact hm


/-- **C63** for whole frames and a split after at least one header. -/
theorem C63_nest_frame (chk : Bool) (b : Bytes) (p : Packet) (h : Slow.parse chk b = .ok p)
    (pre post : List Hdr) (hne : pre ≠ []) (hsplit : p.hdrs = pre ++ post)
    (hopt : ∀ g, post.head? = some g → ¬ Optional g.ty) :
    ∃ l', kindOf l' = post.head?.map (·.ty) ∧ octets pre ≤ b.length ∧
      Slow.parseL chk l' (b.drop (octets pre)) = .ok ⟨post, p.payload⟩ ∧
      ∀ r', AfterLabel pre l' r' →
        Slow.parse chk (b.take (octets pre) ++ r') = (Slow.parseL chk l' r').map (prep pre) := by
  have h0 := h
  rw [Slow.parse_eq] at h
  split at h
  · exact nomatch h
  next h14 =>
    obtain ⟨l', k, hle, hr, hrepl⟩ := C63_nest chk _ b p h pre post hsplit hopt
    refine ⟨l', k, hle, hr, fun r' ha => ?_⟩
    have h14' : 14 ≤ octets pre := by
      obtain ⟨t, ht⟩ := C28_first_header chk b p h0
      cases pre with
      | nil => exact absurd rfl hne
      | cons g pre =>
        rw [ht, List.cons_append, List.cons.injEq] at hsplit
        rw [octets_cons, ← hsplit.1, List.length_take]; omega
    rw [Slow.parse_eq, if_neg (by rw [List.length_append, List.length_take]; omega), u16_local _ _ _ _ (by omega) hle]
    exact hrepl r' ha

/-- **C63**: the payload is opaque: any other octets in its place are returned as the payload of the same headers. -/
theorem C63_payload_opaque (chk : Bool) (b : Bytes) (p : Packet) (h : Slow.parse chk b = .ok p) :
    ∃ a, b = a ++ p.payload ∧ ∀ pl', Slow.parse chk (a ++ pl') = .ok ⟨p.hdrs, pl'⟩ := by
  obtain ⟨t, ht⟩ := C28_first_header chk b p h
  obtain ⟨l', k, hle, hr, hrepl⟩ := C63_nest_frame chk b p h p.hdrs [] (by rw [ht]; simp) (by simp) (by simp)
  have hl : l' = .payload := by cases l' <;> first | rfl | exact nomatch k
  subst hl
  have hpl : b.drop (octets p.hdrs) = p.payload := by injection hr with hr; injection hr
  refine ⟨b.take (octets p.hdrs), by rw [← hpl, List.take_append_drop], fun pl' => ?_⟩
  rw [hrepl pl' fun _ _ _ h => absurd rfl h]
  show Except.ok (prep p.hdrs (Slow.accept pl')) = _
  simp [prep, Slow.accept, Packet.set_payload, Packet.new]

/-! Concrete cases: the frame with a VXLAN tunnel. -/

-- the frame inside the tunnel alone
example : ∃ p pre post, Slow.parse true exFrame = .ok p ∧ p.hdrs = pre ++ post ∧ pre.map (·.ty) = [Ether, Vlan, IPv4, UDP, Vxlan] ∧
    post.map (·.ty) = [Ether] ∧ octets pre = 54 ∧
    Slow.parse_ethernet true (exFrame.drop 54) = .ok ⟨post, p.payload⟩ := by
  refine ⟨okPkt (Slow.parse true exFrame), (okPkt (Slow.parse true exFrame)).hdrs.take 5,
    (okPkt (Slow.parse true exFrame)).hdrs.drop 5, ?_⟩
  decide +kernel

-- another frame put into the tunnel, and one that is cut short
example : (Slow.parse true (exFrame.take 54 ++ exGre)).map (fun p => p.hdrs.map (·.ty)) =
      .ok [Ether, Vlan, IPv4, UDP, Vxlan, Ether, IPv4, GRE, GRESequenceNum, GREKey, GREChksumOffset] ∧
    (∃ e, Slow.parse true (exFrame.take 54 ++ exGre.take 20) = .error e) := by
  refine ⟨by decide +kernel, .index, by decide +kernel⟩

-- after a label the first nibble decides: the condition cannot be dropped
example : ∃ b, (Slow.parse_mpls true b).map (fun p => p.hdrs.map (·.ty)) = .ok [MPLS, MPLS, IPv4] ∧
    (Slow.parse_mpls true (b.take 8 ++ b.drop 8)).map (fun p => p.hdrs.map (·.ty)) = .ok [MPLS, MPLS, IPv4] ∧
    (Slow.parse_mpls true (b.take 8 ++ (b.drop 8).set 0 0x55#8)).map (fun p => p.hdrs.map (·.ty)) = .ok [MPLS, MPLS, Ether] ∧
    (Slow.parse_ipv4 true ((b.drop 8).set 0 0x55#8)).map (fun p => p.hdrs.map (·.ty)) = .ok [IPv4] :=
  ⟨[0#8, 0#8, 1#8, 9#8, 0#8, 0#8, 0#8, 0#8] ++ (0x45#8 :: List.replicate 19 0xfe#8), by decide +kernel, by decide +kernel,
    by decide +kernel, by decide +kernel⟩

end PacketRs
