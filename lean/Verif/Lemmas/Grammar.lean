import Verif.Lemmas.SlowStep
/-!
# The step function and the grammar
-/
namespace PacketRs
open Spec

theorem optLen_eq (p : Bool) (n : Nat) : optLen p n = if p then n else 0 := rfl

theorem optH_nil (T : HeaderDef) : optH T [] = [] := rfl

theorem one_append {T : HeaderDef} {h r : Bytes} {l : Layer} (hl : h.length = T.size) :
    one T (h ++ r) l = some ([⟨T, h⟩], T.size, l) := by
  rw [one_ok (by simp; omega), List.take_append_of_le_length (by omega), List.take_of_length_le (by omega)]

theorem drop_append_len {h r : Bytes} {n : Nat} (hl : h.length = n) : (h ++ r).drop n = r := by
  rw [← hl]; simp

theorem take_append_len {h r : Bytes} {n : Nat} (hl : h.length = n) : (h ++ r).take n = h := by
  rw [← hl]; simp

theorem one_inv {T : HeaderDef} {b : Bytes} {l l' : Layer} {hs : List Hdr} {n : Nat}
    (e : one T b l = some (hs, n, l')) :
    T.size ≤ b.length ∧ hs = [⟨T, b.take T.size⟩] ∧ n = T.size ∧ l' = l := by
  unfold one at e
  by_cases h : T.size ≤ b.length
  · rw [if_pos h] at e
    injection e with e
    injection e with e1 e
    injection e with e2 e3
    exact ⟨h, e1.symm, e2.symm, e3.symm⟩
  · rw [if_neg h] at e; exact nomatch e

/-- A step followed by a dissection of the rest is a dissection. -/
theorem Dissect_step {l l' : Layer} {b : Bytes} {hs hs' : List Hdr} {n : Nat} {pl : Bytes}
    (e : dstep l b = some (hs, n, l')) (hd : Dissect l' (b.drop n) hs' pl) :
    Dissect l b (hs ++ hs') pl := by
  cases l with
  | payload => exact nomatch e
  | ether =>
    obtain ⟨h, rfl, rfl, rfl⟩ := one_inv e
    have := Dissect.ether (h := b.take 14) (r := b.drop 14) (List.length_take_of_le h)
      (by rw [u16At_take _ _ _ (by omega)]; exact hd)
    rwa [List.take_append_drop] at this
  | vlan =>
    obtain ⟨h, rfl, rfl, rfl⟩ := one_inv e
    have := Dissect.vlan (h := b.take 4) (r := b.drop 4) (List.length_take_of_le h)
      (by rw [u16At_take _ _ _ (by omega)]; exact hd)
    rwa [List.take_append_drop] at this
  | mpls =>
    obtain ⟨h, rfl, rfl, rfl⟩ := one_inv e
    by_cases hb : bitAt b 2 0 = true
    · rw [if_pos hb] at hd
      have := Dissect.mplsLast (h := b.take 4) (r := b.drop 4) (List.length_take_of_le h)
        (by rw [bitAt_take _ _ _ _ (by omega)]; exact hb) hd
      rwa [List.take_append_drop] at this
    · rw [if_neg hb] at hd
      have := Dissect.mpls (h := b.take 4) (r := b.drop 4) (List.length_take_of_le h)
        (by rw [bitAt_take _ _ _ _ (by omega)]; simpa using hb) hd
      rwa [List.take_append_drop] at this
  | mplsBos =>
    simp only [dstep] at e
    by_cases h' : 4 < b.length
    · rw [if_pos h'] at e
      obtain ⟨h, rfl, rfl, rfl⟩ := one_inv e
      have hu : u8At (b.drop 4) 0 = u8At b 4 := by
        simp [u8At, List.getD_eq_getElem?_getD, List.getElem?_drop]
      have := Dissect.mplsBos (h := b.take 4) (r := b.drop 4) (List.length_take_of_le h)
        (by intro h0; have := congrArg List.length h0; simp at this; omega)
        (by rw [hu]; exact hd)
      rwa [List.take_append_drop] at this
    · rw [if_neg h'] at e; exact nomatch e
  | ipv4 =>
    obtain ⟨h, rfl, rfl, rfl⟩ := one_inv e
    have := Dissect.ipv4 (h := b.take 20) (r := b.drop 20) (List.length_take_of_le h)
      (by rw [u8At_take _ _ _ (by omega)]; exact hd)
    rwa [List.take_append_drop] at this
  | ipv6 =>
    obtain ⟨h, rfl, rfl, rfl⟩ := one_inv e
    have := Dissect.ipv6 (h := b.take 40) (r := b.drop 40) (List.length_take_of_le h)
      (by rw [u8At_take _ _ _ (by omega)]; exact hd)
    rwa [List.take_append_drop] at this
  | gre =>
    simp only [dstep] at e
    generalize hc : bitAt b 0 7 = c at e
    generalize hk : bitAt b 0 5 = k at e
    generalize hs' : bitAt b 0 4 = s at e
    by_cases h : 4 + optLen c 4 + optLen k 4 + optLen s 4 ≤ b.length
    · rw [if_pos h] at e
      injection e with e
      injection e with e1 e
      injection e with e2 e3
      subst e1 e2 e3
      have key := Dissect.gre (h := b.take 4) (c := (b.drop 4).take (optLen c 4))
        (k := (b.drop (4 + optLen c 4)).take (optLen k 4))
        (s := (b.drop (4 + optLen c 4 + optLen k 4)).take (optLen s 4))
        (r := b.drop (4 + optLen c 4 + optLen k 4 + optLen s 4))
        (by simp; omega)
        (by rw [bitAt_take _ _ _ _ (by omega), hc, ← optLen_eq]; simp; omega)
        (by rw [bitAt_take _ _ _ _ (by omega), hk, ← optLen_eq]; simp; omega)
        (by rw [bitAt_take _ _ _ _ (by omega), hs', ← optLen_eq]; simp; omega)
        (by rw [u16At_take _ _ _ (by omega)]; exact hd)
      have hb : b.take 4 ++ ((b.drop 4).take (optLen c 4) ++ ((b.drop (4 + optLen c 4)).take (optLen k 4)
          ++ ((b.drop (4 + optLen c 4 + optLen k 4)).take (optLen s 4)
          ++ b.drop (4 + optLen c 4 + optLen k 4 + optLen s 4)))) = b := by
        rw [← List.drop_drop (i := optLen s 4), List.take_append_drop,
          ← List.drop_drop (i := optLen k 4), List.take_append_drop,
          ← List.drop_drop (i := optLen c 4), List.take_append_drop, List.take_append_drop]
      have o : ∀ (T : HeaderDef) (p : Bool) (i : Nat), T.size = 4 → i + optLen p 4 ≤ b.length →
          optH T ((b.drop i).take (optLen p 4)) = optAt T p b i := by
        intro T p i hT hi
        cases p
        · simp [optLen, optAt, optH]
        · simp only [optLen, if_true] at hi
          have hne : (b.drop i).take 4 ≠ [] := by
            intro h0; have := congrArg List.length h0; simp at this; omega
          simp [optLen, optAt, optH, hT, hne]
      rw [hb, o _ _ _ rfl (by omega), o _ _ _ rfl (by omega), o _ _ _ rfl (by omega)] at key
      simpa [List.append_assoc] using key
    · rw [if_neg h] at e; exact nomatch e
  | erspan2 =>
    obtain ⟨h, rfl, rfl, rfl⟩ := one_inv e
    have := Dissect.erspan2 (h := b.take 8) (r := b.drop 8) (List.length_take_of_le h) hd
    rwa [List.take_append_drop] at this
  | erspan3 =>
    simp only [dstep] at e
    generalize hc : bitAt b 11 0 = o at e
    by_cases h : 12 + optLen o 8 ≤ b.length
    · rw [if_pos h] at e
      injection e with e
      injection e with e1 e
      injection e with e2 e3
      subst e1 e2 e3
      have key := Dissect.erspan3 (h := b.take 12) (p := (b.drop 12).take (optLen o 8))
        (r := b.drop (12 + optLen o 8))
        (by simp; omega)
        (by rw [bitAt_take _ _ _ _ (by omega), hc, ← optLen_eq]; simp; omega) hd
      have hb : b.take 12 ++ ((b.drop 12).take (optLen o 8) ++ b.drop (12 + optLen o 8)) = b := by
        rw [← List.drop_drop (i := optLen o 8), List.take_append_drop, List.take_append_drop]
      have o : optH ERSPANPLATFORM ((b.drop 12).take (optLen o 8)) = optAt ERSPANPLATFORM o b 12 := by
        cases o
        · simp [optLen, optAt, optH]
        · simp only [optLen, if_true] at h
          have hne : (b.drop 12).take 8 ≠ [] := by
            intro h0; have := congrArg List.length h0; simp at this; omega
          simp [optLen, optAt, optH, ERSPANPLATFORM, hne]
      rw [hb, o] at key
      simpa using key
    · rw [if_neg h] at e; exact nomatch e
  | arp =>
    obtain ⟨h, rfl, rfl, rfl⟩ := one_inv e
    have := Dissect.arp (h := b.take 28) (r := b.drop 28) (List.length_take_of_le h) hd
    rwa [List.take_append_drop] at this
  | icmp =>
    obtain ⟨h, rfl, rfl, rfl⟩ := one_inv e
    have := Dissect.icmp (h := b.take 4) (r := b.drop 4) (List.length_take_of_le h) hd
    rwa [List.take_append_drop] at this
  | tcp =>
    obtain ⟨h, rfl, rfl, rfl⟩ := one_inv e
    have := Dissect.tcp (h := b.take 20) (r := b.drop 20) (List.length_take_of_le h) hd
    rwa [List.take_append_drop] at this
  | udp =>
    obtain ⟨h, rfl, rfl, rfl⟩ := one_inv e
    by_cases hb : u16At b 2 = 4789
    · rw [if_pos hb] at hd
      have := Dissect.udpVxlan (h := b.take 8) (r := b.drop 8) (List.length_take_of_le h)
        (by rw [u16At_take _ _ _ (by omega)]; exact hb) hd
      rwa [List.take_append_drop] at this
    · rw [if_neg hb] at hd
      have := Dissect.udp (h := b.take 8) (r := b.drop 8) (List.length_take_of_le h)
        (by rw [u16At_take _ _ _ (by omega)]; exact hb) hd
      rwa [List.take_append_drop] at this
  | vxlan =>
    obtain ⟨h, rfl, rfl, rfl⟩ := one_inv e
    have := Dissect.vxlan (h := b.take 8) (r := b.drop 8) (List.length_take_of_le h) hd
    rwa [List.take_append_drop] at this
  | dot3 =>
    obtain ⟨h, rfl, rfl, rfl⟩ := one_inv e
    have := Dissect.dot3 (h := b.take 14) (r := b.drop 14) (List.length_take_of_le h) hd
    rwa [List.take_append_drop] at this
  | llc =>
    obtain ⟨h, rfl, rfl, rfl⟩ := one_inv e
    by_cases hb : b.take 3 = [0xAA#8, 0xAA#8, 0x03#8]
    · rw [if_pos hb] at hd
      have := Dissect.llcSnap (h := b.take 3) (r := b.drop 3) hb hd
      rwa [List.take_append_drop] at this
    · rw [if_neg hb] at hd
      have := Dissect.llc (h := b.take 3) (r := b.drop 3) (List.length_take_of_le h) hb hd
      rwa [List.take_append_drop] at this
  | snap =>
    obtain ⟨h, rfl, rfl, rfl⟩ := one_inv e
    have := Dissect.snap (h := b.take 5) (r := b.drop 5) (List.length_take_of_le h) hd
    rwa [List.take_append_drop] at this

theorem parse_of_step {chk : Bool} {l l' : Layer} {b r : Bytes} {hs hs' : List Hdr} {n : Nat} {pl : Bytes}
    (e : dstep l b = some (hs, n, l')) (hr : b.drop n = r)
    (ih : Slow.parseL chk l' r = .ok ⟨hs', pl⟩) : Slow.parseL chk l b = .ok ⟨hs ++ hs', pl⟩ := by
  have hl : l ≠ .payload := by rintro rfl; exact nomatch e
  rw [Slow.parseL_eq _ _ _ hl, e]
  simp only [stepThen, hr, ih]
  rfl

theorem optAt_append (T : HeaderDef) (p : Bool) (pre c post : Bytes) (i : Nat) (hi : pre.length = i)
    (hc : c.length = optLen p T.size) (h0 : 0 < T.size) :
    optAt T p (pre ++ (c ++ post)) i = optH T c := by
  unfold optAt optH
  rw [drop_append_len hi]
  cases p
  · simp [optLen] at hc; simp [hc]
  · simp only [optLen, if_true] at hc
    have : c ≠ [] := by rintro rfl; simp at hc; omega
    simp [this, take_append_len hc]

theorem dstep_gre {h c k s r : Bytes} (hl : h.length = 4) (hc : c.length = optLen (bitAt h 0 7) 4)
    (hk : k.length = optLen (bitAt h 0 5) 4) (hs' : s.length = optLen (bitAt h 0 4) 4) :
    dstep .gre (h ++ (c ++ (k ++ (s ++ r)))) = some
      (⟨GRE, h⟩ :: (optH GRESequenceNum s ++ (optH GREKey k ++ optH GREChksumOffset c)),
      4 + optLen (bitAt h 0 7) 4 + optLen (bitAt h 0 5) 4 + optLen (bitAt h 0 4) 4,
      greNext (u16At h 2)) := by
  simp only [dstep]
  rw [bitAt_append_left _ _ _ _ (by omega), bitAt_append_left _ _ _ _ (by omega),
    bitAt_append_left _ _ _ _ (by omega), u16At_append_left _ _ _ (by omega),
    if_pos (by simp; omega), take_append_len hl,
    optAt_append GREChksumOffset _ h c (k ++ (s ++ r)) 4 hl hc (by decide)]
  have e1 := optAt_append GREKey (bitAt h 0 5) (h ++ c) k (s ++ r) (4 + optLen (bitAt h 0 7) 4)
    (by simp; omega) hk (by decide)
  have e2 := optAt_append GRESequenceNum (bitAt h 0 4) (h ++ (c ++ k)) s r
    (4 + optLen (bitAt h 0 7) 4 + optLen (bitAt h 0 5) 4) (by simp; omega) hs' (by decide)
  simp only [List.append_assoc] at e1 e2
  rw [e1, e2]

theorem dstep_erspan3 {h p r : Bytes} (hl : h.length = 12) (hp : p.length = optLen (bitAt h 11 0) 8) :
    dstep .erspan3 (h ++ (p ++ r)) = some
      (⟨ERSPAN3, h⟩ :: optH ERSPANPLATFORM p, 12 + optLen (bitAt h 11 0) 8, .ether) := by
  simp only [dstep]
  rw [bitAt_append_left _ _ _ _ (by omega), if_pos (by simp; omega), take_append_len hl,
    optAt_append ERSPANPLATFORM _ h p r 12 hl hp (by decide)]

/-- Completeness: what the grammar describes is what the parser returns. -/
theorem parse_of_Dissect {chk : Bool} {l : Layer} {b : Bytes} {hs : List Hdr} {pl : Bytes}
    (hd : Dissect l b hs pl) : Slow.parseL chk l b = .ok ⟨hs, pl⟩ := by
  induction hd with
  | payload b => rfl
  | @ether h r hs pl hl _ ih =>
    exact parse_of_step (hs := [⟨Ether, h⟩]) (by
      simp only [dstep]; rw [one_append hl, u16At_append_left _ _ _ (by omega)]) (drop_append_len (n := Ether.size) hl) ih
  | @vlan h r hs pl hl _ ih =>
    exact parse_of_step (hs := [⟨Vlan, h⟩]) (by
      simp only [dstep]; rw [one_append hl, u16At_append_left _ _ _ (by omega)]) (drop_append_len (n := Vlan.size) hl) ih
  | @mpls h r hs pl hl hb _ ih =>
    exact parse_of_step (hs := [⟨MPLS, h⟩]) (by
      simp only [dstep]; rw [one_append hl, bitAt_append_left _ _ _ _ (by omega), hb]; rfl)
      (drop_append_len (n := MPLS.size) hl) ih
  | @mplsLast h r hs pl hl hb _ ih =>
    exact parse_of_step (hs := [⟨MPLS, h⟩]) (by
      simp only [dstep]; rw [one_append hl, bitAt_append_left _ _ _ _ (by omega), hb]; rfl)
      (drop_append_len (n := MPLS.size) hl) ih
  | @mplsBos h r hs pl hl hne _ ih =>
    have hr : 0 < r.length := List.length_pos_iff.mpr hne
    exact parse_of_step (hs := [⟨MPLS, h⟩]) (by
      simp only [dstep]
      rw [if_pos (by simp; omega), one_append hl, u8At_append_right _ _ _ (by omega), hl])
      (drop_append_len (n := MPLS.size) hl) ih
  | @ipv4 h r hs pl hl _ ih =>
    exact parse_of_step (hs := [⟨IPv4, h⟩]) (by
      simp only [dstep]; rw [one_append hl, u8At_append_left _ _ _ (by omega)]) (drop_append_len (n := IPv4.size) hl) ih
  | @ipv6 h r hs pl hl _ ih =>
    exact parse_of_step (hs := [⟨IPv6, h⟩]) (by
      simp only [dstep]; rw [one_append hl, u8At_append_left _ _ _ (by omega)]) (drop_append_len (n := IPv6.size) hl) ih
  | @gre h c k s r hs pl hl hc hk hs' _ ih =>
    rw [← optLen_eq] at hc hk hs'
    have e := dstep_gre (r := r) hl hc hk hs'
    have := parse_of_step e (r := r) (by
      have : h ++ (c ++ (k ++ (s ++ r))) = (h ++ (c ++ (k ++ s))) ++ r := by simp
      rw [this]; exact drop_append_len (by simp; omega)) ih
    simpa [List.append_assoc] using this
  | @erspan2 h r hs pl hl _ ih =>
    exact parse_of_step (hs := [⟨ERSPAN2, h⟩]) (by
      simp only [dstep]; rw [one_append hl]) (drop_append_len (n := ERSPAN2.size) hl) ih
  | @erspan3 h p r hs pl hl hp _ ih =>
    rw [← optLen_eq] at hp
    have e := dstep_erspan3 (r := r) hl hp
    exact parse_of_step e (r := r) (by
      rw [← List.append_assoc]; exact drop_append_len (by simp; omega)) ih
  | @arp h r hs pl hl _ ih =>
    exact parse_of_step (hs := [⟨ARP, h⟩]) (by
      simp only [dstep]; rw [one_append hl]) (drop_append_len (n := ARP.size) hl) ih
  | @icmp h r hs pl hl _ ih =>
    exact parse_of_step (hs := [⟨ICMP, h⟩]) (by
      simp only [dstep]; rw [one_append hl]) (drop_append_len (n := ICMP.size) hl) ih
  | @tcp h r hs pl hl _ ih =>
    exact parse_of_step (hs := [⟨TCP, h⟩]) (by
      simp only [dstep]; rw [one_append hl]) (drop_append_len (n := TCP.size) hl) ih
  | @udp h r hs pl hl hp _ ih =>
    exact parse_of_step (hs := [⟨UDP, h⟩]) (by
      simp only [dstep]; rw [one_append hl, u16At_append_left _ _ _ (by omega), if_neg hp])
      (drop_append_len (n := UDP.size) hl) ih
  | @udpVxlan h r hs pl hl hp _ ih =>
    exact parse_of_step (hs := [⟨UDP, h⟩]) (by
      simp only [dstep]; rw [one_append hl, u16At_append_left _ _ _ (by omega), if_pos hp])
      (drop_append_len (n := UDP.size) hl) ih
  | @vxlan h r hs pl hl _ ih =>
    exact parse_of_step (hs := [⟨Vxlan, h⟩]) (by
      simp only [dstep]; rw [one_append hl]) (drop_append_len (n := Vxlan.size) hl) ih
  | @dot3 h r hs pl hl _ ih =>
    exact parse_of_step (hs := [⟨Dot3, h⟩]) (by
      simp only [dstep]; rw [one_append hl]) (drop_append_len (n := Dot3.size) hl) ih
  | @llc h r hs pl hl hp _ ih =>
    exact parse_of_step (hs := [⟨LLC, h⟩]) (by
      simp only [dstep]; rw [one_append hl, take_append_len hl, if_neg hp]) (drop_append_len (n := LLC.size) hl) ih
  | @llcSnap h r hs pl hp _ ih =>
    have hl : h.length = 3 := by rw [hp]; rfl
    exact parse_of_step (hs := [⟨LLC, h⟩]) (by
      simp only [dstep]; rw [one_append hl, take_append_len hl, if_pos hp]) (drop_append_len (n := LLC.size) hl) ih
  | @snap h r hs pl hl _ ih =>
    exact parse_of_step (hs := [⟨SNAP, h⟩]) (by
      simp only [dstep]; rw [one_append hl]) (drop_append_len (n := SNAP.size) hl) ih

theorem one_bounds {T : HeaderDef} {b : Bytes} {l l' : Layer} {hs : List Hdr} {n : Nat}
    (e : one T b l = some (hs, n, l')) (h3 : 3 ≤ T.size) :
    3 * hs.length ≤ n ∧ 0 < n ∧ n ≤ b.length := by
  obtain ⟨h, rfl, rfl, rfl⟩ := one_inv e
  simp only [List.length_cons, List.length_nil]; omega

theorem length_optAt (T : HeaderDef) (p : Bool) (b : Bytes) (i : Nat) :
    (optAt T p b i).length = if p then 1 else 0 := by cases p <;> rfl

/-- A step consumes at least three bytes per header and at least one byte. -/
theorem dstep_bounds {l l' : Layer} {b : Bytes} {hs : List Hdr} {n : Nat}
    (e : dstep l b = some (hs, n, l')) : 3 * hs.length ≤ n ∧ 0 < n ∧ n ≤ b.length := by
  cases l with
  | payload => exact nomatch e
  | gre =>
    simp only [dstep] at e
    generalize bitAt b 0 7 = c at e
    generalize bitAt b 0 5 = k at e
    generalize bitAt b 0 4 = s at e
    by_cases h : 4 + optLen c 4 + optLen k 4 + optLen s 4 ≤ b.length
    · rw [if_pos h] at e
      injection e with e
      injection e with e1 e
      injection e with e2 e3
      subst e1 e2 e3
      simp only [List.length_cons, List.length_append, length_optAt]
      refine ⟨?_, by omega, h⟩
      unfold optLen
      cases c <;> cases k <;> cases s <;> decide
    · rw [if_neg h] at e; exact nomatch e
  | erspan3 =>
    simp only [dstep] at e
    generalize bitAt b 11 0 = o at e
    by_cases h : 12 + optLen o 8 ≤ b.length
    · rw [if_pos h] at e
      injection e with e
      injection e with e1 e
      injection e with e2 e3
      subst e1 e2 e3
      simp only [List.length_cons, length_optAt]
      refine ⟨?_, by omega, h⟩
      unfold optLen
      cases o <;> decide
    · rw [if_neg h] at e; exact nomatch e
  | mplsBos =>
    simp only [dstep] at e
    by_cases h : 4 < b.length
    · rw [if_pos h] at e; exact one_bounds e (by decide)
    · rw [if_neg h] at e; exact nomatch e
  | _ => exact one_bounds e (by decide)

theorem stepThen_ok {chk : Bool} {b : Bytes} {o : Option (List Hdr × Nat × Layer)} {p : Packet}
    (h : stepThen chk b o = .ok p) :
    ∃ hs n l p', o = some (hs, n, l) ∧ Slow.parseL chk l (b.drop n) = .ok p' ∧ p = prep hs p' := by
  match o, h with
  | none, h => exact nomatch h
  | some (hs, n, l), h =>
    simp only [stepThen] at h
    match hp : Slow.parseL chk l (b.drop n) with
    | .error e => rw [hp] at h; exact nomatch h
    | .ok p' =>
      rw [hp] at h
      injection h with h
      exact ⟨hs, n, l, p', rfl, hp, h.symm⟩

/-- Induction over a successful parse. -/
theorem parse_induct {chk : Bool} {M : Layer → Bytes → Packet → Prop}
    (base : ∀ b, M .payload b ⟨[], b⟩)
    (step : ∀ l b hs n l' p, dstep l b = some (hs, n, l') → Slow.parseL chk l' (b.drop n) = .ok p →
      M l' (b.drop n) p → M l b (prep hs p)) :
    ∀ l b p, Slow.parseL chk l b = .ok p → M l b p := by
  suffices H : ∀ m l b p, b.length ≤ m → Slow.parseL chk l b = .ok p → M l b p from
    fun l b p h => H b.length l b p (Nat.le_refl _) h
  intro m
  induction m with
  | zero =>
    intro l b p hm h
    by_cases hl : l = .payload
    · subst hl
      have : p = ⟨[], b⟩ := by injection h with h; exact h.symm
      subst this; exact base b
    · rw [Slow.parseL_eq _ _ _ hl] at h
      obtain ⟨hs, n, l', p', e, -, -⟩ := stepThen_ok h
      have := dstep_bounds e; omega
  | succ m ih =>
    intro l b p hm h
    by_cases hl : l = .payload
    · subst hl
      have : p = ⟨[], b⟩ := by injection h with h; exact h.symm
      subst this; exact base b
    · rw [Slow.parseL_eq _ _ _ hl] at h
      obtain ⟨hs, n, l', p', e, e2, rfl⟩ := stepThen_ok h
      have := dstep_bounds e
      exact step l b hs n l' p' e e2 (ih l' _ p' (by simp; omega) e2)

/-- Soundness: what the parser returns is a dissection. -/
theorem Dissect_of_parse {chk : Bool} {l : Layer} {b : Bytes} {p : Packet}
    (h : Slow.parseL chk l b = .ok p) : Dissect l b p.hdrs p.payload :=
  parse_induct (M := fun l b p => Dissect l b p.hdrs p.payload) (fun b => .payload b)
    (fun _ _ _ _ _ _ e _ ih => Dissect_step e ih) l b p h

/-- A failing parse fails with an index panic. -/
theorem parse_error {chk : Bool} : ∀ (l : Layer) (b : Bytes) (e : Fault),
    Slow.parseL chk l b = .error e → e = .index := by
  suffices H : ∀ m (l : Layer) (b : Bytes) e, b.length ≤ m → Slow.parseL chk l b = .error e → e = .index from
    fun l b e h => H b.length l b e (Nat.le_refl _) h
  intro m
  induction m with
  | zero =>
    intro l b e hm h
    by_cases hl : l = .payload
    · subst hl; exact nomatch h
    · rw [Slow.parseL_eq _ _ _ hl] at h
      match hs : dstep l b with
      | none => rw [hs] at h; injection h with h; exact h.symm
      | some (hs', n, l') => have := dstep_bounds hs; omega
  | succ m ih =>
    intro l b e hm h
    by_cases hl : l = .payload
    · subst hl; exact nomatch h
    · rw [Slow.parseL_eq _ _ _ hl] at h
      match hs : dstep l b with
      | none => rw [hs] at h; injection h with h; exact h.symm
      | some (hs', n, l') =>
        have hb := dstep_bounds hs
        rw [hs] at h
        simp only [stepThen] at h
        match hp : Slow.parseL chk l' (b.drop n) with
        | .ok p' => rw [hp] at h; exact nomatch h
        | .error e' =>
          rw [hp] at h
          injection h with h
          subst h
          exact ih l' _ e' (by simp; omega) hp

end PacketRs
