import Verif.Lemmas.Cost
/-!
# What the zero-copy parser does, counted
-/
namespace PacketRs
open Spec

namespace Cost

/-- a part of the input; nothing is copied -/
theorem Rel.window {α : Type} {ty : α → List HeaderDef} {H : Option HeaderDef → Prop} {N A B : Nat} {arr : Fast.Win} {a b : Nat}
    {f : Fast.Win → Charged α} {g : Fast.Win → R α} (hA : A ≤ N) (hB : B ≤ 5 * N)
    (h : ∀ s, a ≤ b → b ≤ arr.len → Rel ty H 0 N (A + (b - a)) B (f s) (g s)) :
    Rel ty H 0 N A B (Cost.free (arr.slice a b) >>= f) (arr.slice a b >>= g) := by
  refine Rel.free hA hB fun s hs => ?_
  unfold Fast.Win.slice at hs
  split at hs
  · rename_i hb
    have h := h s hb.1 hb.2
    exact ⟨h.val, fun p hp => by simpa using h.ok p hp, fun e he => by simpa using h.err e he⟩
  · exact nomatch hs

namespace Fast
open PacketRs.Fast (Win SHdr PacketSlice)

/-- for the headers of a packet -/
def tys (p : PacketSlice) : List HeaderDef := p.hdrs.map (·.ty)

abbrev SRel (H : Option HeaderDef → Prop) (arr : Win) := Rel tys H 0 arr.len 0 0

theorem accept_rel (arr : Win) : SRel (fun t => t ≠ some MPLS) arr (accept arr) (pure (PacketRs.Fast.accept arr)) := by
  refine ⟨rfl, fun p hp => ?_, fun e he => nomatch he⟩
  have : PacketRs.Fast.accept arr = p := by injection hp
  subst this
  exact ⟨by simp [accept, pure], rfl, rfl, by simp [tys, PacketRs.Fast.accept, PacketSlice.set_payload, PacketSlice.new]⟩

/-- one header inserted -/
theorem insert_step {H' : Option HeaderDef → Prop} {B : Nat} (h : SHdr) (hB : ∀ t, H' t → looked h.ty t = B)
    (p : PacketSlice) (hp : H' (tys p).head?) :
    ∃ p', insert p h = ⟨.ok p', { copied := 0, moved := (insert p h).cost.moved }⟩ ∧ (pure (p.insert h) : R PacketSlice) = .ok p' ∧
      tri (tys p).length + (insert p h).cost.moved = tri (tys p').length ∧ B + lookedAll (tys p) = lookedAll (tys p') ∧
      (tys p').head? = some h.ty :=
  ⟨p.insert h, rfl, rfl, by simp [insert, tys, PacketSlice.insert, tri], by
    show _ = looked h.ty (tys p).head? + lookedAll (tys p)
    rw [hB _ hp], rfl⟩

/-- the slice of the header is taken after the call for the rest -/
theorem late {H' H : Option HeaderDef → Prop} {arr r : Win} {x : Charged PacketSlice} {y : R PacketSlice} (T : HeaderDef)
    (hT : T.size ≤ arr.len) (hH : H (some T)) (hl : ∀ t, looked T t = 0) (hr : r.len = arr.len - T.size) (h : SRel H' r x y) :
    SRel H arr (do let pkt ← x; insert pkt (SHdr.from T (← free <| arr.slice 0 T.size)))
      (do let pkt ← y; pure (pkt.insert (SHdr.from T (← arr.slice 0 T.size)))) := by
  have hs : arr.slice 0 T.size = .ok { arr with off := arr.off + 0, len := T.size - 0 } := by
    unfold Win.slice; rw [if_pos ⟨by omega, hT⟩]
  refine Rel.inner (D := 0) h (by omega) (by omega) (by omega) fun p _ => ?_
  rw [hs, bind_ok (a := { arr with off := arr.off + 0, len := T.size - 0 }) rfl]
  obtain ⟨p', h1, h2, h3, h4, h5⟩ := insert_step (H' := fun _ => True) (B := 0)
    (SHdr.from T { arr with off := arr.off + 0, len := T.size - 0 }) (fun t _ => hl t) p trivial
  refine ⟨p', ?_, h2, ?_, h4, by rw [h5]; exact hH⟩
  · rw [h1]; simp [free, Cost.add]
  · simp only [Cost.add, free, Nat.zero_add]; exact h3

theorem arp_rel (arr : Win) : SRel (fun t => t = some ARP) arr (parse_arp arr) (PacketRs.Fast.parse_arp arr) := by
  unfold parse_arp PacketRs.Fast.parse_arp
  refine Rel.free (by omega) (by omega) fun rest _ => ?_
  exact late (H := fun t => t = some ARP) ARP rest.2.2 rfl (fun _ => rfl) (by rw [rest.2.1]) (accept_rel rest.1)

theorem icmp_rel (arr : Win) : SRel (fun t => t = some ICMP) arr (parse_icmp arr) (PacketRs.Fast.parse_icmp arr) := by
  unfold parse_icmp PacketRs.Fast.parse_icmp
  refine Rel.free (by omega) (by omega) fun rest _ => ?_
  exact late (H := fun t => t = some ICMP) ICMP rest.2.2 rfl (fun _ => rfl) (by rw [rest.2.1]) (accept_rel rest.1)

theorem tcp_rel (arr : Win) : SRel (fun t => t = some TCP) arr (parse_tcp arr) (PacketRs.Fast.parse_tcp arr) := by
  unfold parse_tcp PacketRs.Fast.parse_tcp
  refine Rel.free (by omega) (by omega) fun rest _ => ?_
  exact late (H := fun t => t = some TCP) TCP rest.2.2 rfl (fun _ => rfl) (by rw [rest.2.1]) (accept_rel rest.1)

/-- the header has been looked at -/
theorem early {H' : Option HeaderDef → Prop} {arr : Win} {x : Charged PacketSlice} {y : R PacketSlice} {A B n : Nat} (h : SHdr)
    (hx : Rel tys H' 0 n 0 0 x y) (hn : A + n = arr.len) (hB : B ≤ 5 * A) (hl : ∀ t, H' t → looked h.ty t = B) :
    Rel tys (fun t => t = some h.ty) 0 arr.len A B (do let pkt ← x; insert pkt h) (do let pkt ← y; pure (pkt.insert h)) :=
  Rel.inner (D := 0) hx (by omega) (by omega) hB (insert_step h hl)

theorem snap_rel (arr : Win) : SRel (fun t => t = some SNAP) arr (parse_snap arr) (PacketRs.Fast.parse_snap arr) := by
  unfold parse_snap PacketRs.Fast.parse_snap
  refine Rel.window (by omega) (by omega) fun s _ hs => ?_
  refine Rel.free (by omega) (by omega) fun rest _ => ?_
  have hr : rest.1.len = arr.len - SNAP.size := by rw [rest.2.1]
  exact early (SHdr.from SNAP s) (accept_rel _) (by omega) (by omega) (fun _ _ => rfl)

theorem llc_rel (arr : Win) : SRel (fun t => t = some LLC) arr (parse_llc arr) (PacketRs.Fast.parse_llc arr) := by
  unfold parse_llc PacketRs.Fast.parse_llc
  refine Rel.window (by omega) (by omega) fun s _ hs => ?_
  have key : ∀ v : Bool, Rel tys (fun t => t = some LLC) 0 arr.len (0 + (LLC.size - 0)) 0
      (do let rest ← free <| arr.sliceFrom LLC.size
          if v then do
            let pkt ← parse_snap rest.1
            insert pkt (SHdr.from LLC s)
          else do
            let pkt ← accept rest.1
            insert pkt (SHdr.from LLC s))
      (do let rest ← arr.sliceFrom LLC.size
          if v then do
            let pkt ← PacketRs.Fast.parse_snap rest.1
            pure (pkt.insert (SHdr.from LLC s))
          else do
            let pkt ← pure (PacketRs.Fast.accept rest.1)
            pure (pkt.insert (SHdr.from LLC s))) := by
    intro v
    refine Rel.free (by omega) (by omega) fun rest _ => ?_
    have hr : rest.1.len = arr.len - LLC.size := by rw [rest.2.1]
    cases v
    · exact early (SHdr.from LLC s) (accept_rel _) (by omega) (by omega) (fun _ _ => rfl)
    · exact early (SHdr.from LLC s) (snap_rel _) (by omega) (by omega) (fun _ _ => rfl)
  refine Rel.free (by omega) (by omega) fun x _ => ?_
  dsimp only
  split
  · exact .start (key false)
  · refine Rel.free (by omega) (by omega) fun y _ => ?_
    split
    · exact .start (key false)
    · exact Rel.free (by omega) (by omega) fun z _ => .start (key _)

theorem dot3_rel (arr : Win) : SRel (fun t => t = some Dot3) arr (parse_dot3 arr) (PacketRs.Fast.parse_dot3 arr) := by
  unfold parse_dot3 PacketRs.Fast.parse_dot3
  refine Rel.window (by omega) (by omega) fun s _ hs => ?_
  refine Rel.free (by omega) (by omega) fun rest _ => ?_
  have hr : rest.1.len = arr.len - Dot3.size := by rw [rest.2.1]
  exact early (SHdr.from Dot3 s) (llc_rel _) (by omega) (by omega) (fun _ _ => rfl)

/-- an optional header -/
theorem opt {H : Option HeaderDef → Prop} {N A B : Nat} {T : HeaderDef} {w : U64} {arr : Win} {o : Nat}
    {f : Option SHdr → Charged PacketSlice} {g : Option SHdr → R PacketSlice} (hA : A ≤ N) (hB : B ≤ 5 * N)
    (h : ∀ r : Option SHdr, (r.isSome → o + T.size ≤ arr.len) → (∀ h ∈ r, h.ty = T) →
      optOffset T w o = o + (if r.isSome then T.size else 0) →
      Rel tys H 0 N (A + if r.isSome then T.size else 0) B (f r) (g r)) :
    Rel tys H 0 N A B (optHdr T w arr o >>= f) (PacketRs.Fast.optHdr T w arr o >>= g) := by
  unfold optHdr PacketRs.Fast.optHdr
  unfold optOffset at h
  split
  · rename_i hw
    have e1 : (do let b ← free <| arr.slice o (o + T.size); pure (some (SHdr.from T b))) >>= f =
        free (arr.slice o (o + T.size)) >>= fun b => f (some (SHdr.from T b)) := by
      cases arr.slice o (o + T.size) with
      | error e => rfl
      | ok b =>
        rw [bind_ok (m := free (.ok b)) (a := b) rfl, bind_ok (m := free (.ok b)) (a := b) rfl]
        rw [bind_ok (a := some (SHdr.from T b)) rfl]
        rfl
    have e2 : (do let b ← arr.slice o (o + T.size); pure (some (SHdr.from T b))) >>= g =
        arr.slice o (o + T.size) >>= fun b => g (some (SHdr.from T b)) := by
      cases arr.slice o (o + T.size) <;> rfl
    rw [e1, e2]
    refine Rel.window hA hB fun s _ hs => ?_
    have := h (some (SHdr.from T s)) (fun _ => hs) (fun x hx => by cases hx; rfl) (by rw [if_pos hw]; rfl)
    rw [show o + T.size - o = T.size by omega]
    exact this
  · rename_i hw
    have := h none (fun h => nomatch h) (fun x hx => nomatch hx) (by rw [if_neg hw]; rfl)
    have e1 : (pure none : Charged (Option SHdr)) >>= f = ⟨(f none).val, (f none).cost⟩ := by
      rw [bind_ok (a := none) rfl]
      simp [Cost.add, pure]
    rw [e1]
    exact this

/-- `k` inserts headers of the types `hs`; `g` is the same not counted -/
structure Ins (k : PacketSlice → Charged PacketSlice) (g : PacketSlice → PacketSlice) (hs : List HeaderDef) : Prop where
  val : ∀ p, k p = ⟨.ok (g p), { moved := (k p).cost.moved }⟩
  moved : ∀ p, tri (tys p).length + (k p).cost.moved = tri (tys (g p)).length
  types : ∀ p, tys (g p) = hs ++ tys p

theorem Ins.one (h : SHdr) : Ins (fun p => insert p h) (fun p => p.insert h) [h.ty] :=
  ⟨fun _ => rfl, fun p => by simp [insert, tys, PacketSlice.insert, tri], fun _ => rfl⟩

theorem Ins.opt {T : HeaderDef} (r : Option SHdr) (hr : ∀ h ∈ r, h.ty = T) :
    Ins (fun p => insertOpt p r) (fun p => PacketRs.Fast.insertOpt p r) (if r.isSome then [T] else []) := by
  cases r with
  | none => exact ⟨fun _ => rfl, fun p => rfl, fun _ => rfl⟩
  | some h =>
    have := hr h rfl
    subst this
    exact Ins.one h

theorem Ins.comp {k1 k2 : PacketSlice → Charged PacketSlice} {g1 g2 : PacketSlice → PacketSlice} {h1 h2 : List HeaderDef} (i1 : Ins k1 g1 h1) (i2 : Ins k2 g2 h2) :
    Ins (fun p => k1 p >>= k2) (fun p => g2 (g1 p)) (h2 ++ h1) := by
  have e : ∀ p, (k1 p >>= k2) = ⟨.ok (g2 (g1 p)), { moved := (k1 p).cost.moved + (k2 (g1 p)).cost.moved }⟩ := by
    intro p
    rw [i1.val p, bind_ok (a := g1 p) rfl, i2.val (g1 p)]
    simp [Cost.add]
  refine ⟨fun p => ?_, fun p => ?_, fun p => ?_⟩
  · rw [e p]
  · have m1 := i1.moved p
    have m2 := i2.moved (g1 p)
    rw [e p]
    dsimp only
    omega
  · rw [i2.types, i1.types, List.append_assoc]

/-- the headers have been copied and looked at -/
theorem Ins.use {H' : Option HeaderDef → Prop} {N : Nat} {x : Charged PacketSlice} {y : R PacketSlice} {A B n : Nat} {T : HeaderDef}
    {k : PacketSlice → Charged PacketSlice} {g : PacketSlice → PacketSlice} {hs : List HeaderDef} (i : Ins k g hs) (hx : Rel tys H' 0 n 0 0 x y)
    (hn : A + n = N) (hB : B ≤ 5 * A) (hl : ∀ r, B + lookedAll r = lookedAll (hs ++ r)) (hT : hs.head? = some T) :
    Rel tys (fun t => t = some T) 0 N A B (x >>= k) (y >>= fun p => pure (g p)) := by
  refine Rel.inner (D := 0) hx (by omega) (by omega) hB fun p _ => ⟨g p, i.val p, rfl, i.moved p, ?_, ?_⟩
  · rw [i.types, hl]
  · rw [i.types, List.head?_append, hT]; rfl

mutual

theorem ether_rel (chk : Bool) (arr : Win) :
    SRel (fun t => t = some Ether) arr (parse_ethernet chk arr) (PacketRs.Fast.parse_ethernet chk arr) := by
  rw [parse_ethernet, PacketRs.Fast.parse_ethernet]
  refine Rel.window (A := 0) (by omega) (by omega) fun s _ hs => ?_
  refine Rel.get (w := Ether.etype.width) (by omega) (by simp only [Ether, Ether.etype, Field.width] at *; omega) fun v_etype _ => ?_
  refine Rel.free (by omega) (by simp only [Ether, Ether.etype, Field.width] at *; omega) fun rest _ => ?_
  have hr : rest.1.len = arr.len - Ether.size := by rw [rest.2.1]
  have hlt : rest.1.len < arr.len := by simp only [Ether] at *; omega
  have key : ∀ {H' : Option HeaderDef → Prop} {x : Charged PacketSlice} {y : R PacketSlice}, SRel H' rest.1 x y →
      Rel tys (fun t => t = some Ether) 0 arr.len (0 + (Ether.size - 0)) (0 + Ether.etype.width)
        (do let pkt ← x; insert pkt (SHdr.from Ether s)) (do let pkt ← y; pure (pkt.insert (SHdr.from Ether s))) := fun h =>
    early (SHdr.from Ether s) h (by omega) (by decide) (fun _ _ => rfl)
  dsimp only
  generalize EtherType.try_from (BitVec.setWidth 16 v_etype) = t
  rcases t with _ | t
  · exact key (accept_rel _)
  cases t <;> first | exact key (accept_rel _) | exact key (vlan_rel chk _) | exact key (arp_rel _) | exact key (ipv4_rel chk _) | exact key (ipv6_rel chk _) | exact key (mpls_rel chk _)
termination_by arr.len

theorem vlan_rel (chk : Bool) (arr : Win) :
    SRel (fun t => t = some Vlan) arr (parse_vlan chk arr) (PacketRs.Fast.parse_vlan chk arr) := by
  rw [parse_vlan, PacketRs.Fast.parse_vlan]
  refine Rel.window (A := 0) (by omega) (by omega) fun s _ hs => ?_
  refine Rel.get (w := Vlan.etype.width) (by omega) (by simp only [Vlan, Vlan.etype, Field.width] at *; omega) fun v_etype _ => ?_
  refine Rel.free (by omega) (by simp only [Vlan, Vlan.etype, Field.width] at *; omega) fun rest _ => ?_
  have hr : rest.1.len = arr.len - Vlan.size := by rw [rest.2.1]
  have hlt : rest.1.len < arr.len := by simp only [Vlan] at *; omega
  have key : ∀ {H' : Option HeaderDef → Prop} {x : Charged PacketSlice} {y : R PacketSlice}, SRel H' rest.1 x y →
      Rel tys (fun t => t = some Vlan) 0 arr.len (0 + (Vlan.size - 0)) (0 + Vlan.etype.width)
        (do let pkt ← x; insert pkt (SHdr.from Vlan s)) (do let pkt ← y; pure (pkt.insert (SHdr.from Vlan s))) := fun h =>
    early (SHdr.from Vlan s) h (by omega) (by decide) (fun _ _ => rfl)
  dsimp only
  generalize EtherType.try_from (BitVec.setWidth 16 v_etype) = t
  rcases t with _ | t
  · exact key (accept_rel _)
  cases t <;> first | exact key (accept_rel _) | exact key (vlan_rel chk _) | exact key (arp_rel _) | exact key (ipv4_rel chk _) | exact key (ipv6_rel chk _) | exact key (mpls_rel chk _)
termination_by arr.len

theorem ipv4_rel (chk : Bool) (arr : Win) :
    SRel (fun t => t = some IPv4) arr (parse_ipv4 chk arr) (PacketRs.Fast.parse_ipv4 chk arr) := by
  rw [parse_ipv4, PacketRs.Fast.parse_ipv4]
  refine Rel.window (A := 0) (by omega) (by omega) fun s _ hs => ?_
  refine Rel.get (w := IPv4.protocol.width) (by omega) (by simp only [IPv4, IPv4.protocol, Field.width] at *; omega) fun v_protocol _ => ?_
  refine Rel.free (by omega) (by simp only [IPv4, IPv4.protocol, Field.width] at *; omega) fun rest _ => ?_
  have hr : rest.1.len = arr.len - IPv4.size := by rw [rest.2.1]
  have hlt : rest.1.len < arr.len := by simp only [IPv4] at *; omega
  have key : ∀ {H' : Option HeaderDef → Prop} {x : Charged PacketSlice} {y : R PacketSlice}, SRel H' rest.1 x y →
      Rel tys (fun t => t = some IPv4) 0 arr.len (0 + (IPv4.size - 0)) (0 + IPv4.protocol.width)
        (do let pkt ← x; insert pkt (SHdr.from IPv4 s)) (do let pkt ← y; pure (pkt.insert (SHdr.from IPv4 s))) := fun h =>
    early (SHdr.from IPv4 s) h (by omega) (by decide) (fun _ _ => rfl)
  dsimp only
  generalize IpProtocol.try_from (BitVec.setWidth 8 v_protocol) = t
  rcases t with _ | t
  · exact key (accept_rel _)
  cases t <;> first | exact key (accept_rel _) | exact key (icmp_rel _) | exact key (ipv4_rel chk _) | exact key (tcp_rel _) | exact key (udp_rel chk _) | exact key (ipv6_rel chk _) | exact key (gre_rel chk _)
termination_by arr.len

theorem ipv6_rel (chk : Bool) (arr : Win) :
    SRel (fun t => t = some IPv6) arr (parse_ipv6 chk arr) (PacketRs.Fast.parse_ipv6 chk arr) := by
  rw [parse_ipv6, PacketRs.Fast.parse_ipv6]
  refine Rel.window (A := 0) (by omega) (by omega) fun s _ hs => ?_
  refine Rel.get (w := IPv6.next_hdr.width) (by omega) (by simp only [IPv6, IPv6.next_hdr, Field.width] at *; omega) fun v_next_hdr _ => ?_
  refine Rel.free (by omega) (by simp only [IPv6, IPv6.next_hdr, Field.width] at *; omega) fun rest _ => ?_
  have hr : rest.1.len = arr.len - IPv6.size := by rw [rest.2.1]
  have hlt : rest.1.len < arr.len := by simp only [IPv6] at *; omega
  have key : ∀ {H' : Option HeaderDef → Prop} {x : Charged PacketSlice} {y : R PacketSlice}, SRel H' rest.1 x y →
      Rel tys (fun t => t = some IPv6) 0 arr.len (0 + (IPv6.size - 0)) (0 + IPv6.next_hdr.width)
        (do let pkt ← x; insert pkt (SHdr.from IPv6 s)) (do let pkt ← y; pure (pkt.insert (SHdr.from IPv6 s))) := fun h =>
    early (SHdr.from IPv6 s) h (by omega) (by decide) (fun _ _ => rfl)
  dsimp only
  generalize IpProtocol.try_from (BitVec.setWidth 8 v_next_hdr) = t
  rcases t with _ | t
  · exact key (accept_rel _)
  cases t <;> first | exact key (accept_rel _) | exact key (icmp_rel _) | exact key (ipv4_rel chk _) | exact key (tcp_rel _) | exact key (udp_rel chk _) | exact key (ipv6_rel chk _) | exact key (gre_rel chk _)
termination_by arr.len

theorem mpls_rel (chk : Bool) (arr : Win) :
    SRel (fun t => t = some MPLS) arr (parse_mpls chk arr) (PacketRs.Fast.parse_mpls chk arr) := by
  rw [parse_mpls, PacketRs.Fast.parse_mpls]
  refine Rel.window (A := 0) (by omega) (by omega) fun s _ hs => ?_
  refine Rel.get (w := MPLS.bos.width) (by omega) (by simp only [MPLS, MPLS.bos, Field.width] at *; omega) fun v_bos _ => ?_
  refine Rel.free (by omega) (by simp only [MPLS, MPLS.bos, Field.width] at *; omega) fun rest _ => ?_
  have hr : rest.1.len = arr.len - MPLS.size := by rw [rest.2.1]
  have hlt : rest.1.len < arr.len := by simp only [MPLS] at *; omega
  have key : ∀ {x : Charged PacketSlice} {y : R PacketSlice}, SRel (fun t => t = some MPLS) rest.1 x y →
      Rel tys (fun t => t = some MPLS) 0 arr.len (0 + (MPLS.size - 0)) (0 + MPLS.bos.width)
        (do let pkt ← x; insert pkt (SHdr.from MPLS s)) (do let pkt ← y; pure (pkt.insert (SHdr.from MPLS s))) := fun h =>
    early (SHdr.from MPLS s) h (by omega) (by decide) (by rintro _ rfl; rfl)
  dsimp only
  split
  · exact key (mpls_bos_rel chk _)
  · exact key (mpls_rel chk _)
termination_by arr.len

theorem mpls_bos_rel (chk : Bool) (arr : Win) :
    SRel (fun t => t = some MPLS) arr (parse_mpls_bos chk arr) (PacketRs.Fast.parse_mpls_bos chk arr) := by
  rw [parse_mpls_bos, PacketRs.Fast.parse_mpls_bos]
  refine Rel.window (A := 0) (by omega) (by omega) fun s _ hs => ?_
  refine Rel.free (by omega) (by omega) fun b _ => ?_
  refine Rel.free (by omega) (by simp only [MPLS] at *; omega) fun rest _ => ?_
  have hr : rest.1.len = arr.len - MPLS.size := by rw [rest.2.1]
  have hlt : rest.1.len < arr.len := by simp only [MPLS] at *; omega
  have key : ∀ {x : Charged PacketSlice} {y : R PacketSlice}, SRel (fun t => t ≠ some MPLS) rest.1 x y →
      Rel tys (fun t => t = some MPLS) 0 arr.len (0 + (MPLS.size - 0)) (0)
        (do let pkt ← x; insert pkt (SHdr.from MPLS s)) (do let pkt ← y; pure (pkt.insert (SHdr.from MPLS s))) := fun h =>
    early (SHdr.from MPLS s) h (by omega) (by decide) (fun t ht => by simp only [looked, ht, if_false]; rfl)
  dsimp only
  generalize IpType.try_from _ = t
  have ne : ∀ {T : HeaderDef}, T ≠ MPLS → ∀ t, t = some T → t ≠ some MPLS := fun h t e => by rw [e]; simpa using h
  rcases t with _ | t
  · exact key ((ether_rel chk _).mono (ne (by decide)))
  cases t <;> first
    | exact key ((ether_rel chk _).mono (ne (by decide)))
    | exact key ((ipv4_rel chk _).mono (ne (by decide)))
    | exact key ((ipv6_rel chk _).mono (ne (by decide)))
termination_by arr.len

theorem udp_rel (chk : Bool) (arr : Win) :
    SRel (fun t => t = some UDP) arr (parse_udp chk arr) (PacketRs.Fast.parse_udp chk arr) := by
  rw [parse_udp, PacketRs.Fast.parse_udp]
  refine Rel.window (A := 0) (by omega) (by omega) fun s _ hs => ?_
  refine Rel.get (w := UDP.dst.width) (by omega) (by simp only [UDP, UDP.dst, Field.width] at *; omega) fun v_dst _ => ?_
  refine Rel.free (by omega) (by simp only [UDP, UDP.dst, Field.width] at *; omega) fun rest _ => ?_
  have hr : rest.1.len = arr.len - UDP.size := by rw [rest.2.1]
  have hlt : rest.1.len < arr.len := by simp only [UDP] at *; omega
  have key : ∀ {H' : Option HeaderDef → Prop} {x : Charged PacketSlice} {y : R PacketSlice}, SRel H' rest.1 x y →
      Rel tys (fun t => t = some UDP) 0 arr.len (0 + (UDP.size - 0)) (0 + UDP.dst.width)
        (do let pkt ← x; insert pkt (SHdr.from UDP s)) (do let pkt ← y; pure (pkt.insert (SHdr.from UDP s))) := fun h =>
    early (SHdr.from UDP s) h (by omega) (by decide) (fun _ _ => rfl)
  dsimp only
  split
  · exact key (vxlan_rel chk _)
  · exact key (accept_rel _)
termination_by arr.len

theorem erspan2_rel (chk : Bool) (arr : Win) :
    SRel (fun t => t = some ERSPAN2) arr (parse_erspan2 chk arr) (PacketRs.Fast.parse_erspan2 chk arr) := by
  rw [parse_erspan2, PacketRs.Fast.parse_erspan2]
  refine Rel.window (A := 0) (by omega) (by omega) fun s _ hs => ?_
  refine Rel.free (by omega) (by simp only [ERSPAN2] at *; omega) fun rest _ => ?_
  have hr : rest.1.len = arr.len - ERSPAN2.size := by rw [rest.2.1]
  have hlt : rest.1.len < arr.len := by simp only [ERSPAN2] at *; omega
  exact early (SHdr.from ERSPAN2 s) (ether_rel chk _) (by omega) (by decide) (fun _ _ => rfl)
termination_by arr.len

theorem vxlan_rel (chk : Bool) (arr : Win) :
    SRel (fun t => t = some Vxlan) arr (parse_vxlan chk arr) (PacketRs.Fast.parse_vxlan chk arr) := by
  rw [parse_vxlan, PacketRs.Fast.parse_vxlan]
  refine Rel.free (by omega) (by omega) fun rest _ => ?_
  have hr : rest.1.len = arr.len - Vxlan.size := by rw [rest.2.1]
  have hlt : rest.1.len < arr.len := by have := rest.2.2; simp only [Vxlan] at *; omega
  have h := ether_rel chk rest.1
  exact late (H := fun t => t = some Vxlan) Vxlan rest.2.2 rfl (fun _ => rfl) hr h
termination_by arr.len

theorem erspan3_rel (chk : Bool) (arr : Win) :
    SRel (fun t => t = some ERSPAN3) arr (parse_erspan3 chk arr) (PacketRs.Fast.parse_erspan3 chk arr) := by
  rw [parse_erspan3, PacketRs.Fast.parse_erspan3]
  refine Rel.window (A := 0) (by omega) (by omega) fun s _ hs => ?_
  refine Rel.get (w := ERSPAN3.o.width) (by omega) (by simp only [ERSPAN3, ERSPAN3.o, Field.width] at *; omega) fun v_o _ => ?_
  refine opt (by omega) (by simp only [ERSPAN3, ERSPAN3.o, Field.width] at *; omega) fun r hlen hty hoff => ?_
  rw [show PacketRs.Fast.optOffset = optOffset from rfl]
  generalize optOffset ERSPANPLATFORM v_o ERSPAN3.size = off at hoff ⊢
  have hle : ERSPAN3.size + (if r.isSome then ERSPANPLATFORM.size else 0) ≤ arr.len := by
    split
    · exact hlen ‹_›
    · exact hs
  refine Rel.free (by omega) (by simp only [ERSPAN3, ERSPAN3.o, Field.width] at *; omega) fun rest _ => ?_
  have hr : rest.1.len = arr.len - off := by rw [rest.2.1]
  have hlt : rest.1.len < arr.len := by simp only [ERSPAN3] at *; omega
  exact Ins.use ((Ins.opt r hty).comp (Ins.one (SHdr.from ERSPAN3 s))) (ether_rel chk rest.1) (by omega) (by simp only [ERSPAN3, ERSPAN3.o, Field.width]; omega)
    (fun q => by cases r <;> simp [lookedAll, looked_opts] <;> rfl) rfl
termination_by arr.len

theorem gre_rel (chk : Bool) (arr : Win) :
    SRel (fun t => t = some GRE) arr (parse_gre chk arr) (PacketRs.Fast.parse_gre chk arr) := by
  rw [parse_gre, PacketRs.Fast.parse_gre]
  refine Rel.window (A := 0) (by omega) (by omega) fun s _ hs => ?_
  refine Rel.get (w := GRE.proto.width) (by omega) (by simp only [GRE, GRE.proto, Field.width] at *; omega) fun v_proto _ => ?_
  refine Rel.get (w := GRE.chksum_present.width) (by omega) (by simp only [GRE, GRE.proto, GRE.chksum_present, GRE.seqnum_present, GRE.key_present, Field.width] at *; omega) fun v_chksum_present _ => ?_
  refine Rel.get (w := GRE.seqnum_present.width) (by omega) (by simp only [GRE, GRE.proto, GRE.chksum_present, GRE.seqnum_present, GRE.key_present, Field.width] at *; omega) fun v_seqnum_present _ => ?_
  refine Rel.get (w := GRE.key_present.width) (by omega) (by simp only [GRE, GRE.proto, GRE.chksum_present, GRE.seqnum_present, GRE.key_present, Field.width] at *; omega) fun v_key_present _ => ?_
  rw [show PacketRs.Fast.optOffset = optOffset from rfl]
  refine opt (by omega) (by simp only [GRE, GRE.proto, GRE.chksum_present, GRE.seqnum_present, GRE.key_present, Field.width] at *; omega) fun r1 hlen1 hty1 hoff1 => ?_
  have hle1 : GRE.size + (if r1.isSome then GREChksumOffset.size else 0) ≤ arr.len := by
    exact if_le hlen1 hs
  refine opt (by omega) (by simp only [GRE, GRE.proto, GRE.chksum_present, GRE.seqnum_present, GRE.key_present, Field.width] at *; omega) fun r2 hlen2 hty2 hoff2 => ?_
  have hle2 : GRE.size + (if r1.isSome then GREChksumOffset.size else 0) + (if r2.isSome then GREKey.size else 0) ≤ arr.len := by
    rw [hoff1] at hlen2; exact if_le hlen2 hle1
  refine opt (by omega) (by simp only [GRE, GRE.proto, GRE.chksum_present, GRE.seqnum_present, GRE.key_present, Field.width] at *; omega) fun r3 hlen3 hty3 hoff3 => ?_
  have hle3 : GRE.size + (if r1.isSome then GREChksumOffset.size else 0) + (if r2.isSome then GREKey.size else 0) +
      (if r3.isSome then GRESequenceNum.size else 0) ≤ arr.len := by
    rw [hoff2, hoff1] at hlen3; exact if_le hlen3 hle2
  have hoff := hoff3.trans (congrArg (· + if r3.isSome then GRESequenceNum.size else 0) (hoff2.trans (congrArg (· + if r2.isSome then GREKey.size else 0) hoff1)))
  refine Rel.free (by omega) (by simp only [GRE, GRE.proto, GRE.chksum_present, GRE.seqnum_present, GRE.key_present, Field.width] at *; omega) fun rest _ => ?_
  have hr := congrArg Win.len rest.2.1
  dsimp only at hr hoff
  have hlt : rest.1.len < arr.len := by simp only [GRE] at *; omega
  have key : ∀ {H' : Option HeaderDef → Prop} {x : Charged PacketSlice} {y : R PacketSlice}, SRel H' rest.1 x y → Rel tys _ _ _ _ _ _ _ := fun h =>
    Ins.use ((Ins.opt r1 hty1).comp ((Ins.opt r2 hty2).comp ((Ins.opt r3 hty3).comp (Ins.one (SHdr.from GRE s))))) h
      (N := arr.len) (T := GRE)
      (A := 0 + (GRE.size - 0) + (if r1.isSome then GREChksumOffset.size else 0) + (if r2.isSome then GREKey.size else 0) +
        (if r3.isSome then GRESequenceNum.size else 0))
      (B := 0 + GRE.proto.width + GRE.chksum_present.width + GRE.seqnum_present.width + GRE.key_present.width)
      (by omega) (by simp only [GRE, GRE.proto, GRE.chksum_present, GRE.seqnum_present, GRE.key_present, Field.width]; omega) (fun r => by cases r1 <;> cases r2 <;> cases r3 <;> simp [lookedAll, looked_opts] <;> rfl) (by rfl)
  dsimp only
  generalize EtherType.try_from _ = t
  rcases t with _ | t
  · exact key (accept_rel _)
  cases t <;> first | exact key (accept_rel _) | exact key (ipv4_rel chk _) | exact key (ipv6_rel chk _) | exact key (erspan2_rel chk _) | exact key (erspan3_rel chk _)
termination_by arr.len

end

end Fast
end Cost
end PacketRs
