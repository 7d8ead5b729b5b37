import Verif.Cost
import Verif.Spec.Cost
/-!
# What the parsers do, counted
-/
namespace PacketRs
open Spec

namespace Cost

theorem bind_ok {α β : Type} {m : Charged α} {f : α → Charged β} {a : α} (h : m.val = .ok a) :
    m >>= f = ⟨(f a).val, m.cost.add (f a).cost⟩ := by
  show Charged.bind m f = _
  unfold Charged.bind; rw [h]

theorem bind_err {α β : Type} {m : Charged α} {f : α → Charged β} {e : Fault} (h : m.val = .error e) :
    m >>= f = ⟨.error e, m.cost⟩ := by
  show Charged.bind m f = _
  unfold Charged.bind; rw [h]

theorem copySlice_ok {arr s : Bytes} {a b : Nat} (h : slice arr a b = .ok s) :
    copySlice arr a b = ⟨.ok s, { copied := b - a }⟩ ∧ a ≤ b ∧ b ≤ arr.length := by
  unfold copySlice free
  rw [bind_ok h]
  unfold slice at h
  split at h
  · rename_i hb
    injection h with h
    refine ⟨?_, hb.1, hb.2⟩
    subst h
    simp only [copy, Cost.add, List.length_take, List.length_drop]
    congr 2; omega
  · exact nomatch h

theorem copySlice_err {arr : Bytes} {a b : Nat} {e : Fault} (h : slice arr a b = .error e) :
    copySlice arr a b = ⟨.error e, {}⟩ := by
  unfold copySlice free
  rw [bind_err h]

/-- `x` is what is left to do of a call on `N` bytes of which `A` have been dealt with, with `B` bits looked at, and `y` is the same
not counted.  `c` is 1 if bytes are copied and 0 if not. -/
structure Rel {α : Type} (ty : α → List HeaderDef) (H : Option HeaderDef → Prop) (c N A B : Nat) (x : Charged α) (y : R α) : Prop where
  val : x.val = y
  ok : ∀ p, y = .ok p → c * A + x.cost.copied = c * N ∧ x.cost.moved = tri (ty p).length ∧
    B + x.cost.bits = lookedAll (ty p) ∧ H (ty p).head?
  err : ∀ e, y = .error e → c * A + x.cost.copied ≤ c * N ∧ x.cost.moved = 0 ∧ B + x.cost.bits ≤ 5 * N

namespace Rel
variable {α β : Type} {ty : α → List HeaderDef} {H : Option HeaderDef → Prop} {c N A B : Nat}

theorem mono {x : Charged α} {y : R α} {H' : Option HeaderDef → Prop} (h : Rel ty H c N A B x y) (hH : ∀ t, H t → H' t) :
    Rel ty H' c N A B x y where
  val := h.val
  ok p hp := ⟨(h.ok p hp).1, (h.ok p hp).2.1, (h.ok p hp).2.2.1, hH _ (h.ok p hp).2.2.2⟩
  err := h.err

theorem fail {e : Fault} {k : Cost} (hc : c * A + k.copied ≤ c * N) (hm : k.moved = 0) (hb : B + k.bits ≤ 5 * N) :
    Rel ty H c N A B ⟨.error e, k⟩ (.error e) where
  val := rfl
  ok _ h := nomatch h
  err _ _ := ⟨hc, hm, hb⟩

/-- a call that is not counted -/
theorem free {m : R β} {f : β → Charged α} {g : β → R α} (hA : A ≤ N) (hB : B ≤ 5 * N)
    (h : ∀ a, m = .ok a → Rel ty H c N A B (f a) (g a)) : Rel ty H c N A B (free m >>= f) (m >>= g) := by
  cases m with
  | error e =>
    rw [bind_err (e := e) rfl]
    exact fail (Nat.mul_le_mul_left c hA) rfl hB
  | ok a =>
    have h := h a rfl
    rw [bind_ok (a := a) rfl]
    refine ⟨h.val, fun p hp => ?_, fun e he => ?_⟩
    · have := h.ok p hp
      simp only [Cost.add, Cost.free, Nat.zero_add]; exact this
    · have := h.err e he
      simp only [Cost.add, Cost.free, Nat.zero_add]; exact this

theorem start {a : β} {f : β → Charged α} {g : β → R α} (h : Rel ty H c N A B (f a) (g a)) :
    Rel ty H c N A B (pure a >>= f) (pure a >>= g) := by
  rw [bind_ok (a := a) rfl]
  refine ⟨h.val, fun p hp => ?_, fun e he => ?_⟩
  · have := h.ok p hp
    simp only [Cost.add, pure, Nat.zero_add]; exact this
  · have := h.err e he
    simp only [Cost.add, pure, Nat.zero_add]; exact this

/-- a getter -/
theorem get {m : R β} {w : Nat} {f : β → Charged α} {g : β → R α} (hA : A ≤ N) (hB : B + w ≤ 5 * N)
    (h : ∀ a, m = .ok a → Rel ty H c N A (B + w) (f a) (g a)) :
    Rel ty H c N A B ((⟨m, { bits := w }⟩ : Charged β) >>= f) (m >>= g) := by
  cases m with
  | error e =>
    rw [bind_err (e := e) rfl]
    exact fail (Nat.mul_le_mul_left c hA) rfl hB
  | ok a =>
    have h := h a rfl
    rw [bind_ok (a := a) rfl]
    refine ⟨h.val, fun p hp => ?_, fun e he => ?_⟩
    · have := h.ok p hp
      simp only [Cost.add, Nat.zero_add]
      exact ⟨this.1, this.2.1, by rw [← this.2.2.1, Nat.add_assoc], this.2.2.2⟩
    · have := h.err e he
      simp only [Cost.add, Nat.zero_add]
      exact ⟨this.1, this.2.1, by rw [← Nat.add_assoc]; exact this.2.2⟩

/-- a copy of part of the input -/
theorem copy {arr : Bytes} {a b : Nat} {f : Bytes → Charged α} {g : Bytes → R α} (hA : A ≤ N) (hB : B ≤ 5 * N)
    (h : ∀ s, a ≤ b → b ≤ arr.length → Rel ty H 1 N (A + (b - a)) B (f s) (g s)) :
    Rel ty H 1 N A B (copySlice arr a b >>= f) (slice arr a b >>= g) := by
  cases hs : slice arr a b with
  | error e =>
    rw [copySlice_err hs, bind_err (e := e) rfl]
    exact fail (by simpa using hA) rfl hB
  | ok s =>
    obtain ⟨hc, h1, h2⟩ := copySlice_ok hs
    have h := h s h1 h2
    rw [hc, bind_ok (a := s) rfl]
    refine ⟨h.val, fun p hp => ?_, fun e he => ?_⟩
    · have := h.ok p hp
      simp only [Cost.add, Nat.zero_add]
      exact ⟨by omega, this.2⟩
    · have := h.err e he
      simp only [Cost.add, Nat.zero_add]
      exact ⟨by omega, this.2⟩

/-- the call for the rest of the input, after which `D` bytes are copied and the headers are inserted -/
theorem inner {x : Charged α} {y : R α} {n D : Nat} {k : α → Charged α} {q : α → R α} {H' : Option HeaderDef → Prop}
    (h : Rel ty H' c n 0 0 x y) (hn : A + n ≤ N) (hD : c * (A + n) + D = c * N) (hB : B ≤ 5 * A)
    (hk : ∀ p, H' (ty p).head? → ∃ p', k p = ⟨.ok p', { copied := D, moved := (k p).cost.moved }⟩ ∧ q p = .ok p' ∧
      tri (ty p).length + (k p).cost.moved = tri (ty p').length ∧ B + lookedAll (ty p) = lookedAll (ty p') ∧ H (ty p').head?) :
    Rel ty H c N A B (x >>= k) (y >>= q) := by
  rw [Nat.mul_add] at hD
  cases hy : y with
  | error e =>
    have h1 := h.val
    have h2 := h.err e hy
    rw [hy] at h1
    rw [bind_err h1]
    exact fail (by omega) h2.2.1 (by omega)
  | ok p =>
    have h1 := h.val
    have h2 := h.ok p hy
    rw [hy] at h1
    obtain ⟨p', e1, e2, e3, e4, e5⟩ := hk p h2.2.2.2
    rw [bind_ok h1]
    have ev : (k p).val = .ok p' := by rw [e1]
    have ec : (k p).cost.copied = D := by rw [e1]
    have eb : (k p).cost.bits = 0 := by rw [e1]
    have eq' : ((.ok p : R α) >>= q) = .ok p' := e2
    rw [eq']
    refine ⟨ev, fun r hr => ?_, fun e he => nomatch he⟩
    have : p' = r := by injection hr
    subst this
    simp only [Cost.add]
    exact ⟨by omega, by omega, by omega, e5⟩

end Rel

/-- for the headers of a packet -/
def tys (p : Packet) : List HeaderDef := p.hdrs.map (·.ty)

/-- what follows a header of the type does not matter -/
theorem looked_eq {T : HeaderDef} (h : T ≠ MPLS) (a b : Option HeaderDef) : looked T a = looked T b := by
  unfold looked
  simp only [h, if_false]

theorem looked_opts (t : Option HeaderDef) : looked GREChksumOffset t = 0 ∧ looked GREKey t = 0 ∧ looked GRESequenceNum t = 0 ∧
    looked ERSPANPLATFORM t = 0 := ⟨rfl, rfl, rfl, rfl⟩

theorem if_le {o n N : Nat} {c : Bool} (h : c = true → o + n ≤ N) (h0 : o ≤ N) : o + (if c then n else 0) ≤ N := by
  split
  · exact h ‹_›
  · exact h0

namespace Slow

abbrev SRel (H : Option HeaderDef → Prop) (arr : Bytes) := Rel tys H 1 arr.length 0 0

theorem accept_rel (arr : Bytes) : SRel (fun t => t ≠ some MPLS) arr (accept arr) (pure (PacketRs.Slow.accept arr)) := by
  refine ⟨rfl, fun p hp => ?_, fun e he => nomatch he⟩
  have : PacketRs.Slow.accept arr = p := by injection hp
  subst this
  refine ⟨?_, rfl, rfl, by simp [tys, PacketRs.Slow.accept, Packet.set_payload, Packet.new]⟩
  show 1 * 0 + (arr.length + 0) = 1 * arr.length
  omega

/-- one header inserted -/
theorem insert_step {H' : Option HeaderDef → Prop} {B : Nat} (h : Hdr) (hB : ∀ t, H' t → looked h.ty t = B)
    (p : Packet) (hp : H' (tys p).head?) :
    ∃ p', insert p h = ⟨.ok p', { copied := 0, moved := (insert p h).cost.moved }⟩ ∧ (pure (p.insert h) : R Packet) = .ok p' ∧
      tri (tys p).length + (insert p h).cost.moved = tri (tys p').length ∧ B + lookedAll (tys p) = lookedAll (tys p') ∧
      (tys p').head? = some h.ty :=
  ⟨p.insert h, rfl, rfl, by simp [insert, tys, Packet.insert, tri], by
    show _ = looked h.ty (tys p).head? + lookedAll (tys p)
    rw [hB _ hp], rfl⟩

/-- the header is copied after the call for the rest -/
theorem late {H' H : Option HeaderDef → Prop} {arr : Bytes} {x : Charged Packet} {y : R Packet} (T : HeaderDef) (hT : T.size ≤ arr.length)
    (hH : H (some T)) (hl : ∀ t, looked T t = 0)
    (h : SRel H' (arr.drop T.size) x y) :
    SRel H arr (do let pkt ← x; insert pkt (T.ofVec (← copySlice arr 0 T.size)))
      (do let pkt ← y; pure (pkt.insert (T.ofVec (← slice arr 0 T.size)))) := by
  have hs : slice arr 0 T.size = .ok ((arr.drop 0).take (T.size - 0)) := by unfold slice; rw [if_pos ⟨by omega, hT⟩]
  have hc := (copySlice_ok hs).1
  refine Rel.inner (D := T.size) h (by rw [List.length_drop]; omega) (by rw [List.length_drop]; omega) (by omega) fun p _ => ?_
  rw [hc, hs, bind_ok (a := (arr.drop 0).take (T.size - 0)) rfl]
  obtain ⟨p', h1, h2, h3, h4, h5⟩ := insert_step (H' := fun _ => True) (B := 0) (T.ofVec ((arr.drop 0).take (T.size - 0)))
    (fun t _ => hl t) p trivial
  refine ⟨p', ?_, h2, ?_, h4, by rw [h5]; exact hH⟩
  · rw [h1]; rfl
  · simp only [Cost.add, Nat.zero_add]; exact h3

theorem arp_rel (arr : Bytes) : SRel (fun t => t = some ARP) arr (parse_arp arr) (PacketRs.Slow.parse_arp arr) := by
  unfold parse_arp PacketRs.Slow.parse_arp
  refine Rel.free (by omega) (by omega) fun rest _ => ?_
  rw [rest.2.1]
  exact late (H := fun t => t = some ARP) ARP rest.2.2 rfl (fun _ => rfl) (accept_rel _)

theorem icmp_rel (arr : Bytes) : SRel (fun t => t = some ICMP) arr (parse_icmp arr) (PacketRs.Slow.parse_icmp arr) := by
  unfold parse_icmp PacketRs.Slow.parse_icmp
  refine Rel.free (by omega) (by omega) fun rest _ => ?_
  rw [rest.2.1]
  exact late (H := fun t => t = some ICMP) ICMP rest.2.2 rfl (fun _ => rfl) (accept_rel _)

theorem tcp_rel (arr : Bytes) : SRel (fun t => t = some TCP) arr (parse_tcp arr) (PacketRs.Slow.parse_tcp arr) := by
  unfold parse_tcp PacketRs.Slow.parse_tcp
  refine Rel.free (by omega) (by omega) fun rest _ => ?_
  rw [rest.2.1]
  exact late (H := fun t => t = some TCP) TCP rest.2.2 rfl (fun _ => rfl) (accept_rel _)

/-- the header has been copied and looked at -/
theorem early {H' : Option HeaderDef → Prop} {arr : Bytes} {x : Charged Packet} {y : R Packet} {A B n : Nat} (h : Hdr)
    (hx : Rel tys H' 1 n 0 0 x y) (hn : A + n = arr.length) (hB : B ≤ 5 * A) (hl : ∀ t, H' t → looked h.ty t = B) :
    Rel tys (fun t => t = some h.ty) 1 arr.length A B (do let pkt ← x; insert pkt h) (do let pkt ← y; pure (pkt.insert h)) :=
  Rel.inner (D := 0) hx (by omega) (by omega) hB (insert_step h hl)

theorem snap_rel (arr : Bytes) : SRel (fun t => t = some SNAP) arr (parse_snap arr) (PacketRs.Slow.parse_snap arr) := by
  unfold parse_snap PacketRs.Slow.parse_snap
  refine Rel.copy (by omega) (by omega) fun s _ hs => ?_
  refine Rel.free (by omega) (by omega) fun rest _ => ?_
  have hr : rest.1.length = arr.length - SNAP.size := by rw [rest.2.1, List.length_drop]
  exact early (SNAP.ofVec s) (accept_rel _) (by omega) (by omega) (fun _ _ => rfl)

theorem llc_rel (arr : Bytes) : SRel (fun t => t = some LLC) arr (parse_llc arr) (PacketRs.Slow.parse_llc arr) := by
  unfold parse_llc PacketRs.Slow.parse_llc
  refine Rel.copy (by omega) (by omega) fun s _ hs => ?_
  have key : ∀ v : Bool, Rel tys (fun t => t = some LLC) 1 arr.length (0 + (LLC.size - 0)) 0
      (do let rest ← free <| sliceFrom arr LLC.size
          if v then do
            let pkt ← parse_snap rest.1
            insert pkt (LLC.ofVec s)
          else do
            let pkt ← accept rest.1
            insert pkt (LLC.ofVec s))
      (do let rest ← sliceFrom arr LLC.size
          if v then do
            let pkt ← PacketRs.Slow.parse_snap rest.1
            pure (pkt.insert (LLC.ofVec s))
          else do
            let pkt ← pure (PacketRs.Slow.accept rest.1)
            pure (pkt.insert (LLC.ofVec s))) := by
    intro v
    refine Rel.free (by omega) (by omega) fun rest _ => ?_
    have hr : rest.1.length = arr.length - LLC.size := by rw [rest.2.1, List.length_drop]
    cases v
    · exact early (LLC.ofVec s) (accept_rel _) (by omega) (by omega) (fun _ _ => rfl)
    · exact early (LLC.ofVec s) (snap_rel _) (by omega) (by omega) (fun _ _ => rfl)
  refine Rel.free (by omega) (by omega) fun x _ => ?_
  dsimp only
  split
  · exact .start (key false)
  · refine Rel.free (by omega) (by omega) fun y _ => ?_
    split
    · exact .start (key false)
    · exact Rel.free (by omega) (by omega) fun z _ => .start (key _)

theorem dot3_rel (arr : Bytes) : SRel (fun t => t = some Dot3) arr (parse_dot3 arr) (PacketRs.Slow.parse_dot3 arr) := by
  unfold parse_dot3 PacketRs.Slow.parse_dot3
  refine Rel.copy (by omega) (by omega) fun s _ hs => ?_
  refine Rel.free (by omega) (by omega) fun rest _ => ?_
  have hr : rest.1.length = arr.length - Dot3.size := by rw [rest.2.1, List.length_drop]
  exact early (Dot3.ofVec s) (llc_rel _) (by omega) (by omega) (fun _ _ => rfl)

/-- an optional header -/
theorem opt {H : Option HeaderDef → Prop} {N A B : Nat} {T : HeaderDef} {w : U64} {arr : Bytes} {o : Nat}
    {f : Option Hdr → Charged Packet} {g : Option Hdr → R Packet} (hA : A ≤ N) (hB : B ≤ 5 * N)
    (h : ∀ r : Option Hdr, (r.isSome → o + T.size ≤ arr.length) → (∀ h ∈ r, h.ty = T) →
      optOffset T w o = o + (if r.isSome then T.size else 0) →
      Rel tys H 1 N (A + if r.isSome then T.size else 0) B (f r) (g r)) :
    Rel tys H 1 N A B (optHdr T w arr o >>= f) (PacketRs.Slow.optHdr T w arr o >>= g) := by
  unfold optHdr PacketRs.Slow.optHdr
  unfold optOffset at h
  split
  · rename_i hw
    have e1 : (do let b ← copySlice arr o (o + T.size); pure (some (T.ofVec b))) >>= f =
        copySlice arr o (o + T.size) >>= fun b => f (some (T.ofVec b)) := by
      cases hs : slice arr o (o + T.size) with
      | error e => rw [copySlice_err hs]; rfl
      | ok b =>
        rw [(copySlice_ok hs).1]
        rw [bind_ok (m := ⟨.ok b, _⟩) (a := b) rfl, bind_ok (m := ⟨.ok b, _⟩) (a := b) rfl]
        rw [bind_ok (a := some (T.ofVec b)) rfl]
        rfl
    have e2 : (do let b ← slice arr o (o + T.size); pure (some (T.ofVec b))) >>= g =
        slice arr o (o + T.size) >>= fun b => g (some (T.ofVec b)) := by
      cases slice arr o (o + T.size) <;> rfl
    rw [e1, e2]
    refine Rel.copy hA hB fun s _ hs => ?_
    have := h (some (T.ofVec s)) (fun _ => hs) (fun x hx => by cases hx; rfl) (by rw [if_pos hw]; rfl)
    rw [show o + T.size - o = T.size by omega]
    exact this
  · rename_i hw
    have := h none (fun h => nomatch h) (fun x hx => nomatch hx) (by rw [if_neg hw]; rfl)
    have e1 : (pure none : Charged (Option Hdr)) >>= f = ⟨(f none).val, (f none).cost⟩ := by
      rw [bind_ok (a := none) rfl]
      simp [Cost.add, pure]
    rw [e1]
    exact this

/-- `k` inserts headers of the types `hs`; `g` is the same not counted -/
structure Ins (k : Packet → Charged Packet) (g : Packet → Packet) (hs : List HeaderDef) : Prop where
  val : ∀ p, k p = ⟨.ok (g p), { moved := (k p).cost.moved }⟩
  moved : ∀ p, tri (tys p).length + (k p).cost.moved = tri (tys (g p)).length
  types : ∀ p, tys (g p) = hs ++ tys p

theorem Ins.one (h : Hdr) : Ins (fun p => insert p h) (fun p => p.insert h) [h.ty] :=
  ⟨fun _ => rfl, fun p => by simp [insert, tys, Packet.insert, tri], fun _ => rfl⟩

theorem Ins.opt {T : HeaderDef} (r : Option Hdr) (hr : ∀ h ∈ r, h.ty = T) :
    Ins (fun p => insertOpt p r) (fun p => PacketRs.Slow.insertOpt p r) (if r.isSome then [T] else []) := by
  cases r with
  | none => exact ⟨fun _ => rfl, fun p => rfl, fun _ => rfl⟩
  | some h =>
    have := hr h rfl
    subst this
    exact Ins.one h

theorem Ins.comp {k1 k2 : Packet → Charged Packet} {g1 g2 : Packet → Packet} {h1 h2 : List HeaderDef} (i1 : Ins k1 g1 h1) (i2 : Ins k2 g2 h2) :
    Ins (fun p => k1 p >>= k2) (fun p => g2 (g1 p)) (h2 ++ h1) := by
  have e : ∀ p, (k1 p >>= k2) = ⟨.ok (g2 (g1 p)), { moved := (k1 p).cost.moved + (k2 (g1 p)).cost.moved }⟩ := by
    intro p
    rw [i1.val p, bind_ok (a := g1 p) rfl, i2.val (g1 p)]
    simp [Cost.add]
  refine ⟨fun p => ?_, fun p => ?_, fun p => ?_⟩
  · rw [e p]
  · have m1 := i1.moved p
    have m2 := i2.moved (g1 p)
    rw [e p]
    dsimp only
    omega
  · rw [i2.types, i1.types, List.append_assoc]

/-- the headers have been copied and looked at -/
theorem Ins.use {H' : Option HeaderDef → Prop} {N : Nat} {x : Charged Packet} {y : R Packet} {A B n : Nat} {T : HeaderDef}
    {k : Packet → Charged Packet} {g : Packet → Packet} {hs : List HeaderDef} (i : Ins k g hs) (hx : Rel tys H' 1 n 0 0 x y)
    (hn : A + n = N) (hB : B ≤ 5 * A) (hl : ∀ r, B + lookedAll r = lookedAll (hs ++ r)) (hT : hs.head? = some T) :
    Rel tys (fun t => t = some T) 1 N A B (x >>= k) (y >>= fun p => pure (g p)) := by
  refine Rel.inner (D := 0) hx (by omega) (by omega) hB fun p _ => ⟨g p, i.val p, rfl, i.moved p, ?_, ?_⟩
  · rw [i.types, hl]
  · rw [i.types, List.head?_append, hT]; rfl

mutual

theorem ether_rel (chk : Bool) (arr : Bytes) :
    SRel (fun t => t = some Ether) arr (parse_ethernet chk arr) (PacketRs.Slow.parse_ethernet chk arr) := by
  rw [parse_ethernet, PacketRs.Slow.parse_ethernet]
  refine Rel.copy (by omega) (by omega) fun s _ hs => ?_
  refine Rel.get (w := Ether.etype.width) (by omega) (by simp only [Ether, Ether.etype, Field.width] at *; omega) fun v_etype _ => ?_
  refine Rel.free (by omega) (by simp only [Ether, Ether.etype, Field.width] at *; omega) fun rest _ => ?_
  have hr : rest.1.length = arr.length - Ether.size := by rw [rest.2.1, List.length_drop]
  have hlt : rest.1.length < arr.length := by simp only [Ether] at *; omega
  have key : ∀ {H' : Option HeaderDef → Prop} {x : Charged Packet} {y : R Packet}, SRel H' rest.1 x y →
      Rel tys (fun t => t = some Ether) 1 arr.length (0 + (Ether.size - 0)) (0 + Ether.etype.width)
        (do let pkt ← x; insert pkt (Ether.ofVec s)) (do let pkt ← y; pure (pkt.insert (Ether.ofVec s))) := fun h =>
    early (Ether.ofVec s) h (by omega) (by decide) (fun _ _ => rfl)
  dsimp only
  generalize EtherType.try_from (BitVec.setWidth 16 v_etype) = t
  rcases t with _ | t
  · exact key (accept_rel _)
  cases t <;> first | exact key (accept_rel _) | exact key (vlan_rel chk _) | exact key (arp_rel _) | exact key (ipv4_rel chk _) | exact key (ipv6_rel chk _) | exact key (mpls_rel chk _)
termination_by arr.length

theorem vlan_rel (chk : Bool) (arr : Bytes) :
    SRel (fun t => t = some Vlan) arr (parse_vlan chk arr) (PacketRs.Slow.parse_vlan chk arr) := by
  rw [parse_vlan, PacketRs.Slow.parse_vlan]
  refine Rel.copy (by omega) (by omega) fun s _ hs => ?_
  refine Rel.get (w := Vlan.etype.width) (by omega) (by simp only [Vlan, Vlan.etype, Field.width] at *; omega) fun v_etype _ => ?_
  refine Rel.free (by omega) (by simp only [Vlan, Vlan.etype, Field.width] at *; omega) fun rest _ => ?_
  have hr : rest.1.length = arr.length - Vlan.size := by rw [rest.2.1, List.length_drop]
  have hlt : rest.1.length < arr.length := by simp only [Vlan] at *; omega
  have key : ∀ {H' : Option HeaderDef → Prop} {x : Charged Packet} {y : R Packet}, SRel H' rest.1 x y →
      Rel tys (fun t => t = some Vlan) 1 arr.length (0 + (Vlan.size - 0)) (0 + Vlan.etype.width)
        (do let pkt ← x; insert pkt (Vlan.ofVec s)) (do let pkt ← y; pure (pkt.insert (Vlan.ofVec s))) := fun h =>
    early (Vlan.ofVec s) h (by omega) (by decide) (fun _ _ => rfl)
  dsimp only
  generalize EtherType.try_from (BitVec.setWidth 16 v_etype) = t
  rcases t with _ | t
  · exact key (accept_rel _)
  cases t <;> first | exact key (accept_rel _) | exact key (vlan_rel chk _) | exact key (arp_rel _) | exact key (ipv4_rel chk _) | exact key (ipv6_rel chk _) | exact key (mpls_rel chk _)
termination_by arr.length

theorem ipv4_rel (chk : Bool) (arr : Bytes) :
    SRel (fun t => t = some IPv4) arr (parse_ipv4 chk arr) (PacketRs.Slow.parse_ipv4 chk arr) := by
  rw [parse_ipv4, PacketRs.Slow.parse_ipv4]
  refine Rel.copy (by omega) (by omega) fun s _ hs => ?_
  refine Rel.get (w := IPv4.protocol.width) (by omega) (by simp only [IPv4, IPv4.protocol, Field.width] at *; omega) fun v_protocol _ => ?_
  refine Rel.free (by omega) (by simp only [IPv4, IPv4.protocol, Field.width] at *; omega) fun rest _ => ?_
  have hr : rest.1.length = arr.length - IPv4.size := by rw [rest.2.1, List.length_drop]
  have hlt : rest.1.length < arr.length := by simp only [IPv4] at *; omega
  have key : ∀ {H' : Option HeaderDef → Prop} {x : Charged Packet} {y : R Packet}, SRel H' rest.1 x y →
      Rel tys (fun t => t = some IPv4) 1 arr.length (0 + (IPv4.size - 0)) (0 + IPv4.protocol.width)
        (do let pkt ← x; insert pkt (IPv4.ofVec s)) (do let pkt ← y; pure (pkt.insert (IPv4.ofVec s))) := fun h =>
    early (IPv4.ofVec s) h (by omega) (by decide) (fun _ _ => rfl)
  dsimp only
  generalize IpProtocol.try_from (BitVec.setWidth 8 v_protocol) = t
  rcases t with _ | t
  · exact key (accept_rel _)
  cases t <;> first | exact key (accept_rel _) | exact key (icmp_rel _) | exact key (ipv4_rel chk _) | exact key (tcp_rel _) | exact key (udp_rel chk _) | exact key (ipv6_rel chk _) | exact key (gre_rel chk _)
termination_by arr.length

theorem ipv6_rel (chk : Bool) (arr : Bytes) :
    SRel (fun t => t = some IPv6) arr (parse_ipv6 chk arr) (PacketRs.Slow.parse_ipv6 chk arr) := by
  rw [parse_ipv6, PacketRs.Slow.parse_ipv6]
  refine Rel.copy (by omega) (by omega) fun s _ hs => ?_
  refine Rel.get (w := IPv6.next_hdr.width) (by omega) (by simp only [IPv6, IPv6.next_hdr, Field.width] at *; omega) fun v_next_hdr _ => ?_
  refine Rel.free (by omega) (by simp only [IPv6, IPv6.next_hdr, Field.width] at *; omega) fun rest _ => ?_
  have hr : rest.1.length = arr.length - IPv6.size := by rw [rest.2.1, List.length_drop]
  have hlt : rest.1.length < arr.length := by simp only [IPv6] at *; omega
  have key : ∀ {H' : Option HeaderDef → Prop} {x : Charged Packet} {y : R Packet}, SRel H' rest.1 x y →
      Rel tys (fun t => t = some IPv6) 1 arr.length (0 + (IPv6.size - 0)) (0 + IPv6.next_hdr.width)
        (do let pkt ← x; insert pkt (IPv6.ofVec s)) (do let pkt ← y; pure (pkt.insert (IPv6.ofVec s))) := fun h =>
    early (IPv6.ofVec s) h (by omega) (by decide) (fun _ _ => rfl)
  dsimp only
  generalize IpProtocol.try_from (BitVec.setWidth 8 v_next_hdr) = t
  rcases t with _ | t
  · exact key (accept_rel _)
  cases t <;> first | exact key (accept_rel _) | exact key (icmp_rel _) | exact key (ipv4_rel chk _) | exact key (tcp_rel _) | exact key (udp_rel chk _) | exact key (ipv6_rel chk _) | exact key (gre_rel chk _)
termination_by arr.length

theorem mpls_rel (chk : Bool) (arr : Bytes) :
    SRel (fun t => t = some MPLS) arr (parse_mpls chk arr) (PacketRs.Slow.parse_mpls chk arr) := by
  rw [parse_mpls, PacketRs.Slow.parse_mpls]
  refine Rel.copy (by omega) (by omega) fun s _ hs => ?_
  refine Rel.get (w := MPLS.bos.width) (by omega) (by simp only [MPLS, MPLS.bos, Field.width] at *; omega) fun v_bos _ => ?_
  refine Rel.free (by omega) (by simp only [MPLS, MPLS.bos, Field.width] at *; omega) fun rest _ => ?_
  have hr : rest.1.length = arr.length - MPLS.size := by rw [rest.2.1, List.length_drop]
  have hlt : rest.1.length < arr.length := by simp only [MPLS] at *; omega
  have key : ∀ {x : Charged Packet} {y : R Packet}, SRel (fun t => t = some MPLS) rest.1 x y →
      Rel tys (fun t => t = some MPLS) 1 arr.length (0 + (MPLS.size - 0)) (0 + MPLS.bos.width)
        (do let pkt ← x; insert pkt (MPLS.ofVec s)) (do let pkt ← y; pure (pkt.insert (MPLS.ofVec s))) := fun h =>
    early (MPLS.ofVec s) h (by omega) (by decide) (by rintro _ rfl; rfl)
  dsimp only
  split
  · exact key (mpls_bos_rel chk _)
  · exact key (mpls_rel chk _)
termination_by arr.length

theorem mpls_bos_rel (chk : Bool) (arr : Bytes) :
    SRel (fun t => t = some MPLS) arr (parse_mpls_bos chk arr) (PacketRs.Slow.parse_mpls_bos chk arr) := by
  rw [parse_mpls_bos, PacketRs.Slow.parse_mpls_bos]
  refine Rel.copy (by omega) (by omega) fun s _ hs => ?_
  refine Rel.free (by omega) (by omega) fun b _ => ?_
  refine Rel.free (by omega) (by simp only [MPLS] at *; omega) fun rest _ => ?_
  have hr : rest.1.length = arr.length - MPLS.size := by rw [rest.2.1, List.length_drop]
  have hlt : rest.1.length < arr.length := by simp only [MPLS] at *; omega
  have key : ∀ {x : Charged Packet} {y : R Packet}, SRel (fun t => t ≠ some MPLS) rest.1 x y →
      Rel tys (fun t => t = some MPLS) 1 arr.length (0 + (MPLS.size - 0)) (0)
        (do let pkt ← x; insert pkt (MPLS.ofVec s)) (do let pkt ← y; pure (pkt.insert (MPLS.ofVec s))) := fun h =>
    early (MPLS.ofVec s) h (by omega) (by decide) (fun t ht => by simp only [looked, ht, if_false]; rfl)
  dsimp only
  generalize IpType.try_from _ = t
  have ne : ∀ {T : HeaderDef}, T ≠ MPLS → ∀ t, t = some T → t ≠ some MPLS := fun h t e => by rw [e]; simpa using h
  rcases t with _ | t
  · exact key ((ether_rel chk _).mono (ne (by decide)))
  cases t <;> first
    | exact key ((ether_rel chk _).mono (ne (by decide)))
    | exact key ((ipv4_rel chk _).mono (ne (by decide)))
    | exact key ((ipv6_rel chk _).mono (ne (by decide)))
termination_by arr.length

theorem udp_rel (chk : Bool) (arr : Bytes) :
    SRel (fun t => t = some UDP) arr (parse_udp chk arr) (PacketRs.Slow.parse_udp chk arr) := by
  rw [parse_udp, PacketRs.Slow.parse_udp]
  refine Rel.copy (by omega) (by omega) fun s _ hs => ?_
  refine Rel.get (w := UDP.dst.width) (by omega) (by simp only [UDP, UDP.dst, Field.width] at *; omega) fun v_dst _ => ?_
  refine Rel.free (by omega) (by simp only [UDP, UDP.dst, Field.width] at *; omega) fun rest _ => ?_
  have hr : rest.1.length = arr.length - UDP.size := by rw [rest.2.1, List.length_drop]
  have hlt : rest.1.length < arr.length := by simp only [UDP] at *; omega
  have key : ∀ {H' : Option HeaderDef → Prop} {x : Charged Packet} {y : R Packet}, SRel H' rest.1 x y →
      Rel tys (fun t => t = some UDP) 1 arr.length (0 + (UDP.size - 0)) (0 + UDP.dst.width)
        (do let pkt ← x; insert pkt (UDP.ofVec s)) (do let pkt ← y; pure (pkt.insert (UDP.ofVec s))) := fun h =>
    early (UDP.ofVec s) h (by omega) (by decide) (fun _ _ => rfl)
  dsimp only
  split
  · exact key (vxlan_rel chk _)
  · exact key (accept_rel _)
termination_by arr.length

theorem erspan2_rel (chk : Bool) (arr : Bytes) :
    SRel (fun t => t = some ERSPAN2) arr (parse_erspan2 chk arr) (PacketRs.Slow.parse_erspan2 chk arr) := by
  rw [parse_erspan2, PacketRs.Slow.parse_erspan2]
  refine Rel.copy (by omega) (by omega) fun s _ hs => ?_
  refine Rel.free (by omega) (by simp only [ERSPAN2] at *; omega) fun rest _ => ?_
  have hr : rest.1.length = arr.length - ERSPAN2.size := by rw [rest.2.1, List.length_drop]
  have hlt : rest.1.length < arr.length := by simp only [ERSPAN2] at *; omega
  exact early (ERSPAN2.ofVec s) (ether_rel chk _) (by omega) (by decide) (fun _ _ => rfl)
termination_by arr.length

theorem vxlan_rel (chk : Bool) (arr : Bytes) :
    SRel (fun t => t = some Vxlan) arr (parse_vxlan chk arr) (PacketRs.Slow.parse_vxlan chk arr) := by
  rw [parse_vxlan, PacketRs.Slow.parse_vxlan]
  refine Rel.free (by omega) (by omega) fun rest _ => ?_
  have hr : rest.1.length = arr.length - Vxlan.size := by rw [rest.2.1, List.length_drop]
  have hlt : rest.1.length < arr.length := by have := rest.2.2; simp only [Vxlan] at *; omega
  have h := ether_rel chk rest.1
  rw [rest.2.1] at h ⊢
  exact late (H := fun t => t = some Vxlan) Vxlan rest.2.2 rfl (fun _ => rfl) h
termination_by arr.length

theorem erspan3_rel (chk : Bool) (arr : Bytes) :
    SRel (fun t => t = some ERSPAN3) arr (parse_erspan3 chk arr) (PacketRs.Slow.parse_erspan3 chk arr) := by
  rw [parse_erspan3, PacketRs.Slow.parse_erspan3]
  refine Rel.copy (by omega) (by omega) fun s _ hs => ?_
  refine Rel.get (w := ERSPAN3.o.width) (by omega) (by simp only [ERSPAN3, ERSPAN3.o, Field.width] at *; omega) fun v_o _ => ?_
  refine opt (by omega) (by simp only [ERSPAN3, ERSPAN3.o, Field.width] at *; omega) fun r hlen hty hoff => ?_
  rw [show PacketRs.Slow.optOffset = optOffset from rfl]
  generalize optOffset ERSPANPLATFORM v_o ERSPAN3.size = off at hoff ⊢
  have hle : ERSPAN3.size + (if r.isSome then ERSPANPLATFORM.size else 0) ≤ arr.length := by
    split
    · exact hlen ‹_›
    · exact hs
  refine Rel.free (by omega) (by simp only [ERSPAN3, ERSPAN3.o, Field.width] at *; omega) fun rest _ => ?_
  have hr : rest.1.length = arr.length - off := by rw [rest.2.1, List.length_drop]
  have hlt : rest.1.length < arr.length := by simp only [ERSPAN3] at *; omega
  exact Ins.use ((Ins.opt r hty).comp (Ins.one (ERSPAN3.ofVec s))) (ether_rel chk rest.1) (by omega) (by simp only [ERSPAN3, ERSPAN3.o, Field.width]; omega)
    (fun q => by cases r <;> simp [lookedAll, looked_opts] <;> rfl) rfl
termination_by arr.length

theorem gre_rel (chk : Bool) (arr : Bytes) :
    SRel (fun t => t = some GRE) arr (parse_gre chk arr) (PacketRs.Slow.parse_gre chk arr) := by
  rw [parse_gre, PacketRs.Slow.parse_gre]
  refine Rel.copy (by omega) (by omega) fun s _ hs => ?_
  refine Rel.get (w := GRE.proto.width) (by omega) (by simp only [GRE, GRE.proto, Field.width] at *; omega) fun v_proto _ => ?_
  refine Rel.get (w := GRE.chksum_present.width) (by omega) (by simp only [GRE, GRE.proto, GRE.chksum_present, GRE.seqnum_present, GRE.key_present, Field.width] at *; omega) fun v_chksum_present _ => ?_
  refine Rel.get (w := GRE.seqnum_present.width) (by omega) (by simp only [GRE, GRE.proto, GRE.chksum_present, GRE.seqnum_present, GRE.key_present, Field.width] at *; omega) fun v_seqnum_present _ => ?_
  refine Rel.get (w := GRE.key_present.width) (by omega) (by simp only [GRE, GRE.proto, GRE.chksum_present, GRE.seqnum_present, GRE.key_present, Field.width] at *; omega) fun v_key_present _ => ?_
  rw [show PacketRs.Slow.optOffset = optOffset from rfl]
  refine opt (by omega) (by simp only [GRE, GRE.proto, GRE.chksum_present, GRE.seqnum_present, GRE.key_present, Field.width] at *; omega) fun r1 hlen1 hty1 hoff1 => ?_
  have hle1 : GRE.size + (if r1.isSome then GREChksumOffset.size else 0) ≤ arr.length := by
    exact if_le hlen1 hs
  refine opt (by omega) (by simp only [GRE, GRE.proto, GRE.chksum_present, GRE.seqnum_present, GRE.key_present, Field.width] at *; omega) fun r2 hlen2 hty2 hoff2 => ?_
  have hle2 : GRE.size + (if r1.isSome then GREChksumOffset.size else 0) + (if r2.isSome then GREKey.size else 0) ≤ arr.length := by
    rw [hoff1] at hlen2; exact if_le hlen2 hle1
  refine opt (by omega) (by simp only [GRE, GRE.proto, GRE.chksum_present, GRE.seqnum_present, GRE.key_present, Field.width] at *; omega) fun r3 hlen3 hty3 hoff3 => ?_
  have hle3 : GRE.size + (if r1.isSome then GREChksumOffset.size else 0) + (if r2.isSome then GREKey.size else 0) +
      (if r3.isSome then GRESequenceNum.size else 0) ≤ arr.length := by
    rw [hoff2, hoff1] at hlen3; exact if_le hlen3 hle2
  have hoff := hoff3.trans (congrArg (· + if r3.isSome then GRESequenceNum.size else 0) (hoff2.trans (congrArg (· + if r2.isSome then GREKey.size else 0) hoff1)))
  refine Rel.free (by omega) (by simp only [GRE, GRE.proto, GRE.chksum_present, GRE.seqnum_present, GRE.key_present, Field.width] at *; omega) fun rest _ => ?_
  have hr := congrArg List.length rest.2.1
  rw [List.length_drop] at hr
  have hlt : rest.1.length < arr.length := by simp only [GRE] at *; omega
  have key : ∀ {H' : Option HeaderDef → Prop} {x : Charged Packet} {y : R Packet}, SRel H' rest.1 x y → Rel tys _ _ _ _ _ _ _ := fun h =>
    Ins.use ((Ins.opt r1 hty1).comp ((Ins.opt r2 hty2).comp ((Ins.opt r3 hty3).comp (Ins.one (GRE.ofVec s))))) h
      (N := arr.length) (T := GRE)
      (A := 0 + (GRE.size - 0) + (if r1.isSome then GREChksumOffset.size else 0) + (if r2.isSome then GREKey.size else 0) +
        (if r3.isSome then GRESequenceNum.size else 0))
      (B := 0 + GRE.proto.width + GRE.chksum_present.width + GRE.seqnum_present.width + GRE.key_present.width)
      (by omega) (by simp only [GRE, GRE.proto, GRE.chksum_present, GRE.seqnum_present, GRE.key_present, Field.width]; omega) (fun r => by cases r1 <;> cases r2 <;> cases r3 <;> simp [lookedAll, looked_opts] <;> rfl) (by rfl)
  dsimp only
  generalize EtherType.try_from _ = t
  rcases t with _ | t
  · exact key (accept_rel _)
  cases t <;> first | exact key (accept_rel _) | exact key (ipv4_rel chk _) | exact key (ipv6_rel chk _) | exact key (erspan2_rel chk _) | exact key (erspan3_rel chk _)
termination_by arr.length

end

end Slow
end Cost
end PacketRs
