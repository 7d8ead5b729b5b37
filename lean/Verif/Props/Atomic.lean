import Verif.Lemmas.Atomic
/-!
# C65: shared headers behave like arrays of atomic bits
-/
namespace PacketRs
open Spec

section
variable {α : Type} {L : Nat → Nat}

/-- C65.  What threads sharing headers can end with is exactly what threads reading and writing single bits,
reading whole vectors and copying whole vectors, each in one step, can end with. -/
theorem C65_atomic_bits (chk : Bool) (m : Store) (hm : Fresh L m) (c : Nat → Client α) (hc : ∀ t, Inside L (c t))
    (res : Nat → α) (cont : Nat → Bytes) :
    (∃ s, Sys.Reach ⟨m, fun t => (c t).prog chk⟩ s ∧ (∀ t, s.th t = .ret (res t)) ∧ ∀ r, (s.mem r).bytes = cont r) ↔
      Machine.Reach ⟨fun r => (m r).bytes, fun t => micro (c t)⟩ ⟨cont, fun t => .done (res t)⟩ := by
  have h0 : Alike L (⟨m, fun t => (c t).prog chk⟩ : Sys α) ⟨fun r => (m r).bytes, fun t => micro (c t)⟩ :=
    ⟨hm, fun _ => rfl, fun t => impl_client chk (c t) (hc t)⟩
  constructor
  · rintro ⟨s, hs, hr, hb⟩
    have hfin : s.Final := fun t => by rw [hr t]; trivial
    obtain ⟨⟨wc, wt⟩, h1, h2⟩ := h0.treach (Sys.treach_of_reach hm.free (fun t => txn_client chk (c t)) hs hfin)
    have e1 : wc = cont := funext fun r => (h2.cont r).trans (hb r)
    have e2 : wt = fun t => Micro.done (res t) := by
      funext t
      have := h2.th t
      rw [hr t] at this
      simp only at this
      generalize wt t = q at this
      cases this; rfl
    rw [e1, e2] at h1
    exact h1
  · intro h
    obtain ⟨s, h1, h2⟩ := h0.mreach h
    refine ⟨s, (Sys.reach_of_treach hm.free h1).1, fun t => ?_, fun r => (h2.cont r).symm⟩
    have := h2.th t
    simp only at this
    generalize s.th t = p at this
    cases this; rfl

/-- C65.  No thread panics, and no mutex is ever poisoned, whatever the others do. -/
theorem C65_no_panic (chk : Bool) (m : Store) (hm : Fresh L m) (c : Nat → Client α) (hc : ∀ t, Inside L (c t))
    {s : Sys α} (hs : Sys.Reach ⟨m, fun t => (c t).prog chk⟩ s) :
    (∀ t f, s.th t ≠ .panic f ∧ s.th t ≠ .died f) ∧ ∀ r, (s.mem r).poisoned = false := by
  have h0 : Alike L (⟨m, fun t => (c t).prog chk⟩ : Sys α) ⟨fun r => (m r).bytes, fun t => micro (c t)⟩ :=
    ⟨hm, fun _ => rfl, fun t => impl_client chk (c t) (hc t)⟩
  obtain ⟨a, h1, h2⟩ := Sys.TSim.reach hm.free (fun t => txn_client chk (c t)) hs
  obtain ⟨w, -, h4⟩ := h0.treach h1
  exact ⟨h4.alive h2, h4.clean h2⟩

/-- What a thread that only takes and copies whole vectors is on the machine. -/
def WholeMicro (P : Bytes → Prop) (Q : α → Prop) : Micro α → Prop
  | .done a => Q a
  | .readAll _ k => ∀ v, P v → WholeMicro P Q (k v)
  | .copy _ _ k => WholeMicro P Q k
  | _ => False

theorem whole_micro {P : Bytes → Prop} {Q : α → Prop} : (c : Client α) → Whole P Q c → WholeMicro P Q (micro c)
  | .done _, h => h
  | .toVec _ k, h => fun v hv => whole_micro (k v) (h v hv)
  | .replace _ _ k, h => whole_micro k h
  | .get .., h => h.elim
  | .set .., h => h.elim
  | .bytes .., h => h.elim
  | .setBytes .., h => h.elim

/-- C65.  `replace` is never seen half done: threads that call only `to_vec` and `replace` read nothing but
vectors that were there at the beginning, although `replace` empties its target and fills it again. -/
theorem C65_replace_whole (chk : Bool) (m : Store) (hm : Fresh L m) (c : Nat → Client α) (hc : ∀ t, Inside L (c t))
    (Q : α → Prop) (hw : ∀ t, Whole (fun v => ∃ r, v = (m r).bytes) Q (c t))
    {s : Sys α} (hs : Sys.Reach ⟨m, fun t => (c t).prog chk⟩ s) (hf : s.Final) :
    (∀ t, ∃ a, s.th t = .ret a ∧ Q a) ∧ ∀ r, ∃ r', (s.mem r).bytes = (m r').bytes := by
  have hret : ∀ t, ∃ a, s.th t = .ret a := by
    intro t
    have h1 := hf t
    cases e : s.th t with
    | ret a => exact ⟨a, rfl⟩
    | died f => exact absurd e ((C65_no_panic chk m hm c hc hs).1 t f).2
    | panic => rw [e] at h1; exact h1.elim
    | lock => rw [e] at h1; exact h1.elim
    | load => rw [e] at h1; exact h1.elim
    | store => rw [e] at h1; exact h1.elim
    | unlock => rw [e] at h1; exact h1.elim
  obtain ⟨res, hres⟩ := Classical.axiomOfChoice hret
  have hm' := (C65_atomic_bits chk m hm c hc res (fun r => (s.mem r).bytes)).1 ⟨s, hs, hres, fun _ => rfl⟩
  have inv : ∀ w, Machine.Reach ⟨fun r => (m r).bytes, fun t => micro (c t)⟩ w →
      (∀ t, WholeMicro (fun v => ∃ r, v = (m r).bytes) Q (w.th t)) ∧ ∀ r, ∃ r', w.cont r = (m r').bytes := by
    intro w hr
    induction hr with
    | refl => exact ⟨fun t => whole_micro _ (hw t), fun r => ⟨r, rfl⟩⟩
    | @step w w' t _ hs ih =>
      obtain ⟨i1, i2⟩ := ih
      have hth : ∀ q, Upd w.th t q w'.th → WholeMicro (fun v => ∃ r, v = (m r).bytes) Q q →
          ∀ u, WholeMicro (fun v => ∃ r, v = (m r).bytes) Q (w'.th u) := by
        intro q hu hq u
        by_cases hut : u = t
        · subst hut; rw [hu.1]; exact hq
        · rw [hu.2 u hut]; exact i1 u
      have hi := i1 t
      cases hs with
      | read e => rw [e] at hi; exact hi.elim
      | write e => rw [e] at hi; exact hi.elim
      | readAll e hc hu =>
        rw [e] at hi
        exact ⟨hth _ hu (hi _ (i2 _)), by rw [hc]; exact i2⟩
      | @copy r o k e hc hu =>
        rw [e] at hi
        refine ⟨hth _ hu hi, fun x => ?_⟩
        by_cases hx : x = r
        · subst hx; rw [hc.1]; exact i2 o
        · rw [hc.2 x hx]; exact i2 x
  obtain ⟨j1, j2⟩ := inv _ hm'
  exact ⟨fun t => ⟨res t, hres t, j1 t⟩, j2⟩

end

/-! ## Non-vacuity -/

/-- Vector 0 is all ones, the others are zero. -/
def atomicStore : Store := fun r => ⟨if r = 0 then [0xFF#8, 0xFF#8] else [0#8, 0#8], false, none⟩

/-- Thread 0 reads vector 0, thread 1 overwrites it with vector 1. -/
def atomicThreads : Nat → Client Bytes
  | 0 => .toVec 0 .done
  | 1 => .replace 0 1 (.done [])
  | _ => .done []

theorem atomicStore_fresh : Fresh (fun _ => 2) atomicStore := by
  intro r
  refine ⟨rfl, rfl, ?_⟩
  unfold atomicStore
  split <;> rfl

theorem atomicThreads_inside (t : Nat) : Inside (fun _ => 2) (atomicThreads t) := by
  match t with
  | 0 => exact ⟨fun _ _ => .inl trivial, fun _ => trivial⟩
  | 1 => exact ⟨by decide, rfl, fun _ _ => trivial, fun _ _ => .inl trivial, trivial⟩
  | _ + 2 => trivial

/-- The hypotheses of `C65_replace_whole` are met, with `Q` saying that thread 0 read all ones or all zeros. -/
example (t : Nat) : Whole (fun v => ∃ r, v = (atomicStore r).bytes) (fun v => v = [] ∨ v = [0xFF#8, 0xFF#8] ∨ v = [0#8, 0#8])
    (atomicThreads t) := by
  match t with
  | 0 =>
    rintro v ⟨r, rfl⟩
    unfold atomicStore
    by_cases hr : r = 0
    · rw [if_pos hr]; exact .inr (.inl rfl)
    · rw [if_neg hr]; exact .inr (.inr rfl)
  | 1 => exact .inl rfl
  | _ + 2 => exact .inl rfl

/-- Both outcomes are possible. -/
example (v : Bytes) (hv : v = [0xFF#8, 0xFF#8] ∨ v = [0#8, 0#8]) :
    ∃ s, Sys.Reach ⟨atomicStore, fun t => (atomicThreads t).prog true⟩ s ∧ s.th 0 = .ret v := by
  have h := C65_atomic_bits true atomicStore atomicStore_fresh atomicThreads atomicThreads_inside
    (fun t => if t = 0 then v else []) (fun _ => [0#8, 0#8])
  have hc : Upd (fun r => (atomicStore r).bytes) 0 [0#8, 0#8] (fun _ => [0#8, 0#8]) := by
    refine ⟨rfl, fun z hz => ?_⟩
    simp only [atomicStore, if_neg hz]
  obtain ⟨s, h1, h2, -⟩ := h.2 (by
    rcases hv with rfl | rfl
    · refine .step (w' := ⟨fun r => (atomicStore r).bytes, fun t => if t = 0 then .done [0xFF#8, 0xFF#8] else micro (atomicThreads t)⟩) 1 (.step 0 .refl
        (.readAll (r := 0) (k := .done) rfl rfl ⟨rfl, fun z hz => by simp only [if_neg hz]⟩))
        (.copy (r := 0) (o := 1) (k := .done []) rfl hc ⟨rfl, fun z hz => ?_⟩)
      match z with
      | 0 => rfl
      | 1 => exact absurd rfl hz
      | _ + 2 => rfl
    · refine .step (w' := ⟨fun _ => [0#8, 0#8], fun t => if t = 0 then micro (atomicThreads 0) else .done []⟩) 0 (.step 1 .refl
        (.copy (r := 0) (o := 1) (k := .done []) rfl hc ⟨rfl, fun z hz => ?_⟩))
        (.readAll (r := 0) (k := .done) rfl rfl ⟨rfl, fun z hz => by simp only [if_neg hz]⟩)
      match z with
      | 0 => rfl
      | 1 => exact absurd rfl hz
      | _ + 2 => rfl)
  exact ⟨s, h1, h2 0⟩

/-- A getter and a setter on the machine: three bits read, three bits written. -/
example : micro (α := U64) (.get 0 ⟨"x", 0, 2⟩ fun v => .set 1 ⟨"y", 5, 7⟩ v (.done v)) =
    .read 0 0 fun a => .read 0 1 fun b => .read 0 2 fun c =>
      let v := BitVec.ofNat 64 (4 * a.toNat + 2 * b.toNat + c.toNat)
      .write 1 7 (v.getLsbD 0) (.write 1 6 (v.getLsbD 1) (.write 1 5 (v.getLsbD 2) (.done v))) := by
  simp only [micro, readBits, writeBits, readOctets.bitsNat, List.foldl_cons, List.foldl_nil]
  congr 1; funext a; congr 1; funext b; congr 1; funext c
  have e : 2 * (2 * (2 * 0 + a.toNat) + b.toNat) + c.toNat = 4 * a.toNat + 2 * b.toNat + c.toNat := by omega
  rw [e]

end PacketRs
