import Verif.Props.Seqlock
import Verif.Spec.Again
/-!
# C131: reading a field again does not tell whether a value was ever there
-/
namespace PacketRs
open Spec

theorem bitSet_octet (d e : Byte) (i : Nat) (b : Bool) (h : ∀ j, j < 8 → netBit [e] j = if j = i then b else netBit [d] j) (hi : i < 8) :
    BitSet [d] i b [e] := by
  refine ⟨rfl, fun j => ?_⟩
  rcases Nat.lt_or_ge j 8 with hj | hj
  · exact h j hj
  · have : ∀ z : Byte, netBit [z] j = false := by
      intro z
      unfold netBit
      rw [List.getD_eq_getElem?_getD, List.getElem?_eq_none (show [z].length ≤ j / 8 by simp; omega)]
      simp
    rw [this, this, if_neg (by omega)]

/-- Headers of one octet, all zero. -/
def zeroStore : Store := fun _ => ⟨[0x00#8], false, none⟩

section
variable {α : Type}

/-- The machine with a writer, a reader, and this octet in header 0. -/
def duo (z : α) (d : Byte) (a b : Micro α) : Machine α :=
  ⟨fun r => if r = 0 then [d] else [0x00#8], fun t => if t = 0 then a else if t = 1 then b else .done z⟩

theorem duo_write (z : α) (d e : Byte) (i : Nat) (v : Bool) (a b : Micro α) (h : ∀ j, j < 8 → netBit [e] j = if j = i then v else netBit [d] j)
    (hi : i < 8) : Machine.Step 0 (duo z d (.write 0 i v a) b) (duo z e a b) :=
  .write (e := [e]) rfl (bitSet_octet d e i v h hi) ⟨rfl, fun z hz => by simp only [duo, if_neg hz]⟩ ⟨rfl, fun z hz => by simp only [duo, if_neg hz]⟩

theorem duo_read (z : α) (d : Byte) (i : Nat) (v : Bool) (a : Micro α) (k : Bool → Micro α) (h : netBit [d] i = v) :
    Machine.Step 1 (duo z d a (.read 0 i k)) (duo z d a (k v)) :=
  .read (r := 0) (i := i) (k := k) rfl rfl ⟨by subst h; rfl, fun z hz => by simp only [duo, if_neg hz]⟩

/-- A value that was never set is read, and the field is as before. -/
theorem duo_round (z : α) (n : Nat) (k : U64 → Client α) :
    Machine.Reach (duo z 0x00#8 (micro (flips 0 lowPair 3#64 z (n + 1))) (micro (.get 0 lowPair k)))
      (duo z 0x00#8 (micro (flips 0 lowPair 3#64 z n)) (micro (k 1#64))) := by
  let A0 := micro (flips 0 lowPair 3#64 z n)
  let A1 : Micro α := .write 0 6 false A0
  let A2 : Micro α := .write 0 7 false A1
  let A3 : Micro α := .write 0 6 true A2
  have eA : micro (flips 0 lowPair 3#64 z (n + 1)) = .write 0 7 true A3 := rfl
  let K : Bool → Bool → Micro α := fun b b' => micro (k (BitVec.ofNat 64 (readOctets.bitsNat [b, b'])))
  have eB : micro (.get 0 lowPair k) = .read 0 6 fun b => .read 0 7 fun b' => K b b' := rfl
  rw [eA, eB]
  refine .step 0 (.step 0 (.step 0 (.step 1 (.step 0 (.step 1 .refl (duo_read z 0x00#8 6 false _ _ (by decide)))
    (duo_write z 0x00#8 0x01#8 7 true A3 _ (by decide) (by decide))) (duo_read z 0x01#8 7 true _ _ (by decide)))
    (duo_write z 0x01#8 0x03#8 6 true A2 _ (by decide) (by decide))) (duo_write z 0x03#8 0x02#8 7 false A1 _ (by decide) (by decide))) ?_
  exact duo_write z 0x02#8 0x00#8 6 false A0 _ (by decide) (by decide)

theorem duo_rounds (z : α) : ∀ c : Client α, OnlyReads 0 lowPair c → ∃ n a, ReturnsOn 1#64 c a ∧
    Machine.Reach (duo z 0x00#8 (micro (flips 0 lowPair 3#64 z n)) (micro c)) (duo z 0x00#8 (.done z) (.done a))
  | .done a, _ => ⟨0, a, .done a, .refl⟩
  | .get r f k, ⟨hr, hf, hk⟩ => by
    subst hr hf
    obtain ⟨n, a, h1, h2⟩ := duo_rounds z (k 1#64) (hk _)
    exact ⟨n + 1, a, .get h1, (duo_round z n k).append h2⟩
  | .set .., h => h.elim
  | .bytes .., h => h.elim
  | .setBytes .., h => h.elim
  | .toVec .., h => h.elim
  | .replace .., h => h.elim

theorem onlyReads_inside {r : Nat} {f : Field} {L : Nat → Nat} (hf : f.lo ≤ f.hi) (hhi : f.hi < 8 * L r) (h64 : f.hi - f.lo < 64) :
    ∀ c : Client α, OnlyReads r f c → Inside L c
  | .done _, _ => trivial
  | .get _ _ k, ⟨hr, he, hk⟩ => by
    subst hr he
    exact ⟨hf, hhi, h64, fun _ _ _ => .inl trivial, fun v => onlyReads_inside hf hhi h64 (k v) (hk v)⟩
  | .set .., h => h.elim
  | .bytes .., h => h.elim
  | .setBytes .., h => h.elim
  | .toVec .., h => h.elim
  | .replace .., h => h.elim

/-- C131.  A field of two bits holds 0 and is set to 3 and to 0 by turns.  A thread that reads the field, however often and whatever it
makes of what it reads, can read 1 every time, which nobody set: it can return what it returns if the field always holds 1. -/
theorem C131_never_set (chk : Bool) (z : α) (c : Client α) (hc : OnlyReads 0 lowPair c) :
    ∃ n a s, ReturnsOn 1#64 c a ∧ Sys.Reach ⟨zeroStore, fun t => (writerReader z (flips 0 lowPair 3#64 z n) c t).prog chk⟩ s ∧ s.Final ∧
      s.th 1 = .ret a := by
  obtain ⟨n, a, ha, h⟩ := duo_rounds z c hc
  have hw : ∀ n, Inside (fun _ => 1) (flips 0 lowPair 3#64 z n) := by
    intro n
    induction n with
    | zero => trivial
    | succ n ih => exact ⟨by decide, by decide, fun _ _ _ => trivial, by decide, by decide, fun _ _ _ => trivial, ih⟩
  have hin : ∀ t, Inside (fun _ => 1) (writerReader z (flips 0 lowPair 3#64 z n) c t) := by
    intro t
    match t with
    | 0 => exact hw n
    | 1 => exact onlyReads_inside (by decide) (by decide) (by decide) c hc
    | _ + 2 => trivial
  have e1 : duo z 0x00#8 (micro (flips 0 lowPair 3#64 z n)) (micro c) =
      ⟨fun r => (zeroStore r).bytes, fun t => micro (writerReader z (flips 0 lowPair 3#64 z n) c t)⟩ := by
    unfold duo
    congr 1
    · funext r; split <;> rfl
    · funext t
      match t with
      | 0 => rfl
      | 1 => rfl
      | t + 2 => rfl
  have e2 : duo z 0x00#8 (.done z) (.done a) = ⟨fun _ => [0x00#8], fun t => .done (if t = 1 then a else z)⟩ := by
    unfold duo
    congr 1
    · funext r; split <;> rfl
    · funext t
      match t with
      | 0 => rfl
      | 1 => rfl
      | t + 2 => rfl
  rw [e1, e2] at h
  obtain ⟨s, h1, h2, -⟩ := (C65_atomic_bits (L := fun _ => 1) chk zeroStore (fun _ => ⟨rfl, rfl, rfl⟩) _ hin _ _).2 h
  exact ⟨n, a, s, ha, h1, fun t => by rw [h2 t]; trivial, h2 1⟩

end

/-! ## Non-vacuity -/

/-- Read the field up to three times until the same value is read twice in a row. -/
def readStable : Client (Option U64) :=
  .get 0 lowPair fun a => .get 0 lowPair fun b => if a = b then .done (some a) else
    .get 0 lowPair fun c => if b = c then .done (some b) else .done none

-- it can be sure of a value nobody set
example : ∃ n s, Sys.Reach ⟨zeroStore, fun t => (writerReader none (flips 0 lowPair 3#64 none n) readStable t).prog true⟩ s ∧ s.Final ∧
    s.th 1 = .ret (some 1#64) := by
  have hp : OnlyReads 0 lowPair readStable := by
    refine ⟨rfl, rfl, fun a => ⟨rfl, rfl, fun b => ?_⟩⟩
    dsimp only
    split
    · trivial
    · refine ⟨rfl, rfl, fun c => ?_⟩
      dsimp only
      split <;> trivial
  obtain ⟨n, a, s, h1, h2, h3, h4⟩ := C131_never_set true none readStable hp
  have : a = some 1#64 := by
    cases h1 with
    | get h1 => cases h1 with
      | get h1 =>
        simp only [if_true] at h1
        cases h1; rfl
  rw [this] at h4
  exact ⟨n, s, h2, h3, h4⟩

end PacketRs
