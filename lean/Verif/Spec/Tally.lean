import Verif.Spec.Atomic
/-!
# Specification: a counter in a field
-/
namespace PacketRs.Spec

/-- Set the field to each of these values in turn. -/
def setEach (r : Nat) (f : Field) : List U64 → Client U64
  | [] => .done 0#64
  | v :: l => .set r f v (setEach r f l)

/-- Thread 0 sets the field to each of these values, and `n` other threads read it, each once. -/
def tallyThreads (r : Nat) (f : Field) (l : List U64) (n : Nat) : Nat → Client U64
  | 0 => setEach r f l
  | t + 1 => if t < n then .get r f .done else .done 0#64

/-- Each number is related to the one before it, the first one to `a`. -/
def Climbs (R : Nat → Nat → Prop) : Nat → List Nat → Prop
  | _, [] => True
  | a, b :: l => R a b ∧ Climbs R b l

/-- What the field holds after each of these values was set: as many of its bits as the field has. -/
def heldVals (f : Field) (l : List U64) : List Nat := l.map fun v => v.toNat % 2 ^ (f.hi + 1 - f.lo)

end PacketRs.Spec
