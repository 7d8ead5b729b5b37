import Verif.Spec.Atomic
import Verif.Spec.Deadlock
/-!
# Specification: when threads can deadlock
-/
namespace PacketRs.Spec

/-- Some threads of the machine are about to copy the vectors of a cycle: thread `u i` vector `x (i + 1)` to vector `x i`,
the last one `x 0`. -/
def Entangled {α : Type} (w : Machine α) : Prop :=
  ∃ (k : Nat) (x u : Nat → Nat), 0 < k ∧ (∀ i j, i < k → j < k → x i = x j → i = j) ∧
    ∀ i, i < k → ∃ q, w.th (u i) = .copy (x i) (x ((i + 1) % k)) q

/-- A call of an accessor, and its arguments. -/
inductive AccCall where
  | get (r : Nat) (f : Field)
  | set (r : Nat) (f : Field) (v : U64)
  | bytes (r msb lsb : Nat)
  | setBytes (r msb lsb : Nat) (v : Bytes)
  | toVec (r : Nat)
  | replace (r o : Nat)

/-- A thread that makes these calls, whatever they return. -/
def callScript : List AccCall → Client Unit
  | [] => .done ()
  | .get r f :: l => .get r f fun _ => callScript l
  | .set r f v :: l => .set r f v (callScript l)
  | .bytes r msb lsb :: l => .bytes r msb lsb fun _ => callScript l
  | .setBytes r msb lsb v :: l => .setBytes r msb lsb v (callScript l)
  | .toVec r :: l => .toVec r fun _ => callScript l
  | .replace r o :: l => .replace r o (callScript l)

end PacketRs.Spec
