import Verif.Spec.Atomic
/-!
# Specification: reading a field again and again
-/
namespace PacketRs.Spec

/-- The thread does nothing but read this field, as often as it likes. -/
def OnlyReads {α : Type} (r : Nat) (f : Field) : Client α → Prop
  | .done _ => True
  | .get r' f' k => r' = r ∧ f' = f ∧ ∀ v, OnlyReads r f (k v)
  | _ => False

/-- What a thread that only reads returns if it reads `x` every time. -/
inductive ReturnsOn {α : Type} (x : U64) : Client α → α → Prop where
  | done (a : α) : ReturnsOn x (.done a) a
  | get {r : Nat} {f : Field} {k : U64 → Client α} {a : α} : ReturnsOn x (k x) a → ReturnsOn x (.get r f k) a

/-- So many times, set the field to `v` and then to 0. -/
def flips {α : Type} (r : Nat) (f : Field) (v : U64) (z : α) : Nat → Client α
  | 0 => .done z
  | n + 1 => .set r f v (.set r f 0#64 (flips r f v z n))

/-- A writer and a reader. -/
def writerReader {α : Type} (z : α) (a b : Client α) : Nat → Client α
  | 0 => a
  | 1 => b
  | _ => .done z

end PacketRs.Spec
