import Verif.Spec.Atomic
import Verif.Spec.Race
import Verif.Spec.Exclude
/-!
# Specification: threads that decide among themselves
-/
namespace PacketRs.Spec

/-- One of two threads that decide with `replace` who was first: it makes `a` a copy of `b`, and looks whether `c` holds
`mark`. -/
def elector (a b c : Nat) (mark : Bytes) (won : Bool) : Client Bool :=
  .replace a b (.toVec c fun v => .done ((v == mark) == won))

/-- Two threads, and nobody else. -/
def twoThreads {α : Type} (c0 c1 c : Client α) : Nat → Client α
  | 0 => c0
  | 1 => c1
  | _ => c

/-- Clear the first bit of the headers `a j`, `a (j + 1)`, ..., `m` of them. -/
def clearFrom {α : Type} (a : Nat → Nat) : Nat → Nat → Client α → Client α
  | _, 0, k => k
  | j, m + 1, k => .set (a j) (flagBit 0) 0#64 (clearFrom a (j + 1) m k)

/-- The highest of the headers `b 0`, ..., `b (i - 1)` whose first bit is set. -/
def highest (b : Nat → Nat) : Nat → Client (Option Nat)
  | 0 => .done none
  | i + 1 => .get (b i) (flagBit 0) fun v => if v = 0#64 then highest b i else .done (some i)

/-- Thread `t` of `n` threads: make `b t` a copy of `a t`, clear the `a` of all higher threads, and look for the highest
`b` that is set. -/
def voter (a b : Nat → Nat) (n t : Nat) : Client (Option Nat) :=
  .replace (b t) (a t) (clearFrom a (t + 1) (n - (t + 1)) (highest b n))

end PacketRs.Spec
