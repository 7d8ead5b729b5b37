import Verif.Spec.Cells
/-!
# Specification: edits in place, under flags

A client that lets one thread at a time edit a shared header in place, with nothing but accessors of a second shared
header, one bit of which belongs to each thread.
-/
namespace PacketRs.Spec

/-- The one-bit field at bit `t`. -/
def flagBit (t : Nat) : Field := ⟨"flag", t, t⟩

/-- Go on with `ok` if none of the flags is up, with `fail` at the first that is. -/
def checkFlags {α : Type} (g : Nat) : List Nat → Client α → Client α → Client α
  | [], ok, _ => ok
  | u :: us, ok, fail => .get g (flagBit u) fun v => if v = 0#64 then checkFlags g us ok fail else fail

/-- The other threads. -/
def rivals (N t : Nat) : List Nat := (List.range N).filter (· ≠ t)

/-- Thread `t` of `N` threads: put up the own flag in `g`; if no other flag is up, edit `s` in place; take the flag down.
At most `k` attempts; the result says whether the edit has been made. -/
def guarded (g s N t : Nat) (e : Edit) : Nat → Client Bool
  | 0 => .done false
  | k + 1 => .set g (flagBit t) 1#64 (checkFlags g (rivals N t) (e.client s (.set g (flagBit t) 0#64 (.done true)))
      (.set g (flagBit t) 0#64 (guarded g s N t e k)))

/-- `N` threads, each with one edit and a number of attempts. -/
def team (g s N : Nat) (e : Nat → Edit) (k : Nat → Nat) (t : Nat) : Client Bool :=
  if t < N then guarded g s N t (e t) (k t) else .done false

/-- The vector after the edits of these threads, one after the other. -/
def editsInOrder (e : Nat → Edit) (d : Bytes) (order : List Nat) : Bytes := order.foldl (fun d t => (e t).apply d) d

/-- Add one to a field. -/
def countUp (f : Field) : Edit := [(f, fun d => BitVec.ofNat 64 (fieldVal d f.lo f.hi + 1))]

end PacketRs.Spec
