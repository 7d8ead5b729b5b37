import Verif.Spec.Atomic
/-!
# Specification: readers that check a version before and after
-/
namespace PacketRs.Spec

/-- Do one thing after another. -/
def andThen {α β : Type} : Client α → (α → Client β) → Client β
  | .done a, h => h a
  | .get r f k, h => .get r f fun v => andThen (k v) h
  | .set r f v k, h => .set r f v (andThen k h)
  | .bytes r msb lsb k, h => .bytes r msb lsb fun v => andThen (k v) h
  | .setBytes r msb lsb v k, h => .setBytes r msb lsb v (andThen k h)
  | .toVec r k, h => .toVec r fun v => andThen (k v) h
  | .replace r o k, h => .replace r o (andThen k h)

/-- The writer: before each edit it puts the next version, an odd one, in header `g`, and after it the next, an even one. The header
`q k` holds version `k`. -/
def seqWriter {α : Type} (g : Nat) (q : Nat → Nat) : Nat → List (Client Unit) → Client (Option α)
  | _, [] => .done none
  | i, e :: es => .replace g (q (2 * i + 1)) (andThen e fun _ => .replace g (q (2 * i + 2)) (seqWriter g q (i + 1) es))

/-- A reader: it looks at the version, reads what it wants if the version is even, and looks again. -/
def seqReader {α : Type} (g : Nat) (even : Bytes → Bool) (rd : Client α) : Client (Option α) :=
  .toVec g fun v => if even v then andThen rd fun a => .toVec g fun v' => .done (if v' = v then some a else none) else .done none

/-- Thread 0 makes these edits, each of the others reads. -/
def seqThreads {α : Type} (g : Nat) (q : Nat → Nat) (es : List (Client Unit)) (even : Bytes → Bool) (rds : List (Client α)) :
    Nat → Client (Option α)
  | 0 => seqWriter g q 0 es
  | t + 1 => match rds[t]? with
    | some rd => seqReader g even rd
    | none => .done none

/-- All calls are of headers in `D`, and no header is replaced by itself. -/
def CallsOn {α : Type} (D : Nat → Prop) : Client α → Prop
  | .done _ => True
  | .get r _ k => D r ∧ ∀ v, CallsOn D (k v)
  | .set r _ _ k => D r ∧ CallsOn D k
  | .bytes r _ _ k => D r ∧ ∀ v, CallsOn D (k v)
  | .setBytes r _ _ _ k => D r ∧ CallsOn D k
  | .toVec r k => D r ∧ ∀ v, CallsOn D (k v)
  | .replace r o k => D r ∧ D o ∧ r ≠ o ∧ CallsOn D k

/-- All calls are getters, `bytes` and `to_vec`, of headers in `D`. -/
def LooksOn {α : Type} (D : Nat → Prop) : Client α → Prop
  | .done _ => True
  | .get r _ k => D r ∧ ∀ v, LooksOn D (k v)
  | .bytes r _ _ k => D r ∧ ∀ v, LooksOn D (k v)
  | .toVec r k => D r ∧ ∀ v, LooksOn D (k v)
  | _ => False

/-- What a thread of the machine comes to if it is alone. -/
inductive Lonely {α : Type} (c : Nat → Bytes) (p : Micro α) : (Nat → Bytes) → Micro α → Prop where
  | refl : Lonely c p c p
  | read {c' : Nat → Bytes} {r i : Nat} {k : Bool → Micro α} : Lonely c p c' (.read r i k) → Lonely c p c' (k (netBit (c' r) i))
  | write {c' c'' : Nat → Bytes} {r i : Nat} {b : Bool} {k : Micro α} {e : Bytes} : Lonely c p c' (.write r i b k) →
      BitSet (c' r) i b e → Upd c' r e c'' → Lonely c p c'' k
  | readAll {c' : Nat → Bytes} {r : Nat} {k : Bytes → Micro α} : Lonely c p c' (.readAll r k) → Lonely c p c' (k (c' r))
  | copy {c' c'' : Nat → Bytes} {r o : Nat} {k : Micro α} : Lonely c p c' (.copy r o k) → Upd c' r (c' o) c'' → Lonely c p c'' k

/-- The contents after these edits, made one after the other with nobody else there. -/
inductive AfterEdits (c : Nat → Bytes) : List (Client Unit) → (Nat → Bytes) → Prop where
  | none : AfterEdits c [] c
  | more {es : List (Client Unit)} {e : Client Unit} {c' c'' : Nat → Bytes} : AfterEdits c es c' → Lonely c' (micro e) c'' (.done ()) →
      AfterEdits c (es ++ [e]) c''

end PacketRs.Spec
