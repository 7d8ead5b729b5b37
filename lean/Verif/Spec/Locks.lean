import Verif.Conc
/-!
# Specification: counting how often a thread takes a mutex
-/
namespace PacketRs.Spec
variable {α : Type}

/-- In some schedule from `s` to `s'` thread `t` became the owner of a mutex `n` times. -/
inductive Acquires (t : Nat) (s : Sys α) : Sys α → Nat → Prop
  | refl : Acquires t s s 0
  | other {s' s'' : Sys α} {n : Nat} (u : Nat) : Acquires t s s' n → s'.step u = some s'' →
      (∀ r, (s'.mem r).owner ≠ some t → (s''.mem r).owner ≠ some t) → Acquires t s s'' n
  | take {s' s'' : Sys α} {n : Nat} (u r : Nat) : Acquires t s s' n → s'.step u = some s'' →
      (s'.mem r).owner ≠ some t → (s''.mem r).owner = some t → Acquires t s s'' (n + 1)

/-- The calls a client makes on the way to its result `a`, each with the mutexes it takes: one per bit read or written; one for
`to_vec`; two for `replace`.  What a call returns is left open. -/
inductive Locked : Client α → α → Nat → Prop
  | done (a : α) : Locked (.done a) a 0
  | get {r : Nat} {f : Field} {k : U64 → Client α} {a : α} {n : Nat} (v : U64) : Locked (k v) a n →
      Locked (.get r f k) a (f.hi + 1 - f.lo + n)
  | set {r : Nat} {f : Field} {v : U64} {k : Client α} {a : α} {n : Nat} : Locked k a n →
      Locked (.set r f v k) a (f.hi + 1 - f.lo + n)
  | bytes {r msb lsb : Nat} {k : Bytes → Client α} {a : α} {n : Nat} (v : Bytes) : Locked (k v) a n →
      Locked (.bytes r msb lsb k) a (msb + 1 - lsb + n)
  | setBytes {r msb lsb : Nat} {v : Bytes} {k : Client α} {a : α} {n : Nat} : Locked k a n →
      Locked (.setBytes r msb lsb v k) a (8 * v.length + n)
  | toVec {r : Nat} {k : Bytes → Client α} {a : α} {n : Nat} (v : Bytes) : Locked (k v) a n → Locked (.toVec r k) a (1 + n)
  | replace {r o : Nat} {k : Client α} {a : α} {n : Nat} : Locked k a n → Locked (.replace r o k) a (2 + n)

/-- The bit positions in `bytes` and `set_bytes` calls are machine numbers and not the wrong way round. -/
inductive Ranges : Client α → Prop
  | done (a : α) : Ranges (.done a)
  | get {r : Nat} {f : Field} {k : U64 → Client α} : (∀ v, Ranges (k v)) → Ranges (.get r f k)
  | set {r : Nat} {f : Field} {v : U64} {k : Client α} : Ranges k → Ranges (.set r f v k)
  | bytes {r msb lsb : Nat} {k : Bytes → Client α} : lsb ≤ msb → msb < 2 ^ 64 - 1 → (∀ v, Ranges (k v)) →
      Ranges (.bytes r msb lsb k)
  | setBytes {r msb lsb : Nat} {v : Bytes} {k : Client α} : lsb ≤ msb → msb < 2 ^ 64 - 1 → Ranges k →
      Ranges (.setBytes r msb lsb v k)
  | toVec {r : Nat} {k : Bytes → Client α} : (∀ v, Ranges (k v)) → Ranges (.toVec r k)
  | replace {r o : Nat} {k : Client α} : Ranges k → Ranges (.replace r o k)

end PacketRs.Spec
