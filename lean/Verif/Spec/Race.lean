import Verif.Conc
import Verif.Spec.Bits
/-!
# Specification vocabulary: which bits a thread touches, data races
-/
namespace PacketRs.Spec

/-- A set of bits of stored vectors: vector `r`, bit `i` in network order. -/
abbrev Bits := Nat → Nat → Prop

/-- Every call of the thread stays inside vectors of `L r` bytes, has a valid width, reads only bits in
`Rd` or `Wr` and writes only bits in `Wr`. -/
def Within {α : Type} (L : Nat → Nat) (Wr Rd : Bits) : Client α → Prop
  | .done _ => True
  | .get r f k => f.lo ≤ f.hi ∧ f.hi < 8 * L r ∧ f.hi - f.lo < 64 ∧
      (∀ i, f.lo ≤ i → i ≤ f.hi → Rd r i ∨ Wr r i) ∧ ∀ v, Within L Wr Rd (k v)
  | .set r f _ k => f.lo ≤ f.hi ∧ f.hi < 8 * L r ∧ (∀ i, f.lo ≤ i → i ≤ f.hi → Wr r i) ∧ Within L Wr Rd k
  | .bytes r msb lsb k => lsb ≤ msb ∧ msb < 8 * L r ∧ msb + 1 < 2 ^ 64 ∧ (msb + 1 - lsb) % 8 = 0 ∧
      (∀ i, lsb ≤ i → i ≤ msb → Rd r i ∨ Wr r i) ∧ ∀ v, Within L Wr Rd (k v)
  | .setBytes r msb lsb v k => lsb ≤ msb ∧ msb < 8 * L r ∧ msb + 1 < 2 ^ 64 ∧ v.length * 8 = msb + 1 - lsb ∧
      (∀ i, lsb ≤ i → i ≤ msb → Wr r i) ∧ Within L Wr Rd k
  | .toVec r k => (∀ i, i < 8 * L r → Rd r i ∨ Wr r i) ∧ ∀ v, Within L Wr Rd (k v)
  | .replace r o k => r ≠ o ∧ L r = L o ∧ (∀ i, i < 8 * L r → Wr r i) ∧ (∀ i, i < 8 * L o → Rd o i ∨ Wr o i) ∧
      Within L Wr Rd k

/-- The thread never calls `replace`. -/
def NoReplace {α : Type} : Client α → Prop
  | .done _ => True
  | .get _ _ k => ∀ v, NoReplace (k v)
  | .set _ _ _ k => NoReplace k
  | .bytes _ _ _ k => ∀ v, NoReplace (k v)
  | .setBytes _ _ _ _ k => NoReplace k
  | .toVec _ k => ∀ v, NoReplace (k v)
  | .replace _ _ _ => False

/-- No thread writes a bit that another thread reads or writes. -/
def RaceFree (Wr Rd : Nat → Bits) : Prop :=
  ∀ t u, t ≠ u → ∀ r i, Wr t r i → ¬ Wr u r i ∧ ¬ Rd u r i

/-- No mutex is held, none is poisoned, and vector `r` has `L r` bytes. -/
def Fresh (L : Nat → Nat) (m : Store) : Prop :=
  ∀ r, (m r).owner = none ∧ (m r).poisoned = false ∧ (m r).bytes.length = L r

/-- What a thread with a single call does: a setter or a getter on the vector `r`, or nothing. -/
inductive Call where
  | set (r : Nat) (f : Field) (v : U64)
  | get (r : Nat) (f : Field)
  | rest

/-- The thread that makes this call and returns what the getter returned. -/
def Call.client : Call → Client (Option U64)
  | .set r f v => .set r f v (.done none)
  | .get r f => .get r f (fun v => .done (some v))
  | .rest => .done none

/-- The field lies inside the vector; a getter's field has at most 64 bits. -/
def Call.Ok (L : Nat → Nat) : Call → Prop
  | .set r f _ => f.lo ≤ f.hi ∧ f.hi < 8 * L r
  | .get r f => f.lo ≤ f.hi ∧ f.hi < 8 * L r ∧ f.hi - f.lo < 64
  | .rest => True

/-- The bit the call writes to bit `i` of vector `x`, if it writes it: bit `lo` of the field is the most
significant one. -/
def Call.writes : Call → Nat → Nat → Option Bool
  | .set r f v, x, i => if x = r ∧ f.lo ≤ i ∧ i ≤ f.hi then some (v.getLsbD (f.hi - i)) else none
  | .get _ _, _, _ => none
  | .rest, _, _ => none

end PacketRs.Spec
