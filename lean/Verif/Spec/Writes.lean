import Verif.Headers
import Verif.Spec.Bits
/-!
# Spec of C90: histories of writes to one header
-/
namespace PacketRs.Spec

/-- A call that writes to a header. -/
inductive Write where
  /-- `h.set_<field>(v)` -/
  | field (f : Field) (v : U64)
  /-- `h.set_bytes(lo + 8 * v.len() - 1, lo, v)` -/
  | octets (lo : Nat) (v : Bytes)
  deriving DecidableEq, Repr

namespace Write

/-- The call is made. -/
def call (chk : Bool) (h : Hdr) : Write → R Hdr
  | field f v => h.set f v
  | octets lo v => h.set_bytes chk (lo + 8 * v.length - 1) lo v

/-- The first bit written. -/
def first : Write → Nat
  | field f _ => f.lo
  | octets lo _ => lo

/-- The bit after the last bit written. -/
def stop : Write → Nat
  | field f _ => f.hi + 1
  | octets lo v => lo + 8 * v.length

/-- The call writes bit `i` (network order). -/
def Covers (w : Write) (i : Nat) : Prop := w.first ≤ i ∧ i < w.stop

instance (w : Write) (i : Nat) : Decidable (w.Covers i) := inferInstanceAs (Decidable (_ ∧ _))

/-- What it writes there: the last bit of the range gets the least significant bit of the value; octets are written in order. -/
def bit (i : Nat) : Write → Bool
  | field f v => v.getLsbD (f.hi - i)
  | octets lo v => netBit v (i - lo)

/-- The call writes at least one bit, and a vector whose size in bits is a `usize`. -/
def Proper : Write → Prop
  | field f _ => f.lo ≤ f.hi
  | octets _ v => v ≠ [] ∧ 8 * v.length < 2 ^ 64

instance (w : Write) : Decidable w.Proper := by cases w <;> (simp only [Proper]; infer_instance)

/-- The two calls write the same to every bit they both write. -/
def Agree (w x : Write) : Prop := ∀ i, w.Covers i → x.Covers i → w.bit i = x.bit i

end Write

/-- The calls are made one after the other. -/
def writeAll (chk : Bool) (h : Hdr) (ws : List Write) : R Hdr := ws.foldlM (fun h w => w.call chk h) h

/-- `w` is the last of the calls that writes bit `i`. -/
def LastWriter (ws : List Write) (i : Nat) (w : Write) : Prop :=
  ∃ pre post, ws = pre ++ w :: post ∧ w.Covers i ∧ ∀ x ∈ post, ¬ x.Covers i

/-- `b` is what bit `i` holds after the calls if it held `old` before. -/
def BitAfter (ws : List Write) (i : Nat) (old b : Bool) : Prop :=
  (∃ w, LastWriter ws i w ∧ b = w.bit i) ∨ ((∀ w ∈ ws, ¬ w.Covers i) ∧ b = old)

/-- The two histories leave the same in bit `i`: both write nothing to it, or their last writers write the same. -/
def SameAt (ws vs : List Write) (i : Nat) : Prop :=
  ((∀ w ∈ ws, ¬ w.Covers i) ∧ ∀ v ∈ vs, ¬ v.Covers i) ∨
  ∃ w v, LastWriter ws i w ∧ LastWriter vs i v ∧ w.bit i = v.bit i

end PacketRs.Spec
