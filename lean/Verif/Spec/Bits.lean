import Verif.Rust
/-!
# Specification vocabulary: big-endian numbers and network-order bits

Nothing here refers to the accessors of the model.
-/
namespace PacketRs.Spec

/-- The number denoted by a byte string in network (big-endian) order. -/
def beNat (d : Bytes) : Nat := d.foldl (fun a b => a * 256 + b.toNat) 0

/-- Bit `i` of a byte string, counting from the most significant bit of the first byte; `false`
beyond the end. -/
def netBit (d : Bytes) (i : Nat) : Bool := (d.getD (i / 8) 0#8).getMsbD (i % 8)

/-- The unsigned number made of bits `lo..=hi` of `d` in network order: shift the bits after `hi` away
and keep `hi + 1 - lo` bits. -/
def fieldVal (d : Bytes) (lo hi : Nat) : Nat :=
  beNat d / 2 ^ (8 * d.length - 1 - hi) % 2 ^ (hi + 1 - lo)

/-- The `n` octets that start at bit `lo` (which need not be a byte boundary). -/
def octetsAt (d : Bytes) (lo n : Nat) : Bytes :=
  (List.range n).map fun k => BitVec.ofNat 8 (fieldVal d (lo + 8 * k) (lo + 8 * k + 7))

-- sanity checks of the vocabulary
example : beNat [0x12#8, 0x34#8] = 0x1234 := by decide
example : netBit [0x80#8, 0x01#8] 0 = true ∧ netBit [0x80#8, 0x01#8] 15 = true := by decide
example : fieldVal [0x12#8, 0x34#8] 4 11 = 0x23 := by decide
example : octetsAt [0x12#8, 0x34#8, 0x56#8] 4 2 = [0x23#8, 0x45#8] := by decide

end PacketRs.Spec
