import Verif.Rust
/-!
# Specification: the Internet checksum (RFC 1071, RFC 791)

Nothing here refers to the model of the code.
-/
namespace PacketRs.Spec

/-- The 16-bit words of a byte string in network order; an odd last byte is padded with zero. -/
def words : Bytes → List Nat
  | [] => []
  | [a] => [a.toNat * 256]
  | a :: b :: r => (a.toNat * 256 + b.toNat) :: words r

/-- One's complement addition of 16-bit words: the carry out of bit 15 is added back in. -/
def ocAdd (a b : Nat) : Nat := if a + b < 65536 then a + b else a + b - 65535

/-- The one's complement sum of all words. -/
def ocSum (d : Bytes) : Nat := (words d).foldl ocAdd 0

/-- A header verifies iff the one's complement sum over all its words, checksum included, is all
ones (RFC 1071, section 1 (3)). -/
def Verifies (d : Bytes) : Prop := ocSum d = 0xFFFF

instance (d : Bytes) : Decidable (Verifies d) := inferInstanceAs (Decidable (_ = _))

/-- Store a checksum in the checksum field of an IPv4 header (bytes 10 and 11). -/
def putChecksum (d : Bytes) (c : Nat) : Bytes :=
  (d.set 10 (BitVec.ofNat 8 (c / 256))).set 11 (BitVec.ofNat 8 c)

/-- The plain sum of the words other than the checksum. -/
def plainSum (d : Bytes) : Nat := (words (putChecksum d 0)).sum

-- the header of the Wikipedia article on the IPv4 checksum, whose checksum is 0xb861
example : Verifies [0x45#8, 0x00#8, 0x00#8, 0x73#8, 0x00#8, 0x00#8, 0x40#8, 0x00#8, 0x40#8, 0x11#8, 0xb8#8, 0x61#8,
    0xc0#8, 0xa8#8, 0x00#8, 0x01#8, 0xc0#8, 0xa8#8, 0x00#8, 0xc7#8] := by decide +kernel

end PacketRs.Spec
