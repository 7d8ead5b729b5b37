import Verif.Addr
/-!
# Spec of textual addresses

What a component of a textual MAC or IPv4 address denotes, as relations on character lists, without
reference to the conversion code.
-/
namespace PacketRs.Spec

/-- `c` is the hexadecimal digit of value `v`. -/
def HexDigit (c : Char) (v : Nat) : Prop :=
  "0123456789abcdef".toList[v]? = some c ∨ "0123456789ABCDEF".toList[v]? = some c

/-- `c` is the decimal digit of value `v`. -/
def DecDigit (c : Char) (v : Nat) : Prop := "0123456789".toList[v]? = some c

/-- The non-empty digit string `s` has value `n`. -/
inductive Numeral (radix : Nat) (Digit : Char → Nat → Prop) : Str → Nat → Prop
  | one {c v} : Digit c v → Numeral radix Digit [c] v
  | snoc {ds n c v} : Numeral radix Digit ds n → Digit c v → Numeral radix Digit (ds ++ [c]) (n * radix + v)

/-- `s` is text for the octet `v`: digits, possibly after a `+`, of value below 256. -/
def Octet (radix : Nat) (Digit : Char → Nat → Prop) (s : Str) (v : Byte) : Prop :=
  Numeral radix Digit s v.toNat ∨ ∃ ds, s = '+' :: ds ∧ Numeral radix Digit ds v.toNat

/-- What the conversion stores for a component: the octet it denotes, 0 if it denotes none. -/
def Component (radix : Nat) (Digit : Char → Nat → Prop) (s : Str) (v : Byte) : Prop :=
  Octet radix Digit s v ∨ ((∀ w, ¬ Octet radix Digit s w) ∧ v = 0#8)

/-- Components written with a separator between them. -/
def joined (sep : Char) : List Str → Str
  | [] => []
  | [p] => p
  | p :: ps => p ++ sep :: joined sep ps

/-- The usual two-digit text of an octet, with a given digit alphabet. -/
def hex2 (alphabet : Str) (b : Byte) : Str :=
  [alphabet.getD (b.toNat / 16) '0', alphabet.getD (b.toNat % 16) '0']

/-- Decimal text of an octet without leading zeros. -/
def dec (b : Byte) : Str :=
  let dig (n : Nat) : Char := "0123456789".toList.getD n '0'
  if b.toNat < 10 then [dig b.toNat]
  else if b.toNat < 100 then [dig (b.toNat / 10), dig (b.toNat % 10)]
  else [dig (b.toNat / 100), dig (b.toNat / 10 % 10), dig (b.toNat % 10)]

end PacketRs.Spec
