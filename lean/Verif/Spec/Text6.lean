import Verif.Spec.Text
import Mathlib.Data.List.Forall2
/-!
# Spec of textual IPv6 addresses (RFC 4291 section 2.2)

Relations on character lists, without reference to a parser.  An address is a list of eight groups of 16 bits.
-/
namespace PacketRs.Spec

/-- One to four hexadecimal digits. -/
def HexGroup (t : Str) (n : Nat) : Prop := Numeral 16 HexDigit t n ∧ t.length ≤ 4

/-- An IPv4 address in dotted decimal without leading zeros, as two groups. -/
def Quad (t : Str) (ns : List Nat) : Prop :=
  ∃ a b c d : Byte, t = joined '.' [dec a, dec b, dec c, dec d] ∧ ns = [a.toNat * 256 + b.toNat, c.toNat * 256 + d.toNat]

/-- Groups (perhaps none) with colons between them. -/
def HexGroups (t : Str) (ns : List Nat) : Prop := ∃ ps, t = joined ':' ps ∧ List.Forall₂ HexGroup ps ns

/-- The same, the last two perhaps written as an IPv4 address. -/
def Groups (t : Str) (ns : List Nat) : Prop :=
  HexGroups t ns ∨ ∃ ps q ms g, t = joined ':' (ps ++ [q]) ∧ List.Forall₂ HexGroup ps ms ∧ Quad q g ∧ ns = ms ++ g

/-- `t` is a text for the address: all eight groups, or `::` in the place of one or more groups of zeros. -/
def Ipv6Text (t : Str) (ns : List Nat) : Prop :=
  (Groups t ns ∧ ns.length = 8) ∨
  ∃ l r a b, t = l ++ [':', ':'] ++ r ∧ HexGroups l a ∧ Groups r b ∧ a.length + b.length ≤ 7 ∧
    ns = a ++ List.replicate (8 - (a.length + b.length)) 0 ++ b

/-- The octets of the groups, in network order. -/
def groupOctets (ns : List Nat) : Bytes := ns.flatMap fun n => [BitVec.ofNat 8 (n / 256), BitVec.ofNat 8 n]

/-- The groups of an address. -/
def toGroups : Bytes → List Nat
  | a :: b :: d => (a.toNat * 256 + b.toNat) :: toGroups d
  | _ => []

/-- The text with all groups written out with four digits. -/
def fullText (alphabet : Str) : Bytes → List Str
  | a :: b :: d => (hex2 alphabet a ++ hex2 alphabet b) :: fullText alphabet d
  | _ => []

end PacketRs.Spec
