import Verif.Spec.Show
/-!
# Specification: which octets can stand on a line of `show`
-/
namespace PacketRs.Spec

/-- The octets that can stand for a field of `w` bits.  Up to eight bits: one octet below `2 ^ w`.  A multiple of eight: any
`w / 8` octets.  Otherwise one more than `w / 8` octets, of which the last has one bit more than the remaining `w % 8`: that bit
repeats the lowest bit of the octet before it. -/
def LineOctets (w : Nat) (os : Bytes) : Prop :=
  if w ≤ 8 then ∃ x, os = [x] ∧ x.toNat < 2 ^ w
  else if w % 8 = 0 then os.length = w / 8
  else os.length = w / 8 + 1 ∧ ∃ before y x, os = before ++ [y, x] ∧ x.toNat / 2 ^ (w % 8) = y.toNat % 2

/-- The line of field `f` with the octets `os` on it. -/
def octetLine (f : Field) (os : Bytes) : List Char :=
  fieldLabel f ++ (if f.width ≤ 8 ∨ f.width % 8 ≠ 0 then (spaced os).dropLast else spaced os) ++ ['\n']

/-- The header declared in /repo/README.md:34-43. -/
def readmeHeader : HeaderDef :=
  ⟨"main", "MyHeader", 4, [⟨"field_1", 0, 2⟩, ⟨"field_2", 3, 3⟩, ⟨"field_3", 4, 15⟩, ⟨"field_4", 16, 31⟩], [0x0, 0xa, 0x8, 0x0]⟩

/-- What `hdr.show()` is said to print in /repo/README.md:64-69.  The line before these, `Raw: 00 0a 08 00`, is left out, and the
blank that the code prints after the last octet of a field of 16, 24, ... bits is put back: the README has no blanks at line ends. -/
def readmeText : List Char := "\
#### MyHeader         Size   Data
-------------------------------------------
field_1             :    3 : 02
field_2             :    1 : 01
field_3             :   12 : 00 10
field_4             :   16 : 08 00 
".toList

/-- What is said to be printed for an `IPv4` header in /repo/README.md:85-98, with the blanks at line ends put back. -/
def readmeIPv4Text : List Char := "\
#### IPv4             Size   Data
-------------------------------------------
version             :    4 : 04
ihl                 :    4 : 05
diffserv            :    8 : 00
total_len           :   16 : 00 14 
identification      :   16 : 00 33 
flags               :    3 : 02
frag_startset       :   13 : 06 29
ttl                 :    8 : 64
protocol            :    8 : 06
header_checksum     :   16 : fa ec 
src                 :   32 : c0 a8 00 01 
dst                 :   32 : c0 a8 00 02 
".toList

end PacketRs.Spec
