import Verif.Headers
import Verif.Spec.Bits
/-!
# Specification vocabulary: what `show` is expected to print
-/
namespace PacketRs.Spec

/-- Two lowercase hexadecimal digits (for `n < 256`): standard base-16 digits, padded with a zero. -/
def hexByte (n : Nat) : List Char :=
  List.replicate (2 - (Nat.toDigits 16 n).length) '0' ++ Nat.toDigits 16 n

/-- Octets in hexadecimal, a space after each. -/
def spaced (b : Bytes) : List Char := (b.map fun x => hexByte x.toNat ++ [' ']).flatten

/-- The octets that stand for field `f` on its line. -/
def shownOctets (d : Bytes) (f : Field) : Bytes :=
  if f.width ≤ 8 then [BitVec.ofNat 8 (fieldVal d f.lo f.hi)]
  else if f.width % 8 = 0 then octetsAt d f.lo (f.width / 8)
  else octetsAt d f.lo (f.width / 8) ++ [BitVec.ofNat 8 (fieldVal d (f.hi - f.width % 8) f.hi)]

/-- What precedes the octets on the line of field `f`: name in 20 columns, width in 4 columns. -/
def fieldLabel (f : Field) : List Char :=
  f.name.toList ++ List.replicate (20 - f.name.length) ' ' ++ [':', ' '] ++
    (List.replicate (4 - (Nat.toDigits 10 f.width).length) ' ' ++ Nat.toDigits 10 f.width) ++ [' ', ':', ' ']

/-- The line of field `f`: label, octets.  Octets are separated by spaces; if the width is a multiple of
8 (and not 8) a space follows the last one, too. -/
def fieldLine (d : Bytes) (f : Field) : List Char :=
  fieldLabel f ++
    (if f.width ≤ 8 ∨ f.width % 8 ≠ 0 then (spaced (shownOctets d f)).dropLast else spaced (shownOctets d f)) ++ ['\n']

/-- The two lines above the fields. -/
def headLines (name : String) : List Char :=
  "#### ".toList ++ name.toList ++ List.replicate (16 - name.length) ' ' ++ " Size   Data\n".toList ++
    List.replicate 43 '-' ++ ['\n']

/-- A header: head lines, then one line per field. -/
def headerText (T : HeaderDef) (d : Bytes) : List Char :=
  headLines T.name ++ (T.fields.map (fieldLine d)).flatten

/-- All bytes in hexadecimal, sixteen to a line. -/
def rawLines (v : Bytes) : List Char :=
  (v.mapIdx fun i b => hexByte b.toNat ++ [' '] ++ if (i + 1) % 16 = 0 then ['\n'] else []).flatten

/-- The dump at the end of a packet. -/
def rawText (v : Bytes) : List Char :=
  "\n#### raw ".toList ++ Nat.toDigits 10 v.length ++ " bytes ####\n".toList ++ rawLines v ++ ['\n']

end PacketRs.Spec
