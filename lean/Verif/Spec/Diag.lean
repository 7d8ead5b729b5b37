import Verif.Spec.Text
/-!
# Specification: diagnostics

Why a component is not the text of an octet, as a relation on character lists.
-/
namespace PacketRs.Spec

/-- A component without the one leading `+` that is allowed before digits. -/
def body : Str → Str
  | '+' :: c :: cs => c :: cs
  | s => s

/-- `s` denotes no octet, for the given reason: it is empty; reading digits from the left, and staying below 256, one
meets a character that is not a digit; or one reaches 256. -/
inductive Why (radix : Nat) (Digit : Char → Nat → Prop) : Str → String → Prop
  | empty : Why radix Digit [] "cannot parse integer from empty string"
  | digit {s pre c post} : body s = pre ++ c :: post → (pre = [] ∨ ∃ n, n < 256 ∧ Numeral radix Digit pre n) →
      (∀ v, ¬ Digit c v) → Why radix Digit s "invalid digit found in string"
  | large {s pre post n} : body s = pre ++ post → Numeral radix Digit pre n → 256 ≤ n →
      Why radix Digit s "number too large to fit in target type"

/-- The line printed for component `s` of the address `whole`: none if it denotes an octet. -/
inductive Complaint (radix : Nat) (Digit : Char → Nat → Prop) (whole : Str) : Str → List Char → Prop
  | none {s v} : Octet radix Digit s v → Complaint radix Digit whole s []
  | line {s why} : (∀ v, ¬ Octet radix Digit s v) → Why radix Digit s why →
      Complaint radix Digit whole s ("Error: ".toList ++ why.toList ++ " - ".toList ++ s ++ " in ".toList ++ whole ++ ['\n'])

end PacketRs.Spec
