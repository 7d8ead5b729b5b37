import Verif.Headers
/-!
# Specification: what one expects of a header type made by `make_header!`
-/
namespace PacketRs.Spec

/-- The headers a caller can make with `new()` and the setters. -/
inductive MadeBySets (T : HeaderDef) : Hdr → Prop
  | new : MadeBySets T T.new
  | set {h h' : Hdr} {f : Field} {v : U64} : MadeBySets T h → f ∈ T.fields → h.set f v = .ok h' → MadeBySets T h'

/-- The type behaves like a record of independent unsigned numbers: every getter returns, every setter returns, what was set is read
back (cut to the width of the field), and no other field changes. -/
def RecordLike (chk : Bool) (T : HeaderDef) : Prop :=
  ∀ h, MadeBySets T h → ∀ (i : Nat) (f : Field) (v : U64), T.fields[i]? = some f →
    (∃ r, h.get chk f = .ok r) ∧
    ∃ h', h.set f v = .ok h' ∧ (∃ r, h'.get chk f = .ok r ∧ r.toNat = v.toNat % 2 ^ f.width) ∧
      ∀ (j : Nat) (g : Field), T.fields[j]? = some g → j ≠ i → h'.get chk g = h.get chk g

end PacketRs.Spec
