import Verif.Headers
/-!
# How much of the headers a parser looks at
-/
namespace PacketRs.Spec

/-- The fields a parser looks at to find out what follows the header: the type, protocol or port, the presence bits of GRE and
ERSPAN III, and the bottom of stack bit of a label, which the last label of a stack is not asked for. -/
def looked (T : HeaderDef) (next : Option HeaderDef) : Nat :=
  if T = Ether ∨ T = Vlan ∨ T = UDP then 16
  else if T = IPv4 ∨ T = IPv6 then 8
  else if T = GRE then 19
  else if T = ERSPAN3 then 1
  else if T = MPLS then (if next = some MPLS then 1 else 0)
  else 0

/-- Bits looked at in headers of these types, in this order. -/
def lookedAll : List HeaderDef → Nat
  | [] => 0
  | T :: r => looked T r.head? + lookedAll r

/-- `0 + 1 + ... + (n - 1)` -/
def tri : Nat → Nat
  | 0 => 0
  | n + 1 => tri n + n

end PacketRs.Spec
