import Verif.Spec.Transfer
import Verif.Spec.Gateway
/-!
# Specification of C119: a connection seen from both sides of a gateway that translates addresses and ports

Nothing here refers to the model of the code.
-/
namespace PacketRs.Spec

/-- A gateway with address `own`, whose port `entry.ext` stands for a port of a host behind it; the other end of the connection has
address `far` and port `farPort`. -/
structure Passage where
  own : U32
  entry : NatEntry
  far : Bytes
  farPort : Nat

/-- The connection, in the direction to the other end: as the host behind the gateway (`false`) has it, and as the other end (`true`). -/
def Passage.leg (g : Passage) (b : Bool) : Conn :=
  if b then ⟨num32 g.own.toNat, g.far, g.entry.ext.toNat, g.farPort⟩ else ⟨num32 g.entry.addr.toNat, g.far, g.entry.port.toNat, g.farPort⟩

end PacketRs.Spec
