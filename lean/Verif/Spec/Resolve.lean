import Verif.Spec.Turn
import Verif.Spec.Bits
/-!
# Specification: address resolution (RFC 826)
-/
namespace PacketRs.Spec

/-- An address as a number, the first octet highest. -/
def addrNum (b : Bytes) : U64 := BitVec.ofNat 64 (beNat b)

/-- RFC 826, packet reception at the host with address `own`: an entry for the sender is updated if there is one, and made if there is
none and the host is the target. -/
def learn (own : Bytes) (m : ArpMsg) (t : U64 → Option U64) : U64 → Option U64 := fun a =>
  if a = addrNum m.spa ∧ (m.tpa = own ∨ (t a).isSome) then some (addrNum m.sha) else t a

/-- RFC 826: a request for the host's own address is answered. -/
def ToAnswer (own : Bytes) (m : ArpMsg) : Prop := m.op = 1 ∧ m.tpa = own

end PacketRs.Spec
