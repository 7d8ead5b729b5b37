import Verif.Spec.Seen
/-!
# Specification: bits of a frame that a host does not look at
-/
namespace PacketRs.Spec

/-- Link addresses, the control information of a VLAN tag, traffic class, flow label and hop limit of an IPv6 header. -/
def Ignored (f : Bytes) (i : Nat) : Prop :=
  i < 96 ∨ (u16At f 12 = 0x8100 ∧ 112 ≤ i ∧ i < 128) ∨
    (u16At f (l3At f - 2) = 0x86DD ∧
      (8 * l3At f + 4 ≤ i ∧ i < 8 * l3At f + 32 ∨ 8 * l3At f + 56 ≤ i ∧ i < 8 * l3At f + 64))

/-- The same as fields of headers. -/
def Harmless (f : Bytes) (T : HeaderDef) (x : Field) : Prop :=
  x.lo ≤ x.hi ∧ (T = Ether ∧ x.hi < 96 ∨ (u16At f 12 = 0x8100 ∧ T = Vlan ∧ x.hi < 16) ∨
    (u16At f (l3At f - 2) = 0x86DD ∧ T = IPv6 ∧ (4 ≤ x.lo ∧ x.hi < 32 ∨ 56 ≤ x.lo ∧ x.hi < 64)))

end PacketRs.Spec
