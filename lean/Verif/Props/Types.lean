import Verif.Spec.Numbers
/-!
# Property C60: protocol number conversions
-/
namespace PacketRs
open Spec

/-- **C60** `IpType`: `try_from(v)` is `Ok(e)` iff `(e, v)` is in the table, so `Err` iff `v` is in no row; and
`e as u8` is the number in the table. -/
theorem C60_ip_type (v : Byte) (e : IpType) :
    (IpType.try_from v = some e ↔ (e, v.toNat) ∈ ipVersionNumbers) ∧ (e, e.toU8.toNat) ∈ ipVersionNumbers := by
  refine ⟨?_, by cases e <;> decide⟩
  have k : ∀ e : IpType, v = e.toU8 ↔ v.toNat = e.toU8.toNat := fun e => BitVec.toNat_inj.symm
  unfold IpType.try_from
  simp only [k]
  generalize v.toNat = n
  simp only [IpType.toU8, ipVersionNumbers]
  cases e <;> simp <;> (repeat' split) <;> simp_all

/-- **C60** `IpProtocol`. -/
theorem C60_ip_protocol (v : Byte) (e : IpProtocol) :
    (IpProtocol.try_from v = some e ↔ (e, v.toNat) ∈ ipProtocolNumbers) ∧ (e, e.toU8.toNat) ∈ ipProtocolNumbers := by
  refine ⟨?_, by cases e <;> decide⟩
  have k : ∀ e : IpProtocol, v = e.toU8 ↔ v.toNat = e.toU8.toNat := fun e => BitVec.toNat_inj.symm
  unfold IpProtocol.try_from
  simp only [k]
  generalize v.toNat = n
  simp only [IpProtocol.toU8, ipProtocolNumbers]
  cases e <;> simp <;> (repeat' split) <;> simp_all

/-- **C60** `EtherType`. -/
theorem C60_ether_type (v : U16) (e : EtherType) :
    (EtherType.try_from v = some e ↔ (e, v.toNat) ∈ etherTypeNumbers) ∧ (e, e.toU16.toNat) ∈ etherTypeNumbers := by
  refine ⟨?_, by cases e <;> decide⟩
  have k : ∀ e : EtherType, v = e.toU16 ↔ v.toNat = e.toU16.toNat := fun e => BitVec.toNat_inj.symm
  unfold EtherType.try_from
  simp only [k]
  generalize v.toNat = n
  simp only [EtherType.toU16, etherTypeNumbers]
  cases e <;> simp <;> (repeat' split) <;> simp_all

/-- **C60** `ErspanVersion`. -/
theorem C60_erspan_version (v : U16) (e : ErspanVersion) :
    (ErspanVersion.try_from v = some e ↔ (e, v.toNat) ∈ erspanVersionNumbers) ∧
      (e, e.toU16.toNat) ∈ erspanVersionNumbers := by
  refine ⟨?_, by cases e <;> decide⟩
  have k : ∀ e : ErspanVersion, v = e.toU16 ↔ v.toNat = e.toU16.toNat := fun e => BitVec.toNat_inj.symm
  unfold ErspanVersion.try_from
  simp only [k]
  generalize v.toNat = n
  simp only [ErspanVersion.toU16, erspanVersionNumbers]
  cases e <;> simp <;> (repeat' split) <;> simp_all

example : IpProtocol.try_from 47 = some .GRE ∧ IpProtocol.try_from 2 = none ∧ EtherType.try_from 0x86dd = some .IPV6 ∧
    EtherType.try_from 0x88a8 = none ∧ IpType.try_from 6 = some .V6 ∧ IpType.try_from 0 = none ∧
    ErspanVersion.try_from 2 = some .III ∧ ErspanVersion.try_from 0 = none := by decide

/-- **C60**: conversion to a number and back is the identity, and distinct names have distinct numbers. -/
theorem C60_roundtrip (t : IpType) (p : IpProtocol) (e : EtherType) (r : ErspanVersion) :
    IpType.try_from t.toU8 = some t ∧ IpProtocol.try_from p.toU8 = some p ∧ EtherType.try_from e.toU16 = some e ∧
      ErspanVersion.try_from r.toU16 = some r :=
  ⟨(C60_ip_type _ t).1.mpr (C60_ip_type 0 t).2, (C60_ip_protocol _ p).1.mpr (C60_ip_protocol 0 p).2,
    (C60_ether_type _ e).1.mpr (C60_ether_type 0 e).2, (C60_erspan_version _ r).1.mpr (C60_erspan_version 0 r).2⟩

end PacketRs
