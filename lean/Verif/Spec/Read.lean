import Verif.Headers
/-!
# What it means that a field reads back
-/
namespace PacketRs

/-- The getter of `f` returns `n` (in both overflow-check profiles). -/
def Hdr.Reads (h : Hdr) (f : Field) (n : Nat) : Prop :=
  ∀ chk, ∃ v, h.get chk f = .ok v ∧ v.toNat = n

/-- `bytes` over the range of `f` returns `b`. -/
def Hdr.ReadsBytes (h : Hdr) (f : Field) (b : Bytes) : Prop :=
  ∀ chk, h.bytes chk f.hi f.lo = .ok b

end PacketRs
