import Verif.Spec.Taint
/-!
# Specification vocabulary: two groups of threads seen together
-/
namespace PacketRs.Spec
variable {α : Type}

/-- The threads in `A`; the others have nothing to do. -/
def onlyThreads (A : Nat → Bool) (a : α) (cs : Nat → Client α) : Nat → Client α := fun t => if A t then cs t else .done a

/-- Two systems side by side: threads in `A` and headers in `G` of the first, the others of the second. -/
def beside (A G : Nat → Bool) (s s' : Sys α) : Sys α :=
  ⟨fun r => if G r then s.mem r else s'.mem r, fun t => if A t then s.th t else s'.th t⟩

/-- The threads in `A` use only headers in `G`, the others only others. -/
def NothingShared (A G : Nat → Bool) (cs : Nat → Client α) : Prop := ∀ t r, MayUse (cs t) r → G r = A t

end PacketRs.Spec
