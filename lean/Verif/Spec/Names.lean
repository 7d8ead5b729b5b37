import Verif.Heap
/-!
# Calls that name a packet variable
-/
namespace PacketRs.Spec

/-- The place is a header of packet variable `r`. -/
def placeNames (r : Nat) : Place → Bool
  | .var _ => false
  | .inPkt p _ _ => p = r

/-- The call is given packet variable `r`, other than to serialize, compare or measure it. -/
def names (r : Nat) : Op → Bool
  | .clone x | .get x _ | .set x _ _ | .bytes x _ _ | .setBytes x _ _ _ | .toVec x => placeNames r x
  | .replace x y => placeNames r x || placeNames r y
  | .push p _ | .insert p _ | .pop p | .remove p _ | .setPayload p _ | .pktClone p | .assign p _ _ => p = r
  | .add p q => p = r ∨ q = r
  | _ => false

end PacketRs.Spec
