import Verif.Spec.Switch
import Verif.Spec.Series
/-!
# Specification of C115: one frame for several ports, made of clones of one packet
-/
namespace PacketRs.Spec

/-- The calls for ports `bs` (`true`: without tags) on packet variable `p`, which has a tag with type `t` behind it; the variables of the
clones are `k`, `k + 1`, …  For each port the packet is cloned; for a port without tags the tag is taken out of the clone:
`c.remove(1); let e: &mut Ether = (&mut c["Ether"]).into(); e.set_etype(t);` and the clone is serialized. -/
def floodOps (p : Nat) (t : U64) : Nat → List Bool → List Op
  | _, [] => []
  | k, b :: bs =>
    .pktClone p :: ((if b then [.remove k 1, .set (.inPkt k "Ether" Ether) Ether.etype t] else []) ++ (.pktToVec k :: floodOps p t (k + 1) bs))

/-- The frame with the type behind the tag in place of that of the tag, and the tag still there. -/
def spoilt (g : Bytes) : Bytes := g.take 12 ++ ((g.drop 16).take 2 ++ g.drop 14)

/-- What is sent at port `k`. -/
def floodFrame (g : Bytes) (bs : List Bool) (k : Nat) (b : Bool) : Bytes :=
  if b then dropTag g else if true ∈ bs.take k then spoilt g else g

end PacketRs.Spec
