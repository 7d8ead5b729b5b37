import Verif.Spec.Chain
/-!
# How deep parsing nests
-/
namespace PacketRs.Spec

instance (T : HeaderDef) : Decidable (Optional T) := by unfold Optional; infer_instance

/-- The number of headers that begin a layer, which is every header that is not an option of GRE or ERSPAN III. -/
def layers (Ts : List HeaderDef) : Nat := (Ts.filter fun T => ¬ Optional T).length

end PacketRs.Spec
