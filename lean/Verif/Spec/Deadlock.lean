import Verif.Conc
/-!
# Specification vocabulary: deadlock
-/
namespace PacketRs.Spec

/-- Every call `r.replace(&o)` that the thread can make is allowed by `Rel`. -/
def Replaces {α : Type} (Rel : Nat → Nat → Prop) : Client α → Prop
  | .done _ => True
  | .get _ _ k => ∀ v, Replaces Rel (k v)
  | .set _ _ _ k => Replaces Rel k
  | .bytes _ _ _ k => ∀ v, Replaces Rel (k v)
  | .setBytes _ _ _ _ k => Replaces Rel k
  | .toVec _ k => ∀ v, Replaces Rel (k v)
  | .replace r o k => Rel r o ∧ Replaces Rel k

/-- No thread can go on, and not all have finished. -/
def Stuck {α : Type} (s : Sys α) : Prop := ¬ s.Final ∧ ∀ t, s.step t = none

/-- Thread `t` holds the mutex of `r` and waits for the mutex of `o`, which is taken. -/
structure Blocked {α : Type} (s : Sys α) (t r o : Nat) : Prop where
  holds : (s.mem r).owner = some t
  waits : ∃ k, s.th t = .lock o k
  taken : (s.mem o).owner ≠ none

end PacketRs.Spec
