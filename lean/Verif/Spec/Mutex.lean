import Verif.Conc
/-!
# Specification vocabulary: which storage a thread is about to touch
-/
namespace PacketRs.Spec

/-- The thread's next step reads or writes the bytes of `r`. -/
def Touches {α : Type} (p : Prog α) (r : Nat) : Prop := (∃ k, p = .load r k) ∨ (∃ b k, p = .store r b k)

/-- The thread's next step drops a guard of `r`. -/
def Drops {α : Type} (p : Prog α) (r : Nat) : Prop := ∃ k, p = .unlock r k

/-- Thread `t` holds the mutex of `r`. -/
def HoldsMutex {α : Type} (s : Sys α) (t r : Nat) : Prop := (s.mem r).owner = some t

end PacketRs.Spec
