import Verif.Conc
/-!
# Specification vocabulary: what a thread may do to a header, and why a header is poisoned
-/
namespace PacketRs.Spec
variable {α : Type}

/-- The thread may make a call that reads or writes bit `j` of header `r`. -/
def MayTouch : Client α → Nat → Nat → Prop
  | .done _, _, _ => False
  | .get x f k, r, j => (r = x ∧ f.lo ≤ j ∧ j ≤ f.hi) ∨ ∃ v, MayTouch (k v) r j
  | .set x f _ k, r, j => (r = x ∧ f.lo ≤ j ∧ j ≤ f.hi) ∨ MayTouch k r j
  | .bytes x msb lsb k, r, j => (r = x ∧ lsb ≤ j ∧ j ≤ msb) ∨ ∃ v, MayTouch (k v) r j
  | .setBytes x msb lsb _ k, r, j => (r = x ∧ lsb ≤ j ∧ j ≤ msb) ∨ MayTouch k r j
  | .toVec _ k, r, j => ∃ v, MayTouch (k v) r j
  | .replace _ _ k, r, j => MayTouch k r j

/-- The thread may call `r.replace(&o)`. -/
def MayReplace : Client α → Nat → Nat → Prop
  | .done _, _, _ => False
  | .get _ _ k, r, o => ∃ v, MayReplace (k v) r o
  | .set _ _ _ k, r, o => MayReplace k r o
  | .bytes _ _ _ k, r, o => ∃ v, MayReplace (k v) r o
  | .setBytes _ _ _ _ k, r, o => MayReplace k r o
  | .toVec _ k, r, o => ∃ v, MayReplace (k v) r o
  | .replace x y k, r, o => (r = x ∧ o = y) ∨ MayReplace k r o

/-- The thread may call a method with header `r` as receiver or argument. -/
def MayUse : Client α → Nat → Prop
  | .done _, _ => False
  | .get x _ k, r => r = x ∨ ∃ v, MayUse (k v) r
  | .set x _ _ k, r => r = x ∨ MayUse k r
  | .bytes x _ _ k, r => r = x ∨ ∃ v, MayUse (k v) r
  | .setBytes x _ _ _ k, r => r = x ∨ MayUse k r
  | .toVec x k, r => r = x ∨ ∃ v, MayUse (k v) r
  | .replace x y k, r => r = x ∨ r = y ∨ MayUse k r

/-- Thread `t` died of an index out of bounds in a call on `r` of a bit beyond the bytes of `r`. -/
def Overran (cs : Nat → Client α) (s : Sys α) (t r : Nat) : Prop :=
  s.th t = .died .index ∧ ∃ j, MayTouch (cs t) r j ∧ 8 * (s.mem r).bytes.length ≤ j

/-- Thread `t` died in a call `r.replace(&o)` on finding `o` poisoned, and has left `r` empty. -/
def Infected (cs : Nat → Client α) (s : Sys α) (t r o : Nat) : Prop :=
  s.th t = .died .poisoned ∧ MayReplace (cs t) r o ∧ (s.mem o).poisoned = true ∧ (s.mem r).bytes = []

/-- The poison of `r` comes, over any number of `replace` calls, from a header that was poisoned at the beginning or
from a thread that went beyond the bytes of a header. -/
inductive Traced (m : Store) (cs : Nat → Client α) (s : Sys α) : Nat → Prop where
  | start {r : Nat} : (m r).poisoned = true → Traced m cs s r
  | overran {t r : Nat} : (s.mem r).poisoned = true → Overran cs s t r → Traced m cs s r
  | infected {t r o : Nat} : (s.mem r).poisoned = true → Infected cs s t r o → Traced m cs s o → Traced m cs s r

end PacketRs.Spec
