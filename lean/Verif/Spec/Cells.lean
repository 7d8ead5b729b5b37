import Verif.Spec.Atomic
/-!
# Specification: headers as cells that are read and written whole

What threads can rely on if each edits headers of its own and uses the shared ones only to take a copy of them or
to overwrite them with a copy: a machine whose cells hold whole vectors.
-/
namespace PacketRs.Spec

/-- A thread of the machine. -/
inductive Cells (α : Type) where
  | done (a : α)
  /-- read cell `r` -/
  | read (r : Nat) (k : Bytes → Cells α)
  /-- write `v` to cell `r` -/
  | write (r : Nat) (v : Bytes) (k : Cells α)

/-- The machine: the contents of the cells, and what is left of the threads. -/
structure Board (α : Type) where
  cont : Nat → Bytes
  th : Nat → Cells α

/-- One step of thread `t`. -/
inductive Board.Step {α : Type} (t : Nat) (w w' : Board α) : Prop where
  | read {r : Nat} {k : Bytes → Cells α} : w.th t = .read r k → w'.cont = w.cont →
      Upd w.th t (k (w.cont r)) w'.th → Step t w w'
  | write {r : Nat} {v : Bytes} {k : Cells α} : w.th t = .write r v k → Upd w.cont r v w'.cont → Upd w.th t k w'.th →
      Step t w w'

/-- Any number of steps of any threads. -/
inductive Board.Reach {α : Type} (w : Board α) : Board α → Prop where
  | refl : Reach w w
  | step {w' w'' : Board α} (t : Nat) : Reach w w' → Step t w' w'' → Reach w w''

/-- `own r = some t`: header `r` is used by thread `t` only; `own r = none`: it is shared.  The thread reads and writes
fields and octets of its own headers only; from a shared header it takes a copy (`to_vec`, or `replace` of one of its
own headers by it), and it overwrites it with one of its own. -/
def Tidy {α : Type} (own : Nat → Option Nat) (t : Nat) : Client α → Prop
  | .done _ => True
  | .get r _ k => own r = some t ∧ ∀ v, Tidy own t (k v)
  | .set r _ _ k => own r = some t ∧ Tidy own t k
  | .bytes r _ _ k => own r = some t ∧ ∀ v, Tidy own t (k v)
  | .setBytes r _ _ _ k => own r = some t ∧ Tidy own t k
  | .toVec r k => (own r = some t ∨ own r = none) ∧ ∀ v, Tidy own t (k v)
  | .replace r o k => r ≠ o ∧ (own r = some t ∧ (own o = some t ∨ own o = none) ∨ own r = none ∧ own o = some t) ∧
      Tidy own t k

/-- The vector with bit `i` set to `b`. -/
def putBit (d : Bytes) (i : Nat) (b : Bool) : Bytes :=
  d.set (i / 8) (if b then d.getD (i / 8) 0#8 ||| 0x80#8 >>> (i % 8) else d.getD (i / 8) 0#8 &&& ~~~(0x80#8 >>> (i % 8)))

example : putBit [0x00#8, 0xFF#8] 1 true = [0x40#8, 0xFF#8] ∧ putBit [0x00#8, 0xFF#8] 15 false = [0x00#8, 0xFE#8] := by decide

/-- What the others see of a thread of the machine of atomic bits, if its own headers hold `p`: the shared headers
that it copies and overwrites, as one cell each. -/
def cells {α : Type} (own : Nat → Option Nat) : Micro α → (Nat → Bytes) → Cells α
  | .done a, _ => .done a
  | .read r i k, p => cells own (k (netBit (p r) i)) p
  | .write r i b k, p => cells own k fun z => if z = r then putBit (p r) i b else p z
  | .readAll r k, p => if own r = none then .read r fun v => cells own (k v) p else cells own (k (p r)) p
  | .copy r o k, p =>
    if own r = none then .write r (p o) (cells own k p)
    else if own o = none then .read o fun v => cells own k fun z => if z = r then v else p z
    else cells own k fun z => if z = r then p o else p z

/-- A thread of cells that, being shown only vectors in `I`, writes only vectors in `I` and returns only what is in `Q`. -/
def Cells.Obeys {α : Type} (I : Nat → Bytes → Prop) (Q : α → Prop) : Cells α → Prop
  | .done a => Q a
  | .read r k => ∀ v, I r v → (k v).Obeys I Q
  | .write r v k => I r v ∧ k.Obeys I Q

/-- The number `v` is written to the bits that end at `hi`, the least significant bit (`j = 0`) first. -/
def putBits (hi : Nat) (v : Nat → Bool) : Nat → Nat → Bytes → Bytes
  | 0, _, d => d
  | n + 1, j, d => putBits hi v n (j + 1) (putBit d (hi - j) (v j))

/-- The vector with field `f` set to `v`. -/
def putField (d : Bytes) (f : Field) (v : U64) : Bytes := putBits f.hi v.getLsbD (f.hi + 1 - f.lo) 0 d

/-- An edit: fields are set one after the other, each to a value computed from the vector so far. -/
abbrev Edit := List (Field × (Bytes → U64))

/-- The vector after an edit. -/
def Edit.apply (e : Edit) (d : Bytes) : Bytes := e.foldl (fun d x => putField d x.1 (x.2 d)) d

/-- The setter calls of an edit of header `p`. -/
def Edit.client {α : Type} (p : Nat) (e : Edit) (k : Client α) : Client α :=
  e.foldr (fun x k => .toVec p fun v => .set p x.1 (x.2 v) k) k

/-- For every edit: take a copy of the shared header `s` in `p`, edit the copy, overwrite `s` with it. -/
def editor {α : Type} (s p : Nat) (es : List Edit) (a : α) : Client α :=
  es.foldr (fun e k => .replace p s (e.client p (.replace s p k))) (.done a)

/-- What an editor is on the machine of cells. -/
def editorCells {α : Type} (s : Nat) (es : List Edit) (a : α) : Cells α :=
  es.foldr (fun e k => .read s fun v => .write s (e.apply v) k) (.done a)

/-- The vector after the first `i` edits. -/
def version (es : List Edit) (d : Bytes) (i : Nat) : Bytes := (es.take i).foldl (fun d e => e.apply d) d

/-- Look at the shared header `n` times, and return what was seen. -/
def viewer (s : Nat) : Nat → List Bytes → Client (List Bytes)
  | 0, acc => .done acc
  | n + 1, acc => .toVec s fun v => viewer s n (acc ++ [v])

/-- What a viewer is on the machine of cells. -/
def viewerCells (s : Nat) : Nat → List Bytes → Cells (List Bytes)
  | 0, acc => .done acc
  | n + 1, acc => .read s fun v => viewerCells s n (acc ++ [v])

end PacketRs.Spec
