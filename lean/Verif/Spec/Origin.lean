import Verif.Heap
/-!
# Which constructor call a header comes from

A bookkeeping of a history of API calls that knows nothing about storage: every header carries the
number of the call that made it (and its position among the headers made by that call); `clone`,
`+`, the conversions and moves keep it.  Payloads and contents are not tracked.
-/
namespace PacketRs.Spec

/-- A header: its type, the call that made it, its position among the headers made by that call. -/
structure Born where
  ty : HeaderDef
  call : Nat
  pos : Nat
  deriving DecidableEq, Repr

/-- Header variables and packet variables after `time` calls. -/
structure Family where
  time : Nat
  hs : List (Option Born)
  ps : List (Option (List Born))
  deriving DecidableEq, Repr

namespace Family

def init : Family := ⟨0, [], []⟩

/-- The header a place denotes. -/
def find (g : Family) : Place → Option Born
  | .var h => (g.hs[h]?).join
  | .inPkt p name T => do
    let q ← (g.ps[p]?).join
    let b ← q.find? (fun b => b.ty.name = name)
    if b.ty = T then some b else none

/-- Replace the live packet `p`. -/
def upd (g : Family) (p : Nat) (f : List Born → List Born) : Family :=
  { g with ps := g.ps.modify p (Option.map f) }

/-- The first header with this name exchanged for `b`; nothing if there is none. -/
def swapIn (name : String) (b : Born) (l : List Born) : List Born :=
  match l.findIdx? (fun c => c.ty.name = name) with
  | some i => l.set i b
  | none => l

/-- The effect of a call on who holds which header. -/
def act (g : Family) : Op → Family
  | .new T => { g with hs := g.hs ++ [some ⟨T, g.time, 0⟩] }
  | .ofVec T _ => { g with hs := g.hs ++ [some ⟨T, g.time, 0⟩] }
  | .clone x => match g.find x with
    | some b => { g with hs := g.hs ++ [some b] }
    | none => g
  | .pktNew => { g with ps := g.ps ++ [some []] }
  | .adopt q => { g with ps := g.ps ++ [some (q.hdrs.mapIdx fun i h => ⟨h.ty, g.time, i⟩)] }
  | .push p h => match (g.hs[h]?).join, (g.ps[p]?).join with
    | some b, some _ => { g.upd p (fun l => l ++ [b]) with hs := g.hs.set h none }
    | _, _ => g
  | .insert p h => match (g.hs[h]?).join, (g.ps[p]?).join with
    | some b, some _ => { g.upd p (fun l => b :: l) with hs := g.hs.set h none }
    | _, _ => g
  | .pop p => g.upd p List.dropLast
  | .remove p i => g.upd p (fun l => l.eraseIdx i)
  | .pktClone p => match (g.ps[p]?).join with
    | some l => { g with ps := g.ps ++ [some l] }
    | none => g
  | .add p q => match (g.ps[p]?).join, (g.ps[q]?).join with
    | some a, some b => if p = q then g else { g with ps := (g.ps.set p none).set q none ++ [some (a ++ b)] }
    | _, _ => g
  | .assign p name h => match (g.hs[h]?).join, (g.ps[p]?).join with
    | some b, some _ => { g.upd p (fun l => swapIn name b l) with hs := g.hs.set h none }
    | _, _ => g
  | _ => g

/-- One call. -/
def next (g : Family) (o : Op) : Family := { g.act o with time := g.time + 1 }

/-- A history. -/
def after (ops : List Op) : Family := ops.foldl next init

end Family

/-- The header a call works on, if it is a call that reads or writes one. -/
def target : Op → Option Place
  | .get x _ | .set x _ _ | .bytes x _ _ | .setBytes x _ _ _ | .toVec x | .replace x _ => some x
  | _ => none

/-- The call changes which headers or payload the packet variable `p` has (or moves it away). -/
def reshapes (p : Nat) : Op → Bool
  | .push q _ | .insert q _ | .pop q | .remove q _ | .setPayload q _ | .assign q _ _ => p = q
  | .add a b => p = a ∨ p = b
  | _ => false

end PacketRs.Spec

namespace PacketRs

/-- What `p.to_vec()` returns in `w`. -/
def World.serialize (chk : Bool) (w : World) (p : Nat) : R Val := (w.step chk (.pktToVec p)).2

/-- `w` is reached by some history from nothing. -/
def World.Reachable (chk : Bool) (w : World) : Prop := ∃ ops, World.init.runOps chk ops = some w

end PacketRs
