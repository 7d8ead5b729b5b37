import Verif.Drop
/-!
# Specification: who holds the storage of a header

The program's variables hold cells: a header variable one, a packet variable one for each of its headers.  A cell is needed
as long as someone holds it.
-/
namespace PacketRs.Spec

/-- The cell a header variable holds; none once it is moved or dropped. -/
def heldH : Option HRef → List Nat
  | none => []
  | some x => [x.ref]

/-- The cells a packet variable holds. -/
def heldP : Option PRef → List Nat
  | none => []
  | some q => q.hdrs.map HRef.ref

/-- The cells the variables hold, each as often as it is held. -/
def held (w : World) : List Nat := w.hs.flatMap heldH ++ w.ps.flatMap heldP

/-- The cell an event is about. -/
def cellOf : ArcEv → Nat
  | .new r | .clone r | .use r | .drop r => r

/-- How many `Arc`s of cell `r` have been made. -/
def made (es : List ArcEv) (r : Nat) : Nat := es.count (.new r) + es.count (.clone r)

/-- How many `Arc`s of cell `r` have been dropped. -/
def ended (es : List ArcEv) (r : Nat) : Nat := es.count (.drop r)

/-- Memory safety of a sequence of events: a cell is allocated at most once and before anything else happens to it; each
use, clone and drop finds more `Arc`s made than dropped, so nothing is used after it was freed or freed twice. -/
def Safe (es : List ArcEv) : Prop := ∀ before e after, es = before ++ e :: after →
  match e with
  | .new r => ∀ x ∈ before, cellOf x ≠ r
  | .clone r | .use r | .drop r => ended before r < made before r

/-- The cell has been allocated. -/
def Allocated (es : List ArcEv) (r : Nat) : Prop := .new r ∈ es

/-- The cell has been freed: the last of its `Arc`s is dropped. -/
def Freed (es : List ArcEv) (r : Nat) : Prop := Allocated es r ∧ ended es r = made es r

/-- The header variable and the packet variable a place mentions. -/
def placeVars : Place → List Nat × List Nat
  | .var h => ([h], [])
  | .inPkt p _ _ => ([], [p])

/-- The header variables and the packet variables a call mentions. -/
def opVars : Op → List Nat × List Nat
  | .new _ | .ofVec _ _ | .pktNew | .adopt _ => ([], [])
  | .clone x | .get x _ | .set x _ _ | .bytes x _ _ | .setBytes x _ _ _ | .toVec x => placeVars x
  | .replace x y => ((placeVars x).1 ++ (placeVars y).1, (placeVars x).2 ++ (placeVars y).2)
  | .push p h | .insert p h | .assign p _ h => ([h], [p])
  | .pop p | .remove p _ | .setPayload p _ | .pktClone p | .pktToVec p | .compareSlice p _ | .pktLen p => ([], [p])
  | .add p q | .compare p q => ([], [p, q])

/-- The header variables and the packet variables a statement mentions. -/
def stmtVars : Stmt → List Nat × List Nat
  | .call o => opVars o
  | .build p _ | .dropPkt p => ([], [p])
  | .dropHdr h => ([h], [])

/-- The two worlds have the same memory and, apart from the listed ones, the same variables. -/
structure SameExcept (hs ps : List Nat) (w w' : World) : Prop where
  mem : w'.mem = w.mem
  next : w'.next = w.next
  hlen : w'.hs.length = w.hs.length
  plen : w'.ps.length = w.ps.length
  hdr : ∀ h, h ∉ hs → w'.hs[h]? = w.hs[h]?
  pkt : ∀ p, p ∉ ps → w'.ps[p]? = w.ps[p]?

end PacketRs.Spec
