import Verif.Heap
import Verif.Conc
import Verif.Spec.Race
/-!
# Specification vocabulary: what a thread that serialises a packet can see

A setter writes its field bit by bit, from the least significant bit on.  The states of the storage while
a thread makes a list of setter calls are therefore given by how many single bits have been written.
-/
namespace PacketRs.Spec

/-- One bit written: vector, bit number in network order, new value. -/
structure BitWrite where
  ref : Nat
  bit : Nat
  val : Bool
  deriving DecidableEq, Repr

/-- One setter call: vector, field, value. -/
structure SetCall where
  ref : Nat
  field : Field
  val : U64
  deriving DecidableEq, Repr

/-- The field is not empty and lies inside the vector. -/
def SetCall.Ok (L : Nat → Nat) (c : SetCall) : Prop := c.field.lo ≤ c.field.hi ∧ c.field.hi < 8 * L c.ref

/-- The bits a call writes, in order: the least significant bit of the value goes to the last bit of the
field. -/
def SetCall.writes (c : SetCall) : List BitWrite :=
  (List.range (c.field.hi + 1 - c.field.lo)).map fun j => ⟨c.ref, c.field.hi - j, c.val.getLsbD j⟩

/-- Bit `i` of vector `r` after the writes `ws`: the last one wins. -/
def bitAfter (m : Store) (ws : List BitWrite) (r i : Nat) : Bool :=
  ws.foldl (fun b w => if w.ref = r ∧ w.bit = i then w.val else b) (netBit (m r).bytes i)

/-- `d` is what vector `r` contains after the writes `ws`. -/
def Holds (m : Store) (ws : List BitWrite) (r : Nat) (d : Bytes) : Prop :=
  d.length = (m r).bytes.length ∧ ∀ i, i < 8 * d.length → netBit d i = bitAfter m ws r i

/-- `v` is a concatenation of contents of the vectors `rs`, each taken at some moment not before `p`
writes have been made, the moments in order. -/
inductive Snapshots (m : Store) (ws : List BitWrite) : Nat → List Nat → Bytes → Prop where
  | nil (p : Nat) : Snapshots m ws p [] []
  | cons {p q r : Nat} {rs : List Nat} {d v : Bytes} : p ≤ q → q ≤ ws.length → Holds m (ws.take q) r d →
      Snapshots m ws q rs v → Snapshots m ws p (r :: rs) (d ++ v)

/-- As `Snapshots`, with the moment `e` of the last one. -/
inductive SnapshotsTo (m : Store) (ws : List BitWrite) : Nat → List Nat → Bytes → Nat → Prop where
  | nil (p : Nat) : SnapshotsTo m ws p [] [] p
  | cons {p q r e : Nat} {rs : List Nat} {d v : Bytes} : p ≤ q → q ≤ ws.length → Holds m (ws.take q) r d →
      SnapshotsTo m ws q rs v e → SnapshotsTo m ws p (r :: rs) (d ++ v) e

/-- A computation that reads vectors, each in one critical section, and answers; which vector is next may
depend on what was read. -/
inductive Look (α : Type) where
  | done (a : α)
  | look (r : Nat) (k : Bytes → Look α)

/-- `a` is an answer of the computation if each vector is seen as at some moment not before `p` writes
have been made, the moments in order. -/
inductive Answers {α : Type} (m : Store) (ws : List BitWrite) : Nat → Look α → α → Prop where
  | done (p : Nat) (a : α) : Answers m ws p (.done a) a
  | look {p q r : Nat} {k : Bytes → Look α} {d : Bytes} {a : α} : p ≤ q → q ≤ ws.length → Holds m (ws.take q) r d →
      Answers m ws q (k d) a → Answers m ws p (.look r k) a

/-- The thread that makes the calls one after the other and returns `a`. -/
def setAll {α : Type} (a : α) : List SetCall → Client α
  | [] => .done a
  | c :: cs => .set c.ref c.field c.val (setAll a cs)

/-- Thread 0 serialises the packet while thread 1 makes the calls. -/
def readWrite (chk : Bool) (m : Store) (p : PRef) (calls : List SetCall) : Sys Bytes :=
  ⟨m, fun t => match t with
    | 0 => pktToVecP p
    | 1 => (setAll [] calls).prog chk
    | _ => .ret []⟩

/-- Thread 0 compares `p` with `q` while thread 1 makes the calls. -/
def compareWrite (chk : Bool) (m : Store) (p q : PRef) (calls : List SetCall) : Sys Bool :=
  ⟨m, fun t => match t with
    | 0 => compareP p q
    | 1 => (setAll false calls).prog chk
    | _ => .ret false⟩

/-- Every header of the packet has its declared size. -/
def Sized (L : Nat → Nat) (p : PRef) : Prop := ∀ h ∈ p.hdrs, L h.ref = h.ty.size

/-- The serialization of `p` after the writes `ws`. -/
def PktHolds (m : Store) (ws : List BitWrite) (p : PRef) (v : Bytes) : Prop :=
  ∃ f : Nat → Bytes, (∀ h ∈ p.hdrs, Holds m ws h.ref (f h.ref)) ∧ v = (p.hdrs.map fun h => f h.ref).flatten ++ p.payload

/-- Some single write to one of the vectors `rs` changes the bit it writes. -/
def Changes (m : Store) (ws : List BitWrite) (rs : List Nat) : Prop :=
  ∃ n w, ws[n]? = some w ∧ w.ref ∈ rs ∧ bitAfter m (ws.take n) w.ref w.bit ≠ w.val

end PacketRs.Spec
