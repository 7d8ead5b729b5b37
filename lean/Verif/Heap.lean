import Verif.Prog
import Verif.Packet
/-!
# Headers and packets as shared objects

`Verif.Packet` treats a packet as the list of its headers' contents.  In the crate a header is a
pointer to storage that `clone`, `+` and the `From<&Box<dyn Header>>` conversion share
(/repo/src/headers.rs:424-428, 455-463, 492-494; /repo/src/packet.rs:75-84, 393-400).  Here headers
are references into a store, and a history is a sequence of API calls on variables.

A call that panics leaves the store as the unwinding thread left it and the history goes on (the
panic was caught, or killed another thread); a call that hangs ends the history.
-/
namespace PacketRs

/-- An owned header: its type and the cell its `Arc` points to (/repo/src/headers.rs:299-302). -/
structure HRef where
  ty : HeaderDef
  ref : Nat
  deriving DecidableEq, Repr

/-- `struct Packet`: /repo/src/lib.rs:131-134. -/
structure PRef where
  hdrs : List HRef
  payload : Bytes
  deriving DecidableEq, Repr

/-- What a call returns. -/
inductive Val where
  | unit
  | word (v : U64)
  | bytes (b : Bytes)
  | bool (b : Bool)
  /-- `usize` -/
  | num (n : Nat)
  deriving DecidableEq, Repr

/-- `Packet::to_vec`: /repo/src/packet.rs:385-392. -/
def pktToVecP (p : PRef) : Prog Bytes := do
  let r ← p.hdrs.foldlM (fun r s => do
    let v ← toVecP s.ref
    pure (r ++ v)) []
  pure (r ++ p.payload)

/-- `Packet::len`: /repo/src/packet.rs:402-404 (takes no lock). -/
def PRef.len (p : PRef) : Nat := (p.hdrs.map (fun h => h.ty.size)).sum + p.payload.length

/-- `compare_with_slice`: /repo/src/packet.rs:340-358. -/
def compareSliceP (p : PRef) (b : Bytes) : Prog Bool :=
  let pktlen := p.len
  if pktlen ≠ b.length then pure false
  else do
    let a ← pktToVecP p
    let matching := ((a.zip b).filter (fun x => x.1 == x.2)).length
    if pktlen ≠ matching ∨ b.length ≠ matching then pure false else pure true

/-- `compare`: /repo/src/packet.rs:326-329. -/
def compareP (p q : PRef) : Prog Bool := do
  let a ← pktToVecP q
  compareSliceP p a

/-- The variables of a program and the store.  A moved-out variable is `none`. -/
structure World where
  mem : Store
  /-- cells `0 .. next-1` have been allocated -/
  next : Nat
  hs : List (Option HRef)
  ps : List (Option PRef)

/-- Before the first call. -/
def World.init : World := { mem := fun _ => ⟨[], false, none⟩, next := 0, hs := [], ps := [] }

/-- How a call names a header: a variable, or the header of a packet found by name and downcast to `T`
(`Index`/`IndexMut` with the `From` conversions, /repo/src/packet.rs:61-73, /repo/src/headers.rs:455-481;
`get_header`/`get_header_mut`, /repo/src/packet.rs:221-259, find the same header and return an error
instead of panicking). -/
inductive Place where
  | var (h : Nat)
  | inPkt (p : Nat) (name : String) (T : HeaderDef)
  deriving DecidableEq, Repr

/-- A call of the API. -/
inductive Op where
  /-- `T::new()` -/
  | new (T : HeaderDef)
  /-- `T::from(vec)`; the header constructors `Packet::ethernet(..)` etc. are of this form -/
  | ofVec (T : HeaderDef) (b : Bytes)
  /-- `x.clone()`; for a header in a packet also `T::from(&pkt[name])` -/
  | clone (x : Place)
  | get (x : Place) (f : Field)
  | set (x : Place) (f : Field) (v : U64)
  | bytes (x : Place) (msb lsb : Nat)
  | setBytes (x : Place) (msb lsb : Nat) (v : Bytes)
  | toVec (x : Place)
  /-- `x.replace(&y)` -/
  | replace (x y : Place)
  /-- `Packet::new()` -/
  | pktNew
  /-- a packet all of whose headers are newly made: the result of the parser and of the builders
  that take no inner packet -/
  | adopt (q : Packet)
  | push (p h : Nat)
  | insert (p h : Nat)
  | pop (p : Nat)
  | remove (p i : Nat)
  | setPayload (p : Nat) (b : Bytes)
  | pktClone (p : Nat)
  /-- `p + q` -/
  | add (p q : Nat)
  | pktToVec (p : Nat)
  | compare (p q : Nat)
  /-- `p[name] = Box::new(h)` -/
  | assign (p : Nat) (name : String) (h : Nat)
  | compareSlice (p : Nat) (b : Bytes)
  | pktLen (p : Nat)
  deriving DecidableEq, Repr

namespace World

/-- The live header variable `h`. -/
def hdr? (w : World) (h : Nat) : Option HRef := (w.hs[h]?).join

/-- The live packet variable `p`. -/
def pkt? (w : World) (p : Nat) : Option PRef := (w.ps[p]?).join

/-- The header a place denotes; panics like `unwrap()` and the downcasts (see `Place`). -/
def resolve (w : World) : Place → R HRef
  | .var h => match w.hdr? h with
    | some x => .ok x
    | none => .error .unwrapNone
  | .inPkt p name T => match w.pkt? p with
    | none => .error .unwrapNone
    | some q => match q.hdrs.find? (fun h => h.ty.name = name) with
      | none => .error .unwrapNone
      | some h => if h.ty = T then .ok h else .error .downcast

/-- `Arc::new(Mutex::new(data))`: /repo/src/headers.rs:330, 452. -/
def alloc (w : World) (T : HeaderDef) (b : Bytes) : World × HRef :=
  ({ w with mem := w.mem.put w.next ⟨b, false, none⟩, next := w.next + 1 }, ⟨T, w.next⟩)

/-- Allocate a list of headers. -/
def allocAll (w : World) : List Hdr → World × List HRef
  | [] => (w, [])
  | h :: hs =>
    let (w, x) := w.alloc h.ty h.data
    let (w, xs) := w.allocAll hs
    (w, x :: xs)

/-- Run an accessor program. -/
def access (w : World) (p : Prog Val) : World × R Val :=
  let r := run 0 p w.mem
  ({ w with mem := r.2 }, r.1)

/-- Run an accessor program on the header at a place. -/
def accessAt (w : World) (x : Place) (p : HRef → Prog Val) : World × R Val :=
  match w.resolve x with
  | .error e => (w, .error e)
  | .ok h => w.access (p h)

/-- Update the live packet variable `p`; nothing happens if it is not live (the program would not
compile). -/
def updPkt (w : World) (p : Nat) (f : PRef → PRef) : World × R Val :=
  match w.pkt? p with
  | none => (w, .ok .unit)
  | some q => ({ w with ps := w.ps.set p (some (f q)) }, .ok .unit)

/-- Put `x` in the place of the first header with this name. -/
def assignFirst (name : String) (x : HRef) : List HRef → List HRef
  | [] => []
  | h :: hs => if h.ty.name = name then x :: hs else h :: assignFirst name x hs

/-- Effect and result of one call. -/
def step (chk : Bool) (w : World) : Op → World × R Val
  | .new T => -- /repo/src/headers.rs:329-332
    let (w, x) := w.alloc T T.dflt
    ({ w with hs := w.hs ++ [some x] }, .ok .unit)
  | .ofVec T b => -- /repo/src/headers.rs:450-454
    let (w, x) := w.alloc T b
    ({ w with hs := w.hs ++ [some x] }, .ok .unit)
  | .clone x => -- /repo/src/headers.rs:424-428, 455-463: the new header has the same `Arc`
    match w.resolve x with
    | .error e => (w, .error e)
    | .ok h => ({ w with hs := w.hs ++ [some h] }, .ok .unit)
  | .get x f => w.accessAt x (fun h => (getP chk h.ref f).bind fun v => .ret (.word v))
  | .set x f v => w.accessAt x (fun h => (setP h.ref f v).bind fun _ => .ret .unit)
  | .bytes x msb lsb => w.accessAt x (fun h => (bytesP chk h.ref msb lsb).bind fun v => .ret (.bytes v))
  | .setBytes x msb lsb v => w.accessAt x (fun h => (setBytesP chk h.ref msb lsb v).bind fun _ => .ret .unit)
  | .toVec x => w.accessAt x (fun h => (toVecP h.ref).bind fun v => .ret (.bytes v))
  | .replace x y => -- the receiver is evaluated first
    match w.resolve x with
    | .error e => (w, .error e)
    | .ok h => w.accessAt y (fun o => (replaceP h.ref o.ref).bind fun _ => .ret .unit)
  | .pktNew => ({ w with ps := w.ps ++ [some ⟨[], []⟩] }, .ok .unit)
  | .adopt q =>
    let (w, xs) := w.allocAll q.hdrs
    ({ w with ps := w.ps ++ [some ⟨xs, q.payload⟩] }, .ok .unit)
  | .push p h => -- /repo/src/packet.rs:117-119; the header variable is moved
    match w.hdr? h with
    | none => (w, .ok .unit)
    | some x => match w.pkt? p with
      | none => (w, .ok .unit)
      | some q =>
        ({ w with hs := w.hs.set h none, ps := w.ps.set p (some { q with hdrs := q.hdrs ++ [x] }) }, .ok .unit)
  | .insert p h => -- /repo/src/packet.rs:129-131
    match w.hdr? h with
    | none => (w, .ok .unit)
    | some x => match w.pkt? p with
      | none => (w, .ok .unit)
      | some q =>
        ({ w with hs := w.hs.set h none, ps := w.ps.set p (some { q with hdrs := x :: q.hdrs }) }, .ok .unit)
  | .pop p => w.updPkt p (fun q => { q with hdrs := q.hdrs.dropLast }) -- /repo/src/packet.rs:143-147
  | .remove p i => w.updPkt p (fun q => { q with hdrs := q.hdrs.eraseIdx i }) -- /repo/src/packet.rs:160-164
  | .setPayload p b => w.updPkt p (fun q => { q with payload := q.payload ++ b }) -- /repo/src/packet.rs:179-181
  | .pktClone p => -- /repo/src/packet.rs:393-400
    match w.pkt? p with
    | none => (w, .ok .unit)
    | some q => ({ w with ps := w.ps ++ [some ⟨q.hdrs, q.payload⟩] }, .ok .unit)
  | .add p q => -- /repo/src/packet.rs:75-84; both operands are moved
    if p = q then (w, .ok .unit)
    else match w.pkt? p with
      | none => (w, .ok .unit)
      | some a => match w.pkt? q with
        | none => (w, .ok .unit)
        | some b =>
          ({ w with ps := ((w.ps.set p none).set q none) ++ [some ⟨a.hdrs ++ b.hdrs, a.payload⟩] }, .ok .unit)
  | .pktToVec p =>
    match w.pkt? p with
    | none => (w, .ok .unit)
    | some q => w.access ((pktToVecP q).bind fun v => .ret (.bytes v))
  | .compare p q =>
    match w.pkt? p with
    | none => (w, .ok .unit)
    | some a => match w.pkt? q with
      | none => (w, .ok .unit)
      | some b => w.access ((compareP a b).bind fun v => .ret (.bool v))
  | .assign p name h => -- /repo/src/packet.rs:68-73; the right operand is evaluated (and `h` moved) first
    match w.hdr? h with
    | none => (w, .ok .unit)
    | some x => match w.pkt? p with
      | none => (w, .ok .unit)
      | some q =>
        if q.hdrs.any (fun g => g.ty.name = name) then
          ({ w with hs := w.hs.set h none, ps := w.ps.set p (some { q with hdrs := assignFirst name x q.hdrs }) }, .ok .unit)
        else ({ w with hs := w.hs.set h none }, .error .unwrapNone)
  | .compareSlice p b =>
    match w.pkt? p with
    | none => (w, .ok .unit)
    | some a => w.access ((compareSliceP a b).bind fun v => .ret (.bool v))
  | .pktLen p => -- /repo/src/packet.rs:402-404
    match w.pkt? p with
    | none => (w, .ok .unit)
    | some a => (w, .ok (.num a.len))

/-- Perform a history; `none` if a call hangs. -/
def runOps (chk : Bool) (w : World) : List Op → Option World
  | [] => some w
  | o :: os =>
    match w.step chk o with
    | (_, .error .deadlock) => none
    | (w', _) => w'.runOps chk os

end World
end PacketRs
