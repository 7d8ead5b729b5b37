import Verif.Encap
/-!
# Reference counts of the storage of headers

`Verif.Heap` never frees a cell.  In the crate a header holds an `Arc` (/repo/src/headers.rs:299-302), which counts its
holders and frees the storage when the last one is dropped.  Here every call is listed with what it does to the counts, in
the order of the code, and variables can be dropped.

Listed are the `Arc`s of the caller's variables.  Headers that a builder or a parser makes and forgets again before it
returns are not (they are counted up and down inside the call).
-/
namespace PacketRs

/-- What happens to one `Arc`. -/
inductive ArcEv where
  /-- `Arc::new` -/
  | new (r : Nat)
  /-- `Arc::clone` -/
  | clone (r : Nat)
  /-- the storage is accessed through the `Arc` -/
  | use (r : Nat)
  /-- an `Arc` goes out of scope -/
  | drop (r : Nat)
  deriving DecidableEq, Repr

/-- The strong count of every cell; zero if the cell is not allocated (not yet, or freed). -/
abbrev Arcs := Nat → Nat

/-- The effect of one event on the counts; `none` if storage is used that is not allocated, or allocated twice. -/
def ArcEv.step (a : Arcs) : ArcEv → Option Arcs
  | .new r => if a r = 0 then some (fun x => if x = r then 1 else a x) else none
  | .clone r => if a r = 0 then none else some (fun x => if x = r then a x + 1 else a x)
  | .use r => if a r = 0 then none else some a
  | .drop r => if a r = 0 then none else some (fun x => if x = r then a x - 1 else a x)

/-- The effect of a sequence of events. -/
def ArcEv.run (a : Arcs) : List ArcEv → Option Arcs
  | [] => some a
  | e :: es => (e.step a).bind fun a => run a es

/-- The cells of headers. -/
def refsOf (l : List HRef) : List Nat := l.map HRef.ref

/-- A statement of the program: a call, a call of a builder that takes an inner packet, or the end of a variable's life. -/
inductive Stmt where
  | call (o : Op)
  /-- a builder of /repo/src/utils.rs called with packet variable `p`, which is moved -/
  | build (p : Nat) (e : Encap)
  /-- `drop(h)` of a header variable, or the end of its scope -/
  | dropHdr (h : Nat)
  /-- `drop(p)` of a packet variable, or the end of its scope -/
  | dropPkt (p : Nat)

namespace World

/-- The `Arc` events of an access to the header at a place. -/
def useAt (w : World) (x : Place) : List ArcEv :=
  match w.resolve x with
  | .ok h => [.use h.ref]
  | .error _ => []

/-- The `Arc` events of one call, in order.  A call that panics half way may do fewer of the `use`s listed. -/
def events (w : World) : Op → List ArcEv
  | .new _ | .ofVec _ _ => [.new w.next] -- /repo/src/headers.rs:329-332, 450-454
  | .clone x => -- /repo/src/headers.rs:424-428
    match w.resolve x with
    | .ok h => [.clone h.ref]
    | .error _ => []
  | .get x _ | .set x _ _ | .bytes x _ _ | .setBytes x _ _ _ | .toVec x => w.useAt x
  | .replace x y => -- /repo/src/headers.rs:392-396
    match w.resolve x with
    | .ok _ => w.useAt x ++ w.useAt y
    | .error _ => []
  | .pktNew | .setPayload _ _ | .pktLen _ => []
  | .adopt q => (List.range' w.next q.hdrs.length).map .new
  | .push _ _ | .insert _ _ => [] -- `to_owned` moves: /repo/src/headers.rs:495-497
  | .pop p => -- /repo/src/packet.rs:143-147
    match w.pkt? p with
    | some q => (refsOf (q.hdrs.drop (q.hdrs.length - 1))).map .drop
    | none => []
  | .remove p i => -- /repo/src/packet.rs:160-164
    match w.pkt? p with
    | some q => (refsOf ((q.hdrs.drop i).take 1)).map .drop
    | none => []
  | .pktClone p => -- /repo/src/packet.rs:393-400
    match w.pkt? p with
    | some q => (refsOf q.hdrs).map .clone
    | none => []
  | .add p q => -- /repo/src/packet.rs:78-83: the headers of the right operand are cloned, then it is dropped
    if p = q then [] else
    match w.pkt? p, w.pkt? q with
    | some _, some b => (refsOf b.hdrs).map .clone ++ (refsOf b.hdrs).map .drop
    | _, _ => []
  | .pktToVec p =>
    match w.pkt? p with
    | some q => (refsOf q.hdrs).map .use
    | none => []
  | .compare p q => -- /repo/src/packet.rs:326-329
    match w.pkt? p, w.pkt? q with
    | some a, some b => (refsOf b.hdrs).map .use ++ (refsOf a.hdrs).map .use
    | _, _ => []
  | .assign p name h => -- /repo/src/packet.rs:68-73: the old header is dropped; without one, `h` while unwinding
    match w.hdr? h, w.pkt? p with
    | some x, some q =>
      match q.hdrs.find? (fun g => g.ty.name = name) with
      | some g => [.drop g.ref]
      | none => [.drop x.ref]
    | _, _ => []
  | .compareSlice p _ =>
    match w.pkt? p with
    | some q => (refsOf q.hdrs).map .use
    | none => []

/-- Drop the packet variable `p`; the headers go in order. -/
def dropPkt (w : World) (p : Nat) : World × List ArcEv :=
  match w.pkt? p with
  | some q => ({ w with ps := w.ps.set p none }, (refsOf q.hdrs).map .drop)
  | none => (w, [])

/-- Effect, result and `Arc` events of one statement.  A builder owns its inner packet: if it does not end with
`pkt + inner_pkt`, or panics before, the inner packet is dropped when it returns or unwinds. -/
def stmt (chk : Bool) (w : World) : Stmt → World × R Val × List ArcEv
  | .call o =>
    let es := w.events o
    let (w, v) := w.step chk o
    (w, v, es)
  | .dropHdr h =>
    match w.hdr? h with
    | some x => ({ w with hs := w.hs.set h none }, .ok .unit, [.drop x.ref])
    | none => (w, .ok .unit, [])
  | .dropPkt p =>
    let (w, es) := w.dropPkt p
    (w, .ok .unit, es)
  | .build p e =>
    match w.pkt? p with
    | none => (w, .ok .unit, [])
    | some q =>
      let es₁ := w.events (.pktToVec p)
      match w.step chk (.pktToVec p) with
      | (w, .ok (.bytes v)) =>
        match e.outer v q.len with
        | .error f =>
          let (w, es₂) := w.dropPkt p
          (w, .error f, es₁ ++ es₂)
        | .ok o =>
          let n := w.ps.length
          let es₂ := w.events (.adopt o)
          let (w, _) := w.step chk (.adopt o)
          if e.keeps then
            let es₃ := w.events (.add n p)
            let (w, r) := w.step chk (.add n p)
            (w, r, es₁ ++ es₂ ++ es₃)
          else
            let (w, es₃) := w.dropPkt p
            (w, .ok .unit, es₁ ++ es₂ ++ es₃)
      | (w, r) =>
        let (w, es₂) := w.dropPkt p
        (w, r, es₁ ++ es₂)

/-- Perform a history: the world at the end and all `Arc` events, `none` if a call hangs. -/
def runStmts (chk : Bool) (w : World) : List Stmt → Option (World × List ArcEv)
  | [] => some (w, [])
  | s :: ss =>
    match w.stmt chk s with
    | (_, .error .deadlock, _) => none
    | (w', _, es) => (w'.runStmts chk ss).map fun (w'', es') => (w'', es ++ es')

/-- The results of the statements of a history, up to a call that hangs. -/
def outcomes (chk : Bool) (w : World) : List Stmt → List (R Val)
  | [] => []
  | s :: ss =>
    match w.stmt chk s with
    | (_, .error .deadlock, _) => [.error .deadlock]
    | (w', v, _) => v :: w'.outcomes chk ss

end World
end PacketRs
