import Verif.Heap
import Verif.Spec.Writes
/-!
# Spec of C107: a series of packets made from one template

A client that sends many packets differing in a few fields makes one, and for each packet to be sent either clones it or makes
it anew, sets the fields, adds the payload and serializes.
-/
namespace PacketRs.Spec

/-- A field of a header looked up by name is given a value: `let h: &mut T = (&mut pkt[name]).into(); h.set_f(v)`. -/
structure Change where
  name : String
  T : HeaderDef
  f : Field
  v : U64
  deriving DecidableEq, Repr

/-- One packet of the series: the fields to set, in this order, and the payload to append. -/
structure Shot where
  changes : List Change
  body : Bytes
  deriving DecidableEq, Repr

/-- What the changes make of a packet of one's own. -/
def Change.all (pk : Packet) (cs : List Change) : R Packet :=
  cs.foldlM (fun pk c => pk.withHeaderMut c.T c.name fun h => h.set c.f c.v) pk

/-- The calls on packet variable `k` that finish it and serialize it. -/
def Shot.finish (k : Nat) (s : Shot) : List Op :=
  s.changes.map (fun c => .set (.inPkt k c.name c.T) c.f c.v) ++ [.setPayload k s.body, .pktToVec k]

/-- Each packet of the series is a clone of packet variable `p`; the variables of the clones are `k`, `k + 1`, … -/
def byClone (p : Nat) : Nat → List Shot → List Op
  | _, [] => []
  | k, s :: ss => .pktClone p :: s.finish k ++ byClone p (k + 1) ss

/-- Each packet of the series is made anew, as the packet `pk`. -/
def byMaking (pk : Packet) : Nat → List Shot → List Op
  | _, [] => []
  | k, s :: ss => .adopt pk :: s.finish k ++ byMaking pk (k + 1) ss

/-- The calls are made one after the other; the world they leave and what they return. -/
def perform (chk : Bool) (w : World) : List Op → World × List (R Val)
  | [] => (w, [])
  | o :: os =>
    let r := perform chk (w.step chk o).1 os
    (r.1, (w.step chk o).2 :: r.2)

/-- The frames among what the calls return. -/
def sentFrames (rs : List (R Val)) : List Bytes :=
  rs.filterMap fun
    | .ok (.bytes b) => some b
    | _ => none

/-- The frame of a packet with these headers, the payload of the template and the payload of its own. -/
def Shot.frame (s : Shot) (pk : Packet) : Bytes := (pk.hdrs.map Hdr.data).flatten ++ pk.payload ++ s.body

/-- All fields set up to and including those of packet `k`. -/
def soFar (ss : List Shot) (k : Nat) : List Change := ((ss.take (k + 1)).map Shot.changes).flatten

/-- The writes among the changes that go to the header at position `i` of a packet with these headers. -/
def writesTo (hs : List Hdr) (i : Nat) (cs : List Change) : List Write :=
  (cs.filter fun c => hs.findIdx (fun h => h.name = c.name) = i).map fun c => .field c.f c.v

end PacketRs.Spec
