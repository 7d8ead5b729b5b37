import Verif.Show
import Verif.Heap
/-!
# Printing headers whose storage is shared

`show()` of owned headers and of packets as in `Verif.Show`, but on the storage of `Verif.Prog`: every bit printed is read
under the header's mutex, a panic poisons it, and what was printed before the panic stays printed.
-/
namespace PacketRs

/-- A computation that prints and uses the store: the outcome, the store and everything printed so far. -/
def SOut (α : Type) := Store → Text → R α × Store × Text

namespace SOut

instance : Monad SOut where
  pure a := fun s t => (.ok a, s, t)
  bind p f := fun s t => match p s t with
    | (.ok a, s', t') => f a s' t'
    | (.error e, s', t') => (.error e, s', t')

/-- `print!` of a finished string. -/
def print (x : Text) : SOut Unit := fun s t => (.ok (), s, t ++ x)

/-- An accessor called by thread 0, without interference. -/
def call {α : Type} (p : Prog α) : SOut α := fun s t => ((run 0 p s).1, (run 0 p s).2, t)

/-- Printing that uses no storage. -/
def out {α : Type} (p : Out α) : SOut α := fun s t => ((p t).1, s, (p t).2)

/-- `for i in l { .. }` -/
def forEach {α : Type} (l : List α) (f : α → SOut Unit) : SOut Unit :=
  match l with
  | [] => pure ()
  | a :: l => do f a; forEach l f

end SOut
open SOut

/-- The whole octets: /repo/src/headers.rs:407-410, 414-417. -/
def showOctetsS (chk : Bool) (r start d : Nat) : SOut Unit :=
  forEach ((List.range d).map fun k => start + 8 * k) fun i => do
    let x ← call (bitRangeP chk r (i + 7) i)
    print (hex2 (x.setWidth 8) ++ " ".toList)

/-- One line of `show()`: /repo/src/headers.rs:401-421. -/
def showFieldS (chk : Bool) (r : Nat) (f : Field) : SOut Unit := do
  print (padRight 20 f.name.toList ++ ": ".toList ++ decimal 4 f.width ++ " : ".toList)
  if f.width ≤ 8 then do
    let x ← call (bitRangeP chk r f.hi f.lo)
    print (hex2 (x.setWidth 8))
  else if f.width % 8 = 0 then
    showOctetsS chk r f.lo (f.width / 8)
  else do
    showOctetsS chk r f.lo (f.width / 8)
    let x ← call (bitRangeP chk r f.hi (f.hi - f.width % 8))
    print (hex2 (x.setWidth 8))
  print "\n".toList

/-- `show()` of an owned header: /repo/src/headers.rs:397-423. -/
def HRef.show (chk : Bool) (h : HRef) : SOut Unit := do
  print ("#### ".toList ++ padRight 16 h.ty.name.toList ++ " ".toList ++ "Size  ".toList ++ " ".toList ++ "Data".toList ++ "\n".toList)
  print "-------------------------------------------\n".toList
  forEach h.ty.fields fun f => showFieldS chk h.ref f

/-- `Packet::show`: /repo/src/packet.rs:360-376; once `to_vec` has returned no storage is used. -/
def PRef.show (chk : Bool) (p : PRef) : SOut Unit := do
  forEach p.hdrs fun h => h.show chk
  let v ← call (pktToVecP p)
  out (showBytes v)

end PacketRs
