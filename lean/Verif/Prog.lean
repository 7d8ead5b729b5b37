import Verif.Headers
/-!
# Shared header storage: programs over mutexes

Every owned header holds `data: ProtectedArray { a: Arc<Mutex<Vec<u8>>> }`
(/repo/src/headers.rs:129-133, 299-302).  This file models that storage: a store of mutex-protected
byte vectors, programs that lock, read, write and unlock them, and the methods of `make_header!`
written as such programs, lock by lock.  `Verif.Bits` gives the same methods as functions on a plain
byte list; that the two agree is proved in `Verif.Lemmas.Prog`.

Simplifications: a reference count is not modelled (cells are never reused; dropping an `Arc` has no
other effect).  A reference to a cell is a natural number, and a cell exists for every number; which
ones have been allocated is tracked in `Verif.Heap`.
-/
namespace PacketRs

/-- `Mutex<Vec<u8>>`: /repo/src/headers.rs:132.  `owner` is the thread that holds the guard. -/
structure Cell where
  bytes : Bytes
  poisoned : Bool
  owner : Option Nat
  deriving DecidableEq, Repr

/-- What the `Arc`s point to. -/
abbrev Store := Nat → Cell

/-- Replace the cell `r`. -/
def Store.put (s : Store) (r : Nat) (c : Cell) : Store := fun x => if x = r then c else s x

/-- A computation of one thread.  `panic` is a panic about to unwind, `died` a thread that has
finished unwinding. -/
inductive Prog (α : Type) where
  | ret (a : α)
  | panic (f : Fault)
  | died (f : Fault)
  /-- `let guard = self.data.a.lock().unwrap();` -/
  | lock (r : Nat) (k : Prog α)
  /-- read the vector through the guard -/
  | load (r : Nat) (k : Bytes → Prog α)
  /-- write the vector through the guard -/
  | store (r : Nat) (b : Bytes) (k : Prog α)
  /-- the guard is dropped -/
  | unlock (r : Nat) (k : Prog α)

namespace Prog

def bind {α β : Type} : Prog α → (α → Prog β) → Prog β
  | ret a, f => f a
  | panic e, _ => panic e
  | died e, _ => died e
  | lock r k, f => lock r (k.bind f)
  | load r k, f => load r (fun d => (k d).bind f)
  | store r b k, f => store r b (k.bind f)
  | unlock r k, f => unlock r (k.bind f)

instance : Monad Prog where
  pure := ret
  bind := bind

/-- `lock().unwrap()` as a statement -/
def lockM (r : Nat) : Prog Unit := lock r (ret ())
/-- the vector behind the guard -/
def loadM (r : Nat) : Prog Bytes := load r ret
def storeM (r : Nat) (b : Bytes) : Prog Unit := store r b (ret ())
def unlockM (r : Nat) : Prog Unit := unlock r (ret ())

/-- A computation that touches no storage but may panic. -/
def ofR {α : Type} : R α → Prog α
  | .ok a => ret a
  | .error e => panic e

end Prog

/-- Unwinding drops all guards of the thread; a guard dropped by a panicking thread poisons its
mutex (std `MutexGuard::drop`). -/
def Store.unwind (t : Nat) (s : Store) : Store := fun r =>
  if (s r).owner = some t then { s r with poisoned := true, owner := none } else s r

/-- Run a program of thread `t` without interference.  `lock` blocks forever if the mutex is held
(`Fault.deadlock`); on a poisoned mutex `lock()` returns `Err` and `.unwrap()` panics (the guard
inside the error is dropped again; the mutex stays poisoned). -/
def run {α : Type} (t : Nat) : Prog α → Store → R α × Store
  | .ret a, s => (.ok a, s)
  | .panic f, s => (.error f, s.unwind t)
  | .died f, s => (.error f, s)
  | .lock r k, s =>
    if (s r).owner ≠ none then (.error .deadlock, s)
    else if (s r).poisoned then (.error .poisoned, s.unwind t)
    else run t k (s.put r { s r with owner := some t })
  | .load r k, s => run t (k (s r).bytes) s
  | .store r b k, s => run t k (s.put r { s r with bytes := b })
  | .unlock r k, s => run t k (s.put r { s r with owner := none })

open Prog hiding bind

/-- Loop body of `bit_range`: /repo/src/headers.rs:309-311.  The guard `map` is dropped at the end of
every iteration. -/
def bitRangeStepP (r : Nat) (value : U64) (i : Nat) : Prog U64 := do
  let value := value <<< 1
  lockM r
  let map ← loadM r
  let b ← ofR (index map (i / 8))
  let value := value ||| ((b >>> (8 - i % 8 - 1)) &&& 1#8).setWidth 64
  unlockM r
  pure value

/-- The last line of `bit_range`: /repo/src/headers.rs:313. -/
def bitRangeEnd (chk : Bool) (msb lsb : Nat) (value : U64) : R U64 := do
  let w ← usizeAdd chk (← usizeSub chk msb lsb) 1
  let s ← usizeSub chk 64 w
  let v ← shl64 chk value s
  shr64 chk v s

/-- `bit_range(msb, lsb)` of an owned header whose storage is `r`: /repo/src/headers.rs:304-314. -/
def bitRangeP (chk : Bool) (r msb lsb : Nat) : Prog U64 := do
  let value ← (inclRange lsb msb).foldlM (bitRangeStepP r) 0#64
  ofR (bitRangeEnd chk msb lsb value)

/-- Loop body of `set_bit_range`: /repo/src/headers.rs:319-322. -/
def setBitStepP (r : Nat) (value : U64) (i : Nat) : Prog U64 := do
  lockM r
  let map ← loadM r
  let b ← ofR (index map (i / 8))
  storeM r (map.set (i / 8) (b &&& ~~~(1#8 <<< (8 - i % 8 - 1))))
  let map ← loadM r
  let b ← ofR (index map (i / 8))
  storeM r (map.set (i / 8) (b ||| ((value &&& 1#64).setWidth 8 <<< (8 - i % 8 - 1))))
  unlockM r
  pure (value >>> 1)

/-- `set_bit_range(msb, lsb, value)`: /repo/src/headers.rs:315-324. -/
def setBitRangeP (r msb lsb : Nat) (value : U64) : Prog Unit := do
  let _ ← (inclRange lsb msb).reverse.foldlM (setBitStepP r) value
  pure ()

/-- `bytes(msb, lsb)`: /repo/src/headers.rs:346-355. -/
def bytesP (chk : Bool) (r msb lsb : Nat) : Prog Bytes := do
  let w ← ofR (do usizeAdd chk (← usizeSub chk msb lsb) 1)
  if w % 8 ≠ 0 then Prog.panic .assert
  else
    (inclRangeStep8 lsb msb).foldlM
      (fun value i => do
        let v ← bitRangeP chk r (i + 7) i
        pure (value ++ [v.setWidth 8])) []

/-- `set_bytes(msb, lsb, value)`: /repo/src/headers.rs:356-364. -/
def setBytesP (chk : Bool) (r msb lsb : Nat) (value : Bytes) : Prog Unit := do
  let w ← ofR (do usizeAdd chk (← usizeSub chk msb lsb) 1)
  if value.length * 8 ≠ w then Prog.panic .assert
  else do
    let _ ← (inclRangeStep8 lsb msb).foldlM
      (fun (iter : Nat) i => do
        let b ← ofR (index value iter)
        setBitRangeP r (i + 7) i (b.setWidth 64)
        pure (iter + 1)) 0
    pure ()

/-- `replace(&mut self, other)`: /repo/src/headers.rs:392-396.  The guard on `other` is a temporary
dropped at the end of the statement; the guard `map` on `self` lives to the end of the body. -/
def replaceP (self other : Nat) : Prog Unit := do
  lockM self
  storeM self []
  lockM other
  let o ← loadM other
  let map ← loadM self
  storeM self (map ++ o)
  unlockM other
  unlockM self

/-- `to_vec(&self)`: /repo/src/headers.rs:429-432. -/
def toVecP (r : Nat) : Prog Bytes := do
  lockM r
  let map ← loadM r
  unlockM r
  pure map

/-- The getter `$field(&self)`: /repo/src/headers.rs:334-339. -/
def getP (chk : Bool) (r : Nat) (f : Field) : Prog U64 := bitRangeP chk r f.hi f.lo

/-- The setter `set_$field(&mut self, value)`: /repo/src/headers.rs:340-344. -/
def setP (r : Nat) (f : Field) (v : U64) : Prog Unit := setBitRangeP r f.hi f.lo v

end PacketRs
