import Verif.Prog
/-!
# Threads sharing headers

`Header: Send` (/repo/src/headers.rs:37) and `Arc<Mutex<..>>` storage (/repo/src/headers.rs:129-133) let
several threads work on clones of one header.  A system is a store and one program per thread; a step
of thread `t` executes the next primitive (lock, read, write or unlock) of its program.  A schedule is
any sequence of steps.  `Mutex` acquire/release makes the interleaving semantics exact here: all
accesses to the bytes happen while the guard is held.
-/
namespace PacketRs

/-- A store and the rest of every thread's program; threads that are not running anything are `ret`. -/
structure Sys (α : Type) where
  mem : Store
  th : Nat → Prog α

namespace Sys
variable {α : Type}

/-- Thread `t` continues as `p`. -/
def setTh (s : Sys α) (t : Nat) (p : Prog α) : Nat → Prog α := fun x => if x = t then p else s.th x

/-- One step of thread `t`; `none` if the thread has finished or is blocked on a mutex.
`lock` waits while the mutex is held; on a poisoned mutex `lock().unwrap()` panics.  A panic releases
and poisons every mutex held by the thread (`Store.unwind`). -/
def step (t : Nat) (s : Sys α) : Option (Sys α) :=
  match s.th t with
  | .ret _ => none
  | .died _ => none
  | .panic f => some ⟨s.mem.unwind t, s.setTh t (.died f)⟩
  | .lock r k =>
    if (s.mem r).owner ≠ none then none
    else if (s.mem r).poisoned then some ⟨s.mem, s.setTh t (.panic .poisoned)⟩
    else some ⟨s.mem.put r { s.mem r with owner := some t }, s.setTh t k⟩
  | .load r k => some ⟨s.mem, s.setTh t (k (s.mem r).bytes)⟩
  | .store r b k => some ⟨s.mem.put r { s.mem r with bytes := b }, s.setTh t k⟩
  | .unlock r k => some ⟨s.mem.put r { s.mem r with owner := none }, s.setTh t k⟩

/-- `s'` can be reached from `s` by some schedule. -/
inductive Reach (s : Sys α) : Sys α → Prop where
  | refl : Reach s s
  | step {s' s'' : Sys α} (t : Nat) : Reach s s' → s'.step t = some s'' → Reach s s''

/-- The thread has returned or died. -/
def _root_.PacketRs.Prog.Finished : Prog α → Prop
  | .ret _ => True
  | .died _ => True
  | _ => False

/-- Every thread has returned or died. -/
def Final (s : Sys α) : Prop := ∀ t, (s.th t).Finished

end Sys

/-- A thread as user code: it calls accessors of the headers it can reach (by their storage), and what
it does next may depend on what earlier calls returned.  Getter, setter, `bytes`, `set_bytes`,
`to_vec`, `replace`: /repo/src/headers.rs:334-364, 392-396, 429-432. -/
inductive Client (α : Type) where
  | done (a : α)
  | get (r : Nat) (f : Field) (k : U64 → Client α)
  | set (r : Nat) (f : Field) (v : U64) (k : Client α)
  | bytes (r msb lsb : Nat) (k : Bytes → Client α)
  | setBytes (r msb lsb : Nat) (v : Bytes) (k : Client α)
  | toVec (r : Nat) (k : Bytes → Client α)
  | replace (r o : Nat) (k : Client α)

/-- The thread's program, lock by lock. -/
def Client.prog {α : Type} (chk : Bool) : Client α → Prog α
  | .done a => .ret a
  | .get r f k => (getP chk r f).bind fun v => (k v).prog chk
  | .set r f v k => (setP r f v).bind fun _ => k.prog chk
  | .bytes r msb lsb k => (bytesP chk r msb lsb).bind fun v => (k v).prog chk
  | .setBytes r msb lsb v k => (setBytesP chk r msb lsb v).bind fun _ => k.prog chk
  | .toVec r k => (toVecP r).bind fun v => (k v).prog chk
  | .replace r o k => (replaceP r o).bind fun _ => k.prog chk

end PacketRs
