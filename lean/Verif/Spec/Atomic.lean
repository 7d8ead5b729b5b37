import Verif.Conc
import Verif.Spec.Bits
import Verif.Spec.Race
/-!
# Specification: headers as arrays of atomic bits

What threads that share headers can rely on, without mutexes, bytes being masked or vectors being cleared
and refilled: a machine that reads and writes single bits, reads whole vectors and copies whole vectors,
one thread at a time, in any order.
-/
namespace PacketRs.Spec

/-- A thread of the machine. -/
inductive Micro (α : Type) where
  | done (a : α)
  /-- read bit `i` of vector `r` -/
  | read (r i : Nat) (k : Bool → Micro α)
  /-- write bit `i` of vector `r` -/
  | write (r i : Nat) (b : Bool) (k : Micro α)
  /-- read the whole vector -/
  | readAll (r : Nat) (k : Bytes → Micro α)
  /-- make vector `r` equal to vector `o` -/
  | copy (r o : Nat) (k : Micro α)

/-- Read the bits `lo`, `lo + 1`, ... (`n` of them) and pass on the list. -/
def readBits {α : Type} (r lo : Nat) : Nat → (List Bool → Micro α) → Micro α
  | 0, k => k []
  | n + 1, k => .read r lo fun b => readBits r (lo + 1) n fun bs => k (b :: bs)

/-- Write the bits of the number `v` that ends at bit `hi`, the least significant one (`j = 0`) first. -/
def writeBits {α : Type} (r hi : Nat) (v : Nat → Bool) (k : Micro α) : Nat → Nat → Micro α
  | 0, _ => k
  | n + 1, j => .write r (hi - j) (v j) (writeBits r hi v k n (j + 1))

/-- Read `n` octets from bit `lo` on. -/
def readOctets {α : Type} (r lo : Nat) : Nat → (Bytes → Micro α) → Micro α
  | 0, k => k []
  | n + 1, k => readBits r lo 8 fun bs => readOctets r (lo + 8) n fun v => k (BitVec.ofNat 8 (bitsNat bs) :: v)
where
  /-- The number with these bits, the most significant one first. -/
  bitsNat (bs : List Bool) : Nat := bs.foldl (fun n b => 2 * n + b.toNat) 0

/-- Write octets from bit `lo` on. -/
def writeOctets {α : Type} (r : Nat) : Nat → Bytes → Micro α → Micro α
  | _, [], k => k
  | lo, b :: v, k => writeBits r (lo + 7) b.getLsbD (writeOctets r (lo + 8) v k) 8 0

/-- What a thread of accessor calls amounts to. -/
def micro {α : Type} : Client α → Micro α
  | .done a => .done a
  | .get r f k => readBits r f.lo (f.hi + 1 - f.lo) fun bs => micro (k (BitVec.ofNat 64 (readOctets.bitsNat bs)))
  | .set r f v k => writeBits r f.hi v.getLsbD (micro k) (f.hi + 1 - f.lo) 0
  | .bytes r msb lsb k => readOctets r lsb ((msb + 1 - lsb) / 8) fun v => micro (k v)
  | .setBytes r _ lsb v k => writeOctets r lsb v (micro k)
  | .toVec r k => .readAll r fun v => micro (k v)
  | .replace r o k => .copy r o (micro k)

/-- The machine: contents of the vectors, and what is left of the threads. -/
structure Machine (α : Type) where
  cont : Nat → Bytes
  th : Nat → Micro α

/-- `g` is `f` except that `f x` is `y`. -/
def Upd {β : Type} (f : Nat → β) (x : Nat) (y : β) (g : Nat → β) : Prop := g x = y ∧ ∀ z, z ≠ x → g z = f z

/-- `e` is `d` with bit `i` set to `b`. -/
def BitSet (d : Bytes) (i : Nat) (b : Bool) (e : Bytes) : Prop :=
  e.length = d.length ∧ ∀ j, netBit e j = if j = i then b else netBit d j

/-- One step of thread `t`. -/
inductive Machine.Step {α : Type} (t : Nat) (w w' : Machine α) : Prop where
  | read {r i : Nat} {k : Bool → Micro α} : w.th t = .read r i k → w'.cont = w.cont →
      Upd w.th t (k (netBit (w.cont r) i)) w'.th → Step t w w'
  | write {r i : Nat} {b : Bool} {k : Micro α} {e : Bytes} : w.th t = .write r i b k → BitSet (w.cont r) i b e →
      Upd w.cont r e w'.cont → Upd w.th t k w'.th → Step t w w'
  | readAll {r : Nat} {k : Bytes → Micro α} : w.th t = .readAll r k → w'.cont = w.cont →
      Upd w.th t (k (w.cont r)) w'.th → Step t w w'
  | copy {r o : Nat} {k : Micro α} : w.th t = .copy r o k → Upd w.cont r (w.cont o) w'.cont → Upd w.th t k w'.th →
      Step t w w'

/-- Any number of steps of any threads. -/
inductive Machine.Reach {α : Type} (w : Machine α) : Machine α → Prop where
  | refl : Reach w w
  | step {w' w'' : Machine α} (t : Nat) : Reach w w' → Step t w' w'' → Reach w w''

/-- Every call of the thread stays inside vectors of `L r` bytes and has a valid width. -/
def Inside {α : Type} (L : Nat → Nat) (c : Client α) : Prop := Within L (fun _ _ => True) (fun _ _ => True) c

/-- The thread calls only `to_vec` and `replace`, and returns something in `Q` if every vector it was given by
`to_vec` is in `P`. -/
def Whole {α : Type} (P : Bytes → Prop) (Q : α → Prop) : Client α → Prop
  | .done a => Q a
  | .toVec _ k => ∀ v, P v → Whole P Q (k v)
  | .replace _ _ k => Whole P Q k
  | _ => False

end PacketRs.Spec
