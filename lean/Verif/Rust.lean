/-!
# Rust primitives used by packet-rs

This file models the parts of the Rust language and standard library that the crate relies on.
`u8`, `u16`, `u32`, `u64` are `BitVec n`; `usize` is `Nat` (the target is assumed to be 64-bit:
`usizeSub`/`usizeAdd` wrap modulo `2^64` when overflow checks are off).
A panic is the value `.error _` of `Except Fault`.
-/
namespace PacketRs

/-- `u8` -/
abbrev Byte := BitVec 8
/-- `Vec<u8>` / the contents of a `&[u8]` -/
abbrev Bytes := List Byte
abbrev U16 := BitVec 16
abbrev U32 := BitVec 32
abbrev U64 := BitVec 64

/-- Ways in which a call does not return a value.  All but `deadlock` and `ub` are Rust panics. -/
inductive Fault where
  /-- slice / `Vec` index out of bounds -/
  | index
  /-- arithmetic overflow detected (only with overflow checks on) -/
  | overflow
  /-- `assert_eq!` failed -/
  | assert
  /-- `Option::unwrap` on `None` -/
  | unwrapNone
  /-- "Header is not a ..." panic of the `From<&Box<dyn Header>>` impls -/
  | downcast
  /-- `unimplemented!()` -/
  | unimplemented
  /-- `lock().unwrap()` on a poisoned mutex -/
  | poisoned
  /-- the call blocks forever (relocking a mutex held by the same thread) -/
  | deadlock
  /-- undefined behaviour: reading through a slice that exceeds its allocation -/
  | ub
  /-- the stack is exhausted (only in `Verif.Stack`) -/
  | stack
  deriving DecidableEq, Repr

/-- Result of a Rust call that may panic. -/
abbrev R := Except Fault

deriving instance DecidableEq for Except

/-- `d[i]` (bounds-checked indexing). -/
def index (d : Bytes) (i : Nat) : R Byte :=
  match d[i]? with
  | some b => .ok b
  | none => .error .index

/-- `&d[a..b]`, copied. -/
def slice (d : Bytes) (a b : Nat) : R Bytes :=
  if a ≤ b ∧ b ≤ d.length then .ok ((d.drop a).take (b - a)) else .error .index

/-- `&d[a..]`.  The result carries the proof that it is that suffix, which is what the termination
proofs of the recursive parsers use. -/
def sliceFrom (d : Bytes) (a : Nat) : R {r : Bytes // r = d.drop a ∧ a ≤ d.length} :=
  if h : a ≤ d.length then .ok ⟨d.drop a, rfl, h⟩ else .error .index

/-- `usize` subtraction: panics with overflow checks (`chk`), wraps modulo `2^64` without. -/
def usizeSub (chk : Bool) (a b : Nat) : R Nat :=
  if b ≤ a then .ok (a - b) else if chk then .error .overflow else .ok (a + 2 ^ 64 - b)

/-- `usize` addition: panics with overflow checks (`chk`), wraps modulo `2^64` without. -/
def usizeAdd (chk : Bool) (a b : Nat) : R Nat :=
  if a + b < 2 ^ 64 then .ok (a + b) else if chk then .error .overflow else .ok ((a + b) % 2 ^ 64)

/-- `u64 << usize`: a shift amount of 64 or more panics with overflow checks and is reduced modulo
64 without. -/
def shl64 (chk : Bool) (v : U64) (s : Nat) : R U64 :=
  if s < 64 then .ok (v <<< s) else if chk then .error .overflow else .ok (v <<< (s % 64))

/-- `u64 >> usize`, see `shl64`. -/
def shr64 (chk : Bool) (v : U64) (s : Nat) : R U64 :=
  if s < 64 then .ok (v >>> s) else if chk then .error .overflow else .ok (v >>> (s % 64))

/-- `u16::to_be_bytes` -/
def be16 (x : U16) : Bytes := [(x >>> 8).setWidth 8, x.setWidth 8]

/-- `u32::to_be_bytes` -/
def be32 (x : U32) : Bytes :=
  [(x >>> 24).setWidth 8, (x >>> 16).setWidth 8, (x >>> 8).setWidth 8, x.setWidth 8]

/-- `u64::to_be_bytes` -/
def be64 (x : U64) : Bytes :=
  [(x >>> 56).setWidth 8, (x >>> 48).setWidth 8, (x >>> 40).setWidth 8, (x >>> 32).setWidth 8,
   (x >>> 24).setWidth 8, (x >>> 16).setWidth 8, (x >>> 8).setWidth 8, x.setWidth 8]

end PacketRs
