import Verif.Fast
/-!
# `Box<dyn Header>`: owned and slice headers behind the trait

`Packet.hdrs` is a `Vec<Box<dyn Header>>` (/repo/src/lib.rs:131-134).  The other files take its elements for owned headers.
The macro implements the trait `Header` for slice headers, too (/repo/src/headers.rs:268-296), with methods that are
`unimplemented!()`.  Here a packet may hold both kinds.

Simplifications: values only (sharing is in `Verif.Heap`, printing in `Verif.Show`); implementations of `Header` written by
hand outside the crate are not modelled.  A slice header in a `Packet` borrows from a `'static` buffer, because
`Box<dyn Header>` is `Box<dyn Header + 'static>`.
-/
namespace PacketRs
open Fast (SHdr Win)

/-- `Box<dyn Header>` of a type made by `make_header!`. -/
inductive Dyn where
  /-- `impl Header for $name`: /repo/src/headers.rs:482-510 -/
  | owned (h : Hdr)
  /-- `impl Header for [<$name Slice>]`: /repo/src/headers.rs:268-296 -/
  | slice (s : SHdr)
  deriving DecidableEq, Repr

namespace Dyn

/-- `name(&self)`: /repo/src/headers.rs:498-500 (owned), 284-286 (slice); both are `stringify!($name)`. -/
def name : Dyn → String
  | owned h => h.name
  | slice s => s.ty.name

/-- `len(&self)`: /repo/src/headers.rs:501-503 (owned), 287-289 (slice). -/
def len : Dyn → Nat
  | owned h => h.len
  | slice s => s.hlen

/-- `to_vec(&self)`: /repo/src/headers.rs:486-488 (owned), 272-274 (slice; copies the slice, which is undefined behaviour if
it reaches outside its buffer). -/
def to_vec : Dyn → R Bytes
  | owned h => .ok h.to_vec
  | slice s => if s.win.off + s.win.len ≤ s.win.base.length then .ok s.win.bytes else .error .ub

/-- `as_slice(&self)`: /repo/src/headers.rs:489-491 (owned), 275-277 (slice). -/
def as_slice : Dyn → R Win
  | owned _ => .error .unimplemented
  | slice s => .ok s.as_slice

/-- `clone(&self)`: /repo/src/headers.rs:492-494 (owned), 278-280 (slice). -/
def clone : Dyn → R Dyn
  | owned h => .ok (owned h)
  | slice _ => .error .unimplemented

/-- `to_owned(self)`: /repo/src/headers.rs:495-497 (owned), 281-283 (slice). -/
def to_owned : Dyn → R Dyn
  | owned h => .ok (owned h)
  | slice _ => .error .unimplemented

/-- `as_any(&self)`, `as_any_mut(&mut self)`: /repo/src/headers.rs:504-509 (owned), 290-295 (slice).  The result stands for
the concrete header. -/
def as_any : Dyn → R Hdr
  | owned h => .ok h
  | slice _ => .error .unimplemented

end Dyn

/-- `set_bit_range` of a slice header (public through the trait `BitRange`): /repo/src/headers.rs:264-266.  The body is
`()`. -/
def Fast.SHdr.set_bit_range (s : SHdr) (_msb _lsb : Nat) (_value : U64) : SHdr := s

/-- `struct Packet`: /repo/src/lib.rs:131-134. -/
structure DPacket where
  hdrs : List Dyn
  payload : Bytes
  deriving DecidableEq, Repr

namespace DPacket

/-- `Packet::new`: /repo/src/packet.rs:311-316 -/
def new : DPacket := { hdrs := [], payload := [] }

/-- `push(&mut self, hdr: impl Header)`: /repo/src/packet.rs:117-119; `hdr.to_owned()` is evaluated first -/
def push (p : DPacket) (d : Dyn) : R DPacket := do
  let b ← d.to_owned
  pure { p with hdrs := p.hdrs ++ [b] }

/-- `insert`: /repo/src/packet.rs:129-131 -/
def insert (p : DPacket) (d : Dyn) : R DPacket := do
  let b ← d.to_owned
  pure { p with hdrs := b :: p.hdrs }

/-- `pop`: /repo/src/packet.rs:143-147 -/
def pop (p : DPacket) : DPacket := { p with hdrs := p.hdrs.dropLast }

/-- `remove`: /repo/src/packet.rs:160-164 -/
def remove (p : DPacket) (i : Nat) : DPacket := { p with hdrs := p.hdrs.eraseIdx i }

/-- `set_payload`: /repo/src/packet.rs:179-181 -/
def set_payload (p : DPacket) (b : Bytes) : DPacket := { p with payload := p.payload ++ b }

/-- Put `d` in the place of the first header with this name; `unwrap()` of `None` if there is none. -/
def assignFirst (name : String) (d : Dyn) : List Dyn → R (List Dyn)
  | [] => .error .unwrapNone
  | g :: gs => if g.name = name then .ok (d :: gs) else do
      let gs' ← assignFirst name d gs
      pure (g :: gs')

/-- `pkt[name] = b` for a `b: Box<dyn Header>`: `IndexMut`, /repo/src/packet.rs:69-73 -/
def assign (p : DPacket) (name : String) (d : Dyn) : R DPacket := do
  let hs ← assignFirst name d p.hdrs
  pure { p with hdrs := hs }

/-- `clone_me`: /repo/src/packet.rs:393-400 -/
def clone_me (p : DPacket) : R DPacket := do
  let hs ← p.hdrs.foldlM (fun hs s => do
    let c ← s.clone
    pure (hs ++ [c])) []
  pure { hdrs := hs, payload := p.payload }

/-- `impl Add`: /repo/src/packet.rs:75-84 -/
def add (p q : DPacket) : R DPacket := do
  let hs ← q.hdrs.foldlM (fun hs s => do
    let c ← s.clone
    pure (hs ++ [c])) p.hdrs
  pure { p with hdrs := hs }

/-- `to_vec`: /repo/src/packet.rs:385-392 -/
def to_vec (p : DPacket) : R Bytes := do
  let r ← p.hdrs.foldlM (fun r s => do
    let v ← s.to_vec
    pure (r ++ v)) []
  pure (r ++ p.payload)

/-- `len`: /repo/src/packet.rs:402-404 -/
def len (p : DPacket) : Nat := (p.hdrs.map Dyn.len).sum + p.payload.length

/-- `compare_with_slice`: /repo/src/packet.rs:340-358 (printing omitted); the packet is serialized only if the lengths agree -/
def compare_with_slice (p : DPacket) (b : Bytes) : R Bool :=
  if p.len ≠ b.length then .ok false
  else do
    let a ← p.to_vec
    let matching := ((a.zip b).filter (fun x => x.1 == x.2)).length
    pure (if p.len ≠ matching ∨ b.length ≠ matching then false else true)

/-- `compare`: /repo/src/packet.rs:326-329 -/
def compare (p q : DPacket) : R Bool := do
  let a ← q.to_vec
  p.compare_with_slice a

/-- `Index<&str>`: /repo/src/packet.rs:61-67 -/
def indexName (p : DPacket) (name : String) : R Dyn :=
  match p.hdrs.find? (fun d => d.name = name) with
  | some d => .ok d
  | none => .error .unwrapNone

/-- `T::from(&pkt[name])`: /repo/src/headers.rs:455-463 (the conversions to `&T` and `&mut T`, 464-481, look the same) -/
def convert (p : DPacket) (T : HeaderDef) (name : String) : R Hdr := do
  let d ← p.indexName name
  let h ← d.as_any
  if h.ty = T then pure h else throw .downcast

/-- `get_header::<T>(name)`, `get_header_mut::<T>(name)`: /repo/src/packet.rs:221-230, 247-259; `Err(String)` is `none` -/
def get_header (p : DPacket) (T : HeaderDef) (name : String) : R (Option Hdr) :=
  match p.hdrs.find? (fun d => d.name = name) with
  | some d => do
    let h ← d.as_any
    pure (if h.ty = T then some h else none)
  | none => .ok none

end DPacket

/-- `PacketSlice::to_vec` as written, on `Box<dyn Header>`s: /repo/src/packet.rs:733-740 -/
def Fast.PacketSlice.toVecDyn (hdrs : List Dyn) (payload : Win) : R Bytes := do
  let r ← hdrs.foldlM (fun r s => do
    let v ← s.as_slice
    pure (r ++ v.bytes)) []
  pure (r ++ payload.bytes)

end PacketRs
