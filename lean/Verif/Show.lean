import Verif.Packet
import Verif.Fast
/-!
# Printing

`show()` of headers and packets (/repo/src/headers.rs:224-250 for slices, 397-423 for owned headers;
/repo/src/packet.rs:360-376 and 744-760).  Standard output is a list of characters; what was printed
before a panic stays printed.  Simplification: writing to standard output does not fail.
-/
namespace PacketRs

abbrev Text := List Char

/-- A computation that prints: the outcome, and everything printed so far. -/
def Out (α : Type) := Text → R α × Text

namespace Out

instance : Monad Out where
  pure a := fun t => (.ok a, t)
  bind p f := fun t => match p t with
    | (.ok a, t') => f a t'
    | (.error e, t') => (.error e, t')

/-- `print!` of a finished string -/
def print (s : Text) : Out Unit := fun t => (.ok (), t ++ s)

/-- a computation that may panic and prints nothing -/
def ofR {α : Type} (x : R α) : Out α := fun t => (x, t)

/-- `for i in l { .. }` -/
def forEach {α : Type} (l : List α) (f : α → Out Unit) : Out Unit :=
  match l with
  | [] => pure ()
  | a :: l => do f a; forEach l f

end Out
open Out

/-- `{:w}` of a string: padded with spaces on the right -/
def padRight (w : Nat) (t : Text) : Text := t ++ List.replicate (w - t.length) ' '

/-- `{:w}` of a number: decimal, padded with spaces on the left -/
def decimal (w n : Nat) : Text := List.replicate (w - (Nat.toDigits 10 n).length) ' ' ++ Nat.toDigits 10 n

/-- lowercase hexadecimal digit -/
def hexDigit (n : Nat) : Char := "0123456789abcdef".toList.getD n ' '

/-- `{:02x}` of a `u8` -/
def hex2 (b : Byte) : Text := [hexDigit (b.toNat / 16), hexDigit (b.toNat % 16)]

/-- The whole octets, `for i in ($start..(d*8 + $start)).step_by(8)`: /repo/src/headers.rs:407-410,
414-417.  `rd msb lsb` is `self.bit_range(msb, lsb)`: the same macro text appears for owned headers and
for slices (/repo/src/headers.rs:234-237, 241-244). -/
def showOctets (rd : Nat → Nat → R U64) (start d : Nat) : Out Unit :=
  forEach ((List.range d).map fun k => start + 8 * k) fun i => do
    let x ← ofR (rd (i + 7) i)
    print (hex2 (x.setWidth 8) ++ " ".toList)

/-- One line of `show()`: /repo/src/headers.rs:401-421 (slices: 228-248). -/
def showField (rd : Nat → Nat → R U64) (f : Field) : Out Unit := do
  print (padRight 20 f.name.toList ++ ": ".toList ++ decimal 4 f.width ++ " : ".toList)
  if f.width ≤ 8 then do
    let x ← ofR (rd f.hi f.lo)
    print (hex2 (x.setWidth 8))
  else if f.width % 8 = 0 then
    showOctets rd f.lo (f.width / 8)
  else do
    showOctets rd f.lo (f.width / 8)
    let x ← ofR (rd f.hi (f.hi - f.width % 8))
    print (hex2 (x.setWidth 8))
  print "\n".toList

/-- The body of both `show()`s: /repo/src/headers.rs:397-423 and 224-250. -/
def showHeader (rd : Nat → Nat → R U64) (T : HeaderDef) : Out Unit := do
  print ("#### ".toList ++ padRight 16 T.name.toList ++ " ".toList ++ "Size  ".toList ++ " ".toList ++ "Data".toList ++ "\n".toList)
  print "-------------------------------------------\n".toList
  forEach T.fields fun f => showField rd f

/-- `show()` of an owned header: /repo/src/headers.rs:397-423. -/
def Hdr.show (chk : Bool) (h : Hdr) : Out Unit := showHeader (bitRange chk h.data) h.ty

/-- `show()` of a slice header: /repo/src/headers.rs:224-250. -/
def Fast.SHdr.show (chk : Bool) (h : Fast.SHdr) : Out Unit := showHeader (Fast.bitRange chk h.win) h.ty

/-- The loop over the raw bytes: /repo/src/packet.rs:367-374; `x` counts the bytes of the current
line (a `i32` that never exceeds 16). -/
def showRaw : Bytes → Nat → Out Unit
  | [], _ => pure ()
  | b :: v, x => do
    print (hex2 b ++ " ".toList)
    if (x + 1) % 16 = 0 then do
      print "\n".toList
      showRaw v 0
    else showRaw v (x + 1)

/-- The part after the headers: /repo/src/packet.rs:364-375 (slices: 748-759). -/
def showBytes (v : Bytes) : Out Unit := do
  print ("\n#### raw ".toList ++ Nat.toDigits 10 v.length ++ " bytes ####\n".toList)
  showRaw v 0
  print "\n".toList

/-- `Packet::show`: /repo/src/packet.rs:360-376. -/
def Packet.show (chk : Bool) (p : Packet) : Out Unit := do
  forEach p.hdrs fun h => h.show chk
  showBytes p.to_vec

/-- `PacketSlice::show`: /repo/src/packet.rs:744-760. -/
def Fast.PacketSlice.show (chk : Bool) (p : Fast.PacketSlice) : Out Unit := do
  forEach p.hdrs fun h => h.show chk
  showBytes p.to_vec

end PacketRs
