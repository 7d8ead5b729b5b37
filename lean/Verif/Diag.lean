import Verif.Show
/-!
# Diagnostics: what the address conversions and `compare_with_slice` print

The functions of `Verif.Addr` and `Verif.Packet` once more, now with their output (see `Verif.Show` for `Out`).
-/
namespace PacketRs
open Out

/-- The kinds of `std::num::ParseIntError` that `u8::from_str_radix` can return. -/
inductive IntErr where
  | empty | invalidDigit | posOverflow
  deriving DecidableEq, Repr

/-- Their `Display` texts (Rust standard library). -/
def IntErr.text : IntErr → Text
  | .empty => "cannot parse integer from empty string".toList
  | .invalidDigit => "invalid digit found in string".toList
  | .posOverflow => "number too large to fit in target type".toList

/-- The digit loop of `u8::from_str_radix` with the kind of error: a character that is not a digit is reported before
an overflow at the same position. -/
def radixLoopE (radix : Nat) : Nat → Str → Except IntErr Nat
  | acc, [] => .ok acc
  | acc, c :: cs =>
    match toDigit radix c with
    | none => .error .invalidDigit
    | some d => if acc * radix + d ≤ 255 then radixLoopE radix (acc * radix + d) cs else .error .posOverflow

/-- `u8::from_str_radix(v, radix)` with the kind of error; `u8FromStrRadix` without it. -/
def u8FromStrRadixE (radix : Nat) (s : Str) : Except IntErr Byte :=
  match s with
  | [] => .error .empty
  | ['+'] => .error .invalidDigit
  | ['-'] => .error .invalidDigit
  | '+' :: ds => (radixLoopE radix 0 ds).map (BitVec.ofNat 8)
  | ds => (radixLoopE radix 0 ds).map (BitVec.ofNat 8)

/-- The loop body of `to_mac_bytes` and `to_ipv4_bytes`, /repo/src/packet.rs:23-30 and 38-45.  The right hand side of
the assignment, with its `println!`, is evaluated before the index is checked. -/
def reportComponent (radix : Nat) (whole : Str) (arr : Bytes) (iv : Str × Nat) : Out Bytes := do
  let x ← match u8FromStrRadixE radix iv.1 with
    | .ok x => (pure x : Out Byte)
    | .error e => do
      print ("Error: ".toList ++ e.text ++ " - ".toList ++ iv.1 ++ " in ".toList ++ whole ++ "\n".toList)
      pure 0#8
  if iv.2 < arr.length then pure (arr.set iv.2 x) else ofR (.error .index)

/-- The `for` loop over the components. -/
def reportLoop (radix : Nat) (whole : Str) : Bytes → List (Str × Nat) → Out Bytes
  | arr, [] => pure arr
  | arr, iv :: l => do
    let arr ← reportComponent radix whole arr iv
    reportLoop radix whole arr l

/-- `to_mac_bytes`: /repo/src/packet.rs:20-33 -/
def to_mac_bytes_out (s : Str) : Out Bytes :=
  reportLoop 16 s (List.replicate MAC_LEN 0#8) (splitOnChar ':' s).zipIdx

/-- `to_ipv4_bytes`: /repo/src/packet.rs:35-48 -/
def to_ipv4_bytes_out (s : Str) : Out Bytes :=
  reportLoop 10 s (List.replicate IPV4_LEN 0#8) (splitOnChar '.' s).zipIdx

/-- `to_ipv6_bytes`: /repo/src/packet.rs:49-58; the text is the `Display` of `std::net::AddrParseError`. -/
def to_ipv6_bytes_out (p6 : Ipv6FromStr) (s : Str) : Out Bytes :=
  match p6 s with
  | some x => pure x.toList
  | none => do
    print ("Error: ".toList ++ "invalid IPv6 address syntax".toList ++ " - ".toList ++ s ++ "\n".toList)
    pure (List.replicate IPV6_LEN 0#8)

/-- `compare_with_slice`: /repo/src/packet.rs:340-358 -/
def Packet.compare_with_slice_out (p : Packet) (b : Bytes) : Out Bool :=
  let pktlen := p.len
  if pktlen ≠ b.length then do
    print ("this ".toList ++ Nat.toDigits 10 pktlen ++ " other ".toList ++ Nat.toDigits 10 b.length ++ "\n".toList)
    pure false
  else
    let a := p.to_vec
    let matching := ((a.zip b).filter (fun x => x.1 == x.2)).length
    if pktlen ≠ matching ∨ b.length ≠ matching then do
      print ("this ".toList ++ Nat.toDigits 10 pktlen ++ " other ".toList ++ Nat.toDigits 10 b.length ++
        ", matching upto ".toList ++ Nat.toDigits 10 matching ++ " bytes\n".toList)
      pure false
    else pure true

/-- `compare`: /repo/src/packet.rs:326-329 -/
def Packet.compare_out (p q : Packet) : Out Bool := p.compare_with_slice_out q.to_vec

end PacketRs
