import Verif.Addr
/-!
# `std::net::Ipv6Addr::from_str`

`to_ipv6_bytes` (/repo/src/packet.rs:49-58) calls this function of the Rust standard library, which is not in /repo.  The other
files leave it as a parameter and their theorems hold for every such function.  Here is the function itself, after the published
source of the standard library, core/src/net/parser.rs (`Parser`): the parser works on the octets of the text; a multi-byte
character contains no digit, dot or colon, so characters do as well.

A method of `Parser` is a function from the remaining text to a value and the text then remaining; `read_atomically` restores
the text on failure, which is what `none` does.
-/
namespace PacketRs.StdNet

/-- `read_given_char(c)` -/
def readGivenChar (c : Char) : Str → Option Str
  | [] => none
  | x :: xs => if x = c then some xs else none

/-- The `while let Some(digit)` loop of `read_number` with `max_digits = Some(max)`: `result` and `digit_count` so far. -/
def numberLoop (radix max : Nat) : Str → Nat → Nat → Option (Nat × Nat × Str)
  | [], result, count => some (result, count, [])
  | c :: cs, result, count =>
    match toDigit radix c with
    | none => some (result, count, c :: cs)
    | some digit =>
      if count + 1 > max then none else numberLoop radix max cs (result * radix + digit) (count + 1)

/-- `read_number::<T>(radix, Some(max), allow_zero_prefix)` for a type `T` of values below `bound`. -/
def readNumber (radix max : Nat) (allowZeroPrefix : Bool) (bound : Nat) (s : Str) : Option (Nat × Str) :=
  match numberLoop radix max s 0 0 with
  | none => none
  | some (result, count, rest) =>
    if count = 0 then none
    else if ¬ allowZeroPrefix ∧ s.head? = some '0' ∧ count > 1 then none
    else if result < bound then some (result, rest) else none

/-- `read_separator(sep, index, inner)` -/
def readSeparator {α : Type} (sep : Char) (index : Nat) (inner : Str → Option (α × Str)) (s : Str) : Option (α × Str) :=
  if index > 0 then
    match readGivenChar sep s with
    | none => none
    | some s' => inner s'
  else inner s

/-- The loop of `read_ipv4_addr` over the slots from `i`, `k` of them left. -/
def ipv4Loop : Nat → Nat → Str → Option (List Nat × Str)
  | 0, _, s => some ([], s)
  | k + 1, i, s =>
    match readSeparator '.' i (readNumber 10 3 false 256) s with
    | none => none
    | some (o, s') =>
      match ipv4Loop k (i + 1) s' with
      | none => none
      | some (os, s'') => some (o :: os, s'')

/-- `read_ipv4_addr`: four octets -/
def readIpv4Addr (s : Str) : Option (List Nat × Str) := ipv4Loop 4 0 s

/-- `read_groups` over the slots from `i`, `k` of them left: the groups read, whether they end in an IPv4 address, and the text
remaining. -/
def readGroups : Nat → Nat → Str → List Nat × Bool × Str
  | 0, _, s => ([], false, s)
  | k + 1, i, s =>
    match (if k + 1 > 1 then readSeparator ':' i readIpv4Addr s else none) with
    | some (os, s') => ([os.getD 0 0 * 256 + os.getD 1 0, os.getD 2 0 * 256 + os.getD 3 0], true, s')
    | none =>
      match readSeparator ':' i (readNumber 16 4 true 65536) s with
      | none => ([], false, s)
      | some (g, s') =>
        let (gs, v4, s'') := readGroups k (i + 1) s'
        (g :: gs, v4, s'')

/-- `read_ipv6_addr` -/
def readIpv6Addr (s : Str) : Option (List Nat × Str) :=
  let (head, headV4, s1) := readGroups 8 0 s
  if head.length = 8 then some (head, s1)
  else if headV4 then none
  else match readGivenChar ':' s1 with
    | none => none
    | some s2 => match readGivenChar ':' s2 with
      | none => none
      | some s3 =>
        let (tail, _, s4) := readGroups (8 - (head.length + 1)) 0 s3
        some (head ++ List.replicate (8 - head.length - tail.length) 0 ++ tail, s4)

/-- `octets()` of the address made of these eight groups -/
def octets (groups : List Nat) : Vector Byte 16 := Vector.ofFn fun k =>
  if k.val % 2 = 0 then BitVec.ofNat 8 (groups.getD (k.val / 2) 0 / 256) else BitVec.ofNat 8 (groups.getD (k.val / 2) 0)

/-- `Ipv6Addr::from_str` and `octets`: `parse_with` requires that all of the text has been read. -/
def ipv6FromStr : Ipv6FromStr := fun s =>
  match readIpv6Addr s with
  | some (groups, []) => some (octets groups)
  | _ => none

-- the addresses of /repo/src/packet.rs:647-657
example : ipv6FromStr "2001:db8::1".toList = some #v[0x20, 1, 0xd, 0xb8, 0, 0, 0, 0, 0, 0, 0, 0, 0, 0, 0, 1] := by decide +kernel
example : ipv6FromStr "ffff::0".toList = some #v[0xff, 0xff, 0, 0, 0, 0, 0, 0, 0, 0, 0, 0, 0, 0, 0, 0] := by decide +kernel
example : ipv6FromStr "ffff:ffff:0".toList = none ∧ ipv6FromStr "ffff::z".toList = none := by decide +kernel
example : ipv6FromStr "::ffff:192.0.2.128".toList = some #v[0, 0, 0, 0, 0, 0, 0, 0, 0, 0, 0xff, 0xff, 192, 0, 2, 128] := by
  decide +kernel

end PacketRs.StdNet
