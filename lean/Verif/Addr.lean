import Verif.Types
/-!
# Text to address conversion: `ConvertToBytes`, /repo/src/packet.rs:12-59

A Rust `&str` is the list of its characters.
-/
namespace PacketRs

/-- A Rust `&str`. -/
abbrev Str := List Char

/-- `str::split(c)`: the pieces between occurrences of `c` (always at least one piece). -/
def splitOnChar (c : Char) : Str → List Str
  | [] => [[]]
  | x :: xs =>
    if x = c then [] :: splitOnChar c xs
    else match splitOnChar c xs with
      | [] => [[x]]
      | p :: ps => (x :: p) :: ps

/-- `char::to_digit(radix)` for radix 10 and 16. -/
def toDigit (radix : Nat) (c : Char) : Option Nat :=
  let v : Option Nat :=
    if '0' ≤ c ∧ c ≤ '9' then some (c.toNat - '0'.toNat)
    else if 'a' ≤ c ∧ c ≤ 'z' then some (c.toNat - 'a'.toNat + 10)
    else if 'A' ≤ c ∧ c ≤ 'Z' then some (c.toNat - 'A'.toNat + 10)
    else none
  match v with
  | some n => if n < radix then some n else none
  | none => none

/-- The digit loop of `u8::from_str_radix`: checked multiply and add, any bad digit is an error. -/
def radixLoop (radix : Nat) : Nat → Str → Option Nat
  | acc, [] => some acc
  | acc, c :: cs =>
    match toDigit radix c with
    | none => none
    | some d => if acc * radix + d ≤ 255 then radixLoop radix (acc * radix + d) cs else none

/-- `u8::from_str_radix(v, radix)` of the Rust standard library: empty is an error, a single leading
`+` is accepted when something follows it, a `-` is never accepted for an unsigned type; every error
is `none` (the crate maps all errors to 0). -/
def u8FromStrRadix (radix : Nat) (s : Str) : Option Byte :=
  match s with
  | [] => none
  | ['+'] => none
  | ['-'] => none
  | '+' :: ds => (radixLoop radix 0 ds).map (BitVec.ofNat 8)
  | ds => (radixLoop radix 0 ds).map (BitVec.ofNat 8)

/-- The loop body shared in shape by `to_mac_bytes` (/repo/src/packet.rs:22-31) and `to_ipv4_bytes`
(/repo/src/packet.rs:37-46): write component `i` at `arr[i]`, 0 on a conversion error (the error is
also printed; printing is not modelled); index out of bounds panics. -/
def writeComponent (radix : Nat) (arr : Bytes) (iv : Str × Nat) : R Bytes :=
  let x := match u8FromStrRadix radix iv.1 with
    | some x => x
    | none => 0#8
  if iv.2 < arr.length then .ok (arr.set iv.2 x) else .error .index

/-- `to_mac_bytes`: /repo/src/packet.rs:20-33 -/
def to_mac_bytes (s : Str) : R Bytes :=
  (splitOnChar ':' s).zipIdx.foldlM (writeComponent 16) (List.replicate MAC_LEN 0#8)

/-- `to_ipv4_bytes`: /repo/src/packet.rs:35-48 -/
def to_ipv4_bytes (s : Str) : R Bytes :=
  (splitOnChar '.' s).zipIdx.foldlM (writeComponent 10) (List.replicate IPV4_LEN 0#8)

/-- `std::net::Ipv6Addr::from_str` followed by `octets()`: an external function, left as a parameter
of the model (`none` = `Err`).  It returns 16 octets by its type. -/
abbrev Ipv6FromStr := Str → Option (Vector Byte 16)

/-- `to_ipv6_bytes`: /repo/src/packet.rs:49-58 -/
def to_ipv6_bytes (p6 : Ipv6FromStr) (s : Str) : Bytes :=
  match p6 s with
  | some x => x.toList
  | none => List.replicate IPV6_LEN 0#8

end PacketRs
