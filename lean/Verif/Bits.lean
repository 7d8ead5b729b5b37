import Verif.Rust
/-!
# Bit access generated by `make_header!`

Models the `bitfield::BitRange` impls and `bytes`/`set_bytes` that the macro `make_header!`
(/repo/src/headers.rs:166-527) generates for owned and slice headers.
-/
namespace PacketRs

/-- The indices of the Rust range `lsb..=msb`, in order. -/
def inclRange (lsb msb : Nat) : List Nat := List.range' lsb (msb + 1 - lsb)

/-- The indices of `(lsb..=msb).step_by(8)`, in order. -/
def inclRangeStep8 (lsb msb : Nat) : List Nat := List.range' lsb ((msb + 1 - lsb + 7) / 8) 8

/-- Body of the loop of `bit_range`: /repo/src/headers.rs:309-311 (owned), 258-260 (slice).
`value <<= 1; value |= ((map[i / 8] >> (8 - i % 8 - 1)) & 1) as u64`. -/
def bitRangeStep (d : Bytes) (value : U64) (i : Nat) : R U64 := do
  let b ← index d (i / 8)
  pure ((value <<< 1) ||| ((b >>> (8 - i % 8 - 1)) &&& 1#8).setWidth 64)

/-- `bit_range(msb, lsb)`: /repo/src/headers.rs:304-314 (owned) and 253-263 (slice; same text, the
slice version indexes `self.slice`).  `chk` = overflow checks enabled.  Locking is modelled in
`Verif.Heap`. -/
def bitRange (chk : Bool) (d : Bytes) (msb lsb : Nat) : R U64 := do
  let value ← (inclRange lsb msb).foldlM (bitRangeStep d) 0#64
  let w ← usizeAdd chk (← usizeSub chk msb lsb) 1
  let s ← usizeSub chk 64 w
  let v ← shl64 chk value s
  shr64 chk v s

/-- Body of the loop of `set_bit_range`: /repo/src/headers.rs:319-322.
`map[i/8] &= !(1 << (8 - i%8 - 1)); map[i/8] |= ((value & 1) as u8) << (8 - i%8 - 1); value >>= 1`. -/
def setBitStep (s : Bytes × U64) (i : Nat) : R (Bytes × U64) := do
  let (d, value) := s
  let k := 8 - i % 8 - 1
  let b ← index d (i / 8)
  let d := d.set (i / 8) (b &&& ~~~(1#8 <<< k))
  let b ← index d (i / 8)
  let d := d.set (i / 8) (b ||| ((value &&& 1#64).setWidth 8 <<< k))
  pure (d, value >>> 1)

/-- `set_bit_range(msb, lsb, value)`: /repo/src/headers.rs:315-324.  Returns the new buffer; what is
left in the buffer when it panics is modelled in `Verif.Heap`. -/
def setBitRange (d : Bytes) (msb lsb : Nat) (value : U64) : R Bytes := do
  let r ← (inclRange lsb msb).reverse.foldlM setBitStep (d, value)
  pure r.1

/-- `bytes(msb, lsb)`: /repo/src/headers.rs:346-355 (owned), 202-211 (slice). -/
def getBytes (chk : Bool) (d : Bytes) (msb lsb : Nat) : R Bytes := do
  let w ← usizeAdd chk (← usizeSub chk msb lsb) 1
  if w % 8 ≠ 0 then throw .assert
  (inclRangeStep8 lsb msb).foldlM
    (fun value i => do
      let v ← bitRange chk d (i + 7) i
      pure (value ++ [v.setWidth 8])) []

/-- `set_bytes(msb, lsb, value)`: /repo/src/headers.rs:356-364.  The loop state is the buffer and
the counter `iter`. -/
def setBytes (chk : Bool) (d : Bytes) (msb lsb : Nat) (value : Bytes) : R Bytes := do
  let w ← usizeAdd chk (← usizeSub chk msb lsb) 1
  if value.length * 8 ≠ w then throw .assert
  let r ← (inclRangeStep8 lsb msb).foldlM
    (fun (s : Bytes × Nat) i => do
      let b ← index value s.2
      let d ← setBitRange s.1 (i + 7) i (b.setWidth 64)
      pure (d, s.2 + 1)) (d, 0)
  pure r.1

end PacketRs
