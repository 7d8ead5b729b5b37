import Verif.Utils
/-!
# Model: the checksum check of the repository's tests (/repo/tests/lib.rs)

The function `ipv4_checksum_verify` and the body and ranges of `ip_checksum_test`.
-/
namespace PacketRs.RepoTests
open Utils

/-- One round of the word loop of `ipv4_checksum_verify`: /repo/tests/lib.rs:15-18.  `chksum: u32` is checked against
overflow. -/
def verifyStep (chk : Bool) (v : Bytes) (chksum : U32) (i : Nat) : R U32 := do
  let hi ← index v i
  let msb : U16 := (hi.setWidth 16) <<< 8
  let lo ← index v (i + 1)
  let w : U32 := msb.setWidth 32 ||| lo.setWidth 32
  if chksum.toNat + w.toNat < 2 ^ 32 then pure (chksum + w)
  else if chk then throw .overflow else pure (chksum + w)

/-- `ipv4_checksum_verify`: /repo/tests/lib.rs:13-24; `i` runs over `(0..v.len()).step_by(2)`.  Lines 19-21 are the same loop
as /repo/src/packet.rs:102-104. -/
def ipv4_checksum_verify (chk : Bool) (v : Bytes) : R U16 := do
  let chksum ← (List.range' 0 ((v.length + 1) / 2) 2).foldlM (verifyStep chk v) 0#32
  let chksum ← Packet.foldLoop chk chksum
  pure (~~~(chksum.setWidth 16))

/-- `(0..100).collect()`: /repo/tests/lib.rs:152 -/
def payload : Bytes := (List.range 100).map (BitVec.ofNat 8)

/-- The addresses of `ip_checksum_test`: /repo/tests/lib.rs:153-164 -/
def ips : List Str := ["10.10.10.1", "11.11.11.1", "12.12.12.1", "13.13.13.1", "14.14.14.1", "15.15.15.1", "16.16.16.1",
  "17.17.17.1", "18.18.18.1", "19.19.19.1"].map String.toList

/-- The body of the loops of `ip_checksum_test`: /repo/tests/lib.rs:168-200.  The result says whether the three assertions
hold; the conversion of the header on line 194 panics unless it is an `IPv4`. -/
def checksumBody (chk : Bool) (sip dip : Str) (ttl : Byte) : R Bool := do
  let pkt ← create_tcp_packet chk "00:01:02:03:04:05".toList "00:06:07:08:09:0a".toList false 10 3 5 sip dip 0 ttl 115 0 []
    80 9090 100 101 0 0 1 0 0 false payload
  let ip ← pkt.indexName "IPv4"
  if ip.ty ≠ IPv4 then throw .downcast
  let v ← ipv4_checksum_verify chk ip.to_vec
  let ipv4 ← Packet.ipv4 chk 5 0 115 ttl 0 6 sip dip 140
  let w ← ipv4_checksum_verify chk ipv4.to_vec
  let a ← ip.get chk IPv4.header_checksum
  let b ← ipv4.get chk IPv4.header_checksum
  pure (v = 0 ∧ w = 0 ∧ a = b)

end PacketRs.RepoTests
