import Verif.Utils
import Verif.Slow
import Verif.Fast
import Verif.Addr6
import Verif.TestVerify
/-!
# The tests of the repository, replayed on the model

The assertions of /repo/tests/lib.rs and of the unit tests in /repo/src, test by test, evaluated on the model with
overflow checks on (as in a test build).  They are tests of the transcription on a few literals, not proofs, and no property of MANIFEST.json rests on them.  The
tests were not run on the Rust code here: that the code passes them is what its author asserts by shipping them, so a
model that failed one would be suspect.  Left out: calls of `show`, the pcap file, and `pktgen_perf_test`, `parse_test`
and `parse_slice_test`, which assert nothing.  `ip_checksum_test` is C92.
-/
namespace PacketRs.RepoTests
open Utils

/-- /repo/tests/lib.rs:36-45 -/
def MyOwnHeader : HeaderDef := { path := "tests", name := "MyOwnHeader", size := 10, fields := [⟨"bytes_1", 0, 7⟩, ⟨"bytes_2", 8, 23⟩,
  ⟨"bytes_3", 32, 47⟩, ⟨"bytes_4", 48, 79⟩], dflt := List.replicate 10 0#8 }

/-- `custom_header_test`: /repo/tests/lib.rs:35-56 -/
example : (do
    let h ← (MyOwnHeader.ofVec (List.replicate 10 0#8)).set ⟨"bytes_1", 0, 7⟩ 0x22
    let a ← h.get true ⟨"bytes_1", 0, 7⟩
    let h ← h.set ⟨"bytes_2", 8, 23⟩ 0x3344
    let b ← h.get true ⟨"bytes_2", 8, 23⟩
    pure (a, b)) = (.ok (0x22, 0x3344) : R (U64 × U64)) := by decide +kernel

/-- `ethernet_header_test`: /repo/tests/lib.rs:58-87 -/
example : (do
    let eth := Ether.new
    let d ← eth.get true Ether.dst
    let eth ← eth.set Ether.dst 0x60708090a0b
    let d' ← eth.get true Ether.dst
    let s ← eth.get true Ether.src
    let eth ← eth.set Ether.src 0x102030405
    let s' ← eth.get true Ether.src
    let e ← eth.get true Ether.etype
    let eth ← eth.set Ether.etype 0x8100
    let e' ← eth.get true Ether.etype
    pure [d, d', s, s', e, e']) =
      (.ok [0x102030405, 0x60708090a0b, 0x60708090a0b, 0x102030405, 0x800, 0x8100] : R (List U64)) := by decide +kernel

example : let a : Bytes := [0xaa, 0xaa, 0xaa, 0xaa, 0xaa, 0xaa, 0xbb, 0xbb, 0xbb, 0xbb, 0xbb, 0xbb, 0x86, 0xdd]
    let eth := Ether.ofVec a
    eth.to_vec = a ∧ eth.get true Ether.dst = .ok 0xaaaaaaaaaaaa ∧ eth.get true Ether.src = .ok 0xbbbbbbbbbbbb ∧
      eth.get true Ether.etype = .ok 0x86dd := by decide +kernel

/-- `vlan_header_test`: /repo/tests/lib.rs:89-116 -/
example : (do
    let vlan := Vlan.new
    let a ← vlan.get true Vlan.pcp
    let vlan ← vlan.set Vlan.pcp 5
    let a' ← vlan.get true Vlan.pcp
    let b ← vlan.get true Vlan.cfi
    let vlan ← vlan.set Vlan.cfi 1
    let b' ← vlan.get true Vlan.cfi
    let c ← vlan.get true Vlan.vid
    let vlan ← vlan.set Vlan.vid 0xb
    let c' ← vlan.get true Vlan.vid
    pure [a, a', b, b', c, c']) = (.ok [0, 5, 0, 1, 0xa, 0xb] : R (List U64)) := by decide +kernel

example : let vlan := Vlan.ofVec [0x7f, 0xff, 0x08, 0x00]
    vlan.to_vec = [0x7f, 0xff, 0x08, 0x00] ∧ vlan.get true Vlan.vid = .ok 4095 ∧ vlan.get true Vlan.pcp = .ok 3 ∧
      vlan.get true Vlan.cfi = .ok 1 := by decide +kernel

/-- `ip_header_test`: /repo/tests/lib.rs:118-137 -/
example : (Packet.ipv4 true 5 10 4 64 0xdd 6 "10.10.10.1".toList "11.11.11.1".toList 86).map
    (fun h => ipv4_checksum_verify true h.to_vec) = .ok (.ok 0) := by decide +kernel

/-- `vxlan_header_test`: /repo/tests/lib.rs:139-149 -/
example : Vxlan.new.get true Vxlan.flags = .ok 8 ∧ Vxlan.new.get true Vxlan.vni = .ok 2000 ∧
    (Packet.vxlan 2000).get true Vxlan.flags = .ok 8 ∧ (Packet.vxlan 2000).get true Vxlan.vni = .ok 2000 := by decide +kernel

/-- `arp_header_test`: /repo/tests/lib.rs:206-218 -/
example : [ARP.hwtype, ARP.proto_type, ARP.hwlen, ARP.proto_len, ARP.opcode, ARP.sender_hw_addr, ARP.sender_proto_addr,
      ARP.target_hw_addr, ARP.target_proto_addr].map (fun f => ARP.new.get true f) =
    [.ok 1, .ok 0x800, .ok 6, .ok 4, .ok 1, .ok 0x000102030405, .ok 0xa000001, .ok 0, .ok 0] := by decide +kernel

/-! `create_packet_test`: /repo/tests/lib.rs:219-680 -/

/-- `Ipv6Addr::from_str` -/
def p6 : Ipv6FromStr := StdNet.ipv6FromStr

def mac1 : Str := "00:01:02:03:04:05".toList
def mac2 : Str := "00:06:07:08:09:0a".toList
def a4 : Str := "192.168.0.199".toList
def b4 : Str := "192.168.0.1".toList
def a6 : Str := "AAAA::1".toList
def b6 : Str := "BBBB::1".toList

def get (r : R Packet) : Packet := match r with | .ok p => p | .error _ => Packet.new

def tcpR := create_tcp_packet true mac1 mac2 false 10 3 5 "10.10.10.1".toList "11.11.11.1".toList 0 64 115 0 [] 1234 9090 100 101 5 0
  0x10 2 0 false payload
def udpR := create_udp_packet true mac1 mac2 false 10 3 5 a4 b4 0 64 0 0x4000 [] 1234 9090 false payload
def icmpR := create_icmp_packet true mac1 mac2 false 10 3 5 a4 b4 0 64 0 0x4000 [] 8 0 [] false payload
def tcpv6R := create_tcpv6_packet true p6 mac1 mac2 false 10 3 5 4 64 a6 b6 1234 9090 100 101 5 0 1 0 0 payload
def udpv6R := create_udpv6_packet true p6 mac1 mac2 false 10 3 5 4 64 a6 b6 1234 9090 false payload
def icmpv6R := create_icmpv6_packet true p6 mac1 mac2 false 10 3 5 4 64 a6 b6 135 0 [] false payload
def vxlanR (inner : Packet) := create_vxlan_packet true mac1 mac2 false 10 3 5 a4 b4 0 64 0 0x4000 [] 4789 9090 false 2000 inner
def vxlanv6R (inner : Packet) := create_vxlanv6_packet true p6 mac1 mac2 false 10 3 5 4 64 a6 b6 4789 9090 false 2000 inner
def arpReq := create_arp_packet "FF:FF:FF:FF:FF:FF".toList mac2 false 10 3 1 mac2 "00:00:00:00:00:00".toList
  "10.10.10.1".toList "0.0.0.0".toList payload
def arpResp := create_arp_packet mac2 mac1 false 10 3 2 mac1 mac2 "10.10.10.2".toList "10.10.10.1".toList payload
def ip4ip (inner : Packet) := create_ipv4ip_packet true mac1 mac2 false 10 3 5 a4 b4 0 64 0 0x4000 [] inner
def ip6ip (inner : Packet) := create_ipv6ip_packet p6 mac1 mac2 false 10 3 5 4 64 a6 b6 inner
def greip (inner : Packet) := create_gre_packet true mac1 mac2 false 10 3 5 a4 b4 0 64 0 0x4000 [] false false false false false
  0 0 0 0 0 0 [] (some inner)
def erspan2R := create_erspan_2_packet true mac1 mac2 false 10 3 5 a4 b4 0 64 0 0x4000 [] 23 0 0 1 0 10 10 (some (get udpv6R))
def erspan3R := create_erspan_3_packet true mac1 mac2 false 10 3 5 a4 b4 0 64 0 0x4000 [] 23 0 0 1 0 10 10 10 1 4 0xffffffff
  (some (get icmpR))
def llcP : Packet := (Packet.new.push (Dot3.ofVec [0, 1, 2, 3, 4, 5, 6, 7, 8, 9, 10, 11, 0x0, 86])).push (LLC.ofVec [0x0, 0x04, 0x0])
def snapP : Packet := ((Packet.new.push (Dot3.ofVec [0, 1, 2, 3, 4, 5, 6, 7, 8, 9, 10, 11, 0x0, 86])).push
  (LLC.ofVec [0xaa, 0xaa, 0x03])).push (SNAP.ofVec [0x0, 0x80, 0xc2, 0x8, 0x0])
/-- `remove(0)` on a clone -/
def noEth (r : R Packet) : Packet := get (r >>= fun p => p.remove 0)

/-- `assert!(parser::slow::parse(pkt.to_vec()).compare(&pkt))` -/
def comesBack (r : R Packet) : Bool :=
  match r with
  | .error _ => false
  | .ok p => match Slow.parse true p.to_vec with
    | .ok q => q.compare p
    | .error _ => false

example : comesBack tcpR = true := by decide +kernel
example : comesBack udpR = true := by decide +kernel
example : comesBack icmpR = true := by decide +kernel
example : comesBack tcpv6R = true := by decide +kernel
example : comesBack udpv6R = true := by decide +kernel
example : comesBack icmpv6R = true := by decide +kernel
example : comesBack (vxlanR (get udpR)) = true := by decide +kernel
example : comesBack (vxlanv6R (get udpR)) = true := by decide +kernel
example : comesBack (vxlanR (get tcpR)) = true := by decide +kernel
example : comesBack (vxlanv6R (get tcpR)) = true := by decide +kernel
example : comesBack arpReq = true := by decide +kernel
example : comesBack arpResp = true := by decide +kernel
example : comesBack (ip4ip (noEth tcpR)) = true := by decide +kernel
example : comesBack (ip4ip (noEth udpv6R)) = true := by decide +kernel
example : comesBack (ip6ip (noEth udpR)) = true := by decide +kernel
example : comesBack (ip6ip (noEth tcpv6R)) = true := by decide +kernel
example : comesBack (.ok llcP) = true := by decide +kernel
example : comesBack (.ok snapP) = true := by decide +kernel
example : comesBack (greip (noEth tcpR)) = true := by decide +kernel
example : comesBack (greip (noEth udpv6R)) = true := by decide +kernel
example : comesBack erspan2R = true := by decide +kernel
example : comesBack erspan3R = true := by decide +kernel

/-- `test_tcp_packet_with_payload`: /repo/tests/lib.rs:682-709 -/
def testTcp (pl : Bytes) := create_tcp_packet true "00:11:11:11:11:11".toList mac2 false 10 3 5 "10.10.10.1".toList
  "11.11.11.1".toList 0 64 115 0 [] 8888 9090 100 101 5 0 2 0 0 false pl

/-- `update_packet_test`: /repo/tests/lib.rs:716-754, with the two updates at the end, which must not panic; the clone
is taken at value level (for clones that share their bytes see `Verif.Heap`). -/
example : (do
    let pkt ← testTcp payload
    let pkt ← pkt.withHeaderMut Ether "Ether" (fun x => x.set Ether.etype 0x86dd)
    let new_pkt := pkt
    let ok := pkt.compare new_pkt && pkt.compare_with_slice new_pkt.to_vec && (pkt.get_header Ether "Ether").isSome
    match ← pkt.getHeaderMut Ether "Ether" (fun x => x.set Ether.etype 0x9999) with
    | none => pure (false, 0)
    | some pkt =>
      let pkt ← pkt.withHeaderMut Ether "Ether" (fun x => x.set Ether.etype 0x9999)
      let x ← pkt.indexName "Ether"
      pure (ok, ← x.get true Ether.etype)) = (.ok (true, 0x9999) : R (Bool × U64)) := by decide +kernel

/-- `packet_slice_payload_test`: /repo/tests/lib.rs:819-827 -/
example : (do
    let pkt ← testTcp [0, 1, 2, 3, 4, 5, 6, 7, 8, 9]
    let p ← Fast.parse true (.ofBytes pkt.to_vec)
    pure p.payload.bytes) = (.ok [0, 1, 2, 3, 4, 5, 6, 7, 8, 9] : R Bytes) := by decide +kernel

/-- `packet_payload_test`: /repo/tests/lib.rs:829-837 -/
example : (do
    let pkt ← testTcp [0, 1, 2, 3, 4, 5, 6, 7, 8, 9]
    let p ← Slow.parse true pkt.to_vec
    pure p.payload) = (.ok [0, 1, 2, 3, 4, 5, 6, 7, 8, 9] : R Bytes) := by decide +kernel

/-! The unit tests in the crate itself -/

/-- `a.iter().zip(b).filter(|&(a, b)| a == b).count()` -/
def agreeing (a b : Bytes) : Nat := ((a.zip b).filter fun x => x.1 = x.2).length

/-- `test_header_get`: /repo/src/headers.rs:856-881 -/
example : [Tester.bit1, Tester.bit2, Tester.bit3, Tester.bit4, Tester.bit5, Tester.bit6, Tester.bit7, Tester.bit8, Tester.bit9,
      Tester.bit10, Tester.byte1, Tester.byte2, Tester.byte3, Tester.byte8].map (fun f => Tester.new.get true f) =
    [1, 3, 7, 15, 31, 63, 127, 255, 511, 7, 0x20, 0x010d, 0xb885a3, 0x8a2e037073344567].map Except.ok ∧
    (Tester.new.get true Tester.byte4).map (·.setWidth 32) = .ok 0xf0e0d0c0#32 := by decide +kernel

example : (Tester.new.bytes true 319 192).map (agreeing [0x20, 0x01, 0x0d, 0xb8, 0x85, 0xa3, 0x00, 0x00, 0x00, 0x00, 0x8a, 0x2e,
    0x03, 0x70, 0x73, 0x35]) = .ok 16 := by decide +kernel

/-- `test_header_set`: /repo/src/headers.rs:882-926 -/
def setAll (h : Hdr) : List (Field × U64) → R (List Bool)
  | [] => .ok []
  | (f, v) :: r => do
    let h ← h.set f v
    let w ← h.get true f
    let bs ← setAll h r
    pure (decide (w = v) :: bs)

example : setAll Tester.new [(Tester.bit1, 0), (Tester.bit2, 2), (Tester.bit3, 3), (Tester.bit4, 4), (Tester.bit5, 5),
    (Tester.bit6, 6), (Tester.bit7, 7), (Tester.bit8, 8), (Tester.bit9, 9), (Tester.bit10, 3), (Tester.byte1, 1),
    (Tester.byte1, 0xFF), (Tester.byte2, 0xFFFF), (Tester.byte3, 0xFFFFFF), (Tester.byte4, 0xFFFFFFFF), (Tester.byte8, 8),
    (Tester.byte8, 0xFFFFFFFFFFFFFFFF)] = .ok (List.replicate 17 true) := by decide +kernel

/-- `ipv6_1`, `ipv4_1`, `mac_1`: /repo/src/packet.rs:646-674.  They print or ignore the results, which are given here. -/
example : ["2001:db8::1", "2001::1", "ffff::0", "ffff:ffff:0", "ffff::z"].map (fun s => to_ipv6_bytes p6 s.toList) =
    [[0x20, 0x01, 0x0d, 0xb8, 0, 0, 0, 0, 0, 0, 0, 0, 0, 0, 0, 1], [0x20, 0x01, 0, 0, 0, 0, 0, 0, 0, 0, 0, 0, 0, 0, 0, 1],
      [0xff, 0xff, 0, 0, 0, 0, 0, 0, 0, 0, 0, 0, 0, 0, 0, 0], List.replicate 16 0, List.replicate 16 0] ∧
    ["10.10.10.1", "10.10.10.1000", "10.10.10.ff"].map (fun s => to_ipv4_bytes s.toList) =
      [.ok [10, 10, 10, 1], .ok [10, 10, 10, 0], .ok [10, 10, 10, 0]] ∧
    ["ff:ff:ff:ff:ff:ff", "ff:ff:ff:ff:ff:123"].map (fun s => to_mac_bytes s.toList) =
      [.ok [0xff, 0xff, 0xff, 0xff, 0xff, 0xff], .ok [0xff, 0xff, 0xff, 0xff, 0xff, 0]] := by decide +kernel

/-- `set_get_octets_test`: /repo/src/packet.rs:677-713.  One of its 17 addresses; for all
octets this is `C06_set_bytes`. -/
def octets (h : Hdr) (m l : Nat) : List Bytes → R (List Nat)
  | [] => .ok []
  | a :: r => do
    let h ← h.set_bytes true m l a
    let b ← h.bytes true m l
    let cs ← octets h m l r
    pure (agreeing a b :: cs)

def dip : Bytes := to_ipv6_bytes p6 "2001:3001:4001:FFFF:FFFF:4001:3001:2001".toList

example : octets IPv6.new 319 192 [dip] = .ok [16] ∧ octets IPv6.new 191 64 [dip] = .ok [16] := by decide +kernel

end PacketRs.RepoTests
