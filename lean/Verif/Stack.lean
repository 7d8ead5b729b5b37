import Verif.Slow
import Verif.Fast
/-!
# The parsers on a finite stack

The functions of /repo/src/parser/slow.rs and /repo/src/parser/fast.rs once more, now with the number of calls for which
there is still room on the stack: a call with no room left is `.error .stack` (in the real program the process is
killed).  Nothing else differs from `Verif.Slow` and `Verif.Fast`.  None of the calls is a tail call (each function
inserts its header into the packet which the call returns).

Simplification: all parser functions have stack frames of the same size, and the calls of functions that are not parser
functions (`insert`, `from`, the getters), which do not nest, are not counted.  Optimisation may remove calls.
-/
namespace PacketRs.Stack.Slow
open PacketRs.Slow (insertOpt optHdr optOffset)

/-- `accept`: /repo/src/parser/slow.rs:223-227 -/
def accept : Nat → Bytes → R Packet
  | 0, _ => .error .stack
  | _ + 1, arr => pure (Packet.new.set_payload arr)

/-- `parse_snap`: /repo/src/parser/slow.rs:29-34 -/
def parse_snap : Nat → Bytes → R Packet
  | 0, _ => .error .stack
  | d + 1, arr => do
    let snap := SNAP.ofVec (← slice arr 0 SNAP.size)
    let rest ← sliceFrom arr SNAP.size
    let pkt ← accept d rest.1
    pure (pkt.insert snap)

/-- `parse_llc`: /repo/src/parser/slow.rs:19-28 (`&&` evaluates left to right and short-circuits) -/
def parse_llc : Nat → Bytes → R Packet
  | 0, _ => .error .stack
  | d + 1, arr => do
    let llc := LLC.ofVec (← slice arr 0 LLC.size)
    let isSnap : Bool ← do
      if (← index arr 0) ≠ 0xAA#8 then pure false
      else if (← index arr 1) ≠ 0xAA#8 then pure false
      else pure (decide ((← index arr 2) = 0x03#8))
    let rest ← sliceFrom arr LLC.size
    let pkt ← if isSnap then parse_snap d rest.1 else accept d rest.1
    pure (pkt.insert llc)

/-- `parse_dot3`: /repo/src/parser/slow.rs:13-18 -/
def parse_dot3 : Nat → Bytes → R Packet
  | 0, _ => .error .stack
  | d + 1, arr => do
    let dot3 := Dot3.ofVec (← slice arr 0 Dot3.size)
    let rest ← sliceFrom arr Dot3.size
    let pkt ← parse_llc d rest.1
    pure (pkt.insert dot3)

/-- `parse_arp`: /repo/src/parser/slow.rs:193-197 -/
def parse_arp : Nat → Bytes → R Packet
  | 0, _ => .error .stack
  | d + 1, arr => do
    let rest ← sliceFrom arr ARP.size
    let pkt ← accept d rest.1
    pure (pkt.insert (ARP.ofVec (← slice arr 0 ARP.size)))

/-- `parse_icmp`: /repo/src/parser/slow.rs:198-202 -/
def parse_icmp : Nat → Bytes → R Packet
  | 0, _ => .error .stack
  | d + 1, arr => do
    let rest ← sliceFrom arr ICMP.size
    let pkt ← accept d rest.1
    pure (pkt.insert (ICMP.ofVec (← slice arr 0 ICMP.size)))

/-- `parse_tcp`: /repo/src/parser/slow.rs:203-207 -/
def parse_tcp : Nat → Bytes → R Packet
  | 0, _ => .error .stack
  | d + 1, arr => do
    let rest ← sliceFrom arr TCP.size
    let pkt ← accept d rest.1
    pure (pkt.insert (TCP.ofVec (← slice arr 0 TCP.size)))

mutual

/-- `parse_ethernet`: /repo/src/parser/slow.rs:35-48 -/
def parse_ethernet (chk : Bool) : Nat → Bytes → R Packet
  | 0, _ => .error .stack
  | d + 1, arr => do
    let eth := Ether.ofVec (← slice arr 0 Ether.size)
    let etype := EtherType.try_from ((← eth.get chk Ether.etype).setWidth 16)
    let rest ← sliceFrom arr Ether.size
    let pkt ← match etype with
      | some .DOT1Q => parse_vlan chk d rest.1
      | some .ARP => parse_arp d rest.1
      | some .IPV4 => parse_ipv4 chk d rest.1
      | some .IPV6 => parse_ipv6 chk d rest.1
      | some .MPLS => parse_mpls chk d rest.1
      | _ => accept d rest.1
    pure (pkt.insert eth)

/-- `parse_vlan`: /repo/src/parser/slow.rs:49-62 -/
def parse_vlan (chk : Bool) : Nat → Bytes → R Packet
  | 0, _ => .error .stack
  | d + 1, arr => do
    let vlan := Vlan.ofVec (← slice arr 0 Vlan.size)
    let etype := EtherType.try_from ((← vlan.get chk Vlan.etype).setWidth 16)
    let rest ← sliceFrom arr Vlan.size
    let pkt ← match etype with
      | some .DOT1Q => parse_vlan chk d rest.1
      | some .ARP => parse_arp d rest.1
      | some .IPV4 => parse_ipv4 chk d rest.1
      | some .IPV6 => parse_ipv6 chk d rest.1
      | some .MPLS => parse_mpls chk d rest.1
      | _ => accept d rest.1
    pure (pkt.insert vlan)

/-- `parse_mpls`: /repo/src/parser/slow.rs:63-73 -/
def parse_mpls (chk : Bool) : Nat → Bytes → R Packet
  | 0, _ => .error .stack
  | d + 1, arr => do
    let mpls := MPLS.ofVec (← slice arr 0 MPLS.size)
    let bos ← mpls.get chk MPLS.bos
    let rest ← sliceFrom arr MPLS.size
    let pkt ← if bos = 1#64 then parse_mpls_bos chk d rest.1 else parse_mpls chk d rest.1
    pure (pkt.insert mpls)

/-- `parse_mpls_bos`: /repo/src/parser/slow.rs:74-83.  `arr[4] >> 4 & 0xf` is `(arr[4] >> 4) & 0xf`. -/
def parse_mpls_bos (chk : Bool) : Nat → Bytes → R Packet
  | 0, _ => .error .stack
  | d + 1, arr => do
    let mpls := MPLS.ofVec (← slice arr 0 MPLS.size)
    let b ← index arr MPLS.size
    let rest ← sliceFrom arr MPLS.size
    let pkt ← match IpType.try_from ((b >>> 4) &&& 0xf#8) with
      | some .V4 => parse_ipv4 chk d rest.1
      | some .V6 => parse_ipv6 chk d rest.1
      | _ => parse_ethernet chk d rest.1
    pure (pkt.insert mpls)

/-- `parse_ipv4`: /repo/src/parser/slow.rs:84-98 -/
def parse_ipv4 (chk : Bool) : Nat → Bytes → R Packet
  | 0, _ => .error .stack
  | d + 1, arr => do
    let ipv4 := IPv4.ofVec (← slice arr 0 IPv4.size)
    let proto := IpProtocol.try_from ((← ipv4.get chk IPv4.protocol).setWidth 8)
    let rest ← sliceFrom arr IPv4.size
    let pkt ← match proto with
      | some .ICMP => parse_icmp d rest.1
      | some .IPIP => parse_ipv4 chk d rest.1
      | some .TCP => parse_tcp d rest.1
      | some .UDP => parse_udp chk d rest.1
      | some .IPV6 => parse_ipv6 chk d rest.1
      | some .GRE => parse_gre chk d rest.1
      | _ => accept d rest.1
    pure (pkt.insert ipv4)

/-- `parse_ipv6`: /repo/src/parser/slow.rs:99-113 -/
def parse_ipv6 (chk : Bool) : Nat → Bytes → R Packet
  | 0, _ => .error .stack
  | d + 1, arr => do
    let ipv6 := IPv6.ofVec (← slice arr 0 IPv6.size)
    let next_hdr := IpProtocol.try_from ((← ipv6.get chk IPv6.next_hdr).setWidth 8)
    let rest ← sliceFrom arr IPv6.size
    let pkt ← match next_hdr with
      | some .ICMPV6 => parse_icmp d rest.1
      | some .IPIP => parse_ipv4 chk d rest.1
      | some .TCP => parse_tcp d rest.1
      | some .UDP => parse_udp chk d rest.1
      | some .IPV6 => parse_ipv6 chk d rest.1
      | some .GRE => parse_gre chk d rest.1
      | _ => accept d rest.1
    pure (pkt.insert ipv6)

/-- `parse_gre`: /repo/src/parser/slow.rs:114-165.  The mutable `offset` is split into its four
successive values. -/
def parse_gre (chk : Bool) : Nat → Bytes → R Packet
  | 0, _ => .error .stack
  | d + 1, arr => do
    let gre := GRE.ofVec (← slice arr 0 GRE.size)
    let proto := EtherType.try_from ((← gre.get chk GRE.proto).setWidth 16)
    let chksum_present ← gre.get chk GRE.chksum_present
    let seqnum_present ← gre.get chk GRE.seqnum_present
    let key_present ← gre.get chk GRE.key_present
    let gco ← optHdr GREChksumOffset chksum_present arr GRE.size
    let gk ← optHdr GREKey key_present arr (optOffset GREChksumOffset chksum_present GRE.size)
    let gsn ← optHdr GRESequenceNum seqnum_present arr
      (optOffset GREKey key_present (optOffset GREChksumOffset chksum_present GRE.size))
    let rest ← sliceFrom arr (optOffset GRESequenceNum seqnum_present
      (optOffset GREKey key_present (optOffset GREChksumOffset chksum_present GRE.size)))
    let pkt ← match proto with
      | some .IPV4 => parse_ipv4 chk d rest.1
      | some .IPV6 => parse_ipv6 chk d rest.1
      | some .ERSPANII => parse_erspan2 chk d rest.1
      | some .ERSPANIII => parse_erspan3 chk d rest.1
      | _ => accept d rest.1
    let pkt := insertOpt pkt gco
    let pkt := insertOpt pkt gk
    let pkt := insertOpt pkt gsn
    pure (pkt.insert gre)

/-- `parse_erspan2`: /repo/src/parser/slow.rs:166-171 -/
def parse_erspan2 (chk : Bool) : Nat → Bytes → R Packet
  | 0, _ => .error .stack
  | d + 1, arr => do
    let erspan2 := ERSPAN2.ofVec (← slice arr 0 ERSPAN2.size)
    let rest ← sliceFrom arr ERSPAN2.size
    let pkt ← parse_ethernet chk d rest.1
    pure (pkt.insert erspan2)

/-- `parse_erspan3`: /repo/src/parser/slow.rs:172-192 -/
def parse_erspan3 (chk : Bool) : Nat → Bytes → R Packet
  | 0, _ => .error .stack
  | d + 1, arr => do
    let erspan3 := ERSPAN3.ofVec (← slice arr 0 ERSPAN3.size)
    let o ← erspan3.get chk ERSPAN3.o
    let platform ← optHdr ERSPANPLATFORM o arr ERSPAN3.size
    let rest ← sliceFrom arr (optOffset ERSPANPLATFORM o ERSPAN3.size)
    let pkt ← parse_ethernet chk d rest.1
    let pkt := insertOpt pkt platform
    pure (pkt.insert erspan3)

/-- `parse_udp`: /repo/src/parser/slow.rs:208-217 -/
def parse_udp (chk : Bool) : Nat → Bytes → R Packet
  | 0, _ => .error .stack
  | d + 1, arr => do
    let udp := UDP.ofVec (← slice arr 0 UDP.size)
    let dst : U16 := (← udp.get chk UDP.dst).setWidth 16
    let rest ← sliceFrom arr UDP.size
    let pkt ← if dst = UDP_PORT_VXLAN then parse_vxlan chk d rest.1 else accept d rest.1
    pure (pkt.insert udp)

/-- `parse_vxlan`: /repo/src/parser/slow.rs:218-222 -/
def parse_vxlan (chk : Bool) : Nat → Bytes → R Packet
  | 0, _ => .error .stack
  | d + 1, arr => do
    let rest ← sliceFrom arr Vxlan.size
    let pkt ← parse_ethernet chk d rest.1
    pure (pkt.insert (Vxlan.ofVec (← slice arr 0 Vxlan.size)))

end

/-- `parse`: /repo/src/parser/slow.rs:5-12 -/
def parse (chk : Bool) : Nat → Bytes → R Packet
  | 0, _ => .error .stack
  | d + 1, arr => do
    let b12 ← index arr 12
    let b13 ← index arr 13
    let length : U16 := (b12.setWidth 16 <<< 8) ||| b13.setWidth 16
    if length < 1500#16 then parse_dot3 d arr else parse_ethernet chk d arr

end PacketRs.Stack.Slow

namespace PacketRs.Stack.Fast
open PacketRs.Fast (PacketSlice Win SHdr insertOpt optHdr optOffset)

/-- `accept`: /repo/src/parser/fast.rs:223-227 -/
def accept : Nat → Win → R PacketSlice
  | 0, _ => .error .stack
  | _ + 1, arr => pure (PacketSlice.new.set_payload arr)

/-- `parse_snap`: /repo/src/parser/fast.rs:29-34 -/
def parse_snap : Nat → Win → R PacketSlice
  | 0, _ => .error .stack
  | d + 1, arr => do
    let snap := SHdr.from SNAP (← arr.slice 0 SNAP.size)
    let rest ← arr.sliceFrom SNAP.size
    let pkt ← accept d rest.1
    pure (pkt.insert snap)

/-- `parse_llc`: /repo/src/parser/fast.rs:19-28 -/
def parse_llc : Nat → Win → R PacketSlice
  | 0, _ => .error .stack
  | d + 1, arr => do
    let llc := SHdr.from LLC (← arr.slice 0 LLC.size)
    let isSnap : Bool ← do
      if (← arr.index 0) ≠ 0xAA#8 then pure false
      else if (← arr.index 1) ≠ 0xAA#8 then pure false
      else pure (decide ((← arr.index 2) = 0x03#8))
    let rest ← arr.sliceFrom LLC.size
    let pkt ← if isSnap then parse_snap d rest.1 else accept d rest.1
    pure (pkt.insert llc)

/-- `parse_dot3`: /repo/src/parser/fast.rs:13-18 -/
def parse_dot3 : Nat → Win → R PacketSlice
  | 0, _ => .error .stack
  | d + 1, arr => do
    let dot3 := SHdr.from Dot3 (← arr.slice 0 Dot3.size)
    let rest ← arr.sliceFrom Dot3.size
    let pkt ← parse_llc d rest.1
    pure (pkt.insert dot3)

/-- `parse_arp`: /repo/src/parser/fast.rs:193-197 -/
def parse_arp : Nat → Win → R PacketSlice
  | 0, _ => .error .stack
  | d + 1, arr => do
    let rest ← arr.sliceFrom ARP.size
    let pkt ← accept d rest.1
    pure (pkt.insert (SHdr.from ARP (← arr.slice 0 ARP.size)))

/-- `parse_icmp`: /repo/src/parser/fast.rs:198-202 -/
def parse_icmp : Nat → Win → R PacketSlice
  | 0, _ => .error .stack
  | d + 1, arr => do
    let rest ← arr.sliceFrom ICMP.size
    let pkt ← accept d rest.1
    pure (pkt.insert (SHdr.from ICMP (← arr.slice 0 ICMP.size)))

/-- `parse_tcp`: /repo/src/parser/fast.rs:203-207 -/
def parse_tcp : Nat → Win → R PacketSlice
  | 0, _ => .error .stack
  | d + 1, arr => do
    let rest ← arr.sliceFrom TCP.size
    let pkt ← accept d rest.1
    pure (pkt.insert (SHdr.from TCP (← arr.slice 0 TCP.size)))

mutual

/-- `parse_ethernet`: /repo/src/parser/fast.rs:35-48 -/
def parse_ethernet (chk : Bool) : Nat → Win → R PacketSlice
  | 0, _ => .error .stack
  | d + 1, arr => do
    let eth := SHdr.from Ether (← arr.slice 0 Ether.size)
    let etype := EtherType.try_from ((← eth.get chk Ether.etype).setWidth 16)
    let rest ← arr.sliceFrom Ether.size
    let pkt ← match etype with
      | some .DOT1Q => parse_vlan chk d rest.1
      | some .ARP => parse_arp d rest.1
      | some .IPV4 => parse_ipv4 chk d rest.1
      | some .IPV6 => parse_ipv6 chk d rest.1
      | some .MPLS => parse_mpls chk d rest.1
      | _ => accept d rest.1
    pure (pkt.insert eth)

/-- `parse_vlan`: /repo/src/parser/fast.rs:49-62 -/
def parse_vlan (chk : Bool) : Nat → Win → R PacketSlice
  | 0, _ => .error .stack
  | d + 1, arr => do
    let vlan := SHdr.from Vlan (← arr.slice 0 Vlan.size)
    let etype := EtherType.try_from ((← vlan.get chk Vlan.etype).setWidth 16)
    let rest ← arr.sliceFrom Vlan.size
    let pkt ← match etype with
      | some .DOT1Q => parse_vlan chk d rest.1
      | some .ARP => parse_arp d rest.1
      | some .IPV4 => parse_ipv4 chk d rest.1
      | some .IPV6 => parse_ipv6 chk d rest.1
      | some .MPLS => parse_mpls chk d rest.1
      | _ => accept d rest.1
    pure (pkt.insert vlan)

/-- `parse_mpls`: /repo/src/parser/fast.rs:63-73 -/
def parse_mpls (chk : Bool) : Nat → Win → R PacketSlice
  | 0, _ => .error .stack
  | d + 1, arr => do
    let mpls := SHdr.from MPLS (← arr.slice 0 MPLS.size)
    let bos ← mpls.get chk MPLS.bos
    let rest ← arr.sliceFrom MPLS.size
    let pkt ← if bos = 1#64 then parse_mpls_bos chk d rest.1 else parse_mpls chk d rest.1
    pure (pkt.insert mpls)

/-- `parse_mpls_bos`: /repo/src/parser/fast.rs:74-83 -/
def parse_mpls_bos (chk : Bool) : Nat → Win → R PacketSlice
  | 0, _ => .error .stack
  | d + 1, arr => do
    let mpls := SHdr.from MPLS (← arr.slice 0 MPLS.size)
    let b ← arr.index MPLS.size
    let rest ← arr.sliceFrom MPLS.size
    let pkt ← match IpType.try_from ((b >>> 4) &&& 0xf#8) with
      | some .V4 => parse_ipv4 chk d rest.1
      | some .V6 => parse_ipv6 chk d rest.1
      | _ => parse_ethernet chk d rest.1
    pure (pkt.insert mpls)

/-- `parse_ipv4`: /repo/src/parser/fast.rs:84-98 -/
def parse_ipv4 (chk : Bool) : Nat → Win → R PacketSlice
  | 0, _ => .error .stack
  | d + 1, arr => do
    let ipv4 := SHdr.from IPv4 (← arr.slice 0 IPv4.size)
    let proto := IpProtocol.try_from ((← ipv4.get chk IPv4.protocol).setWidth 8)
    let rest ← arr.sliceFrom IPv4.size
    let pkt ← match proto with
      | some .ICMP => parse_icmp d rest.1
      | some .IPIP => parse_ipv4 chk d rest.1
      | some .TCP => parse_tcp d rest.1
      | some .UDP => parse_udp chk d rest.1
      | some .IPV6 => parse_ipv6 chk d rest.1
      | some .GRE => parse_gre chk d rest.1
      | _ => accept d rest.1
    pure (pkt.insert ipv4)

/-- `parse_ipv6`: /repo/src/parser/fast.rs:99-113 -/
def parse_ipv6 (chk : Bool) : Nat → Win → R PacketSlice
  | 0, _ => .error .stack
  | d + 1, arr => do
    let ipv6 := SHdr.from IPv6 (← arr.slice 0 IPv6.size)
    let next_hdr := IpProtocol.try_from ((← ipv6.get chk IPv6.next_hdr).setWidth 8)
    let rest ← arr.sliceFrom IPv6.size
    let pkt ← match next_hdr with
      | some .ICMPV6 => parse_icmp d rest.1
      | some .IPIP => parse_ipv4 chk d rest.1
      | some .TCP => parse_tcp d rest.1
      | some .UDP => parse_udp chk d rest.1
      | some .IPV6 => parse_ipv6 chk d rest.1
      | some .GRE => parse_gre chk d rest.1
      | _ => accept d rest.1
    pure (pkt.insert ipv6)

/-- `parse_gre`: /repo/src/parser/fast.rs:114-165 -/
def parse_gre (chk : Bool) : Nat → Win → R PacketSlice
  | 0, _ => .error .stack
  | d + 1, arr => do
    let gre := SHdr.from GRE (← arr.slice 0 GRE.size)
    let proto := EtherType.try_from ((← gre.get chk GRE.proto).setWidth 16)
    let chksum_present ← gre.get chk GRE.chksum_present
    let seqnum_present ← gre.get chk GRE.seqnum_present
    let key_present ← gre.get chk GRE.key_present
    let gco ← optHdr GREChksumOffset chksum_present arr GRE.size
    let gk ← optHdr GREKey key_present arr (optOffset GREChksumOffset chksum_present GRE.size)
    let gsn ← optHdr GRESequenceNum seqnum_present arr
      (optOffset GREKey key_present (optOffset GREChksumOffset chksum_present GRE.size))
    let rest ← arr.sliceFrom (optOffset GRESequenceNum seqnum_present
      (optOffset GREKey key_present (optOffset GREChksumOffset chksum_present GRE.size)))
    let pkt ← match proto with
      | some .IPV4 => parse_ipv4 chk d rest.1
      | some .IPV6 => parse_ipv6 chk d rest.1
      | some .ERSPANII => parse_erspan2 chk d rest.1
      | some .ERSPANIII => parse_erspan3 chk d rest.1
      | _ => accept d rest.1
    let pkt := insertOpt pkt gco
    let pkt := insertOpt pkt gk
    let pkt := insertOpt pkt gsn
    pure (pkt.insert gre)

/-- `parse_erspan2`: /repo/src/parser/fast.rs:166-171 -/
def parse_erspan2 (chk : Bool) : Nat → Win → R PacketSlice
  | 0, _ => .error .stack
  | d + 1, arr => do
    let erspan2 := SHdr.from ERSPAN2 (← arr.slice 0 ERSPAN2.size)
    let rest ← arr.sliceFrom ERSPAN2.size
    let pkt ← parse_ethernet chk d rest.1
    pure (pkt.insert erspan2)

/-- `parse_erspan3`: /repo/src/parser/fast.rs:172-192 -/
def parse_erspan3 (chk : Bool) : Nat → Win → R PacketSlice
  | 0, _ => .error .stack
  | d + 1, arr => do
    let erspan3 := SHdr.from ERSPAN3 (← arr.slice 0 ERSPAN3.size)
    let o ← erspan3.get chk ERSPAN3.o
    let platform ← optHdr ERSPANPLATFORM o arr ERSPAN3.size
    let rest ← arr.sliceFrom (optOffset ERSPANPLATFORM o ERSPAN3.size)
    let pkt ← parse_ethernet chk d rest.1
    let pkt := insertOpt pkt platform
    pure (pkt.insert erspan3)

/-- `parse_udp`: /repo/src/parser/fast.rs:208-217 -/
def parse_udp (chk : Bool) : Nat → Win → R PacketSlice
  | 0, _ => .error .stack
  | d + 1, arr => do
    let udp := SHdr.from UDP (← arr.slice 0 UDP.size)
    let dst : U16 := (← udp.get chk UDP.dst).setWidth 16
    let rest ← arr.sliceFrom UDP.size
    let pkt ← if dst = UDP_PORT_VXLAN then parse_vxlan chk d rest.1 else accept d rest.1
    pure (pkt.insert udp)

/-- `parse_vxlan`: /repo/src/parser/fast.rs:218-222 -/
def parse_vxlan (chk : Bool) : Nat → Win → R PacketSlice
  | 0, _ => .error .stack
  | d + 1, arr => do
    let rest ← arr.sliceFrom Vxlan.size
    let pkt ← parse_ethernet chk d rest.1
    pure (pkt.insert (SHdr.from Vxlan (← arr.slice 0 Vxlan.size)))

end

/-- `parse`: /repo/src/parser/fast.rs:5-12 -/
def parse (chk : Bool) : Nat → Win → R PacketSlice
  | 0, _ => .error .stack
  | d + 1, arr => do
    let b12 ← arr.index 12
    let b13 ← arr.index 13
    let length : U16 := (b12.setWidth 16 <<< 8) ||| b13.setWidth 16
    if length < 1500#16 then parse_dot3 d arr else parse_ethernet chk d arr

end PacketRs.Stack.Fast
