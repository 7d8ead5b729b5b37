import Verif.Utils
/-!
# Concrete builder calls

Arguments used in the non-vacuity examples beside the builder theorems.  Nothing is proved from these.
-/
namespace PacketRs.Sample
open Utils

def mac1 : Str := "00:11:22:33:44:55".toList
def mac2 : Str := "00:06:07:08:09:0a".toList
def ip1 : Str := "10.0.0.1".toList
def ip2 : Str := "192.168.0.2".toList
/-- A stand-in for `Ipv6Addr::from_str` that knows one address. -/
def p6 : Ipv6FromStr := fun s =>
  if s = "2001:db8::1".toList then
    some #v[0x20, 0x01, 0x0d, 0xb8, 0, 0, 0, 0, 0, 0, 0, 0, 0, 0, 0, 1]
  else none
def ip6a : Str := "2001:db8::1".toList
def ip6b : Str := "nonsense".toList
def data : Bytes := [0xde#8, 0xad#8, 0xbe#8, 0xef#8, 0x01#8]

def eth : R Packet := create_eth_packet mac1 mac2 true 10 3 0x88cc data
def arp : R Packet := create_arp_packet mac1 mac2 true 10 3 2 mac2 mac1 ip1 ip2 data
def ipv4 : R Packet := create_ipv4_packet true mac1 mac2 true 10 3 5 ip1 ip2 99 1 64 0x1234 0 [] data
def ipv6 : R Packet := create_ipv6_packet p6 mac1 mac2 false 10 3 7 0x12345 99 64 ip6a ip6b data
def tcp : R Packet := create_tcp_packet true mac1 mac2 true 10 3 5 ip1 ip2 1 64 0x1234 0 [] 80 1234 7 9 5 0 2 512 0 true data
def udpTo (port : U16) : R Packet :=
  create_udp_packet true mac1 mac2 true 10 3 5 ip1 ip2 1 64 0x1234 0 [] port 1234 true data
def udp : R Packet := udpTo 53
def icmp : R Packet := create_icmp_packet true mac1 mac2 false 10 3 5 ip1 ip2 1 64 0x1234 0 [] 8 0 [1, 2] true data
def tcpv6 : R Packet := create_tcpv6_packet true p6 mac1 mac2 true 10 3 7 0x12345 64 ip6a ip6b 80 1234 7 9 5 0 2 512 0 data
def udpv6To (port : U16) : R Packet :=
  create_udpv6_packet true p6 mac1 mac2 true 10 3 7 0x12345 64 ip6a ip6b port 1234 true data
def udpv6 : R Packet := udpv6To 53
def icmpv6 : R Packet := create_icmpv6_packet true p6 mac1 mac2 false 10 3 7 0x12345 64 ip6a ip6b 128 0 [1, 2] true data

/-- An inner Ethernet frame: Ethernet, VLAN, ARP, payload. -/
def innerFrame : Packet := match arp with | .ok p => p | .error _ => Packet.new
/-- An inner IPv4 packet without layer 2: IPv4 (protocol 99), payload. -/
def innerIp : Packet := match ipv4 with | .ok p => ⟨p.hdrs.drop 2, p.payload⟩ | .error _ => Packet.new
/-- An inner IPv6 packet without layer 2. -/
def innerIp6 : Packet := match ipv6 with | .ok p => ⟨p.hdrs.drop 1, p.payload⟩ | .error _ => Packet.new

def vxlanTo (port : U16) : R Packet :=
  create_vxlan_packet true mac1 mac2 true 10 3 5 ip1 ip2 1 64 0x1234 0 [] port 1234 true 0xabcd innerFrame
def vxlan : R Packet := vxlanTo 4789
def vxlanv6 : R Packet :=
  create_vxlanv6_packet true p6 mac1 mac2 true 10 3 7 0x12345 64 ip6a ip6b 4789 1234 true 0xabcd innerFrame
def ipv4ip : R Packet := create_ipv4ip_packet true mac1 mac2 true 10 3 5 ip1 ip2 1 64 0x1234 0 [] innerIp6
def ipv6ip : R Packet := create_ipv6ip_packet p6 mac1 mac2 true 10 3 7 0x12345 64 ip6a ip6b innerIp
/-- GRE with the checksum/offset (`c`), routing (`r`), key (`k`) and sequence number (`q`) options. -/
def greWith (c r k q : Bool) : R Packet :=
  create_gre_packet true mac1 mac2 true 10 3 5 ip1 ip2 1 64 0x1234 0 [] c r k q false 0 0 0xaaaa 0xbbbb 0xc0ffee
    0x7 (if r then [1, 2, 3] else []) (some innerIp)
def gre : R Packet := greWith false false true false
def erspan2 : R Packet :=
  create_erspan_2_packet true mac1 mac2 true 10 3 5 ip1 ip2 1 64 0x1234 0 [] 24 100 1 2 1 77 0x55 (some innerFrame)
/-- ERSPAN III with sequence number `seq`. -/
def erspan3With (seq : U32) : R Packet :=
  create_erspan_3_packet true mac1 mac2 true 10 3 5 ip1 ip2 1 64 0x1234 0 [] seq 100 1 2 1 77 0x55667788 3 0x101 5
    0x1122334455 (some innerFrame)
def erspan3 : R Packet := erspan3With 23

/-- The packet of a successful call. -/
def get (x : R Packet) : Packet := match x with | .ok p => p | .error _ => Packet.new

end PacketRs.Sample
