import Verif.Types
/-!
# Specification: assigned numbers

The protocol numbers as assigned by IANA/IEEE, independent of the enumerations of the code.
-/
namespace PacketRs.Spec

/-- IP version numbers. -/
def ipVersionNumbers : List (IpType × Nat) := [(.V4, 4), (.V6, 6)]

/-- Protocol numbers (IPv4 `protocol`, IPv6 `next header`). -/
def ipProtocolNumbers : List (IpProtocol × Nat) :=
  [(.ICMP, 1), (.IPIP, 4), (.TCP, 6), (.UDP, 17), (.IPV6, 41), (.GRE, 47), (.ICMPV6, 58)]

/-- EtherTypes: IPv4 0x0800, ARP 0x0806, 802.1Q 0x8100, IPv6 0x86DD, MPLS unicast 0x8847, ERSPAN II 0x88BE,
ERSPAN III 0x22EB. -/
def etherTypeNumbers : List (EtherType × Nat) :=
  [(.IPV4, 2048), (.ARP, 2054), (.DOT1Q, 33024), (.IPV6, 34525), (.MPLS, 34887), (.ERSPANII, 35006), (.ERSPANIII, 8939)]

/-- Values of the ERSPAN version field: type II is 1, type III is 2. -/
def erspanVersionNumbers : List (ErspanVersion × Nat) := [(.II, 1), (.III, 2)]

end PacketRs.Spec
