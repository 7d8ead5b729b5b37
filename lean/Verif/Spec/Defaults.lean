import Verif.Spec.Dissect
/-!
# Spec: stacks of default headers

The stacks of headers made by `new()` in which every header is the one announced by the defaults of the header before it.
-/
namespace PacketRs.Spec

/-- Expecting this layer: the stacks that announce themselves.  Behind an MPLS label there is none because the default label is
not the bottom of the stack; ICMP has none because its default has two octets too many. -/
def defaultStacks : Layer → List (List HeaderDef)
  | .payload => [[]]
  | .ether => [[Ether, IPv4, TCP]]
  | .vlan => [[Vlan, IPv4, TCP]]
  | .mpls => []
  | .mplsBos => [[MPLS, Ether, IPv4, TCP], [MPLS, IPv4, TCP], [MPLS, IPv6, TCP]]
  | .ipv4 => [[IPv4, TCP]]
  | .ipv6 => [[IPv6, TCP]]
  | .gre => [[GRE]]
  | .erspan2 => [[ERSPAN2, Ether, IPv4, TCP]]
  | .erspan3 => [[ERSPAN3, Ether, IPv4, TCP]]
  | .arp => [[ARP]]
  | .icmp => []
  | .tcp => [[TCP]]
  | .udp => [[UDP]]
  | .vxlan => [[Vxlan, Ether, IPv4, TCP]]
  | .dot3 => [[Dot3, LLC]]
  | .llc => [[LLC]]
  | .snap => [[SNAP]]

/-- What the fields of a header made by `new()` hold, in order. -/
def defaults : List (String × List Nat) :=
  [ ("Ether", [0x102030405, 0x60708090a0b, 0x800]),
    ("LLC", [0, 0, 0]),
    ("SNAP", [0, 0]),
    ("Dot3", [0x102030405, 0x60708090a0b, 0]),
    ("Vlan", [0, 0, 10, 0x800]),
    ("ARP", [1, 0x800, 6, 4, 1, 0x102030405, 0xa000001, 0, 0]),
    ("IPv4", [4, 5, 0, 20, 51, 2, 221, 64, 6, 0xfaec, 0xc0a80001, 0xc0a80002]),
    ("IPv6", [6, 0, 0, 46, 6, 64, 0x20010db885a3000000008a2e03707334,
      0x20010db885a3000000008a2e03707335]),
    ("ICMP", [8, 0, 0]),
    ("UDP", [0x4d2, 80, 0, 0]),
    ("TCP", [0x4d2, 80, 0, 0, 5, 0, 2, 0x2000, 0xd2c, 0]),
    ("Vxlan", [8, 0, 0x7d0, 0]),
    ("GRE", [0, 0, 0, 0, 0, 0, 0, 0, 0]),
    ("GREChksumOffset", [0, 0]),
    ("GREKey", [0]),
    ("GRESequenceNum", [0]),
    ("ERSPAN2", [1, 0, 0, 0, 0, 0, 0, 0]),
    ("ERSPAN3", [2, 0, 0, 0, 0, 0, 0, 0, 0, 0, 0, 0, 0, 0]),
    ("ERSPANPLATFORM", [0, 0]),
    ("STP", [0, 0, 0, 0, 0, 0, 0, 0, 0, 0, 1, 20, 2, 15]),
    ("MPLS", [0, 0, 0, 0])  ]

end PacketRs.Spec
