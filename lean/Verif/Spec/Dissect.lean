import Verif.Headers
/-!
# Specification: the dissection grammar

A declarative description, over raw octets, of which byte strings are a stack of headers followed by
a payload.  It refers to the header table only for the names of the header types; sizes, offsets and
protocol numbers are written out here from the protocol layouts.
-/
namespace PacketRs.Spec

/-- What is expected next in the input. -/
inductive Layer where
  | ether | vlan | mpls | mplsBos | ipv4 | ipv6 | gre | erspan2 | erspan3
  | arp | icmp | tcp | udp | vxlan | dot3 | llc | snap | payload
  deriving DecidableEq, Repr

/-- Octet `i` as a number (0 beyond the end). -/
def u8At (d : Bytes) (i : Nat) : Nat := (d.getD i 0#8).toNat

/-- The 16-bit big-endian number at octet `i`. -/
def u16At (d : Bytes) (i : Nat) : Nat := 256 * u8At d i + u8At d (i + 1)

/-- Bit `k` (0 = least significant) of octet `i`. -/
def bitAt (d : Bytes) (i k : Nat) : Bool := u8At d i / 2 ^ k % 2 = 1

/-- What follows an Ethernet or VLAN header with this EtherType. -/
def etherNext (et : Nat) : Layer :=
  if et = 0x8100 then .vlan
  else if et = 0x0806 then .arp
  else if et = 0x0800 then .ipv4
  else if et = 0x86DD then .ipv6
  else if et = 0x8847 then .mpls
  else .payload

/-- What follows an IPv4 header with this protocol number. -/
def ipv4Next (p : Nat) : Layer :=
  if p = 1 then .icmp
  else if p = 4 then .ipv4
  else if p = 6 then .tcp
  else if p = 17 then .udp
  else if p = 41 then .ipv6
  else if p = 47 then .gre
  else .payload

/-- What follows an IPv6 header with this next-header number. -/
def ipv6Next (p : Nat) : Layer :=
  if p = 58 then .icmp
  else if p = 4 then .ipv4
  else if p = 6 then .tcp
  else if p = 17 then .udp
  else if p = 41 then .ipv6
  else if p = 47 then .gre
  else .payload

/-- What follows a GRE header with this protocol type. -/
def greNext (p : Nat) : Layer :=
  if p = 0x0800 then .ipv4
  else if p = 0x86DD then .ipv6
  else if p = 0x88be then .erspan2
  else if p = 0x22eb then .erspan3
  else .payload

/-- What follows the header after the bottom MPLS label, by the IP version nibble. -/
def bosNext (nibble : Nat) : Layer :=
  if nibble = 4 then .ipv4 else if nibble = 6 then .ipv6 else .ether

/-- An optional header: absent when its bytes are empty. -/
def optH (T : HeaderDef) (b : Bytes) : List Hdr := if b = [] then [] else [⟨T, b⟩]

/-- `Dissect l b hs pl`: expecting layer `l`, the bytes `b` are the headers `hs` and the payload `pl`.
The headers are listed in the order in which the parser returns them; this is the order of their bytes
in `b` except for the GRE options (wire order: checksum/offset, key, sequence number). -/
inductive Dissect : Layer → Bytes → List Hdr → Bytes → Prop
  | payload (b : Bytes) : Dissect .payload b [] b
  | ether {h r hs pl} : h.length = 14 → Dissect (etherNext (u16At h 12)) r hs pl →
      Dissect .ether (h ++ r) (⟨Ether, h⟩ :: hs) pl
  | vlan {h r hs pl} : h.length = 4 → Dissect (etherNext (u16At h 2)) r hs pl →
      Dissect .vlan (h ++ r) (⟨Vlan, h⟩ :: hs) pl
  | mpls {h r hs pl} : h.length = 4 → bitAt h 2 0 = false → Dissect .mpls r hs pl →
      Dissect .mpls (h ++ r) (⟨MPLS, h⟩ :: hs) pl
  | mplsLast {h r hs pl} : h.length = 4 → bitAt h 2 0 = true → Dissect .mplsBos r hs pl →
      Dissect .mpls (h ++ r) (⟨MPLS, h⟩ :: hs) pl
  | mplsBos {h r hs pl} : h.length = 4 → r ≠ [] → Dissect (bosNext (u8At r 0 / 16)) r hs pl →
      Dissect .mplsBos (h ++ r) (⟨MPLS, h⟩ :: hs) pl
  | ipv4 {h r hs pl} : h.length = 20 → Dissect (ipv4Next (u8At h 9)) r hs pl →
      Dissect .ipv4 (h ++ r) (⟨IPv4, h⟩ :: hs) pl
  | ipv6 {h r hs pl} : h.length = 40 → Dissect (ipv6Next (u8At h 6)) r hs pl →
      Dissect .ipv6 (h ++ r) (⟨IPv6, h⟩ :: hs) pl
  | gre {h c k s r hs pl} : h.length = 4 →
      c.length = (if bitAt h 0 7 then 4 else 0) →
      k.length = (if bitAt h 0 5 then 4 else 0) →
      s.length = (if bitAt h 0 4 then 4 else 0) →
      Dissect (greNext (u16At h 2)) r hs pl →
      Dissect .gre (h ++ (c ++ (k ++ (s ++ r))))
        (⟨GRE, h⟩ :: (optH GRESequenceNum s ++ (optH GREKey k ++ (optH GREChksumOffset c ++ hs)))) pl
  | erspan2 {h r hs pl} : h.length = 8 → Dissect .ether r hs pl →
      Dissect .erspan2 (h ++ r) (⟨ERSPAN2, h⟩ :: hs) pl
  | erspan3 {h p r hs pl} : h.length = 12 → p.length = (if bitAt h 11 0 then 8 else 0) →
      Dissect .ether r hs pl →
      Dissect .erspan3 (h ++ (p ++ r)) (⟨ERSPAN3, h⟩ :: (optH ERSPANPLATFORM p ++ hs)) pl
  | arp {h r hs pl} : h.length = 28 → Dissect .payload r hs pl →
      Dissect .arp (h ++ r) (⟨ARP, h⟩ :: hs) pl
  | icmp {h r hs pl} : h.length = 4 → Dissect .payload r hs pl →
      Dissect .icmp (h ++ r) (⟨ICMP, h⟩ :: hs) pl
  | tcp {h r hs pl} : h.length = 20 → Dissect .payload r hs pl →
      Dissect .tcp (h ++ r) (⟨TCP, h⟩ :: hs) pl
  | udp {h r hs pl} : h.length = 8 → u16At h 2 ≠ 4789 → Dissect .payload r hs pl →
      Dissect .udp (h ++ r) (⟨UDP, h⟩ :: hs) pl
  | udpVxlan {h r hs pl} : h.length = 8 → u16At h 2 = 4789 → Dissect .vxlan r hs pl →
      Dissect .udp (h ++ r) (⟨UDP, h⟩ :: hs) pl
  | vxlan {h r hs pl} : h.length = 8 → Dissect .ether r hs pl →
      Dissect .vxlan (h ++ r) (⟨Vxlan, h⟩ :: hs) pl
  | dot3 {h r hs pl} : h.length = 14 → Dissect .llc r hs pl →
      Dissect .dot3 (h ++ r) (⟨Dot3, h⟩ :: hs) pl
  | llc {h r hs pl} : h.length = 3 → h ≠ [0xAA#8, 0xAA#8, 0x03#8] → Dissect .payload r hs pl →
      Dissect .llc (h ++ r) (⟨LLC, h⟩ :: hs) pl
  | llcSnap {h r hs pl} : h = [0xAA#8, 0xAA#8, 0x03#8] → Dissect .snap r hs pl →
      Dissect .llc (h ++ r) (⟨LLC, h⟩ :: hs) pl
  | snap {h r hs pl} : h.length = 5 → Dissect .payload r hs pl →
      Dissect .snap (h ++ r) (⟨SNAP, h⟩ :: hs) pl

/-- The whole frame: 802.3 when the type/length field is below 1500, Ethernet II otherwise. -/
def DissectFrame (b : Bytes) (hs : List Hdr) (pl : Bytes) : Prop :=
  14 ≤ b.length ∧ Dissect (if u16At b 12 < 1500 then .dot3 else .ether) b hs pl

end PacketRs.Spec
