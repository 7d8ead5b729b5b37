import Verif.Spec.Dissect
/-!
# Specification: header stacks that announce themselves

`Chain l hs`: expecting layer `l`, each header of `hs` has the size of its type and is what the headers before it
announce.  This looks at one header at a time (and at the first octet of the one after the last MPLS label); it does
not mention serialized packets or parsing.
-/
namespace PacketRs.Spec

/-- See the file comment.  In `gre` the options are in the order in which the parser returns them; their octets must
read the same in wire order. -/
inductive Chain : Layer → List Hdr → Prop
  | payload : Chain .payload []
  | ether {h hs} : h.length = 14 → Chain (etherNext (u16At h 12)) hs → Chain .ether (⟨Ether, h⟩ :: hs)
  | vlan {h hs} : h.length = 4 → Chain (etherNext (u16At h 2)) hs → Chain .vlan (⟨Vlan, h⟩ :: hs)
  | mpls {h hs} : h.length = 4 → bitAt h 2 0 = false → Chain .mpls hs → Chain .mpls (⟨MPLS, h⟩ :: hs)
  | mplsLast {h hs} : h.length = 4 → bitAt h 2 0 = true → Chain .mplsBos hs → Chain .mpls (⟨MPLS, h⟩ :: hs)
  | mplsBos {h h2 hs} : h.length = 4 → Chain (bosNext (u8At h2.data 0 / 16)) (h2 :: hs) →
      Chain .mplsBos (⟨MPLS, h⟩ :: h2 :: hs)
  | ipv4 {h hs} : h.length = 20 → Chain (ipv4Next (u8At h 9)) hs → Chain .ipv4 (⟨IPv4, h⟩ :: hs)
  | ipv6 {h hs} : h.length = 40 → Chain (ipv6Next (u8At h 6)) hs → Chain .ipv6 (⟨IPv6, h⟩ :: hs)
  | gre {h c k s hs} : h.length = 4 →
      c.length = (if bitAt h 0 7 then 4 else 0) →
      k.length = (if bitAt h 0 5 then 4 else 0) →
      s.length = (if bitAt h 0 4 then 4 else 0) →
      s ++ k ++ c = c ++ k ++ s →
      Chain (greNext (u16At h 2)) hs →
      Chain .gre (⟨GRE, h⟩ :: (optH GRESequenceNum s ++ (optH GREKey k ++ (optH GREChksumOffset c ++ hs))))
  | erspan2 {h hs} : h.length = 8 → Chain .ether hs → Chain .erspan2 (⟨ERSPAN2, h⟩ :: hs)
  | erspan3 {h p hs} : h.length = 12 → p.length = (if bitAt h 11 0 then 8 else 0) → Chain .ether hs →
      Chain .erspan3 (⟨ERSPAN3, h⟩ :: (optH ERSPANPLATFORM p ++ hs))
  | arp {h} : h.length = 28 → Chain .arp [⟨ARP, h⟩]
  | icmp {h} : h.length = 4 → Chain .icmp [⟨ICMP, h⟩]
  | tcp {h} : h.length = 20 → Chain .tcp [⟨TCP, h⟩]
  | udp {h} : h.length = 8 → u16At h 2 ≠ 4789 → Chain .udp [⟨UDP, h⟩]
  | udpVxlan {h hs} : h.length = 8 → u16At h 2 = 4789 → Chain .vxlan hs → Chain .udp (⟨UDP, h⟩ :: hs)
  | vxlan {h hs} : h.length = 8 → Chain .ether hs → Chain .vxlan (⟨Vxlan, h⟩ :: hs)
  | dot3 {h hs} : h.length = 14 → Chain .llc hs → Chain .dot3 (⟨Dot3, h⟩ :: hs)
  | llc {h} : h.length = 3 → h ≠ [0xAA#8, 0xAA#8, 0x03#8] → Chain .llc [⟨LLC, h⟩]
  | llcSnap {hs} : Chain .snap hs → Chain .llc (⟨LLC, [0xAA#8, 0xAA#8, 0x03#8]⟩ :: hs)
  | snap {h} : h.length = 5 → Chain .snap [⟨SNAP, h⟩]

/-- A whole frame: the first header is `Dot3` with a length below 1500, or `Ether` with a type of at least 1500. -/
inductive ChainFrame : List Hdr → Prop
  | dot3 {h hs} : u16At h.data 12 < 1500 → Chain .dot3 (h :: hs) → ChainFrame (h :: hs)
  | ether {h hs} : 1500 ≤ u16At h.data 12 → Chain .ether (h :: hs) → ChainFrame (h :: hs)

/-- What a header says about what follows it: the layer, and the presence of optional headers. -/
def follow (h : Hdr) : Layer × List Bool :=
  if h.ty = Ether then (etherNext (u16At h.data 12), [])
  else if h.ty = Vlan then (etherNext (u16At h.data 2), [])
  else if h.ty = MPLS then (if bitAt h.data 2 0 then .mplsBos else .mpls, [])
  else if h.ty = IPv4 then (ipv4Next (u8At h.data 9), [])
  else if h.ty = IPv6 then (ipv6Next (u8At h.data 6), [])
  else if h.ty = GRE then (greNext (u16At h.data 2), [bitAt h.data 0 7, bitAt h.data 0 5, bitAt h.data 0 4])
  else if h.ty = ERSPAN3 then (.ether, [bitAt h.data 11 0])
  else if h.ty = UDP then (if u16At h.data 2 = 4789 then .vxlan else .payload, [])
  else if h.ty = LLC then (if h.data = [0xAA#8, 0xAA#8, 0x03#8] then .snap else .payload, [])
  else (.payload, [])

/-- The bits (first, last) of a header of type `T` that decide how the octets after it are read. -/
def seenBits (T : HeaderDef) : List (Nat × Nat) :=
  if T = Ether then [(96, 111)]
  else if T = Vlan then [(16, 31)]
  else if T = MPLS then [(23, 23)]
  else if T = IPv4 then [(72, 79)]
  else if T = IPv6 then [(48, 55)]
  else if T = GRE then [(0, 0), (2, 2), (3, 3), (16, 31)]
  else if T = ERSPAN3 then [(95, 95)]
  else if T = UDP then [(16, 31)]
  else if T = LLC then [(0, 23)]
  else if T = Dot3 then [(96, 111)]
  else []

/-- `h'` can stand for `h` after a header of type `prev`: same type and size, it announces the same things, and after
an MPLS label it begins with the same four bits. -/
def Stands (prev : Option HeaderDef) (h h' : Hdr) : Prop :=
  h'.ty = h.ty ∧ h'.data.length = h.data.length ∧ follow h' = follow h ∧
    (prev = some MPLS → u8At h'.data 0 / 16 = u8At h.data 0 / 16)

/-- Header by header, `hs'` can stand for `hs`. -/
def Edited : Option HeaderDef → List Hdr → List Hdr → Prop
  | _, [], [] => True
  | prev, h :: hs, h' :: hs' => Stands prev h h' ∧ Edited (some h.ty) hs hs'
  | _, _, _ => False

/-- The type of the first header expected in a layer. -/
def kindOf : Layer → Option HeaderDef
  | .ether => some Ether | .vlan => some Vlan | .mpls => some MPLS | .mplsBos => some MPLS | .ipv4 => some IPv4
  | .ipv6 => some IPv6 | .gre => some GRE | .erspan2 => some ERSPAN2 | .erspan3 => some ERSPAN3 | .arp => some ARP
  | .icmp => some ICMP | .tcp => some TCP | .udp => some UDP | .vxlan => some Vxlan | .dot3 => some Dot3
  | .llc => some LLC | .snap => some SNAP | .payload => none

/-- The header types that are optional parts of GRE and ERSPAN III; every other header begins a layer. -/
def Optional (T : HeaderDef) : Prop := T = GRESequenceNum ∨ T = GREKey ∨ T = GREChksumOffset ∨ T = ERSPANPLATFORM

end PacketRs.Spec
