import Verif.Slow
import Verif.Fast
/-!
# What parsing costs

The functions of /repo/src/parser/slow.rs and /repo/src/parser/fast.rs once more, now with a count of what they do, also in
runs that end in a panic:

* `copied`: bytes copied, by `arr[a..b].to_vec()` and by `set_payload`;
* `moved`: headers moved up by one place in the vector of headers, by `hdrs.insert(0, ..)`, which moves everything there is;
* `bits`: bits read by getters.  In the copying parser the mutex of the header is taken once for each bit.

Simplifications: the moves of `Vec` when it grows are not counted, neither are allocations, comparisons and calls.  A
getter is charged with all bits of the field also if it panics.
-/
namespace PacketRs.Cost

/-- What has been done. -/
structure Cost where
  copied : Nat := 0
  moved : Nat := 0
  bits : Nat := 0
  deriving DecidableEq, Repr

def Cost.add (a b : Cost) : Cost := ⟨a.copied + b.copied, a.moved + b.moved, a.bits + b.bits⟩

/-- The outcome of a call, which may be a panic, and what was done in it. -/
structure Charged (α : Type) where
  val : R α
  cost : Cost
  deriving DecidableEq, Repr

/-- One call after another; none after a panic. -/
def Charged.bind {α β : Type} (m : Charged α) (f : α → Charged β) : Charged β :=
  match m.val with
  | .ok a => ⟨(f a).val, m.cost.add (f a).cost⟩
  | .error e => ⟨.error e, m.cost⟩

instance : Monad Charged where
  pure a := ⟨.ok a, {}⟩
  bind := Charged.bind

/-- A call that is not counted. -/
def free {α : Type} (r : R α) : Charged α := ⟨r, {}⟩

/-- Bytes copied: `extend_from_slice` in `set_payload`, /repo/src/packet.rs:179-181 -/
def copy (b : Bytes) : Charged Bytes := ⟨.ok b, { copied := b.length }⟩

/-- `arr[a..b].to_vec()` -/
def copySlice (arr : Bytes) (a b : Nat) : Charged Bytes := do
  let s ← free (slice arr a b)
  copy s

/-- `if present == 1 { .. offset += T::size() }`: see `Slow.optOffset` and `Fast.optOffset`, which are the same. -/
def optOffset (T : HeaderDef) (present : U64) (offset : Nat) : Nat :=
  if present = 1#64 then offset + T.size else offset

theorem le_optOffset (T : HeaderDef) (present : U64) (offset : Nat) : offset ≤ optOffset T present offset := by
  unfold optOffset; split <;> omega

namespace Slow

/-- getter: /repo/src/headers.rs:304-314, 371-373, the lock is taken in the loop -/
def get (chk : Bool) (h : Hdr) (f : Field) : Charged U64 := ⟨h.get chk f, { bits := f.width }⟩

/-- `insert`: /repo/src/packet.rs:129-131, `Vec::insert(0, ..)` -/
def insert (pkt : Packet) (h : Hdr) : Charged Packet := ⟨.ok (pkt.insert h), { moved := pkt.hdrs.length }⟩

/-- `if let Some(p) = o { pkt.insert(p); }`: /repo/src/parser/slow.rs:154-162, 187-189 -/
def insertOpt (pkt : Packet) (o : Option Hdr) : Charged Packet :=
  match o with
  | some p => insert pkt p
  | none => pure pkt

/-- optional header: /repo/src/parser/slow.rs:122-146, 177-185 -/
def optHdr (T : HeaderDef) (present : U64) (arr : Bytes) (offset : Nat) : Charged (Option Hdr) :=
  if present = 1#64 then do
    let b ← copySlice arr offset (offset + T.size)
    pure (some (T.ofVec b))
  else pure none

/-- `accept`: /repo/src/parser/slow.rs:223-227 -/
def accept (arr : Bytes) : Charged Packet := do
  let pl ← copy arr
  pure (Packet.new.set_payload pl)

/-- `parse_snap`: /repo/src/parser/slow.rs:29-34 -/
def parse_snap (arr : Bytes) : Charged Packet := do
  let snap := SNAP.ofVec (← copySlice arr 0 SNAP.size)
  let rest ← free <| sliceFrom arr SNAP.size
  let pkt ← accept rest.1
  insert pkt snap

/-- `parse_llc`: /repo/src/parser/slow.rs:19-28 (`&&` evaluates left to right and short-circuits) -/
def parse_llc (arr : Bytes) : Charged Packet := do
  let llc := LLC.ofVec (← copySlice arr 0 LLC.size)
  let isSnap : Bool ← do
    if (← free <| index arr 0) ≠ 0xAA#8 then pure false
    else if (← free <| index arr 1) ≠ 0xAA#8 then pure false
    else pure (decide ((← free <| index arr 2) = 0x03#8))
  let rest ← free <| sliceFrom arr LLC.size
  let pkt ← if isSnap then parse_snap rest.1 else accept rest.1
  insert pkt llc

/-- `parse_dot3`: /repo/src/parser/slow.rs:13-18 -/
def parse_dot3 (arr : Bytes) : Charged Packet := do
  let dot3 := Dot3.ofVec (← copySlice arr 0 Dot3.size)
  let rest ← free <| sliceFrom arr Dot3.size
  let pkt ← parse_llc rest.1
  insert pkt dot3

/-- `parse_arp`: /repo/src/parser/slow.rs:193-197 -/
def parse_arp (arr : Bytes) : Charged Packet := do
  let rest ← free <| sliceFrom arr ARP.size
  let pkt ← accept rest.1
  insert pkt (ARP.ofVec (← copySlice arr 0 ARP.size))

/-- `parse_icmp`: /repo/src/parser/slow.rs:198-202 -/
def parse_icmp (arr : Bytes) : Charged Packet := do
  let rest ← free <| sliceFrom arr ICMP.size
  let pkt ← accept rest.1
  insert pkt (ICMP.ofVec (← copySlice arr 0 ICMP.size))

/-- `parse_tcp`: /repo/src/parser/slow.rs:203-207 -/
def parse_tcp (arr : Bytes) : Charged Packet := do
  let rest ← free <| sliceFrom arr TCP.size
  let pkt ← accept rest.1
  insert pkt (TCP.ofVec (← copySlice arr 0 TCP.size))

mutual

/-- `parse_ethernet`: /repo/src/parser/slow.rs:35-48 -/
def parse_ethernet (chk : Bool) (arr : Bytes) : Charged Packet := do
  let eth := Ether.ofVec (← copySlice arr 0 Ether.size)
  let etype := EtherType.try_from ((← get chk eth Ether.etype).setWidth 16)
  let rest ← free <| sliceFrom arr Ether.size
  let pkt ← match etype with
    | some .DOT1Q => parse_vlan chk rest.1
    | some .ARP => parse_arp rest.1
    | some .IPV4 => parse_ipv4 chk rest.1
    | some .IPV6 => parse_ipv6 chk rest.1
    | some .MPLS => parse_mpls chk rest.1
    | _ => accept rest.1
  insert pkt eth
termination_by arr.length
decreasing_by all_goals (have := rest.2; simp only [this.1, List.length_drop, Ether] at *; omega)

/-- `parse_vlan`: /repo/src/parser/slow.rs:49-62 -/
def parse_vlan (chk : Bool) (arr : Bytes) : Charged Packet := do
  let vlan := Vlan.ofVec (← copySlice arr 0 Vlan.size)
  let etype := EtherType.try_from ((← get chk vlan Vlan.etype).setWidth 16)
  let rest ← free <| sliceFrom arr Vlan.size
  let pkt ← match etype with
    | some .DOT1Q => parse_vlan chk rest.1
    | some .ARP => parse_arp rest.1
    | some .IPV4 => parse_ipv4 chk rest.1
    | some .IPV6 => parse_ipv6 chk rest.1
    | some .MPLS => parse_mpls chk rest.1
    | _ => accept rest.1
  insert pkt vlan
termination_by arr.length
decreasing_by all_goals (have := rest.2; simp only [this.1, List.length_drop, Vlan] at *; omega)

/-- `parse_mpls`: /repo/src/parser/slow.rs:63-73 -/
def parse_mpls (chk : Bool) (arr : Bytes) : Charged Packet := do
  let mpls := MPLS.ofVec (← copySlice arr 0 MPLS.size)
  let bos ← get chk mpls MPLS.bos
  let rest ← free <| sliceFrom arr MPLS.size
  let pkt ← if bos = 1#64 then parse_mpls_bos chk rest.1 else parse_mpls chk rest.1
  insert pkt mpls
termination_by arr.length
decreasing_by all_goals (have := rest.2; simp only [this.1, List.length_drop, MPLS] at *; omega)

/-- `parse_mpls_bos`: /repo/src/parser/slow.rs:74-83.  `arr[4] >> 4 & 0xf` is `(arr[4] >> 4) & 0xf`. -/
def parse_mpls_bos (chk : Bool) (arr : Bytes) : Charged Packet := do
  let mpls := MPLS.ofVec (← copySlice arr 0 MPLS.size)
  let b ← free <| index arr MPLS.size
  let rest ← free <| sliceFrom arr MPLS.size
  let pkt ← match IpType.try_from ((b >>> 4) &&& 0xf#8) with
    | some .V4 => parse_ipv4 chk rest.1
    | some .V6 => parse_ipv6 chk rest.1
    | _ => parse_ethernet chk rest.1
  insert pkt mpls
termination_by arr.length
decreasing_by all_goals (have := rest.2; simp only [this.1, List.length_drop, MPLS] at *; omega)

/-- `parse_ipv4`: /repo/src/parser/slow.rs:84-98 -/
def parse_ipv4 (chk : Bool) (arr : Bytes) : Charged Packet := do
  let ipv4 := IPv4.ofVec (← copySlice arr 0 IPv4.size)
  let proto := IpProtocol.try_from ((← get chk ipv4 IPv4.protocol).setWidth 8)
  let rest ← free <| sliceFrom arr IPv4.size
  let pkt ← match proto with
    | some .ICMP => parse_icmp rest.1
    | some .IPIP => parse_ipv4 chk rest.1
    | some .TCP => parse_tcp rest.1
    | some .UDP => parse_udp chk rest.1
    | some .IPV6 => parse_ipv6 chk rest.1
    | some .GRE => parse_gre chk rest.1
    | _ => accept rest.1
  insert pkt ipv4
termination_by arr.length
decreasing_by all_goals (have := rest.2; simp only [this.1, List.length_drop, IPv4] at *; omega)

/-- `parse_ipv6`: /repo/src/parser/slow.rs:99-113 -/
def parse_ipv6 (chk : Bool) (arr : Bytes) : Charged Packet := do
  let ipv6 := IPv6.ofVec (← copySlice arr 0 IPv6.size)
  let next_hdr := IpProtocol.try_from ((← get chk ipv6 IPv6.next_hdr).setWidth 8)
  let rest ← free <| sliceFrom arr IPv6.size
  let pkt ← match next_hdr with
    | some .ICMPV6 => parse_icmp rest.1
    | some .IPIP => parse_ipv4 chk rest.1
    | some .TCP => parse_tcp rest.1
    | some .UDP => parse_udp chk rest.1
    | some .IPV6 => parse_ipv6 chk rest.1
    | some .GRE => parse_gre chk rest.1
    | _ => accept rest.1
  insert pkt ipv6
termination_by arr.length
decreasing_by all_goals (have := rest.2; simp only [this.1, List.length_drop, IPv6] at *; omega)

/-- `parse_gre`: /repo/src/parser/slow.rs:114-165.  The mutable `offset` is split into its four
successive values. -/
def parse_gre (chk : Bool) (arr : Bytes) : Charged Packet := do
  let gre := GRE.ofVec (← copySlice arr 0 GRE.size)
  let proto := EtherType.try_from ((← get chk gre GRE.proto).setWidth 16)
  let chksum_present ← get chk gre GRE.chksum_present
  let seqnum_present ← get chk gre GRE.seqnum_present
  let key_present ← get chk gre GRE.key_present
  let gco ← optHdr GREChksumOffset chksum_present arr GRE.size
  let gk ← optHdr GREKey key_present arr (optOffset GREChksumOffset chksum_present GRE.size)
  let gsn ← optHdr GRESequenceNum seqnum_present arr
    (optOffset GREKey key_present (optOffset GREChksumOffset chksum_present GRE.size))
  let rest ← free <| sliceFrom arr (optOffset GRESequenceNum seqnum_present
    (optOffset GREKey key_present (optOffset GREChksumOffset chksum_present GRE.size)))
  let pkt ← match proto with
    | some .IPV4 => parse_ipv4 chk rest.1
    | some .IPV6 => parse_ipv6 chk rest.1
    | some .ERSPANII => parse_erspan2 chk rest.1
    | some .ERSPANIII => parse_erspan3 chk rest.1
    | _ => accept rest.1
  let pkt ← insertOpt pkt gco
  let pkt ← insertOpt pkt gk
  let pkt ← insertOpt pkt gsn
  insert pkt gre
termination_by arr.length
decreasing_by all_goals (
  have := rest.2
  have h1 := le_optOffset GREChksumOffset chksum_present GRE.size
  have h2 := le_optOffset GREKey key_present (optOffset GREChksumOffset chksum_present GRE.size)
  have h3 := le_optOffset GRESequenceNum seqnum_present
    (optOffset GREKey key_present (optOffset GREChksumOffset chksum_present GRE.size))
  have h4 : GRE.size = 4 := rfl
  simp only [this.1, List.length_drop]; omega)

/-- `parse_erspan2`: /repo/src/parser/slow.rs:166-171 -/
def parse_erspan2 (chk : Bool) (arr : Bytes) : Charged Packet := do
  let erspan2 := ERSPAN2.ofVec (← copySlice arr 0 ERSPAN2.size)
  let rest ← free <| sliceFrom arr ERSPAN2.size
  let pkt ← parse_ethernet chk rest.1
  insert pkt erspan2
termination_by arr.length
decreasing_by all_goals (have := rest.2; simp only [this.1, List.length_drop, ERSPAN2] at *; omega)

/-- `parse_erspan3`: /repo/src/parser/slow.rs:172-192 -/
def parse_erspan3 (chk : Bool) (arr : Bytes) : Charged Packet := do
  let erspan3 := ERSPAN3.ofVec (← copySlice arr 0 ERSPAN3.size)
  let o ← get chk erspan3 ERSPAN3.o
  let platform ← optHdr ERSPANPLATFORM o arr ERSPAN3.size
  let rest ← free <| sliceFrom arr (optOffset ERSPANPLATFORM o ERSPAN3.size)
  let pkt ← parse_ethernet chk rest.1
  let pkt ← insertOpt pkt platform
  insert pkt erspan3
termination_by arr.length
decreasing_by all_goals (
  have := rest.2
  have h1 := le_optOffset ERSPANPLATFORM o ERSPAN3.size
  have h4 : ERSPAN3.size = 12 := rfl
  simp only [this.1, List.length_drop]; omega)

/-- `parse_udp`: /repo/src/parser/slow.rs:208-217 -/
def parse_udp (chk : Bool) (arr : Bytes) : Charged Packet := do
  let udp := UDP.ofVec (← copySlice arr 0 UDP.size)
  let dst : U16 := (← get chk udp UDP.dst).setWidth 16
  let rest ← free <| sliceFrom arr UDP.size
  let pkt ← if dst = UDP_PORT_VXLAN then parse_vxlan chk rest.1 else accept rest.1
  insert pkt udp
termination_by arr.length
decreasing_by all_goals (have := rest.2; simp only [this.1, List.length_drop, UDP] at *; omega)

/-- `parse_vxlan`: /repo/src/parser/slow.rs:218-222 -/
def parse_vxlan (chk : Bool) (arr : Bytes) : Charged Packet := do
  let rest ← free <| sliceFrom arr Vxlan.size
  let pkt ← parse_ethernet chk rest.1
  insert pkt (Vxlan.ofVec (← copySlice arr 0 Vxlan.size))
termination_by arr.length
decreasing_by all_goals (have := rest.2; simp only [this.1, List.length_drop, Vxlan] at *; omega)

end

/-- `parse`: /repo/src/parser/slow.rs:5-12 -/
def parse (chk : Bool) (arr : Bytes) : Charged Packet := do
  let b12 ← free <| index arr 12
  let b13 ← free <| index arr 13
  let length : U16 := (b12.setWidth 16 <<< 8) ||| b13.setWidth 16
  if length < 1500#16 then parse_dot3 arr else parse_ethernet chk arr

end Slow

namespace Fast
open PacketRs.Fast (Win SHdr PacketSlice)

/-- getter of a slice header: /repo/src/headers.rs:196-200, 253-263 (no lock) -/
def get (chk : Bool) (h : SHdr) (f : Field) : Charged U64 := ⟨h.get chk f, { bits := f.width }⟩

/-- `insert`: /repo/src/packet.rs:724-726, `Vec::insert(0, ..)` -/
def insert (pkt : PacketSlice) (h : SHdr) : Charged PacketSlice := ⟨.ok (pkt.insert h), { moved := pkt.hdrs.length }⟩

/-- `if let Some(p) = o { pkt.insert(p); }`: /repo/src/parser/fast.rs:154-162, 187-189 -/
def insertOpt (pkt : PacketSlice) (o : Option SHdr) : Charged PacketSlice :=
  match o with
  | some p => insert pkt p
  | none => pure pkt

/-- optional header: /repo/src/parser/fast.rs:122-146, 177-185 -/
def optHdr (T : HeaderDef) (present : U64) (arr : Win) (offset : Nat) : Charged (Option SHdr) :=
  if present = 1#64 then do
    let b ← free <| arr.slice offset (offset + T.size)
    pure (some (SHdr.from T b))
  else pure none

/-- `accept`: /repo/src/parser/fast.rs:223-227 -/
def accept (arr : Win) : Charged PacketSlice := pure (PacketSlice.new.set_payload arr)

/-- `parse_snap`: /repo/src/parser/fast.rs:29-34 -/
def parse_snap (arr : Win) : Charged PacketSlice := do
  let snap := SHdr.from SNAP (← free <| arr.slice 0 SNAP.size)
  let rest ← free <| arr.sliceFrom SNAP.size
  let pkt ← accept rest.1
  insert pkt snap

/-- `parse_llc`: /repo/src/parser/fast.rs:19-28 -/
def parse_llc (arr : Win) : Charged PacketSlice := do
  let llc := SHdr.from LLC (← free <| arr.slice 0 LLC.size)
  let isSnap : Bool ← do
    if (← free <| arr.index 0) ≠ 0xAA#8 then pure false
    else if (← free <| arr.index 1) ≠ 0xAA#8 then pure false
    else pure (decide ((← free <| arr.index 2) = 0x03#8))
  let rest ← free <| arr.sliceFrom LLC.size
  let pkt ← if isSnap then parse_snap rest.1 else accept rest.1
  insert pkt llc

/-- `parse_dot3`: /repo/src/parser/fast.rs:13-18 -/
def parse_dot3 (arr : Win) : Charged PacketSlice := do
  let dot3 := SHdr.from Dot3 (← free <| arr.slice 0 Dot3.size)
  let rest ← free <| arr.sliceFrom Dot3.size
  let pkt ← parse_llc rest.1
  insert pkt dot3

/-- `parse_arp`: /repo/src/parser/fast.rs:193-197 -/
def parse_arp (arr : Win) : Charged PacketSlice := do
  let rest ← free <| arr.sliceFrom ARP.size
  let pkt ← accept rest.1
  insert pkt (SHdr.from ARP (← free <| arr.slice 0 ARP.size))

/-- `parse_icmp`: /repo/src/parser/fast.rs:198-202 -/
def parse_icmp (arr : Win) : Charged PacketSlice := do
  let rest ← free <| arr.sliceFrom ICMP.size
  let pkt ← accept rest.1
  insert pkt (SHdr.from ICMP (← free <| arr.slice 0 ICMP.size))

/-- `parse_tcp`: /repo/src/parser/fast.rs:203-207 -/
def parse_tcp (arr : Win) : Charged PacketSlice := do
  let rest ← free <| arr.sliceFrom TCP.size
  let pkt ← accept rest.1
  insert pkt (SHdr.from TCP (← free <| arr.slice 0 TCP.size))

mutual

/-- `parse_ethernet`: /repo/src/parser/fast.rs:35-48 -/
def parse_ethernet (chk : Bool) (arr : Win) : Charged PacketSlice := do
  let eth := SHdr.from Ether (← free <| arr.slice 0 Ether.size)
  let etype := EtherType.try_from ((← get chk eth Ether.etype).setWidth 16)
  let rest ← free <| arr.sliceFrom Ether.size
  let pkt ← match etype with
    | some .DOT1Q => parse_vlan chk rest.1
    | some .ARP => parse_arp rest.1
    | some .IPV4 => parse_ipv4 chk rest.1
    | some .IPV6 => parse_ipv6 chk rest.1
    | some .MPLS => parse_mpls chk rest.1
    | _ => accept rest.1
  insert pkt eth
termination_by arr.len
decreasing_by all_goals (have := rest.2; simp only [this.1, Ether] at *; omega)

/-- `parse_vlan`: /repo/src/parser/fast.rs:49-62 -/
def parse_vlan (chk : Bool) (arr : Win) : Charged PacketSlice := do
  let vlan := SHdr.from Vlan (← free <| arr.slice 0 Vlan.size)
  let etype := EtherType.try_from ((← get chk vlan Vlan.etype).setWidth 16)
  let rest ← free <| arr.sliceFrom Vlan.size
  let pkt ← match etype with
    | some .DOT1Q => parse_vlan chk rest.1
    | some .ARP => parse_arp rest.1
    | some .IPV4 => parse_ipv4 chk rest.1
    | some .IPV6 => parse_ipv6 chk rest.1
    | some .MPLS => parse_mpls chk rest.1
    | _ => accept rest.1
  insert pkt vlan
termination_by arr.len
decreasing_by all_goals (have := rest.2; simp only [this.1, Vlan] at *; omega)

/-- `parse_mpls`: /repo/src/parser/fast.rs:63-73 -/
def parse_mpls (chk : Bool) (arr : Win) : Charged PacketSlice := do
  let mpls := SHdr.from MPLS (← free <| arr.slice 0 MPLS.size)
  let bos ← get chk mpls MPLS.bos
  let rest ← free <| arr.sliceFrom MPLS.size
  let pkt ← if bos = 1#64 then parse_mpls_bos chk rest.1 else parse_mpls chk rest.1
  insert pkt mpls
termination_by arr.len
decreasing_by all_goals (have := rest.2; simp only [this.1, MPLS] at *; omega)

/-- `parse_mpls_bos`: /repo/src/parser/fast.rs:74-83 -/
def parse_mpls_bos (chk : Bool) (arr : Win) : Charged PacketSlice := do
  let mpls := SHdr.from MPLS (← free <| arr.slice 0 MPLS.size)
  let b ← free <| arr.index MPLS.size
  let rest ← free <| arr.sliceFrom MPLS.size
  let pkt ← match IpType.try_from ((b >>> 4) &&& 0xf#8) with
    | some .V4 => parse_ipv4 chk rest.1
    | some .V6 => parse_ipv6 chk rest.1
    | _ => parse_ethernet chk rest.1
  insert pkt mpls
termination_by arr.len
decreasing_by all_goals (have := rest.2; simp only [this.1, MPLS] at *; omega)

/-- `parse_ipv4`: /repo/src/parser/fast.rs:84-98 -/
def parse_ipv4 (chk : Bool) (arr : Win) : Charged PacketSlice := do
  let ipv4 := SHdr.from IPv4 (← free <| arr.slice 0 IPv4.size)
  let proto := IpProtocol.try_from ((← get chk ipv4 IPv4.protocol).setWidth 8)
  let rest ← free <| arr.sliceFrom IPv4.size
  let pkt ← match proto with
    | some .ICMP => parse_icmp rest.1
    | some .IPIP => parse_ipv4 chk rest.1
    | some .TCP => parse_tcp rest.1
    | some .UDP => parse_udp chk rest.1
    | some .IPV6 => parse_ipv6 chk rest.1
    | some .GRE => parse_gre chk rest.1
    | _ => accept rest.1
  insert pkt ipv4
termination_by arr.len
decreasing_by all_goals (have := rest.2; simp only [this.1, IPv4] at *; omega)

/-- `parse_ipv6`: /repo/src/parser/fast.rs:99-113 -/
def parse_ipv6 (chk : Bool) (arr : Win) : Charged PacketSlice := do
  let ipv6 := SHdr.from IPv6 (← free <| arr.slice 0 IPv6.size)
  let next_hdr := IpProtocol.try_from ((← get chk ipv6 IPv6.next_hdr).setWidth 8)
  let rest ← free <| arr.sliceFrom IPv6.size
  let pkt ← match next_hdr with
    | some .ICMPV6 => parse_icmp rest.1
    | some .IPIP => parse_ipv4 chk rest.1
    | some .TCP => parse_tcp rest.1
    | some .UDP => parse_udp chk rest.1
    | some .IPV6 => parse_ipv6 chk rest.1
    | some .GRE => parse_gre chk rest.1
    | _ => accept rest.1
  insert pkt ipv6
termination_by arr.len
decreasing_by all_goals (have := rest.2; simp only [this.1, IPv6] at *; omega)

/-- `parse_gre`: /repo/src/parser/fast.rs:114-165 -/
def parse_gre (chk : Bool) (arr : Win) : Charged PacketSlice := do
  let gre := SHdr.from GRE (← free <| arr.slice 0 GRE.size)
  let proto := EtherType.try_from ((← get chk gre GRE.proto).setWidth 16)
  let chksum_present ← get chk gre GRE.chksum_present
  let seqnum_present ← get chk gre GRE.seqnum_present
  let key_present ← get chk gre GRE.key_present
  let gco ← optHdr GREChksumOffset chksum_present arr GRE.size
  let gk ← optHdr GREKey key_present arr (optOffset GREChksumOffset chksum_present GRE.size)
  let gsn ← optHdr GRESequenceNum seqnum_present arr
    (optOffset GREKey key_present (optOffset GREChksumOffset chksum_present GRE.size))
  let rest ← free <| arr.sliceFrom (optOffset GRESequenceNum seqnum_present
    (optOffset GREKey key_present (optOffset GREChksumOffset chksum_present GRE.size)))
  let pkt ← match proto with
    | some .IPV4 => parse_ipv4 chk rest.1
    | some .IPV6 => parse_ipv6 chk rest.1
    | some .ERSPANII => parse_erspan2 chk rest.1
    | some .ERSPANIII => parse_erspan3 chk rest.1
    | _ => accept rest.1
  let pkt ← insertOpt pkt gco
  let pkt ← insertOpt pkt gk
  let pkt ← insertOpt pkt gsn
  insert pkt gre
termination_by arr.len
decreasing_by all_goals (
  have := rest.2
  have h1 := le_optOffset GREChksumOffset chksum_present GRE.size
  have h2 := le_optOffset GREKey key_present (optOffset GREChksumOffset chksum_present GRE.size)
  have h3 := le_optOffset GRESequenceNum seqnum_present
    (optOffset GREKey key_present (optOffset GREChksumOffset chksum_present GRE.size))
  have h4 : GRE.size = 4 := rfl
  simp only [this.1]; omega)

/-- `parse_erspan2`: /repo/src/parser/fast.rs:166-171 -/
def parse_erspan2 (chk : Bool) (arr : Win) : Charged PacketSlice := do
  let erspan2 := SHdr.from ERSPAN2 (← free <| arr.slice 0 ERSPAN2.size)
  let rest ← free <| arr.sliceFrom ERSPAN2.size
  let pkt ← parse_ethernet chk rest.1
  insert pkt erspan2
termination_by arr.len
decreasing_by all_goals (have := rest.2; simp only [this.1, ERSPAN2] at *; omega)

/-- `parse_erspan3`: /repo/src/parser/fast.rs:172-192 -/
def parse_erspan3 (chk : Bool) (arr : Win) : Charged PacketSlice := do
  let erspan3 := SHdr.from ERSPAN3 (← free <| arr.slice 0 ERSPAN3.size)
  let o ← get chk erspan3 ERSPAN3.o
  let platform ← optHdr ERSPANPLATFORM o arr ERSPAN3.size
  let rest ← free <| arr.sliceFrom (optOffset ERSPANPLATFORM o ERSPAN3.size)
  let pkt ← parse_ethernet chk rest.1
  let pkt ← insertOpt pkt platform
  insert pkt erspan3
termination_by arr.len
decreasing_by all_goals (
  have := rest.2
  have h1 := le_optOffset ERSPANPLATFORM o ERSPAN3.size
  have h4 : ERSPAN3.size = 12 := rfl
  simp only [this.1]; omega)

/-- `parse_udp`: /repo/src/parser/fast.rs:208-217 -/
def parse_udp (chk : Bool) (arr : Win) : Charged PacketSlice := do
  let udp := SHdr.from UDP (← free <| arr.slice 0 UDP.size)
  let dst : U16 := (← get chk udp UDP.dst).setWidth 16
  let rest ← free <| arr.sliceFrom UDP.size
  let pkt ← if dst = UDP_PORT_VXLAN then parse_vxlan chk rest.1 else accept rest.1
  insert pkt udp
termination_by arr.len
decreasing_by all_goals (have := rest.2; simp only [this.1, UDP] at *; omega)

/-- `parse_vxlan`: /repo/src/parser/fast.rs:218-222 -/
def parse_vxlan (chk : Bool) (arr : Win) : Charged PacketSlice := do
  let rest ← free <| arr.sliceFrom Vxlan.size
  let pkt ← parse_ethernet chk rest.1
  insert pkt (SHdr.from Vxlan (← free <| arr.slice 0 Vxlan.size))
termination_by arr.len
decreasing_by all_goals (have := rest.2; simp only [this.1, Vxlan] at *; omega)

end

/-- `parse`: /repo/src/parser/fast.rs:5-12 -/
def parse (chk : Bool) (arr : Win) : Charged PacketSlice := do
  let b12 ← free <| arr.index 12
  let b13 ← free <| arr.index 13
  let length : U16 := (b12.setWidth 16 <<< 8) ||| b13.setWidth 16
  if length < 1500#16 then parse_dot3 arr else parse_ethernet chk arr

end Fast

end PacketRs.Cost
