import Verif.Packet
/-!
# The copying parser: /repo/src/parser/slow.rs

Function by function.  Every `arr[a..b]`/`arr[a..]`/`arr[i]` is the bounds-checked access of
`Verif.Rust`; every header is built by `From<Vec<u8>>` from the copied bytes.  `chk` is the overflow
check profile handed to the field getters.
-/
namespace PacketRs.Slow

/-- `accept`: /repo/src/parser/slow.rs:223-227 -/
def accept (arr : Bytes) : Packet := Packet.new.set_payload arr

/-- `parse_snap`: /repo/src/parser/slow.rs:29-34 -/
def parse_snap (arr : Bytes) : R Packet := do
  let snap := SNAP.ofVec (← slice arr 0 SNAP.size)
  let rest ← sliceFrom arr SNAP.size
  let pkt := accept rest.1
  pure (pkt.insert snap)

/-- `parse_llc`: /repo/src/parser/slow.rs:19-28 (`&&` evaluates left to right and short-circuits) -/
def parse_llc (arr : Bytes) : R Packet := do
  let llc := LLC.ofVec (← slice arr 0 LLC.size)
  let isSnap : Bool ← do
    if (← index arr 0) ≠ 0xAA#8 then pure false
    else if (← index arr 1) ≠ 0xAA#8 then pure false
    else pure (decide ((← index arr 2) = 0x03#8))
  let rest ← sliceFrom arr LLC.size
  let pkt ← if isSnap then parse_snap rest.1 else pure (accept rest.1)
  pure (pkt.insert llc)

/-- `parse_dot3`: /repo/src/parser/slow.rs:13-18 -/
def parse_dot3 (arr : Bytes) : R Packet := do
  let dot3 := Dot3.ofVec (← slice arr 0 Dot3.size)
  let rest ← sliceFrom arr Dot3.size
  let pkt ← parse_llc rest.1
  pure (pkt.insert dot3)

/-- `parse_arp`: /repo/src/parser/slow.rs:193-197 -/
def parse_arp (arr : Bytes) : R Packet := do
  let rest ← sliceFrom arr ARP.size
  let pkt := accept rest.1
  pure (pkt.insert (ARP.ofVec (← slice arr 0 ARP.size)))

/-- `parse_icmp`: /repo/src/parser/slow.rs:198-202 -/
def parse_icmp (arr : Bytes) : R Packet := do
  let rest ← sliceFrom arr ICMP.size
  let pkt := accept rest.1
  pure (pkt.insert (ICMP.ofVec (← slice arr 0 ICMP.size)))

/-- `parse_tcp`: /repo/src/parser/slow.rs:203-207 -/
def parse_tcp (arr : Bytes) : R Packet := do
  let rest ← sliceFrom arr TCP.size
  let pkt := accept rest.1
  pure (pkt.insert (TCP.ofVec (← slice arr 0 TCP.size)))

/-- `if let Some(p) = o { pkt.insert(p); }`: /repo/src/parser/slow.rs:154-162, 187-189 -/
def insertOpt (pkt : Packet) (o : Option Hdr) : Packet :=
  match o with
  | some p => pkt.insert p
  | none => pkt

/-- `if present == 1 { Some(T::from(arr[offset..offset + T::size()].to_vec())) } else { None }`:
/repo/src/parser/slow.rs:122-146, 177-185 -/
def optHdr (T : HeaderDef) (present : U64) (arr : Bytes) (offset : Nat) : R (Option Hdr) :=
  if present = 1#64 then do
    let b ← slice arr offset (offset + T.size)
    pure (some (T.ofVec b))
  else pure none

/-- `offset += T::size()` when present: /repo/src/parser/slow.rs:126, 133, 142, 181 -/
def optOffset (T : HeaderDef) (present : U64) (offset : Nat) : Nat :=
  if present = 1#64 then offset + T.size else offset

theorem le_optOffset (T : HeaderDef) (present : U64) (offset : Nat) :
    offset ≤ optOffset T present offset := by
  unfold optOffset; split <;> omega

mutual

/-- `parse_ethernet`: /repo/src/parser/slow.rs:35-48 -/
def parse_ethernet (chk : Bool) (arr : Bytes) : R Packet := do
  let eth := Ether.ofVec (← slice arr 0 Ether.size)
  let etype := EtherType.try_from ((← eth.get chk Ether.etype).setWidth 16)
  let rest ← sliceFrom arr Ether.size
  let pkt ← match etype with
    | some .DOT1Q => parse_vlan chk rest.1
    | some .ARP => parse_arp rest.1
    | some .IPV4 => parse_ipv4 chk rest.1
    | some .IPV6 => parse_ipv6 chk rest.1
    | some .MPLS => parse_mpls chk rest.1
    | _ => pure (accept rest.1)
  pure (pkt.insert eth)
termination_by arr.length
decreasing_by all_goals (have := rest.2; simp only [this.1, List.length_drop, Ether] at *; omega)

/-- `parse_vlan`: /repo/src/parser/slow.rs:49-62 -/
def parse_vlan (chk : Bool) (arr : Bytes) : R Packet := do
  let vlan := Vlan.ofVec (← slice arr 0 Vlan.size)
  let etype := EtherType.try_from ((← vlan.get chk Vlan.etype).setWidth 16)
  let rest ← sliceFrom arr Vlan.size
  let pkt ← match etype with
    | some .DOT1Q => parse_vlan chk rest.1
    | some .ARP => parse_arp rest.1
    | some .IPV4 => parse_ipv4 chk rest.1
    | some .IPV6 => parse_ipv6 chk rest.1
    | some .MPLS => parse_mpls chk rest.1
    | _ => pure (accept rest.1)
  pure (pkt.insert vlan)
termination_by arr.length
decreasing_by all_goals (have := rest.2; simp only [this.1, List.length_drop, Vlan] at *; omega)

/-- `parse_mpls`: /repo/src/parser/slow.rs:63-73 -/
def parse_mpls (chk : Bool) (arr : Bytes) : R Packet := do
  let mpls := MPLS.ofVec (← slice arr 0 MPLS.size)
  let bos ← mpls.get chk MPLS.bos
  let rest ← sliceFrom arr MPLS.size
  let pkt ← if bos = 1#64 then parse_mpls_bos chk rest.1 else parse_mpls chk rest.1
  pure (pkt.insert mpls)
termination_by arr.length
decreasing_by all_goals (have := rest.2; simp only [this.1, List.length_drop, MPLS] at *; omega)

/-- `parse_mpls_bos`: /repo/src/parser/slow.rs:74-83.  `arr[4] >> 4 & 0xf` is `(arr[4] >> 4) & 0xf`. -/
def parse_mpls_bos (chk : Bool) (arr : Bytes) : R Packet := do
  let mpls := MPLS.ofVec (← slice arr 0 MPLS.size)
  let b ← index arr MPLS.size
  let rest ← sliceFrom arr MPLS.size
  let pkt ← match IpType.try_from ((b >>> 4) &&& 0xf#8) with
    | some .V4 => parse_ipv4 chk rest.1
    | some .V6 => parse_ipv6 chk rest.1
    | _ => parse_ethernet chk rest.1
  pure (pkt.insert mpls)
termination_by arr.length
decreasing_by all_goals (have := rest.2; simp only [this.1, List.length_drop, MPLS] at *; omega)

/-- `parse_ipv4`: /repo/src/parser/slow.rs:84-98 -/
def parse_ipv4 (chk : Bool) (arr : Bytes) : R Packet := do
  let ipv4 := IPv4.ofVec (← slice arr 0 IPv4.size)
  let proto := IpProtocol.try_from ((← ipv4.get chk IPv4.protocol).setWidth 8)
  let rest ← sliceFrom arr IPv4.size
  let pkt ← match proto with
    | some .ICMP => parse_icmp rest.1
    | some .IPIP => parse_ipv4 chk rest.1
    | some .TCP => parse_tcp rest.1
    | some .UDP => parse_udp chk rest.1
    | some .IPV6 => parse_ipv6 chk rest.1
    | some .GRE => parse_gre chk rest.1
    | _ => pure (accept rest.1)
  pure (pkt.insert ipv4)
termination_by arr.length
decreasing_by all_goals (have := rest.2; simp only [this.1, List.length_drop, IPv4] at *; omega)

/-- `parse_ipv6`: /repo/src/parser/slow.rs:99-113 -/
def parse_ipv6 (chk : Bool) (arr : Bytes) : R Packet := do
  let ipv6 := IPv6.ofVec (← slice arr 0 IPv6.size)
  let next_hdr := IpProtocol.try_from ((← ipv6.get chk IPv6.next_hdr).setWidth 8)
  let rest ← sliceFrom arr IPv6.size
  let pkt ← match next_hdr with
    | some .ICMPV6 => parse_icmp rest.1
    | some .IPIP => parse_ipv4 chk rest.1
    | some .TCP => parse_tcp rest.1
    | some .UDP => parse_udp chk rest.1
    | some .IPV6 => parse_ipv6 chk rest.1
    | some .GRE => parse_gre chk rest.1
    | _ => pure (accept rest.1)
  pure (pkt.insert ipv6)
termination_by arr.length
decreasing_by all_goals (have := rest.2; simp only [this.1, List.length_drop, IPv6] at *; omega)

/-- `parse_gre`: /repo/src/parser/slow.rs:114-165.  The mutable `offset` is split into its four
successive values. -/
def parse_gre (chk : Bool) (arr : Bytes) : R Packet := do
  let gre := GRE.ofVec (← slice arr 0 GRE.size)
  let proto := EtherType.try_from ((← gre.get chk GRE.proto).setWidth 16)
  let chksum_present ← gre.get chk GRE.chksum_present
  let seqnum_present ← gre.get chk GRE.seqnum_present
  let key_present ← gre.get chk GRE.key_present
  let gco ← optHdr GREChksumOffset chksum_present arr GRE.size
  let gk ← optHdr GREKey key_present arr (optOffset GREChksumOffset chksum_present GRE.size)
  let gsn ← optHdr GRESequenceNum seqnum_present arr
    (optOffset GREKey key_present (optOffset GREChksumOffset chksum_present GRE.size))
  let rest ← sliceFrom arr (optOffset GRESequenceNum seqnum_present
    (optOffset GREKey key_present (optOffset GREChksumOffset chksum_present GRE.size)))
  let pkt ← match proto with
    | some .IPV4 => parse_ipv4 chk rest.1
    | some .IPV6 => parse_ipv6 chk rest.1
    | some .ERSPANII => parse_erspan2 chk rest.1
    | some .ERSPANIII => parse_erspan3 chk rest.1
    | _ => pure (accept rest.1)
  let pkt := insertOpt pkt gco
  let pkt := insertOpt pkt gk
  let pkt := insertOpt pkt gsn
  pure (pkt.insert gre)
termination_by arr.length
decreasing_by all_goals (
  have := rest.2
  have h1 := le_optOffset GREChksumOffset chksum_present GRE.size
  have h2 := le_optOffset GREKey key_present (optOffset GREChksumOffset chksum_present GRE.size)
  have h3 := le_optOffset GRESequenceNum seqnum_present
    (optOffset GREKey key_present (optOffset GREChksumOffset chksum_present GRE.size))
  have h4 : GRE.size = 4 := rfl
  simp only [this.1, List.length_drop]; omega)

/-- `parse_erspan2`: /repo/src/parser/slow.rs:166-171 -/
def parse_erspan2 (chk : Bool) (arr : Bytes) : R Packet := do
  let erspan2 := ERSPAN2.ofVec (← slice arr 0 ERSPAN2.size)
  let rest ← sliceFrom arr ERSPAN2.size
  let pkt ← parse_ethernet chk rest.1
  pure (pkt.insert erspan2)
termination_by arr.length
decreasing_by all_goals (have := rest.2; simp only [this.1, List.length_drop, ERSPAN2] at *; omega)

/-- `parse_erspan3`: /repo/src/parser/slow.rs:172-192 -/
def parse_erspan3 (chk : Bool) (arr : Bytes) : R Packet := do
  let erspan3 := ERSPAN3.ofVec (← slice arr 0 ERSPAN3.size)
  let o ← erspan3.get chk ERSPAN3.o
  let platform ← optHdr ERSPANPLATFORM o arr ERSPAN3.size
  let rest ← sliceFrom arr (optOffset ERSPANPLATFORM o ERSPAN3.size)
  let pkt ← parse_ethernet chk rest.1
  let pkt := insertOpt pkt platform
  pure (pkt.insert erspan3)
termination_by arr.length
decreasing_by all_goals (
  have := rest.2
  have h1 := le_optOffset ERSPANPLATFORM o ERSPAN3.size
  have h4 : ERSPAN3.size = 12 := rfl
  simp only [this.1, List.length_drop]; omega)

/-- `parse_udp`: /repo/src/parser/slow.rs:208-217 -/
def parse_udp (chk : Bool) (arr : Bytes) : R Packet := do
  let udp := UDP.ofVec (← slice arr 0 UDP.size)
  let dst : U16 := (← udp.get chk UDP.dst).setWidth 16
  let rest ← sliceFrom arr UDP.size
  let pkt ← if dst = UDP_PORT_VXLAN then parse_vxlan chk rest.1 else pure (accept rest.1)
  pure (pkt.insert udp)
termination_by arr.length
decreasing_by all_goals (have := rest.2; simp only [this.1, List.length_drop, UDP] at *; omega)

/-- `parse_vxlan`: /repo/src/parser/slow.rs:218-222 -/
def parse_vxlan (chk : Bool) (arr : Bytes) : R Packet := do
  let rest ← sliceFrom arr Vxlan.size
  let pkt ← parse_ethernet chk rest.1
  pure (pkt.insert (Vxlan.ofVec (← slice arr 0 Vxlan.size)))
termination_by arr.length
decreasing_by all_goals (have := rest.2; simp only [this.1, List.length_drop, Vxlan] at *; omega)

end

/-- `parse`: /repo/src/parser/slow.rs:5-12 -/
def parse (chk : Bool) (arr : Bytes) : R Packet := do
  let b12 ← index arr 12
  let b13 ← index arr 13
  let length : U16 := (b12.setWidth 16 <<< 8) ||| b13.setWidth 16
  if length < 1500#16 then parse_dot3 arr else parse_ethernet chk arr

end PacketRs.Slow
