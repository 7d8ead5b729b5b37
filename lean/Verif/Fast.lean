import Verif.Packet
/-!
# The zero-copy parser: /repo/src/parser/fast.rs

A `&[u8]` is a window `(base, off, len)` into the caller's buffer, so that the model can express
which part of the input each header refers to.  The generated `XSlice::from` uses
`std::slice::from_raw_parts(slice.as_ptr(), size)` without checking the length
(/repo/src/headers.rs:177-194), which is modelled as a window of length `size` at the same offset,
possibly reaching outside the slice or the buffer.
-/
namespace PacketRs.Fast

/-- A `&'a [u8]`: `len` bytes of the buffer `base` starting at `off`. -/
structure Win where
  base : Bytes
  off : Nat
  len : Nat
  deriving DecidableEq, Repr

/-- The slice covering a whole buffer. -/
def Win.ofBytes (b : Bytes) : Win := { base := b, off := 0, len := b.length }

/-- The bytes a window shows. -/
def Win.bytes (w : Win) : Bytes := (w.base.drop w.off).take w.len

/-- The window lies inside its buffer. -/
def Win.InBounds (w : Win) : Prop := w.off + w.len ≤ w.base.length

/-- `w[i]`: bounds check against the slice length; if the slice itself exceeds its buffer the read is
undefined behaviour. -/
def Win.index (w : Win) (i : Nat) : R Byte :=
  if i < w.len then
    match w.base[w.off + i]? with
    | some b => .ok b
    | none => .error .ub
  else .error .index

/-- `&w[a..b]` -/
def Win.slice (w : Win) (a b : Nat) : R Win :=
  if a ≤ b ∧ b ≤ w.len then .ok { w with off := w.off + a, len := b - a } else .error .index

/-- `&w[a..]`, with the proof used by the termination arguments. -/
def Win.sliceFrom (w : Win) (a : Nat) :
    R {r : Win // r = { w with off := w.off + a, len := w.len - a } ∧ a ≤ w.len} :=
  if h : a ≤ w.len then .ok ⟨{ w with off := w.off + a, len := w.len - a }, rfl, h⟩ else .error .index

/-- `struct XSlice<'a> { slice: &'a [u8] }`: /repo/src/headers.rs:173-175 -/
structure SHdr where
  ty : HeaderDef
  win : Win
  deriving DecidableEq, Repr

/-- `XSlice::from(slice)`: /repo/src/headers.rs:177-194.  No length check: the new slice has length
`size()` whatever the length of the argument. -/
def SHdr.from (T : HeaderDef) (w : Win) : SHdr := { ty := T, win := { w with len := T.size } }

/-- Loop body of the slice `bit_range`: /repo/src/headers.rs:258-260 -/
def bitRangeStep (w : Win) (value : U64) (i : Nat) : R U64 := do
  let b ← w.index (i / 8)
  pure ((value <<< 1) ||| ((b >>> (8 - i % 8 - 1)) &&& 1#8).setWidth 64)

/-- `bit_range` of a slice header: /repo/src/headers.rs:253-263 -/
def bitRange (chk : Bool) (w : Win) (msb lsb : Nat) : R U64 := do
  let value ← (inclRange lsb msb).foldlM (bitRangeStep w) 0#64
  let wd ← usizeAdd chk (← usizeSub chk msb lsb) 1
  let s ← usizeSub chk 64 wd
  let v ← shl64 chk value s
  shr64 chk v s

/-- getter of a slice header: /repo/src/headers.rs:196-200 -/
def SHdr.get (chk : Bool) (h : SHdr) (f : Field) : R U64 := bitRange chk h.win f.hi f.lo

/-- `bytes(msb, lsb)` of a slice header: /repo/src/headers.rs:202-211 -/
def SHdr.bytes (chk : Bool) (h : SHdr) (msb lsb : Nat) : R Bytes := do
  let w ← usizeAdd chk (← usizeSub chk msb lsb) 1
  if w % 8 ≠ 0 then throw .assert
  (inclRangeStep8 lsb msb).foldlM
    (fun value i => do
      let v ← bitRange chk h.win (i + 7) i
      pure (value ++ [v.setWidth 8])) []

/-- `as_slice(&self)`: /repo/src/headers.rs:221-223; reading it out copies the window. -/
def SHdr.as_slice (h : SHdr) : Win := h.win

/-- `len(&self)`: /repo/src/headers.rs:215-217 -/
def SHdr.hlen (h : SHdr) : Nat := h.ty.size

/-- `struct PacketSlice<'a>`: /repo/src/lib.rs:137-140 -/
structure PacketSlice where
  hdrs : List SHdr
  payload : Win
  deriving DecidableEq, Repr

namespace PacketSlice

/-- `PacketSlice::new`: /repo/src/packet.rs:715-720 (`payload: &[]`) -/
def new : PacketSlice := { hdrs := [], payload := { base := [], off := 0, len := 0 } }

/-- `insert`: /repo/src/packet.rs:724-726 -/
def insert (p : PacketSlice) (h : SHdr) : PacketSlice := { p with hdrs := h :: p.hdrs }

/-- `set_payload`: /repo/src/packet.rs:727-729 (assignment, unlike `Packet::set_payload`) -/
def set_payload (p : PacketSlice) (w : Win) : PacketSlice := { p with payload := w }

/-- `to_vec`: /repo/src/packet.rs:733-740 -/
def to_vec (p : PacketSlice) : Bytes :=
  let r := p.hdrs.foldl (fun r s => r ++ s.as_slice.bytes) []
  r ++ p.payload.bytes

/-- `len`: /repo/src/packet.rs:741-743 -/
def len (p : PacketSlice) : Nat := (p.hdrs.map SHdr.hlen).sum + p.payload.len

end PacketSlice

/-- `accept`: /repo/src/parser/fast.rs:223-227 -/
def accept (arr : Win) : PacketSlice := PacketSlice.new.set_payload arr

/-- `parse_snap`: /repo/src/parser/fast.rs:29-34 -/
def parse_snap (arr : Win) : R PacketSlice := do
  let snap := SHdr.from SNAP (← arr.slice 0 SNAP.size)
  let rest ← arr.sliceFrom SNAP.size
  let pkt := accept rest.1
  pure (pkt.insert snap)

/-- `parse_llc`: /repo/src/parser/fast.rs:19-28 -/
def parse_llc (arr : Win) : R PacketSlice := do
  let llc := SHdr.from LLC (← arr.slice 0 LLC.size)
  let isSnap : Bool ← do
    if (← arr.index 0) ≠ 0xAA#8 then pure false
    else if (← arr.index 1) ≠ 0xAA#8 then pure false
    else pure (decide ((← arr.index 2) = 0x03#8))
  let rest ← arr.sliceFrom LLC.size
  let pkt ← if isSnap then parse_snap rest.1 else pure (accept rest.1)
  pure (pkt.insert llc)

/-- `parse_dot3`: /repo/src/parser/fast.rs:13-18 -/
def parse_dot3 (arr : Win) : R PacketSlice := do
  let dot3 := SHdr.from Dot3 (← arr.slice 0 Dot3.size)
  let rest ← arr.sliceFrom Dot3.size
  let pkt ← parse_llc rest.1
  pure (pkt.insert dot3)

/-- `parse_arp`: /repo/src/parser/fast.rs:193-197 -/
def parse_arp (arr : Win) : R PacketSlice := do
  let rest ← arr.sliceFrom ARP.size
  let pkt := accept rest.1
  pure (pkt.insert (SHdr.from ARP (← arr.slice 0 ARP.size)))

/-- `parse_icmp`: /repo/src/parser/fast.rs:198-202 -/
def parse_icmp (arr : Win) : R PacketSlice := do
  let rest ← arr.sliceFrom ICMP.size
  let pkt := accept rest.1
  pure (pkt.insert (SHdr.from ICMP (← arr.slice 0 ICMP.size)))

/-- `parse_tcp`: /repo/src/parser/fast.rs:203-207 -/
def parse_tcp (arr : Win) : R PacketSlice := do
  let rest ← arr.sliceFrom TCP.size
  let pkt := accept rest.1
  pure (pkt.insert (SHdr.from TCP (← arr.slice 0 TCP.size)))

/-- `if let Some(p) = o { pkt.insert(p); }`: /repo/src/parser/fast.rs:154-162, 187-189 -/
def insertOpt (pkt : PacketSlice) (o : Option SHdr) : PacketSlice :=
  match o with
  | some p => pkt.insert p
  | none => pkt

/-- optional header: /repo/src/parser/fast.rs:122-146, 177-185 -/
def optHdr (T : HeaderDef) (present : U64) (arr : Win) (offset : Nat) : R (Option SHdr) :=
  if present = 1#64 then do
    let b ← arr.slice offset (offset + T.size)
    pure (some (SHdr.from T b))
  else pure none

/-- `offset += T::size()` when present: /repo/src/parser/fast.rs:126, 133, 142, 181 -/
def optOffset (T : HeaderDef) (present : U64) (offset : Nat) : Nat :=
  if present = 1#64 then offset + T.size else offset

theorem le_optOffset (T : HeaderDef) (present : U64) (offset : Nat) :
    offset ≤ optOffset T present offset := by
  unfold optOffset; split <;> omega

mutual

/-- `parse_ethernet`: /repo/src/parser/fast.rs:35-48 -/
def parse_ethernet (chk : Bool) (arr : Win) : R PacketSlice := do
  let eth := SHdr.from Ether (← arr.slice 0 Ether.size)
  let etype := EtherType.try_from ((← eth.get chk Ether.etype).setWidth 16)
  let rest ← arr.sliceFrom Ether.size
  let pkt ← match etype with
    | some .DOT1Q => parse_vlan chk rest.1
    | some .ARP => parse_arp rest.1
    | some .IPV4 => parse_ipv4 chk rest.1
    | some .IPV6 => parse_ipv6 chk rest.1
    | some .MPLS => parse_mpls chk rest.1
    | _ => pure (accept rest.1)
  pure (pkt.insert eth)
termination_by arr.len
decreasing_by all_goals (have := rest.2; simp only [this.1, Ether] at *; omega)

/-- `parse_vlan`: /repo/src/parser/fast.rs:49-62 -/
def parse_vlan (chk : Bool) (arr : Win) : R PacketSlice := do
  let vlan := SHdr.from Vlan (← arr.slice 0 Vlan.size)
  let etype := EtherType.try_from ((← vlan.get chk Vlan.etype).setWidth 16)
  let rest ← arr.sliceFrom Vlan.size
  let pkt ← match etype with
    | some .DOT1Q => parse_vlan chk rest.1
    | some .ARP => parse_arp rest.1
    | some .IPV4 => parse_ipv4 chk rest.1
    | some .IPV6 => parse_ipv6 chk rest.1
    | some .MPLS => parse_mpls chk rest.1
    | _ => pure (accept rest.1)
  pure (pkt.insert vlan)
termination_by arr.len
decreasing_by all_goals (have := rest.2; simp only [this.1, Vlan] at *; omega)

/-- `parse_mpls`: /repo/src/parser/fast.rs:63-73 -/
def parse_mpls (chk : Bool) (arr : Win) : R PacketSlice := do
  let mpls := SHdr.from MPLS (← arr.slice 0 MPLS.size)
  let bos ← mpls.get chk MPLS.bos
  let rest ← arr.sliceFrom MPLS.size
  let pkt ← if bos = 1#64 then parse_mpls_bos chk rest.1 else parse_mpls chk rest.1
  pure (pkt.insert mpls)
termination_by arr.len
decreasing_by all_goals (have := rest.2; simp only [this.1, MPLS] at *; omega)

/-- `parse_mpls_bos`: /repo/src/parser/fast.rs:74-83 -/
def parse_mpls_bos (chk : Bool) (arr : Win) : R PacketSlice := do
  let mpls := SHdr.from MPLS (← arr.slice 0 MPLS.size)
  let b ← arr.index MPLS.size
  let rest ← arr.sliceFrom MPLS.size
  let pkt ← match IpType.try_from ((b >>> 4) &&& 0xf#8) with
    | some .V4 => parse_ipv4 chk rest.1
    | some .V6 => parse_ipv6 chk rest.1
    | _ => parse_ethernet chk rest.1
  pure (pkt.insert mpls)
termination_by arr.len
decreasing_by all_goals (have := rest.2; simp only [this.1, MPLS] at *; omega)

/-- `parse_ipv4`: /repo/src/parser/fast.rs:84-98 -/
def parse_ipv4 (chk : Bool) (arr : Win) : R PacketSlice := do
  let ipv4 := SHdr.from IPv4 (← arr.slice 0 IPv4.size)
  let proto := IpProtocol.try_from ((← ipv4.get chk IPv4.protocol).setWidth 8)
  let rest ← arr.sliceFrom IPv4.size
  let pkt ← match proto with
    | some .ICMP => parse_icmp rest.1
    | some .IPIP => parse_ipv4 chk rest.1
    | some .TCP => parse_tcp rest.1
    | some .UDP => parse_udp chk rest.1
    | some .IPV6 => parse_ipv6 chk rest.1
    | some .GRE => parse_gre chk rest.1
    | _ => pure (accept rest.1)
  pure (pkt.insert ipv4)
termination_by arr.len
decreasing_by all_goals (have := rest.2; simp only [this.1, IPv4] at *; omega)

/-- `parse_ipv6`: /repo/src/parser/fast.rs:99-113 -/
def parse_ipv6 (chk : Bool) (arr : Win) : R PacketSlice := do
  let ipv6 := SHdr.from IPv6 (← arr.slice 0 IPv6.size)
  let next_hdr := IpProtocol.try_from ((← ipv6.get chk IPv6.next_hdr).setWidth 8)
  let rest ← arr.sliceFrom IPv6.size
  let pkt ← match next_hdr with
    | some .ICMPV6 => parse_icmp rest.1
    | some .IPIP => parse_ipv4 chk rest.1
    | some .TCP => parse_tcp rest.1
    | some .UDP => parse_udp chk rest.1
    | some .IPV6 => parse_ipv6 chk rest.1
    | some .GRE => parse_gre chk rest.1
    | _ => pure (accept rest.1)
  pure (pkt.insert ipv6)
termination_by arr.len
decreasing_by all_goals (have := rest.2; simp only [this.1, IPv6] at *; omega)

/-- `parse_gre`: /repo/src/parser/fast.rs:114-165 -/
def parse_gre (chk : Bool) (arr : Win) : R PacketSlice := do
  let gre := SHdr.from GRE (← arr.slice 0 GRE.size)
  let proto := EtherType.try_from ((← gre.get chk GRE.proto).setWidth 16)
  let chksum_present ← gre.get chk GRE.chksum_present
  let seqnum_present ← gre.get chk GRE.seqnum_present
  let key_present ← gre.get chk GRE.key_present
  let gco ← optHdr GREChksumOffset chksum_present arr GRE.size
  let gk ← optHdr GREKey key_present arr (optOffset GREChksumOffset chksum_present GRE.size)
  let gsn ← optHdr GRESequenceNum seqnum_present arr
    (optOffset GREKey key_present (optOffset GREChksumOffset chksum_present GRE.size))
  let rest ← arr.sliceFrom (optOffset GRESequenceNum seqnum_present
    (optOffset GREKey key_present (optOffset GREChksumOffset chksum_present GRE.size)))
  let pkt ← match proto with
    | some .IPV4 => parse_ipv4 chk rest.1
    | some .IPV6 => parse_ipv6 chk rest.1
    | some .ERSPANII => parse_erspan2 chk rest.1
    | some .ERSPANIII => parse_erspan3 chk rest.1
    | _ => pure (accept rest.1)
  let pkt := insertOpt pkt gco
  let pkt := insertOpt pkt gk
  let pkt := insertOpt pkt gsn
  pure (pkt.insert gre)
termination_by arr.len
decreasing_by all_goals (
  have := rest.2
  have h1 := le_optOffset GREChksumOffset chksum_present GRE.size
  have h2 := le_optOffset GREKey key_present (optOffset GREChksumOffset chksum_present GRE.size)
  have h3 := le_optOffset GRESequenceNum seqnum_present
    (optOffset GREKey key_present (optOffset GREChksumOffset chksum_present GRE.size))
  have h4 : GRE.size = 4 := rfl
  simp only [this.1]; omega)

/-- `parse_erspan2`: /repo/src/parser/fast.rs:166-171 -/
def parse_erspan2 (chk : Bool) (arr : Win) : R PacketSlice := do
  let erspan2 := SHdr.from ERSPAN2 (← arr.slice 0 ERSPAN2.size)
  let rest ← arr.sliceFrom ERSPAN2.size
  let pkt ← parse_ethernet chk rest.1
  pure (pkt.insert erspan2)
termination_by arr.len
decreasing_by all_goals (have := rest.2; simp only [this.1, ERSPAN2] at *; omega)

/-- `parse_erspan3`: /repo/src/parser/fast.rs:172-192 -/
def parse_erspan3 (chk : Bool) (arr : Win) : R PacketSlice := do
  let erspan3 := SHdr.from ERSPAN3 (← arr.slice 0 ERSPAN3.size)
  let o ← erspan3.get chk ERSPAN3.o
  let platform ← optHdr ERSPANPLATFORM o arr ERSPAN3.size
  let rest ← arr.sliceFrom (optOffset ERSPANPLATFORM o ERSPAN3.size)
  let pkt ← parse_ethernet chk rest.1
  let pkt := insertOpt pkt platform
  pure (pkt.insert erspan3)
termination_by arr.len
decreasing_by all_goals (
  have := rest.2
  have h1 := le_optOffset ERSPANPLATFORM o ERSPAN3.size
  have h4 : ERSPAN3.size = 12 := rfl
  simp only [this.1]; omega)

/-- `parse_udp`: /repo/src/parser/fast.rs:208-217 -/
def parse_udp (chk : Bool) (arr : Win) : R PacketSlice := do
  let udp := SHdr.from UDP (← arr.slice 0 UDP.size)
  let dst : U16 := (← udp.get chk UDP.dst).setWidth 16
  let rest ← arr.sliceFrom UDP.size
  let pkt ← if dst = UDP_PORT_VXLAN then parse_vxlan chk rest.1 else pure (accept rest.1)
  pure (pkt.insert udp)
termination_by arr.len
decreasing_by all_goals (have := rest.2; simp only [this.1, UDP] at *; omega)

/-- `parse_vxlan`: /repo/src/parser/fast.rs:218-222 -/
def parse_vxlan (chk : Bool) (arr : Win) : R PacketSlice := do
  let rest ← arr.sliceFrom Vxlan.size
  let pkt ← parse_ethernet chk rest.1
  pure (pkt.insert (SHdr.from Vxlan (← arr.slice 0 Vxlan.size)))
termination_by arr.len
decreasing_by all_goals (have := rest.2; simp only [this.1, Vxlan] at *; omega)

end

/-- `parse`: /repo/src/parser/fast.rs:5-12 -/
def parse (chk : Bool) (arr : Win) : R PacketSlice := do
  let b12 ← arr.index 12
  let b13 ← arr.index 13
  let length : U16 := (b12.setWidth 16 <<< 8) ||| b13.setWidth 16
  if length < 1500#16 then parse_dot3 arr else parse_ethernet chk arr

end PacketRs.Fast
