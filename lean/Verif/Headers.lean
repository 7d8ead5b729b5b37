import Verif.Bits
import Lean
/-!
# The predefined headers

The command `make_header` below is the Lean counterpart of the Rust macro `make_header!`
(/repo/src/headers.rs:166-527): `make_header Name size (field: start-end, ...) [default bytes]`
defines a `Field` constant `Name.field` per field and the header type `Name : HeaderDef`.
-/
namespace PacketRs

/-- One field of a header: `field: start-end` in `make_header!` (bit positions, both inclusive). -/
structure Field where
  name : String
  lo : Nat
  hi : Nat
  deriving DecidableEq, Repr

/-- `<field>_size()`: /repo/src/headers.rs:378-380. -/
def Field.width (f : Field) : Nat := f.hi - f.lo + 1

/-- A header type, i.e. one invocation of `make_header!`.  `path` stands for the module in which the
macro is invoked: two invocations with the same `name` in different modules are different Rust
types with the same `name()`. -/
structure HeaderDef where
  path : String
  name : String
  /-- `size()`: /repo/src/headers.rs:366-368 -/
  size : Nat
  fields : List Field
  /-- the `vec![...]` given to `new()`: /repo/src/headers.rs:329-332 -/
  dflt : Bytes
  deriving DecidableEq, Repr

/-- An owned header value (the contents of its `Arc<Mutex<Vec<u8>>>`), or the bytes seen through a
slice header.  Sharing is modelled in `Verif.Heap`. -/
structure Hdr where
  ty : HeaderDef
  data : Bytes
  deriving DecidableEq, Repr

open Lean in
/-- Counterpart of `make_header!`, /repo/src/headers.rs:166-527. -/
macro (name := makeHeaderCmd) doc?:(docComment)? "make_header" n:ident sz:num
    "(" fs:sepBy((ident ":" num "-" num), ",") ")" "[" bs:num,* "]" : command => do
  let mut cmds : Array Command := #[]
  let mut refs : Array Term := #[]
  for f in fs.getElems do
    let fname : Ident := ⟨f.raw[0]⟩
    let lo : TSyntax `num := ⟨f.raw[2]⟩
    let hi : TSyntax `num := ⟨f.raw[4]⟩
    let full := mkIdent (n.getId ++ fname.getId)
    let str := Syntax.mkStrLit (toString fname.getId)
    cmds := cmds.push (← `(command| def $full : Field := ⟨$str, $lo, $hi⟩))
    refs := refs.push full
  let nstr := Syntax.mkStrLit (toString n.getId)
  let bytes := bs.getElems
  let bterms : Array Term ← bytes.mapM (fun b => `(term| (BitVec.ofNat 8 $b)))
  cmds := cmds.push (← `(command|
    $[$doc?:docComment]? def $n : HeaderDef :=
      { path := "packet_rs::headers", name := $nstr, size := $sz,
        fields := [$refs,*], dflt := [$bterms,*] }))
  return ⟨mkNullNode cmds⟩

/-- /repo/src/headers.rs:529-540 -/
make_header Ether 14
(
    dst: 0-47,
    src: 48-95,
    etype: 96-111
)
[0x0, 0x1, 0x2, 0x3, 0x4, 0x5,
     0x6, 0x7, 0x8, 0x9, 0xa, 0xb,
     0x08, 0x00]

/-- /repo/src/headers.rs:542-552 -/
make_header Vlan 4
(
    pcp: 0-2,
    cfi: 3-3,
    vid: 4-15,
    etype: 16-31
)
[0x0, 0xa, 0x08, 0x00]

/-- /repo/src/headers.rs:554-574 -/
make_header IPv4 20
(
    version: 0-3,
    ihl: 4-7,
    diffserv: 8-15,
    total_len: 16-31,
    identification: 32-47,
    flags: 48-50,
    frag_startset: 51-63,
    ttl: 64-71,
    protocol: 72-79,
    header_checksum: 80-95,
    src: 96-127,
    dst: 128-159
)
[0x45, 0x00, 0x00, 0x14, 0x00, 0x33, 0x40, 0xdd, 0x40, 0x06, 0xfa, 0xec,
     0xc0, 0xa8, 0x0, 0x1,
     0xc0, 0xa8, 0x0, 0x2]

/-- /repo/src/headers.rs:576-592 -/
make_header IPv6 40
(
    version: 0-3,
    traffic_class: 4-11,
    flow_label: 12-31,
    payload_len: 32-47,
    next_hdr: 48-55,
    hop_limit: 56-63,
    src: 64-191,
    dst: 192-319
)
[0x60, 0x00, 0x00, 0x00, 0x00, 0x2e, 0x06, 0x40,
     0x20, 0x01, 0x0d, 0xb8, 0x85, 0xa3, 0x00, 0x00, 0x00, 0x00, 0x8a, 0x2e, 0x03, 0x70, 0x73, 0x34,
     0x20, 0x01, 0x0d, 0xb8, 0x85, 0xa3, 0x00, 0x00, 0x00, 0x00, 0x8a, 0x2e, 0x03, 0x70, 0x73, 0x35]

/-- /repo/src/headers.rs:594-603.  The default has 6 bytes although the declared size is 4; this is
what the source says. -/
make_header ICMP 4
(
    icmp_type: 0-7,
    icmp_code: 8-15,
    chksum: 16-31
)
[0x8, 0x0, 0x0, 0x0, 0x0, 0x0]

/-- /repo/src/headers.rs:605-622 -/
make_header TCP 20
(
    src: 0-15,
    dst: 16-31,
    seq_no: 32-63,
    ack_no: 64-95,
    data_startset: 96-99,
    res: 100-103,
    flags: 104-111,
    window: 112-127,
    checksum: 128-143,
    urgent_ptr: 144-159
)
[0x04, 0xd2 , 0x00, 0x50, 0x0, 0x0, 0x0, 0x0, 0x0, 0x0, 0x0, 0x0,
     0x50, 0x02, 0x20, 0x00, 0x0d, 0x2c, 0x0, 0x0]

/-- /repo/src/headers.rs:624-634 -/
make_header UDP 8
(
    src: 0-15,
    dst: 16-31,
    length: 32-47,
    checksum: 48-63
)
[0x04, 0xd2 , 0x00, 0x50, 0x0, 0x0, 0x0, 0x0]

/-- /repo/src/headers.rs:636-653 -/
make_header ARP 28
(
    hwtype: 0-15,
    proto_type: 16-31,
    hwlen: 32-39,
    proto_len: 40-47,
    opcode: 48-63,
    sender_hw_addr: 64-111,
    sender_proto_addr: 112-143,
    target_hw_addr: 144-191,
    target_proto_addr: 192-223
)
[0x0, 0x1, 0x8, 0x0, 0x6, 0x4, 0x0, 0x1,
     0x00, 0x01, 0x02, 0x03, 0x04, 0x05, 0xa, 0x0, 0x0, 0x1,
     0x00, 0x00, 0x00, 0x00, 0x00, 0x00, 0x0, 0x0, 0x0, 0x0]

/-- /repo/src/headers.rs:655-665 -/
make_header Vxlan 8
(
    flags: 0-7,
    reserved: 8-31,
    vni: 32-55,
    reserved2: 56-63
)
[0x8, 0x0 , 0x0, 0x0, 0x0, 0x07, 0xd0, 0x0]

/-- /repo/src/headers.rs:667-678 -/
make_header Dot3 14
(
    dst: 0-47,
    src: 48-95,
    length: 96-111
)
[0x0, 0x1, 0x2, 0x3, 0x4, 0x5,
     0x6, 0x7, 0x8, 0x9, 0xa, 0xb,
     0x00, 0x00]

/-- /repo/src/headers.rs:680-689 -/
make_header LLC 3
(
    dsap: 0-7,
    ssap: 8-15,
    ctrl: 16-23
)
[0x0, 0x0, 0x0]

/-- /repo/src/headers.rs:691-699 -/
make_header SNAP 5
(
    oui: 0-23,
    code: 24-39
)
[0x0, 0x0, 0x0, 0x0, 0x0]

/-- /repo/src/headers.rs:701-716 -/
make_header GRE 4
(
    chksum_present: 0-0,
    routing_present: 1-1,
    key_present: 2-2,
    seqnum_present: 3-3,
    strict_route_src: 4-4,
    recurse: 5-7,
    flags: 8-12,
    version: 13-15,
    proto: 16-31
)
[0x0, 0x0, 0x0, 0x0]

/-- /repo/src/headers.rs:718-726 -/
make_header GREChksumOffset 4
(
    chksum: 0-15,
    offset: 16-31
)
[0, 0, 0, 0]

/-- /repo/src/headers.rs:728-735 -/
make_header GRESequenceNum 4
(
    seqnum: 0-31
)
[0, 0, 0, 0]

/-- /repo/src/headers.rs:737-744 -/
make_header GREKey 4
(
    key: 0-31
)
[0, 0, 0, 0]

/-- /repo/src/headers.rs:746-760 -/
make_header ERSPAN2 8
(
    version: 0-3,
    vlan: 4-15,
    cos: 16-18,
    en: 19-20,
    t: 21-21,
    session_id: 22-31,
    reserved: 32-43,
    index: 44-63
)
[0x10, 0x0, 0x0, 0x0, 0x0, 0x0, 0x0, 0x0]

/-- /repo/src/headers.rs:762-782 -/
make_header ERSPAN3 12
(
    version: 0-3,
    vlan: 4-15,
    cos: 16-18,
    bos: 19-20,
    t: 21-21,
    session_id: 22-31,
    timestamp: 32-63,
    sgt: 64-79,
    p: 80-80,
    ft: 81-85,
    hw_id: 86-91,
    d: 92-92,
    gra: 93-94,
    o: 95-95
)
[0x20, 0x0, 0x0, 0x0, 0x0, 0x0, 0x0, 0x0, 0x0, 0x0, 0x0, 0x0]

/-- /repo/src/headers.rs:784-792 -/
make_header ERSPANPLATFORM 8
(
    id: 0-5,
    info: 6-63
)
[0x0, 0x0, 0x0, 0x0, 0x0, 0x0, 0x0, 0x0]

/-- /repo/src/headers.rs:794-815 -/
make_header STP 35
(
    proto: 0-15,
    version: 16-23,
    bpdu_type: 24-31,
    flags: 32-39,
    root_id: 40-55,
    root_mac: 56-103,
    root_path_cost: 104-135,
    bridge_id: 136-151,
    bridge_mac: 152-199,
    port_id: 200-215,
    message_age: 216-231,
    max_age: 232-247,
    hello_time: 248-263,
    fwd_delay: 264-279
)
[0x0, 0x0 , 0x0, 0x0, 0x0, 0x0, 0x0, 0x0, 0x0, 0x0, 0x0, 0x0, 0x0, 0x0, 0x0, 0x0, 0x0,
     0x0, 0x0 , 0x0, 0x0, 0x0, 0x0, 0x0, 0x0, 0x0, 0x0, 0x0, 0x1, 0x0, 0x14, 0x0, 0x2, 0x0, 0xF]

/-- /repo/src/headers.rs:817-827 -/
make_header MPLS 4
(
    label: 0-19,
    exp: 20-22,
    bos: 23-23,
    ttl: 24-31
)
[0, 0, 0, 0]

/-- /repo/src/headers.rs:829-854.  Test header; `byte4` overlaps `byte2` and `byte3` in the source. -/
make_header Tester 40
(
    bit1: 0-0,
    bit2: 1-2,
    bit3: 3-5,
    bit4: 6-9,
    bit5: 10-14,
    bit6: 15-20,
    bit7: 21-27,
    bit8: 28-35,
    bit9: 36-44,
    bit10: 45-47,
    byte1: 48-55,
    byte2: 56-71,
    byte3: 72-95,
    byte4: 66-127,
    byte8: 128-191,
    byte16: 192-319
)
[0xff, 0xff, 0xff, 0xff, 0xff, 0xff,
     0x20, 0x01, 0x0d, 0xb8, 0x85, 0xa3, 0xf0, 0xe0, 0xd0, 0xc0,
     0x8a, 0x2e, 0x03, 0x70, 0x73, 0x34, 0x45, 0x67,
     0x20, 0x01, 0x0d, 0xb8, 0x85, 0xa3, 0x00, 0x00, 0x00, 0x00, 0x8a, 0x2e, 0x03, 0x70, 0x73, 0x35]

/-- The 21 predefined protocol headers (everything but `Tester`), i.e. the classes registered at
/repo/src/lib.rs:145-165. -/
def predefined : List HeaderDef :=
  [Ether, LLC, SNAP, Dot3, Vlan, ARP, IPv4, IPv6, ICMP, UDP, TCP, Vxlan, GRE, GREChksumOffset,
   GREKey, GRESequenceNum, ERSPAN2, ERSPAN3, ERSPANPLATFORM, STP, MPLS]

/-- `$name::new()`: /repo/src/headers.rs:329-332. -/
def HeaderDef.new (t : HeaderDef) : Hdr := { ty := t, data := t.dflt }

/-- `impl From<Vec<u8>> for $name`: /repo/src/headers.rs:450-454.  No length check. -/
def HeaderDef.ofVec (t : HeaderDef) (data : Bytes) : Hdr := { ty := t, data := data }

/-- `len(&self)`: /repo/src/headers.rs:369-371 (owned), 215-217 (slice): the declared size. -/
def Hdr.len (h : Hdr) : Nat := h.ty.size

/-- `name(&self)`: /repo/src/headers.rs:372-374 (owned), 218-220 (slice). -/
def Hdr.name (h : Hdr) : String := h.ty.name

/-- `to_vec(&self)`: /repo/src/headers.rs:429-432. -/
def Hdr.to_vec (h : Hdr) : Bytes := h.data

/-- The getter `$field(&self) -> u64`: /repo/src/headers.rs:334-339 (owned), 196-200 (slice). -/
def Hdr.get (chk : Bool) (h : Hdr) (f : Field) : R U64 := bitRange chk h.data f.hi f.lo

/-- The setter `set_$field(&mut self, u64)`: /repo/src/headers.rs:340-344. -/
def Hdr.set (h : Hdr) (f : Field) (v : U64) : R Hdr := do
  let d ← setBitRange h.data f.hi f.lo v
  pure { h with data := d }

/-- `bytes(msb, lsb)`: /repo/src/headers.rs:346-355. -/
def Hdr.bytes (chk : Bool) (h : Hdr) (msb lsb : Nat) : R Bytes := getBytes chk h.data msb lsb

/-- `set_bytes(msb, lsb, value)`: /repo/src/headers.rs:356-364. -/
def Hdr.set_bytes (chk : Bool) (h : Hdr) (msb lsb : Nat) (v : Bytes) : R Hdr := do
  let d ← setBytes chk h.data msb lsb v
  pure { h with data := d }

end PacketRs
