import Verif.Rust
/-!
# tests/pcap.rs: writing a capture file

The file system is one file `temp.pcap`. Opening and writing do not fail; the clock is not before 1970
(/repo/tests/pcap.rs:11, :19, :24, :34, :35 would panic).
-/
namespace PacketRs

/-- `u32::to_le_bytes` -/
def le32 (x : U32) : Bytes :=
  [x.setWidth 8, (x >>> 8).setWidth 8, (x >>> 16).setWidth 8, (x >>> 24).setWidth 8]

/-- An open file: its contents and the position of the next write. -/
structure OpenFile where
  data : Bytes
  pos : Nat
  deriving DecidableEq, Repr

/-- `OpenOptions::new().create(true).write(true).append(false).open(..)`: /repo/tests/pcap.rs:14-19.
A missing file is created; an existing one keeps its contents (there is no `truncate(true)`), and writing starts at the
beginning. -/
def OpenFile.openForWrite (old : Option Bytes) : OpenFile := ⟨old.getD [], 0⟩

/-- `write_all`: the bytes replace what is at the position, extending the file as needed. -/
def OpenFile.write_all (f : OpenFile) (b : Bytes) : OpenFile :=
  ⟨f.data.take f.pos ++ List.replicate (f.pos - f.data.length) 0#8 ++ b ++ f.data.drop (f.pos + b.length), f.pos + b.length⟩

/-- `SystemTime::now().duration_since(UNIX_EPOCH)`: whole seconds and nanoseconds. -/
structure UnixTime where
  secs : U64
  nanos : Nat
  lt : nanos < 1000000000

/-- `as_secs() as u32`: /repo/tests/pcap.rs:12 -/
def UnixTime.tv_sec (t : UnixTime) : U32 := t.secs.setWidth 32

/-- `subsec_millis() as u32`: /repo/tests/pcap.rs:13 -/
def UnixTime.tv_usec (t : UnixTime) : U32 := BitVec.ofNat 32 (t.nanos / 1000000)

/-- /repo/tests/pcap.rs:20-23 -/
def pcapGlobalHeader : Bytes :=
  [0xd4#8, 0xc3#8, 0xb2#8, 0xa1#8, 0x2#8, 0x0#8, 0x4#8, 0x0#8, 0#8, 0#8, 0#8, 0#8, 0#8, 0#8, 0#8, 0#8, 0xff#8, 0xff#8, 0#8, 0#8,
    1#8, 0#8, 0#8, 0#8]

/-- The header of one packet: /repo/tests/pcap.rs:27-32 -/
def pcapPacketHeader (t : UnixTime) (packet : Bytes) : Bytes :=
  let plen : U32 := BitVec.ofNat 32 packet.length
  le32 t.tv_sec ++ le32 t.tv_usec ++ le32 plen ++ le32 plen

/-- The loop: /repo/tests/pcap.rs:26-36 -/
def pcapLoop (t : UnixTime) (f : OpenFile) : List Bytes → OpenFile
  | [] => f
  | p :: ps => pcapLoop t ((f.write_all (pcapPacketHeader t p)).write_all p) ps

/-- `pcap_write`: /repo/tests/pcap.rs:7-37. The contents of the file afterwards, from its contents before. -/
def pcap_write (t : UnixTime) (old : Option Bytes) (packets : List Bytes) : Bytes :=
  (pcapLoop t ((OpenFile.openForWrite old).write_all pcapGlobalHeader) packets).data

end PacketRs
