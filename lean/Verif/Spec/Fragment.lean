import Verif.Spec.Host
/-!
# Specification of C108: fragments of IPv4 datagrams

RFC 791, section 3.2, and RFC 815: what a host puts together from the fragments it got, in any order, some of them perhaps more than
once.  On octets; nothing here refers to the model of the code.
-/
namespace PacketRs.Spec

/-- By these a host knows which fragments belong together. -/
structure FragKey where
  id : Nat
  proto : Nat
  src : Bytes
  dst : Bytes
  deriving DecidableEq, Repr

/-- A fragment: where its octets begin in the datagram, whether there are more after them, and the octets.  A whole datagram is a
fragment with offset 0 that is the last. -/
structure Piece where
  key : FragKey
  off : Nat
  more : Bool
  data : Bytes
  deriving DecidableEq, Repr

/-- RFC 791 and RFC 1122: like `ip4Input`, fragments included. -/
def ip4Piece (b : Bytes) : Option Piece :=
  if 20 ≤ b.length ∧ u8At b 0 / 16 = 4 ∧ 20 ≤ ihl b 0 ∧ ihl b 0 ≤ u16At b 2 ∧ u16At b 2 ≤ b.length ∧
      Verifies (b.take (ihl b 0)) then
    some ⟨⟨u16At b 4, u8At b 9, (b.drop 12).take 4, (b.drop 16).take 4⟩, 8 * (u16At b 6 % 8192), u16At b 6 / 8192 % 2 = 1,
      (b.take (u16At b 2)).drop (ihl b 0)⟩
  else none

/-- The fragment in a frame. -/
def pieceOf (f : Bytes) : Option Piece :=
  match linkInput f with
  | some (et, b) => if et = 0x0800 then ip4Piece b else none
  | none => none

/-- Octet `i` of the datagram: from the first fragment that has it. -/
def octetOf (ps : List Piece) (i : Nat) : Option Byte :=
  (ps.find? fun p => p.off ≤ i ∧ i < p.off + p.data.length).map fun p => p.data.getD (i - p.off) 0#8

/-- The last fragment tells how long the datagram is; it is complete if every octet is there. -/
def reassemble (ps : List Piece) : Option Bytes :=
  (ps.find? fun p => p.more = false).bind fun l => (List.range (l.off + l.data.length)).mapM (octetOf ps)

/-- The datagram that the host puts together from the frames it got. -/
def assembled (fs : List Bytes) (k : FragKey) : Option Datagram :=
  (reassemble ((fs.filterMap pieceOf).filter fun p => p.key = k)).map fun d => ⟨false, k.proto, k.src, k.dst, d⟩

/-- RFC 791: the octets `d`, which begin at offset `o`, in fragments of `s` octets. -/
def cutUp (s : Nat) (k : FragKey) (o : Nat) (more : Bool) (d : Bytes) : List Piece :=
  if d.length ≤ s ∨ s = 0 then [⟨k, o, more, d⟩]
  else ⟨k, o, true, d.take s⟩ :: cutUp s k (o + s) more (d.drop s)
termination_by d.length
decreasing_by simp only [List.length_drop]; omega

end PacketRs.Spec
