import Verif.Spec.Host
/-!
# Specification of C109: a stream of octets in TCP segments

RFC 9293, section 3.10.7.4: a receiver takes from a segment the octets that come next, and nothing from a segment that does not have
them.  Sequence numbers are numbers modulo 2^32.  Connections are open; flags are not looked at, and the window is never closed.
On octets; nothing here refers to the model of the code.
-/
namespace PacketRs.Spec

/-- One direction of a connection. -/
structure Conn where
  src : Bytes
  dst : Bytes
  sport : Nat
  dport : Nat
  deriving DecidableEq, Repr

def TcpSeg.conn (s : TcpSeg) : Conn := ⟨s.src, s.dst, s.sport, s.dport⟩

/-- The receiver: the number of the octet that comes next, and the octets it has handed on. -/
structure Recv where
  next : Nat
  got : Bytes
  deriving DecidableEq, Repr

/-- A segment comes.  `old` counts its octets that the receiver already has. -/
def Recv.take (c : Conn) (r : Recv) (s : TcpSeg) : Recv :=
  let old := (r.next + 4294967296 - s.seq) % 4294967296
  if s.conn = c ∧ old < s.data.length then
    ⟨(r.next + (s.data.length - old)) % 4294967296, r.got ++ s.data.drop old⟩
  else r

/-- What a program has read from connection `c` when these frames have come; the first octet of the stream has number `iss`. -/
def streamGot (c : Conn) (iss : Nat) (fs : List Bytes) : Bytes := ((fs.filterMap hostTcp).foldl (Recv.take c) ⟨iss, []⟩).got

/-- Octets `i` to `i + n - 1` of the stream, or as many of them as there are. -/
def chunk (D : Bytes) (i n : Nat) : Bytes := (D.drop i).take n

end PacketRs.Spec
