import Verif.Spec.Stream
/-!
# Specification of C113: acknowledgements

RFC 9293, section 3.10.7.4, the ACK field; numbers are modulo 2^32.  Nothing here refers to the model of the code.
-/
namespace PacketRs.Spec

/-- The other direction of a connection. -/
def Conn.rev (c : Conn) : Conn := ⟨c.dst, c.src, c.dport, c.sport⟩

/-- `SND.UNA < SEG.ACK =< SND.NXT`: of the octets of the stream `una` are acknowledged and `nxt` sent, the first has number `iss`;
an acknowledgement number comes. -/
def acked (iss una nxt ack : Nat) : Nat :=
  let d := (ack + 4294967296 - (iss + una) % 4294967296) % 4294967296
  if d ≤ nxt - una then una + d else una

end PacketRs.Spec
