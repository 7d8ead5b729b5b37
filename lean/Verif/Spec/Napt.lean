import Verif.Spec.Turn
/-!
# Specification: updating a checksum (RFC 1624), and messages with another endpoint

`packet-rs` has no function for this: a client that rewrites addresses and ports does the arithmetic itself.
-/
namespace PacketRs.Spec

/-- Carries added until none is left. -/
def fold16 (n : Nat) : Nat := if n < 65536 then n else fold16 (n / 65536 + n % 65536)
termination_by n
decreasing_by omega

/-- RFC 1624, equation 3, for several words: `HC' = ~(~HC + ~m + m')`.  Of the two zeros the one is taken that is not all zero. -/
def adjust (c : Nat) (old new : List Nat) : Nat :=
  let c' := 65535 - fold16 (65535 - c + (old.map (65535 - ·)).sum + new.sum)
  if c' = 0 then 65535 else c'

/-- The two words of a number of 32 bits. -/
def halves (a : Nat) : List Nat := [a / 65536, a % 65536]

/-- The datagram with another source, or another destination. -/
def Datagram.moved (dst : Bool) (a : Bytes) (g : Datagram) : Datagram := if dst then { g with dst := a } else { g with src := a }

/-- The message with another source address and port, or another destination address and port. -/
def UdpMsg.moved (dst : Bool) (a : Bytes) (n : Nat) (m : UdpMsg) : UdpMsg :=
  if dst then { m with dst := a, dport := n } else { m with src := a, sport := n }

@[inherit_doc UdpMsg.moved] def TcpSeg.moved (dst : Bool) (a : Bytes) (n : Nat) (m : TcpSeg) : TcpSeg :=
  if dst then { m with dst := a, dport := n } else { m with src := a, sport := n }

end PacketRs.Spec
