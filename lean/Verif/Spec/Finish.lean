import Verif.Spec.Napt
import Verif.Spec.Endpoint
/-!
# Specification: the checksum of RFC 1071

`packet-rs` has no function that computes it for every header and segment: a client does the arithmetic itself.
-/
namespace PacketRs.Spec

/-- RFC 1071 for octets whose checksum field is zero.  Of the two zeros the one is taken that is not all zero. -/
def checksum (b : Bytes) : Nat :=
  let c := 65535 - fold16 (words b).sum
  if c = 0 then 65535 else c

/-- What a checksum covers, in a frame whose IP header begins at octet `n`: TCP and UDP over IPv4, ICMP and GRE over IPv4, TCP, UDP and
ICMPv6 over IPv6. -/
def cover4 (n : Nat) (f : Bytes) : Bytes := pseudo4 f n ++ seg4 f n
@[inherit_doc cover4] def coverAlone (n : Nat) (f : Bytes) : Bytes := seg4 f n
@[inherit_doc cover4] def cover6 (n : Nat) (f : Bytes) : Bytes := pseudo6 f n ++ seg6 f n

end PacketRs.Spec
