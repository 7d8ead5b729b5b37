import Verif.Spec.Checksum
import Verif.Spec.Lengths
/-!
# Specification: what a receiver checks in the transport header behind an IP header

`b` is a frame, the IP header (without options or extension headers) begins at octet `n`, the segment is everything behind
it.  Nothing here refers to the model of the code.
-/
namespace PacketRs.Spec

/-- A number in two octets, most significant first. -/
def num16 (k : Nat) : Bytes := [BitVec.ofNat 8 (k / 256), BitVec.ofNat 8 k]

/-- A number in four octets, most significant first. -/
def num32 (k : Nat) : Bytes := num16 (k / 65536) ++ num16 k

/-- The segment behind an IPv4 header without options. -/
def seg4 (b : Bytes) (n : Nat) : Bytes := b.drop (n + 20)

/-- The segment behind an IPv6 header. -/
def seg6 (b : Bytes) (n : Nat) : Bytes := b.drop (n + 40)

/-- RFC 768, RFC 9293: source, destination, zero, protocol, length. -/
def pseudo4 (b : Bytes) (n : Nat) : Bytes :=
  (b.drop (n + 12)).take 8 ++ [0#8, b.getD (n + 9) 0#8] ++ num16 (seg4 b n).length

/-- RFC 8200, section 8.1: source, destination, length, three zero octets, next header. -/
def pseudo6 (b : Bytes) (n : Nat) : Bytes :=
  (b.drop (n + 8)).take 32 ++ num32 (seg6 b n).length ++ [0#8, 0#8, 0#8, b.getD (n + 6) 0#8]

/-- RFC 9293, section 3.1. -/
def Tcp4Ok (b : Bytes) (n : Nat) : Prop := Verifies (pseudo4 b n ++ seg4 b n)

/-- RFC 768: as TCP, but an all zero checksum means that none was computed. -/
def Udp4Ok (b : Bytes) (n : Nat) : Prop := u16At (seg4 b n) 6 = 0 ∨ Verifies (pseudo4 b n ++ seg4 b n)

/-- RFC 792: over the message alone. -/
def Icmp4Ok (b : Bytes) (n : Nat) : Prop := Verifies (seg4 b n)

/-- RFC 8200. -/
def Tcp6Ok (b : Bytes) (n : Nat) : Prop := Verifies (pseudo6 b n ++ seg6 b n)

/-- RFC 8200: a datagram with zero checksum is discarded. -/
def Udp6Ok (b : Bytes) (n : Nat) : Prop := u16At (seg6 b n) 6 ≠ 0 ∧ Verifies (pseudo6 b n ++ seg6 b n)

/-- RFC 4443, section 2.3. -/
def Icmp6Ok (b : Bytes) (n : Nat) : Prop := Verifies (pseudo6 b n ++ seg6 b n)

instance (b : Bytes) (n : Nat) : Decidable (Tcp4Ok b n) := inferInstanceAs (Decidable (Verifies _))
instance (b : Bytes) (n : Nat) : Decidable (Udp4Ok b n) := inferInstanceAs (Decidable (_ ∨ _))
instance (b : Bytes) (n : Nat) : Decidable (Icmp4Ok b n) := inferInstanceAs (Decidable (Verifies _))
instance (b : Bytes) (n : Nat) : Decidable (Tcp6Ok b n) := inferInstanceAs (Decidable (Verifies _))
instance (b : Bytes) (n : Nat) : Decidable (Udp6Ok b n) := inferInstanceAs (Decidable (_ ∧ _))
instance (b : Bytes) (n : Nat) : Decidable (Icmp6Ok b n) := inferInstanceAs (Decidable (Verifies _))

/-- Where the IP header of a frame with or without a VLAN tag begins. -/
def ipAt (tagged : Bool) : Nat := if tagged then 18 else 14

end PacketRs.Spec
