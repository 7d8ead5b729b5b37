import Verif.Spec.Forward
/-!
# Specification: frames turned around, and the address resolution protocol
-/
namespace PacketRs.Spec

/-- The `n` octets from `i` on exchanged with the `n` octets after them. -/
def swapAt (b : Bytes) (i n : Nat) : Bytes := putAt b i ((b.drop (i + n)).take n ++ (b.drop i).take n)

/-- An ARP message for IPv4 over Ethernet (RFC 826): operation, sender and target with both addresses. -/
structure ArpMsg where
  op : Nat
  sha : Bytes
  spa : Bytes
  tha : Bytes
  tpa : Bytes
  deriving DecidableEq, Repr

/-- RFC 826, packet reception: hardware and protocol are the ones spoken, with addresses of the right lengths. -/
def arpInput (b : Bytes) : Option ArpMsg :=
  if 28 ≤ b.length ∧ u16At b 0 = 1 ∧ u16At b 2 = 0x0800 ∧ u8At b 4 = 6 ∧ u8At b 5 = 4 then
    some ⟨u16At b 6, (b.drop 8).take 6, (b.drop 14).take 4, (b.drop 18).take 6, (b.drop 24).take 4⟩
  else none

/-- The ARP message a host takes from a frame. -/
def hostArp (f : Bytes) : Option ArpMsg :=
  match linkInput f with
  | some (et, b) => if et = 0x0806 then arpInput b else none
  | none => none

end PacketRs.Spec
