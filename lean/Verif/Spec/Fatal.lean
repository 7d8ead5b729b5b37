import Verif.Spec.Dissect
import Verif.Spec.Seen
/-!
# Specification: right datagrams that announce more than is there

A host takes a datagram by its own header alone.  What the datagram carries may announce further headers that are not there, or not
whole.
-/
namespace PacketRs.Spec

/-- The layer the protocol number of a datagram announces. -/
def nextLayer (g : Datagram) : Layer := if g.v6 then ipv6Next g.proto else ipv4Next g.proto

/-- A host takes the datagram in the frame, and the octets behind its fixed IP header are not the headers they announce. -/
def Fatal (f : Bytes) : Prop :=
  ∃ g, ipInput f = some g ∧ ¬ ∃ hs pl, Dissect (nextLayer g) (f.drop (l3At f + ipLen f)) hs pl

end PacketRs.Spec
