import Verif.Spec.Napt
import Verif.Spec.Seen
import Verif.Spec.Bits
/-!
# Specification of C116: a gateway that translates addresses and ports (RFC 3022)

On the segments hosts take; nothing here refers to the model of the code.
-/
namespace PacketRs.Spec

/-- Port `ext` of the gateway stands for port `port` of the host with address `addr` behind it. -/
structure NatEntry where
  ext : U16
  addr : U32
  port : U16
  deriving DecidableEq, Repr

/-- The entry is that of the sender of the segment, or of its receiver. -/
def NatEntry.OfSender (e : NatEntry) (m : TcpSeg) : Prop := num32 e.addr.toNat = m.src ∧ e.port.toNat = m.sport
@[inherit_doc NatEntry.OfSender] def NatEntry.OfTarget (own : U32) (e : NatEntry) (m : TcpSeg) : Prop :=
  num32 own.toNat = m.dst ∧ e.ext.toNat = m.dport

instance (e : NatEntry) (m : TcpSeg) : Decidable (e.OfSender m) := by unfold NatEntry.OfSender; infer_instance
instance (own : U32) (e : NatEntry) (m : TcpSeg) : Decidable (e.OfTarget own m) := by unfold NatEntry.OfTarget; infer_instance

/-- The entry made for the sender of a segment, with port `n`. -/
def NatEntry.make (n : U16) (m : TcpSeg) : NatEntry := ⟨n, BitVec.ofNat 32 (beNat m.src), BitVec.ofNat 16 m.sport⟩

/-- A segment from behind the gateway: it leaves with the gateway's address and the port that stands for its sender.  If there is none,
that becomes port `n`, unless it stands for another already. -/
def natOut (own : U32) (t : List NatEntry) (n : U16) (m : TcpSeg) : List NatEntry × Option TcpSeg :=
  match t.find? fun e => e.OfSender m with
  | some e => (t, some (m.moved false (num32 own.toNat) e.ext.toNat))
  | none =>
    if t.any fun e => e.ext = n then (t, none)
    else (NatEntry.make n m :: t, some (m.moved false (num32 own.toNat) n.toNat))

/-- A segment from outside: it is for whom its port stands for. -/
def natIn (own : U32) (t : List NatEntry) (m : TcpSeg) : Option TcpSeg :=
  (t.find? fun e => e.OfTarget own m).map fun e => m.moved true (num32 e.addr.toNat) e.port.toNat

/-- What happens: a frame from behind the gateway, with the port to take if it needs one, a frame from outside, or a port
is given up. -/
inductive NatEvent where
  | out (n : U16) (f : Bytes)
  | inn (f : Bytes)
  | forget (n : U16)
  deriving DecidableEq

/-- The segment the gateway translates: TCP over IPv4 without options. -/
def natSeg (f : Bytes) : Option TcpSeg := if u16At f (l3At f - 2) = 0x0800 ∧ ihl f (l3At f) = 20 then hostTcp f else none

end PacketRs.Spec
