import Verif.Spec.Resolve
/-!
# Specification of C114: a switch with VLANs (IEEE 802.1Q)

On octets; nothing here refers to the model of the code.
-/
namespace PacketRs.Spec

/-- A port is in one VLAN, for frames without tag, or carries several, for frames with tag. -/
inductive Port where
  | access (v : BitVec 12)
  | trunk (carries : BitVec 12 → Bool)

def Port.isAccess : Port → Bool
  | .access _ => true
  | .trunk _ => false

/-- The port belongs to the VLAN. -/
def Port.member : Port → BitVec 12 → Bool
  | .access v, w => v = w
  | .trunk c, w => c w

/-- The VLAN of a frame that comes in at the port; none if the switch drops it. -/
def Port.classify (p : Port) (f : Bytes) : Option (BitVec 12) :=
  match p with
  | .access v => if 14 ≤ f.length ∧ u16At f 12 ≠ 0x8100 then some v else none
  | .trunk c =>
    if 18 ≤ f.length ∧ u16At f 12 = 0x8100 ∧ c (BitVec.ofNat 12 (u16At f 14)) = true then some (BitVec.ofNat 12 (u16At f 14)) else none

/-- The frame with a tag (priority 0) put in. -/
def addTag (v : BitVec 12) (f : Bytes) : Bytes :=
  f.take 12 ++ ([0x81#8, 0x00#8, BitVec.ofNat 8 (v.toNat / 256), BitVec.ofNat 8 v.toNat] ++ f.drop 12)

/-- The frame with its first tag taken out. -/
def dropTag (f : Bytes) : Bytes := f.take 12 ++ f.drop 16

/-- What leaves at port `q` when `f` came in at port `p`. -/
def Port.emit (p q : Port) (v : BitVec 12) (f : Bytes) : Bytes :=
  match p, q with
  | .access _, .access _ => f
  | .access _, .trunk _ => addTag v f
  | .trunk _, .access _ => dropTag f
  | .trunk _, .trunk _ => f

/-- Where stations were seen: VLAN and address to port. -/
abbrev SwTable := BitVec 12 → U64 → Option Nat

/-- Destination and source of a frame. -/
def frameDst (f : Bytes) : U64 := addrNum (f.take 6)
@[inherit_doc frameDst] def frameSrc (f : Bytes) : U64 := addrNum ((f.drop 6).take 6)

/-- The address is one of a group. -/
def isGroup (a : Bytes) : Bool := u8At a 0 % 2 = 1

/-- The source is noted, unless it is a group. -/
def SwTable.note (t : SwTable) (v : BitVec 12) (i : Nat) (f : Bytes) : SwTable := fun w a =>
  if w = v ∧ a = frameSrc f ∧ isGroup (f.drop 6) = false then some i else t w a

/-- Ports (numbers below `n`) at which a frame in VLAN `v` leaves: those of the VLAN but the one it came in at, and only the one
where its destination was seen if it was seen. -/
def leaves (ports : Nat → Port) (n : Nat) (t : SwTable) (v : BitVec 12) (i : Nat) (f : Bytes) : List Nat :=
  (List.range n).filter fun j => j ≠ i ∧ (ports j).member v ∧ ((t v (frameDst f)).isNone ∨ t v (frameDst f) = some j)

/-- A frame comes in at port `i`. -/
def bridged (ports : Nat → Port) (n : Nat) (t : SwTable) (i : Nat) (f : Bytes) : SwTable × List (Nat × Bytes) :=
  match (ports i).classify f with
  | none => (t, [])
  | some v => (t.note v i f, (leaves ports n (t.note v i f) v i f).map fun j => (j, (ports i).emit (ports j) v f))

/-- Two ports that may be joined by a line: both for the same VLAN without tag, or both for frames with tag. -/
def Joined : Port → Port → Prop
  | .access v, .access w => v = w
  | .trunk _, .trunk _ => True
  | _, _ => False

end PacketRs.Spec
