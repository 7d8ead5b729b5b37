import Verif.Rust
/-!
# Specification: the capture file format (little-endian, microsecond time stamps)
-/
namespace PacketRs.Spec

/-- Little-endian number. -/
def leNat : Bytes → Nat
  | [] => 0
  | b :: bs => b.toNat + 256 * leNat bs

/-- What a reader gets for one packet. -/
structure CapRec where
  sec : Nat
  usec : Nat
  origLen : Nat
  data : Bytes
  deriving DecidableEq, Repr

/-- The packet records of a file with this limit on the captured length. -/
inductive CapRecords (snap : Nat) : Bytes → List CapRec → Prop
  | nil : CapRecords snap [] []
  | cons {s u c o d rest rs} : s.length = 4 → u.length = 4 → c.length = 4 → o.length = 4 →
      leNat c = d.length → d.length ≤ snap → CapRecords snap rest rs →
      CapRecords snap (s ++ (u ++ (c ++ (o ++ (d ++ rest))))) (⟨leNat s, leNat u, leNat o, d⟩ :: rs)

/-- A capture file of Ethernet frames (link type 1), format version 2.4, no time zone correction. -/
def Capture (b : Bytes) (rs : List CapRec) : Prop :=
  ∃ snap rest : Bytes, snap.length = 4 ∧
    b = [0xd4#8, 0xc3#8, 0xb2#8, 0xa1#8] ++ ([2#8, 0#8, 4#8, 0#8] ++ (List.replicate 8 0#8 ++ (snap ++ ([1#8, 0#8, 0#8, 0#8] ++ rest)))) ∧
    CapRecords (leNat snap) rest rs

end PacketRs.Spec
