import Verif.Dyn
/-!
# Spec of C78: which headers a packet can hold
-/
namespace PacketRs.Spec
open Fast (SHdr Win)

/-- A packet all of whose headers are owned. -/
def ofOwned (q : Packet) : DPacket := { hdrs := q.hdrs.map Dyn.owned, payload := q.payload }

/-- The header with the type and the octets of this one, owned. -/
def owning : Dyn → Hdr
  | .owned h => h
  | .slice s => ⟨s.ty, s.win.bytes⟩

/-- The packet with every slice header replaced by an owned one of the same type that holds the same octets. -/
def allOwned (p : DPacket) : Packet := { hdrs := p.hdrs.map owning, payload := p.payload }

/-- The header is a slice header. -/
def IsSlice (d : Dyn) : Prop := ∃ s, d = .slice s

/-- The first header with this name, if any, is `d`. -/
inductive FirstNamed (name : String) (d : Dyn) : List Dyn → Prop where
  | here {ds : List Dyn} : d.name = name → FirstNamed name d (d :: ds)
  | later {g : Dyn} {ds : List Dyn} : g.name ≠ name → FirstNamed name d ds → FirstNamed name d (g :: ds)

/-- The packets a program can have: `Built A p` if `p` comes about by successful calls, in which the slice headers `A` have
been assigned to headers of `p` or of packets that went into it. -/
inductive Built : List SHdr → DPacket → Prop where
  | new : Built [] .new
  /-- returned by the parser or a builder, whose headers are owned -/
  | made (q : Packet) : Built [] (ofOwned q)
  | push {A : List SHdr} {p p' : DPacket} (d : Dyn) : Built A p → p.push d = .ok p' → Built A p'
  | insert {A : List SHdr} {p p' : DPacket} (d : Dyn) : Built A p → p.insert d = .ok p' → Built A p'
  | pop {A : List SHdr} {p : DPacket} : Built A p → Built A p.pop
  | remove {A : List SHdr} {p : DPacket} (i : Nat) : Built A p → Built A (p.remove i)
  | setPayload {A : List SHdr} {p : DPacket} (b : Bytes) : Built A p → Built A (p.set_payload b)
  | assignOwned {A : List SHdr} {p p' : DPacket} (name : String) (h : Hdr) :
      Built A p → p.assign name (.owned h) = .ok p' → Built A p'
  | assignSlice {A : List SHdr} {p p' : DPacket} (name : String) (s : SHdr) :
      Built A p → p.assign name (.slice s) = .ok p' → Built (s :: A) p'
  | clone {A : List SHdr} {p p' : DPacket} : Built A p → p.clone_me = .ok p' → Built A p'
  | add {A B : List SHdr} {p q r : DPacket} : Built A p → Built B q → p.add q = .ok r → Built (A ++ B) r

end PacketRs.Spec
