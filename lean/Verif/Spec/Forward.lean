import Verif.Spec.Seen
/-!
# Specification: a datagram with some octets of its header replaced
-/
namespace PacketRs.Spec

/-- Octets from place `a` on replaced. -/
def putAt (b : Bytes) (a : Nat) (w : Bytes) : Bytes := b.take a ++ (w ++ b.drop (a + w.length))

/-- The IPv4 header of a frame, without options. -/
def ip4Hdr (f : Bytes) : Bytes := (f.drop (l3At f)).take 20

/-- The sum of the header's words (without the checksum) carries no more once it is folded. -/
def FoldsOnce (d : Bytes) : Prop := plainSum d / 65536 + plainSum d % 65536 < 65536

instance (d : Bytes) : Decidable (FoldsOnce d) := inferInstanceAs (Decidable (_ < _))

/-- The options of the IPv4 header of a frame. -/
def ip4Opts (f : Bytes) : Bytes := (f.drop (l3At f + 20)).take (ihl f (l3At f) - 20)

/-- Header without options and options for which a checksum is right that is made of the first by folding once. -/
def RefreshRight (d o : Bytes) : Prop := (words o).sum % 65535 = if FoldsOnce d then 0 else 65534

instance (d o : Bytes) : Decidable (RefreshRight d o) := inferInstanceAs (Decidable (_ = _))

/-- Addresses that count the same in a checksum. -/
def SameSum (a b : Bytes) : Prop := (words a).sum % 65535 = (words b).sum % 65535

instance (a b : Bytes) : Decidable (SameSum a b) := inferInstanceAs (Decidable (_ = _))

end PacketRs.Spec
