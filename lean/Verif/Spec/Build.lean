import Verif.Spec.Read
import Verif.Spec.Checksum
import Verif.Spec.Dissect
/-!
# Specification: lengths and checksums of a header stack
-/
namespace PacketRs.Spec

/-- The bytes of a header stack and its payload on the wire. -/
def onWire (hs : List Hdr) (pl : Bytes) : Bytes := (hs.map (·.data)).flatten ++ pl

/-- `h` is the first header of type `T` in `hs`, after `pre` and before `post`. -/
def FirstOf (T : HeaderDef) (hs pre : List Hdr) (h : Hdr) (post : List Hdr) : Prop :=
  hs = pre ++ h :: post ∧ h.ty = T ∧ ∀ x ∈ pre, x.ty ≠ T

/-- The total length in the outermost IPv4 header is the number of bytes from that header to the end of
the packet, modulo 2^16. -/
def TotalLenOk (hs : List Hdr) (pl : Bytes) : Prop :=
  ∃ pre ip post, FirstOf IPv4 hs pre ip post ∧
    ip.Reads IPv4.total_len ((onWire (ip :: post) pl).length % 65536)

/-- The payload length in the outermost IPv6 header is the number of bytes after that header, modulo
2^16. -/
def PayloadLenOk (hs : List Hdr) (pl : Bytes) : Prop :=
  ∃ pre ip post, FirstOf IPv6 hs pre ip post ∧
    ip.Reads IPv6.payload_len ((onWire post pl).length % 65536)

/-- The length in the first UDP header is the number of bytes from that header on, modulo 2^16. -/
def UdpLenOk (hs : List Hdr) (pl : Bytes) : Prop :=
  ∃ pre udp post, FirstOf UDP hs pre udp post ∧
    udp.Reads UDP.length ((onWire (udp :: post) pl).length % 65536)

/-- The outermost IPv4 header verifies (RFC 1071). -/
def ChecksumVerifies (hs : List Hdr) : Prop :=
  ∃ pre ip post, FirstOf IPv4 hs pre ip post ∧ Verifies ip.data

/-- The outermost IPv4 header's total length reads `n`. -/
def TotalLenIs (hs : List Hdr) (n : Nat) : Prop :=
  ∃ pre ip post, FirstOf IPv4 hs pre ip post ∧ ip.Reads IPv4.total_len n

/-- The number of bytes from the outermost IPv4 header to the end of the packet is `n`. -/
def BytesFromIpv4 (hs : List Hdr) (pl : Bytes) (n : Nat) : Prop :=
  ∃ pre ip post, FirstOf IPv4 hs pre ip post ∧ (onWire (ip :: post) pl).length = n

/-- The outermost IPv6 header's payload length reads `n`. -/
def PayloadLenIs (hs : List Hdr) (n : Nat) : Prop :=
  ∃ pre ip post, FirstOf IPv6 hs pre ip post ∧ ip.Reads IPv6.payload_len n

/-- The number of bytes after the outermost IPv6 header is `n`. -/
def BytesAfterIpv6 (hs : List Hdr) (pl : Bytes) (n : Nat) : Prop :=
  ∃ pre ip post, FirstOf IPv6 hs pre ip post ∧ (onWire post pl).length = n

/-- The checksum stored in the outermost IPv4 header is `f` of the bytes of that header. -/
def ChecksumIs (f : Bytes → R U16) (hs : List Hdr) : Prop :=
  ∃ pre ip post, FirstOf IPv4 hs pre ip post ∧ ∃ c, f ip.data = .ok c ∧ ip.Reads IPv4.header_checksum c.toNat

/-- The first header of a type is unique. -/
theorem FirstOf.unique {T : HeaderDef} {hs pre pre' post post' : List Hdr} {h h' : Hdr}
    (a : FirstOf T hs pre h post) (b : FirstOf T hs pre' h' post') : pre = pre' ∧ h = h' ∧ post = post' := by
  obtain ⟨e, ht, hp⟩ := a
  obtain ⟨e', ht', hp'⟩ := b
  subst e
  induction pre generalizing pre' with
  | nil =>
    cases pre' with
    | nil => simp at e'; exact ⟨rfl, e'.1, e'.2⟩
    | cons x xs =>
      simp only [List.nil_append, List.cons_append, List.cons.injEq] at e'
      exact absurd (e'.1 ▸ ht) (hp' x (by simp))
  | cons y ys ih =>
    cases pre' with
    | nil =>
      simp only [List.nil_append, List.cons_append, List.cons.injEq] at e'
      exact absurd (e'.1 ▸ ht') (hp y (by simp))
    | cons x xs =>
      simp only [List.cons_append, List.cons.injEq] at e'
      obtain ⟨h1, h2, h3⟩ := ih (fun z hz => hp z (by simp [hz])) (fun z hz => hp' z (by simp [hz])) e'.2
      exact ⟨by rw [e'.1, h1], h2, h3⟩

/-- The protocol type `create_gre_packet` writes for an inner packet, by its version nibble. -/
def greProto (b : Bytes) : U16 :=
  if u8At b 0 / 16 = 4 then 0x0800#16 else if u8At b 0 / 16 = 6 then 0x86DD#16 else 0#16

/-- The protocol number of an IP-in-IP packet, by the version nibble of the inner packet. -/
def ipipProto (b : Bytes) : Byte := if u8At b 0 / 16 = 6 then 41#8 else 4#8

end PacketRs.Spec
