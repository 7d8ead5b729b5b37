import Verif.Spec.Forward
/-!
# Specification: the number of routers a frame may still pass
-/
namespace PacketRs.Spec

/-- Time to live of an IPv4 datagram, hop limit of an IPv6 one. -/
def hopsLeft (f : Bytes) : Nat := u8At f (l3At f + if u16At f (l3At f - 2) = 0x86DD then 7 else 8)

/-- The IPv4 header of the frame with another time to live. -/
def ttlHdr (f : Bytes) (t : Nat) : Bytes := putAt (ip4Hdr f) 8 [BitVec.ofNat 8 t]

/-- Nothing fails on the way: there are hops left for all routers, and where a router sums the IPv4 header up with the crate
(`own`), the sum of the header it sends is folded right. -/
def Passes (f : Bytes) (own : List Bool) : Prop :=
  (own ≠ [] → own.length < hopsLeft f) ∧
    ∀ k, own[k]? = some true → u16At f (l3At f - 2) = 0x0800 → RefreshRight (ttlHdr f (hopsLeft f - (k + 1))) (ip4Opts f)

/-- `f'` is the frame `f` further on its way, with `t` hops left: but for link addresses, hops left and the checksum of an IPv4 header
all octets are the same. -/
structure Onward (f f' : Bytes) (t : Nat) : Prop where
  length : f'.length = f.length
  same : ∀ i, 12 ≤ i → i ≠ l3At f + (if u16At f (l3At f - 2) = 0x86DD then 7 else 8) →
    (u16At f (l3At f - 2) = 0x86DD ∨ (i ≠ l3At f + 10 ∧ i ≠ l3At f + 11)) → u8At f' i = u8At f i
  hops : hopsLeft f' = t

end PacketRs.Spec
