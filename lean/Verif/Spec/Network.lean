import Verif.Spec.Endpoint
/-!
# Specification: a host that takes a frame out of the tunnels it came through

From the standards, on octets, like `Verif.Spec.Host` and `Verif.Spec.Endpoint`.  The host is not told which tunnels there are: it goes by
protocol numbers, protocol types and ports.
-/
namespace PacketRs.Spec

/-- What octets are. -/
inductive Level
  | frame
  | ip4
  | ip6
  deriving DecidableEq, Repr

/-- The datagram in them. -/
def enter : Level → Bytes → Option Datagram
  | .frame, b => ipInput b
  | .ip4, b => ip4Input b
  | .ip6, b => ip6Input b

/-- RFC 7348: the port is 4789 and the flag I is set; the other flags are ignored. -/
def vxlanInput (m : UdpMsg) : Option Bytes :=
  if m.dport = 4789 ∧ 8 ≤ m.data.length ∧ u8At m.data 0 / 8 % 2 = 1 then some (m.data.drop 8) else none

/-- What the tunnel a datagram belongs to carries: IP in IP, GRE with an IP datagram, ERSPAN II and III, VXLAN. -/
def decap (g : Datagram) : Option (Level × Bytes) :=
  if g.proto = 4 then some (.ip4, g.data)
  else if g.proto = 41 then some (.ip6, g.data)
  else if g.proto = 47 then
    (greInput g).bind fun m =>
      if m.proto = 0x0800 then some (.ip4, m.data)
      else if m.proto = 0x86DD then some (.ip6, m.data)
      else if m.proto = 0x88BE then (erspan2Input m).map fun x => (.frame, x.frame)
      else (erspan3Input m).map fun x => (.frame, x.frame)
  else ((udpInput g).bind vxlanInput).map fun b => (.frame, b)

/-- What is left after `n` tunnels. -/
def peel : Nat → Level × Bytes → Option (Level × Bytes)
  | 0, x => some x
  | n + 1, x => (enter x.1 x.2).bind fun g => (decap g).bind (peel n)

/-- The datagram in what is left. -/
def received (n : Nat) (f : Bytes) : Option Datagram := (peel n (.frame, f)).bind fun x => enter x.1 x.2

end PacketRs.Spec
