import Verif.Utils
/-!
# Spec: tunnels in tunnels

A tower is a list of tunnel-builder calls, outermost first.  Each call wraps the packet the calls after it produce.  The
tunnels are the two builders of `src/utils.rs` that carry an Ethernet frame once: `create_vxlan_packet` and
`create_erspan_2_packet`.
-/
namespace PacketRs.Spec
open PacketRs.Utils

/-- What differs between the two kinds of tunnel. -/
inductive Carrier
  | vxlan (udp_dst udp_src : U16) (udp_checksum : Bool) (vni : U32)
  | erspan2 (seq : U32) (vlan : U16) (cos en t : Byte) (sid : U16) (index : U32)

/-- The arguments of one tunnel-builder call, except the inner packet. -/
structure Tunnel where
  eth_dst : Str
  eth_src : Str
  ve : Bool
  vid : U16
  pcp : Byte
  ihl : Byte
  src : Str
  dst : Str
  tos : Byte
  ttl : Byte
  id : U16
  frag : U16
  opts : Bytes
  carrier : Carrier

/-- The call. -/
def Tunnel.call (chk : Bool) (t : Tunnel) (inner : Packet) : R Packet :=
  match t.carrier with
  | .vxlan ud us ck vni =>
    create_vxlan_packet chk t.eth_dst t.eth_src t.ve t.vid t.pcp t.ihl t.src t.dst t.tos t.ttl t.id t.frag t.opts
      ud us ck vni inner
  | .erspan2 seq vlan cos en tr sid idx =>
    create_erspan_2_packet chk t.eth_dst t.eth_src t.ve t.vid t.pcp t.ihl t.src t.dst t.tos t.ttl t.id t.frag t.opts
      seq vlan cos en tr sid idx (some inner)

/-- All calls, innermost (the last of the list) first. -/
def tower (chk : Bool) : List Tunnel → Packet → R Packet
  | [], p => .ok p
  | t :: ts, p => tower chk ts p >>= t.call chk

/-- Header names the tunnel puts in front. -/
def Tunnel.names (t : Tunnel) : List String :=
  (if t.ve then ["Ether", "Vlan", "IPv4"] else ["Ether", "IPv4"]) ++
  match t.carrier with
  | .vxlan .. => ["UDP", "Vxlan"]
  | .erspan2 seq .. => if seq = 0#32 then ["GRE", "ERSPAN2"] else ["GRE", "GRESequenceNum", "ERSPAN2"]

/-- Number of bytes the tunnel puts in front: 14 + 20, 4 for a tag, and 16 for UDP + VXLAN or 12 (16 with a sequence number)
for GRE + ERSPAN II. -/
def Tunnel.overhead (t : Tunnel) : Nat :=
  34 + (if t.ve then 4 else 0) +
  match t.carrier with
  | .vxlan .. => 16
  | .erspan2 seq .. => if seq = 0#32 then 12 else 16

/-- The receiver recognises the tunnel: a VXLAN tunnel uses the registered port. -/
def Tunnel.Known (t : Tunnel) : Prop :=
  match t.carrier with
  | .vxlan ud .. => ud = 4789#16
  | .erspan2 .. => True

end PacketRs.Spec
