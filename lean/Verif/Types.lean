import Verif.Rust
/-!
# Protocol numbers: /repo/src/types.rs
-/
namespace PacketRs

/-- /repo/src/types.rs:3 -/
def MAC_LEN : Nat := 6
/-- /repo/src/types.rs:4 -/
def IPV4_LEN : Nat := 4
/-- /repo/src/types.rs:5 -/
def IPV6_LEN : Nat := 16
/-- /repo/src/types.rs:7 -/
def UDP_PORT_VXLAN : U16 := 4789#16

/-- /repo/src/types.rs:9-12 -/
inductive IpType where
  | V4 | V6
  deriving DecidableEq, Repr

/-- `IpType::X as u8`: /repo/src/types.rs:9-12 -/
def IpType.toU8 : IpType → Byte
  | .V4 => 4
  | .V6 => 6

/-- `TryFrom<u8> for IpType`: /repo/src/types.rs:13-23; `Err(_)` is `none`. -/
def IpType.try_from (v : Byte) : Option IpType :=
  if v = IpType.V4.toU8 then some .V4
  else if v = IpType.V6.toU8 then some .V6
  else none

/-- /repo/src/types.rs:25-33 -/
inductive IpProtocol where
  | ICMP | IPIP | TCP | UDP | IPV6 | GRE | ICMPV6
  deriving DecidableEq, Repr

/-- `IpProtocol::X as u8`: /repo/src/types.rs:25-33 -/
def IpProtocol.toU8 : IpProtocol → Byte
  | .ICMP => 1
  | .IPIP => 4
  | .TCP => 6
  | .UDP => 17
  | .IPV6 => 41
  | .GRE => 47
  | .ICMPV6 => 58

/-- `TryFrom<u8> for IpProtocol`: /repo/src/types.rs:34-49 -/
def IpProtocol.try_from (v : Byte) : Option IpProtocol :=
  if v = IpProtocol.ICMP.toU8 then some .ICMP
  else if v = IpProtocol.IPIP.toU8 then some .IPIP
  else if v = IpProtocol.TCP.toU8 then some .TCP
  else if v = IpProtocol.UDP.toU8 then some .UDP
  else if v = IpProtocol.IPV6.toU8 then some .IPV6
  else if v = IpProtocol.GRE.toU8 then some .GRE
  else if v = IpProtocol.ICMPV6.toU8 then some .ICMPV6
  else none

/-- /repo/src/types.rs:51-59 -/
inductive EtherType where
  | IPV4 | ARP | DOT1Q | IPV6 | MPLS | ERSPANII | ERSPANIII
  deriving DecidableEq, Repr

/-- `EtherType::X as u16`: /repo/src/types.rs:51-59 -/
def EtherType.toU16 : EtherType → U16
  | .IPV4 => 0x0800
  | .ARP => 0x0806
  | .DOT1Q => 0x8100
  | .IPV6 => 0x86DD
  | .MPLS => 0x8847
  | .ERSPANII => 0x88be
  | .ERSPANIII => 0x22eb

/-- `TryFrom<u16> for EtherType`: /repo/src/types.rs:60-75 -/
def EtherType.try_from (v : U16) : Option EtherType :=
  if v = EtherType.IPV4.toU16 then some .IPV4
  else if v = EtherType.ARP.toU16 then some .ARP
  else if v = EtherType.DOT1Q.toU16 then some .DOT1Q
  else if v = EtherType.IPV6.toU16 then some .IPV6
  else if v = EtherType.MPLS.toU16 then some .MPLS
  else if v = EtherType.ERSPANII.toU16 then some .ERSPANII
  else if v = EtherType.ERSPANIII.toU16 then some .ERSPANIII
  else none

/-- /repo/src/types.rs:77-80 -/
inductive ErspanVersion where
  | II | III
  deriving DecidableEq, Repr

/-- `ErspanVersion::X as u16`: /repo/src/types.rs:77-80 -/
def ErspanVersion.toU16 : ErspanVersion → U16
  | .II => 1
  | .III => 2

/-- `TryFrom<u16> for ErspanVersion`: /repo/src/types.rs:81-91 (not used by the crate). -/
def ErspanVersion.try_from (v : U16) : Option ErspanVersion :=
  if v = ErspanVersion.II.toU16 then some .II
  else if v = ErspanVersion.III.toU16 then some .III
  else none

end PacketRs
