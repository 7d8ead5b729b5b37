import Verif.Spec.Host
import Verif.Spec.Read
import Verif.Packet
/-!
# Specification: a parsed packet that shows a message

The headers of the link, one IP header, one transport header, read through their getters, and the payload.
-/
namespace PacketRs.Spec

/-- Ethernet and VLAN headers. -/
def LinkOnly (hs : List Hdr) : Prop := ∀ h ∈ hs, h.ty = Ether ∨ h.ty = Vlan

/-- An IP header with these addresses. -/
def ShowsIp (ip : Hdr) (src dst : Bytes) : Prop :=
  (ip.ty = IPv4 ∧ ip.ReadsBytes IPv4.src src ∧ ip.ReadsBytes IPv4.dst dst) ∨
    (ip.ty = IPv6 ∧ ip.ReadsBytes IPv6.src src ∧ ip.ReadsBytes IPv6.dst dst)

/-- The packet shows the UDP message. -/
def ShowsUdp (p : Packet) (m : UdpMsg) : Prop :=
  ∃ front ip udp, p.hdrs = front ++ [ip, udp] ∧ LinkOnly front ∧ ShowsIp ip m.src m.dst ∧ udp.ty = UDP ∧
    udp.Reads UDP.src m.sport ∧ udp.Reads UDP.dst m.dport ∧ p.payload = m.data

/-- The packet shows the TCP segment. -/
def ShowsTcp (p : Packet) (m : TcpSeg) : Prop :=
  ∃ front ip tcp, p.hdrs = front ++ [ip, tcp] ∧ LinkOnly front ∧ ShowsIp ip m.src m.dst ∧ tcp.ty = TCP ∧
    tcp.Reads TCP.src m.sport ∧ tcp.Reads TCP.dst m.dport ∧ tcp.Reads TCP.seq_no m.seq ∧ tcp.Reads TCP.ack_no m.ack ∧
    tcp.Reads TCP.flags m.flags ∧ tcp.Reads TCP.window m.window ∧ tcp.Reads TCP.urgent_ptr m.urg ∧ p.payload = m.data

/-- The packet shows the ICMP message. -/
def ShowsIcmp (p : Packet) (m : IcmpMsg) : Prop :=
  ∃ front ip icmp, p.hdrs = front ++ [ip, icmp] ∧ LinkOnly front ∧ ShowsIp ip m.src m.dst ∧ icmp.ty = ICMP ∧
    icmp.Reads ICMP.icmp_type m.type ∧ icmp.Reads ICMP.icmp_code m.code ∧ p.payload = m.data

/-- Where the IP header begins, and how long it is without options. -/
def l3At (f : Bytes) : Nat := if u16At f 12 = 0x8100 then 18 else 14
@[inherit_doc l3At] def ipLen (f : Bytes) : Nat := if u16At f (l3At f - 2) = 0x0800 then 20 else 40

/-- There are no IPv4 options. -/
def NoOptions (f : Bytes) : Prop := u16At f (l3At f - 2) = 0x0800 → ihl f (l3At f) = 20

end PacketRs.Spec
