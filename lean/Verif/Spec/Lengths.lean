import Verif.Spec.Dissect
/-!
# Specification: what the length fields of a header say about the octets behind it

From the protocol layouts: the octets of a frame `b` that the header beginning at octet `n` declares to be its contents.
-/
namespace PacketRs.Spec

/-- The header length an IPv4 header declares, in octets. -/
def ihl (b : Bytes) (n : Nat) : Nat := 4 * (u8At b n % 16)

/-- RFC 791: the datagram is `total_len` octets, of which the first `ihl` words are the header with its options. -/
def ipv4Data (b : Bytes) (n : Nat) : Bytes := (b.take (n + u16At b (n + 2))).drop (n + ihl b n)

/-- RFC 791: the fragment offset, the low 13 bits of octets 6 and 7. Only at offset 0 do the contents begin with a header. -/
def fragOffset (b : Bytes) (n : Nat) : Nat := u16At b (n + 6) % 8192

/-- RFC 8200: the payload is `payload_len` octets behind the 40 of the header. -/
def ipv6Data (b : Bytes) (n : Nat) : Bytes := (b.take (n + 40 + u16At b (n + 4))).drop (n + 40)

/-- RFC 768: the datagram is `length` octets, of which 8 are the header. -/
def udpData (b : Bytes) (n : Nat) : Bytes := (b.take (n + u16At b (n + 4))).drop (n + 8)

/-- RFC 9293: the data begin `data_offset` words behind the beginning of the header. -/
def tcpData (b : Bytes) (n : Nat) : Bytes := b.drop (n + 4 * (u8At b (n + 12) / 16))

/-- IEEE 802.3: `length` octets of data follow the header, the rest is padding. -/
def dot3Data (b : Bytes) : Bytes := (b.take (14 + u16At b 12)).drop 14

end PacketRs.Spec
