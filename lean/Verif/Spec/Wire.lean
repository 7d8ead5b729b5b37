import Verif.Rust
/-!
# Spec: headers as strings of bits

The formats of the protocol headers as their standards draw them: fields one after the other, most significant bit first,
given by their widths only.  Where a field begins follows from the widths before it.
-/
namespace PacketRs.Spec

/-- The bits of a byte string in the order in which they are drawn. -/
def bits : Bytes → List Bool
  | [] => []
  | b :: bs => b.getMsbD 0 :: b.getMsbD 1 :: b.getMsbD 2 :: b.getMsbD 3 :: b.getMsbD 4 :: b.getMsbD 5 :: b.getMsbD 6 ::
      b.getMsbD 7 :: bits bs

/-- The number a string of bits denotes. -/
def number (l : List Bool) : Nat := l.foldl (fun n b => 2 * n + (if b then 1 else 0)) 0

/-- The last `w` binary digits of `v`. -/
def binary : Nat → Nat → List Bool
  | 0, _ => []
  | w + 1, v => decide (v / 2 ^ w % 2 = 1) :: binary w v

/-- Cut a string of bits into consecutive pieces of these widths. -/
def pieces : List Nat → List Bool → List (List Bool)
  | [], _ => []
  | w :: ws, l => l.take w :: pieces ws (l.drop w)

/-- Name of the header and, in order, names and widths of its fields. -/
def formats : List (String × List (String × Nat)) :=
  [ -- IEEE 802.3, type interpretation
    ("Ether", [("dst", 48), ("src", 48), ("etype", 16)]),
    -- IEEE 802.2
    ("LLC", [("dsap", 8), ("ssap", 8), ("ctrl", 8)]),
    -- RFC 1042
    ("SNAP", [("oui", 24), ("code", 16)]),
    -- IEEE 802.3, length interpretation
    ("Dot3", [("dst", 48), ("src", 48), ("length", 16)]),
    -- IEEE 802.1Q tag control information and the type after it
    ("Vlan", [("pcp", 3), ("cfi", 1), ("vid", 12), ("etype", 16)]),
    -- RFC 826 for Ethernet and IPv4
    ("ARP", [("hwtype", 16), ("proto_type", 16), ("hwlen", 8), ("proto_len", 8), ("opcode", 16), ("sender_hw_addr", 48),
      ("sender_proto_addr", 32), ("target_hw_addr", 48), ("target_proto_addr", 32)]),
    -- RFC 791
    ("IPv4", [("version", 4), ("ihl", 4), ("diffserv", 8), ("total_len", 16), ("identification", 16), ("flags", 3),
      ("frag_startset", 13), ("ttl", 8), ("protocol", 8), ("header_checksum", 16), ("src", 32), ("dst", 32)]),
    -- RFC 8200
    ("IPv6", [("version", 4), ("traffic_class", 8), ("flow_label", 20), ("payload_len", 16), ("next_hdr", 8), ("hop_limit", 8),
      ("src", 128), ("dst", 128)]),
    -- RFC 792, the part common to all messages
    ("ICMP", [("icmp_type", 8), ("icmp_code", 8), ("chksum", 16)]),
    -- RFC 768
    ("UDP", [("src", 16), ("dst", 16), ("length", 16), ("checksum", 16)]),
    -- RFC 9293
    ("TCP", [("src", 16), ("dst", 16), ("seq_no", 32), ("ack_no", 32), ("data_startset", 4), ("res", 4), ("flags", 8),
      ("window", 16), ("checksum", 16), ("urgent_ptr", 16)]),
    -- RFC 7348
    ("Vxlan", [("flags", 8), ("reserved", 24), ("vni", 24), ("reserved2", 8)]),
    -- RFC 1701
    ("GRE", [("chksum_present", 1), ("routing_present", 1), ("key_present", 1), ("seqnum_present", 1), ("strict_route_src", 1),
      ("recurse", 3), ("flags", 5), ("version", 3), ("proto", 16)]),
    ("GREChksumOffset", [("chksum", 16), ("offset", 16)]),
    ("GREKey", [("key", 32)]),
    ("GRESequenceNum", [("seqnum", 32)]),
    -- draft-foschiano-erspan
    ("ERSPAN2", [("version", 4), ("vlan", 12), ("cos", 3), ("en", 2), ("t", 1), ("session_id", 10), ("reserved", 12),
      ("index", 20)]),
    ("ERSPAN3", [("version", 4), ("vlan", 12), ("cos", 3), ("bos", 2), ("t", 1), ("session_id", 10), ("timestamp", 32),
      ("sgt", 16), ("p", 1), ("ft", 5), ("hw_id", 6), ("d", 1), ("gra", 2), ("o", 1)]),
    ("ERSPANPLATFORM", [("id", 6), ("info", 58)]),
    -- IEEE 802.1D, configuration BPDU; bridge identifiers as priority and address
    ("STP", [("proto", 16), ("version", 8), ("bpdu_type", 8), ("flags", 8), ("root_id", 16), ("root_mac", 48),
      ("root_path_cost", 32), ("bridge_id", 16), ("bridge_mac", 48), ("port_id", 16), ("message_age", 16), ("max_age", 16),
      ("hello_time", 16), ("fwd_delay", 16)]),
    -- RFC 3032
    ("MPLS", [("label", 20), ("exp", 3), ("bos", 1), ("ttl", 8)])]

-- sanity checks of the vocabulary
example : bits [0x12#8] = [false, false, false, true, false, false, true, false] := by decide
example : number [true, false, true] = 5 ∧ binary 3 5 = [true, false, true] ∧ binary 3 13 = [true, false, true] := by decide
example : pieces [1, 2] [true, false, true] = [[true], [false, true]] := by decide

end PacketRs.Spec
