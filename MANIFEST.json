{
 "claims": [
  {
   "property": "C01",
   "status": "proved",
   "theorems": [
    "PacketRs.C01_getter_value",
    "PacketRs.C01_getter_bits",
    "PacketRs.C01_predefined"
   ],
   "note": "(Props/Fields)"
  },
  {
   "property": "C02",
   "status": "proved",
   "theorems": [
    "PacketRs.C02_set_get"
   ],
   "note": "(Props/Fields)"
  },
  {
   "property": "C03",
   "status": "proved",
   "theorems": [
    "PacketRs.C03_set_frame",
    "PacketRs.C03_other_fields"
   ],
   "note": "(Props/Fields)"
  },
  {
   "property": "C04",
   "status": "proved",
   "theorems": [
    "PacketRs.C04_set_read_value",
    "PacketRs.C04_last_write_wins",
    "PacketRs.C04_disjoint_commute"
   ],
   "note": "(Props/Fields)"
  },
  {
   "property": "C05",
   "status": "proved",
   "theorems": [
    "PacketRs.C05_fields_tile",
    "PacketRs.C05_fields_determine"
   ],
   "note": "The tiling itself is a complete enumeration of the 21 header tables; the consequence for buffers is proved for any tiling layout. (Props/Fields)"
  },
  {
   "property": "C06",
   "status": "proved",
   "theorems": [
    "PacketRs.C06_bytes_value",
    "PacketRs.C06_bytes_aligned",
    "PacketRs.C06_set_bytes",
    "PacketRs.C06_assert"
   ],
   "note": "(Props/Fields)"
  },
  {
   "property": "C07",
   "status": "proved",
   "theorems": [
    "PacketRs.C07_wide_getter_checked",
    "PacketRs.C07_wide_getter_unchecked",
    "PacketRs.C07_wide_setter"
   ],
   "note": "Exact: above 64 bits a getter panics with overflow checks and returns without them the value modulo 2^k, k being 64 for a width that is a multiple of 64 and the width modulo 64 otherwise. (Props/Fields)"
  },
  {
   "property": "C08",
   "status": "proved",
   "theorems": [
    "PacketRs.C08_getter_panics_iff",
    "PacketRs.C08_setter_panics_iff",
    "PacketRs.C08_failed_set_keeps_bytes",
    "PacketRs.C08_set_bytes_writes_prefix"
   ],
   "note": "Exact (iff) for getters and setters; a failed set_bytes leaves exactly a prefix written, also proved. (Props/Fields, Props/Heap)"
  },
  {
   "property": "C09",
   "status": "proved",
   "theorems": [
    "PacketRs.C09_slice_header_agrees"
   ],
   "note": "(Props/Fields)"
  },
  {
   "property": "C10",
   "status": "proved",
   "theorems": [
    "PacketRs.C10_to_vec",
    "PacketRs.C10_from_vec"
   ],
   "note": "(Props/Container)"
  },
  {
   "property": "C11",
   "status": "proved",
   "theorems": [
    "PacketRs.C11_history",
    "PacketRs.C11_no_ops"
   ],
   "note": "(Props/Container)"
  },
  {
   "property": "C12",
   "status": "proved",
   "theorems": [
    "PacketRs.C12_len",
    "PacketRs.C12_len_eq_iff",
    "PacketRs.C12_icmp_new"
   ],
   "note": "False for packets holding ICMP::new(); C12_len_eq_iff is the exact boundary. (Props/Container)"
  },
  {
   "property": "C13",
   "status": "proved",
   "theorems": [
    "PacketRs.C13_compare_with_slice",
    "PacketRs.C13_compare_with_slice_wf",
    "PacketRs.C13_compare_equivalence",
    "PacketRs.C13_icmp_new_differs_from_itself"
   ],
   "note": "Exact meaning for every packet; equality of serializations for headers of declared size; ICMP::new() is the counterexample without. (Props/Container)"
  },
  {
   "property": "C14",
   "status": "proved",
   "theorems": [
    "PacketRs.C14_get_header",
    "PacketRs.C14_index",
    "PacketRs.C14_assign"
   ],
   "note": "(Props/Container)"
  },
  {
   "property": "C15",
   "status": "proved",
   "theorems": [
    "PacketRs.C15_index_mut_set",
    "PacketRs.C15_get_header_mut_set",
    "PacketRs.C15_downcast"
   ],
   "note": "(Props/Container)"
  },
  {
   "property": "C16",
   "status": "proved",
   "theorems": [
    "PacketRs.C16_set_payload_appends",
    "PacketRs.C16_set_payload_sets_iff",
    "PacketRs.C16_set_payload_history"
   ],
   "note": "set_payload appends; C16 also states exactly when it nevertheless sets. (Props/Container)"
  },
  {
   "property": "C17",
   "status": "proved",
   "theorems": [
    "PacketRs.C17_add",
    "PacketRs.C17_add_assoc",
    "PacketRs.C17_add_drops_right_payload"
   ],
   "note": "The code drops the right payload; the theorems say so. (Props/Container)"
  },
  {
   "property": "C18",
   "status": "proved",
   "theorems": [
    "PacketRs.C18_clone_serializes",
    "PacketRs.C18_alias_write",
    "PacketRs.C18_write_visible",
    "PacketRs.C18_shape_independent"
   ],
   "note": "Clones are shallow; over all histories. (Props/Heap)"
  },
  {
   "property": "C19",
   "status": "proved",
   "theorems": [
    "PacketRs.C19_alias_iff",
    "PacketRs.C19_isolated",
    "PacketRs.C19_fresh"
   ],
   "note": "Independent spec: handles are tagged with the constructor call they descend from. (Props/Heap)"
  },
  {
   "property": "C20",
   "status": "proved",
   "theorems": [
    "PacketRs.C20_slow_terminates",
    "PacketRs.C20_slow_parse_terminates",
    "PacketRs.C20_fast_terminates",
    "PacketRs.C20_fast_parse_terminates"
   ],
   "note": "Termination is the totality of the Lean definitions (well-founded recursion on the remaining length), together with the bound on the number of headers. (Props/Parser)"
  },
  {
   "property": "C21",
   "status": "proved",
   "theorems": [
    "PacketRs.C21_parse_iff_dissect",
    "PacketRs.C21_parse_frame",
    "PacketRs.C21_unique"
   ],
   "note": "(Props/Parser)"
  },
  {
   "property": "C22",
   "status": "proved",
   "theorems": [
    "PacketRs.C22_panic_iff",
    "PacketRs.C22_panic_iff_frame",
    "PacketRs.C22_only_truncation"
   ],
   "note": "(Props/Parser)"
  },
  {
   "property": "C23",
   "status": "proved",
   "theorems": [
    "PacketRs.C23_roundtrip",
    "PacketRs.C23_roundtrip_frame",
    "PacketRs.C23_gre_options_reversed",
    "PacketRs.C23_gre_options_witness"
   ],
   "note": "Parse then serialize is not the identity with two or more GRE options; the exact permutation is given. (Props/Parser)"
  },
  {
   "property": "C24",
   "status": "proved",
   "theorems": [
    "PacketRs.C24_accounts",
    "PacketRs.C24_accounts_frame"
   ],
   "note": "(Props/Parser)"
  },
  {
   "property": "C25",
   "status": "proved",
   "theorems": [
    "PacketRs.C25_trailing",
    "PacketRs.C25_trailing_frame"
   ],
   "note": "(Props/Parser)"
  },
  {
   "property": "C26",
   "status": "proved",
   "theorems": [
    "PacketRs.C26_fast_eq_slow",
    "PacketRs.C26_parse",
    "PacketRs.C26_observations",
    "PacketRs.C26_observations_frame"
   ],
   "note": "(Props/Parser)"
  },
  {
   "property": "C27",
   "status": "proved",
   "theorems": [
    "PacketRs.C27_tiles",
    "PacketRs.C27_in_bounds",
    "PacketRs.C27_from_unsound",
    "PacketRs.C27_from_sound",
    "PacketRs.C27_frame"
   ],
   "note": "Offsets of all slices are inside the frame and tile it; unchecked from on short slices is out of bounds (negative theorem). (Props/Parser)"
  },
  {
   "property": "C28",
   "status": "proved",
   "theorems": [
    "PacketRs.C28_boundary",
    "PacketRs.C28_boundary_fast",
    "PacketRs.C28_first_header"
   ],
   "note": "The boundary in the code is < 1500 (IEEE: 1500 is a length), stated as found. (Props/Parser)"
  },
  {
   "property": "C29",
   "status": "proved",
   "theorems": [
    "PacketRs.C29_mpls_stack",
    "PacketRs.C29_mpls_count"
   ],
   "note": "States what the code does: one label too many is consumed. (Props/Parser)"
  },
  {
   "property": "C30",
   "status": "proved",
   "theorems": [
    "PacketRs.C30_vlan",
    "PacketRs.C30_ipip",
    "PacketRs.C30_ipv6",
    "PacketRs.C30_vlan_frame"
   ],
   "note": "(Props/Parser)"
  },
  {
   "property": "C31",
   "status": "proved",
   "theorems": [
    "PacketRs.C31_mac",
    "PacketRs.C31_every_string",
    "PacketRs.C31_roundtrip",
    "PacketRs.C31_length"
   ],
   "note": "(Props/Text)"
  },
  {
   "property": "C32",
   "status": "proved",
   "theorems": [
    "PacketRs.C32_ipv4",
    "PacketRs.C32_every_string",
    "PacketRs.C32_roundtrip",
    "PacketRs.C32_length"
   ],
   "note": "(Props/Text)"
  },
  {
   "property": "C33",
   "status": "proved",
   "theorems": [
    "PacketRs.C33_ethernet",
    "PacketRs.C33_dot3",
    "PacketRs.C33_arp",
    "PacketRs.C33_udp",
    "PacketRs.C33_icmp",
    "PacketRs.C33_gre_options",
    "PacketRs.C33_panics_iff"
   ],
   "note": "(Props/Constructors)"
  },
  {
   "property": "C34",
   "status": "proved",
   "theorems": [
    "PacketRs.C34_vlan",
    "PacketRs.C34_ipv4",
    "PacketRs.C34_ipv6",
    "PacketRs.C34_tcp",
    "PacketRs.C34_vxlan",
    "PacketRs.C34_gre",
    "PacketRs.C34_erspan2",
    "PacketRs.C34_erspan3"
   ],
   "note": "(Props/Constructors)"
  },
  {
   "property": "C35",
   "status": "proved",
   "theorems": [
    "PacketRs.C35_vlan",
    "PacketRs.C35_ipv4",
    "PacketRs.C35_ipv6",
    "PacketRs.C35_tcp",
    "PacketRs.C35_vxlan",
    "PacketRs.C35_gre",
    "PacketRs.C35_erspan2",
    "PacketRs.C35_erspan3"
   ],
   "note": "States the spill exactly for all arguments. (Props/Constructors)"
  },
  {
   "property": "C36",
   "status": "proved",
   "theorems": [
    "PacketRs.C36_mpls",
    "PacketRs.C36_label_reads_back_iff"
   ],
   "note": "Negative result: every field for all arguments, and exactly when the label reads back. (Props/Constructors)"
  },
  {
   "property": "C37",
   "status": "proved",
   "theorems": [
    "PacketRs.C37_snap",
    "PacketRs.C37_oui_reads_back_iff"
   ],
   "note": "Negative result: the OUI reads back iff its octets are equal. (Props/Constructors)"
  },
  {
   "property": "C38",
   "status": "proved",
   "theorems": [
    "PacketRs.C38_llc",
    "PacketRs.C38_packet_len"
   ],
   "note": "Negative result. (Props/Constructors)"
  },
  {
   "property": "C39",
   "status": "proved",
   "theorems": [
    "PacketRs.C39_value",
    "PacketRs.C39_correct_iff",
    "PacketRs.C39_off_by_one",
    "PacketRs.C39_small_sums"
   ],
   "note": "The property as usually expected (always RFC 1071 correct) is false; the theorem is an iff with witness. (Props/Checksum)"
  },
  {
   "property": "C40",
   "status": "proved",
   "theorems": [
    "PacketRs.C40_ignores_checksum_field",
    "PacketRs.C40_panics_iff"
   ],
   "note": "Exact (iff). (Props/Checksum)"
  },
  {
   "property": "C41",
   "status": "proved",
   "theorems": [
    "PacketRs.C41_eth",
    "PacketRs.C41_arp",
    "PacketRs.C41_ipv4",
    "PacketRs.C41_ipv6",
    "PacketRs.C41_tcp",
    "PacketRs.C41_udp",
    "PacketRs.C41_icmp",
    "PacketRs.C41_tcpv6",
    "PacketRs.C41_udpv6",
    "PacketRs.C41_icmpv6",
    "PacketRs.C41_vxlan",
    "PacketRs.C41_vxlanv6",
    "PacketRs.C41_ipv4ip",
    "PacketRs.C41_ipv6ip",
    "PacketRs.C41_ipip_empty",
    "PacketRs.C41_gre",
    "PacketRs.C41_erspan2",
    "PacketRs.C41_erspan3",
    "PacketRs.C41_eth_returns_iff",
    "PacketRs.C41_arp_returns_iff",
    "PacketRs.C41_ipv4_returns_iff",
    "PacketRs.C41_ipv6_returns_iff",
    "PacketRs.C41_tcp_returns_iff",
    "PacketRs.C41_udp_returns_iff",
    "PacketRs.C41_icmp_returns_iff",
    "PacketRs.C41_vxlan_returns_iff",
    "PacketRs.C41_ipv4ip_returns_iff",
    "PacketRs.C41_gre_returns_iff",
    "PacketRs.C41_erspan2_returns_iff",
    "PacketRs.C41_erspan3_returns_iff",
    "PacketRs.C41_tcpv6_returns_iff",
    "PacketRs.C41_udpv6_returns_iff",
    "PacketRs.C41_icmpv6_returns_iff",
    "PacketRs.C41_vxlanv6_returns_iff",
    "PacketRs.C41_ipv6ip_returns_iff"
   ],
   "note": "(Props/Builders, Props/BuildersShape)"
  },
  {
   "property": "C42",
   "status": "proved",
   "theorems": [
    "PacketRs.C42_ipv4",
    "PacketRs.C42_tcp",
    "PacketRs.C42_udp",
    "PacketRs.C42_icmp",
    "PacketRs.C42_vxlan",
    "PacketRs.C42_ipv4ip",
    "PacketRs.C42_gre",
    "PacketRs.C42_ipv6",
    "PacketRs.C42_ipv6ip",
    "PacketRs.C42_tcpv6",
    "PacketRs.C42_udpv6",
    "PacketRs.C42_icmpv6"
   ],
   "note": "(Props/BuildersLen)"
  },
  {
   "property": "C43",
   "status": "proved",
   "theorems": [
    "PacketRs.C43_ipv4",
    "PacketRs.C43_tcp",
    "PacketRs.C43_udp",
    "PacketRs.C43_icmp",
    "PacketRs.C43_ipv4ip",
    "PacketRs.C43_gre",
    "PacketRs.C43_erspan2",
    "PacketRs.C43_erspan3",
    "PacketRs.C43_vxlan"
   ],
   "note": "For create_vxlan_packet the stored checksum is never right (C43_vxlan). (Props/BuildersSum)"
  },
  {
   "property": "C44",
   "status": "proved",
   "theorems": [
    "PacketRs.C44_arp",
    "PacketRs.C44_tcp",
    "PacketRs.C44_icmp",
    "PacketRs.C44_tcpv6",
    "PacketRs.C44_icmpv6",
    "PacketRs.C44_udp",
    "PacketRs.C44_udpv6"
   ],
   "note": "For arguments whose addresses convert; UDP iff the destination port is not 4789. (Props/BuildersParse)"
  },
  {
   "property": "C45",
   "status": "proved",
   "theorems": [
    "PacketRs.C45_eth",
    "PacketRs.C45_ipv4",
    "PacketRs.C45_ipv6",
    "PacketRs.C45_vxlan",
    "PacketRs.C45_vxlan_other_port",
    "PacketRs.C45_ipv4ip",
    "PacketRs.C45_ipv6ip",
    "PacketRs.C45_gre",
    "PacketRs.C45_gre_one_option",
    "PacketRs.C45_gre_reversed",
    "PacketRs.C45_erspan2"
   ],
   "note": "Exact conditions, including the reordering of GRE options. (Props/BuildersParse)"
  },
  {
   "property": "C46",
   "status": "proved",
   "theorems": [
    "PacketRs.C46_erspan2",
    "PacketRs.C46_erspan2_right_iff",
    "PacketRs.C46_erspan3"
   ],
   "note": "Negative result, exact value of the field for all arguments. (Props/BuildersLen)"
  },
  {
   "property": "C47",
   "status": "proved",
   "theorems": [
    "PacketRs.C47_vxlanv6",
    "PacketRs.C47_erspan3",
    "PacketRs.C47_vxlanv6_parse"
   ],
   "note": "Negative result, exact packet for all arguments. (Props/BuildersLen, Props/BuildersParse)"
  },
  {
   "property": "C48",
   "status": "proved",
   "theorems": [
    "PacketRs.C48_announced",
    "PacketRs.C48_odd_or_zero",
    "PacketRs.C48_even",
    "PacketRs.C48_even_ne"
   ],
   "note": "Negative result (iff odd). (Props/BuildersParse)"
  },
  {
   "property": "C49",
   "status": "proved",
   "theorems": [
    "PacketRs.C49_gre_routing",
    "PacketRs.C49_right_iff",
    "PacketRs.C49_routing_ignored"
   ],
   "note": "Negative result: right iff the routing length is a multiple of 65536. (Props/BuildersLen)"
  },
  {
   "property": "C50",
   "status": "proved",
   "theorems": [
    "PacketRs.C50_no_interference",
    "PacketRs.C50_deterministic",
    "PacketRs.C50_always_ends",
    "PacketRs.C50_race_free_ends",
    "PacketRs.C50_disjoint_setters"
   ],
   "note": "Any number of threads; race-free programs; interleaving semantics, which is exact because all accesses are under a mutex (C70). (Props/Conc)"
  },
  {
   "property": "C51",
   "status": "proved",
   "theorems": [
    "PacketRs.C51_per_bit",
    "PacketRs.C51_exactly",
    "PacketRs.C51_neither"
   ],
   "note": "Exact set of reachable contents. (Props/Conc)"
  },
  {
   "property": "C52",
   "status": "proved",
   "theorems": [
    "PacketRs.C52_no_invented_bits",
    "PacketRs.C52_exactly"
   ],
   "note": "Exact set of returned values. (Props/Conc)"
  },
  {
   "property": "C53",
   "status": "proved",
   "theorems": [
    "PacketRs.C53_panic_poisons",
    "PacketRs.C53_poison_is_permanent",
    "PacketRs.C53_others_unaffected"
   ],
   "note": "For builds that unwind; with panic=abort the process ends. (Props/Heap)"
  },
  {
   "property": "C54",
   "status": "proved",
   "theorems": [
    "PacketRs.C54_cross_replace_deadlock",
    "PacketRs.C54_replace_copies",
    "PacketRs.C54_hangs_iff",
    "PacketRs.C54_source_poisoned"
   ],
   "note": "Includes reachable deadlock for cross replace. (Props/Conc, Props/Heap)"
  },
  {
   "property": "C55",
   "status": "proved",
   "theorems": [
    "PacketRs.C55_header_text",
    "PacketRs.C55_predefined",
    "PacketRs.C55_octets_are_value",
    "PacketRs.C55_octets_garbled",
    "PacketRs.C55_octets_recover",
    "PacketRs.C55_text_determines_fields",
    "PacketRs.C55_panic",
    "PacketRs.C55_slice_same",
    "PacketRs.C55_packet_text",
    "PacketRs.C55_packet_slice_text"
   ],
   "note": "Negative part: exact garbling for widths above 8 that are not multiples of 8, with recovery of the value. (Props/Show)"
  },
  {
   "property": "C56",
   "status": "proved",
   "theorems": [
    "PacketRs.C56_accessors_refine",
    "PacketRs.C56_packets_refine",
    "PacketRs.C56_packets_refine_more",
    "PacketRs.C56_set_in_packet"
   ],
   "note": "Connects the storage model with the value model, so that C10-C17 hold for shared storage, too. (Props/Heap)"
  },
  {
   "property": "C57",
   "status": "proved",
   "theorems": [
    "PacketRs.C57_involution",
    "PacketRs.C57_involution_frame",
    "PacketRs.C57_injective"
   ],
   "note": "(Props/Reparse)"
  },
  {
   "property": "C58",
   "status": "proved",
   "theorems": [
    "PacketRs.C58_survives_iff",
    "PacketRs.C58_survives_iff_frame"
   ],
   "note": "Exact (iff): spec Chain mentions neither bytes nor parser. (Props/Reparse)"
  },
  {
   "property": "C59",
   "status": "proved",
   "theorems": [
    "PacketRs.C59_edit",
    "PacketRs.C59_edit_frame",
    "PacketRs.C59_set_field",
    "PacketRs.C59_seen",
    "PacketRs.C59_seen_frame"
   ],
   "note": "(Props/Reparse)"
  },
  {
   "property": "C60",
   "status": "proved",
   "theorems": [
    "PacketRs.C60_ip_type",
    "PacketRs.C60_ip_protocol",
    "PacketRs.C60_ether_type",
    "PacketRs.C60_erspan_version",
    "PacketRs.C60_roundtrip"
   ],
   "note": "Spec table of assigned numbers; complete in both directions for all values. (Props/Types)"
  },
  {
   "property": "C61",
   "status": "proved",
   "theorems": [
    "PacketRs.C61_mac",
    "PacketRs.C61_ipv4",
    "PacketRs.C61_lines_exist",
    "PacketRs.C61_silent_iff",
    "PacketRs.C61_ipv6",
    "PacketRs.C61_compare",
    "PacketRs.C61_compare_silent_iff"
   ],
   "note": "(Props/Diag)"
  },
  {
   "property": "C62",
   "status": "proved",
   "theorems": [
    "PacketRs.C62_word",
    "PacketRs.C62_octet",
    "PacketRs.C62_order"
   ],
   "note": "(Props/ChecksumErrors)"
  },
  {
   "property": "C63",
   "status": "proved",
   "theorems": [
    "PacketRs.C63_nest",
    "PacketRs.C63_nest_frame",
    "PacketRs.C63_payload_opaque"
   ],
   "note": "(Props/Nest)"
  },
  {
   "property": "C64",
   "status": "proved",
   "theorems": [
    "PacketRs.C64_to_vec",
    "PacketRs.C64_one_header",
    "PacketRs.C64_two_headers",
    "PacketRs.C64_two_headers_backwards"
   ],
   "note": "Exact set of returned strings. (Props/Snapshot)"
  },
  {
   "property": "C65",
   "status": "proved",
   "theorems": [
    "PacketRs.C65_atomic_bits",
    "PacketRs.C65_no_panic",
    "PacketRs.C65_replace_whole"
   ],
   "note": "(Props/Atomic)"
  },
  {
   "property": "C66",
   "status": "proved",
   "theorems": [
    "PacketRs.C66_deadlock_is_a_cycle",
    "PacketRs.C66_ordered_replace",
    "PacketRs.C66_every_cycle_deadlocks"
   ],
   "note": "Both directions. (Props/Deadlock)"
  },
  {
   "property": "C67",
   "status": "proved",
   "theorems": [
    "PacketRs.C67_get_serialized",
    "PacketRs.C67_set_serialized",
    "PacketRs.C67_get",
    "PacketRs.C67_set",
    "PacketRs.C67_get_fast",
    "PacketRs.C67_get_any",
    "PacketRs.C67_gre_order"
   ],
   "note": "(Props/View)"
  },
  {
   "property": "C68",
   "status": "proved",
   "theorems": [
    "PacketRs.C68_depth",
    "PacketRs.C68_depth_fast",
    "PacketRs.C68_enough",
    "PacketRs.C68_enough_fast",
    "PacketRs.C68_attained",
    "PacketRs.C68_attained_fast"
   ],
   "note": "Frames of all parser functions are taken to have the same size. (Props/Depth)"
  },
  {
   "property": "C69",
   "status": "proved",
   "theorems": [
    "PacketRs.C69_vxlan_value",
    "PacketRs.C69_ipv4ip_value",
    "PacketRs.C69_ipv6ip_value",
    "PacketRs.C69_gre_value",
    "PacketRs.C69_erspan2_value",
    "PacketRs.C69_vxlanv6_value",
    "PacketRs.C69_erspan3_value",
    "PacketRs.C69_refines",
    "PacketRs.C69_poisoned",
    "PacketRs.C69_later",
    "PacketRs.C69_copied",
    "PacketRs.C69_vxlanv6",
    "PacketRs.C69_erspan3",
    "PacketRs.C69_not_copied"
   ],
   "note": "(Props/Encap)"
  },
  {
   "property": "C70",
   "status": "proved",
   "theorems": [
    "PacketRs.C70_under_lock",
    "PacketRs.C70_no_data_race",
    "PacketRs.C70_guards"
   ],
   "note": "(Props/Mutex)"
  },
  {
   "property": "C71",
   "status": "proved",
   "theorems": [
    "PacketRs.C71_cut_iff",
    "PacketRs.C71_decapsulate",
    "PacketRs.C71_pop_label",
    "PacketRs.C71_pop_iff",
    "PacketRs.C71_untag",
    "PacketRs.C71_tag"
   ],
   "note": "(Props/Surgery)"
  },
  {
   "property": "C72",
   "status": "proved",
   "theorems": [
    "PacketRs.C72_contents",
    "PacketRs.C72_read",
    "PacketRs.C72_new_file",
    "PacketRs.C72_old_file",
    "PacketRs.C72_stale",
    "PacketRs.C72_time"
   ],
   "note": "Model of the test helper pcap_write; input/output errors are not modelled. (Props/Pcap)"
  },
  {
   "property": "C73",
   "status": "proved",
   "theorems": [
    "PacketRs.C73_header",
    "PacketRs.C73_short_header",
    "PacketRs.C73_poisoned_header",
    "PacketRs.C73_packet",
    "PacketRs.C73_show_destroys"
   ],
   "note": "(Props/ShowStore)"
  },
  {
   "property": "C74",
   "status": "proved",
   "theorems": [
    "PacketRs.C74_frame",
    "PacketRs.C74_again",
    "PacketRs.C74_reparse"
   ],
   "note": "(Props/Refresh)"
  },
  {
   "property": "C75",
   "status": "proved",
   "theorems": [
    "PacketRs.C75_ipv4",
    "PacketRs.C75_fragment",
    "PacketRs.C75_ipv6",
    "PacketRs.C75_extension",
    "PacketRs.C75_udp",
    "PacketRs.C75_tcp",
    "PacketRs.C75_dot3"
   ],
   "note": "States what the parsers do; the RFC's reading is the spec it is compared with. (Props/Lengths)"
  },
  {
   "property": "C76",
   "status": "proved",
   "theorems": [
    "PacketRs.C76_parse",
    "PacketRs.C76_fast_layer",
    "PacketRs.C76_fast_parse",
    "PacketRs.C76_get_iff",
    "PacketRs.C76_bytes",
    "PacketRs.C76_set_bytes",
    "PacketRs.C76_checksum_iff",
    "PacketRs.C76_checksum_ones",
    "PacketRs.C76_show",
    "PacketRs.C76_show_packet",
    "PacketRs.C76_ipv4",
    "PacketRs.C76_create_ipv4",
    "PacketRs.C76_create_tcp",
    "PacketRs.C76_create_udp",
    "PacketRs.C76_create_icmp",
    "PacketRs.C76_create_ipv4ip",
    "PacketRs.C76_create_tcpv6",
    "PacketRs.C76_create_udpv6",
    "PacketRs.C76_create_icmpv6",
    "PacketRs.C76_create_vxlan",
    "PacketRs.C76_create_vxlanv6",
    "PacketRs.C76_create_gre",
    "PacketRs.C76_create_erspan2",
    "PacketRs.C76_create_erspan3"
   ],
   "note": "No spec needed: the model at both values of the profile flag is compared. (Props/Profile)"
  },
  {
   "property": "C77",
   "status": "proved",
   "theorems": [
    "PacketRs.C77_tcp4",
    "PacketRs.C77_udp4",
    "PacketRs.C77_vxlan4",
    "PacketRs.C77_icmp4",
    "PacketRs.C77_tcp6",
    "PacketRs.C77_udp6",
    "PacketRs.C77_icmp6",
    "PacketRs.C77_vxlan6",
    "PacketRs.C77_ignored",
    "PacketRs.C77_untagged",
    "PacketRs.C77_gre",
    "PacketRs.C77_erspan3",
    "PacketRs.C77_erspan2",
    "PacketRs.C77_declared_ipv4",
    "PacketRs.C77_declared_tcp"
   ],
   "note": "Receiver's check from RFC 768, 9293, 8200, 792, 4443 as spec; exact sets of accepted arguments. (Props/Transport)"
  },
  {
   "property": "C78",
   "status": "proved",
   "theorems": [
    "PacketRs.C78_methods",
    "PacketRs.C78_push",
    "PacketRs.C78_assign",
    "PacketRs.C78_clone_add",
    "PacketRs.C78_lookup",
    "PacketRs.C78_to_vec",
    "PacketRs.C78_whole",
    "PacketRs.C78_only_by_assignment",
    "PacketRs.C78_owned",
    "PacketRs.C78_refines",
    "PacketRs.C78_slice_set",
    "PacketRs.C78_packet_slice",
    "PacketRs.C78_case"
   ],
   "note": "Implementations of the trait Header outside the crate are not modelled. (Props/Dyn)"
  },
  {
   "property": "C79",
   "status": "proved",
   "theorems": [
    "PacketRs.C79_compare",
    "PacketRs.C79_undisturbed",
    "PacketRs.C79_clone",
    "PacketRs.C79_one_setter",
    "PacketRs.C79_true_never_equal"
   ],
   "note": "Exact set of answers; the two negative parts have concrete executions. (Props/CompareConc)"
  },
  {
   "property": "C80",
   "status": "proved",
   "theorems": [
    "PacketRs.C80_threshold",
    "PacketRs.C80_threshold_layer",
    "PacketRs.C80_threshold_fast",
    "PacketRs.C80_prefix_code",
    "PacketRs.C80_accepts_iff",
    "PacketRs.C80_payload",
    "PacketRs.C80_complete",
    "PacketRs.C80_layer"
   ],
   "note": "Header strings are defined by the dissection relation of Spec/Dissect, not by the parser. (Props/PrefixCode)"
  },
  {
   "property": "C81",
   "status": "proved",
   "theorems": [
    "PacketRs.C81_same",
    "PacketRs.C81_accepted",
    "PacketRs.C81_accepted_fast",
    "PacketRs.C81_refused",
    "PacketRs.C81_refused_fast",
    "PacketRs.C81_bound",
    "PacketRs.C81_quadratic",
    "PacketRs.C81_not_linear"
   ],
   "note": "Counts are exact on success. Allocation, growth of vectors and comparisons are not counted. (Props/Cost)"
  },
  {
   "property": "C82",
   "status": "proved",
   "theorems": [
    "PacketRs.C82_vlan",
    "PacketRs.C82_arp",
    "PacketRs.C82_ipv4",
    "PacketRs.C82_ipv6",
    "PacketRs.C82_tcp",
    "PacketRs.C82_udp",
    "PacketRs.C82_icmp",
    "PacketRs.C82_ipip",
    "PacketRs.C82_tcpv6",
    "PacketRs.C82_udpv6",
    "PacketRs.C82_icmpv6",
    "PacketRs.C82_vxlan",
    "PacketRs.C82_vxlanv6",
    "PacketRs.C82_gre",
    "PacketRs.C82_erspan2",
    "PacketRs.C82_erspan3"
   ],
   "note": "Equality of bytes and of panics. For the tunnels the theorems state for which arguments the equation holds. (Props/Layers)"
  },
  {
   "property": "C83",
   "status": "proved",
   "theorems": [
    "PacketRs.C83_ipv4",
    "PacketRs.C83_ipv6",
    "PacketRs.C83_tcp",
    "PacketRs.C83_udp",
    "PacketRs.C83_icmp",
    "PacketRs.C83_tcpv6",
    "PacketRs.C83_udpv6",
    "PacketRs.C83_icmpv6",
    "PacketRs.C83_ipip",
    "PacketRs.C83_transports",
    "PacketRs.C83_transports6",
    "PacketRs.C83_versions",
    "PacketRs.C83_eth",
    "PacketRs.C83_arp",
    "PacketRs.C83_vxlan",
    "PacketRs.C83_vxlanv6",
    "PacketRs.C83_vxlanv6_inner",
    "PacketRs.C83_gre",
    "PacketRs.C83_erspan2",
    "PacketRs.C83_erspan3",
    "PacketRs.C83_erspan3_ambiguous"
   ],
   "note": "For ERSPAN III the equivalence is for sequence numbers zero or odd; for even ones it is refuted by C83_erspan3_ambiguous. (Props/Collide, Props/CollideMore)"
  },
  {
   "property": "C84",
   "status": "proved",
   "theorems": [
    "PacketRs.C84_returns_iff",
    "PacketRs.C84_frame",
    "PacketRs.C84_length",
    "PacketRs.C84_inner_kept",
    "PacketRs.C84_accepts_iff",
    "PacketRs.C84_hidden"
   ],
   "note": "ERSPAN III and VXLAN over IPv6 are left out of the towers because they write the inner headers twice (C47). (Props/Tower)"
  },
  {
   "property": "C85",
   "status": "proved",
   "theorems": [
    "PacketRs.C85_text_iff",
    "PacketRs.C85_text_determines",
    "PacketRs.C85_end_of_header_not_shown",
    "PacketRs.C85_frames",
    "PacketRs.C85_slices_print_alike"
   ],
   "note": "Says that two texts are equal; no parser for the text is modelled, since the crate has none. (Props/Transcript)"
  },
  {
   "property": "C86",
   "status": "proved",
   "theorems": [
    "PacketRs.C86_arp",
    "PacketRs.C86_tcpv6",
    "PacketRs.C86_udpv6",
    "PacketRs.C86_icmpv6",
    "PacketRs.C86_tcp",
    "PacketRs.C86_udp",
    "PacketRs.C86_icmp",
    "PacketRs.C86_vxlan",
    "PacketRs.C86_erspan2"
   ],
   "note": "The length fields are the stated lengths modulo 65536 (C42). ERSPAN II's total length counts the inner packet twice, as the code does (C46). The TCP and ICMP checksums read 0 and the IPv6 UDP checksum 0xffff, as the code leaves them (C77). (Props/Receive)"
  },
  {
   "property": "C87",
   "status": "proved",
   "theorems": [
    "PacketRs.C87_read",
    "PacketRs.C87_write",
    "PacketRs.C87_table",
    "PacketRs.C87_formats"
   ],
   "note": "The format table is this development's transcription of the standards (RFC 791, 8200, 768, 9293, 792, 826, 7348, 1701, 3032, IEEE 802.1D/Q, 802.2, 802.3, the ERSPAN draft); it is part of the specification to be read. TCP's reserved and flag bits are taken as 4 and 8, GRE's flags as 5. (Props/Formats)"
  },
  {
   "property": "C88",
   "status": "proved",
   "theorems": [
    "PacketRs.C88_stacks",
    "PacketRs.C88_frames",
    "PacketRs.C88_udp_read_as_tcp",
    "PacketRs.C88_sizes",
    "PacketRs.C88_values",
    "PacketRs.C88_ipv4"
   ],
   "note": "Of stacks of default headers; a header changed after `new()` is covered by C58. (Props/Defaults)"
  },
  {
   "property": "C89",
   "status": "proved",
   "theorems": [
    "PacketRs.C89_eth",
    "PacketRs.C89_arp",
    "PacketRs.C89_ipv4",
    "PacketRs.C89_tcp",
    "PacketRs.C89_udp",
    "PacketRs.C89_icmp",
    "PacketRs.C89_ipv6",
    "PacketRs.C89_tcpv6",
    "PacketRs.C89_udpv6",
    "PacketRs.C89_icmpv6",
    "PacketRs.C89_ipv4ip",
    "PacketRs.C89_ipv6ip",
    "PacketRs.C89_vxlan",
    "PacketRs.C89_vxlanv6",
    "PacketRs.C89_gre",
    "PacketRs.C89_erspan2",
    "PacketRs.C89_erspan3"
   ],
   "note": "`Writable` is needed only for the IPv6 builders, whose text conversion is a parameter of the model; C91_writable proves it of the standard library's. (Props/Image)"
  },
  {
   "property": "C90",
   "status": "proved",
   "theorems": [
    "PacketRs.C90_history",
    "PacketRs.C90_determined",
    "PacketRs.C90_panics",
    "PacketRs.C90_same_iff",
    "PacketRs.C90_overwritten",
    "PacketRs.C90_any_order",
    "PacketRs.C90_read"
   ],
   "note": "Calls of one thread on one header. Calls through clones are the same calls (C18); concurrent ones are C51 and C65. (Props/Writes)"
  },
  {
   "property": "C91",
   "status": "proved",
   "theorems": [
    "PacketRs.C91_unambiguous",
    "PacketRs.C91_parser",
    "PacketRs.C91_bytes",
    "PacketRs.C91_groups",
    "PacketRs.C91_injective",
    "PacketRs.C91_unspecified",
    "PacketRs.C91_written",
    "PacketRs.C91_writable",
    "PacketRs.C91_quad",
    "PacketRs.C91_header"
   ],
   "note": "`Ipv6Addr::from_str` is modelled after core/src/net/parser.rs of the standard library, which is not part of /repo and was not available here: its loops were written down from knowledge of that source. All other theorems take the parser as a parameter and do not depend on this. (Props/Text6)"
  },
  {
   "property": "C92",
   "status": "proved",
   "theorems": [
    "PacketRs.C92_value",
    "PacketRs.C92_panics_iff",
    "PacketRs.C92_right",
    "PacketRs.C92_same_header",
    "PacketRs.C92_body",
    "PacketRs.C92_test",
    "PacketRs.C92_fails"
   ],
   "note": "About test code of the repository; the function under test is C39, C43. (Props/TestVerify)"
  },
  {
   "property": "C93",
   "status": "proved",
   "theorems": [
    "PacketRs.C93_safe",
    "PacketRs.C93_counts",
    "PacketRs.C93_freed_iff",
    "PacketRs.C93_held",
    "PacketRs.C93_no_leak",
    "PacketRs.C93_frees",
    "PacketRs.C93_frame",
    "PacketRs.C93_drop_hdr",
    "PacketRs.C93_drop_pkt",
    "PacketRs.C93_build"
   ],
   "note": "Arc's own implementation is not modelled: its count is a number that clone increments and drop decrements, and an access needs a nonzero count. Listed are the Arcs of the caller's variables; headers made and forgotten inside one call are not. (Props/Drop)"
  },
  {
   "property": "C94",
   "status": "proved",
   "theorems": [
    "PacketRs.C94_values",
    "PacketRs.C94_line",
    "PacketRs.C94_lines",
    "PacketRs.C94_text_form",
    "PacketRs.C94_text_attained",
    "PacketRs.C94_predefined",
    "PacketRs.C94_readme_header",
    "PacketRs.C94_readme_ipv4"
   ],
   "note": "The README's samples are compared with the blanks at line ends that the README lacks put back. (Props/ShowImage)"
  },
  {
   "property": "C95",
   "status": "proved",
   "theorems": [
    "PacketRs.C95_record_iff",
    "PacketRs.C95_predefined",
    "PacketRs.C95_determined_iff",
    "PacketRs.C95_len_iff",
    "PacketRs.C95_slice_iff"
   ],
   "note": "Fields whose end is before their start are left out (lo \u2264 hi is assumed), as are name clashes the compiler rejects. (Props/Defs)"
  },
  {
   "property": "C96",
   "status": "proved",
   "theorems": [
    "PacketRs.C96_locks",
    "PacketRs.C96_counted",
    "PacketRs.C96_getter",
    "PacketRs.C96_setter"
   ],
   "note": "Threads that panic are not counted. Ranges given to bytes and set_bytes are taken to be the right way round and below usize::MAX. (Props/Locks)"
  },
  {
   "property": "C97",
   "status": "proved",
   "theorems": [
    "PacketRs.C97_udp4",
    "PacketRs.C97_tcp4",
    "PacketRs.C97_icmp4",
    "PacketRs.C97_vxlan4",
    "PacketRs.C97_udp6",
    "PacketRs.C97_tcp6",
    "PacketRs.C97_icmp6",
    "PacketRs.C97_vxlan6"
   ],
   "note": "The host takes whole datagrams with at most one VLAN tag, skips IPv4 options, knows no IPv6 extension headers and does not look at its own addresses, TTL or hop limit. In the IPv6 statements the addresses are what Ipv6Addr::from_str is taken to give. (Props/Host)"
  },
  {
   "property": "C98",
   "status": "proved",
   "theorems": [
    "PacketRs.C98_udp",
    "PacketRs.C98_tcp",
    "PacketRs.C98_icmp",
    "PacketRs.C98_padding",
    "PacketRs.C98_fast"
   ],
   "note": "The host is the one of C97. Showing is stated on the getters of the returned headers; the flags read are the whole octet that holds them. (Props/Seen)"
  },
  {
   "property": "C99",
   "status": "proved",
   "theorems": [
    "PacketRs.C99_forward",
    "PacketRs.C99_no_options",
    "PacketRs.C99_source",
    "PacketRs.C99_destination"
   ],
   "note": "The host is the one of C97, the client the one of C74. (Props/Forward)"
  },
  {
   "property": "C100",
   "status": "proved",
   "theorems": [
    "PacketRs.C100_udp_source",
    "PacketRs.C100_udp_destination",
    "PacketRs.C100_udp_clear",
    "PacketRs.C100_tcp_source",
    "PacketRs.C100_tcp_destination",
    "PacketRs.C100_tcp_sequence",
    "PacketRs.C100_tcp_acknowledgement",
    "PacketRs.C100_tcp_window",
    "PacketRs.C100_tcp_flags",
    "PacketRs.C100_icmp_type",
    "PacketRs.C100_icmp_code",
    "PacketRs.C100_payload"
   ],
   "note": "The host is the one of C97. Frames with options are left out: the parser takes the options for the transport header, an example shows that setting a port then spoils the IP header. For UDP no GRE header with two options may stand in a tunnel behind it (C23). (Props/Ports)"
  },
  {
   "property": "C101",
   "status": "proved",
   "theorems": [
    "PacketRs.C101_harmless",
    "PacketRs.C101_tag",
    "PacketRs.C101_untag",
    "PacketRs.C101_source6",
    "PacketRs.C101_destination6"
   ],
   "note": "The host is the one of C97. The edits are client code, written with the crate's own calls. No GRE header with two options may stand in a tunnel behind (C23). (Props/Bridge)"
  },
  {
   "property": "C102",
   "status": "proved",
   "theorems": [
    "PacketRs.C102_udp",
    "PacketRs.C102_tcp",
    "PacketRs.C102_icmp",
    "PacketRs.C102_arp_reply",
    "PacketRs.C102_arp_create"
   ],
   "note": "The host is the one of C97, with ARP added. The responder is client code, written with the crate's own calls; whether it should answer (the asked address is its own) is left to it. UDP and TCP need an IPv4 header without options, behind which the parser finds the ports (C98); for UDP and ICMP no GRE header with two options may stand in a tunnel behind (C23). (Props/Turn)"
  },
  {
   "property": "C103",
   "status": "proved",
   "theorems": [
    "PacketRs.C103_udp",
    "PacketRs.C103_tcp",
    "PacketRs.C103_echo"
   ],
   "note": "The host is the one of C97. Translator and responder are client code, written with the crate's own calls; the arithmetic is the client's, since the crate's ipv4_checksum folds only once (C99 says when a client may use it). An IPv4 header without options is needed, behind which the parser finds the ports (C98); for UDP no GRE header with two options may stand in a tunnel behind (C23). (Props/Napt)"
  },
  {
   "property": "C104",
   "status": "proved",
   "theorems": [
    "PacketRs.C104_ipip4",
    "PacketRs.C104_ipip6",
    "PacketRs.C104_gre",
    "PacketRs.C104_erspan2",
    "PacketRs.C104_erspan2_never",
    "PacketRs.C104_erspan3_never",
    "PacketRs.C104_erspan3_even",
    "PacketRs.C104_erspan3"
   ],
   "note": "The receivers read octets, as the host of C97 does. That ERSPAN lengths count the inner packet twice is discrepancy 14, the flag of ERSPAN III discrepancy 31; this property says what they mean for the other end. Sequence number 0 gives type II frames without the number, which by the draft are of type I. (Props/Endpoint)"
  },
  {
   "property": "C105",
   "status": "proved",
   "theorems": [
    "PacketRs.C105_udp4",
    "PacketRs.C105_tcp4",
    "PacketRs.C105_icmp4",
    "PacketRs.C105_udp6",
    "PacketRs.C105_tcp6",
    "PacketRs.C105_icmp6",
    "PacketRs.C105_vxlan4",
    "PacketRs.C105_ipip4",
    "PacketRs.C105_gre",
    "PacketRs.C105_erspan2",
    "PacketRs.C105_erspan3",
    "PacketRs.C105_vxlan6"
   ],
   "note": "The client programs are not code of the crate: they are sequences of calls of its setters (header lookup by name, field setter) and set_payload, with the arithmetic of RFC 1071 done by the client. Together with C97 and C104 this says which of the discrepancies a client can repair and how. (Props/Finish)"
  },
  {
   "property": "C106",
   "status": "proved",
   "theorems": [
    "PacketRs.C106_arrives",
    "PacketRs.C106_addresses",
    "PacketRs.C106_limit",
    "PacketRs.C106_datagram",
    "PacketRs.C106_udp"
   ],
   "note": "The client programs are sequences of calls of the crate: builder, finishing as in C105, Packet::remove for the link headers. The converse (a tower with a tunnel that does not fit is not delivered) is stated per tunnel in C105; for towers only the bound on the length is proved. (Props/Network)"
  },
  {
   "property": "C107",
   "status": "proved",
   "theorems": [
    "PacketRs.C107_by_clone",
    "PacketRs.C107_by_making",
    "PacketRs.C107_changes",
    "PacketRs.C107_same_iff",
    "PacketRs.C107_agree_iff"
   ],
   "note": "Making anew is Op.adopt: a packet all of whose headers have new storage, as from the parser and the builders. The panics of a series in which a set fails are those of C53 and C56. (Props/Series)"
  },
  {
   "property": "C108",
   "status": "proved",
   "theorems": [
    "PacketRs.C108_fragment",
    "PacketRs.C108_whole",
    "PacketRs.C108_whole_conv",
    "PacketRs.C108_arrives",
    "PacketRs.C108_never_wrong",
    "PacketRs.C108_all_needed",
    "PacketRs.C108_udp",
    "PacketRs.C108_same_key"
   ],
   "note": "The client is written in Lean on the model of the crate; the crate itself has no fragmentation. It clears the don't-fragment flag. Reassembly takes each octet from the first fragment that has it and has no timer. (Props/Fragment)"
  },
  {
   "property": "C109",
   "status": "proved",
   "theorems": [
    "PacketRs.C109_segment",
    "PacketRs.C109_prefix_iff",
    "PacketRs.C109_grows",
    "PacketRs.C109_progress",
    "PacketRs.C109_complete"
   ],
   "note": "Client and receiver are written in Lean; the crate has neither. The receiver keeps no segments that come too early, looks at no flags and never closes its window. (Props/Stream)"
  },
  {
   "property": "C110",
   "status": "proved",
   "theorems": [
    "PacketRs.C110_pad",
    "PacketRs.C110_least",
    "PacketRs.C110_constant_iff",
    "PacketRs.C110_within",
    "PacketRs.C110_fast",
    "PacketRs.C110_capture"
   ],
   "note": "What the header cut by the end of the capture shows is not stated; it holds padding octets. (Props/Padding)"
  },
  {
   "property": "C111",
   "status": "proved",
   "theorems": [
    "PacketRs.C111_router",
    "PacketRs.C111_path",
    "PacketRs.C111_hosts",
    "PacketRs.C111_ping",
    "PacketRs.C111_hops",
    "PacketRs.C111_once"
   ],
   "note": "The spec (`Passes`) says which routers fail in terms of the frame sent. A router drops what a host would not take (`ipInput`). (Props/Route)"
  },
  {
   "property": "C112",
   "status": "proved",
   "theorems": [
    "PacketRs.C112_receive",
    "PacketRs.C112_request",
    "PacketRs.C112_safe",
    "PacketRs.C112_resolves",
    "PacketRs.C112_lie"
   ],
   "note": "A station hands a frame to the crate only if it holds an ARP message for IPv4 over Ethernet (`hostArp`), and only frames to its own link address or to everyone. C112_lie shows that honesty of other frames is needed. (Props/Resolve)"
  },
  {
   "property": "C113",
   "status": "proved",
   "theorems": [
    "PacketRs.C113_safe",
    "PacketRs.C113_grows",
    "PacketRs.C113_progress",
    "PacketRs.C113_completes"
   ],
   "note": "The connection is open from the start (no handshake) and a receiver keeps only the segment it expects or a part of it (C109). The arguments of a segment are free except that its acknowledgement number is the number expected next. (Props/Transfer)"
  },
  {
   "property": "C114",
   "status": "proved",
   "theorems": [
    "PacketRs.C114_receive",
    "PacketRs.C114_isolated",
    "PacketRs.C114_known",
    "PacketRs.C114_flood",
    "PacketRs.C114_group",
    "PacketRs.C114_way",
    "PacketRs.C114_wrong_line"
   ],
   "note": "Access ports drop frames with a tag, trunks drop frames without one (no native VLAN); priorities of tags put in are 0. The switch serializes the tagged packet before it takes out the tag, because clones would share headers (C18). (Props/Switch)"
  },
  {
   "property": "C115",
   "status": "proved",
   "theorems": [
    "PacketRs.C115_clones",
    "PacketRs.C115_right_iff",
    "PacketRs.C115_dropped",
    "PacketRs.C115_tagged_first",
    "PacketRs.C115_tagged_last"
   ],
   "note": "The headers of clones are shared (C18); C114 serializes first and is right for every order. World and packet are as after any run of calls; the packet's two headers must not share storage and must not be poisoned. (Props/Flood)"
  },
  {
   "property": "C116",
   "status": "proved",
   "theorems": [
    "PacketRs.C116_out",
    "PacketRs.C116_in",
    "PacketRs.C116_run",
    "PacketRs.C116_outside",
    "PacketRs.C116_solicited",
    "PacketRs.C116_back",
    "PacketRs.C116_apart",
    "PacketRs.C116_sample"
   ],
   "note": "TCP only. Segments from outside are let in whoever sends them to a port that stands for a host (RFC 4787 calls it endpoint-independent filtering). If the port chosen for a new sender is taken the frame is dropped. Link addresses and hop counts are left (C101, C111). (Props/Gateway)"
  },
  {
   "property": "C117",
   "status": "proved",
   "theorems": [
    "PacketRs.C117_frozen",
    "PacketRs.C117_shut_out",
    "PacketRs.C117_cause",
    "PacketRs.C117_traced",
    "PacketRs.C117_origin",
    "PacketRs.C117_died",
    "PacketRs.C117_spared",
    "PacketRs.C117_chain"
   ],
   "note": "C53 is the sequential counterpart. Overran and Infected name calls the thread's program contains (MayTouch, MayReplace), not the one call it died in. A panic outside any guard (overflow, failed assertion, set_bytes with wrapped width) poisons nothing. (Props/Taint)"
  },
  {
   "property": "C118",
   "status": "proved",
   "theorems": [
    "PacketRs.C118_independent",
    "PacketRs.C118_waits",
    "PacketRs.C118_results",
    "PacketRs.C118_shared"
   ],
   "note": "C50 gives more (one final state) for threads that share headers but not bits, under the assumption that nothing panics; this one assumes nothing about the calls. (Props/Apart)"
  },
  {
   "property": "C119",
   "status": "proved",
   "theorems": [
    "PacketRs.C119_safe",
    "PacketRs.C119_grows",
    "PacketRs.C119_progress",
    "PacketRs.C119_completes",
    "PacketRs.C119_forgotten"
   ],
   "note": "The connection is open already and the gateway has an entry for it. One connection is followed; that others are kept apart is C116. (Props/Through)"
  },
  {
   "property": "C120",
   "status": "proved",
   "theorems": [
    "PacketRs.C120_safe",
    "PacketRs.C120_grows",
    "PacketRs.C120_route",
    "PacketRs.C120_progress",
    "PacketRs.C120_completes",
    "PacketRs.C120_stuck"
   ],
   "note": "The connection is open already. A router works on one frame at a time; queues and buffers of routers are the order of events. (Props/Internet)"
  },
  {
   "property": "C121",
   "status": "proved",
   "theorems": [
    "PacketRs.C121_tcp",
    "PacketRs.C121_icmp",
    "PacketRs.C121_udp",
    "PacketRs.C121_short",
    "PacketRs.C121_other",
    "PacketRs.C121_padding",
    "PacketRs.C121_station",
    "PacketRs.C121_router",
    "PacketRs.C121_serve",
    "PacketRs.C121_path"
   ],
   "note": "The router checks the datagram (version, lengths, header checksum) before it parses, as in C111; a router that parses first panics on the frames of C22. That a frame is fatal depends on its padding, which is not part of the datagram. (Props/Fatal)"
  },
  {
   "property": "C122",
   "status": "proved",
   "theorems": [
    "PacketRs.C122_parse",
    "PacketRs.C122_fast",
    "PacketRs.C122_client",
    "PacketRs.C122_router",
    "PacketRs.C122_any",
    "PacketRs.C122_shortest",
    "PacketRs.C122_exact"
   ],
   "note": "The client is not in the repository; it uses parse and payload only. set_payload appends (C16), so the appended octets cannot be taken off the payload again, and the frame is parsed a second time. (Props/Guard, Props/Shortest)"
  },
  {
   "property": "C123",
   "status": "proved",
   "theorems": [
    "PacketRs.C123_refines",
    "PacketRs.C123_behind",
    "PacketRs.C123_safe",
    "PacketRs.C123_completes",
    "PacketRs.C123_careless"
   ],
   "note": "Forged segments of the connection itself are excluded: TCP without authentication cannot tell them (nor can the crate). (Props/Hostile)"
  },
  {
   "property": "C124",
   "status": "proved",
   "theorems": [
    "PacketRs.C124_parse",
    "PacketRs.C124_same",
    "PacketRs.C124_panics",
    "PacketRs.C124_get",
    "PacketRs.C124_set",
    "PacketRs.C124_router",
    "PacketRs.C124_path",
    "PacketRs.C124_once_changes"
   ],
   "note": "The client is not in the repository. After the second parse the options of a GRE header with several of them have each other's octets, so they are not to be read by name; everything else is. (Props/Twice)"
  },
  {
   "property": "C125",
   "status": "proved",
   "theorems": [
    "PacketRs.C125_ends",
    "PacketRs.C125_cells",
    "PacketRs.C125_modular",
    "PacketRs.C125_always",
    "PacketRs.C125_preserved",
    "PacketRs.C125_versions",
    "PacketRs.C125_version_now",
    "PacketRs.C125_any_views",
    "PacketRs.C125_checksum",
    "PacketRs.C125_lost"
   ],
   "note": "That headers are used by one thread only is a condition on the client; headers made by new() or from() and not cloned meet it. Edits in place, without a copy, are C51, C52 and C64. (Props/Publish)"
  },
  {
   "property": "C126",
   "status": "proved",
   "theorems": [
    "PacketRs.C126_ends",
    "PacketRs.C126_always",
    "PacketRs.C126_final",
    "PacketRs.C126_counter",
    "PacketRs.C126_any_order",
    "PacketRs.C126_all_may_give_up",
    "PacketRs.C126_without_flags"
   ],
   "note": "The flags are a program of the client; the crate offers none. That a getter or setter of one bit is atomic and that all threads agree on the order of the calls is from C65. (Props/Exclude)"
  },
  {
   "property": "C127",
   "status": "proved",
   "theorems": [
    "PacketRs.C127_no_choice",
    "PacketRs.C127_no_election",
    "PacketRs.C127_replace_elects",
    "PacketRs.C127_any_number"
   ],
   "note": "The machine and its link to the code are C65. The threads of the first half are arbitrary clients of the accessors. (Props/Elect, Props/ElectMany)"
  },
  {
   "property": "C128",
   "status": "proved",
   "theorems": [
    "PacketRs.C128_deadlock_iff",
    "PacketRs.C128_scripts",
    "PacketRs.C128_finish_iff"
   ],
   "note": "Calls inside the buffers exclude x.replace(&x) and headers of different lengths; of x.replace(&x), C54 and C66 say that it never returns. (Props/Tangle)"
  },
  {
   "property": "C129",
   "status": "proved",
   "theorems": [
    "PacketRs.C129_counting_up",
    "PacketRs.C129_counting_down",
    "PacketRs.C129_never_ahead",
    "PacketRs.C129_can_be_behind"
   ],
   "note": "Each reader calls the getter once; one thread writes the field, with setters only. (Props/Tally)"
  },
  {
   "property": "C130",
   "status": "proved",
   "theorems": [
    "PacketRs.C130_readers_agree",
    "PacketRs.C130_finish",
    "PacketRs.C130_can_succeed"
   ],
   "note": "The protocol is client code; one writer; each reader tries once. (Props/Seqlock)"
  },
  {
   "property": "C131",
   "status": "proved",
   "theorems": [
    "PacketRs.C131_never_set"
   ],
   "note": "A refutation: shown for one field of two bits, which starts at 0, and the values 3 and 0. (Props/Again)"
  }
 ]
}
