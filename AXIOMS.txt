C01_getter_bits: Classical.choice, Quot.sound, propext
C01_getter_value: Quot.sound, propext
C01_predefined: Quot.sound, propext
C02_set_get: Classical.choice, Quot.sound, propext
C03_other_fields: Classical.choice, Quot.sound, propext
C03_set_frame: Classical.choice, Quot.sound, propext
C04_disjoint_commute: Classical.choice, Quot.sound, propext
C04_last_write_wins: Classical.choice, Quot.sound, propext
C04_set_read_value: Classical.choice, Quot.sound, propext
C05_fields_determine: Classical.choice, Quot.sound, propext
C05_fields_tile: Classical.choice, Quot.sound, propext
C06_assert: Quot.sound, propext
C06_bytes_aligned: Classical.choice, Quot.sound, propext
C06_bytes_value: Classical.choice, Quot.sound, propext
C06_set_bytes: Classical.choice, Quot.sound, propext
C07_wide_getter_checked: Quot.sound, propext
C07_wide_getter_unchecked: Classical.choice, Quot.sound, propext
C07_wide_setter: Classical.choice, Quot.sound, propext
C08_failed_set_keeps_bytes: Classical.choice, Quot.sound, propext
C08_getter_panics_iff: Quot.sound, propext
C08_set_bytes_writes_prefix: Classical.choice, Quot.sound, propext
C08_setter_panics_iff: Classical.choice, Quot.sound, propext
C09_slice_header_agrees: Quot.sound, propext
C100_icmp_code: Classical.choice, Quot.sound, propext
C100_icmp_type: Classical.choice, Quot.sound, propext
C100_payload: Classical.choice, Quot.sound, propext
C100_tcp_acknowledgement: Classical.choice, Quot.sound, propext
C100_tcp_destination: Classical.choice, Quot.sound, propext
C100_tcp_flags: Classical.choice, Quot.sound, propext
C100_tcp_sequence: Classical.choice, Quot.sound, propext
C100_tcp_source: Classical.choice, Quot.sound, propext
C100_tcp_window: Classical.choice, Quot.sound, propext
C100_udp_clear: Classical.choice, Quot.sound, propext
C100_udp_destination: Classical.choice, Quot.sound, propext
C100_udp_source: Classical.choice, Quot.sound, propext
C101_destination6: Classical.choice, Quot.sound, propext
C101_harmless: Classical.choice, Quot.sound, propext
C101_source6: Classical.choice, Quot.sound, propext
C101_tag: Classical.choice, Quot.sound, propext
C101_untag: Classical.choice, Quot.sound, propext
C102_arp_create: Classical.choice, Quot.sound, propext
C102_arp_reply: Classical.choice, Quot.sound, propext
C102_icmp: Classical.choice, Quot.sound, propext
C102_tcp: Classical.choice, Quot.sound, propext
C102_udp: Classical.choice, Quot.sound, propext
C103_echo: Classical.choice, Quot.sound, propext
C103_tcp: Classical.choice, Quot.sound, propext
C103_udp: Classical.choice, Quot.sound, propext
C104_erspan2: Classical.choice, Quot.sound, propext
C104_erspan2_never: Classical.choice, Quot.sound, propext
C104_erspan3: Classical.choice, Quot.sound, propext
C104_erspan3_even: Classical.choice, Quot.sound, propext
C104_erspan3_never: Classical.choice, Quot.sound, propext
C104_gre: Classical.choice, Quot.sound, propext
C104_ipip4: Classical.choice, Quot.sound, propext
C104_ipip6: Classical.choice, Quot.sound, propext
C105_erspan2: Classical.choice, Quot.sound, propext
C105_erspan3: Classical.choice, Quot.sound, propext
C105_gre: Classical.choice, Quot.sound, propext
C105_icmp4: Classical.choice, Quot.sound, propext
C105_icmp6: Classical.choice, Quot.sound, propext
C105_ipip4: Classical.choice, Quot.sound, propext
C105_tcp4: Classical.choice, Quot.sound, propext
C105_tcp6: Classical.choice, Quot.sound, propext
C105_udp4: Classical.choice, Quot.sound, propext
C105_udp6: Classical.choice, Quot.sound, propext
C105_vxlan4: Classical.choice, Quot.sound, propext
C105_vxlan6: Classical.choice, Quot.sound, propext
C106_addresses: Classical.choice, Quot.sound, propext
C106_arrives: Classical.choice, Quot.sound, propext
C106_datagram: Classical.choice, Quot.sound, propext
C106_limit: Classical.choice, Quot.sound, propext
C106_udp: Classical.choice, Quot.sound, propext
C107_agree_iff: Classical.choice, Quot.sound, propext
C107_by_clone: Classical.choice, Quot.sound, propext
C107_by_making: Classical.choice, Quot.sound, propext
C107_changes: Classical.choice, Quot.sound, propext
C107_same_iff: Classical.choice, Quot.sound, propext
C108_all_needed: Classical.choice, Quot.sound, propext
C108_arrives: Classical.choice, Quot.sound, propext
C108_fragment: Classical.choice, Quot.sound, propext
C108_never_wrong: Classical.choice, Quot.sound, propext
C108_same_key: Classical.choice, Quot.sound, propext
C108_udp: Classical.choice, Quot.sound, propext
C108_whole: Quot.sound, propext
C108_whole_conv: Quot.sound, propext
C109_complete: Classical.choice, Quot.sound, propext
C109_grows: Classical.choice, Quot.sound, propext
C109_prefix_iff: Classical.choice, Quot.sound, propext
C109_progress: Classical.choice, Quot.sound, propext
C109_segment: Classical.choice, Quot.sound, propext
C10_from_vec: propext
C10_to_vec: propext
C110_capture: Classical.choice, Quot.sound, propext
C110_constant_iff: Classical.choice, Quot.sound, propext
C110_fast: Classical.choice, Quot.sound, propext
C110_least: Classical.choice, Quot.sound, propext
C110_pad: Classical.choice, Quot.sound, propext
C110_within: Classical.choice, Quot.sound, propext
C111_hops: propext
C111_hosts: Classical.choice, Quot.sound, propext
C111_once: Quot.sound, propext
C111_path: Classical.choice, Quot.sound, propext
C111_ping: Classical.choice, Quot.sound, propext
C111_router: Classical.choice, Quot.sound, propext
C112_lie: Classical.choice, Quot.sound, propext
C112_receive: Classical.choice, Quot.sound, propext
C112_request: Classical.choice, Quot.sound, propext
C112_resolves: Classical.choice, Quot.sound, propext
C112_safe: Classical.choice, Quot.sound, propext
C113_completes: Classical.choice, Quot.sound, propext
C113_grows: Classical.choice, Quot.sound, propext
C113_progress: Classical.choice, Quot.sound, propext
C113_safe: Classical.choice, Quot.sound, propext
C114_flood: Classical.choice, Quot.sound, propext
C114_group: Classical.choice, Quot.sound, propext
C114_isolated: Classical.choice, Quot.sound, propext
C114_known: Classical.choice, Quot.sound, propext
C114_receive: Classical.choice, Quot.sound, propext
C114_way: Classical.choice, Quot.sound, propext
C114_wrong_line: Classical.choice, Quot.sound, propext
C115_clones: Classical.choice, Quot.sound, propext
C115_dropped: Quot.sound, propext
C115_right_iff: Classical.choice, Quot.sound, propext
C115_tagged_first: Quot.sound, propext
C115_tagged_last: Quot.sound, propext
C116_apart: Classical.choice, Quot.sound, propext
C116_back: Classical.choice, Quot.sound, propext
C116_in: Classical.choice, Quot.sound, propext
C116_out: Classical.choice, Quot.sound, propext
C116_outside: Classical.choice, Quot.sound, propext
C116_run: Classical.choice, Quot.sound, propext
C116_sample: Quot.sound, propext
C116_solicited: Classical.choice, Quot.sound, propext
C117_cause: Classical.choice, Quot.sound, propext
C117_chain: Classical.choice, Quot.sound, propext
C117_died: Classical.choice, Quot.sound, propext
C117_frozen: Classical.choice, Quot.sound, propext
C117_origin: Classical.choice, Quot.sound, propext
C117_shut_out: Classical.choice, Quot.sound, propext
C117_spared: Classical.choice, Quot.sound, propext
C117_traced: Classical.choice, Quot.sound, propext
C118_independent: Classical.choice, Quot.sound, propext
C118_results: Classical.choice, Quot.sound, propext
C118_shared: Classical.choice, Quot.sound, propext
C118_waits: Classical.choice, Quot.sound, propext
C119_completes: Classical.choice, Quot.sound, propext
C119_forgotten: Classical.choice, Quot.sound, propext
C119_grows: Classical.choice, Quot.sound, propext
C119_progress: Classical.choice, Quot.sound, propext
C119_safe: Classical.choice, Quot.sound, propext
C11_history: Quot.sound, propext
C11_no_ops: Quot.sound, propext
C120_completes: Classical.choice, Quot.sound, propext
C120_grows: Classical.choice, Quot.sound, propext
C120_progress: Classical.choice, Quot.sound, propext
C120_route: Classical.choice, Quot.sound, propext
C120_safe: Classical.choice, Quot.sound, propext
C120_stuck: Classical.choice, Quot.sound, propext
C121_icmp: Classical.choice, Quot.sound, propext
C121_other: Classical.choice, Quot.sound, propext
C121_padding: Classical.choice, Quot.sound, propext
C121_path: Classical.choice, Quot.sound, propext
C121_router: Classical.choice, Quot.sound, propext
C121_serve: Classical.choice, Quot.sound, propext
C121_short: Classical.choice, Quot.sound, propext
C121_station: Classical.choice, Quot.sound, propext
C121_tcp: Classical.choice, Quot.sound, propext
C121_udp: Classical.choice, Quot.sound, propext
C122_any: Classical.choice, Quot.sound, propext
C122_client: Classical.choice, Quot.sound, propext
C122_exact: Classical.choice, Quot.sound, propext
C122_fast: Classical.choice, Quot.sound, propext
C122_parse: Classical.choice, Quot.sound, propext
C122_router: Classical.choice, Quot.sound, propext
C122_shortest: Classical.choice, Quot.sound, propext
C123_behind: Classical.choice, Quot.sound, propext
C123_careless: Classical.choice, Quot.sound, propext
C123_completes: Classical.choice, Quot.sound, propext
C123_refines: Classical.choice, Quot.sound, propext
C123_safe: Classical.choice, Quot.sound, propext
C124_get: Classical.choice, Quot.sound, propext
C124_once_changes: Classical.choice, Quot.sound, propext
C124_panics: Classical.choice, Quot.sound, propext
C124_parse: Classical.choice, Quot.sound, propext
C124_path: Classical.choice, Quot.sound, propext
C124_router: Classical.choice, Quot.sound, propext
C124_same: Classical.choice, Quot.sound, propext
C124_set: Classical.choice, Quot.sound, propext
C125_always: Classical.choice, Quot.sound, propext
C125_any_views: Classical.choice, Quot.sound, propext
C125_cells: Classical.choice, Quot.sound, propext
C125_checksum: Classical.choice, Quot.sound, propext
C125_ends: Classical.choice, Quot.sound, propext
C125_lost: Classical.choice, Quot.sound, propext
C125_modular: Classical.choice, Quot.sound, propext
C125_preserved: Classical.choice, Quot.sound, propext
C125_version_now: Classical.choice, Quot.sound, propext
C125_versions: Classical.choice, Quot.sound, propext
C126_all_may_give_up: Classical.choice, Quot.sound, propext
C126_always: Classical.choice, Quot.sound, propext
C126_any_order: Classical.choice, Quot.sound, propext
C126_counter: Classical.choice, Quot.sound, propext
C126_ends: Classical.choice, Quot.sound, propext
C126_final: Classical.choice, Quot.sound, propext
C126_without_flags: Classical.choice, Quot.sound, propext
C127_any_number: Classical.choice, Quot.sound, propext
C127_no_choice: Classical.choice, Quot.sound, propext
C127_no_election: Classical.choice, Quot.sound, propext
C127_replace_elects: Classical.choice, Quot.sound, propext
C128_deadlock_iff: Classical.choice, Quot.sound, propext
C128_finish_iff: Classical.choice, Quot.sound, propext
C128_scripts: Classical.choice, Quot.sound, propext
C129_can_be_behind: Classical.choice, Quot.sound, propext
C129_counting_down: Classical.choice, Quot.sound, propext
C129_counting_up: Classical.choice, Quot.sound, propext
C129_never_ahead: Quot.sound, propext
C12_icmp_new: Quot.sound, propext
C12_len: 
C12_len_eq_iff: Classical.choice, Quot.sound, propext
C130_can_succeed: Classical.choice, Quot.sound, propext
C130_finish: Classical.choice, Quot.sound, propext
C130_readers_agree: Classical.choice, Quot.sound, propext
C131_never_set: Classical.choice, Quot.sound, propext
C13_compare_equivalence: Classical.choice, Quot.sound, propext
C13_compare_with_slice: Classical.choice, Quot.sound, propext
C13_compare_with_slice_wf: Classical.choice, Quot.sound, propext
C13_icmp_new_differs_from_itself: 
C14_assign: propext
C14_get_header: Quot.sound, propext
C14_index: Quot.sound, propext
C15_downcast: propext
C15_get_header_mut_set: Quot.sound, propext
C15_index_mut_set: Classical.choice, Quot.sound, propext
C16_set_payload_appends: 
C16_set_payload_history: propext
C16_set_payload_sets_iff: propext
C17_add: propext
C17_add_assoc: propext
C17_add_drops_right_payload: 
C18_alias_write: Classical.choice, Quot.sound, propext
C18_clone_serializes: Classical.choice, Quot.sound, propext
C18_shape_independent: Classical.choice, Quot.sound, propext
C18_write_visible: Classical.choice, Quot.sound, propext
C19_alias_iff: Classical.choice, Quot.sound, propext
C19_fresh: Classical.choice, Quot.sound, propext
C19_isolated: Classical.choice, Quot.sound, propext
C20_fast_parse_terminates: Classical.choice, Quot.sound, propext
C20_fast_terminates: Classical.choice, Quot.sound, propext
C20_slow_parse_terminates: Classical.choice, Quot.sound, propext
C20_slow_terminates: Classical.choice, Quot.sound, propext
C21_parse_frame: Classical.choice, Quot.sound, propext
C21_parse_iff_dissect: Classical.choice, Quot.sound, propext
C21_unique: Classical.choice, Quot.sound, propext
C22_only_truncation: Classical.choice, Quot.sound, propext
C22_panic_iff: Classical.choice, Quot.sound, propext
C22_panic_iff_frame: Classical.choice, Quot.sound, propext
C23_gre_options_reversed: Classical.choice, Quot.sound, propext
C23_gre_options_witness: Quot.sound, propext
C23_roundtrip: Classical.choice, Quot.sound, propext
C23_roundtrip_frame: Classical.choice, Quot.sound, propext
C24_accounts: Classical.choice, Quot.sound, propext
C24_accounts_frame: Classical.choice, Quot.sound, propext
C25_trailing: Classical.choice, Quot.sound, propext
C25_trailing_frame: Classical.choice, Quot.sound, propext
C26_fast_eq_slow: Classical.choice, Quot.sound, propext
C26_observations: Classical.choice, Quot.sound, propext
C26_observations_frame: Classical.choice, Quot.sound, propext
C26_parse: Classical.choice, Quot.sound, propext
C27_frame: Classical.choice, Quot.sound, propext
C27_from_sound: Quot.sound, propext
C27_from_unsound: Quot.sound, propext
C27_in_bounds: Classical.choice, Quot.sound, propext
C27_tiles: Classical.choice, Quot.sound, propext
C28_boundary: Quot.sound, propext
C28_boundary_fast: Quot.sound, propext
C28_first_header: Classical.choice, Quot.sound, propext
C29_mpls_count: Classical.choice, Quot.sound, propext
C29_mpls_stack: Classical.choice, Quot.sound, propext
C30_ipip: Classical.choice, Quot.sound, propext
C30_ipv6: Classical.choice, Quot.sound, propext
C30_vlan: Classical.choice, Quot.sound, propext
C30_vlan_frame: Classical.choice, Quot.sound, propext
C31_every_string: Classical.choice, Quot.sound, propext
C31_length: Classical.choice, Quot.sound, propext
C31_mac: Classical.choice, Quot.sound, propext
C31_roundtrip: Classical.choice, Quot.sound, propext
C32_every_string: Classical.choice, Quot.sound, propext
C32_ipv4: Classical.choice, Quot.sound, propext
C32_length: Classical.choice, Quot.sound, propext
C32_roundtrip: Classical.choice, Quot.sound, propext
C33_arp: Classical.choice, Quot.sound, propext
C33_dot3: Classical.choice, Quot.sound, propext
C33_ethernet: Classical.choice, Quot.sound, propext
C33_gre_options: Classical.choice, Quot.sound, propext
C33_icmp: Classical.choice, Quot.sound, propext
C33_panics_iff: Quot.sound, propext
C33_udp: Classical.choice, Quot.sound, propext
C34_erspan2: Classical.choice, Quot.sound, propext
C34_erspan3: Classical.choice, Quot.sound, propext
C34_gre: Classical.choice, Quot.sound, propext
C34_ipv4: Classical.choice, Quot.sound, propext
C34_ipv6: Classical.choice, Quot.sound, propext
C34_tcp: Classical.choice, Quot.sound, propext
C34_vlan: Classical.choice, Quot.sound, propext
C34_vxlan: Classical.choice, Quot.sound, propext
C35_erspan2: Classical.choice, Quot.sound, propext
C35_erspan3: Classical.choice, Quot.sound, propext
C35_gre: Classical.choice, Quot.sound, propext
C35_ipv4: Classical.choice, Quot.sound, propext
C35_ipv6: Classical.choice, Quot.sound, propext
C35_tcp: Classical.choice, Quot.sound, propext
C35_vlan: Classical.choice, Quot.sound, propext
C35_vxlan: Classical.choice, Quot.sound, propext
C36_label_reads_back_iff: Classical.choice, Quot.sound, propext
C36_mpls: Quot.sound, propext
C37_oui_reads_back_iff: Classical.choice, Quot.sound, propext
C37_snap: Quot.sound, propext
C38_llc: Quot.sound, propext
C38_packet_len: Classical.choice, Quot.sound, propext
C39_correct_iff: Classical.choice, Quot.sound, propext
C39_off_by_one: Classical.choice, Quot.sound, propext
C39_small_sums: Classical.choice, Quot.sound, propext
C39_value: Classical.choice, Quot.sound, propext
C40_ignores_checksum_field: Quot.sound, propext
C40_panics_iff: Classical.choice, Quot.sound, propext
C41_arp: Quot.sound, propext
C41_arp_returns_iff: Quot.sound, propext
C41_erspan2: Classical.choice, Quot.sound, propext
C41_erspan2_returns_iff: Classical.choice, Quot.sound, propext
C41_erspan3: Classical.choice, Quot.sound, propext
C41_erspan3_returns_iff: Classical.choice, Quot.sound, propext
C41_eth: Quot.sound, propext
C41_eth_returns_iff: Quot.sound, propext
C41_gre: Classical.choice, Quot.sound, propext
C41_gre_returns_iff: Classical.choice, Quot.sound, propext
C41_icmp: Classical.choice, Quot.sound, propext
C41_icmp_returns_iff: Classical.choice, Quot.sound, propext
C41_icmpv6: Classical.choice, Quot.sound, propext
C41_icmpv6_returns_iff: Classical.choice, Quot.sound, propext
C41_ipip_empty: Quot.sound, propext
C41_ipv4: Classical.choice, Quot.sound, propext
C41_ipv4_returns_iff: Classical.choice, Quot.sound, propext
C41_ipv4ip: Classical.choice, Quot.sound, propext
C41_ipv4ip_returns_iff: Classical.choice, Quot.sound, propext
C41_ipv6: Quot.sound, propext
C41_ipv6_returns_iff: Quot.sound, propext
C41_ipv6ip: Classical.choice, Quot.sound, propext
C41_ipv6ip_returns_iff: Classical.choice, Quot.sound, propext
C41_tcp: Classical.choice, Quot.sound, propext
C41_tcp_returns_iff: Classical.choice, Quot.sound, propext
C41_tcpv6: Classical.choice, Quot.sound, propext
C41_tcpv6_returns_iff: Classical.choice, Quot.sound, propext
C41_udp: Classical.choice, Quot.sound, propext
C41_udp_returns_iff: Classical.choice, Quot.sound, propext
C41_udpv6: Classical.choice, Quot.sound, propext
C41_udpv6_returns_iff: Classical.choice, Quot.sound, propext
C41_vxlan: Classical.choice, Quot.sound, propext
C41_vxlan_returns_iff: Classical.choice, Quot.sound, propext
C41_vxlanv6: Classical.choice, Quot.sound, propext
C41_vxlanv6_returns_iff: Classical.choice, Quot.sound, propext
C42_gre: Classical.choice, Quot.sound, propext
C42_icmp: Classical.choice, Quot.sound, propext
C42_icmpv6: Classical.choice, Quot.sound, propext
C42_ipv4: Classical.choice, Quot.sound, propext
C42_ipv4ip: Classical.choice, Quot.sound, propext
C42_ipv6: Classical.choice, Quot.sound, propext
C42_ipv6ip: Classical.choice, Quot.sound, propext
C42_tcp: Classical.choice, Quot.sound, propext
C42_tcpv6: Classical.choice, Quot.sound, propext
C42_udp: Classical.choice, Quot.sound, propext
C42_udpv6: Classical.choice, Quot.sound, propext
C42_vxlan: Classical.choice, Quot.sound, propext
C43_erspan2: Classical.choice, Quot.sound, propext
C43_erspan3: Classical.choice, Quot.sound, propext
C43_gre: Classical.choice, Quot.sound, propext
C43_icmp: Classical.choice, Quot.sound, propext
C43_ipv4: Classical.choice, Quot.sound, propext
C43_ipv4ip: Classical.choice, Quot.sound, propext
C43_tcp: Classical.choice, Quot.sound, propext
C43_udp: Classical.choice, Quot.sound, propext
C43_vxlan: Classical.choice, Quot.sound, propext
C44_arp: Classical.choice, Quot.sound, propext
C44_icmp: Classical.choice, Quot.sound, propext
C44_icmpv6: Classical.choice, Quot.sound, propext
C44_tcp: Classical.choice, Quot.sound, propext
C44_tcpv6: Classical.choice, Quot.sound, propext
C44_udp: Classical.choice, Quot.sound, propext
C44_udpv6: Classical.choice, Quot.sound, propext
C45_erspan2: Classical.choice, Quot.sound, propext
C45_eth: Classical.choice, Quot.sound, propext
C45_gre: Classical.choice, Quot.sound, propext
C45_gre_one_option: Classical.choice, Quot.sound, propext
C45_gre_reversed: Classical.choice, Quot.sound, propext
C45_ipv4: Classical.choice, Quot.sound, propext
C45_ipv4ip: Classical.choice, Quot.sound, propext
C45_ipv6: Classical.choice, Quot.sound, propext
C45_ipv6ip: Classical.choice, Quot.sound, propext
C45_vxlan: Classical.choice, Quot.sound, propext
C45_vxlan_other_port: Classical.choice, Quot.sound, propext
C46_erspan2: Classical.choice, Quot.sound, propext
C46_erspan2_right_iff: Classical.choice, Quot.sound, propext
C46_erspan3: Classical.choice, Quot.sound, propext
C47_erspan3: Classical.choice, Quot.sound, propext
C47_vxlanv6: Classical.choice, Quot.sound, propext
C47_vxlanv6_parse: Classical.choice, Quot.sound, propext
C48_announced: Classical.choice, Quot.sound, propext
C48_even: Classical.choice, Quot.sound, propext
C48_even_ne: Classical.choice, Quot.sound, propext
C48_odd_or_zero: Classical.choice, Quot.sound, propext
C49_gre_routing: Classical.choice, Quot.sound, propext
C49_right_iff: Classical.choice, Quot.sound, propext
C49_routing_ignored: Quot.sound, propext
C50_always_ends: Classical.choice, Quot.sound, propext
C50_deterministic: Classical.choice, Quot.sound, propext
C50_disjoint_setters: Classical.choice, Quot.sound, propext
C50_no_interference: Classical.choice, Quot.sound, propext
C50_race_free_ends: Classical.choice, Quot.sound, propext
C51_exactly: Classical.choice, Quot.sound, propext
C51_neither: Classical.choice, Quot.sound, propext
C51_per_bit: Classical.choice, Quot.sound, propext
C52_exactly: Classical.choice, Quot.sound, propext
C52_no_invented_bits: Classical.choice, Quot.sound, propext
C53_others_unaffected: Classical.choice, Quot.sound, propext
C53_panic_poisons: Classical.choice, Quot.sound, propext
C53_poison_is_permanent: Classical.choice, Quot.sound, propext
C54_cross_replace_deadlock: Quot.sound, propext
C54_hangs_iff: Classical.choice, Quot.sound, propext
C54_replace_copies: Classical.choice, Quot.sound, propext
C54_source_poisoned: Classical.choice, Quot.sound, propext
C55_header_text: Classical.choice, Quot.sound, propext
C55_octets_are_value: Quot.sound, propext
C55_octets_garbled: Classical.choice, Quot.sound, propext
C55_octets_recover: Quot.sound, propext
C55_packet_slice_text: Classical.choice, Quot.sound, propext
C55_packet_text: Classical.choice, Quot.sound, propext
C55_panic: Classical.choice, Quot.sound, propext
C55_predefined: Classical.choice, Quot.sound, propext
C55_slice_same: Classical.choice, Quot.sound, propext
C55_text_determines_fields: Classical.choice, Quot.sound, propext
C56_accessors_refine: Classical.choice, Quot.sound, propext
C56_packets_refine: Classical.choice, Quot.sound, propext
C56_packets_refine_more: Classical.choice, Quot.sound, propext
C56_set_in_packet: Classical.choice, Quot.sound, propext
C57_injective: Classical.choice, Quot.sound, propext
C57_involution: Classical.choice, Quot.sound, propext
C57_involution_frame: Classical.choice, Quot.sound, propext
C58_survives_iff: Classical.choice, Quot.sound, propext
C58_survives_iff_frame: Classical.choice, Quot.sound, propext
C59_edit: Classical.choice, Quot.sound, propext
C59_edit_frame: Classical.choice, Quot.sound, propext
C59_seen: Classical.choice, Quot.sound, propext
C59_seen_frame: Classical.choice, Quot.sound, propext
C59_set_field: Classical.choice, Quot.sound, propext
C60_erspan_version: Quot.sound, propext
C60_ether_type: Quot.sound, propext
C60_ip_protocol: Quot.sound, propext
C60_ip_type: Quot.sound, propext
C60_roundtrip: Quot.sound, propext
C61_compare: Classical.choice, Quot.sound, propext
C61_compare_silent_iff: Classical.choice, Quot.sound, propext
C61_ipv4: Classical.choice, Quot.sound, propext
C61_ipv6: Classical.choice, Quot.sound, propext
C61_lines_exist: Classical.choice, Quot.sound, propext
C61_mac: Classical.choice, Quot.sound, propext
C61_silent_iff: Classical.choice, Quot.sound, propext
C62_octet: Classical.choice, Quot.sound, propext
C62_order: Classical.choice, Quot.sound, propext
C62_word: Classical.choice, Quot.sound, propext
C63_nest: Classical.choice, Quot.sound, propext
C63_nest_frame: Classical.choice, Quot.sound, propext
C63_payload_opaque: Classical.choice, Quot.sound, propext
C64_one_header: Classical.choice, Quot.sound, propext
C64_to_vec: Classical.choice, Quot.sound, propext
C64_two_headers: Classical.choice, Quot.sound, propext
C64_two_headers_backwards: Classical.choice, Quot.sound, propext
C65_atomic_bits: Classical.choice, Quot.sound, propext
C65_no_panic: Classical.choice, Quot.sound, propext
C65_replace_whole: Classical.choice, Quot.sound, propext
C66_deadlock_is_a_cycle: Classical.choice, Quot.sound, propext
C66_every_cycle_deadlocks: Quot.sound, propext
C66_ordered_replace: Classical.choice, Quot.sound, propext
C67_get: Classical.choice, Quot.sound, propext
C67_get_any: Classical.choice, Quot.sound, propext
C67_get_fast: Classical.choice, Quot.sound, propext
C67_get_serialized: Quot.sound, propext
C67_gre_order: Quot.sound, propext
C67_set: Classical.choice, Quot.sound, propext
C67_set_serialized: Classical.choice, Quot.sound, propext
C68_attained: Classical.choice, Quot.sound, propext
C68_attained_fast: Classical.choice, Quot.sound, propext
C68_depth: Classical.choice, Quot.sound, propext
C68_depth_fast: Classical.choice, Quot.sound, propext
C68_enough: Classical.choice, Quot.sound, propext
C68_enough_fast: Classical.choice, Quot.sound, propext
C69_copied: Classical.choice, Quot.sound, propext
C69_erspan2_value: Quot.sound, propext
C69_erspan3: Classical.choice, Quot.sound, propext
C69_erspan3_value: Quot.sound, propext
C69_gre_value: Quot.sound, propext
C69_ipv4ip_value: Quot.sound, propext
C69_ipv6ip_value: Quot.sound, propext
C69_later: Classical.choice, Quot.sound, propext
C69_not_copied: Classical.choice, Quot.sound, propext
C69_poisoned: Classical.choice, Quot.sound, propext
C69_refines: Classical.choice, Quot.sound, propext
C69_vxlan_value: Quot.sound, propext
C69_vxlanv6: Classical.choice, Quot.sound, propext
C69_vxlanv6_value: Quot.sound, propext
C70_guards: Classical.choice, Quot.sound, propext
C70_no_data_race: Classical.choice, Quot.sound, propext
C70_under_lock: Classical.choice, Quot.sound, propext
C71_cut_iff: Classical.choice, Quot.sound, propext
C71_decapsulate: Classical.choice, Quot.sound, propext
C71_pop_iff: Classical.choice, Quot.sound, propext
C71_pop_label: Classical.choice, Quot.sound, propext
C71_tag: Classical.choice, Quot.sound, propext
C71_untag: Classical.choice, Quot.sound, propext
C72_contents: Quot.sound, propext
C72_new_file: Classical.choice, Quot.sound, propext
C72_old_file: Classical.choice, Quot.sound, propext
C72_read: Classical.choice, Quot.sound, propext
C72_stale: Classical.choice, Quot.sound, propext
C72_time: Classical.choice, Quot.sound, propext
C73_header: Classical.choice, Quot.sound, propext
C73_packet: Classical.choice, Quot.sound, propext
C73_poisoned_header: Classical.choice, Quot.sound, propext
C73_short_header: Classical.choice, Quot.sound, propext
C73_show_destroys: Classical.choice, Quot.sound, propext
C74_again: Classical.choice, Quot.sound, propext
C74_frame: Classical.choice, Quot.sound, propext
C74_reparse: Classical.choice, Quot.sound, propext
C75_dot3: Classical.choice, Quot.sound, propext
C75_extension: Classical.choice, Quot.sound, propext
C75_fragment: Classical.choice, Quot.sound, propext
C75_ipv4: Classical.choice, Quot.sound, propext
C75_ipv6: Classical.choice, Quot.sound, propext
C75_tcp: Classical.choice, Quot.sound, propext
C75_udp: Classical.choice, Quot.sound, propext
C76_bytes: Quot.sound, propext
C76_checksum_iff: Classical.choice, Quot.sound, propext
C76_checksum_ones: Classical.choice, Quot.sound, propext
C76_create_erspan2: Classical.choice, Quot.sound, propext
C76_create_erspan3: Classical.choice, Quot.sound, propext
C76_create_gre: Classical.choice, Quot.sound, propext
C76_create_icmp: Classical.choice, Quot.sound, propext
C76_create_icmpv6: Classical.choice, Quot.sound, propext
C76_create_ipv4: Classical.choice, Quot.sound, propext
C76_create_ipv4ip: Classical.choice, Quot.sound, propext
C76_create_tcp: Classical.choice, Quot.sound, propext
C76_create_tcpv6: Classical.choice, Quot.sound, propext
C76_create_udp: Classical.choice, Quot.sound, propext
C76_create_udpv6: Classical.choice, Quot.sound, propext
C76_create_vxlan: Classical.choice, Quot.sound, propext
C76_create_vxlanv6: Classical.choice, Quot.sound, propext
C76_fast_layer: Classical.choice, Quot.sound, propext
C76_fast_parse: Classical.choice, Quot.sound, propext
C76_get_iff: Classical.choice, Quot.sound, propext
C76_ipv4: Classical.choice, Quot.sound, propext
C76_parse: Classical.choice, Quot.sound, propext
C76_set_bytes: Classical.choice, Quot.sound, propext
C76_show: Classical.choice, Quot.sound, propext
C76_show_packet: Classical.choice, Quot.sound, propext
C77_declared_ipv4: Classical.choice, Quot.sound, propext
C77_declared_tcp: Classical.choice, Quot.sound, propext
C77_erspan2: Quot.sound, propext
C77_erspan3: Quot.sound, propext
C77_gre: Quot.sound, propext
C77_icmp4: Classical.choice, Quot.sound, propext
C77_icmp6: Classical.choice, Quot.sound, propext
C77_ignored: Quot.sound, propext
C77_tcp4: Classical.choice, Quot.sound, propext
C77_tcp6: Classical.choice, Quot.sound, propext
C77_udp4: Classical.choice, Quot.sound, propext
C77_udp6: Classical.choice, Quot.sound, propext
C77_untagged: Quot.sound, propext
C77_vxlan4: Classical.choice, Quot.sound, propext
C77_vxlan6: Classical.choice, Quot.sound, propext
C78_assign: propext
C78_case: 
C78_clone_add: Classical.choice, Quot.sound, propext
C78_lookup: Quot.sound, propext
C78_methods: Quot.sound, propext
C78_only_by_assignment: Classical.choice, Quot.sound, propext
C78_owned: Classical.choice, Quot.sound, propext
C78_packet_slice: propext
C78_push: Quot.sound, propext
C78_refines: Classical.choice, Quot.sound, propext
C78_slice_set: Quot.sound, propext
C78_to_vec: Classical.choice, Quot.sound, propext
C78_whole: Classical.choice, Quot.sound, propext
C79_clone: Classical.choice, Quot.sound, propext
C79_compare: Classical.choice, Quot.sound, propext
C79_one_setter: Classical.choice, Quot.sound, propext
C79_true_never_equal: Classical.choice, Quot.sound, propext
C79_undisturbed: Classical.choice, Quot.sound, propext
C80_accepts_iff: Classical.choice, Quot.sound, propext
C80_complete: Classical.choice, Quot.sound, propext
C80_layer: Classical.choice, Quot.sound, propext
C80_payload: Classical.choice, Quot.sound, propext
C80_prefix_code: Classical.choice, Quot.sound, propext
C80_threshold: Classical.choice, Quot.sound, propext
C80_threshold_fast: Classical.choice, Quot.sound, propext
C80_threshold_layer: Classical.choice, Quot.sound, propext
C81_accepted: Quot.sound, propext
C81_accepted_fast: Quot.sound, propext
C81_bound: Classical.choice, Quot.sound, propext
C81_not_linear: Classical.choice, Quot.sound, propext
C81_quadratic: Classical.choice, Quot.sound, propext
C81_refused: Quot.sound, propext
C81_refused_fast: Quot.sound, propext
C81_same: Quot.sound, propext
C82_arp: Quot.sound, propext
C82_erspan2: Classical.choice, Quot.sound, propext
C82_erspan3: Classical.choice, Quot.sound, propext
C82_gre: Classical.choice, Quot.sound, propext
C82_icmp: Classical.choice, Quot.sound, propext
C82_icmpv6: Classical.choice, Quot.sound, propext
C82_ipip: Quot.sound, propext
C82_ipv4: Classical.choice, Quot.sound, propext
C82_ipv6: Quot.sound, propext
C82_tcp: Classical.choice, Quot.sound, propext
C82_tcpv6: Classical.choice, Quot.sound, propext
C82_udp: Classical.choice, Quot.sound, propext
C82_udpv6: Classical.choice, Quot.sound, propext
C82_vlan: Quot.sound, propext
C82_vxlan: Classical.choice, Quot.sound, propext
C82_vxlanv6: Classical.choice, Quot.sound, propext
C83_arp: Classical.choice, Quot.sound, propext
C83_erspan2: Classical.choice, Quot.sound, propext
C83_erspan3: Classical.choice, Quot.sound, propext
C83_erspan3_ambiguous: Classical.choice, Quot.sound, propext
C83_eth: Classical.choice, Quot.sound, propext
C83_gre: Classical.choice, Quot.sound, propext
C83_icmp: Classical.choice, Quot.sound, propext
C83_icmpv6: Classical.choice, Quot.sound, propext
C83_ipip: Classical.choice, Quot.sound, propext
C83_ipv4: Classical.choice, Quot.sound, propext
C83_ipv6: Classical.choice, Quot.sound, propext
C83_tcp: Classical.choice, Quot.sound, propext
C83_tcpv6: Classical.choice, Quot.sound, propext
C83_transports6: Classical.choice, Quot.sound, propext
C83_transports: Classical.choice, Quot.sound, propext
C83_udp: Classical.choice, Quot.sound, propext
C83_udpv6: Classical.choice, Quot.sound, propext
C83_versions: Classical.choice, Quot.sound, propext
C83_vxlan: Classical.choice, Quot.sound, propext
C83_vxlanv6: Classical.choice, Quot.sound, propext
C83_vxlanv6_inner: Quot.sound, propext
C84_accepts_iff: Classical.choice, Quot.sound, propext
C84_frame: Classical.choice, Quot.sound, propext
C84_hidden: Classical.choice, Quot.sound, propext
C84_inner_kept: Classical.choice, Quot.sound, propext
C84_length: Classical.choice, Quot.sound, propext
C84_returns_iff: Classical.choice, Quot.sound, propext
C85_end_of_header_not_shown: Classical.choice, Quot.sound, propext
C85_frames: Classical.choice, Quot.sound, propext
C85_slices_print_alike: Classical.choice, Quot.sound, propext
C85_text_determines: Classical.choice, Quot.sound, propext
C85_text_iff: Classical.choice, Quot.sound, propext
C86_arp: Classical.choice, Quot.sound, propext
C86_erspan2: Classical.choice, Quot.sound, propext
C86_icmp: Classical.choice, Quot.sound, propext
C86_icmpv6: Classical.choice, Quot.sound, propext
C86_tcp: Classical.choice, Quot.sound, propext
C86_tcpv6: Classical.choice, Quot.sound, propext
C86_udp: Classical.choice, Quot.sound, propext
C86_udpv6: Classical.choice, Quot.sound, propext
C86_vxlan: Classical.choice, Quot.sound, propext
C87_formats: Classical.choice, Quot.sound, propext
C87_read: Classical.choice, Quot.sound, propext
C87_table: 
C87_write: Classical.choice, Quot.sound, propext
C88_frames: Classical.choice, Quot.sound, propext
C88_ipv4: Quot.sound, propext
C88_sizes: 
C88_stacks: Classical.choice, Quot.sound, propext
C88_udp_read_as_tcp: Classical.choice, Quot.sound, propext
C88_values: Classical.choice, Quot.sound, propext
C89_arp: Classical.choice, Quot.sound, propext
C89_erspan2: Classical.choice, Quot.sound, propext
C89_erspan3: Classical.choice, Quot.sound, propext
C89_eth: Classical.choice, Quot.sound, propext
C89_gre: Classical.choice, Quot.sound, propext
C89_icmp: Classical.choice, Quot.sound, propext
C89_icmpv6: Classical.choice, Quot.sound, propext
C89_ipv4: Classical.choice, Quot.sound, propext
C89_ipv4ip: Classical.choice, Quot.sound, propext
C89_ipv6: Classical.choice, Quot.sound, propext
C89_ipv6ip: Classical.choice, Quot.sound, propext
C89_tcp: Classical.choice, Quot.sound, propext
C89_tcpv6: Classical.choice, Quot.sound, propext
C89_udp: Classical.choice, Quot.sound, propext
C89_udpv6: Classical.choice, Quot.sound, propext
C89_vxlan: Classical.choice, Quot.sound, propext
C89_vxlanv6: Classical.choice, Quot.sound, propext
C90_any_order: Classical.choice, Quot.sound, propext
C90_determined: propext
C90_history: Classical.choice, Quot.sound, propext
C90_overwritten: Classical.choice, Quot.sound, propext
C90_panics: Classical.choice, Quot.sound, propext
C90_read: Classical.choice, Quot.sound, propext
C90_same_iff: Classical.choice, Quot.sound, propext
C91_bytes: Classical.choice, Quot.sound, propext
C91_groups: Classical.choice, Quot.sound, propext
C91_header: Classical.choice, Quot.sound, propext
C91_injective: Classical.choice, Quot.sound, propext
C91_parser: Classical.choice, Quot.sound, propext
C91_quad: Classical.choice, Quot.sound, propext
C91_unambiguous: Classical.choice, Quot.sound, propext
C91_unspecified: Classical.choice, Quot.sound, propext
C91_writable: Classical.choice, Quot.sound, propext
C91_written: Classical.choice, Quot.sound, propext
C92_body: Classical.choice, Quot.sound, propext
C92_fails: Classical.choice, Quot.sound, propext
C92_panics_iff: Classical.choice, Quot.sound, propext
C92_right: Classical.choice, Quot.sound, propext
C92_same_header: Classical.choice, Quot.sound, propext
C92_test: Classical.choice, Quot.sound, propext
C92_value: Classical.choice, Quot.sound, propext
C93_build: Classical.choice, Quot.sound, propext
C93_counts: Classical.choice, Quot.sound, propext
C93_drop_hdr: Classical.choice, Quot.sound, propext
C93_drop_pkt: Classical.choice, Quot.sound, propext
C93_frame: Classical.choice, Quot.sound, propext
C93_freed_iff: Classical.choice, Quot.sound, propext
C93_frees: Classical.choice, Quot.sound, propext
C93_held: Classical.choice, Quot.sound, propext
C93_no_leak: Classical.choice, Quot.sound, propext
C93_safe: Classical.choice, Quot.sound, propext
C94_line: Classical.choice, Quot.sound, propext
C94_lines: Classical.choice, Quot.sound, propext
C94_predefined: Classical.choice, Quot.sound, propext
C94_readme_header: Classical.choice, Quot.sound, propext
C94_readme_ipv4: Classical.choice, Quot.sound, propext
C94_text_attained: Classical.choice, Quot.sound, propext
C94_text_form: Classical.choice, Quot.sound, propext
C94_values: Classical.choice, Quot.sound, propext
C95_determined_iff: Classical.choice, Quot.sound, propext
C95_len_iff: Classical.choice, Quot.sound, propext
C95_predefined: Classical.choice, Quot.sound, propext
C95_record_iff: Classical.choice, Quot.sound, propext
C95_slice_iff: Classical.choice, Quot.sound, propext
C96_counted: Classical.choice, Quot.sound, propext
C96_getter: Classical.choice, Quot.sound, propext
C96_locks: Classical.choice, Quot.sound, propext
C96_setter: Classical.choice, Quot.sound, propext
C97_icmp4: Classical.choice, Quot.sound, propext
C97_icmp6: Classical.choice, Quot.sound, propext
C97_tcp4: Classical.choice, Quot.sound, propext
C97_tcp6: Classical.choice, Quot.sound, propext
C97_udp4: Classical.choice, Quot.sound, propext
C97_udp6: Classical.choice, Quot.sound, propext
C97_vxlan4: Classical.choice, Quot.sound, propext
C97_vxlan6: Classical.choice, Quot.sound, propext
C98_fast: Classical.choice, Quot.sound, propext
C98_icmp: Classical.choice, Quot.sound, propext
C98_padding: Classical.choice, Quot.sound, propext
C98_tcp: Classical.choice, Quot.sound, propext
C98_udp: Classical.choice, Quot.sound, propext
C99_destination: Classical.choice, Quot.sound, propext
C99_forward: Classical.choice, Quot.sound, propext
C99_no_options: propext
C99_source: Classical.choice, Quot.sound, propext
