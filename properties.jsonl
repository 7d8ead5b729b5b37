{"id": "C01", "title": "Field getter reads the network-order bits", "statement": "For every header made from a byte buffer and every field of 1..64 bits that lies inside the buffer, the generated getter returns exactly the unsigned big-endian number formed by bits start..end of the buffer (bit 0 = most significant bit of byte 0); it never panics and the result is below 2^width.", "quantifier": "every buffer, every header layout, every field range of width 1..64 inside the buffer, both overflow-check profiles", "why_tests_cant": "the space of buffers, offsets and widths is unbounded; unit tests only fix a few layouts", "anchors": ["src/headers.rs:make_header! bit_range", "src/headers.rs:make_header! $field"]}
{"id": "C02", "title": "Set then get returns the value truncated to the field width", "statement": "After set_<field>(v) on a header whose buffer contains the field, <field>() returns v mod 2^width, for every v: u64.", "quantifier": "every buffer, layout, field of width 1..64, and every 64-bit value", "why_tests_cant": "2^64 values times every layout and prior content", "anchors": ["src/headers.rs:make_header! set_bit_range", "src/headers.rs:make_header! set_$field"]}
{"id": "C03", "title": "Setting a field changes nothing else", "statement": "set_<field>(v) keeps the buffer length and every bit outside start..end; hence the getter of every non-overlapping field returns the same value before and after.", "quantifier": "every buffer, field, value, and every other field disjoint from it", "why_tests_cant": "frame property: needs all other bits for all contents", "anchors": ["src/headers.rs:make_header! set_bit_range"]}
{"id": "C04", "title": "Sets are idempotent, last-write-wins and commute on disjoint fields", "statement": "Writing back the value just read leaves the buffer unchanged; two writes to one field equal the second write alone; writes to two non-overlapping fields give the same buffer in either order.", "quantifier": "every buffer, pair of fields and pair of values", "why_tests_cant": "algebraic laws over all states and values", "anchors": ["src/headers.rs:make_header! set_bit_range"]}
{"id": "C05", "title": "Every bit of a predefined header belongs to exactly one field", "statement": "For each of the 21 predefined protocol headers the declared fields tile the header: they are inside it, do not overlap and cover every bit; so two headers of the same kind with equal fields have equal bytes.", "quantifier": "all predefined headers (finite table) and, for the byte-determination part, all pairs of buffers", "why_tests_cant": "tests read a handful of fields; the determination claim quantifies over all buffers", "anchors": ["src/headers.rs:make_header! invocations 529-827"]}
{"id": "C06", "title": "bytes/set_bytes round trip with frame", "statement": "For every byte-multiple bit range inside the header (aligned or not), set_bytes(msb,lsb,v) followed by bytes(msb,lsb) returns v, all bits outside the range are unchanged; bytes returns the consecutive octets of that range.", "quantifier": "every buffer, every range whose length is 8*n, every v of length n", "why_tests_cant": "unbounded ranges, alignments and contents", "anchors": ["src/headers.rs:make_header! bytes", "src/headers.rs:make_header! set_bytes"]}
{"id": "C07", "title": "Getters of fields wider than 64 bits", "statement": "A getter of a field of more than 64 bits (IPv6 src/dst) panics when overflow checks are on; when they are off it returns the field modulo 2^k, k = 64 if the width is a multiple of 64 and width mod 64 otherwise. The setter of such a field stores the value in the low 64 bits and zeroes the rest.", "quantifier": "every buffer and every field wider than 64 bits, both profiles", "why_tests_cant": "depends on arithmetic wrap-around for all widths and contents; no test calls IPv6::src()", "anchors": ["src/headers.rs:make_header! bit_range", "src/headers.rs:IPv6"]}
{"id": "C08", "title": "Field accessors panic exactly on short buffers, and a failed set leaves the bytes intact", "statement": "A getter or setter of a field of 1..64 bits panics iff the last byte of the field is outside the buffer; a panicking setter has not modified any byte of the buffer.", "quantifier": "every buffer (including shorter than the declared size), every field, every value", "why_tests_cant": "requires all truncations at all lengths; crash-point property of the bit loop", "anchors": ["src/headers.rs:make_header! bit_range", "src/headers.rs:make_header! set_bit_range", "src/headers.rs:impl From<Vec<u8>>"]}
{"id": "C09", "title": "Slice header getters agree with owned header getters", "statement": "For a slice of at least the declared size, every getter and bytes() of the Slice header returns what the owned header made from the first size bytes returns, and as_slice is those bytes.", "quantifier": "every slice and every layout and field", "why_tests_cant": "quantifies over all contents and layouts", "anchors": ["src/headers.rs:[<$name Slice>]"]}
{"id": "C10", "title": "to_vec is the headers in order, then the payload", "statement": "Packet::to_vec equals the concatenation of the to_vec of each header in packet order followed by payload(). A header made from a byte vector of any length serializes to exactly that vector, one made by new() to its default data.", "quantifier": "every packet", "why_tests_cant": "all packets of all sizes", "anchors": ["src/packet.rs:Packet::to_vec"]}
{"id": "C11", "title": "push/insert/pop/remove behave as list operations for every history", "statement": "For any sequence of push, insert, pop, remove(i), set_payload starting from Packet::new(), the headers are those of the same operations on a plain list (push = append, insert = prepend, pop = drop last or nothing when empty, remove(i) = erase index i or nothing when out of range) and no operation panics.", "quantifier": "every operation sequence", "why_tests_cant": "unbounded histories", "anchors": ["src/packet.rs:push", "src/packet.rs:insert", "src/packet.rs:pop", "src/packet.rs:remove"]}
{"id": "C12", "title": "len equals the serialized length when every header has its declared size", "statement": "Packet::len() = sum of declared header sizes + payload length; it equals to_vec().len() whenever each header buffer has its declared size. ICMP::new() does not satisfy this (6 bytes for a 4 byte header), so for a packet holding it len() differs from to_vec().len().", "quantifier": "every packet", "why_tests_cant": "all packets; the ICMP default breaks the expectation and no test looks at it", "anchors": ["src/packet.rs:Packet::len", "src/headers.rs:ICMP"]}
{"id": "C13", "title": "compare and compare_with_slice decide byte equality", "statement": "For packets whose headers have their declared size, compare_with_slice(b) is true iff to_vec() == b and compare is an equivalence relation that is true iff the serializations are equal. Without that hypothesis a packet may even differ from itself (ICMP::new()).", "quantifier": "every pair of packets and every slice", "why_tests_cant": "all pairs of byte strings of all lengths", "anchors": ["src/packet.rs:compare", "src/packet.rs:compare_with_slice"]}
{"id": "C14", "title": "Header lookup returns the first header with that name and the right type", "statement": "get_header::<T>(name) returns Ok(h) iff h is the first header whose name is `name` and its type is T; otherwise Err. Index panics iff there is no header of that name. Assigning a header to pkt[name] puts it, whatever its own type, in the place of the first header of that name.", "quantifier": "every packet, name and type", "why_tests_cant": "all packets, duplicates, and user types sharing a name", "anchors": ["src/packet.rs:get_header", "src/packet.rs:Index", "src/packet.rs:IndexMut"]}
{"id": "C15", "title": "Mutating a header through get_header_mut/IndexMut touches only the first header with that name", "statement": "Setting a field of the header obtained from get_header_mut or IndexMut changes the bits of that field in the first header of that name and nothing else in the packet when its headers do not share storage (all other headers, order, payload).", "quantifier": "every packet, name, field, value", "why_tests_cant": "frame property over all packets", "anchors": ["src/packet.rs:get_header_mut", "src/packet.rs:IndexMut"]}
{"id": "C16", "title": "set_payload appends", "statement": "set_payload(p) makes payload() equal to the old payload followed by p; so payload() == p holds afterwards iff the payload was empty before.", "quantifier": "every packet and payload, every history of set_payload calls", "why_tests_cant": "unbounded histories; tests call it once", "anchors": ["src/packet.rs:set_payload"]}
{"id": "C17", "title": "Packet addition concatenates headers and keeps only the left payload", "statement": "(a + b) has a's headers then b's headers and a's payload; b's payload is dropped; addition is associative.", "quantifier": "every pair/triple of packets", "why_tests_cant": "all packets", "anchors": ["src/packet.rs:Add for Packet"]}
{"id": "C18", "title": "Clones serialize identically and share header storage with the original", "statement": "p.clone() serializes to the same bytes; a later write of any field through either packet is visible through both (headers share storage), while push/insert/pop/remove/set_payload on one do not affect the other.", "quantifier": "every reachable heap, packet, field and value", "why_tests_cant": "aliasing must hold for every history; the only clone test never writes afterwards", "anchors": ["src/packet.rs:clone_me", "src/headers.rs:make_header! clone"]}
{"id": "C19", "title": "Packets without common ancestry are isolated", "statement": "In every state reachable by any sequence of API operations, writing a field through one header handle changes the serialization of another packet only if that packet holds a header obtained from the same constructor call (via clone, + or lookup); freshly constructed, converted or parsed headers are never aliased with older ones.", "quantifier": "every sequence of API operations, every pair of handles", "why_tests_cant": "unbounded histories and alias patterns", "anchors": ["src/headers.rs:From<Vec<u8>>", "src/headers.rs:make_header! new", "src/packet.rs:clone_me", "src/packet.rs:Add for Packet"]}
{"id": "C20", "title": "Both parsers terminate on every input", "statement": "slow::parse*, fast::parse* return a packet or panic on every byte slice of any length and any nesting; they never loop, and the number of headers produced is at most a third of the input length.", "quantifier": "every byte slice and every parser entry point", "why_tests_cant": "unbounded inputs and nesting depth", "anchors": ["src/parser/slow.rs", "src/parser/fast.rs"]}
{"id": "C21", "title": "Parsing follows the dissection grammar, soundly and completely", "statement": "slow::parse_<layer>(b) returns headers hs and payload pl iff (layer, b) dissects into hs, pl by the declarative grammar (header sizes, EtherType / IP protocol / UDP port 4789 / GRE flag / ERSPAN o-bit / LLC-SNAP dispatch on the raw octets).", "quantifier": "every byte slice and every entry point", "why_tests_cant": "unbounded inputs; a test covers only chosen stacks", "anchors": ["src/parser/slow.rs"]}
{"id": "C22", "title": "Parsing panics exactly on truncation", "statement": "slow::parse_<layer>(b) panics iff b does not dissect, i.e. some header required by the dispatch chain does not fit in the remaining bytes.", "quantifier": "every byte slice and every entry point", "why_tests_cant": "all truncation points of all frames", "anchors": ["src/parser/slow.rs"]}
{"id": "C23", "title": "Re-serializing a parsed packet gives back the frame except for GRE option order", "statement": "slow::parse(b).to_vec() == b for every parsable frame in which no GRE header carries two or more of checksum/key/sequence options. With two or more, the options come back in reverse order (sequence, key, checksum), so the bytes can differ; the length always agrees.", "quantifier": "every parsable byte slice", "why_tests_cant": "all frames; the GRE reordering is in no test", "anchors": ["src/parser/slow.rs:parse_gre", "src/packet.rs:to_vec"]}
{"id": "C24", "title": "Parsed packet accounts for every byte", "statement": "For every parsable frame, parse(b).len() == b.len(), every header has exactly its declared size, the payload is a suffix of b, and the serialization is a permutation of b.", "quantifier": "every parsable byte slice", "why_tests_cant": "all frames", "anchors": ["src/parser/slow.rs", "src/packet.rs:len"]}
{"id": "C25", "title": "Trailing bytes only extend the payload", "statement": "If b parses to headers hs with payload pl then b ++ x parses to the same headers with payload pl ++ x.", "quantifier": "every parsable b and every suffix x", "why_tests_cant": "all pairs of inputs", "anchors": ["src/parser/slow.rs", "src/parser/fast.rs"]}
{"id": "C26", "title": "Fast and slow parser agree", "statement": "For every slice, fast::parse* and slow::parse* either both panic or both return; then they give the same header kinds with the same bytes in the same order, and the same payload, so every getter agrees and to_vec/len agree.", "quantifier": "every byte slice and entry point", "why_tests_cant": "all inputs; two 227-line files kept in sync by hand", "anchors": ["src/parser/slow.rs", "src/parser/fast.rs"]}
{"id": "C27", "title": "The fast parser is zero-copy and memory safe", "statement": "Every header slice and the payload slice returned by fast::parse* is a window inside the input slice with exactly the declared size; the windows are disjoint and tile the input (in order, up to GRE options). The unchecked from_raw_parts never reaches beyond the slice it is given. Called directly on a slice shorter than the header, XSlice::from does produce an out-of-bounds window.", "quantifier": "every byte slice", "why_tests_cant": "memory safety must hold for every input", "anchors": ["src/parser/fast.rs", "src/headers.rs:[<$name Slice>]::from"]}
{"id": "C28", "title": "802.3 versus Ethernet II boundary", "statement": "parse treats a frame as 802.3 iff its type/length field is strictly below 1500; a frame of at least 14 bytes with value exactly 1500 is parsed as Ethernet II. Frames shorter than 14 bytes panic.", "quantifier": "every byte slice", "why_tests_cant": "boundary over all 65536 values and all contents", "anchors": ["src/parser/slow.rs:parse", "src/parser/fast.rs:parse"]}
{"id": "C29", "title": "MPLS stack parsing consumes one label past bottom of stack", "statement": "Parsing an MPLS stack of n labels whose bottom-of-stack bit is set only on the n-th yields n+1 MPLS headers, for every n: the four octets following the bottom label are taken as an MPLS header before the IP version nibble is examined.", "quantifier": "every stack depth n >= 1, every label content and every rest of frame", "why_tests_cant": "unbounded depth by induction; no MPLS test exists", "anchors": ["src/parser/slow.rs:parse_mpls", "src/parser/slow.rs:parse_mpls_bos"]}
{"id": "C30", "title": "Arbitrarily deep VLAN and IP-in-IP nesting is parsed completely", "statement": "For every n, a frame with n stacked VLAN tags (or n nested IPIP headers) parses into n Vlan (IPv4) headers in wire order with unchanged bytes followed by the parse of the inner data.", "quantifier": "every depth and all header contents", "why_tests_cant": "unbounded depth", "anchors": ["src/parser/slow.rs:parse_vlan", "src/parser/slow.rs:parse_ipv4"]}
{"id": "C31", "title": "MAC text conversion", "statement": "to_mac_bytes of six ':'-separated components each denoting a hex byte returns these six bytes in order (upper or lower case); a component that is not a valid u8 in hex yields 0 for that byte and leaves the others; fewer than six components leave trailing zeros; more than six panic.", "quantifier": "every string", "why_tests_cant": "unbounded strings", "anchors": ["src/packet.rs:to_mac_bytes"]}
{"id": "C32", "title": "IPv4 text conversion", "statement": "to_ipv4_bytes of a dotted-decimal text of four octets returns these octets; an invalid or >255 component yields 0 for that octet only; fewer than four leave zeros; more than four panic.", "quantifier": "every string", "why_tests_cant": "unbounded strings", "anchors": ["src/packet.rs:to_ipv4_bytes"]}
{"id": "C33", "title": "Ethernet, ARP, UDP, ICMP, GRE-option constructors read back", "statement": "Each field getter of Packet::ethernet/dot3/arp/udp/icmp/gre_chksum_offset/gre_sequence_number/gre_key returns the corresponding argument (addresses as converted), fixed fields their constants, and the header has its declared size.", "quantifier": "all argument values and all address strings that convert", "why_tests_cant": "full product of argument ranges", "anchors": ["src/packet.rs:ethernet", "src/packet.rs:arp", "src/packet.rs:udp", "src/packet.rs:icmp"]}
{"id": "C34", "title": "Bit-packed constructors read back for in-range arguments", "statement": "For arguments within their field widths, every getter of Packet::vlan/ipv4/ipv6/tcp/vxlan/gre/erspan2/erspan3 returns the argument (vlan: cfi argument ignored, reads 0; gre: recurse 0; vxlan: flags 8).", "quantifier": "all in-range argument values", "why_tests_cant": "full product of argument ranges", "anchors": ["src/packet.rs:vlan", "src/packet.rs:ipv4", "src/packet.rs:ipv6", "src/packet.rs:tcp", "src/packet.rs:vxlan", "src/packet.rs:gre", "src/packet.rs:erspan2", "src/packet.rs:erspan3"]}
{"id": "C35", "title": "Out-of-range arguments spill into neighbouring fields", "statement": "vlan/ipv4/ipv6/tcp/gre/erspan: an argument wider than its field is OR-ed into the adjacent field (e.g. Packet::vlan with vid >= 4096 alters pcp/cfi); the read-back of the field itself is still the argument modulo its width, and unrelated fields are unaffected. Packet::vxlan drops the top 8 bits of the VNI.", "quantifier": "all argument values", "why_tests_cant": "full product of argument ranges", "anchors": ["src/packet.rs:vlan", "src/packet.rs:ipv4", "src/packet.rs:tcp", "src/packet.rs:vxlan"]}
{"id": "C36", "title": "Packet::mpls does not encode its label", "statement": "Packet::mpls(label, exp, bos, ttl) yields a header whose label field is not the argument: the label field reads (label*2^8 | exp*2^11 | bos*2^12) mod 2^20 and exp and bos always read 0; the label reads back iff label = exp*2^11 | bos*2^12 | (exp mod 2)*2^19, i.e. only if it is the number exp and bos put there by themselves. Only ttl is encoded faithfully.", "quantifier": "all argument values", "why_tests_cant": "full product of argument ranges; no test", "anchors": ["src/packet.rs:mpls"]}
{"id": "C37", "title": "Packet::snap swaps OUI octets", "statement": "Packet::snap(oui, code): the code reads back; the oui field reads ((oui mod 2^16) * 2^8 + (oui / 2^16) mod 2^8), which equals oui iff oui = 0x010101 * b for a byte b (for oui < 2^24).", "quantifier": "all argument values", "why_tests_cant": "full range of 2^32 values; no test", "anchors": ["src/packet.rs:snap"]}
{"id": "C38", "title": "Packet::llc returns a truncated Dot3", "statement": "Packet::llc(d,s,c) is a Dot3 header holding 3 bytes: len() is 14, to_vec() is [d,s,c], every Dot3 field getter panics; so in a packet whose other headers have their declared sizes len() exceeds to_vec().len() by 11 for each such header.", "quantifier": "all argument values", "why_tests_cant": "quantifies over all arguments; no test", "anchors": ["src/packet.rs:llc"]}
{"id": "C39", "title": "ipv4_checksum terminates and is RFC 1071 correct exactly when folding once does not carry", "statement": "For every buffer of even length < 2^17 the function returns; for a 20 byte header the returned checksum makes the header verify (one's complement sum = 0xFFFF) iff (S >> 16) + (S & 0xFFFF) < 65536 where S is the word sum without the checksum word. When it carries the checksum is wrong by one.", "quantifier": "every buffer", "why_tests_cant": "the failing sums are rare (about 1 header in 10^4) and the test uses no header with such a sum (C92)", "anchors": ["src/packet.rs:ipv4_checksum"]}
{"id": "C40", "title": "ipv4_checksum ignores the checksum field and panics exactly on odd lengths other than 11", "statement": "The result does not depend on bytes 10 and 11; the call panics iff the length is odd and different from 11 (below the u32 overflow bound).", "quantifier": "every buffer", "why_tests_cant": "all buffers and lengths", "anchors": ["src/packet.rs:ipv4_checksum"]}
{"id": "C41", "title": "Packet builders produce the documented header stack and payload", "statement": "Every create_* builder returns, for all arguments whose MAC and IPv4 addresses convert (and, for IP-in-IP and GRE, an inner packet that is not empty), exactly the stack Ether, (Vlan iff vlan_enable), L3, L4/tunnel headers in that order, with the contents the constructors give, and the payload or the inner packet's bytes as payload (create_vxlanv6 and create_erspan_3 put the inner headers before it once more); otherwise it panics.", "quantifier": "all arguments and payloads", "why_tests_cant": "product of all argument ranges and payload lengths", "anchors": ["src/utils.rs"]}
{"id": "C42", "title": "IPv4 builders set total_len and UDP length to the true sizes modulo 2^16", "statement": "In create_ipv4/tcp/udp/icmp/vxlan/ipv4ip/gre(without routing) packets the IPv4 total_len equals the number of bytes from the IPv4 header to the end of the packet modulo 65536, and the UDP length equals the bytes from the UDP header modulo 65536; likewise payload_len in create_ipv6/ipv6ip/tcpv6/udpv6/icmpv6 packets (create_vxlanv6: C47, create_erspan: C46).", "quantifier": "all arguments and payload lengths", "why_tests_cant": "unbounded payloads", "anchors": ["src/utils.rs"]}
{"id": "C43", "title": "IPv4 builders leave a checksum consistent with the final header, except VXLAN", "statement": "In create_ipv4/tcp/udp/icmp/gre/erspan packets header_checksum equals ipv4_checksum of the final IPv4 header. create_vxlan_packet changes total_len after computing the checksum, so there the stored checksum is never that of the final header.", "quantifier": "all arguments", "why_tests_cant": "all argument combinations", "anchors": ["src/utils.rs"]}
{"id": "C44", "title": "Parsing a built packet returns the same packet", "statement": "slow::parse(create_X(..).to_vec()) equals create_X(..) header by header with the same payload, for X = arp, tcp, icmp, tcpv6, icmpv6 for all arguments, for udp/udpv6 whenever udp_dst != 4789 (at 4789 the payload is parsed as VXLAN).", "quantifier": "all arguments and payloads", "why_tests_cant": "product of all arguments and payloads", "anchors": ["src/utils.rs", "src/parser/slow.rs"]}
{"id": "C45", "title": "Tunnel builders embed the inner packet", "statement": "Parsing a built VXLAN (dst port 4789), IPIP or GRE (at most one option) packet returns the outer headers followed by the parse of the inner packet's bytes from the matching entry point.", "quantifier": "all arguments and all inner packets", "why_tests_cant": "all inner packets", "anchors": ["src/utils.rs", "src/parser/slow.rs"]}
{"id": "C46", "title": "ERSPAN builders count the inner packet twice", "statement": "create_erspan_2_packet and create_erspan_3_packet set total_len to 20 + tunnel headers + inner.to_vec().len() + inner.len() (mod 65536), i.e. too large by inner.len() in ERSPAN II: wrong unless that is a multiple of 65536.", "quantifier": "all arguments and inner packets", "why_tests_cant": "all inner packets; no test reads total_len", "anchors": ["src/utils.rs:create_erspan_2_packet", "src/utils.rs:create_erspan_3_packet"]}
{"id": "C47", "title": "create_vxlanv6_packet and create_erspan_3_packet emit the inner headers twice", "statement": "The bytes after the tunnel headers are the inner headers followed by the whole inner packet again (inner headers and inner payload).", "quantifier": "all arguments and inner packets", "why_tests_cant": "all inner packets; the only test compares with its own reparse", "anchors": ["src/utils.rs:create_vxlanv6_packet", "src/utils.rs:create_erspan_3_packet"]}
{"id": "C48", "title": "create_erspan_3_packet announces the sequence number iff it is odd", "statement": "The GRE seqnum_present bit equals the low bit of gre_seqnum while the sequence header is present iff gre_seqnum != 0; so for every non-zero even value the parser does not see the sequence header.", "quantifier": "all sequence numbers and arguments", "why_tests_cant": "2^32 values; test uses 23 only", "anchors": ["src/utils.rs:create_erspan_3_packet"]}
{"id": "C49", "title": "create_gre_packet counts routing bytes it never emits", "statement": "With routing_present the IPv4 total_len exceeds the emitted bytes by the routing length (mod 65536) and routing bytes do not appear in the packet.", "quantifier": "all arguments", "why_tests_cant": "all routing lengths", "anchors": ["src/utils.rs:create_gre_packet"]}
{"id": "C50", "title": "Concurrent setters of disjoint fields never interfere", "statement": "For any number of threads running arbitrary programs of field and byte-range accesses, to_vec and replace on headers that share storage, where no thread writes a bit another thread reads or writes and all accesses are inside the buffers, which are not empty: every interleaving of the lock-protected steps ends, never deadlocks or panics, and ends in the same state, in which each thread returned, and its bits hold, what it alone would have computed, and bits nobody writes are unchanged. In particular setters of pairwise disjoint fields all take effect and nothing else changes.", "quantifier": "every schedule, any number of threads, all values and fields", "why_tests_cant": "exponentially many schedules", "anchors": ["src/headers.rs:make_header! set_bit_range", "src/headers.rs:ProtectedArray"]}
{"id": "C51", "title": "Concurrent writes of one field mix per bit", "statement": "When finitely many threads each set a field through shared storage (fields may coincide or overlap), the final contents reachable by some schedule are exactly those in which every bit somebody writes equals that bit of one of the written values and every other bit is unchanged; so if two values differ in two bits of the field, there is a schedule ending with a value nobody wrote.", "quantifier": "every schedule and all values", "why_tests_cant": "exponentially many schedules", "anchors": ["src/headers.rs:make_header! set_bit_range"]}
{"id": "C52", "title": "A getter concurrent with a setter may tear but invents no bits", "statement": "A getter running concurrently with any setters on shared storage returns a value below 2^width each bit of which is the old bit or that bit of a written value. Against one setter the values it can return are exactly those that have, for some split point, the old bits on the most significant side of the split and the bits after the set on the other; in particular values that are neither old nor new.", "quantifier": "every schedule and all values", "why_tests_cant": "exponentially many schedules", "anchors": ["src/headers.rs:make_header! bit_range"]}
{"id": "C53", "title": "A panic inside an accessor poisons every alias", "statement": "If an accessor panics because the buffer is too short, then every later accessor, to_vec or replace through any handle sharing that storage panics, in every later history; handles to other storage are unaffected.", "quantifier": "every heap, every later history", "why_tests_cant": "crash point followed by any history", "anchors": ["src/headers.rs:make_header! bit_range", "src/headers.rs:make_header! to_vec"]}
{"id": "C54", "title": "replace copies contents, deadlocks on aliases, and empties the target when the source is poisoned", "statement": "a.replace(&b) makes a's bytes equal to b's and changes nothing else when they do not share storage; if they share storage that is not poisoned the call never returns; if b is poisoned the call panics and leaves a empty and poisoned. Two threads running a.replace(&b) and b.replace(&a) can deadlock.", "quantifier": "every heap and pair of handles, every schedule", "why_tests_cant": "schedule and crash dependent", "anchors": ["src/headers.rs:make_header! replace"]}
{"id": "C55", "title": "show prints every field but garbles widths that are not a multiple of 8", "statement": "show() of any header (owned or slice) with enough data prints two head lines and one line per field and does not panic. For widths up to 8 or multiples of 8 the printed octets, read in base 256, are the field's value; for every other width w, r = w mod 8, the last octet covers r+1 bits (one bit is printed twice), so the printed octets are the value iff the value is below 2^r. The text still determines every field: two headers of one type print the same text iff all fields agree. If the buffer is too short, show() panics after printing exactly the part that is inside. A packet prints its headers in order and then all its bytes, sixteen to a line.", "quantifier": "every buffer, layout and packet", "why_tests_cant": "all contents and widths", "anchors": ["src/headers.rs:make_header! show", "src/packet.rs:Packet::show", "src/packet.rs:PacketSlice::show"]}
{"id": "C56", "title": "The storage model refines the value model", "statement": "On unpoisoned storage every accessor of a header handle returns (or panics) exactly as the corresponding operation on the header's bytes and leaves exactly those bytes; push, insert, pop, remove, p[name] = header, set_payload, clone, +, to_vec, len, compare and compare_with_slice of a packet act on the value the packet denotes exactly as the operations on packets as values; setting a field of a header found by name in a packet without internally shared storage changes that header and nothing else.", "quantifier": "every reachable heap, every handle, field, range and value", "why_tests_cant": "links every value-level property to histories of calls with sharing", "anchors": ["src/headers.rs:make_header!", "src/packet.rs:impl Packet"]}
{"id": "C57", "title": "Serializing a parsed packet and parsing again, twice, is the identity", "statement": "For every frame b that the slow parser accepts as p: p.to_vec() is accepted too, as a packet with the same header types and payload, and serializing that packet gives b again. So although GRE options are written back in reverse order, serialize-then-parse is an involution on accepted frames, and two accepted frames whose packets serialize alike are the same frame. The same holds for every layer entry point.", "quantifier": "every byte string accepted, every layer", "why_tests_cant": "all frames, any nesting depth", "anchors": ["src/parser/slow.rs:parse", "src/parser/slow.rs:parse_gre", "src/packet.rs:Packet::to_vec"]}
{"id": "C58", "title": "Exactly which packets survive serialize-then-parse", "statement": "For any packet, however built or edited, parse(p.to_vec()) == p iff each header has its type's size and is the one the header before it announces (ether type, IP protocol, GRE flags and type, ERSPAN O bit, UDP port, LLC octets, MPLS bottom-of-stack bits and the nibble after the last label), the GRE options present read the same in both orders, the last header announces no further one, and the first header is on its side of 1500. The payload never matters.", "quantifier": "every packet value", "why_tests_cant": "all packets of any length", "anchors": ["src/parser/slow.rs:parse", "src/packet.rs:Packet::to_vec"]}
{"id": "C59", "title": "Edits of non-announcing bits survive; edits of announcing bits never do", "statement": "Take any accepted frame without two GRE options: setting any field that contains no announcing bit (and, right after an MPLS label, none of the first four bits), to any value, and changing the payload to anything, then serializing and parsing returns exactly the edited packet. Conversely, replacing any header other than an MPLS label of a surviving packet by one of the same type which announces something else yields a packet that does not survive.", "quantifier": "every accepted frame, field, value and payload", "why_tests_cant": "all frames and edits", "anchors": ["src/parser/slow.rs:parse", "src/headers.rs:make_header! set_bit_range", "src/packet.rs:Packet::to_vec"]}
{"id": "C60", "title": "Protocol number enums are exactly the assigned numbers", "statement": "For IpType, IpProtocol, EtherType and ErspanVersion: try_from(v) returns variant e iff (v, e) is in the table of assigned numbers, and an error for every other v; e as u8/u16 and try_from are inverse to each other.", "quantifier": "every u8 / u16 value", "why_tests_cant": "the tests convert no unknown number", "anchors": ["src/types.rs:TryFrom"]}
{"id": "C61", "title": "Diagnostics name the malformed component and the differing byte", "statement": "to_mac_bytes and to_ipv4_bytes print, for every string, exactly one line per component (of the first 7 resp. 5) that is not a number below 256 of the radix, in order, naming the reason and the whole text, and nothing else, also when they panic on one component too many; to_ipv6_bytes prints one line iff the text is rejected, and then returns sixteen zeros. compare and compare_with_slice print nothing iff they return true; otherwise one line with both lengths and, for equal lengths, the number of agreeing positions (not the length of the common prefix).", "quantifier": "every string, every pair of byte strings", "why_tests_cant": "all strings", "anchors": ["src/packet.rs:compare_with_slice", "src/packet.rs:ConvertToBytes"]}
{"id": "C62", "title": "Which transmission errors ipv4_checksum notices", "statement": "A header of even length, at least 12 and at most 2^17 octets, whose checksum field holds the value computed by ipv4_checksum: after changing any one octet in any way (also in the checksum field) the recomputed value differs from the field. Changing one 16-bit word goes unnoticed iff it changes between 0x0000 and 0xffff and the sum without it is not a multiple of 2^16. Reordering the words other than the checksum is never noticed.", "quantifier": "every header of even length up to 2^17, every position and value", "why_tests_cant": "all headers and errors", "anchors": ["src/packet.rs:Packet::ipv4_checksum"]}
{"id": "C63", "title": "Nested packets are parsed like packets of their own", "statement": "For every parsed frame and every header in it that is not an option of the header before: the bytes from that header on, given to the parser of its layer, give exactly the remaining headers and payload. Whatever bytes are put in their place (after an MPLS label: beginning with the nibble of the layer), parse returns the headers before it followed by whatever that layer's parser returns for those bytes alone, and fails iff that parser fails. Any bytes in place of the payload are returned as payload behind the same headers.", "quantifier": "every accepted frame, every split, every replacement", "why_tests_cant": "all frames and all replacements", "anchors": ["src/parser/slow.rs:parse"]}
{"id": "C64", "title": "Serializing while another thread writes shows each header at one moment, the packet at none", "statement": "While another thread makes any list of setter calls, Packet::to_vec returns exactly the byte strings in which every header is shown as it was at one moment between two single-bit writes, the moments being in header order (one header: the old contents with the k least significant bits of the field new, every k possible). The packet as a whole is not a snapshot: a writer changing the first and then the second header can be seen with only the second changed; if it works against header order, a change seen in the first means the second is seen completely changed.", "quantifier": "every schedule, packet, list of setter calls and value", "why_tests_cant": "exponentially many schedules", "anchors": ["src/packet.rs:Packet::to_vec", "src/headers.rs:make_header! to_vec", "src/headers.rs:make_header! set_bit_range"]}
{"id": "C65", "title": "Shared headers behave exactly like arrays of atomic bits", "statement": "For any number of threads calling getters, setters, bytes, set_bytes, to_vec and replace inside the buffers, racing or not: the results and final contents possible under the mutexes are exactly those of a machine in which single-bit reads, single-bit writes, to_vec and replace are each one indivisible step, a getter reading its bits most significant first and a setter writing its bits least significant first. No thread panics and no mutex is poisoned. In particular replace, which empties its target and refills it, is never seen half done: threads using only to_vec and replace read only byte strings that were in the headers at the beginning.", "quantifier": "every schedule, any number of threads, all programs", "why_tests_cant": "exponentially many schedules", "anchors": ["src/headers.rs:make_header! bit_range", "src/headers.rs:make_header! set_bit_range", "src/headers.rs:make_header! to_vec", "src/headers.rs:make_header! replace"]}
{"id": "C66", "title": "Deadlock comes from cycles of replace and from nothing else", "statement": "For any number of threads calling any accessors, whatever panics or is poisoned: in every reachable state in which no thread can go on although some have not finished, some thread is in the middle of a call r.replace(&o), holding r and waiting for o, and whoever holds a mutex such a thread waits for is in the middle of a replace in the same way. Hence if headers can be numbered such that every replace copies from a lower to a higher number, every execution ends. Conversely threads replacing the headers of any cycle of any length (including one) by each other can deadlock, with every header of the cycle emptied.", "quantifier": "every schedule, any number of threads, all programs, all cycles", "why_tests_cant": "exponentially many schedules; a deadlock is a hang", "anchors": ["src/headers.rs:make_header! replace", "src/headers.rs:ProtectedArray"]}
{"id": "C67", "title": "A parsed packet is a view of the frame", "statement": "After parsing any frame in which no GRE header has two options, every getter of every header returns the bits of the frame at the field's offset plus the sizes of the headers before it, and setting a field and serializing gives the frame with exactly those bits replaced by the value's. For any packet whose headers have their declared sizes the same holds with respect to its serialization, so any number of edits compose. Whatever options GRE headers have, every header of either parser shows a piece of the frame of its own, no two pieces overlapping; with two GRE options the pieces are not in the order of the headers.", "quantifier": "every accepted frame, header, field and value", "why_tests_cant": "all frames, fields and values", "anchors": ["src/parser/slow.rs:parse", "src/parser/fast.rs:parse", "src/headers.rs:make_header! bit_range", "src/headers.rs:make_header! set_bit_range", "src/packet.rs:Packet::to_vec"]}
{"id": "C68", "title": "How deep the recursive parsers nest", "statement": "On a stack with room for d calls, parse (either parser) returns what it returns on an unlimited stack, or overflows the stack. An accepted frame takes exactly one nested call per header that is not an option of GRE or ERSPAN III, and two more; with room for fewer it overflows. Room for (length - 1) / 4 calls, and at least one, is always enough, and for every k there is an accepted frame of 14 + 4k bytes that needs that many, so that no stack is large enough for all frames.", "quantifier": "every frame, every stack size", "why_tests_cant": "the tests parse a few shallow frames", "anchors": ["src/parser/slow.rs:parse", "src/parser/fast.rs:parse"]}
{"id": "C69", "title": "What an encapsulating builder shares with its inner packet", "statement": "Called on a packet variable whose headers are not poisoned, each builder that takes an inner packet panics or gives the packet that the builder on values gives; with a poisoned header it panics. The packets of create_vxlan_packet, create_ipv4ip_packet, create_ipv6ip_packet, create_gre_packet and create_erspan_2_packet are independent of the inner packet: over every later history of calls that does not name the result it serializes to the same bytes. Those of create_vxlanv6_packet and create_erspan_3_packet are not: over every such history they serialize to the outer headers as built, the inner headers as they are now, and the inner packet as it was when building, so writes through a clone of the inner packet show in one copy and not in the other.", "quantifier": "every reachable store, inner packet, arguments and later history", "why_tests_cant": "all histories; the tests never write to a clone after building", "anchors": ["src/utils.rs:create_vxlanv6_packet", "src/utils.rs:create_erspan_3_packet", "src/utils.rs:create_vxlan_packet", "src/utils.rs:create_gre_packet", "src/packet.rs:Add for Packet"]}
{"id": "C70", "title": "Whoever touches the bytes of a header holds its mutex", "statement": "For any number of threads calling any accessors (also with ranges that panic) from any contents, poisoned or not: in every reachable state a thread about to read or write the bytes of a header, or to drop its guard, holds that header's mutex; so no two threads are ever about to touch the same bytes. A thread that has returned or panicked holds no mutex, and no thread ever holds more than two.", "quantifier": "every schedule, any number of threads, all programs", "why_tests_cant": "exponentially many schedules", "anchors": ["src/headers.rs:make_header! bit_range", "src/headers.rs:make_header! set_bit_range", "src/headers.rs:make_header! to_vec", "src/headers.rs:make_header! replace"]}
{"id": "C71", "title": "Editing the headers of a parsed packet is cutting and pasting the frame", "statement": "Removing headers from the middle of a parsed frame gives what parse returns on the frame without their octets, iff the header after the gap has the same type as the first one removed (outside MPLS, gap not ending before an option). Removing the first n headers gives what the parser of the next header's layer returns on the rest of the frame. Removing an MPLS label, wherever it stands, corresponds to removing its four octets iff its bottom-of-stack bit is clear and another label follows. Removing the VLAN tag right behind the Ethernet header (and copying its EtherType there) and inserting one correspond to removing or inserting its four octets; for the removed tag and the top-level parse this holds iff the EtherType is at least 1500. Inserting a tag and removing it gives the original packet.", "quantifier": "every accepted frame, every split, every tag", "why_tests_cant": "all frames and edits", "anchors": ["src/packet.rs:Packet::remove", "src/packet.rs:Packet::insert", "src/parser/slow.rs:parse", "src/packet.rs:Packet::vlan"]}
{"id": "C72", "title": "What is in the capture file written by tests/pcap.rs", "statement": "pcap_write writes a libpcap 2.4 header and one record per packet over the beginning of temp.pcap. Packets of at most 65535 bytes written to a missing or not longer file are read back, by any reader of the format, exactly and in order; a longer packet exceeds the announced limit, so the file then cannot be read as these packets. A longer old file shows through: what remains of it follows the new packets, as stale records if it happens to line up, else making the file unreadable. The time of a record is the time of writing iff that was within the first microsecond of a second before 2106 (milliseconds are stored in the microsecond field).", "quantifier": "every list of packets, old file content and time", "why_tests_cant": "the tests write one file and never read it", "anchors": ["tests/pcap.rs:pcap_write"]}
{"id": "C73", "title": "show of a header that is too short destroys it for all its clones", "statement": "On shared storage that is not poisoned, show of a header prints, returns or panics exactly as on the header's bytes, and if it returns changes nothing. If a field is not contained in the data it panics after printing the whole octets before the end of the data, and poisons the storage: a packet that could be serialized before cannot be serialized any more after show of it has panicked, nor can any packet sharing the header, while all bytes and all other headers are as before. show of a poisoned header panics after the label of its first field. show of a packet prints its headers up to the first one that is poisoned or too short and then behaves as show of that one; without such a header it returns, having printed all headers and bytes.", "quantifier": "every store, header layout, packet and prior output", "why_tests_cant": "all contents and layouts; the tests show only complete headers", "anchors": ["src/headers.rs:make_header! show", "src/packet.rs:Packet::show", "src/headers.rs:ProtectedArray"]}
{"id": "C74", "title": "Editing an IPv4 header of a received frame and refreshing its checksum", "statement": "Setting any field of the first IPv4 header of a parsed frame (no GRE header with two options) and then its header_checksum to ipv4_checksum of its bytes gives the frame in which only that header's twenty octets have changed: the field's bits are the value's and the checksum field is the computed one. The header then verifies iff the sum of its other words does not carry when folded; ipv4_checksum of it is always the stored value. Doing it twice is doing it once. Parsing the serialized result gives back the edited packet unless the field contains bits of the protocol number or, behind an MPLS label, of the version.", "quantifier": "every accepted frame, field inside the header and value", "why_tests_cant": "all frames, fields and values", "anchors": ["src/packet.rs:Packet::ipv4_checksum", "src/headers.rs:make_header! set_bit_range", "src/packet.rs:Packet::to_vec", "src/parser/slow.rs:parse_ipv4"]}
{"id": "C75", "title": "Length fields, header lengths and fragment offsets are not consulted", "statement": "In every accepted frame, what follows an IPv4 header is what the layer for its protocol number makes of all octets behind its first twenty: if the header declares a length of at least 20 octets, these are the octets it declares as its contents iff nothing follows or the header length is 20 and the total length reaches the end of the frame. A fragment that is not the first gets a transport header iff its protocol is one the parser knows. Likewise for IPv6 (payload length), UDP (length), TCP (data offset, if at least 5: options become payload) and 802.3 (length: padding is kept). Behind an IPv6 header whose next-header number is not one of the six known, e.g. any extension header, everything is payload.", "quantifier": "every accepted frame and header in it", "why_tests_cant": "all frames; the tests use frames without options, padding or fragments", "anchors": ["src/parser/slow.rs:parse_ipv4", "src/parser/slow.rs:parse_ipv6", "src/parser/slow.rs:parse_udp", "src/parser/slow.rs:parse_tcp", "src/parser/slow.rs:parse_dot3"]}
{"id": "C76", "title": "Builds with and without overflow checks agree, and where they do not", "statement": "Both parsers, show (for layouts without reversed fields), the IPv4 constructor and every create_* builder return the same packet, print the same text or fail in the same way with and without overflow checks, for all inputs. Getters agree iff the field has at most 64 bits or ends outside the data. bytes and set_bytes agree on every range that is not reversed (indices below 2^63, values shorter than 2^60); on a reversed one the checked build panics and the unchecked one returns nothing or fails an assertion, according to the distance. ipv4_checksum without checks always returns on buffers of even length; with checks it panics iff the sum of the words folded once exceeds 32 bits, e.g. from 65538 all-ones words on.", "quantifier": "every input of each function, both build profiles", "why_tests_cant": "tests run in one profile at a time and on short inputs", "anchors": ["src/parser/slow.rs:parse", "src/parser/fast.rs:parse", "src/utils.rs:create_udp_packet", "src/packet.rs:Packet::ipv4_checksum", "src/headers.rs:make_header! bit_range", "src/headers.rs:make_header! bytes", "src/headers.rs:make_header! set_bytes"]}
{"id": "C77", "title": "Builder arguments without effect, transport checksums and declared header lengths", "statement": "ip_options, the *_checksum flags and icmp_data never change what a builder returns; VLAN, GRE option and ERSPAN platform arguments only count with their flag, GRE routing bytes only by their number. No builder computes a transport checksum: UDP and VXLAN over IPv4 carry zero, which every receiver accepts; for TCP over IPv4 and IPv6, whatever the other arguments, a receiver (RFC 9293, RFC 8200) accepts exactly one urgent pointer modulo 65535; for UDP and VXLAN over IPv6 (which always carry 0xffff) exactly one source port modulo 65535; for ICMP and ICMPv6 exactly one type and code modulo 65535 (for ICMP not the all zero message). The IPv4 header of a built IPv4 or TCP packet declares what follows as its contents iff ip_ihl says 5 and the length fits (or nothing follows and it says at least 5), the TCP header likewise with the data offset overlaid by the upper half of tcp_res.", "quantifier": "all arguments of every builder", "why_tests_cant": "the tests compare a few built packets with fixed bytes and check no transport checksum", "anchors": ["src/utils.rs:create_tcp_packet", "src/utils.rs:create_udp_packet", "src/utils.rs:create_icmp_packet", "src/utils.rs:create_udpv6_packet", "src/utils.rs:create_vxlanv6_packet", "src/utils.rs:create_gre_packet", "src/utils.rs:create_erspan_3_packet", "src/packet.rs:Packet::tcp", "src/packet.rs:Packet::udp", "src/packet.rs:Packet::icmp"]}
{"id": "C78", "title": "Slice headers in packets", "statement": "Packet::push and insert panic with unimplemented!() exactly for slice headers. Assigning pkt[name] = Box::new(slice) is accepted for any header and is the only way a slice header gets into a packet; as long as it is not used, a packet has owned headers only and every call is the one of the value model. Length, serialization and comparison of a packet with slice headers are those of the packet with owned headers of the same types and octets in their place, but clone (and + with it on the right) panics, and get_header and the conversions from &pkt[name] panic whenever the first header of that name is a slice header, whatever type is asked for, instead of returning an error. set_bit_range of a slice header changes nothing. PacketSlice::to_vec never meets an unimplemented method.", "quantifier": "All packets and headers of either kind; all histories of container calls, by induction; all names and types.", "why_tests_cant": "Tests never push a slice header nor assign one; a statement about what no history of calls can do is out of their reach.", "anchors": ["src/packet.rs:Packet::push", "src/packet.rs:Packet::get_header", "src/packet.rs:Packet::clone_me", "src/headers.rs:make_header! impl Header"]}
{"id": "C79", "title": "Comparing packets while another thread writes", "statement": "While another thread makes any list of setter calls, p.compare(&q) can give exactly the answers of comparing q's headers, each as at one moment between two single-bit writes, with p's headers, each as at one moment, all moments in order and those of q first. If no write changes a bit of a header of p or q, the answer does not depend on the schedule and is that for the packets as they are. A packet and its clone share storage and are equal at every moment, yet their comparison can answer false iff some write changes a bit of one of their headers; for a single setter call, iff it changes the field. Conversely packets that differ at every moment can be reported equal.", "quantifier": "every schedule, packets, list of setter calls and values", "why_tests_cant": "exponentially many schedules", "anchors": ["src/packet.rs:Packet::compare", "src/packet.rs:Packet::compare_with_slice", "src/packet.rs:Packet::to_vec", "src/headers.rs:make_header! set_bit_range"]}
{"id": "C80", "title": "Header strings form a complete prefix code", "statement": "Call a byte string that dissects into headers with nothing left over a header string. No header string is a proper prefix of another one. parse accepts a frame iff it begins with a header string; there is exactly one such prefix and the rest of the frame is the payload. Every other byte string is a proper prefix of some header string, and parse panics on it. So an accepted frame with n octets of headers, cut after m octets, is accepted iff n <= m, with the same headers and the rest of the payload. The same for every entry point of the parser; the last statement also for the zero-copy parser.", "quantifier": "all byte strings, cut positions and entry points, both build profiles", "why_tests_cant": "a statement about all pairs of byte strings; tests cut a few frames at a few places", "anchors": ["src/parser/slow.rs:parse", "src/parser/fast.rs:parse", "src/parser/slow.rs:parse_ethernet"]}
{"id": "C81", "title": "What parsing costs", "statement": "For an accepted frame with k headers the copying parser copies every byte of the frame exactly once; both parsers move headers within the vector exactly k(k-1)/2 times, because each header is inserted at its front, and read exactly the fields that say what comes next (each bit under its own lock in the copying parser); the zero-copy parser copies nothing. When a parser panics no header has been moved, no byte has been copied twice and at most five bits per byte have been read. The number of moves is at most t(t-1)/2 with t = (n-9)/4 for a frame of n bytes, and this is attained by accepted frames of every length 14+4m: parsing is quadratic, and no linear bound holds.", "quantifier": "all byte strings, both parsers, both build profiles", "why_tests_cant": "a bound for all inputs and its sharpness; tests do not count operations", "anchors": ["src/parser/slow.rs:parse", "src/parser/fast.rs:parse", "src/packet.rs:Packet::insert", "src/packet.rs:Packet::set_payload"]}
{"id": "C82", "title": "Builders compose: an upper-layer packet is a lower-layer packet around its header", "statement": "For the VLAN, ARP, IPv4, IPv6, TCP, UDP, ICMP and IP-in-IP builders (IPv4 and IPv6) the bytes of the packet are those the builder one layer down gives for the header's bytes followed by the payload, and one panics exactly if the other does. The tunnel builders escape exactly as follows: a VXLAN packet differs from the UDP packet around the VXLAN header in the two bytes of the IPv4 checksum, always and nowhere else; over IPv6 the inner headers are written once more; GRE agrees iff no routing bytes are announced (modulo 65536); ERSPAN II agrees iff the inner packet claims length 0 modulo 65536; ERSPAN III agrees iff moreover the sequence number is zero or odd and the inner headers are empty.", "quantifier": "all arguments of all builders, both build profiles, all IPv6 address parsers", "why_tests_cant": "an equation between two builders for all arguments; the tests compare single packets with literals", "anchors": ["src/utils.rs:create_eth_packet", "src/utils.rs:create_arp_packet", "src/utils.rs:create_ipv4_packet", "src/utils.rs:create_ipv6_packet", "src/utils.rs:create_tcp_packet", "src/utils.rs:create_udp_packet", "src/utils.rs:create_icmp_packet", "src/utils.rs:create_vxlan_packet", "src/utils.rs:create_gre_packet", "src/utils.rs:create_erspan_2_packet", "src/utils.rs:create_erspan_3_packet"]}
{"id": "C83", "title": "Which builder calls give the same frame", "statement": "Two calls of the same builder give the same bytes exactly if their arguments mean the same: addresses by the bytes they convert to, arguments that share a word by their union, tag arguments only if tagged, never the IPv4 options, the checksum flags or the ICMP data, VXLAN identifiers modulo 2^24, GRE options only if announced and the routing option by its length modulo 65536, inner packets by their bytes (for ERSPAN also by their claimed length, for ERSPAN III by the bytes of the inner headers followed by those of the inner packet, for VXLAN over IPv6, if the inner packets are shorter than 65536, by headers and payload apart). TCP, UDP and ICMP frames are never the same, over IPv4 and over IPv6, and what create_ipv4_packet returns is never what create_ipv6_packet returns. Exceptions: an Ethernet frame may carry the tag in its payload, and ERSPAN III frames with an even nonzero sequence number are ambiguous.", "quantifier": "all pairs of argument lists of every builder, both build profiles, all IPv6 address parsers", "why_tests_cant": "injectivity up to a stated equivalence is about all pairs of calls", "anchors": ["src/utils.rs:create_eth_packet", "src/utils.rs:create_arp_packet", "src/utils.rs:create_ipv4_packet", "src/utils.rs:create_ipv6_packet", "src/utils.rs:create_tcp_packet", "src/utils.rs:create_udp_packet", "src/utils.rs:create_icmp_packet", "src/utils.rs:create_vxlan_packet", "src/utils.rs:create_vxlanv6_packet", "src/utils.rs:create_gre_packet", "src/utils.rs:create_erspan_2_packet", "src/utils.rs:create_erspan_3_packet"]}
{"id": "C84", "title": "Tunnels in tunnels, to any depth", "statement": "VXLAN and ERSPAN II tunnels wrapped around one another in any order and to any depth: the tower can be built iff every level's addresses convert; its length is the sum of the levels' overheads (14, 4 for a tag, 20, then 16 for UDP and VXLAN or 12 or 16 for GRE and ERSPAN II) and the length of the packet inside; its bytes are the headers of all levels, outermost first, and then the inner bytes; if every VXLAN level uses port 4789 the parser returns exactly those headers followed by its result on the inner bytes, and it accepts the tower iff it accepts the inner bytes as an Ethernet frame; a VXLAN level on another port hides everything below it.", "quantifier": "all lists of tunnel calls (any length, any arguments), all inner packets, both build profiles on both sides", "why_tests_cant": "the depth is unbounded and each level's frame is the next one's payload: induction over the list of calls", "anchors": ["src/utils.rs:create_vxlan_packet", "src/utils.rs:create_erspan_2_packet", "src/parser/slow.rs:parse_vxlan", "src/parser/slow.rs:parse_gre"]}
{"id": "C85", "title": "What the printed text reveals", "statement": "For packets made of predefined headers none of which is shorter than declared, `show` prints the same text for two packets iff their headers have the same types in the same order and the same declared bytes and both packets serialize to the same bytes. If every header has exactly its declared size the text determines the packet. Two frames the copying parser accepts print the same text after parsing iff they are the same frame, and the zero-copy parser's packet slice prints what the copying parser's packet prints. With a header longer than declared the text is ambiguous: a byte at the end of the header and a first payload byte look alike.", "quantifier": "all packets of predefined headers at least as long as declared, all accepted frames, all buffers, both build profiles", "why_tests_cant": "injectivity of a printer over all pairs of packets of any number of headers and any payload", "anchors": ["src/packet.rs:Packet::show", "src/headers.rs:make_header! show"]}
{"id": "C86", "title": "What is sent is received", "statement": "End to end: a builder is called with arguments that fit their fields, the frame is serialized, a receiver parses it, looks each header up by its type's name and reads each field. Then the receiver reads, for every field of the Ethernet, VLAN, IPv4 (except its checksum, C43), IPv6, ARP, TCP, UDP, ICMP, VXLAN, ERSPAN II and GRE sequence number headers, exactly the value listed for the call in the specification's tables, and the payload is the one passed in (UDP: for destination ports other than 4789). For VXLAN and ERSPAN II around a frame that itself parses, the outer headers are the ones found.", "quantifier": "all arguments that fit their fields, all payloads and inner packets, both build profiles on both sides", "why_tests_cant": "composition of text conversion, construction, serialization, parsing, lookup and bit access over all arguments", "anchors": ["src/utils.rs:create_tcp_packet", "src/utils.rs:create_udp_packet", "src/utils.rs:create_icmp_packet", "src/utils.rs:create_arp_packet", "src/utils.rs:create_tcpv6_packet", "src/utils.rs:create_udpv6_packet", "src/utils.rs:create_icmpv6_packet", "src/utils.rs:create_vxlan_packet", "src/utils.rs:create_erspan_2_packet", "src/parser/slow.rs:parse", "src/packet.rs:Packet::get_header"]}
{"id": "C87", "title": "Predefined headers have the formats of their standards", "statement": "A header is seen as a string of bits, most significant bit of each byte first, and its format as a list of field widths. For every header whose fields are declared one after the other from bit 0, each getter reads the number denoted by its piece of the string, and setting all fields in any order gives exactly the concatenation of the values' binary digits, each truncated to its field's width. The crate's 21 headers have, name by name and width by width, the formats of the standards they implement, listed separately in the specification; so each field of each standard is read where the standard draws it, in every buffer that holds the header, including the 128-bit addresses.", "quantifier": "all headers (also user-defined) with consecutive fields, all buffers, all values, all orders of setting; all predefined headers", "why_tests_cant": "ranges over all buffers and values; a wrong bit offset that getter and setter share is invisible to round-trip tests", "anchors": ["src/headers.rs:make_header!", "src/headers.rs:Ether", "src/headers.rs:IPv4", "src/headers.rs:TCP"]}
{"id": "C88", "title": "Headers made by new()", "statement": "The value of every field of every predefined header made by `new()`, and its size (as declared, but for ICMP's two octets too many). Exactly which stacks of such headers, with any payload, are parsed back to themselves from each of the 18 layers: as frames only Ether/IPv4/TCP and Dot3/LLC. Behind the default Ethernet and IPv4 headers a UDP header, whatever it holds, is read as part of a TCP header, and parsing fails if fewer than twelve octets follow, as in the crate's own examples. The default IPv4 header's checksum is not its checksum.", "quantifier": "all lists of predefined headers, all payloads, all UDP headers, all starting layers, both build profiles", "why_tests_cant": "an iff over all stacks of any length and all payloads", "anchors": ["src/headers.rs:make_header! new", "src/parser/slow.rs:parse"]}
{"id": "C89", "title": "Exactly which packets each builder can return", "statement": "For each of the Ethernet, ARP, IPv4, IPv6, TCP, UDP, ICMP (over IPv4 and IPv6), IP-in-IP, VXLAN, GRE and ERSPAN builders: a packet is returned by some call iff its headers are of the right types and sizes and a short list of fields hold what the builder fixes (the type or protocol announced, the lengths for the payload carried, the IPv4 checksum, transport checksum 0 or for UDP over IPv6 0xffff). Every other field can take every value. The conditions admit versions the constructors should not make: 5 to 7 and 12 to 15 in IPv4 headers and 7, 14, 15 in IPv6 headers, when the header length or flow label argument is too large. A TCP or ICMP packet with a checksum is never returned; a VXLAN packet's IPv4 checksum is always that of a packet 16 octets shorter. ERSPAN II packets can announce any IPv4 total length whatever they carry; in VXLAN packets over IPv6 and in ERSPAN III packets further headers can follow, whose octets also start the payload, and the announced length of the latter counts the rest of the payload twice. The versions of ERSPAN II headers can be any odd number, those of ERSPAN III headers any with the second bit set.", "quantifier": "all packets, all arguments of the builders, both build profiles; for the IPv6 builders all text conversions in which every address can be written", "why_tests_cant": "surjectivity onto a set described by field values: every packet meeting the conditions must have arguments that produce it", "anchors": ["src/utils.rs:create_tcp_packet", "src/utils.rs:create_vxlan_packet", "src/utils.rs:create_gre_packet", "src/utils.rs:create_erspan_2_packet", "src/utils.rs:create_erspan_3_packet"]}
{"id": "C90", "title": "Any history of writes to a header: the last writer of each bit", "statement": "After any sequence of setter and set_bytes calls on a header (fields the right way round, values not empty), overlapping in any way, every bit holds what the last call that writes it put there, or its old value if none does; the sequence panics iff one of the calls reaches beyond the end. Two sequences do the same to every header of a given length iff for every bit their last writers write the same. A call all of whose bits are written again later can be left out, and calls that agree on the bits they share can be made in any order. A getter afterwards returns the number made of those bits.", "quantifier": "all headers, all lists of calls with any fields, positions and values, both build profiles", "why_tests_cant": "sequences of any length with any overlaps; tests set one field once", "anchors": ["src/headers.rs:make_header! set_bit_range", "src/headers.rs:make_header! set_bytes"]}
{"id": "C91", "title": "IPv6 addresses written as text", "statement": "With the standard library's parser, to_ipv6_bytes converts exactly the texts of the RFC 4291 grammar (eight groups of one to four hexadecimal digits, one run of groups replaced by ::, the last two groups possibly as a dotted quad) to the address they denote. No text denotes two addresses, texts of different addresses convert to different octets, and every address can be written in lower and upper case. Any other text becomes the unspecified address (with a message on standard output, C61). A dotted quad converts as on its own. The address fields of a header made from two such texts read back as those addresses.", "quantifier": "all strings", "why_tests_cant": "the set of texts is infinite and the tests use two addresses", "anchors": ["src/packet.rs:ConvertToBytes::to_ipv6_bytes", "src/packet.rs:Packet::ipv6"]}
{"id": "C92", "title": "The checksum check of the tests is right, and what ip_checksum_test shows", "statement": "ipv4_checksum_verify of tests/lib.rs folds once, like ipv4_checksum, but on buffers of at most 2^17 octets it returns zero exactly on those that verify by RFC 1071, and panics exactly on odd lengths. The IPv4 header inside a packet of create_tcp_packet equals the one of Packet::ipv4 on the same arguments. The assertions of ip_checksum_test hold for given addresses and time to live iff folding the header's sum once does not carry; they hold for all of the test's combinations and fail for other addresses.", "quantifier": "all buffers up to 2^17 bytes; all address texts and times to live", "why_tests_cant": "the test checks the checksum function with this check: only a proof tells what passing it means, and the test's addresses all avoid the carry", "anchors": ["tests/lib.rs:ipv4_checksum_verify", "tests/lib.rs:ip_checksum_test", "src/utils.rs:create_tcp_packet", "src/packet.rs:Packet::ipv4"]}
{"id": "C93", "title": "Header storage is freed exactly when its last holder goes", "statement": "In every history of calls, builders and drops of variables, the Arc operations on header storage are memory safe: no storage is used after it is freed, freed twice or allocated twice. At every moment the number of undropped Arcs of a cell equals the number of times the program's variables hold it; an allocated cell is freed exactly when nothing holds it, by the statement that takes the last holder away; when all variables are gone everything is freed. What a program computes does not depend on variables it does not mention, so the moment of dropping one is invisible to it; a builder moves its inner packet away and otherwise does what the variable-level model says.", "quantifier": "all histories of any length, all reachable states", "why_tests_cant": "sharing between clones, packets and builders makes holders appear and vanish in unboundedly many orders; tests run without a leak or use-after-free detector", "anchors": ["src/headers.rs:make_header!", "src/packet.rs:Packet::clone", "src/packet.rs:Packet::add", "src/packet.rs:Packet::pop", "src/packet.rs:Packet::remove", "src/packet.rs:IndexMut"]}
{"id": "C94", "title": "Which texts show can print, and the samples of the README", "statement": "Fields that do not overlap can hold any combination of values of their widths. A text is printed by show (without a panic) by some header of a given type iff it is the head lines and one line per field whose octets have this form: width up to 8, one octet below 2^width; a multiple of 8, any width/8 octets; otherwise width/8 + 1 octets, of which the last has width%8 + 1 bits, and the topmost of these repeats the lowest bit of the octet before. The fields do not constrain each other. The samples of header output for MyHeader and IPv4 in the README do not have that form, so no header of these types prints them, whatever its data.", "quantifier": "all header types with non-overlapping fields, all data of any length, all texts", "why_tests_cant": "that no buffer prints a given text is a statement about all buffers; that the form is exact is one about all texts", "anchors": ["src/headers.rs:show", "README.md:MyHeader"]}
{"id": "C95", "title": "Which definitions given to make_header! work", "statement": "A definition gives a type that behaves like a record of independent unsigned numbers (on every header made by new() and setters all getters and setters return, what was set is read back cut to the width, no other field changes) iff the default data reach to the end of every field, no two fields overlap, and no field is wider than 64 bits, where without overflow checks multiples of 64 are good, too. All predefined types are records but IPv6 with overflow checks. The fields determine the bytes iff every bit belongs to a field; len is the number of bytes iff the default data have the declared size; a getter of the slice type of a field of at most 64 bits returns iff the field ends within the declared size. The macro checks none of this.", "quantifier": "all header definitions, all values and histories of setters, both build profiles", "why_tests_cant": "users define their own headers; tests see the predefined ones", "anchors": ["src/headers.rs:make_header!", "src/headers.rs:bit_range", "src/headers.rs:set_bit_range"]}
{"id": "C96", "title": "How many times each call locks", "statement": "Whatever other threads do, a thread that has returned took mutexes exactly once per bit it read or wrote (getters, setters, bytes, set_bytes), once per to_vec and twice per replace: it became owner of a mutex that many times in every schedule. In particular a getter or setter of a field of w bits locks w times.", "quantifier": "all schedules, any number of threads, all programs, both build profiles", "why_tests_cant": "the cost of locking and the number of points at which other threads can come in between are the same in every execution, which no set of runs shows", "anchors": ["src/headers.rs:bit_range", "src/headers.rs:set_bit_range", "src/headers.rs:bytes", "src/headers.rs:set_bytes", "src/headers.rs:replace", "src/headers.rs:to_vec"]}
{"id": "C97", "title": "What a host gets out of a built frame", "statement": "A host that checks what the RFCs ask for takes from a frame built by create_udp_packet exactly the message given to the builder iff ip_ihl is 5 (or 0x45), ip_frag does not mark a fragment, the total length is below 65536, and the sum of the IPv4 header is folded right by the crate. For TCP and ICMP additionally the zero checksum left by the builder must happen to be right, for TCP the data offset made of tcp_data_offset and tcp_res must be 5. It never gets the VXLAN message of create_vxlan_packet. Over IPv6: iff the flow label argument leaves the version 6, the length fits, and the fixed checksum (0xffff for UDP, 0 for TCP and ICMPv6) is right, for TCP also the data offset 5; for create_vxlanv6_packet also iff the inner payload begins as the inner frame does (the inner headers are written twice).", "quantifier": "all arguments of the builders for which they return, both build profiles", "why_tests_cant": "tests compare built bytes with built bytes; whether a receiver accepts them is never asked", "anchors": ["src/utils.rs:create_udp_packet", "src/utils.rs:create_tcp_packet", "src/utils.rs:create_icmp_packet", "src/utils.rs:create_vxlan_packet", "src/utils.rs:create_udpv6_packet", "src/utils.rs:create_tcpv6_packet", "src/utils.rs:create_icmpv6_packet", "src/utils.rs:create_vxlanv6_packet"]}
{"id": "C98", "title": "What a host gets from a frame and what the parser shows of it", "statement": "Of a frame from which a host takes a UDP message, a TCP segment or an ICMP message, parse returns a packet showing it (link headers, an IP header with the addresses, a transport header with the ports and the other fields, the data as payload) iff the frame consists of the headers without options and the data and nothing else, for UDP moreover iff the destination port is not 4789. Octets after the datagram, such as the padding of short Ethernet frames, change nothing for the host and always falsify what parse shows. The fast parser shows the same.", "quantifier": "all octet sequences a host takes something from, however they were made, both build profiles, both parsers", "why_tests_cant": "the crate's tests parse frames the crate built, which carry neither options nor padding", "anchors": ["src/parser/slow.rs:parse", "src/parser/slow.rs:parse_ipv4", "src/parser/slow.rs:parse_ipv6", "src/parser/slow.rs:parse_udp", "src/parser/slow.rs:parse_tcp", "src/parser/slow.rs:parse_icmp", "src/parser/fast.rs:parse"]}
{"id": "C99", "title": "Forwarding and address translation with the crate", "statement": "A client parses an IPv4 frame (no GRE header with two options), sets one field of the IPv4 header, sets the checksum to ipv4_checksum of it and serializes. After setting ttl, to any value, a host gets exactly what it gets from the frame itself if the new checksum is right, and nothing otherwise. Without options it is right iff the sum of the new header does not carry again when folded; with options iff the options' sum is 0 (65534 if the header's carries) modulo 65535, as the client's checksum covers twenty octets only. After setting src or dst a host gets a UDP message with the new address iff the header checksum is right and the message has no checksum or the two addresses have the same one's complement sum, a TCP segment iff the header checksum is right and the addresses have the same sum, an ICMP message iff the header checksum is right; otherwise nothing.", "quantifier": "all frames a host takes a datagram from, all values written, both build profiles", "why_tests_cant": "tests never send what they edited to a receiver, and no test forwards a frame", "anchors": ["src/parser/slow.rs:parse", "src/packet.rs:ipv4_checksum", "src/headers.rs:make_header", "src/packet.rs:to_vec"]}
{"id": "C100", "title": "Rewriting ports, numbers, flags, types and payload of a received frame", "statement": "A client parses a frame without IPv4 options that a host takes a message from, sets one field of the transport header and serializes; no setter touches a checksum. A UDP message with another source or destination port is taken iff it has no checksum or the new port is equal to the old one modulo 65535; a TCP segment with another port, sequence number, acknowledgement number or window iff the new value is equal to the old one modulo 65535; a TCP segment with other flags or an ICMP message with another type or code never. When it is taken, the host gets the new value (cut to the width of the field) and everything else as before. Setting the UDP checksum to zero first makes every pair of ports work over IPv4 and none over IPv6. Appending payload with set_payload changes nothing for a host, which goes by the lengths in the headers.", "quantifier": "all frames a host takes a message from (in the packet parsed from it no GRE header with two options), over IPv4 and IPv6, with and without VLAN tag, all values written, both build profiles", "why_tests_cant": "tests look at the octets they edited and never at what a receiver makes of them; the values that pass are one in 65535", "anchors": ["src/parser/slow.rs:parse", "src/headers.rs:make_header", "src/packet.rs:set_payload", "src/packet.rs:to_vec"]}
{"id": "C101", "title": "Bridging, tagging and translating IPv6: what a host gets from the edited frame", "statement": "A client parses a frame that a host takes a datagram from, edits it and serializes. Setting link addresses, the control information of the VLAN tag, or traffic class, flow label or hop limit of an IPv6 header, to any value, leaves what a host takes from the frame (UDP, TCP, ICMP) unchanged. Putting in a VLAN tag leaves it unchanged when the frame had no tag, and hides the datagram when it had one; taking the tag out leaves it unchanged. Replacing the source or destination address of an IPv6 header with set_bytes adjusts no checksum: the host takes the message iff the words of the new address have the same sum as those of the old one modulo 65535, and then gets the new address and everything else as before.", "quantifier": "all frames a host takes a datagram from (in the packet parsed from it no GRE header with two options), all fields inside those bit ranges, all values and addresses written, both build profiles", "why_tests_cant": "tests compare octets they edited themselves and never ask what a receiver makes of them; the addresses that pass are one in 65535", "anchors": ["src/parser/slow.rs:parse", "src/headers.rs:make_header", "src/headers.rs:make_header! set_bytes", "src/packet.rs:insert", "src/packet.rs:remove", "src/packet.rs:to_vec"]}
{"id": "C102", "title": "Answering a frame: what a host gets when both directions are exchanged", "statement": "A client parses a frame and exchanges, with bytes and set_bytes, the link addresses and the addresses of the IP header; for UDP and TCP also the ports. It touches no checksum. A host that took a UDP message or TCP segment from the frame takes the same message from the new one, with source and destination addresses and ports exchanged and everything else as before; an ICMP message likewise with its addresses exchanged, IPv4 options or not. The calls never panic. An ARP request a host understands is answered by exchanging sender and target, setting the operation and the own hardware address: the host takes from the answer operation 2, the given hardware address with the protocol address that was asked for, and the asking station as target, and the frame is addressed to the station that asked. From the frame of create_arp_packet a host takes exactly the arguments.", "quantifier": "all frames a host takes a message from (UDP and TCP: without IPv4 options; in the packet parsed from it no GRE header with two options), with or without a VLAN tag, over IPv4 and IPv6, all payloads and all hardware addresses, both build profiles", "why_tests_cant": "tests never turn a frame around; that no checksum has to be touched depends on the sums of all words of all frames", "anchors": ["src/parser/slow.rs:parse", "src/headers.rs:make_header! bytes", "src/headers.rs:make_header! set_bytes", "src/utils.rs:create_arp_packet", "src/packet.rs:to_vec"]}
{"id": "C103", "title": "Translating addresses and ports, and answering a ping, with checksums updated", "statement": "A client parses an IPv4 frame, reads address, port and both checksums with the getters, and sets another source or destination address and port and the checksums updated by RFC 1624 (equation 3, with all ones for zero); a UDP checksum of zero is left. A host that took a UDP message or TCP segment from the frame takes the same message from the new one with exactly this address and port replaced, whatever they are. The calls never panic. A client that exchanges the addresses of an ICMP message, sets another type and updates the checksum in the same way is understood too, over IPv4 and IPv6: the host takes the message with addresses exchanged and the new type.", "quantifier": "all frames without IPv4 options a host takes a message from (UDP: in the packet parsed from it no GRE header with two options), with or without a VLAN tag, all new addresses, ports and types, all payloads, both build profiles", "why_tests_cant": "tests never rewrite a received frame; whether an updated checksum is right depends on sums over all words of arbitrary payloads, and the two representations of zero are met by few of them", "anchors": ["src/parser/slow.rs:parse", "src/headers.rs:make_header! bit_range", "src/headers.rs:make_header! set_bit_range", "src/packet.rs:get_header", "src/packet.rs:to_vec"]}
{"id": "C104", "title": "What the end of a tunnel gets out of a built frame", "statement": "The end of an IP in IP tunnel is handed exactly the inner packet by its network layer iff the outer header is right (IPv4: a header of twenty octets, no fragment, less than 65536 octets, a header sum whose first fold does not carry; IPv6: a flow label that leaves the version alone, an inner packet of less than 65536 octets); it then makes of it what it makes of an IPv6 packet if it begins with 6, otherwise of an IPv4 packet. The end of a GRE tunnel gets the inner packet, its protocol type, key and sequence number iff the outer header is right, no routing or strict source route flag is given, the version is zero, and a checksum that is announced is the right one. For ERSPAN it is stated exactly when a receiver gets the given values of all fields, if these fit (for type III with ip_ihl 5 or 0x45): type II needs a sequence number other than zero, type III an odd one. A mirrored frame that is not empty and declares its own size is never what a receiver of type II or III gets.", "quantifier": "all arguments and inner packets of the five builders, both build profiles; ERSPAN fields within their widths where their values are stated, for ERSPAN III an outer header length of 5", "why_tests_cant": "the tests compare frames with stored octets and have no receiver that follows the lengths and flags in them", "anchors": ["src/utils.rs:create_ipv4ip_packet", "src/utils.rs:create_ipv6ip_packet", "src/utils.rs:create_gre_packet", "src/utils.rs:create_erspan_2_packet", "src/utils.rs:create_erspan_3_packet"]}
{"id": "C105", "title": "What a client has to add to a built packet", "statement": "A client that sets, through the setters of the crate, the checksum of a built UDP, TCP, ICMP or GRE packet and then length and checksum of its IPv4 header (or over IPv6 only the checksum), with the values of RFC 1071, never gets a panic, and a host or tunnel end then gets exactly the message given to the builder iff ip_ihl is 5 (or 0x45), the packet is not a fragment and its length fits (IPv6: the flow label leaves the version alone and the length fits), for TCP the data offset is 5, for GRE no routing or strict source route flag is given and the version is 0. Setting length and checksum of the IPv4 header is enough for VXLAN, IP in IP and ERSPAN II (with a sequence number). For ERSPAN III and VXLAN over IPv6 it is enough to add the inner frame as payload to a packet built without one, and to set the flag of the sequence number and the IPv4 header, or both lengths and the checksum.", "quantifier": "all arguments the builders accept, all payloads, inner packets and inner frames, both build profiles; ERSPAN fields within their widths, for ERSPAN III a sequence number other than zero", "why_tests_cant": "needs every value of the sums and lengths; the tests compare frames with stored octets and finish none of them", "anchors": ["src/utils.rs:create_udp_packet", "src/utils.rs:create_tcp_packet", "src/utils.rs:create_icmp_packet", "src/utils.rs:create_vxlan_packet", "src/utils.rs:create_vxlanv6_packet", "src/utils.rs:create_gre_packet", "src/utils.rs:create_erspan_3_packet"]}
{"id": "C106", "title": "What arrives through any number of tunnels", "statement": "Build and finish (C105) tunnels in tunnels, of the kinds VXLAN over IPv4 and IPv6, ERSPAN II and III, GRE with or without checksum, key and sequence number, IP in IP over IPv4 and IPv6, in any order and number, taking the link headers off before a tunnel that carries datagrams. If all addresses convert (which is necessary), every tunnel can carry what is inside it (VXLAN uses port 4789, GRE no routing and version 0, ERSPAN a sequence number and values within their fields, outer headers no options and no fragments, lengths fit) and the packet inside a tunnel for datagrams begins with 4 or 6, no call panics, the frame has the sum of the sizes, and a host that goes by protocol numbers, protocol types and ports alone finds after that many tunnels exactly the octets of the packet inside. A UDP message built, finished and sent like this is delivered as it was. No frame brings 65536 octets or more through a tunnel, and every tunnel costs at least 20 octets.", "quantifier": "all lists of tunnels and their arguments, all packets inside, both build profiles, every behaviour of Ipv6Addr::from_str", "why_tests_cant": "towers have no bound on their depth, and what a receiver makes of one depends on every length and checksum in it; the tests build one tunnel at a time and receive none", "anchors": ["src/utils.rs:create_vxlan_packet", "src/utils.rs:create_vxlanv6_packet", "src/utils.rs:create_gre_packet", "src/utils.rs:create_erspan_2_packet", "src/utils.rs:create_erspan_3_packet", "src/utils.rs:create_ipv4ip_packet", "src/utils.rs:create_ipv6ip_packet", "src/packet.rs:Packet::remove"]}
{"id": "C107", "title": "A series of packets made from one template", "statement": "For each packet of a series, clone a template (whose headers have storage of their own), set fields of headers looked up by name, append a payload and serialize. If the sets succeed on a packet of one's own, no call panics and one frame comes out per packet; frame k carries the payload of the template followed by its own, but in its headers all fields set for packets 0 to k; in the end all packets of the series and the template have the same headers, with all fields set of the whole series. If each packet is made anew instead, frame k has the fields of packet k alone and the packets serialize to their frames to the end. The two ways give the same frames iff setting the fields of packet k gives the same on the template as on the template changed for the packets before it, that is, iff those changed no bit that the sets of packet k do not write.", "quantifier": "all reachable worlds, templates, series of any length, changes and payloads, both build profiles", "why_tests_cant": "the length of the series is unbounded and the outcome depends on which headers share storage; the tests clone but never set a field of a clone", "anchors": ["src/packet.rs:clone_me", "src/packet.rs:to_vec", "src/packet.rs:set_payload", "src/packet.rs:IndexMut", "src/headers.rs:make_header! clone"]}
{"id": "C108", "title": "Datagrams cut into fragments with the crate are put together again", "statement": "A client cuts the IPv4 datagram (or fragment) of a frame without header options, whose data end below 65516, into fragments of s octets, s a positive multiple of 8: it reads length, flags and offset with the getters, makes new headers from the octets of the old ones, sets flags and offset, and puts length and checksum right. This never panics and yields exactly the fragments of RFC 791 with the link headers of the frame, as many as the data divided by s rounded up, none longer than s octets of data. However often fragments are cut again, in whatever order and however often they arrive, among whatever frames with other keys: if nothing is lost, a host that reassembles them gets the datagram of the frame, and if something is lost, that or nothing. Of the fragments of a datagram with data every one is needed. Two datagrams with the same identification, protocol and addresses can be put together to one that nobody sent.", "quantifier": "all frames with such a datagram, fragment sizes, orders, repetitions and losses, any number of cuts, both build profiles", "why_tests_cant": "the number of cuts, orders and repetitions is unbounded, and each fragment depends on bit fields of 3 and 13 bits that share two octets; the tests set no flag and no offset", "anchors": ["src/headers.rs:IPv4", "src/headers.rs:make_header! bit_range", "src/headers.rs:make_header! set_bit_range", "src/packet.rs:ipv4_checksum", "src/packet.rs:to_vec", "src/packet.rs:push"]}
{"id": "C109", "title": "A stream of octets sent in TCP segments made with the crate", "statement": "A client sends a stream in TCP segments over IPv4 or IPv6, octet i with sequence number iss + i modulo 2^32; each segment is made by the builder and finished as in C105, with octets of the client's choice and any other arguments for the same addresses and ports. Making a segment never panics and a host gets it with the right number and data. Whatever segments come, in any order, cut in any way, any number of times and among frames of other connections, the program that reads the connection gets a beginning of the stream, and what it has got is never taken back, iff the stream is shorter than 2^32 octets; for any longer stream there are segments after which it gets octets that were not sent. A segment that begins no later than the next octet brings everything up to its end; if the segments come one after the other, whatever comes between them, the program gets the whole stream.", "quantifier": "all streams, segments, arguments, orders and repetitions, both build profiles", "why_tests_cant": "the number of segments is unbounded and sequence numbers wrap at 2^32; the tests send no two segments of one connection", "anchors": ["src/utils.rs:create_tcp_packet", "src/utils.rs:create_tcpv6_packet", "src/packet.rs:tcp", "src/headers.rs:make_header! set_bit_range"]}
{"id": "C110", "title": "Padding a frame cut short, and what the cut frame shows", "statement": "With K octets 0xFF appended, no byte string makes parse (slow or fast) panic iff K >= 73; 73 are enough for every parse_<layer>. For an octet x there is a number of octets x that does this for every byte string iff x is odd and not 41; in particular no number of zero octets does. The headers that lie within the first n octets of an accepted frame depend on these octets only: two accepted frames that agree on them show the same headers there, by type, place and contents. So a capture of the first n octets of an accepted frame, with 73 octets 0xFF appended, is accepted and shows exactly those headers of the frame that were captured whole.", "quantifier": "all byte strings, octets, padding lengths and cuts, both parsers, both build profiles", "why_tests_cant": "the bound is over all byte strings and all places where a frame can be cut; the tests parse complete frames only", "anchors": ["src/parser/slow.rs:parse", "src/parser/slow.rs:parse_mpls", "src/parser/slow.rs:parse_ipv6", "src/parser/fast.rs:parse"]}
{"id": "C111", "title": "Datagrams through any number of routers made with the crate, and echoes back", "statement": "A router takes a frame whose IP datagram is right and which the crate parses (with at most one optional word per GRE header), reads time to live (hop limit), drops it if this is at most 1, sets one less, puts the IPv4 checksum right (with ipv4_checksum, or by an update as in RFC 1624) and writes other link addresses. For any list of such routers none panics, and the station behind the last gets exactly the datagram that was sent iff there were more hops left than routers (or there is no router) and no router that used ipv4_checksum on IPv4 sent a header for which this folds wrong; otherwise it gets nothing. The frame that arrives is the one sent but for the link addresses (those of the last router), the hops left (less by the number of routers) and the header checksum. Without options there is at most one time to live for which a header's checksum comes out wrong. An ICMP message without IP options sent along one list of routers and answered by a host that exchanges addresses and sets another type comes back along another list iff it would have passed both lists one after the other: the answer has no hops of its own.", "quantifier": "all frames with a right IPv4 or IPv6 datagram that the crate parses with at most one GRE option (ping: all ICMP messages without IPv4 options), all lists of routers of both kinds, all link addresses, both build profiles", "why_tests_cant": "holds over paths of any length and all headers: the wrong sum occurs for one time to live of 256 and few headers, so that a path fails which shorter and longer ones with other values do not", "anchors": ["src/packet.rs:ipv4_checksum", "src/headers.rs:make_header! set_bit_range", "src/packet.rs:get_header_mut", "src/parser/slow.rs:parse_ipv4", "src/parser/slow.rs:parse_ipv6", "src/packet.rs:to_vec"]}
{"id": "C112", "title": "Address resolution among stations that use the crate", "statement": "Stations make ARP requests with create_arp_packet (with or without a VLAN tag, any padding), read what arrives with the getters of the parsed ARP header and answer by editing the request (C102), as RFC 826 says. A station never panics on an ARP message; its table is then the one RFC 826 gives, and exactly a request (opcode 1) for its own address is answered, with its own pair as sender, the asker as target, to the link address the request came from. Over every execution in which frames are lost, repeated, delayed and reordered at will, entries are forgotten and others send frames that do not lie about an ARP sender, no station panics and every table entry is the pair of addresses of a station; if stations with the same protocol address have the same link address, every entry for a station's address is that station's link address. If the request of station i for station j's address reaches j and the answer reaches i, then whatever else happens before, between and after, i has j's link address until it forgets it, and j has i's from then on until it forgets it. One false message made with the crate is believed, so the assumption is needed.", "quantifier": "all families of stations, all finite sequences of events (requests, deliveries of any earlier frame to any station, other frames, entries forgotten), all convertible address texts, VLAN settings and paddings, both build profiles", "why_tests_cant": "an invariant over executions of any length with arbitrary delivery orders, through parser, getters, setters and builder at once; a test sees one order of a few frames", "anchors": ["src/utils.rs:create_arp_packet", "src/headers.rs:make_header! bit_range", "src/headers.rs:make_header! set_bytes", "src/parser/slow.rs:parse_arp", "src/packet.rs:get_header_mut", "src/packet.rs:to_vec"]}
{"id": "C113", "title": "Two hosts exchange streams with acknowledgements in TCP segments made with the crate", "statement": "Two hosts of one TCP connection each send a stream below 2^32 octets in segments made with create_tcp_packet or create_tcpv6_packet (C109), each with the number its sender expects next as acknowledgement number; they read arriving frames as RFC 9293 says, numbers modulo 2^32. Over every execution in which each side sends any parts of its stream any number of times (also empty segments), with any arguments that are for this connection and fit (C105), and the network loses, repeats, delays and reorders frames and brings frames of other connections: no side panics; what a program has read is a prefix of what the other side sends; what a side takes for acknowledged the other side's program has read, hence a side that sees all acknowledged knows that all is read; and nothing read or acknowledged is taken back. If a side sends n octets from its first unacknowledged one on, the segment arrives, the other side then sends any segment and that arrives, then whatever else happens in between those n octets (or all that remain) are acknowledged. From every reachable state, if each side has arguments with which an octet fits, there is a continuation after which both streams are read and acknowledged completely.", "quantifier": "all pairs of streams below 2^32 octets, all initial numbers, all connections over IPv4 or IPv6, all finite sequences of events (segments sent, deliveries of any earlier frame, frames of other connections), all fitting arguments, both build profiles", "why_tests_cant": "an invariant over executions of any length that ties acknowledgement numbers in emitted octets to what the peer has read, including wrap-around at 2^32; a test sees one schedule", "anchors": ["src/utils.rs:create_tcp_packet", "src/utils.rs:create_tcpv6_packet", "src/packet.rs:to_vec", "src/headers.rs:make_header! set_bytes"]}
{"id": "C114", "title": "A learning switch with VLANs made with the crate", "statement": "A switch makes Ether and Vlan headers of the first octets of a frame (the rest is payload), tags frames from access ports with Packet::vlan, reads addresses and VLAN with the getters, takes tags out with remove and set_etype, learns sources per VLAN and sends to_vec. For every frame at all, every table and port configuration it does not panic and learns and sends exactly what the specification on octets says. Over every execution whatever leaves at a port came in before at another port, in a VLAN both ports belong to, and is that frame but for the tag. After a frame from a station was taken at port k in a VLAN, and until another frame with this source is taken in this VLAN or the entry is forgotten, a frame from another source to the station in this VLAN leaves at port k only, once (nowhere if it came in there). A frame from another source to an unknown station, or to a group whatever has happened, leaves once at every other port of the VLAN. Through any number of switches with any tables, over lines that join ports of the same kind, a frame from an access port of VLAN v leaves at access ports of VLAN v only and is then the same to the last octet; at trunks it has the tag of v and is otherwise the same. With a line from an access port to a trunk a frame with two tags gets from one VLAN into another.", "quantifier": "all frames (octet strings of any length), all port configurations and numbers of ports, all tables, all finite sequences of arrivals and forgotten entries, all ways through any number of switches, both build profiles", "why_tests_cant": "isolation is a statement about every execution and every chain of switches, through constructor, getters, setters, insert, remove and to_vec at once; a test sees a few frames on one configuration", "anchors": ["src/packet.rs:insert", "src/packet.rs:remove", "src/packet.rs:vlan", "src/packet.rs:to_vec", "src/headers.rs:make_header! bit_range", "src/headers.rs:make_header! set_bit_range"]}
{"id": "C115", "title": "Frames for several ports made of clones of one packet", "statement": "A switch holds one packet with Ether and Vlan header and makes the frames of its ports from it one after the other: it clones the packet, for a port without tags takes the tag out of the clone (remove(1), then set_etype on the Ether header, with the type read from the tag), and serializes the clone. For every frame of at least 18 octets and every sequence of ports, in any reachable world where the two headers are two and not poisoned, no call panics and one frame is sent per port. A port without tags gets the frame without its tag. A port with tags gets the frame as it is if no port without tags came before it; after one, it gets the frame with the type behind the tag in place of 0x8100 and the tag still there, and the switch's own packet is spoilt likewise. All ports get the right frame if and only if no port with tags comes after one without or the type behind the tag is 0x8100. A spoilt frame is dropped by the trunk of the next switch unless the type behind the tag is 0x8100.", "quantifier": "all tagged frames of at least 18 octets, all sequences of ports of any length, all reachable worlds with an unpoisoned packet of two distinct headers, both build profiles", "why_tests_cant": "whether a frame is right depends on the order of the ports through headers shared between clones; a test of one order passes", "anchors": ["src/packet.rs:remove", "src/packet.rs:to_vec", "src/headers.rs:make_header! set_bit_range", "src/headers.rs:make_header! bit_range"]}
{"id": "C116", "title": "A gateway that translates addresses and ports, over every execution", "statement": "A gateway parses frames, reads IPv4 addresses and TCP ports with the getters, keeps a table of the ports that stand for hosts behind it, rewrites source or destination with the setters and updates both checksums (C103). It translates TCP segments a host would take, over IPv4 without options, and drops everything else. For every finite sequence of frames from both sides, ports chosen for new senders and ports given up, it does not panic and no port stands for two senders, nor two ports for one sender, at once. What leaves is the segment that came with the gateway's address and port for the source and nothing else changed. What is sent to a host behind the gateway is a segment that came for the gateway's address with only the destination changed, namely to address and port of a sender who left before under the very port it came for, which was not given up since. After a segment has left and until its port is given up every segment that comes for that address and port is sent to its sender. In that time a segment leaves with the same port if and only if it is from the same sender.", "quantifier": "all frames (octet strings of any length), all finite sequences of events, all choices of ports, all gateway addresses, both build profiles", "why_tests_cant": "who gets an answer is a statement about every history of the table, and rests on getters, setters and the parser reading the same octets a host reads", "anchors": ["src/parser/slow.rs:parse_ipv4", "src/parser/slow.rs:parse_tcp", "src/packet.rs:get_header_mut", "src/headers.rs:make_header! bit_range", "src/headers.rs:make_header! set_bit_range", "src/packet.rs:to_vec"]}
{"id": "C117", "title": "How poison spreads between threads", "statement": "For any number of threads calling any accessors with any ranges, from any contents, poisoned or not: once a header is poisoned nothing about it changes in any later state, and a thread that asks for its mutex is never blocked there and never gets beyond that call. Every header poisoned since the beginning has a dead thread of its own, no two headers the same: one that died of an index beyond the bytes of that header, or one that died in r.replace(&o) with o poisoned, and then r is left empty. So all poison can be traced back over replace calls, from source to target, to a header poisoned at the beginning or to a thread that went beyond the bytes of a header. A thread that died of poison did so on a header it may use, and that header is poisoned. A header that is clean at the beginning, that nobody replaces and in which nobody asks for a bit beyond its bytes is never poisoned, whatever happens to the others. Conversely one read beyond the bytes of one header can, with one replace call per header, leave any number of headers emptied and poisoned.", "quantifier": "all thread programs, all initial contents, all schedules, both build profiles, all chain lengths", "why_tests_cant": "which threads die depends on the interleaving, and the claims are about every reachable state of every schedule", "anchors": ["src/headers.rs:make_header! bit_range", "src/headers.rs:make_header! set_bit_range", "src/headers.rs:make_header! replace", "src/headers.rs:make_header! to_vec"]}
{"id": "C118", "title": "Threads that share no header have nothing to do with each other", "statement": "Let the threads be in two groups, any calls with any ranges, such that no header is used by threads of both. From any contents, poisoned or not: the states that can be reached are exactly the pairs of a state the one group can reach alone and a state the other can reach alone, side by side. So what a thread can return or die of, together with what its group's headers can hold, are exactly what they are without the other group, and a thread waits in such a state if and only if it waits in the state of its group alone, whatever panics, poison and deadlocks there are in the other group. It is not enough that two threads share no header, if a third shares one with each: a thread that alone never dies of poison can then do so.", "quantifier": "all thread programs (also those that depend on what calls return), all groups, all initial contents, all schedules, both build profiles", "why_tests_cant": "independence is an equality of the sets of reachable states of three systems, for every program and schedule", "anchors": ["src/headers.rs:ProtectedArray", "src/headers.rs:make_header! bit_range", "src/headers.rs:make_header! set_bit_range", "src/headers.rs:make_header! replace", "src/headers.rs:make_header! to_vec"]}
{"id": "C119", "title": "A TCP connection through a gateway that translates addresses and ports", "statement": "The two hosts of C113, one of them behind the gateway of C116, each with a stream below 2^32 octets and its own idea of the connection: the inner host talks to the outer one, the outer one talks to the gateway's address and the port that stands for the inner host. All frames are made with create_tcp_packet and the setters, and translated with the parser, getters and setters. Whatever the gateway did before, provided it has that port in its table: over every execution in which both sides send any parts of their streams with any arguments that are for their connection and fit, frames are lost, repeated, delayed and reordered on the way to the gateway and on the way from it, frames of other connections come to both hosts, and the gateway handles any other frames and gives up any ports but this one, nobody panics, what a program has read is a prefix of what the other side sends, what a side takes for acknowledged the other side's program has read, and nothing read or acknowledged is taken back. If a side sends n octets from its first unacknowledged one on, that segment and any later one of the other side each get to the gateway and from there to the other host, then those n octets (or all that remain) are acknowledged. From every reachable state, if each side has arguments with which an octet fits, there is a continuation after which both streams are read and acknowledged completely. The port must be kept: when it is given up no segment of the outer host gets through any more, and a segment of the inner host that then leaves is one of this connection for the outer host if and only if the gateway takes the same port again.", "quantifier": "all pairs of streams below 2^32 octets, all initial numbers, all addresses and ports, all histories of the gateway, all finite sequences of events, all fitting arguments, both build profiles", "why_tests_cant": "an invariant over executions of three parties of any length, in which the octets one host emits are rewritten by another program before a third reads them", "anchors": ["src/utils.rs:create_tcp_packet", "src/parser/slow.rs:parse_ipv4", "src/parser/slow.rs:parse_tcp", "src/packet.rs:get_header_mut", "src/headers.rs:make_header! bit_range", "src/headers.rs:make_header! set_bit_range", "src/packet.rs:to_vec"]}
{"id": "C120", "title": "A TCP connection across routers, over routes that change", "statement": "The two hosts of C113, each with a stream below 2^32 octets, over IPv4 or IPv6, with routers as in C111 (built on the parser, getters, setters and, if they like, the crate's ipv4_checksum) anywhere between them. All frames are made with the builders and setters. Over every execution in which both sides send any parts of their streams with any arguments that are for their connection and fit, and every frame, or copies of it, goes through any routers in any order, in circles too, is lost, repeated, delayed and reordered, and frames of other connections come, nobody panics, no router either, what a program has read is a prefix of what the other side sends, what a side takes for acknowledged the other side's program has read, and nothing read or acknowledged is taken back. At any time every frame under way is what the routers it passed made of a frame that was sent; these routers, counted with repetition, are none or fewer than the time to live or hop limit of the frame as sent, and fewer than 255, so that no frame circles for ever; and a host reads from it the segment that was sent, or nothing, the latter exactly if a router summed an IPv4 header up with the crate and the sum was folded wrong. If a side sends n octets from its first unacknowledged one on, and a right copy of that segment and then a right copy of any later one of the other side come to the other host over whatever routers, those n octets (or all that remain) are acknowledged. From every reachable state, if each side has arguments with which an octet fits and a route of fewer routers than the hops it asks for, which update IPv4 checksums or carry IPv6, there is a continuation after which both streams are read and acknowledged completely. With routers that sum IPv4 headers up with the crate this can fail: if a side always asks for the same IPv4 header, sends an octet at a time, and the header of a one-octet segment is folded wrong with the time to live that the first router sends (there are such arguments), then over every execution no host reads any data from a frame of that side whose first router sums up with the crate.", "quantifier": "all pairs of streams below 2^32 octets, all initial numbers, addresses and ports, all finite sequences of events over any routers, all fitting arguments, both build profiles", "why_tests_cant": "an invariant over executions of any number of programs and of any length, where the octets one host emits are rewritten any number of times before another reads them", "anchors": ["src/utils.rs:create_tcp_packet", "src/utils.rs:create_tcpv6_packet", "src/utils.rs:ipv4_checksum", "src/parser/slow.rs:parse_ipv4", "src/parser/slow.rs:parse_ipv6", "src/parser/slow.rs:parse_tcp", "src/packet.rs:get_header_mut", "src/headers.rs:make_header! bit_range", "src/headers.rs:make_header! set_bit_range", "src/packet.rs:to_vec"]}
{"id": "C121", "title": "Which right datagrams a router built on the crate does not survive", "statement": "Call a frame fatal if a host takes the IP datagram in it and the octets behind its fixed IP header are not the headers they announce. On a frame with a right datagram either parser panics iff the frame is fatal, and the router of C111, which drops what is no right datagram before it parses, panics on a frame iff the frame is fatal; it gets through a sequence of frames iff none of them is fatal. On a path of routers the first panics or none (unless the frame has a GRE header with two or more options). A TCP segment or ICMP message that a host takes is never fatal, with or without IPv4 options, nor is a datagram of a protocol the parser has no header for. A UDP message that a host takes is fatal iff octets 2 and 3 behind the fixed IP header (the destination port if there are no IPv4 options) are 4789 and what begins at octet 8 is not a VXLAN header and an inner Ethernet header with the headers that one announces; so every message without IPv4 options for port 4789 in a frame that ends less than 22 octets behind the UDP header is fatal, in particular three octets in a frame padded to 60. Octets behind the datagram, which are no part of it, can make a fatal frame harmless, enough of them always do, and they never make a harmless one fatal.", "quantifier": "all frames, all sequences of frames, all routers of both kinds with addresses of six octets, all paths, both build profiles", "why_tests_cant": "an exact boundary over all frames of all lengths, and over all sequences of frames", "anchors": ["src/parser/slow.rs:parse", "src/parser/slow.rs:parse_ipv4", "src/parser/slow.rs:parse_ipv6", "src/parser/slow.rs:parse_udp", "src/parser/slow.rs:parse_tcp", "src/parser/slow.rs:parse_vxlan", "src/parser/fast.rs:parse", "src/headers.rs:make_header! bit_range", "src/headers.rs:make_header! set_bit_range", "src/packet.rs:get_header_mut"]}
{"id": "C122", "title": "A parse that does not panic, with the crate's parser", "statement": "A client that parses a frame with a hundred octets 0xFF appended, and then, if the payload has at least a hundred octets, the frame itself, panics on no octet string of any length: it gets the packet the parser makes of the frame if the parser makes one, and is told that there is none exactly if the parser panics on the frame. The fast parser does for the check too: it takes every such buffer, its payload has at least a hundred octets iff the parser makes a packet of the frame, and that packet has the headers of the slices and their payload without what was appended. Any client that parses frames and then does something with the packets does the same with this parse on every frame that can be parsed, and what it likes with all others. With other octets appended the same client gets the parser's answer on every octet string iff these octets let every octet string be parsed; there are n such octets iff n >= 73. With this parse the router of C111 panics on no frame; it drops the fatal frames of C121 and does with all others what it did.", "quantifier": "all octet strings, all routers with addresses of six octets, both build profiles", "why_tests_cant": "all octet strings of all lengths and nestings, with an exact answer for each", "anchors": ["src/parser/slow.rs:parse", "src/parser/fast.rs:parse", "src/packet.rs:Packet::payload", "src/headers.rs:make_header! bit_range", "src/headers.rs:make_header! set_bit_range"]}
{"id": "C123", "title": "A TCP connection across careful routers among hostile frames", "statement": "The network of C120 with the routers of C122 (which check a frame before they parse it), and with anybody putting any octet strings anywhere at any time, except octets from which a host reads a segment of the connection itself; these, and what routers make of them, come to any routers and to both hosts, in any order and any number of times. Over every execution nobody panics, no router either; the connection behaves as in some execution of C120 without the hostile frames under way, so that everything said there holds: what a program has read is a prefix of what the other side sends, and what is acknowledged has been read. No router makes a segment of the connection out of hostile octets: what a host reads as a segment behind a router was that segment before it, GRE headers with several options, which the crate writes back in another order, included. From every reachable state, under C120's conditions on arguments and routes, there is a continuation after which both streams are read and acknowledged completely. With the routers of C111 instead, any fatal frame of C121, which may be put in, makes the router it comes to panic.", "quantifier": "all pairs of streams below 2^32 octets, all initial numbers, addresses and ports, all finite sequences of events with any injected octets over any routers, all fitting arguments, both build profiles", "why_tests_cant": "an adversary's choice of octets, at every point of executions of any length; by refinement", "anchors": ["src/parser/slow.rs:parse", "src/parser/slow.rs:parse_ipv4", "src/parser/slow.rs:parse_ipv6", "src/parser/slow.rs:parse_gre", "src/parser/slow.rs:parse_tcp", "src/utils.rs:create_tcp_packet", "src/utils.rs:create_tcpv6_packet", "src/packet.rs:get_header_mut", "src/packet.rs:to_vec", "src/headers.rs:make_header! set_bit_range"]}
{"id": "C124", "title": "Every frame written back as it was, by parsing twice", "statement": "parse(&parse(f).to_vec()) succeeds for every frame f that parse takes, and serializes to f, whatever options GRE headers have; it has the headers of parse(f) in number, order and types, with the same contents but for options of GRE headers, and the same payload; if no GRE header has two options it is parse(f). Every getter of it reads, and every setter changes, exactly the bits of f at the place the sizes of the headers before give (C67 without its condition on GRE options). The router of C122 that parses twice before it edits panics on nothing, drops what is no right datagram and the fatal frames of C121, and sends every other right datagram on as C111 says, whatever the datagram carries; through any number of such routers the datagram arrives iff nothing fails on the way, unchanged but for link addresses, hops left and IPv4 header checksum. The routers of C111, which parse once, do change what a datagram with a GRE header with several options carries.", "quantifier": "all octet strings, all packets, headers and fields, all finite paths of routers with addresses of six octets, both build profiles", "why_tests_cant": "all frames with all nestings and combinations of GRE options, and paths of any length", "anchors": ["src/parser/slow.rs:parse", "src/parser/slow.rs:parse_gre", "src/packet.rs:to_vec", "src/packet.rs:get_header_mut", "src/headers.rs:make_header! bit_range", "src/headers.rs:make_header! set_bit_range"]}
{"id": "C125", "title": "Headers edited in a copy and published with replace", "statement": "Let every thread read and write fields and octets only of headers no other thread uses, and use the shared headers only to take a copy (to_vec, or own.replace(&shared)) and to publish one (shared.replace(&own)). Then no execution deadlocks or goes on for ever, whatever panics, although such threads copy in both directions and so do not meet the condition of C66. With all calls inside the buffers, what finitely many such threads can return and leave in the shared headers is exactly what they can if to take a copy and to publish one are single steps and nothing else is seen. Hence a property that every edit preserves when made alone is seen by everybody at any time; in particular, if every thread that edits a shared IPv4 header sets fields of its copy and then the checksum ipv4_checksum gives, whoever looks sees the checksum that belongs to the rest. With one thread publishing, the others see its versions, no older one after a newer one, the last one stays, and every choice of such views is possible. With two, the edit of one can be lost.", "quantifier": "any number of threads with any programs of that kind, all schedules, all contents, edits and fields, both build profiles", "why_tests_cant": "all interleavings of single locks of any number of threads", "anchors": ["src/headers.rs:make_header! replace", "src/headers.rs:make_header! to_vec", "src/headers.rs:make_header! set_bit_range", "src/headers.rs:ProtectedArray", "src/packet.rs:ipv4_checksum"]}
{"id": "C126", "title": "Edits in place under one-bit flags exclude each other", "statement": "Let N threads share a header s and a second header g of which one bit belongs to each thread. A thread sets its bit with a setter, reads the bits of all others with getters, edits s in place over any number of to_vec and setter calls if they are all clear, and clears its bit; it has a given number of attempts and returns whether its edit was made. Then, for accessors inside the buffers and flags clear at the start: no execution deadlocks, goes on for ever or panics; when all have finished all flags are clear and s holds exactly the edits of the threads that returned true, made whole and one after the other in some order; the same holds of s at every moment at which no flag is set. So a field that each thread increments ends up higher by the number of threads that returned true. All can succeed in every order. Two threads with equally many attempts can both fail, however many. Without the flags, two increments of a field can end up as one.", "quantifier": "any number of threads, attempts and edits, all schedules, all contents and fields, both build profiles", "why_tests_cant": "all interleavings of single locks of any number of threads", "anchors": ["src/headers.rs:make_header! set_bit_range", "src/headers.rs:make_header! bit_range", "src/headers.rs:make_header! to_vec", "src/headers.rs:ProtectedArray"]}
{"id": "C127", "title": "Threads can decide among themselves with replace and with nothing else", "statement": "Let any number of threads share headers through getters, setters, byte accessors and to_vec, but not replace, each doing whatever it likes with what it reads. If in every execution they all come to the same decision, then it is the same decision in every execution; in particular, of two threads of which exactly one returns true in every execution it is always the same one. With replace they can decide: of three headers a, b and c of the same length with c and a different from b, one thread makes c a copy of b, the other b a copy of a, and both look at c; no execution deadlocks or goes on for ever, exactly one returns true, and either can be that one. So can any number n of threads with 2n headers: thread t makes b t (first bit 0) a copy of a t (first bit 1), clears the first bit of every a above its own, and takes the highest b whose first bit is set; no execution deadlocks or goes on for ever, all return the same number, it is the number of one of them, and it can be any of them.", "quantifier": "all programs of the threads, any number of threads, all schedules, all contents, both build profiles", "why_tests_cant": "all programs and all interleavings of single locks of any number of threads", "anchors": ["src/headers.rs:make_header! replace", "src/headers.rs:make_header! set_bit_range", "src/headers.rs:make_header! bit_range", "src/headers.rs:make_header! to_vec", "src/headers.rs:ProtectedArray"]}
{"id": "C128", "title": "Exactly when threads can deadlock", "statement": "Let finitely many threads call accessors of shared headers, what each does next depending in any way on what it has read, with all calls inside the buffers. They can come to a state in which none can go on and not all have finished if and only if, on the machine on which replace is a single step, they can come to where threads of a cycle are about to make the calls x0.replace(&x1), x1.replace(&x2), ..., xk.replace(&x0) at the same time, the headers all different. For threads that make a given list of calls whatever these return: they can deadlock if and only if such calls, of different threads, are in their lists, wherever in them they are. So calls of one and the same thread never make a deadlock among themselves, in whichever directions they copy. No run of such threads is infinite, and if there is no such cycle they can all still finish, however far they have come.", "quantifier": "all programs of the threads, any number of threads, all schedules, all contents, both build profiles", "why_tests_cant": "a deadlock is a hang that only some interleavings reach; its absence is a statement about all of them", "anchors": ["src/headers.rs:make_header! replace", "src/headers.rs:ProtectedArray"]}
{"id": "C129", "title": "A counter read while it is counted up is never read ahead", "statement": "One thread sets a field of a shared header to any list of values, none less than the one before (nor the first less than what the field holds), and any number of other threads call its getter, each once. In every execution, when all have finished, the field holds the last value and no getter has returned more than that; on the machine of C65, at every moment at which the writer is between two calls, no getter has returned more than the last value set so far. If no value is greater than the one before, no getter has returned less. The other bound does not hold: of a field that holds 1 and is set to 2, a getter can return 0.", "quantifier": "all fields of up to 64 bits inside the buffer, all contents, all lists of values, any number of readers, all schedules, both build profiles", "why_tests_cant": "the getter may meet the bits of any number of different values; the bound is about all interleavings of them, and depends on getter and setter going through the bits in opposite directions", "anchors": ["src/headers.rs:make_header! bit_range", "src/headers.rs:make_header! set_bit_range"]}
{"id": "C130", "title": "Several headers read consistently with versions", "statement": "A client protocol written with the crate's calls. One thread makes any list of edits in place, each a program of any accessors on any number of shared headers; before and after each it puts the next version into another header with replace, odd ones before, even ones after, all different. Any number of readers take the version with to_vec, give up if it is odd, read the shared headers with any program of getters, bytes and to_vec, take the version again and give up if it has changed. With all calls inside the buffers, in every execution a reader that does not give up returns exactly what its program returns when run alone on the headers as they are after the first j edits made one after the other with nobody else there, for some j. No execution deadlocks or is infinite, though the edits may replace headers by each other; and for each reader there is an execution in which it does not give up.", "quantifier": "all lists of edits, all readers and any number of them, all contents, all schedules, both build profiles", "why_tests_cant": "the crate has no lock over several calls; that a reader cannot see half an edit is a statement about all interleavings of unbounded programs", "anchors": ["src/headers.rs:make_header! replace", "src/headers.rs:make_header! to_vec", "src/headers.rs:ProtectedArray"]}
{"id": "C131", "title": "Reading a field again does not help", "statement": "A field of two bits in a header of one octet holds 0, and one thread sets it to 3 and to 0 by turns. Take any other thread that does nothing but read that field with its getter, as often as it likes, deciding by what it has read whether to go on and what to return. There is a number of turns and an execution in which both threads finish and the reader read 1 every time, a value nobody set. So no rule of the kind 'read until the same value comes twice' protects a reader from torn values.", "quantifier": "all readers that only call the getter of the field, both build profiles", "why_tests_cant": "it is a statement about every possible reader, and the schedule has to be constructed for each", "anchors": ["src/headers.rs:make_header! bit_range", "src/headers.rs:make_header! set_bit_range", "src/headers.rs:ProtectedArray"]}
