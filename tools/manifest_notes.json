{
 "C05": {
  "note": "The tiling itself is a complete enumeration of the 21 header tables; the consequence for buffers is proved for any tiling layout."
 },
 "C07": {
  "note": "Exact: above 64 bits a getter panics with overflow checks and returns without them the value modulo 2^k, k being 64 for a width that is a multiple of 64 and the width modulo 64 otherwise."
 },
 "C08": {
  "note": "Exact (iff) for getters and setters; a failed set_bytes leaves exactly a prefix written, also proved."
 },
 "C12": {
  "note": "False for packets holding ICMP::new(); C12_len_eq_iff is the exact boundary."
 },
 "C13": {
  "note": "Exact meaning for every packet; equality of serializations for headers of declared size; ICMP::new() is the counterexample without."
 },
 "C16": {
  "note": "set_payload appends; C16 also states exactly when it nevertheless sets."
 },
 "C17": {
  "note": "The code drops the right payload; the theorems say so."
 },
 "C18": {
  "note": "Clones are shallow; over all histories."
 },
 "C19": {
  "note": "Independent spec: handles are tagged with the constructor call they descend from."
 },
 "C20": {
  "note": "Termination is the totality of the Lean definitions (well-founded recursion on the remaining length), together with the bound on the number of headers."
 },
 "C23": {
  "note": "Parse then serialize is not the identity with two or more GRE options; the exact permutation is given."
 },
 "C27": {
  "note": "Offsets of all slices are inside the frame and tile it; unchecked from on short slices is out of bounds (negative theorem)."
 },
 "C28": {
  "note": "The boundary in the code is < 1500 (IEEE: 1500 is a length), stated as found."
 },
 "C29": {
  "note": "States what the code does: one label too many is consumed."
 },
 "C35": {
  "note": "States the spill exactly for all arguments."
 },
 "C36": {
  "note": "Negative result: every field for all arguments, and exactly when the label reads back."
 },
 "C37": {
  "note": "Negative result: the OUI reads back iff its octets are equal."
 },
 "C38": {
  "note": "Negative result."
 },
 "C39": {
  "note": "The property as usually expected (always RFC 1071 correct) is false; the theorem is an iff with witness."
 },
 "C40": {
  "note": "Exact (iff)."
 },
 "C43": {
  "note": "For create_vxlan_packet the stored checksum is never right (C43_vxlan)."
 },
 "C44": {
  "note": "For arguments whose addresses convert; UDP iff the destination port is not 4789."
 },
 "C45": {
  "note": "Exact conditions, including the reordering of GRE options."
 },
 "C46": {
  "note": "Negative result, exact value of the field for all arguments."
 },
 "C47": {
  "note": "Negative result, exact packet for all arguments."
 },
 "C48": {
  "note": "Negative result (iff odd)."
 },
 "C49": {
  "note": "Negative result: right iff the routing length is a multiple of 65536."
 },
 "C50": {
  "note": "Any number of threads; race-free programs; interleaving semantics, which is exact because all accesses are under a mutex (C70)."
 },
 "C51": {
  "note": "Exact set of reachable contents."
 },
 "C52": {
  "note": "Exact set of returned values."
 },
 "C53": {
  "note": "For builds that unwind; with panic=abort the process ends."
 },
 "C54": {
  "note": "Includes reachable deadlock for cross replace."
 },
 "C55": {
  "note": "Negative part: exact garbling for widths above 8 that are not multiples of 8, with recovery of the value."
 },
 "C56": {
  "note": "Connects the storage model with the value model, so that C10-C17 hold for shared storage, too."
 },
 "C58": {
  "note": "Exact (iff): spec Chain mentions neither bytes nor parser."
 },
 "C60": {
  "note": "Spec table of assigned numbers; complete in both directions for all values."
 },
 "C64": {
  "note": "Exact set of returned strings."
 },
 "C66": {
  "note": "Both directions."
 },
 "C68": {
  "note": "Frames of all parser functions are taken to have the same size."
 },
 "C72": {
  "note": "Model of the test helper pcap_write; input/output errors are not modelled."
 },
 "C75": {
  "note": "States what the parsers do; the RFC's reading is the spec it is compared with."
 },
 "C76": {
  "note": "No spec needed: the model at both values of the profile flag is compared."
 },
 "C77": {
  "note": "Receiver's check from RFC 768, 9293, 8200, 792, 4443 as spec; exact sets of accepted arguments."
 },
 "C78": {
  "note": "Implementations of the trait Header outside the crate are not modelled."
 },
 "C79": {
  "note": "Exact set of answers; the two negative parts have concrete executions."
 },
 "C80": {
  "note": "Header strings are defined by the dissection relation of Spec/Dissect, not by the parser."
 },
 "C81": {
  "note": "Counts are exact on success. Allocation, growth of vectors and comparisons are not counted."
 },
 "C82": {
  "note": "Equality of bytes and of panics. For the tunnels the theorems state for which arguments the equation holds."
 },
 "C83": {
  "note": "For ERSPAN III the equivalence is for sequence numbers zero or odd; for even ones it is refuted by C83_erspan3_ambiguous."
 },
 "C84": {
  "note": "ERSPAN III and VXLAN over IPv6 are left out of the towers because they write the inner headers twice (C47)."
 },
 "C85": {
  "note": "Says that two texts are equal; no parser for the text is modelled, since the crate has none."
 },
 "C86": {
  "note": "The length fields are the stated lengths modulo 65536 (C42). ERSPAN II's total length counts the inner packet twice, as the code does (C46). The TCP and ICMP checksums read 0 and the IPv6 UDP checksum 0xffff, as the code leaves them (C77)."
 },
 "C87": {
  "note": "The format table is this development's transcription of the standards (RFC 791, 8200, 768, 9293, 792, 826, 7348, 1701, 3032, IEEE 802.1D/Q, 802.2, 802.3, the ERSPAN draft); it is part of the specification to be read. TCP's reserved and flag bits are taken as 4 and 8, GRE's flags as 5."
 },
 "C88": {
  "note": "Of stacks of default headers; a header changed after `new()` is covered by C58."
 },
 "C89": {
  "note": "`Writable` is needed only for the IPv6 builders, whose text conversion is a parameter of the model; C91_writable proves it of the standard library's."
 },
 "C90": {
  "note": "Calls of one thread on one header. Calls through clones are the same calls (C18); concurrent ones are C51 and C65."
 },
 "C91": {
  "note": "`Ipv6Addr::from_str` is modelled after core/src/net/parser.rs of the standard library, which is not part of /repo and was not available here: its loops were written down from knowledge of that source. All other theorems take the parser as a parameter and do not depend on this."
 },
 "C92": {
  "note": "About test code of the repository; the function under test is C39, C43."
 },
 "C93": {
  "note": "Arc's own implementation is not modelled: its count is a number that clone increments and drop decrements, and an access needs a nonzero count. Listed are the Arcs of the caller's variables; headers made and forgotten inside one call are not."
 },
 "C94": {
  "note": "The README's samples are compared with the blanks at line ends that the README lacks put back."
 },
 "C95": {
  "note": "Fields whose end is before their start are left out (lo ≤ hi is assumed), as are name clashes the compiler rejects."
 },
 "C96": {
  "note": "Threads that panic are not counted. Ranges given to bytes and set_bytes are taken to be the right way round and below usize::MAX."
 },
 "C97": {
  "note": "The host takes whole datagrams with at most one VLAN tag, skips IPv4 options, knows no IPv6 extension headers and does not look at its own addresses, TTL or hop limit. In the IPv6 statements the addresses are what Ipv6Addr::from_str is taken to give."
 },
 "C98": {
  "note": "The host is the one of C97. Showing is stated on the getters of the returned headers; the flags read are the whole octet that holds them."
 },
 "C99": {
  "note": "The host is the one of C97, the client the one of C74."
 },
 "C100": {
  "note": "The host is the one of C97. Frames with options are left out: the parser takes the options for the transport header, an example shows that setting a port then spoils the IP header. For UDP no GRE header with two options may stand in a tunnel behind it (C23)."
 },
 "C101": {
  "note": "The host is the one of C97. The edits are client code, written with the crate's own calls. No GRE header with two options may stand in a tunnel behind (C23)."
 },
 "C102": {
  "note": "The host is the one of C97, with ARP added. The responder is client code, written with the crate's own calls; whether it should answer (the asked address is its own) is left to it. UDP and TCP need an IPv4 header without options, behind which the parser finds the ports (C98); for UDP and ICMP no GRE header with two options may stand in a tunnel behind (C23)."
 },
 "C103": {
  "note": "The host is the one of C97. Translator and responder are client code, written with the crate's own calls; the arithmetic is the client's, since the crate's ipv4_checksum folds only once (C99 says when a client may use it). An IPv4 header without options is needed, behind which the parser finds the ports (C98); for UDP no GRE header with two options may stand in a tunnel behind (C23)."
 },
 "C104": {
  "note": "The receivers read octets, as the host of C97 does. That ERSPAN lengths count the inner packet twice is discrepancy 14, the flag of ERSPAN III discrepancy 31; this property says what they mean for the other end. Sequence number 0 gives type II frames without the number, which by the draft are of type I."
 },
 "C105": {
  "note": "The client programs are not code of the crate: they are sequences of calls of its setters (header lookup by name, field setter) and set_payload, with the arithmetic of RFC 1071 done by the client. Together with C97 and C104 this says which of the discrepancies a client can repair and how."
 },
 "C106": {
  "note": "The client programs are sequences of calls of the crate: builder, finishing as in C105, Packet::remove for the link headers. The converse (a tower with a tunnel that does not fit is not delivered) is stated per tunnel in C105; for towers only the bound on the length is proved."
 },
 "C107": {
  "note": "Making anew is Op.adopt: a packet all of whose headers have new storage, as from the parser and the builders. The panics of a series in which a set fails are those of C53 and C56."
 },
 "C108": {
  "note": "The client is written in Lean on the model of the crate; the crate itself has no fragmentation. It clears the don't-fragment flag. Reassembly takes each octet from the first fragment that has it and has no timer."
 },
 "C109": {
  "note": "Client and receiver are written in Lean; the crate has neither. The receiver keeps no segments that come too early, looks at no flags and never closes its window."
 },
 "C110": {
  "note": "What the header cut by the end of the capture shows is not stated; it holds padding octets."
 },
 "C111": {
  "note": "The spec (`Passes`) says which routers fail in terms of the frame sent. A router drops what a host would not take (`ipInput`)."
 },
 "C112": {
  "note": "A station hands a frame to the crate only if it holds an ARP message for IPv4 over Ethernet (`hostArp`), and only frames to its own link address or to everyone. C112_lie shows that honesty of other frames is needed."
 },
 "C113": {
  "note": "The connection is open from the start (no handshake) and a receiver keeps only the segment it expects or a part of it (C109). The arguments of a segment are free except that its acknowledgement number is the number expected next."
 },
 "C114": {
  "note": "Access ports drop frames with a tag, trunks drop frames without one (no native VLAN); priorities of tags put in are 0. The switch serializes the tagged packet before it takes out the tag, because clones would share headers (C18)."
 },
 "C115": {
  "note": "The headers of clones are shared (C18); C114 serializes first and is right for every order. World and packet are as after any run of calls; the packet's two headers must not share storage and must not be poisoned."
 },
 "C116": {
  "note": "TCP only. Segments from outside are let in whoever sends them to a port that stands for a host (RFC 4787 calls it endpoint-independent filtering). If the port chosen for a new sender is taken the frame is dropped. Link addresses and hop counts are left (C101, C111)."
 },
 "C117": {
  "note": "C53 is the sequential counterpart. Overran and Infected name calls the thread's program contains (MayTouch, MayReplace), not the one call it died in. A panic outside any guard (overflow, failed assertion, set_bytes with wrapped width) poisons nothing."
 },
 "C118": {
  "note": "C50 gives more (one final state) for threads that share headers but not bits, under the assumption that nothing panics; this one assumes nothing about the calls."
 },
 "C119": {
  "note": "The connection is open already and the gateway has an entry for it. One connection is followed; that others are kept apart is C116."
 },
 "C120": {
  "note": "The connection is open already. A router works on one frame at a time; queues and buffers of routers are the order of events."
 },
 "C121": {
  "note": "The router checks the datagram (version, lengths, header checksum) before it parses, as in C111; a router that parses first panics on the frames of C22. That a frame is fatal depends on its padding, which is not part of the datagram."
 },
 "C122": {
  "note": "The client is not in the repository; it uses parse and payload only. set_payload appends (C16), so the appended octets cannot be taken off the payload again, and the frame is parsed a second time."
 },
 "C123": {
  "note": "Forged segments of the connection itself are excluded: TCP without authentication cannot tell them (nor can the crate)."
 },
 "C124": {
  "note": "The client is not in the repository. After the second parse the options of a GRE header with several of them have each other's octets, so they are not to be read by name; everything else is."
 },
 "C125": {
  "note": "That headers are used by one thread only is a condition on the client; headers made by new() or from() and not cloned meet it. Edits in place, without a copy, are C51, C52 and C64."
 },
 "C126": {
  "note": "The flags are a program of the client; the crate offers none. That a getter or setter of one bit is atomic and that all threads agree on the order of the calls is from C65."
 },
 "C127": {
  "note": "The machine and its link to the code are C65. The threads of the first half are arbitrary clients of the accessors."
 },
 "C128": {
  "note": "Calls inside the buffers exclude x.replace(&x) and headers of different lengths; of x.replace(&x), C54 and C66 say that it never returns."
 },
 "C129": {
  "note": "Each reader calls the getter once; one thread writes the field, with setters only."
 },
 "C130": {
  "note": "The protocol is client code; one writer; each reader tries once."
 },
 "C131": {
  "note": "A refutation: shown for one field of two bits, which starts at 0, and the values 3 and 0."
 }
}