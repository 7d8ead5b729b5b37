# Formal model of packet-rs in Lean 4: design

Source: /repo (packet-rs 0.4.0, Rust). Model and proofs: /verif/lean/Verif. Everything is in namespace `PacketRs`.
Statements in English: `properties.jsonl`. Property to theorem map: `MANIFEST.json`. Wrong programs tried against the
theorems: `seeded/LOG.jsonl`. `properties.jsonl` and `MANIFEST.json` are written by `tools/gen_properties.py` and
`tools/gen_manifest.py`.

## 1. Layers

| module | models | how |
|---|---|---|
| `Rust` | Rust primitives used by the crate | `u8/u16/u32/u64` = `BitVec n`; `R = Except Fault` for panics; slicing/indexing with panic; `to_be_bytes`; `usize` subtraction with and without overflow checks |
| `Bits` | `bit_range`, `set_bit_range`, `bytes`, `set_bytes` generated by `make_header!` | the loops as folds over the index list, in source order; `chk` = overflow checks on (debug) or off (release) |
| `Headers` | all `make_header!` invocations, `new`, `From`, getters, setters | a Lean command `make_header` that reads like the Rust macro call |
| `Types` | `EtherType`, `IpProtocol`, ... and their `TryFrom`/`From` | direct |
| `Addr` | `to_mac_bytes`, `to_ipv4_bytes`, `to_ipv6_bytes`, `u8::from_str_radix` | a `&str` is a `List Char`; see section 3 for `Ipv6Addr::from_str` |
| `Addr6` | `Ipv6Addr::from_str` of the standard library | its parser loop by loop, on the list of characters left; not in /repo, see section 3 |
| `Packet` | the `Packet` container (value level), header constructors `Packet::ethernet` ... | a header is its type and its bytes |
| `Slow`, `Fast` | the two parsers, function by function | mutual recursion, well-founded on the remaining length; `Fast` works on windows (base, offset, length) so that aliasing and out-of-bounds windows can be expressed |
| `Utils` | all `create_*` builders, `ipv4_checksum` | direct |
| `Prog` | `Arc<Mutex<Vec<u8>>>` storage | programs that lock/read/write/unlock cells of a store; the accessors lock by lock; poisoning on unwinding |
| `Heap` | the API on shared headers: histories of calls on header and packet variables | a store, variables, one step per API call |
| `Drop` | the `Arc` of a header, `drop` of variables | what each call does to the reference counts, as a list of events |
| `Encap` | the builders that take an inner packet, on the variables of `Heap` | bytes and length of the inner packet are read, outer headers are new cells, `pkt + inner_pkt` moves the inner cells |
| `Conc` | threads that share headers | a step is one primitive of one thread; a schedule is any sequence of steps |
| `Show` | `show` of headers and packets | standard output as a list of characters |
| `ShowStore` | `show` of owned headers and packets on the storage of `Prog` | as `Show`, with the store |
| `Stack` | parser/slow.rs, parser/fast.rs | as `Slow` and `Fast`, with the number of calls for which there is room on the stack |
| `Cost` | parser/slow.rs, parser/fast.rs | as `Slow` and `Fast`, with counts of what is done, also in runs that panic |
| `Dyn` | `Box<dyn Header>`: packets with owned and slice headers, the trait methods | as `Packet`, with the kind of each header |
| `Diag` | the address conversions, `compare`, `compare_with_slice` with what they print | as `Show` |
| `TestVerify` | tests/lib.rs `ipv4_checksum_verify`, `ip_checksum_test` | direct |
| `Pcap` | tests/pcap.rs `pcap_write` | a file as its contents and a position; the time of writing is a parameter |
| `Spec/*` | independent specifications (no use of the parsers and builders; `Spec/Dyn` and the specs on threads name calls of the model to say which programs are meant) | big-endian numbers, dissection grammar, RFC 1071 sum, well-formed lengths, race freedom, aliasing origin, printed text, self-announcing header stacks |
| `Lemmas/*` | proofs | |
| `Samples` | concrete builder calls used in examples | nothing is proved from them |
| `Props/*` | the property theorems `Cnn_...` and, beside each, concrete cases | |

Every definition of the model carries the file and the lines it transcribes.

## 2. Trusted base

* Lean 4.33.0's kernel (and its checking of `decide +kernel`, used only for closed finite facts: tables of constants,
  non-vacuity examples, and finite case splits over complete domains such as the sixteen hex digits).
* Axioms: only Lean's three standard ones. `AXIOMS.txt` lists the axioms of every property theorem (output of
  `tools/axioms.py`). No theorem uses anything but `propext`, `Quot.sound` and `Classical.choice`; some use at most
  `propext`. No axiom is declared; there is no `sorry`, `admit`, `native_decide`, `bv_decide`, `implemented_by`,
  `unsafe`, and no raised `maxHeartbeats 0`.
* Parts of the Lean core library and of Mathlib are used as proved libraries, not trusted.
* The transcription of the Rust source by reading. Nothing was compiled or run. The correspondence that is trusted is:
  the listed definitions transcribe the cited lines; `BitVec` arithmetic is Rust's wrapping arithmetic on unsigned
  integers; a panic is `.error`; slices are lists; `Vec` allocation does not fail; `usize` is 64 bits wide.
* For `Conc`: `std::sync::Mutex` gives mutual exclusion and release/acquire ordering, so interleaving of
  lock-protected steps is the exact semantics. All accesses to the bytes in the modelled accessors happen under the lock (proved: C70).

## 3. What is modelled and what is not

Modelled: /repo/src/headers.rs (macro, all generated owned and slice methods, all predefined headers, `EMPTY`/default
data, `ProtectedArray`), types.rs, packet.rs (`ConvertToBytes`, `Packet`, `PacketSlice`, all constructors), utils.rs
(all public builders and `ipv4_checksum`), parser/slow.rs, parser/fast.rs, lib.rs (`Packet`, `PacketSlice`).

Not modelled, or simplified:

* The `python-module` feature, which does not compile as it stands (packet.rs:269 calls a `push_boxed_header` that does
  not exist anywhere in the crate): lib.rs pymodule, `FromPyObject`, `__add__`, `__getitem__`, `__setitem__`, `__str__`,
  attribute getters that call the modelled ones. `#[pyclass]` attributes have no effect on the Rust API.
* Panic messages are not modelled; `Fault` only distinguishes kinds.
* `Ipv6Addr::from_str` belongs to the standard library and is a parameter `Ipv6FromStr` of the model: theorems hold for
  every such function. Only C91 takes it to be the function of `Addr6`, written down from knowledge of the published source
  (core/src/net/parser.rs), which was not available here.
* Reference counts: in `Heap` cells are never freed or reused. `Drop` adds the counts and shows that this is not observable
  (C93); `Arc` itself is a number there.
* Unwinding: a panic while a lock is held poisons it. /repo/Cargo.toml sets `panic = "abort"` for release builds of
  this crate itself; there a panic ends the process, and C53/C54's poisoning theorems apply to unwinding builds only
  (tests, dependants with their own profile).
* Stack depth of the recursive parsers: in `Slow` and `Fast` they are total functions. `Stack` has them on a finite stack
  (C68), all parser functions with frames of the same size, other calls not counted.
* Standard output never fails. Time and memory are not modelled, except for the counts in `Cost`: bytes copied, headers moved and
  bits read by the parsers (not allocations, growth of vectors, comparisons, calls).
* The methods that are `unimplemented!()` in the source: `as_slice` of owned headers, `clone`, `to_owned`, `as_any`,
  `as_any_mut` of slice headers. They are in `Dyn`, where a packet may hold headers of both kinds (C78). All other files take
  the headers of a `Packet` for owned ones, which by C78 they are unless a slice header was assigned with `pkt[name] = ..`.
  Implementations of the trait `Header` outside the crate are not modelled.
* `tests/`, `examples/`: the assertions of tests/lib.rs are replayed (section 7). Of tests/pcap.rs the file contents are
  modelled; input/output errors are not.

## 4. Method, per property

"iff" below means that the theorem gives the exact boundary, with no hypothesis restricting it further than stated.
`chk` is universally quantified unless a theorem is about it.

* **C01–C04, C06–C08** (`Props/Fields`). Spec: `beNat` of the buffer, `netBit d i` = bit `i` in network order,
  `fieldVal`, `octetsAt`. The loops are shown equal to these by induction over the loop. C07: width above 64 panics with
  checks on, and is the residue with checks off. C08: panics iff the last byte of the field is outside; a failed
  `set_<field>` changes no byte; a failed `set_bytes` (`C08_set_bytes_writes_prefix`) leaves exactly a prefix written.
* **C05**: `fields_tile` is a fact about the 21 constants (complete enumeration); `fields_determine` derives "equal
  fields, equal bytes" for all buffers from tiling, for any tiling header definition.
* **C09**: for every slice of at least the declared size, including windows at any offset.
* **C10–C17** (`Props/Container`): list-level, induction over lists and over histories. C12/C13/C16/C17 state the
  deviations exactly (`len_eq_iff`, `icmp_new`, `set_payload_sets_iff`, `add_drops_right_payload`).
* **C18, C19, C53, C54, C56** (`Props/Heap`): histories over a store. Spec of C19 is `Origin`: each header is tagged by
  the constructor call it descends from; two handles alias iff tags agree. C56 relates the store level to the value
  level, so that C10–C17 carry over.
* **C20–C30** (`Props/Parser`): spec `Dissect` is an inductive relation on (layer, bytes, headers, payload), with
  dispatch on raw octets. Both parsers are shown equal to one step function by unfolding, then strong induction on the
  length for all layers at once. C20's termination content is that the Lean definitions are total (accepted by
  well-founded recursion on the remaining length) plus the bound on headers. C27: windows tile the input;
  `from_unsound` shows that the unchecked `from` itself is out of bounds on short slices.
* **C31, C32** (`Props/Text`): for every string, component by component (`every_string`), and round trips with a separate
  printer.
* **C33–C38** (`Props/Constructors`): `Reads h f n` = the getter returns `n` in both profiles. C34 for in-range
  arguments, C35 for all arguments. C36–C38 are the constructors that do not encode their arguments; exact conditions.
* **C39, C40** (`Props/Checksum`): spec `onesSum` and RFC 1071 verification, arithmetic modulo 65535.
* **C41–C49** (`Props/Builders*`): each builder in closed form for arguments whose addresses convert (C41), "returns iff
  the addresses convert" for all arguments, lengths (C42, C46, C49), checksums (C43), what the parser returns on the
  built bytes (C44, C45, C47, C48).
* **C50–C52, C54** (`Props/Conc`): any number of threads. C50: race-free programs (which may call `replace`, reduced to one
  transaction by `Lemmas/Txn`); confluence, termination, no deadlock.
  C51: set of reachable final contents characterised exactly. C52: set of values a getter can return characterised
  exactly. C54: cross replace reaches a deadlock.
* **C55** (`Props/Show`): the text; `octets_garbled` and `octets_recover` for the widths that are printed wrongly.
* **C57–C59** (`Props/Reparse`): spec `Chain`, an inductive relation on header lists only (no bytes, no parser), `follow`
  (what a header announces) and `seenBits` (which bits do so). C57 and C58 by induction over `Dissect`/`Chain`; C59 by
  induction over `Chain` in both directions.
* **C60** (`Props/Types`): spec is a table of (name, number) pairs, both directions for all values.
* **C61** (`Props/Diag`): spec `Complaint` relates a component to the line printed about it; the printing functions are
  also shown to return what the silent ones of `Addr` and `Packet` return.
* **C62** (`Props/ChecksumErrors`): from C39's closed form; `C62_word` is an iff.
* **C63** (`Props/Nest`): induction over the parse; a step reads only the octets it consumes (and the nibble after the
  bottom label).
* **C64** (`Spec/Snapshot`, `Props/Snapshot`): schedules of single steps are reduced to schedules of whole sections; the
  invariant says how many bits are written and how the strings still possible continue; both directions.
* **C65** (`Spec/Atomic`, `Props/Atomic`): bisimulation between schedules of whole sections and `replace` transactions
  (`Lemmas/Txn`) and the machine of atomic bits; a corollary by an invariant of that machine.
* **C66** (`Spec/Deadlock`, `Props/Deadlock`): the simulation of `Lemmas/Txn` says what a thread holding a mutex is doing;
  descent along the ranks; every cycle by induction over its threads.
* **C67** (`Props/View`): combines C01, C15, C23, C26 and C27 into one statement about frames: bits of the frame are
  addressed by the sizes of the headers before, through an append lemma for `fieldVal`/`netBit`.
* **C68** (`Spec/Stack`, `Props/Depth`): relation `Agree` between the parser with `d` calls left and without limit, by
  induction over `d`; the frames attaining the bound by induction over the number of tags.
* **C69** (`Spec/Names`, `Props/Encap`): each builder is split into the part that makes new headers and the final `+`;
  an invariant of histories (`Lemmas/Alone`): cells only one packet variable refers to stay so while it is not named.
* **C70** (`Spec/Mutex`, `Props/Mutex`): an invariant relating each thread's remaining program to the mutexes it holds
  (every load, store and unlock in it is of a mutex held; a lock is attempted with at most one held), kept by every step of the system.
* **C71** (`Props/Surgery`): client programs made of `remove`, `insert`, lookups, getters and setters, compared with the
  parser on the cut or pasted octets (from C21 and C63).
* **C72** (`Pcap`, `Spec/Pcap`, `Props/Pcap`): spec is an inductive relation between bytes and the records a reader of the
  format finds; the contents of the file by induction over the packets, uniqueness of reading by induction over the records.
* **C73** (`ShowStore`, `Props/ShowStore`): a simulation between printing on the store and printing of bytes, closed under
  the composition of the macro's text; then C55.
* **C74** (`Props/Refresh`): a client on the model of a parsed packet; from C15, C23, C39, C40 and C59.
* **C75** (`Spec/Lengths`, `Props/Lengths`): spec is the octets a header declares as its contents, from the RFCs; the octets
  the parser uses by C63, and a comparison of two pieces of a list.
* **C76** (`Props/Profile`): compares the model at `chk = true` and `chk = false`. No spec is needed for the equalities; the
  boundaries are stated with field widths, ranges and `plainSum` of `Spec/Checksum`. Additions the model does not make depend on
  `chk` are those bounded by field widths or by sizes of allocations (`total_len() + size`, lengths of vectors) and shifts by
  constants below the width.
* **C77** (`Spec/Transport`, `Props/Transport`): spec is what a receiver checks, from the RFCs: pseudo header, segment and the
  one's complement sum over both, stated on the octets of the frame. The theorems give the exact set of accepted values of one
  argument for all values of the others.
* **C78** (`Dyn`, `Spec/Dyn`, `Props/Dyn`): each call on packets of both kinds of headers in closed form; `Built` is the
  inductive set of packets a program can have, and what is in them follows by induction.
* **C79** (`Spec/Snapshot`, `Props/CompareConc`): the invariant of C64, generalised to any thread that reads vectors one critical
  section at a time, the next one depending on what was read (`Look`, `Answers`, `answers_iff`); `compare` is such a thread
  (`reads_compare`).  "Moments" are numbers of single-bit writes made; `C79_true_never_equal` is a concrete execution.
* **C80** (`Props/PrefixCode`): header strings are defined by the dissection relation of `Spec/Dissect` (empty rest); one argument
  (`PrefixParser`) serves `parse` and every layer.
* **C81** (`Cost`, `Spec/Cost`, `Lemmas/Cost`, `Lemmas/CostFast`, `Props/Cost`): the parsers in a monad that counts, also up to a
  panic. `Rel` relates the rest of a counted call to the same call not counted, with what has been spent before; one rule per
  primitive. Leaving out the counts gives the parsers of `Slow` and `Fast` (`C81_same`).
* **C82** (`Props/Layers`): closed forms (C41) of both builders, compared byte for byte; the IPv4 header is injective in its
  total length, so differing length fields are differing packets.
* **C83** (`Spec/Same`, `Props/Collide`, `Props/CollideMore`): layer by layer from the closed forms (C41) and from C82: what the
  layer 2 part, an IPv4 header, a transport header followed by any bytes determine. Header fields of equal width split by
  `split_append`.
* **C84** (`Spec/Tower`, `Props/Tower`): induction over the list of calls; one level is C41 and C45, and a tunnel's frame starts
  with an EtherType of at least 1500, so `parse` and `parse_ethernet` agree on it.
* **C85** (`Props/Transcript`): from the text of C55: the head lines of the predefined types differ and have one length, field
  lines have lengths fixed by the type and determine the fields, which cover the declared bytes (C05); the dump starts differently
  from a header. Induction over the header list.
* **C86** (`Spec/Receive`, `Props/Receive`): the receiver and the tables of fields are in the spec; the theorems compose C41, C44,
  C45 (the parser returns the builder's headers), the lookup by name (first match, names differ) and the constructors' read-backs.
* **C87** (`Spec/Wire`, `Props/Formats`): the formats are a table of names and widths in the spec, without offsets. Induction over
  the chain of fields relates pieces of the bit string to the bits `C01`, `C02` and `C03` speak of; the table is compared with the
  model's by evaluation.
* **C88** (`Spec/Defaults`, `Props/Defaults`): inversion of the chains of C58 on default headers, one layer at a time; field values
  by C87 and evaluation of the table.
* **C89** (`Spec/Image`, `Props/Image`): each header type's condition is shown equivalent to being the constructor's result for some
  arguments, by cutting the octets into fields; addresses by the text round trip of C31 and C32; then C41 both ways.
* **C90** (`Spec/Writes`, `Props/Writes`): induction over the calls with the bitwise description of one call (C03, C06); the
  iff from histories on all-zero and all-one headers.
* **C91** (`Addr6`, `Spec/Text6`, `Props/Text6`): the parser's loops invert joining groups with separators, in both directions, by
  induction on the groups; so parser and grammar agree.
* **C92** (`TestVerify`, `Props/TestVerify`): closed form of the check, compared with RFC 1071 modulo 65535; the body of the test
  from C41 and C43.
* **C93** (`Drop`, `Spec/Drop`, `Lemmas/Drop`, `Props/Drop`): invariant "count of a cell = occurrences among the variables" kept by
  every statement; safety of the events follows from it and from allocation being in order. Independence of unmentioned
  variables is a simulation.
* **C94** (`Spec/ShowImage`, `Props/ShowImage`): a buffer is built from given bits, a value from given octets (converse of C55's
  `garbled_parts`); lines have lengths that depend only on the field, so a text splits into its lines in one way.
* **C95** (`Spec/Defs`, `Props/Defs`): C01 to C09 give one direction; for the other, two overlapping fields share the last bit of
  the one that ends first: set it to 1, the other to 0, and read it. A wide field is set to all ones.
* **C96** (`Spec/Locks`, `Props/Locks`): acquisitions are counted by owners in the store, not by looking at programs; every path
  through a program to its result has as many locks, and a step of another thread changes neither.
* **C97** (`Spec/Host`, `Props/Host`): the host is a reader of octets written from the RFCs; a message with all its octets needs a
  datagram that is long enough, and only the announced lengths and header length of the built frame leave it so.
* **C98** (`Spec/Seen`, `Props/Seen`): the datagram of the host lies in the frame between options and padding; the transport parser
  gets all three together, and counting octets leaves room for neither.
* **C99** (`Spec/Forward`, `Props/Forward`): C74 says which octets change; the host of C97 is evaluated on the changed frame. Sums
  are compared modulo 65535.
* **C100** (`Props/Ports`): the octets of the transport header replaced in the datagram the host of C97 takes, sums compared modulo
  65535; `Carries` is kept by each edit, so edits can follow one another.
* **C101** (`Spec/Bridge`, `Props/Bridge`): the bits a host does not look at are listed as a predicate on positions, the datagram is
  shown to depend on the others only (`ipInput_ignored`); tagging and untagging from C71; IPv6 addresses as in C99.
* **C102** (`Spec/Turn`, `Props/Turn`): `swapAt` exchanges neighbouring octet ranges of a string; the client is shown to do just that
  to the serialized packet (`exchangeIn_types`), the word sums stay, so every checksum still verifies. ARP reception from RFC 826.
* **C103** (`Spec/Napt`, `Props/Napt`): the arithmetic of RFC 1624 on natural numbers (`adjust_sum`: the new checksum with the new words
  weighs the same modulo 65535, and is never zero); the client's reads and writes are placed in the octets of the frame
  (`readField_types`, `edit_types`).
* **C104** (`Spec/Endpoint`, `Props/Endpoint`): the ends of IP in IP, GRE (RFC 2784, 2890) and ERSPAN tunnels, from the standards, behind the host
  of C97; `whole_excess` says what an outer header with too large a length does, `erspan3_part` what a receiver makes of a part of the segment.
* **C105** (`Spec/Finish`, `Props/Finish`): what a client must set on a built packet before it is sent, as programs over the setters (`finishIp`,
  `finishSum`, `finishGre`, `finishErspan3`, `finishVxlan6`), and that hosts and tunnel ends then get the message, by `checksum_verifies`.
* **C106** (`Spec/Network`, `Props/Network`): a host that peels tunnels off a frame by protocol number, protocol type and port (`peel`), and
  client programs that send a packet through a list of tunnels (`sendAll`); by induction on the list what is peeled is what was sent.
* **C107** (`Spec/Series`, `Props/Series`): client programs of any length on the storage model that make packets by cloning a template
  (`byClone`) or anew (`byMaking`); the frames that come out, by induction on the series.
* **C108** (`Spec/Fragment`, `Props/Fragment`): a client that cuts datagrams (`fragmentAll`), a network that reorders, repeats, loses and
  has fragments cut again (`Carried`, reflexive and transitive), and a host that reassembles (`assembled`); by induction on the way.
* **C109** (`Spec/Stream`, `Props/Stream`): a client that sends a stream in segments (`tcpSegment`), frames that come to the receiver in any
  order (`Comes`), and the receiver of RFC 9293 (`Recv.take`); invariant: the receiver holds the first `r` octets and expects `iss + r`.
* **C110** (`Props/Padding`): one induction over the remaining octets (`Dissect_padded`) with the number of padding octets each layer
  needs when nothing else is left; the other octets by loops (MPLS, IPv6 in IPv6); `headersWithin`: headers by type, place and octets.
* **C111** (`Spec/Route`, `Props/Route`): the routers are client programs like those of C99 and C103; an invariant between the frame sent and
  the frame on its way (`Onward`: which octets are the same) under which parsing, the octets summed up and the options do not change
  (`Onward.parsed`, `Onward.refresh`), and induction over the routers; the echo from C103's responder, whose exchange of addresses does not
  change the sum.
* **C112** (`Spec/Resolve`, `Props/Resolve`): a transition system whose stations are client programs; the link keeps every frame sent, and a
  delivery takes any of them. Invariant `ArpLink.Good` (nobody lies, every entry is a station's) by induction over events; that an entry
  stays right follows from it. The getters' values are related to octets by `fieldVal_slice`.
* **C113** (`Spec/Transfer`, `Props/Transfer`): two clients of C109 facing each other; the network keeps every frame sent. Invariant
  `Transfer.Good` (acknowledged <= read <= sent, every frame ever sent acknowledges no more than its sender has read) by induction over
  events; progress follows for any interleaving because the invariant and the frames sent are stable.
* **C114** (`Spec/Switch`, `Props/Switch`): the switch is a client program that refines a switch on octets for every table (`C114_receive`);
  isolation, learning and flooding are proved of executions of it, and an invariant (`Under`: the frame is the one that came in, tagged or
  not) is carried along ways through any number of switches.
* **C115** (`Spec/Flood`, `Props/Flood`): the same switch with clones, on the storage model: `flood_run` follows the calls port by port with
  the invariant that the first packet is always the frame or the spoilt frame.
* **C116** (`Spec/Gateway`, `Props/Gateway`): the gateway is a client program on top of C103 with a table; each event refines the rules of
  RFC 3022 on segments (`C116_out`, `C116_in`), and an invariant of the table (`NatGood`) with the origin of its entries (`run_origin`)
  gives the statements about executions.
* **C117** (`Spec/Taint`, `Props/Taint`): an invariant (`Ledger`) of all executions that keeps, per thread, its position in a call (`Pos`)
  and, per poisoned header, the dead thread it is due to; `C117_chain` constructs executions that reach the bound.
* **C118** (`Spec/Apart`, `Props/Apart`): a step reads and writes only the headers of its thread's group (`act_local`), so executions of
  the whole and of the two groups can be transformed into each other (`parts`, `follow`).
* **C119** (`Spec/Through`, `Props/Through`): C113 and C116 put together. The invariant of C113 holds for the two sides; the frames of a
  side are segments of its leg, those sent on are segments of the other leg with the same numbers and octets (`pass_conn`), and frames made
  over IPv4 have no options, so the gateway does translate them (`made_nat`).
* **C120** (`Props/Internet`): C113 and C111 put together. The invariant of C113 holds for the two sides; every frame under way is `along` some
  routers of a frame that was sent, and C111 says what a host reads from that. Frames made with the builders have no options and the hops
  asked for (`made_hops`), so that routers can work on them (`tcp_routable`). The failing routers: `C120_stuck`, from what the
  header of a segment is (`made4_head`).
* **C121** (`Props/Fatal`, `Spec/Fatal`): `datagram_seen` (C98) says where the parser is behind the IP header; C22 says when it panics from
  there, and the grammar is inverted for TCP, ICMP and UDP. What has been parsed is forwarded without a panic (`forward_ok`), with any number
  of GRE options.
* **C122** (`Props/Guard`, `Props/Shortest`): the grammar is monotone (C22), a hundred octets 0xFF end every dissection (C22), and if all of what was appended is
  in the payload the headers are those of the octets before (`Dissect_trim`, by induction over the grammar).
  That no 72 octets will do, whatever they are, is seen on one frame cut in an IPv6 header which announces another.
* **C123** (`Props/Hostile`): a simulation: every event among hostile frames is no event or one event of C120 (`Hostile.step_ok`). The headers in
  front of what an IP datagram carries are written back as they were, also if GRE options behind are not (`Dissect_front`, `front_kept`), so
  that a router keeps version and protocol (`pass_kept`); and a packet with TCP has no GRE header (`tcp_no_gre`), so that C111 applies.
* **C124** (`Props/Twice`): the induction of C57 once more, with the headers themselves (`turned_of_Dissect`); then C74, C99 and C111 with `p.to_vec = f`
  in place of the condition on GRE options (`Mirrors`), and C122 for what is not to be parsed.
* **C125** (`Spec/Cells`, `Props/Publish`): no deadlock from C66, since nobody else waits for a header of one's own; a bisimulation between the machine of
  C65 and one whose cells are whole vectors (`Shown`), where the steps on a thread's own headers are not seen; then invariants of the latter.
* **C126** (`Spec/Exclude`, `Props/Exclude`): an invariant of the machine of C65 (`Orderly`): of two threads with their flag up, not both have seen the
  other's down; hence one at a time is editing, and what is left of its edit turns the contents into the edits in order. C65 carries it to the code.
* **C127** (`Spec/Elect`, `Props/Elect`, `Props/ElectMany`): on the machine of C65, two next steps of two threads without `replace` commute, overwrite
  each other or are a read, so both branches can end alike; by induction on what is left of the threads there is only one decision. The protocols with
  `replace` have an invariant each (`Contest`, `Poll`); C66 gives that they end.
* **C128** (`Spec/Tangle`, `Props/Tangle`): from a stuck state, each thread that holds a mutex is in the middle of a `replace` (as in C66), so the machine state
  behind it (C65) has a cycle of copies about to be made, by the pigeonhole principle on the finitely many threads. Conversely each thread of the cycle takes its
  own mutex; nobody else can release it (C70), and the others run until they cannot go on. `C128_finish_iff` adds that runs end (as in C66).
* **C129** (`Spec/Tally`, `Props/Tally`): Lamport's theorem on reading and writing in opposite directions (Concurrent reading and writing, 1977), for the bits of
  a field. The invariant compares the leading bits a reader has read with those of the value finished last, or of the value being written if the writer has already
  come to them. `C129_can_be_behind` refutes the other bound.
* **C130** (`Spec/Seqlock`, `Props/Seqlock`): an invariant of the machine of C65 with the number of edits finished. A reader that is reading under the version in
  force has made the steps it makes alone on the contents after those edits; versions only go forward, so one seen twice was in force throughout. Deadlock is
  excluded with C128: only the writer replaces.
* **C131** (`Spec/Again`, `Props/Again`): a round of the machine of C65 in which the getter spans two setters, repeated by recursion on the reader. A limit of the
  code, shown on one field; C129 and C130 are what a client can do instead.

Non-vacuity: beside the theorems there are `example`s with concrete, non-trivial data meeting the hypotheses.

## 5. Discrepancies found in the source

Each is a theorem (or part of one), with a concrete case.

1. `clone` is shallow: clones, `+` and header lookups share storage (C18, C19).
2. `ICMP::new()` has six default bytes for a four byte header; a packet holding it does not even compare equal to itself
   (C12, C13).
3. `set_payload` appends (C16). `Packet + Packet` drops the right payload (C17).
4. The parsers reverse the order of GRE options when two or more are present, so parse and serialize is not the identity
   (C23, C45).
5. 802.3 boundary is `< 1500`; value 1500 is taken as an EtherType (C28).
6. MPLS parsing takes one label beyond bottom of stack (C29).
7. `XSlice::from` makes a slice of the declared size whatever it is given (C27); safe inside the parser, unsound as API.
8. Address conversions turn a malformed or missing component into 0; one component too many panics (C31, C32).
9. `Packet::vlan` ignores `cfi`; out-of-range arguments spill into neighbouring fields (C34, C35).
10. `Packet::mpls` puts label, exp and bos in the wrong place (C36). `Packet::snap` rotates the OUI (C37).
    `Packet::llc` returns a three byte `Dot3` (C38).
11. `ipv4_checksum` folds once: wrong by one whenever folding carries (C39; the crate's test avoids those headers, C92); panics on odd lengths other than 11 (C40).
12. Getters of 128 bit fields panic with overflow checks on and are truncated otherwise (C07).
13. `create_vxlan_packet` changes `total_len` after computing the checksum (C43).
14. ERSPAN builders count the inner packet twice (C46), so no receiver gets the mirrored frame (C104). `create_vxlanv6_packet`, `create_erspan_3_packet` emit the inner
    headers twice (C47). `create_erspan_3_packet` sets the sequence bit from the low bit of the sequence number (C48).
15. `create_gre_packet` counts routing bytes that it does not emit (C49). `ip_options` arguments are ignored (C41).
16. Field accesses lock per bit: concurrent setters mix bits, getters tear (C51, C52).
17. `a.replace(&a)` or of aliases hangs; cross replace deadlocks; replacing from a poisoned header empties the target (C54).
    A panicking accessor poisons all aliases (C53). A panicking `set_bytes` leaves a prefix written (C08).
18. `show` prints one bit twice for widths above 8 that are not multiples of 8 (C55).
19. The message of `compare_with_slice` "matching upto N bytes" counts agreeing positions, also those after the first
    difference (C61).
20. `Packet::to_vec` locks header by header: while another thread writes it can return a string the packet never had (C64).
21. The parsers nest one call per four bytes of VLAN tags or MPLS labels, without limit; no stack is large enough for all
    frames (C68).
22. Packets built by `create_vxlanv6_packet` and `create_erspan_3_packet` share the inner packet's headers with its clones,
    but hold a copy of its bytes as payload; later writes to a clone change one and not the other (C69).
23. tests/pcap.rs opens the capture file without truncating it, so the rest of a longer old file stays behind the new packets;
    it stores milliseconds in the microsecond field and packets above the announced limit of 65535 bytes (C72).
24. `show` of a header shorter than its fields panics while holding the mutex, so that after it `to_vec` of every packet
    sharing the header panics, too (C73).
25. The parsers ignore IPv4 header length, total length and fragment offset, IPv6 payload length and extension headers, UDP
    length, TCP data offset and 802.3 length. IPv4 options and later fragments are taken for transport headers, TCP options
    and the padding of short Ethernet frames for payload (C75).
26. With overflow checks `ipv4_checksum` panics on long buffers (all-ones: from 131076 octets on), and `bytes`, `set_bytes`
    panic on reversed ranges. A release build returns a checksum, and for reversed ranges returns nothing or fails the
    assertion on the width, according to the distance (C76).
27. No builder computes a transport checksum; TCP, ICMP (zero) and UDP over IPv6 (0xffff) are wrong but for one value of an
    argument in 65535. `*_checksum`, `icmp_data` and `ip_options` arguments have no effect; `ip_ihl` and `tcp_data_offset` are
    stored as given although no options are emitted, and `ip_ihl`, `tcp_res` above 15 spill into the version and the data offset
    (C77).
28. `Packet::push`, `insert` accept slice headers and panic on them. `pkt[name] = Box::new(slice)` works, after which `clone`,
    `+` and `get_header` of that name panic. `set_bit_range` of a slice header is silently ignored (C78).
29. `Packet::compare` reads its argument and then the receiver, each header under its own lock.  While another thread sets a field,
    comparing a packet with its own clone (the same storage) can answer `false`, and packets that are different at every moment can
    be reported equal (C79).
30. Parsing moves all headers parsed so far for each new one (`insert` at the front of a `Vec`), so the work is quadratic in the
    number of headers, which whoever sends the frame chooses (C81).
31. An even nonzero ERSPAN III sequence number is written but not announced (the flag is the number's lowest bit), and frames
    become ambiguous: `C83_erspan3_ambiguous` gives two different calls with the same bytes.
32. `IPv4::new()` has a wrong checksum (0xfaec for 0xb880) and a fragment offset of 221, and announces TCP. So the packets made of
    `Ether::new()`, `IPv4::new()` and a UDP header in lib.rs and examples/pkt.rs are not parsed back: the parser panics.
    `ICMP::new()` is two octets longer than its declared size (C88).
33. A text that is no IPv6 address is converted to the unspecified address; a message is printed, but the caller
    is not told (C91).
34. The output of `show` in README.md is not output of `show`: for `MyHeader` and `IPv4` a field that is not a whole number of octets has a
    line that no data gives (C94).
35. `make_header!` accepts definitions whose fields overlap, are too wide or reach beyond the default data; its documentation
    requires only that the default data have the declared size, which is not checked either (C95).
36. A right UDP datagram for port 4789 in a frame that ends less than a VXLAN header and an Ethernet header behind the UDP header makes
    `parse` panic, and so can one for another port with IPv4 options that hold 4789 at octets 2 and 3: whoever can send a datagram through
    a router built on the crate can stop it (C121).

## 6. Testing the theorems against wrong programs

A copy of the project outside /verif is prepared so that a failing proof does not stop the build: every theorem and
example is preceded by `#guard_msgs (drop error) in`, so that a proof which no longer checks becomes a theorem that
depends on `sorryAx`. One model definition is edited, the copy is rebuilt, and the property theorems that now depend
on `sorryAx` (directly or through a lemma) are recorded in `seeded/LOG.jsonl`, with the claim that the edit breaks. A
listed theorem stopped checking with the proof as it stands: that is evidence, not proof, that its statement became false.
An edit that leaves every theorem of the claim intact is a hole in the theorems, unless the edit does not concern the claim
after all; the line then says what was tightened or why nothing was. Edits that did not compile say so in a note.

Besides these edits, made with a claim in mind, a script edits a random sample of the operators, numbers, conditions and errors in
the model files, one at a time, and stops the build at the first declaration that fails. Those lines say "generated edit" in their note;
`theorems_failed` then has that one declaration, often a lemma on which the property theorems rest. Three generated edits made no
theorem fail; none of them changes what the model does on any input.

## 7. Testing the model against the repository's own tests

`Verif/RepoTests.lean` evaluates the assertions of /repo/tests/lib.rs and of the unit tests in /repo/src on the model (kernel evaluation of closed terms).
These are tests of the transcription on literals, not proofs; no claim in MANIFEST.json cites them. The Rust tests
themselves were not run (no dependencies here), so agreement with them shows only that the model does what the author
expects of the code. `ip_checksum_test` is not among them: it is proved for all of its arguments (C92). The
tests that only print or time are left out.

`tools/check_source.py` compares texts: all `make_header!` tables, the enums and constants of types.rs, which parser functions
each parser function calls in `Slow`, `Fast`, `Stack` and `Cost`, the parameters of builders and constructors in order, and
every citation of lines in the model. All agree. It is a test of the transcription, too, and run by hand.
