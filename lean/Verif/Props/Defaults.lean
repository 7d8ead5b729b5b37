import Verif.Props.Reparse
import Verif.Props.BuildersParse
import Verif.Spec.Defaults
import Verif.Props.Formats
/-!
# C88: headers made by `new()`
-/
namespace PacketRs
open Spec

theorem map_new_cons {ts : List HeaderDef} {T : HeaderDef} {h : Bytes} {hs : List Hdr}
    (e : ts.map HeaderDef.new = ⟨T, h⟩ :: hs) : ∃ ts', ts = T :: ts' ∧ h = T.dflt ∧ hs = ts'.map HeaderDef.new := by
  cases ts with
  | nil => simp at e
  | cons U ts =>
    simp only [List.map_cons, List.cons.injEq, HeaderDef.new, Hdr.mk.injEq] at e
    obtain ⟨⟨rfl, rfl⟩, rfl⟩ := e
    exact ⟨ts, rfl, rfl, rfl⟩

section
variable {ts : List HeaderDef}

theorem new_payload (c : Chain .payload (ts.map HeaderDef.new)) : ts = [] := by
  generalize e : ts.map HeaderDef.new = hs at c
  cases c
  simpa using e

theorem new_tcp (c : Chain .tcp (ts.map HeaderDef.new)) : ts = [TCP] := by
  generalize e : ts.map HeaderDef.new = hs at c
  cases c
  obtain ⟨ts, rfl, -, h⟩ := map_new_cons e
  simpa using h.symm

theorem new_arp (c : Chain .arp (ts.map HeaderDef.new)) : ts = [ARP] := by
  generalize e : ts.map HeaderDef.new = hs at c
  cases c
  obtain ⟨ts, rfl, -, h⟩ := map_new_cons e
  simpa using h.symm

theorem new_snap (c : Chain .snap (ts.map HeaderDef.new)) : ts = [SNAP] := by
  generalize e : ts.map HeaderDef.new = hs at c
  cases c
  obtain ⟨ts, rfl, -, h⟩ := map_new_cons e
  simpa using h.symm

theorem new_icmp (c : Chain .icmp (ts.map HeaderDef.new)) : False := by
  generalize e : ts.map HeaderDef.new = hs at c
  cases c with
  | icmp hl =>
    obtain ⟨ts, rfl, rfl, h⟩ := map_new_cons e
    exact absurd hl (by decide)

theorem new_udp (c : Chain .udp (ts.map HeaderDef.new)) : ts = [UDP] := by
  generalize e : ts.map HeaderDef.new = hs at c
  cases c with
  | udp hl hp =>
    obtain ⟨ts, rfl, -, h⟩ := map_new_cons e
    simpa using h.symm
  | udpVxlan hl hp _ =>
    obtain ⟨ts, rfl, rfl, h⟩ := map_new_cons e
    exact absurd hp (by decide)

theorem new_llc (c : Chain .llc (ts.map HeaderDef.new)) : ts = [LLC] := by
  generalize e : ts.map HeaderDef.new = hs at c
  cases c with
  | llc hl hp =>
    obtain ⟨ts, rfl, -, h⟩ := map_new_cons e
    simpa using h.symm
  | llcSnap _ =>
    obtain ⟨ts, rfl, h, -⟩ := map_new_cons e
    exact absurd h (by decide)

theorem new_dot3 (c : Chain .dot3 (ts.map HeaderDef.new)) : ts = [Dot3, LLC] := by
  generalize e : ts.map HeaderDef.new = hs at c
  cases c with
  | dot3 _ c =>
    obtain ⟨ts, rfl, -, rfl⟩ := map_new_cons e
    rw [new_llc c]

theorem new_ipv4 (c : Chain .ipv4 (ts.map HeaderDef.new)) : ts = [IPv4, TCP] := by
  generalize e : ts.map HeaderDef.new = hs at c
  cases c with
  | ipv4 _ c =>
    obtain ⟨ts, rfl, rfl, rfl⟩ := map_new_cons e
    rw [show ipv4Next (u8At IPv4.dflt 9) = .tcp by decide] at c
    rw [new_tcp c]

theorem new_ipv6 (c : Chain .ipv6 (ts.map HeaderDef.new)) : ts = [IPv6, TCP] := by
  generalize e : ts.map HeaderDef.new = hs at c
  cases c with
  | ipv6 _ c =>
    obtain ⟨ts, rfl, rfl, rfl⟩ := map_new_cons e
    rw [show ipv6Next (u8At IPv6.dflt 6) = .tcp by decide] at c
    rw [new_tcp c]

theorem new_ether (c : Chain .ether (ts.map HeaderDef.new)) : ts = [Ether, IPv4, TCP] := by
  generalize e : ts.map HeaderDef.new = hs at c
  cases c with
  | ether _ c =>
    obtain ⟨ts, rfl, rfl, rfl⟩ := map_new_cons e
    rw [show etherNext (u16At Ether.dflt 12) = .ipv4 by decide] at c
    rw [new_ipv4 c]

theorem new_vlan (c : Chain .vlan (ts.map HeaderDef.new)) : ts = [Vlan, IPv4, TCP] := by
  generalize e : ts.map HeaderDef.new = hs at c
  cases c with
  | vlan _ c =>
    obtain ⟨ts, rfl, rfl, rfl⟩ := map_new_cons e
    rw [show etherNext (u16At Vlan.dflt 2) = .ipv4 by decide] at c
    rw [new_ipv4 c]

theorem new_vxlan (c : Chain .vxlan (ts.map HeaderDef.new)) : ts = [Vxlan, Ether, IPv4, TCP] := by
  generalize e : ts.map HeaderDef.new = hs at c
  cases c with
  | vxlan _ c =>
    obtain ⟨ts, rfl, rfl, rfl⟩ := map_new_cons e
    rw [new_ether c]

theorem new_erspan2 (c : Chain .erspan2 (ts.map HeaderDef.new)) : ts = [ERSPAN2, Ether, IPv4, TCP] := by
  generalize e : ts.map HeaderDef.new = hs at c
  cases c with
  | erspan2 _ c =>
    obtain ⟨ts, rfl, rfl, rfl⟩ := map_new_cons e
    rw [new_ether c]

theorem new_erspan3 (c : Chain .erspan3 (ts.map HeaderDef.new)) : ts = [ERSPAN3, Ether, IPv4, TCP] := by
  generalize e : ts.map HeaderDef.new = hs at c
  cases c with
  | erspan3 _ hp c =>
    obtain ⟨ts, rfl, rfl, h⟩ := map_new_cons e
    rw [show bitAt ERSPAN3.dflt 11 0 = false by decide] at hp
    obtain rfl := List.length_eq_zero_iff.mp hp
    simp only [optH, if_true, List.nil_append] at h
    subst h
    rw [new_ether c]

theorem new_gre (c : Chain .gre (ts.map HeaderDef.new)) : ts = [GRE] := by
  generalize e : ts.map HeaderDef.new = hs at c
  cases c with
  | gre _ hc hk hs _ c =>
    obtain ⟨ts, rfl, rfl, h⟩ := map_new_cons e
    rw [show bitAt GRE.dflt 0 7 = false by decide] at hc
    rw [show bitAt GRE.dflt 0 5 = false by decide] at hk
    rw [show bitAt GRE.dflt 0 4 = false by decide] at hs
    obtain rfl := List.length_eq_zero_iff.mp hc
    obtain rfl := List.length_eq_zero_iff.mp hk
    obtain rfl := List.length_eq_zero_iff.mp hs
    simp only [optH, if_true, List.nil_append] at h
    subst h
    rw [show greNext (u16At GRE.dflt 2) = .payload by decide] at c
    rw [new_payload c]

theorem new_mpls (c : Chain .mpls (ts.map HeaderDef.new)) : False := by
  induction ts with
  | nil => cases c
  | cons T ts ih =>
    generalize e : (T :: ts).map HeaderDef.new = hs at c
    cases c with
    | mpls _ _ c =>
      obtain ⟨ts', e', -, rfl⟩ := map_new_cons e
      obtain ⟨-, rfl⟩ := List.cons.inj e'
      exact ih c
    | mplsLast _ hb _ =>
      obtain ⟨ts', -, rfl, -⟩ := map_new_cons e
      exact absurd hb (by decide)

theorem new_mplsBos (c : Chain .mplsBos (ts.map HeaderDef.new)) :
    ts = [MPLS, Ether, IPv4, TCP] ∨ ts = [MPLS, IPv4, TCP] ∨ ts = [MPLS, IPv6, TCP] := by
  generalize e : ts.map HeaderDef.new = hs at c
  cases c with
  | mplsBos _ c =>
    obtain ⟨ts, rfl, -, h⟩ := map_new_cons e
    unfold bosNext at c
    rw [h] at c
    split at c
    · rw [new_ipv4 c]; simp
    · split at c
      · rw [new_ipv6 c]; simp
      · rw [new_ether c]; simp

end

theorem chain_new_iff (l : Layer) (ts : List HeaderDef) : Chain l (ts.map HeaderDef.new) ↔ ts ∈ defaultStacks l := by
  constructor
  · intro c
    cases l <;> simp only [defaultStacks, List.mem_cons, List.not_mem_nil, or_false]
    case payload => exact new_payload c
    case ether => exact new_ether c
    case vlan => exact new_vlan c
    case mpls => exact new_mpls c
    case mplsBos => exact new_mplsBos c
    case ipv4 => exact new_ipv4 c
    case ipv6 => exact new_ipv6 c
    case gre => exact new_gre c
    case erspan2 => exact new_erspan2 c
    case erspan3 => exact new_erspan3 c
    case arp => exact new_arp c
    case icmp => exact new_icmp c
    case tcp => exact new_tcp c
    case udp => exact new_udp c
    case vxlan => exact new_vxlan c
    case dot3 => exact new_dot3 c
    case llc => exact new_llc c
    case snap => exact new_snap c
  · intro h
    have tcp : Chain .tcp [TCP.new] := .tcp rfl
    have ip4 : Chain .ipv4 [IPv4.new, TCP.new] := .ipv4 rfl tcp
    have ip6 : Chain .ipv6 [IPv6.new, TCP.new] := .ipv6 rfl tcp
    have eth : Chain .ether [Ether.new, IPv4.new, TCP.new] := .ether rfl ip4
    have llc : Chain .llc [LLC.new] := .llc rfl (by decide)
    cases l <;> simp only [defaultStacks, List.mem_cons, List.not_mem_nil, or_false] at h
    case payload => subst h; exact .payload
    case ether => subst h; exact eth
    case vlan => subst h; exact .vlan rfl ip4
    case mplsBos =>
      rcases h with rfl | rfl | rfl
      · exact .mplsBos rfl eth
      · exact .mplsBos rfl ip4
      · exact .mplsBos rfl ip6
    case ipv4 => subst h; exact ip4
    case ipv6 => subst h; exact ip6
    case gre => subst h; exact .gre (h := GRE.dflt) (c := []) (k := []) (s := []) (hs := []) rfl rfl rfl rfl rfl .payload
    case erspan2 => subst h; exact .erspan2 rfl eth
    case erspan3 => subst h; exact .erspan3 (h := ERSPAN3.dflt) (p := []) rfl rfl eth
    case arp => subst h; exact .arp rfl
    case tcp => subst h; exact tcp
    case udp => subst h; exact .udp rfl (by decide)
    case vxlan => subst h; exact .vxlan rfl eth
    case dot3 => subst h; exact .dot3 rfl llc
    case llc => subst h; exact llc
    case snap => subst h; exact .snap rfl

theorem number_bits (o : Bytes) : number (bits o) = beNat o := by
  by_cases h : o = []
  · subst h; rfl
  · have hl : 0 < o.length := List.length_pos_iff.mpr h
    have := number_piece (f := ⟨"", 0, 8 * o.length - 1⟩) (d := o) ⟨Nat.zero_le _, by show 8 * o.length - 1 < _; omega⟩
    unfold Field.piece Field.width at this
    simp only [List.drop_zero] at this
    rw [List.take_of_length_le (by rw [bits_length]; omega)] at this
    rw [this, fieldVal_all o _ (by omega)]

/-- **C88** (stacks, any layer): a packet of default headers, with any payload, is parsed back to itself iff its stack is one of
those in the table for the layer at which parsing starts. -/
theorem C88_stacks (chk : Bool) (l : Layer) (ts : List HeaderDef) (payload : Bytes) :
    Slow.parseL chk l (Packet.to_vec ⟨ts.map HeaderDef.new, payload⟩) = .ok ⟨ts.map HeaderDef.new, payload⟩ ↔
      ts ∈ defaultStacks l := by
  rw [C58_survives_iff, chain_new_iff]

/-- **C88** (frames): as a frame it is parsed back to itself iff it is Ethernet, IPv4, TCP or 802.3, LLC. -/
theorem C88_frames (chk : Bool) (ts : List HeaderDef) (payload : Bytes) :
    Slow.parse chk (Packet.to_vec ⟨ts.map HeaderDef.new, payload⟩) = .ok ⟨ts.map HeaderDef.new, payload⟩ ↔
      ts = [Ether, IPv4, TCP] ∨ ts = [Dot3, LLC] := by
  rw [C58_survives_iff_frame]
  constructor
  · intro c
    generalize e : ts.map HeaderDef.new = hs at c
    cases c with
    | dot3 _ c => rw [← e] at c; exact .inr (new_dot3 c)
    | ether _ c => rw [← e] at c; exact .inl (new_ether c)
  · rintro (rfl | rfl)
    · exact .ether (by decide) ((chain_new_iff .ether [Ether, IPv4, TCP]).mpr (by decide))
    · exact .dot3 (by decide) ((chain_new_iff .dot3 [Dot3, LLC]).mpr (by decide))

-- the doc test of /repo/src/lib.rs:57-71 (with a payload added)
example : Slow.parse true (Packet.to_vec ⟨[Ether, IPv4, TCP].map HeaderDef.new, [1#8, 2#8]⟩) =
    .ok ⟨[Ether, IPv4, TCP].map HeaderDef.new, [1#8, 2#8]⟩ := by decide +kernel

/-- **C88** (not what it says): IPv4's default header announces TCP, so behind it a UDP header, whatever it holds, is read as the
beginning of a TCP header: parsing fails unless twelve octets follow, and otherwise takes them for the rest of the TCP header. -/
theorem C88_udp_read_as_tcp (chk : Bool) (u payload : Bytes) (hu : u.length = 8) :
    Slow.parse chk (Packet.to_vec ⟨[Ether.new, IPv4.new, UDP.ofVec u], payload⟩) =
      if payload.length < 12 then .error .index
      else .ok ⟨[Ether.new, IPv4.new, TCP.ofVec (u ++ payload.take 12)], payload.drop 12⟩ := by
  have w : Walk chk .ether (Ether.dflt ++ IPv4.dflt) [Ether.new, IPv4.new] .tcp :=
    (walk_ether chk Ether.dflt rfl).trans (walk_ipv4 chk IPv4.dflt rfl)
  have e : Packet.to_vec ⟨[Ether.new, IPv4.new, UDP.ofVec u], payload⟩ = Ether.dflt ++ IPv4.dflt ++ (u ++ payload) := by
    simp [Packet.to_vec, Hdr.to_vec, HeaderDef.new, HeaderDef.ofVec]
  rw [e, Slow.parse_eq, if_neg (by simp [Ether, IPv4]), if_neg (by
    rw [List.append_assoc, u16At_append_left _ _ _ (by decide)]; decide), w]
  by_cases h : payload.length < 12
  · rw [if_pos h, Slow.parseL_eq _ _ _ (by decide)]
    simp only [dstep, one]
    rw [if_neg (by simp [TCP]; omega)]
    rfl
  · rw [if_neg h]
    have e2 : u ++ payload = (u ++ payload.take 12) ++ payload.drop 12 := by rw [List.append_assoc, List.take_append_drop]
    rw [e2, (walk_tcp chk (u ++ payload.take 12) (by simp; omega)).parse]
    rfl

-- the packet of /repo/examples/pkt.rs:49-53
example : Slow.parse true (Packet.to_vec ⟨[Ether.new, IPv4.new, UDP.new], []⟩) = .error .index := by decide +kernel

/-- **C88** (sizes): `new()` fills a header to its declared size, except for ICMP, which gets two octets too many. -/
theorem C88_sizes : ∀ T ∈ predefined, T.new.data.length = if T = ICMP then 6 else T.size := by decide

/-- **C88** (values): what every field of a header made by `new()` reads. -/
theorem C88_values (T : HeaderDef) (hT : T ∈ predefined) :
    ∃ vs, (T.name, vs) ∈ defaults ∧ vs.length = T.fields.length ∧
      ∀ (i : Nat) (f : Field) (v : Nat), T.fields[i]? = some f → vs[i]? = some v →
        (f.width ≤ 64 → T.new.Reads f v) ∧ (64 < f.width → ∃ o, T.new.ReadsBytes f o ∧ beNat o = v) := by
  have tab : ∀ T ∈ predefined, (T.name, T.fields.map fun f => fieldVal T.dflt f.lo f.hi) ∈ defaults := by decide +kernel
  have wide : ∀ T ∈ predefined, ∀ f ∈ T.fields, 64 < f.width → f.width = 128 := by decide
  have size : ∀ T ∈ predefined, T.size ≤ T.dflt.length := by decide
  refine ⟨_, tab T hT, by simp, ?_⟩
  intro i f v hf hv
  have hm := List.mem_of_getElem? hf
  have hin : f.Inside T.dflt.length := (predefined_inside T hT f hm).mono (size T hT)
  rw [List.getElem?_map, hf] at hv
  obtain rfl := Option.some.inj hv
  obtain ⟨l, h1, h2, h3, h4⟩ := C87_read T (predefined_chain T hT) T.dflt (size T hT) i f hf
  have hl : l = f.piece T.dflt := by
    have := cut_chain (predefined_chain T hT) T.dflt
    rw [List.drop_zero] at this
    rw [this, List.getElem?_map, hf] at h1
    exact (Option.some.inj h1).symm
  refine ⟨fun h => ?_, fun h => ?_⟩
  · have := h3 h
    rwa [hl, number_piece hin] at this
  · have hw := wide T hT f hm h
    obtain ⟨o, ho, hb⟩ := h4 (by omega) (by omega)
    refine ⟨o, ho, ?_⟩
    have := congrArg number hb
    rw [hl, number_piece hin] at this
    exact (number_bits o).symm.trans this

/-- **C88** (IPv4): the default IPv4 header does not carry its own checksum, and claims to be a fragment at offset 221. -/
theorem C88_ipv4 (chk : Bool) : Packet.ipv4_checksum chk IPv4.new.data = .ok 0xb880#16 ∧
    IPv4.new.Reads IPv4.header_checksum 0xfaec ∧ IPv4.new.Reads IPv4.frag_startset 221 := by
  refine ⟨by cases chk <;> decide +kernel, fun chk => ⟨0xfaec#64, by cases chk <;> decide +kernel, rfl⟩,
    fun chk => ⟨221#64, by cases chk <;> decide +kernel, rfl⟩⟩

end PacketRs
