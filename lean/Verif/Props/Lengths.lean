import Verif.Spec.Lengths
import Verif.Props.Nest
/-!
# Property C75: length fields, header lengths and fragment offsets are not consulted

The parser places every header at a fixed distance from the one before it and takes everything up to the end of the frame.
Here: exactly when that is what the length fields of the header say.
-/
namespace PacketRs
open Spec

theorem region_iff (b : Bytes) (m s e : Nat) (hs : m ≤ s) (hm : m ≤ b.length) :
    b.drop m = (b.take e).drop s ↔ b.length = m ∨ (s = m ∧ b.length ≤ e) := by
  constructor
  · intro h
    have := congrArg List.length h
    rw [List.length_drop, List.length_drop, List.length_take] at this
    omega
  · rintro (h | ⟨rfl, h⟩)
    · rw [List.drop_eq_nil_of_le (by omega), List.drop_eq_nil_of_le (by rw [List.length_take]; omega)]
    · rw [List.take_of_length_le h]

theorem u8At_drop_add (b : Bytes) (n i : Nat) : u8At (b.drop n) i = u8At b (n + i) := by
  simp [u8At, List.getD_eq_getElem?_getD]

theorem u16At_drop_add (b : Bytes) (n i : Nat) : u16At (b.drop n) i = u16At b (n + i) := by
  rw [u16At, u16At, u8At_drop_add, u8At_drop_add, Nat.add_assoc]

/-- The step of a layer with a single header of fixed size, at its place in the frame. -/
theorem region_step {chk : Bool} {b : Bytes} {p : Packet} (h : Slow.parse chk b = .ok p) {pre post : List Hdr} {g : Hdr}
    (hs : p.hdrs = pre ++ g :: post) (hopt : ¬ Optional g.ty) :
    ∃ l, kindOf l = some g.ty ∧ octets pre ≤ b.length ∧
      Slow.parseL chk l (b.drop (octets pre)) = .ok ⟨g :: post, p.payload⟩ := by
  rw [Slow.parse_eq] at h
  split at h
  · exact nomatch h
  · obtain ⟨l, k, hle, hr, -⟩ := C63_nest chk _ b p h pre (g :: post) hs (by
      intro x hx; rw [List.head?_cons, Option.some.injEq] at hx; exact hx ▸ hopt)
    exact ⟨l, k, hle, hr⟩

theorem one_region {chk : Bool} {l l' : Layer} {r : Bytes} {T : HeaderDef} {g : Hdr} {post : List Hdr} {pl : Bytes}
    (h : Slow.parseL chk l r = .ok ⟨g :: post, pl⟩) (hl : l ≠ .payload) (hd : dstep l r = one T r l') :
    g = ⟨T, r.take T.size⟩ ∧ T.size ≤ r.length ∧ Slow.parseL chk l' (r.drop T.size) = .ok ⟨post, pl⟩ := by
  rw [Slow.parseL_eq _ _ _ hl] at h
  obtain ⟨hs, n, l'', p', e, hp, hq⟩ := stepThen_ok h
  rw [hd] at e
  obtain ⟨rfl, rfl, rfl, hle⟩ := one_size e
  simp only [prep, List.cons_append, List.nil_append, Packet.mk.injEq, List.cons.injEq] at hq
  obtain ⟨⟨rfl, rfl⟩, rfl⟩ := hq
  exact ⟨rfl, hle, hp⟩

theorem kind_ipv4 {l : Layer} (h : kindOf l = some IPv4) : l = .ipv4 := by
  cases l <;> first | rfl | exact absurd h (by decide +kernel)
theorem kind_ipv6 {l : Layer} (h : kindOf l = some IPv6) : l = .ipv6 := by
  cases l <;> first | rfl | exact absurd h (by decide +kernel)
theorem kind_udp {l : Layer} (h : kindOf l = some UDP) : l = .udp := by
  cases l <;> first | rfl | exact absurd h (by decide +kernel)
theorem kind_tcp {l : Layer} (h : kindOf l = some TCP) : l = .tcp := by
  cases l <;> first | rfl | exact absurd h (by decide +kernel)
theorem kind_dot3 {l : Layer} (h : kindOf l = some Dot3) : l = .dot3 := by
  cases l <;> first | rfl | exact absurd h (by decide +kernel)

/-- **C75, IPv4.** Whatever the header length, total length, flags and fragment offset of an IPv4 header in an accepted
frame, what follows is what the layer for its protocol number makes of all octets behind the first twenty. These are the
octets the header declares as its contents exactly if nothing follows, or there are no options and the total length reaches
the end of the frame. -/
theorem C75_ipv4 (chk : Bool) (b : Bytes) (p : Packet) (h : Slow.parse chk b = .ok p) (pre post : List Hdr) (g : Hdr)
    (hs : p.hdrs = pre ++ g :: post) (hT : g.ty = IPv4) :
    let n := octets pre
    n + 20 ≤ b.length ∧ Slow.parseL chk (ipv4Next (u8At b (n + 9))) (b.drop (n + 20)) = .ok ⟨post, p.payload⟩ ∧
      (20 ≤ ihl b n → (b.drop (n + 20) = ipv4Data b n ↔
        b.length = n + 20 ∨ (ihl b n = 20 ∧ b.length ≤ n + u16At b (n + 2)))) := by
  intro n
  obtain ⟨l, k, hle, hr⟩ := region_step h hs (by rw [hT]; unfold Optional; decide +kernel)
  rw [hT] at k; cases kind_ipv4 k
  obtain ⟨-, h20, hp⟩ := one_region (T := IPv4) (l' := ipv4Next (u8At (b.drop (octets pre)) 9)) hr (by decide) rfl
  rw [u8At_drop_add, List.drop_drop] at hp
  have hz : IPv4.size = 20 := rfl
  rw [hz, List.length_drop] at h20
  refine ⟨by omega, hp, fun hi => ?_⟩
  rw [ipv4Data, region_iff _ _ _ _ (by omega) (by omega)]
  omega

/-- **C75, fragments.** The type of the header behind an IPv4 header is decided by the protocol number alone: a fragment
that is not the first gets a header cut out of the middle of the data whenever the protocol is one the parser knows. -/
theorem C75_fragment (chk : Bool) (b : Bytes) (p : Packet) (h : Slow.parse chk b = .ok p) (pre post : List Hdr) (g : Hdr)
    (hs : p.hdrs = pre ++ g :: post) (hT : g.ty = IPv4) :
    post.head?.map (·.ty) = kindOf (ipv4Next (u8At b (octets pre + 9))) ∧
      (fragOffset b (octets pre) ≠ 0 →
        (post = [] ↔ u8At b (octets pre + 9) ∉ [1, 4, 6, 17, 41, 47])) := by
  obtain ⟨-, hp, -⟩ := C75_ipv4 chk b p h pre post g hs hT
  have hk := parse_kind hp
  refine ⟨hk.symm, fun _ => ?_⟩
  have : post = [] ↔ kindOf (ipv4Next (u8At b (octets pre + 9))) = none := by
    rw [hk]; simp
  rw [this]
  generalize u8At b (octets pre + 9) = q
  simp only [List.mem_cons, List.not_mem_nil, or_false, not_or]
  unfold ipv4Next
  constructor
  · intro e
    refine ⟨?_, ?_, ?_, ?_, ?_, ?_⟩ <;> (rintro rfl; simp [kindOf] at e)
  · rintro ⟨h1, h2, h3, h4, h5, h6⟩
    simp only [h1, h2, h3, h4, h5, h6, if_false]; rfl

/-- **C75, IPv6.** The payload length is not consulted. -/
theorem C75_ipv6 (chk : Bool) (b : Bytes) (p : Packet) (h : Slow.parse chk b = .ok p) (pre post : List Hdr) (g : Hdr)
    (hs : p.hdrs = pre ++ g :: post) (hT : g.ty = IPv6) :
    let n := octets pre
    n + 40 ≤ b.length ∧ Slow.parseL chk (ipv6Next (u8At b (n + 6))) (b.drop (n + 40)) = .ok ⟨post, p.payload⟩ ∧
      (b.drop (n + 40) = ipv6Data b n ↔ b.length ≤ n + 40 + u16At b (n + 4)) := by
  intro n
  obtain ⟨l, k, hle, hr⟩ := region_step h hs (by rw [hT]; unfold Optional; decide +kernel)
  rw [hT] at k; cases kind_ipv6 k
  obtain ⟨-, h20, hp⟩ := one_region (T := IPv6) (l' := ipv6Next (u8At (b.drop (octets pre)) 6)) hr (by decide) rfl
  rw [u8At_drop_add, List.drop_drop] at hp
  have hz : IPv6.size = 40 := rfl
  rw [hz, List.length_drop] at h20
  refine ⟨by omega, hp, ?_⟩
  rw [ipv6Data, region_iff _ _ _ _ (by omega) (by omega)]
  omega

/-- **C75, extension headers.** Nor is the chain of IPv6 extension headers followed: behind next-header numbers 0
(hop-by-hop), 43 (routing), 44 (fragment), 51 (authentication), 60 (destination options) — or any other number not listed —
everything is payload. -/
theorem C75_extension (chk : Bool) (b : Bytes) (p : Packet) (h : Slow.parse chk b = .ok p) (pre post : List Hdr) (g : Hdr)
    (hs : p.hdrs = pre ++ g :: post) (hT : g.ty = IPv6) (hx : u8At b (octets pre + 6) ∉ [58, 4, 6, 17, 41, 47]) :
    post = [] ∧ p.payload = b.drop (octets pre + 40) := by
  obtain ⟨-, hp, -⟩ := C75_ipv6 chk b p h pre post g hs hT
  revert hx hp
  generalize u8At b (octets pre + 6) = q
  intro hx hp
  simp only [List.mem_cons, List.not_mem_nil, or_false, not_or] at hx
  obtain ⟨h1, h2, h3, h4, h5, h6⟩ := hx
  simp only [ipv6Next, h1, h2, h3, h4, h5, h6, if_false] at hp
  injection hp with hp
  injection hp with e1 e2
  exact ⟨e1.symm, e2.symm⟩

/-- **C75, UDP.** The length field is not consulted: the contents (the inner frame behind port 4789, payload otherwise) run
to the end of the frame. -/
theorem C75_udp (chk : Bool) (b : Bytes) (p : Packet) (h : Slow.parse chk b = .ok p) (pre post : List Hdr) (g : Hdr)
    (hs : p.hdrs = pre ++ g :: post) (hT : g.ty = UDP) :
    let n := octets pre
    n + 8 ≤ b.length ∧
      Slow.parseL chk (if u16At b (n + 2) = 4789 then .vxlan else .payload) (b.drop (n + 8)) = .ok ⟨post, p.payload⟩ ∧
      (u16At b (n + 2) ≠ 4789 → post = [] ∧ p.payload = b.drop (n + 8)) ∧
      (b.drop (n + 8) = udpData b n ↔ b.length = n + 8 ∨ b.length ≤ n + u16At b (n + 4)) := by
  intro n
  obtain ⟨l, k, hle, hr⟩ := region_step h hs (by rw [hT]; unfold Optional; decide +kernel)
  rw [hT] at k; cases kind_udp k
  obtain ⟨-, h20, hp⟩ := one_region (T := UDP) hr (by decide) rfl
  rw [u16At_drop_add, List.drop_drop] at hp
  have hz : UDP.size = 8 := rfl
  rw [hz, List.length_drop] at h20
  refine ⟨by omega, hp, fun h4 => ?_, ?_⟩
  · rw [if_neg h4] at hp
    injection hp with hp
    injection hp with e1 e2
    exact ⟨e1.symm, e2.symm⟩
  · rw [udpData, region_iff _ _ _ _ (by omega) (by omega)]
    omega

/-- **C75, TCP.** The data offset is not consulted: options are payload. -/
theorem C75_tcp (chk : Bool) (b : Bytes) (p : Packet) (h : Slow.parse chk b = .ok p) (pre post : List Hdr) (g : Hdr)
    (hs : p.hdrs = pre ++ g :: post) (hT : g.ty = TCP) :
    let n := octets pre
    let off := u8At b (n + 12) / 16
    n + 20 ≤ b.length ∧ post = [] ∧ p.payload = b.drop (n + 20) ∧
      (5 ≤ off → (p.payload = tcpData b n ↔ b.length = n + 20 ∨ off = 5)) := by
  intro n off
  obtain ⟨l, k, hle, hr⟩ := region_step h hs (by rw [hT]; unfold Optional; decide +kernel)
  rw [hT] at k; cases kind_tcp k
  obtain ⟨-, h20, hp⟩ := one_region (T := TCP) hr (by decide) rfl
  rw [List.drop_drop] at hp
  have hz : TCP.size = 20 := rfl
  rw [hz, List.length_drop] at h20
  injection hp with hp
  injection hp with e1 e2
  have e2 : b.drop (n + 20) = p.payload := e2
  refine ⟨by omega, e1.symm, e2.symm, fun h5 => ?_⟩
  have := region_iff b (n + 20) (n + 4 * off) b.length (by omega) (by omega)
  rw [List.take_length] at this
  rw [← e2, tcpData, this]
  omega

/-- **C75, 802.3.** The length field decides only that the frame is one of 802.3 (below 1500); padding is not removed. -/
theorem C75_dot3 (chk : Bool) (b : Bytes) (p : Packet) (h : Slow.parse chk b = .ok p) (hlen : u16At b 12 < 1500) :
    Slow.parseL chk .llc (b.drop 14) = .ok ⟨p.hdrs.tail, p.payload⟩ ∧
      (b.drop 14 = dot3Data b ↔ b.length ≤ 14 + u16At b 12) := by
  have h0 := h
  rw [Slow.parse_eq] at h
  split at h
  · exact nomatch h
  next h14 =>
    obtain ⟨hd, pl⟩ := p
    cases hd with
    | nil => exact absurd (parse_kind h) (by simp [kindOf])
    | cons g post =>
      obtain ⟨-, hz, hp⟩ := one_region (T := Dot3) h (by decide) rfl
      refine ⟨hp, ?_⟩
      rw [dot3Data, region_iff _ _ _ _ (by omega) (by omega)]
      have : Dot3.size = 14 := rfl
      omega

/-! ### Cases -/

/-- An Ethernet header, twenty octets of IPv4 header with the given fields, and the rest. -/
def lenFrame (verIhl tlHi tlLo fragHi fragLo proto : BitVec 8) (rest : Bytes) : Bytes :=
  List.replicate 12 2#8 ++ [8#8, 0#8] ++ [verIhl, 0#8, tlHi, tlLo, 0#8, 1#8, fragHi, fragLo, 64#8, proto, 0#8, 0#8] ++
    List.replicate 8 7#8 ++ rest

/-- A UDP header from port 1000 to port 2000 of a datagram of nine octets. -/
def lenUdp : Bytes := [3#8, 0xe8#8, 7#8, 0xd0#8, 0#8, 9#8, 0#8, 0#8]

-- as the fields say: no options, total length 29, UDP length 9
example :
    let b := lenFrame 0x45#8 0#8 29#8 0#8 0#8 17#8 (lenUdp ++ [0x61#8])
    ∃ p, Slow.parse true b = .ok p ∧ p.payload = [0x61#8] ∧ ipv4Data b 14 = b.drop 34 ∧ udpData b 34 = p.payload :=
  ⟨okPkt (Slow.parse true (lenFrame 0x45#8 0#8 29#8 0#8 0#8 17#8 (lenUdp ++ [0x61#8]))),
    by decide +kernel, by decide +kernel, by decide +kernel, by decide +kernel⟩

-- the same datagram padded to the smallest Ethernet frame: the 17 octets of padding become payload
example :
    let b := lenFrame 0x45#8 0#8 29#8 0#8 0#8 17#8 (lenUdp ++ [0x61#8] ++ List.replicate 17 0#8)
    ∃ p, Slow.parse true b = .ok p ∧ b.length = 60 ∧ p.payload = 0x61#8 :: List.replicate 17 0#8 ∧ udpData b 34 = [0x61#8] :=
  ⟨okPkt (Slow.parse true (lenFrame 0x45#8 0#8 29#8 0#8 0#8 17#8 (lenUdp ++ [0x61#8] ++ List.replicate 17 0#8))),
    by decide +kernel, by decide +kernel, by decide +kernel, by decide +kernel⟩

-- one word of options (router alert): it is read as the ports of the UDP header
example :
    let b := lenFrame 0x46#8 0#8 33#8 0#8 0#8 17#8 ([0x94#8, 4#8, 0#8, 0#8] ++ lenUdp ++ [0x61#8])
    ∃ p, Slow.parse true b = .ok p ∧ p.hdrs.map (·.ty.name) = ["Ether", "IPv4", "UDP"] ∧
      (p.hdrs.getLast?.map (·.data)) = some [0x94#8, 4#8, 0#8, 0#8, 3#8, 0xe8#8, 7#8, 0xd0#8] ∧
      ipv4Data b 14 = lenUdp ++ [0x61#8] :=
  ⟨okPkt (Slow.parse true (lenFrame 0x46#8 0#8 33#8 0#8 0#8 17#8 ([0x94#8, 4#8, 0#8, 0#8] ++ lenUdp ++ [0x61#8]))),
    by decide +kernel, by decide +kernel, by decide +kernel, by decide +kernel⟩

-- a later fragment (offset 185) of a UDP datagram: its first eight octets of data are taken for a UDP header
example :
    let b := lenFrame 0x45#8 0#8 30#8 0#8 185#8 17#8 (List.replicate 10 0x61#8)
    ∃ p, Slow.parse true b = .ok p ∧ fragOffset b 14 = 185 ∧ p.hdrs.map (·.ty.name) = ["Ether", "IPv4", "UDP"] ∧
      p.payload = [0x61#8, 0x61#8] :=
  ⟨okPkt (Slow.parse true (lenFrame 0x45#8 0#8 30#8 0#8 185#8 17#8 (List.replicate 10 0x61#8))),
    by decide +kernel, by decide +kernel, by decide +kernel, by decide +kernel⟩

-- a TCP header with one word of options (data offset 6) and no data: the options are payload
example :
    let t := List.replicate 12 1#8 ++ [0x60#8] ++ List.replicate 7 0#8
    let b := lenFrame 0x45#8 0#8 44#8 0#8 0#8 6#8 (t ++ [2#8, 4#8, 5#8, 0xb4#8])
    ∃ p, Slow.parse true b = .ok p ∧ p.payload = [2#8, 4#8, 5#8, 0xb4#8] ∧ tcpData b 34 = [] :=
  ⟨okPkt (Slow.parse true (lenFrame 0x45#8 0#8 44#8 0#8 0#8 6#8
      (List.replicate 12 1#8 ++ [0x60#8] ++ List.replicate 7 0#8 ++ [2#8, 4#8, 5#8, 0xb4#8]))),
    by decide +kernel, by decide +kernel, by decide +kernel⟩

-- IPv6 with a fragment header (44): everything behind the first forty octets is payload
example :
    let b := List.replicate 12 2#8 ++ [0x86#8, 0xdd#8, 0x60#8, 0#8, 0#8, 0#8, 0#8, 17#8, 44#8, 64#8] ++ List.replicate 32 3#8 ++
      [17#8] ++ List.replicate 17 4#8
    ∃ p, Slow.parse true b = .ok p ∧ p.hdrs.map (·.ty.name) = ["Ether", "IPv6"] ∧ p.payload = 17#8 :: List.replicate 17 4#8 ∧
      ipv6Data b 14 = 17#8 :: List.replicate 16 4#8 :=
  ⟨okPkt (Slow.parse true (List.replicate 12 2#8 ++ [0x86#8, 0xdd#8, 0x60#8, 0#8, 0#8, 0#8, 0#8, 17#8, 44#8, 64#8] ++
      List.replicate 32 3#8 ++ [17#8] ++ List.replicate 17 4#8)), by decide +kernel, by decide +kernel, by decide +kernel,
    by decide +kernel⟩

-- 802.3 with length 4 in a longer frame
example :
    let b := List.replicate 12 2#8 ++ [0#8, 4#8, 0x42#8, 0x42#8, 3#8, 9#8] ++ List.replicate 20 0#8
    ∃ p, Slow.parse true b = .ok p ∧ p.hdrs.map (·.ty.name) = ["Dot3", "LLC"] ∧ p.payload = 9#8 :: List.replicate 20 0#8 ∧
      dot3Data b = [0x42#8, 0x42#8, 3#8, 9#8] :=
  ⟨okPkt (Slow.parse true (List.replicate 12 2#8 ++ [0#8, 4#8, 0x42#8, 0x42#8, 3#8, 9#8] ++ List.replicate 20 0#8)),
    by decide +kernel, by decide +kernel, by decide +kernel, by decide +kernel⟩

end PacketRs
