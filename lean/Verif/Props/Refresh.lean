import Verif.Props.View
import Verif.Props.Reparse
import Verif.Props.Checksum
import Verif.Utils
/-!
# Property C74: editing an IPv4 header of a received frame and refreshing its checksum

The builders compute the checksum of a header they have just made. A client that forwards or rewrites frames does the
same on a parsed packet; what it gets follows from C15, C23, C39, C40, C58 and C67.
-/
namespace PacketRs
open Spec

/-- The client: `let ip: &mut IPv4 = (&mut pkt["IPv4"]).into(); ip.set_<f>(v);
ip.set_header_checksum(Packet::ipv4_checksum(&ip.to_vec()) as u64);` -/
def editAndRefresh (chk : Bool) (f : Field) (v : U64) (p : Packet) : R Packet :=
  p.withHeaderMut IPv4 "IPv4" fun x => do
    let x ← x.set f v
    let c ← Packet.ipv4_checksum chk x.to_vec
    x.set IPv4.header_checksum (c.setWidth 64)

/-- Setting the checksum field through the bit-wise setter. -/
theorem set_checksum (h : Hdr) (hl : h.data.length = 20) (c : U16) :
    h.set IPv4.header_checksum (c.setWidth 64) = .ok ⟨h.ty, putChecksum h.data c.toNat⟩ := by
  obtain ⟨h', e, ht, hl', hb⟩ := set_bits h IPv4.header_checksum (c.setWidth 64) ⟨by decide, by rw [hl]; decide⟩
  rw [e]
  have : h'.data = putChecksum h.data c.toNat := by
    apply eq_of_netBit
    · rw [hl']; simp [putChecksum]
    · intro i hi
      rw [hb i]
      unfold putChecksum
      rw [netBit_set _ _ _ _ (by simp [hl]), netBit_set _ _ _ _ (by omega)]
      simp only [show IPv4.header_checksum.lo = 80 from rfl, show IPv4.header_checksum.hi = 95 from rfl]
      by_cases h1 : 80 ≤ i ∧ i ≤ 95
      · rw [if_pos h1]
        by_cases h2 : i / 8 = 11
        · rw [if_pos h2, BitVec.getMsbD, BitVec.getLsbD_ofNat, BitVec.getLsbD_setWidth, BitVec.getLsbD]
          have : i % 8 < 8 := Nat.mod_lt _ (by decide)
          rw [decide_eq_true this, decide_eq_true (show 95 - i < 64 by omega), decide_eq_true (show 8 - 1 - i % 8 < 8 by omega),
            show 8 - 1 - i % 8 = 95 - i by omega]; simp only [Bool.true_and]
        · rw [if_neg h2, if_pos (by omega), BitVec.getMsbD, BitVec.getLsbD_ofNat, BitVec.getLsbD_setWidth, BitVec.getLsbD]
          have : i % 8 < 8 := Nat.mod_lt _ (by decide)
          rw [decide_eq_true this, decide_eq_true (show 95 - i < 64 by omega), decide_eq_true (show 8 - 1 - i % 8 < 8 by omega),
            show (256 : Nat) = 2 ^ 8 from rfl, Nat.testBit_div_two_pow, show 8 - 1 - i % 8 + 8 = 95 - i by omega]; simp only [Bool.true_and]
      · rw [if_neg h1, if_neg (by omega), if_neg (by omega)]
  cases h'; simp only at ht this; rw [ht, this]

/-- What the client gets, for every packet whose headers have their declared sizes. -/
theorem edit_refresh (chk : Bool) (p : Packet) (pre post : List Hdr) (g : Hdr)
    (hs : IsFirstNamed p.hdrs "IPv4" pre g post) (hT : g.ty = IPv4) (hl : g.data.length = 20)
    (f : Field) (hin : f.Inside 20) (v : U64) :
    ∃ g' c, g.set f v = .ok g' ∧ g'.ty = IPv4 ∧ g'.data.length = 20 ∧ Packet.ipv4_checksum chk g'.data = .ok c ∧
      editAndRefresh chk f v p = .ok ⟨pre ++ ⟨IPv4, putChecksum g'.data c.toNat⟩ :: post, p.payload⟩ := by
  obtain ⟨g', e, ht, hl', -⟩ := set_bits g f v (by rw [hl]; exact hin)
  obtain ⟨c, hc, -⟩ := C39_value chk g'.data (by rw [hl', hl]) (by rw [hl', hl]; decide)
  refine ⟨g', c, e, by rw [ht, hT], by rw [hl', hl], hc, ?_⟩
  have := set_checksum g' (by rw [hl', hl]) c
  rw [ht, hT] at this
  simp only [editAndRefresh, Packet.withHeaderMut, modifyFirst_of_first hs, hT, if_true, bind, Except.bind, e, Hdr.to_vec, hc,
    this, Except.map]
  rfl

theorem wire_take_drop {chk : Bool} {b : Bytes} {p : Packet} (h : Slow.parse chk b = .ok p)
    (hg : ∀ g ∈ p.hdrs, g.ty = GRE → greOptCount g.data ≤ 1) {pre post : List Hdr} {g : Hdr}
    (hs : p.hdrs = pre ++ g :: post) :
    (pre.map (·.data)).flatten = b.take (sizes pre) ∧ g.data = (b.drop (sizes pre)).take g.ty.size ∧
      (post.map (·.data)).flatten ++ p.payload = b.drop (sizes pre + g.ty.size) := by
  have hsz := frame_sizes h
  have hb := C23_roundtrip_frame chk b p h hg
  obtain ⟨hd, pl⟩ := p
  simp only at hs hsz
  subst hs
  rw [wire_split] at hb
  have hpre := sizes_eq (pre := pre) (fun x hx => hsz x (by simp [hx]))
  have hgl : g.data.length = g.ty.size := hsz g (by simp)
  refine ⟨?_, ?_, ?_⟩
  · rw [← hb, List.take_left' hpre]
  · rw [← hb, List.drop_left' hpre, List.take_left' hgl]
  · rw [← hb, ← List.drop_drop, List.drop_left' hpre, List.drop_left' hgl]

/-- **C74, what comes out.** Let `n` octets precede the first IPv4 header of an accepted frame (in which no GRE header has
two options). After setting any field and refreshing the checksum the frame is the old one with the twenty octets at `n`
changed: they are the old ones with the field's bits replaced, and then the checksum stored. The result verifies iff the sum
does not carry when folded; and the code itself finds the stored checksum to be right. -/
theorem C74_frame (chk : Bool) (b : Bytes) (p : Packet) (h : Slow.parse chk b = .ok p)
    (hg : ∀ g ∈ p.hdrs, g.ty = GRE → greOptCount g.data ≤ 1) (pre post : List Hdr) (g : Hdr)
    (hs : IsFirstNamed p.hdrs "IPv4" pre g post) (hT : g.ty = IPv4) (f : Field) (hin : f.Inside 20) (v : U64) :
    let n := sizes pre
    ∃ q d, ∃ c : U16, editAndRefresh chk f v p = .ok q ∧ q.hdrs.map (·.ty) = p.hdrs.map (·.ty) ∧ q.payload = p.payload ∧
      d.length = 20 ∧
      (∀ i, i < 160 → netBit d i = if f.lo ≤ i ∧ i ≤ f.hi then v.getLsbD (f.hi - i) else netBit b (8 * n + i)) ∧
      c.toNat = 65535 - (plainSum d / 65536 + plainSum d) % 65536 ∧
      q.to_vec = b.take n ++ (putChecksum d c.toNat ++ b.drop (n + 20)) ∧
      (q.to_vec.drop n).take 20 = putChecksum d c.toNat ∧
      (Verifies ((q.to_vec.drop n).take 20) ↔ plainSum d / 65536 + plainSum d % 65536 < 65536) ∧
      Packet.ipv4_checksum chk ((q.to_vec.drop n).take 20) = .ok c := by
  intro n
  obtain ⟨w1, w2, w3⟩ := wire_take_drop h hg hs.1
  have hsize : g.ty.size = 20 := by rw [hT]; rfl
  rw [hsize] at w2 w3
  have hl : g.data.length = 20 := by
    rw [← hsize]; exact frame_sizes h g (by rw [hs.1]; simp)
  obtain ⟨g', c, e, ht, hl', hc, he⟩ := edit_refresh chk p pre post g hs hT hl f hin v
  have hn : (b.take n).length = n := by
    rw [← w1, sizes_eq fun x hx => frame_sizes h x (by rw [hs.1]; simp [hx])]
  have hv : Packet.to_vec ⟨pre ++ ⟨IPv4, putChecksum g'.data c.toNat⟩ :: post, p.payload⟩ =
      b.take n ++ (putChecksum g'.data c.toNat ++ b.drop (n + 20)) := by
    rw [wire_split, w1, w3]
  have hlp : (putChecksum g'.data c.toNat).length = 20 := by simp [putChecksum, hl']
  have hcut : ((Packet.to_vec ⟨pre ++ ⟨IPv4, putChecksum g'.data c.toNat⟩ :: post, p.payload⟩).drop n).take 20 =
      putChecksum g'.data c.toNat := by
    rw [hv, List.drop_left' hn, List.take_left' hlp]
  obtain ⟨c1, hc1, hval⟩ := C39_value chk g'.data (by rw [hl']) (by rw [hl']; decide)
  obtain ⟨c2, hc2, hver⟩ := C39_correct_iff chk g'.data (by rw [hl']) (by rw [hl']; decide) (by rw [hl']; decide)
  rw [hc] at hc1 hc2
  cases hc1; cases hc2
  refine ⟨_, g'.data, c, he, ?_, rfl, hl', ?_, hval, hv, hcut, ?_, ?_⟩
  · rw [hs.1]; simp [hT]
  · intro i hi
    obtain ⟨g2, e2, -, -, hb⟩ := set_bits g f v (by rw [hl]; exact hin)
    rw [e] at e2; cases e2
    rw [hb i]
    by_cases hf : f.lo ≤ i ∧ i ≤ f.hi
    · rw [if_pos hf, if_pos hf]
    · rw [if_neg hf, if_neg hf, w2, netBit_take, decide_eq_true (show i < 8 * 20 by omega), Bool.true_and, netBit_drop]
  · rw [hcut]; exact hver
  · rw [hcut, ← hc]
    refine C40_ignores_checksum_field chk _ _ (by rw [hlp, hl']) ?_
    intro i h1 h2
    rw [putChecksum, List.getElem?_set_ne (Ne.symm h2), List.getElem?_set_ne (Ne.symm h1)]

/-- **C74, again.** Doing it twice is doing it once. -/
theorem C74_again (chk : Bool) (b : Bytes) (p : Packet) (h : Slow.parse chk b = .ok p) (pre post : List Hdr) (g : Hdr)
    (hs : IsFirstNamed p.hdrs "IPv4" pre g post) (hT : g.ty = IPv4) (f : Field) (hin : f.Inside 20) (v : U64) :
    ∃ q, editAndRefresh chk f v p = .ok q ∧ editAndRefresh chk f v q = .ok q := by
  have hl : g.data.length = 20 := by
    rw [show (20 : Nat) = g.ty.size by rw [hT]; rfl]; exact frame_sizes h g (by rw [hs.1]; simp)
  obtain ⟨g', c, e, ht, hl', hc, he⟩ := edit_refresh chk p pre post g hs hT hl f hin v
  refine ⟨_, he, ?_⟩
  have hlp : (putChecksum g'.data c.toNat).length = 20 := by simp [putChecksum, hl']
  obtain ⟨g2, c2, e2, ht2, hl2, hc2, he2⟩ := edit_refresh chk ⟨pre ++ ⟨IPv4, putChecksum g'.data c.toNat⟩ :: post, p.payload⟩
    pre post ⟨IPv4, putChecksum g'.data c.toNat⟩ ⟨rfl, rfl, hs.2.2⟩ rfl hlp f hin v
  rw [he2]
  obtain ⟨x, ex, -, -, hb⟩ := set_bits g f v (by rw [hl]; exact hin)
  rw [e] at ex; cases ex
  obtain ⟨x, ex, -, -, hb2⟩ := set_bits ⟨IPv4, putChecksum g'.data c.toNat⟩ f v (by rw [hlp]; exact hin)
  rw [e2] at ex; cases ex
  have hsame : ∀ i, i / 8 ≠ 10 → i / 8 ≠ 11 → netBit g2.data i = netBit g'.data i := by
    intro i h10 h11
    rw [hb2 i, hb i]
    by_cases hf : f.lo ≤ i ∧ i ≤ f.hi
    · rw [if_pos hf, if_pos hf]
    · rw [if_neg hf, if_neg hf]
      simp only [putChecksum]
      rw [netBit_set _ _ _ _ (by simp [hl']), if_neg h11, netBit_set _ _ _ _ (by omega), if_neg h10, hb i, if_neg hf]
  have hput : ∀ k, putChecksum g2.data k = putChecksum g'.data k := by
    intro k
    apply eq_of_netBit
    · simp [putChecksum, hl2, hl']
    · intro i _
      simp only [putChecksum]
      rw [netBit_set _ _ _ _ (by simp [hl2]), netBit_set _ _ _ _ (by omega), netBit_set _ _ _ _ (by simp [hl']),
        netBit_set _ _ _ _ (by omega)]
      split
      · rfl
      · split
        · rfl
        · exact hsame i (by assumption) (by assumption)
  have hcc : c2 = c := by
    have : Packet.ipv4_checksum chk g2.data = Packet.ipv4_checksum chk g'.data := by
      have k : ∀ d : Bytes, d.length = 20 → Packet.ipv4_checksum chk d = Packet.ipv4_checksum chk (putChecksum d 0) := by
        intro d hd
        refine C40_ignores_checksum_field chk _ _ (by simp [putChecksum]) ?_
        intro i h1 h2
        rw [putChecksum, List.getElem?_set_ne (Ne.symm h2), List.getElem?_set_ne (Ne.symm h1)]
      rw [k _ hl2, k _ hl', hput]
    rw [hc2, hc] at this
    exact Except.ok.inj this
  rw [hput, hcc]

/-- **C74, the result is received as it was sent**, unless the field edited contains bits of the protocol number or, right
behind an MPLS label, the version. -/
theorem C74_reparse (chk : Bool) (b : Bytes) (p : Packet) (h : Slow.parse chk b = .ok p)
    (hg : ∀ g ∈ p.hdrs, g.ty = GRE → greOptCount g.data ≤ 1) (pre post : List Hdr) (g : Hdr)
    (hs : IsFirstNamed p.hdrs "IPv4" pre g post) (hT : g.ty = IPv4) (f : Field) (hin : f.Inside 20)
    (hproto : f.hi < 72 ∨ 79 < f.lo) (hmpls : ∀ x, pre.getLast? = some x → x.ty = MPLS → 4 ≤ f.lo) (v : U64) :
    ∃ q, editAndRefresh chk f v p = .ok q ∧ Slow.parse chk q.to_vec = .ok q := by
  have hl : g.data.length = 20 := by
    rw [show (20 : Nat) = g.ty.size by rw [hT]; rfl]; exact frame_sizes h g (by rw [hs.1]; simp)
  obtain ⟨g', c, e, ht, hl', hc, he⟩ := edit_refresh chk p pre post g hs hT hl f hin v
  refine ⟨_, he, ?_⟩
  have hat : ∀ (x : Hdr), (pre ++ x :: post)[pre.length]? = some x := by intro x; simp
  have hset : ∀ (x y : Hdr), (pre ++ x :: post).set pre.length y = pre ++ y :: post := by intro x y; simp
  have hlast : ∀ (x q : Hdr), pre.length ≠ 0 → (pre ++ x :: post)[pre.length - 1]? = some q → pre.getLast? = some q := by
    intro x q h0 hq
    rw [List.getElem?_append_left (by omega)] at hq
    rw [List.getLast?_eq_getElem?]; exact hq
  obtain ⟨g1, e1, h1⟩ := C59_set_field chk b p h hg pre.length g (by rw [hs.1]; exact hat g) f (by rw [hl]; exact hin)
    (by rw [hT]; intro r hr
        rw [show seenBits IPv4 = [(72, 79)] by decide +kernel, List.mem_singleton] at hr
        subst hr; exact hproto)
    (fun q h0 hq hm => hmpls q (hlast g q h0 (hs.1 ▸ hq)) hm) v
  rw [e] at e1; cases e1
  have h1 := h1 p.payload
  rw [hs.1, hset] at h1
  obtain ⟨g2, e2, h2⟩ := C59_set_field chk _ _ h1 (by
      intro x hx hxg
      rcases List.mem_append.mp hx with hx | hx
      · exact hg x (by rw [hs.1]; simp [hx]) hxg
      · rcases List.mem_cons.mp hx with rfl | hx
        · rw [ht] at hxg; exact absurd hxg (by decide +kernel)
        · exact hg x (by rw [hs.1]; simp [hx]) hxg) pre.length g' (hat g') IPv4.header_checksum
    (by rw [hl']; exact ⟨by decide, by decide⟩)
    (by rw [ht]; decide +kernel) (fun _ _ _ _ => by decide) (c.setWidth 64)
  rw [set_checksum g' hl' c, ht] at e2; cases e2
  have h2 := h2 p.payload
  rw [hset] at h2
  exact h2

-- Not vacuous: the frame of Props/Parser (Ethernet, VLAN, IPv4 at octet 18, …) with the TTL lowered; octets 26, 28 and 29
-- of the frame change, the new header verifies and the result parses to the edited packet
example :
    let p := okPkt (Slow.parse true exFrame)
    let q := okPkt (editAndRefresh true IPv4.ttl 63#64 p)
    Slow.parse true exFrame = .ok p ∧ editAndRefresh true IPv4.ttl 63#64 p = .ok q ∧ p.to_vec = exFrame ∧
    q.to_vec = exFrame.take 26 ++ ([63#8] ++ (exFrame.drop 27).take 1 ++ (q.to_vec.drop 28).take 2 ++ exFrame.drop 30) ∧
    q.to_vec ≠ exFrame ∧ Verifies ((q.to_vec.drop 18).take 20) ∧ ¬ Verifies ((exFrame.drop 18).take 20) ∧
    Slow.parse true q.to_vec = .ok q := by decide +kernel

/-- An Ethernet frame with the header of the carry case of C39. -/
def carryFrame : Bytes := List.replicate 12 2#8 ++ [8#8, 0#8] ++ carryHdr ++ List.replicate 20 7#8

-- The carry case: writing the TTL it already has and refreshing leaves a checksum no receiver accepts
example :
    let p := okPkt (Slow.parse true carryFrame)
    let q := okPkt (editAndRefresh true IPv4.ttl 64#64 p)
    Slow.parse true carryFrame = .ok p ∧ editAndRefresh true IPv4.ttl 64#64 p = .ok q ∧
    q.to_vec = carryFrame.take 24 ++ [0xff#8, 0xff#8] ++ carryFrame.drop 26 ∧
    ¬ Verifies ((q.to_vec.drop 14).take 20) ∧ Verifies (putChecksum ((q.to_vec.drop 14).take 20) 0xfffe) := by
  decide +kernel

-- Editing the protocol number is where re-parsing stops being the identity: TCP is then read as UDP
example :
    let p := okPkt (Slow.parse true carryFrame)
    let q := okPkt (editAndRefresh true IPv4.protocol 17#64 p)
    editAndRefresh true IPv4.protocol 17#64 p = .ok q ∧ q.hdrs.map (·.ty.name) = ["Ether", "IPv4", "TCP"] ∧
    ∃ r, Slow.parse true q.to_vec = .ok r ∧ r.hdrs.map (·.ty.name) = ["Ether", "IPv4", "UDP"] :=
  ⟨by decide +kernel, by decide +kernel, okPkt (Slow.parse true (okPkt (editAndRefresh true IPv4.protocol 17#64
    (okPkt (Slow.parse true carryFrame)))).to_vec), by decide +kernel, by decide +kernel⟩

end PacketRs
