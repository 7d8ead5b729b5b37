import Verif.Props.BuildersParse
import Verif.Spec.Tower
/-!
# C84: tunnels in tunnels, to any depth
-/
namespace PacketRs
open Spec Utils

/-- One level. -/
theorem tunnel_call {chk : Bool} {t : Tunnel} {p q : Packet} (h : t.call chk p = .ok q) :
    q.to_vec = hdrBytes q.hdrs ++ p.to_vec ∧ (hdrBytes q.hdrs).length = t.overhead ∧ q.hdrs.map (·.name) = t.names ∧
      q.payload = p.to_vec ∧
      ∀ chk', Slow.parse chk' q.to_vec = Slow.parse_ethernet chk' q.to_vec ∧
        (t.Known → Slow.parse chk' q.to_vec = (Slow.parse_ethernet chk' p.to_vec).map (prep q.hdrs)) := by
  obtain ⟨ed, es, ve, vid, pcp, ihl, src, dst, tos, ttl, id, frag, opts, c⟩ := t
  cases c with
  | vxlan ud us ck vni =>
    have h' : create_vxlan_packet chk ed es ve vid pcp ihl src dst tos ttl id frag opts ud us ck vni p = .ok q := h
    have hk : ∀ chk', ud = 4789#16 → Slow.parse chk' q.to_vec = (Slow.parse_ethernet chk' p.to_vec).map (prep q.hdrs) := by
      rintro chk' rfl; exact C45_vxlan chk' h'
    obtain ⟨d, s, a, hd, hs, ha, hp, rfl⟩ := vxlan_shape (h := h')
    refine ⟨by rw [to_vec_onWire]; simp [hdrBytes, onWire], ?_, ?_, rfl, fun chk' => ⟨?_, hk chk'⟩⟩
    · cases ve <;> simp [hdrBytes, onWire, l2Hdrs, hd, hs, Tunnel.overhead, Packet.udp, Packet.vxlan, HeaderDef.ofVec,
        Ip4.raw_length _ ha]
    · cases ve <;> rfl
    · rw [to_vec_split]
      exact parse_l2 chk' d s hd hs ve vid pcp _ (.inr (by decide)) _
  | erspan2 seq vlan cos en tr sid idx =>
    have h' : create_erspan_2_packet chk ed es ve vid pcp ihl src dst tos ttl id frag opts seq vlan cos en tr sid idx
      (some p) = .ok q := h
    have hk : ∀ chk', Slow.parse chk' q.to_vec = (Slow.parse_ethernet chk' p.to_vec).map (prep q.hdrs) :=
      fun chk' => C45_erspan2 chk' h'
    obtain ⟨d, s, a, hd, hs, ha, hp, rfl⟩ := erspan2_shape (h := h')
    refine ⟨by rw [to_vec_onWire]; simp [hdrBytes, onWire, innerBytes], ?_, ?_, rfl, fun chk' => ⟨?_, fun _ => hk chk'⟩⟩
    · cases ve <;> by_cases h0 : seq = 0#32 <;>
        simp [hdrBytes, onWire, l2Hdrs, hd, hs, Tunnel.overhead, optHdrs, h0, Packet.erspan2, Packet.gre_sequence_number,
          HeaderDef.ofVec, Ip4.hdr, Ip4.raw_length _ ha]
    · cases ve <;> by_cases h0 : seq = 0#32 <;>
        simp [l2Hdrs, Tunnel.names, optHdrs, h0] <;> (repeat' constructor)
    · rw [to_vec_split]
      exact parse_l2 chk' d s hd hs ve vid pcp _ (.inr (by decide)) _

/-- **C84** A tower of tunnels can be built iff every level's four addresses convert; the packet inside does not matter. -/
theorem C84_returns_iff (chk : Bool) (ts : List Tunnel) (p : Packet) :
    (∃ q, tower chk ts p = .ok q) ↔
      ∀ t ∈ ts, (∃ x, to_mac_bytes t.eth_dst = .ok x) ∧ (∃ x, to_mac_bytes t.eth_src = .ok x) ∧
        (∃ x, to_ipv4_bytes t.src = .ok x) ∧ ∃ x, to_ipv4_bytes t.dst = .ok x := by
  have one : ∀ (t : Tunnel) (r : Packet), (∃ q, t.call chk r = .ok q) ↔ Addrs4 t.eth_dst t.eth_src t.src t.dst := by
    intro t r
    unfold Tunnel.call
    split
    · exact C41_vxlan_returns_iff ..
    · exact C41_erspan2_returns_iff ..
  induction ts with
  | nil => simp [tower]
  | cons t ts ih =>
    constructor
    · rintro ⟨q, h⟩
      obtain ⟨r, h1, h2⟩ := bind_ok h
      obtain ⟨⟨a, b⟩, c⟩ := (one t r).mp ⟨q, h2⟩
      intro u hu
      rcases List.mem_cons.mp hu with rfl | hu
      · exact ⟨a, b, c⟩
      · exact ih.mp ⟨r, h1⟩ u hu
    · intro h
      obtain ⟨r, h1⟩ := ih.mpr fun u hu => h u (List.mem_cons_of_mem _ hu)
      obtain ⟨a, b, c⟩ := h t List.mem_cons_self
      obtain ⟨q, h2⟩ := (one t r).mpr ⟨⟨a, b⟩, c⟩
      exact ⟨q, by simp only [tower]; rw [h1]; exact h2⟩

/-- **C84** The frame of a tower: one block of headers per level, outermost first, with the names and the size that level's
arguments give, then the bytes of the packet inside.  When every VXLAN level uses port 4789 and there is at least one level,
the parser returns exactly those headers, in that order, followed by what it makes of the bytes of the packet inside. -/
theorem C84_frame {chk : Bool} {ts : List Tunnel} {p q : Packet} (h : tower chk ts p = .ok q) :
    ∃ hss : List (List Hdr),
      hss.map (·.map (·.name)) = ts.map Tunnel.names ∧
      hss.map (fun hs => (hdrBytes hs).length) = ts.map Tunnel.overhead ∧
      q.to_vec = hdrBytes hss.flatten ++ p.to_vec ∧
      (ts ≠ [] → (∀ t ∈ ts, t.Known) → ∀ chk',
        Slow.parse chk' q.to_vec = (Slow.parse_ethernet chk' p.to_vec).map (prep hss.flatten)) := by
  induction ts generalizing q with
  | nil =>
    obtain rfl := Except.ok.inj h
    exact ⟨[], rfl, rfl, by simp [hdrBytes, onWire], fun h => absurd rfl h⟩
  | cons t ts ih =>
    obtain ⟨r, h1, h2⟩ := bind_ok h
    obtain ⟨hss, e1, e2, e3, e4⟩ := ih h1
    obtain ⟨c1, c2, c3, -, c5⟩ := tunnel_call h2
    refine ⟨q.hdrs :: hss, by simp [e1, c3], by simp only [List.map_cons, e2, c2], ?_, fun _ hk chk' => ?_⟩
    · rw [c1, e3]; simp [hdrBytes, onWire]
    · rw [(c5 chk').2 (hk t List.mem_cons_self)]
      cases ts with
      | nil =>
        obtain rfl := Except.ok.inj h1
        obtain rfl : hss = [] := by simpa using e1
        simp
      | cons u us =>
        obtain ⟨r', -, h2'⟩ := bind_ok h1
        rw [← ((tunnel_call h2').2.2.2.2 chk').1, e4 (by simp) (fun v hv => hk v (List.mem_cons_of_mem _ hv)) chk']
        cases Slow.parse_ethernet chk' p.to_vec with
        | error e => rfl
        | ok x => simp [Except.map, prep]

/-- **C84** Length of a tower: the sum of the levels' overheads and the length of the packet inside. -/
theorem C84_length {chk : Bool} {ts : List Tunnel} {p q : Packet} (h : tower chk ts p = .ok q) :
    q.to_vec.length = (ts.map Tunnel.overhead).sum + p.to_vec.length := by
  obtain ⟨hss, -, e, e', -⟩ := C84_frame h
  rw [e', List.length_append, ← e]
  congr 1
  clear e e' h
  induction hss with
  | nil => rfl
  | cons a l ih => simpa [hdrBytes, onWire] using ih

/-- **C84** A frame the parser reads as `p'` comes out of a tower unchanged: the tower parses to its own headers followed by
the headers of `p'`, with the payload of `p'`.  The frame inside must not be one `parse` reads as an 802.3 frame (a length
below 1500 where the EtherType stands): inside a tunnel such a frame is read as Ethernet. -/
theorem C84_inner_kept {chk chk' : Bool} {ts : List Tunnel} {p p' q : Packet} (h : tower chk ts p = .ok q)
    (hne : ts ≠ []) (hk : ∀ t ∈ ts, t.Known) (hp : Slow.parse_ethernet chk' p.to_vec = .ok p') :
    ∃ hs, Slow.parse chk' q.to_vec = .ok ⟨hs ++ p'.hdrs, p'.payload⟩ ∧
      hs.map (·.name) = (ts.map Tunnel.names).flatten := by
  obtain ⟨hss, e1, -, -, e4⟩ := C84_frame h
  refine ⟨hss.flatten, by rw [e4 hne hk, hp]; rfl, ?_⟩
  rw [← e1, List.map_flatten]

/-- **C84** What the tower's parse fails on is the packet inside, nothing else: the parser accepts the tower iff it accepts
the inner bytes as an Ethernet frame, however many levels are around it. -/
theorem C84_accepts_iff {chk chk' : Bool} {ts : List Tunnel} {p q : Packet} (h : tower chk ts p = .ok q)
    (hne : ts ≠ []) (hk : ∀ t ∈ ts, t.Known) :
    (∃ x, Slow.parse chk' q.to_vec = .ok x) ↔ ∃ x, Slow.parse_ethernet chk' p.to_vec = .ok x := by
  obtain ⟨hss, -, -, -, e4⟩ := C84_frame h
  rw [e4 hne hk]
  cases Slow.parse_ethernet chk' p.to_vec <;> simp [Except.map]

/-- **C84** An unknown port hides everything below: with a VXLAN level on another port, the parser stops after that level's
UDP header, whatever the levels below are. -/
theorem C84_hidden {chk chk' : Bool} {t : Tunnel} {ts : List Tunnel} {p q : Packet} (h : tower chk (t :: ts) p = .ok q)
    (hk : ¬ t.Known) : ∃ p', Slow.parse chk' q.to_vec = .ok p' ∧ p'.hdrs.map (·.name) = t.names.dropLast ∧
      p'.payload.length = 8 + (ts.map Tunnel.overhead).sum + p.to_vec.length := by
  obtain ⟨r, h1, h2⟩ := bind_ok h
  have hl := C84_length h1
  have hn := (tunnel_call h2).2.2.1
  obtain ⟨ed, es, ve, vid, pcp, ihl, src, dst, tos, ttl, id, frag, opts, c⟩ := t
  cases c with
  | erspan2 => exact absurd trivial hk
  | vxlan ud us ck vni =>
    obtain ⟨hs, e1, e2⟩ := C45_vxlan_other_port chk' (ck := ck) (show ud ≠ 4789#16 from hk) h2
    refine ⟨_, e2, ?_, ?_⟩
    · rw [e1, List.map_append] at hn
      rw [← hn]; simp
    · simp [Packet.vxlan, HeaderDef.ofVec, hl]; omega

/-! Non-vacuity: a VXLAN tunnel in an ERSPAN II tunnel in a VXLAN tunnel around a tagged ARP frame. -/

def towerLevel (ve : Bool) (c : Carrier) : Tunnel :=
  ⟨Sample.mac1, Sample.mac2, ve, 10, 3, 5, Sample.ip1, Sample.ip2, 1, 64, 0x1234, 0, [], c⟩

def towerSample : List Tunnel :=
  [towerLevel true (.vxlan 4789 1234 true 7), towerLevel false (.erspan2 24 100 1 2 1 77 0x55),
    towerLevel false (.vxlan 4789 99 false 8)]

example : (∃ q, tower true towerSample Sample.innerFrame = .ok q) ∧ towerSample ≠ [] ∧ (∀ t ∈ towerSample, t.Known) ∧
    ((tower true towerSample Sample.innerFrame).toOption.map fun q => q.to_vec.length) =
      some (54 + 50 + 50 + Sample.innerFrame.to_vec.length) := by
  refine ⟨(C84_returns_iff ..).mpr ?_, by decide, ?_, by decide +kernel⟩
  · have e1 : ∃ x, to_mac_bytes Sample.mac1 = .ok x := ⟨_, rfl⟩
    have e2 : ∃ x, to_mac_bytes Sample.mac2 = .ok x := ⟨_, rfl⟩
    have e3 : ∃ x, to_ipv4_bytes Sample.ip1 = .ok x := ⟨_, rfl⟩
    have e4 : ∃ x, to_ipv4_bytes Sample.ip2 = .ok x := ⟨_, rfl⟩
    simp [towerSample, towerLevel, e1, e2, e3, e4]
  · simp [towerSample, towerLevel, Tunnel.Known]

example : ((tower true towerSample Sample.innerFrame).bind fun q => Slow.parse true q.to_vec).map
      (fun p => (p.hdrs.map (·.name), p.payload)) =
    .ok (["Ether", "Vlan", "IPv4", "UDP", "Vxlan", "Ether", "IPv4", "GRE", "GRESequenceNum", "ERSPAN2",
      "Ether", "IPv4", "UDP", "Vxlan", "Ether", "Vlan", "ARP"], Sample.data) := by decide +kernel

example : ((tower true (towerLevel false (.vxlan 4790 1234 true 7) :: towerSample) Sample.innerFrame).bind
      fun q => Slow.parse true q.to_vec).map (fun p => p.hdrs.map (·.name)) = .ok ["Ether", "IPv4", "UDP"] := by
  decide +kernel

end PacketRs
