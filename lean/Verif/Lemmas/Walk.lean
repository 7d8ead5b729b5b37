import Verif.Lemmas.Grammar
import Verif.Props.BuildersLen
/-!
# Parsing over the headers the builders write

`Walk chk l b hs l'`: expecting layer `l`, the parser turns the bytes `b` into the headers `hs` and continues with layer
`l'`, whatever bytes follow.
-/
namespace PacketRs
open Spec Utils

theorem u16At_append_right (a b : Bytes) (i : Nat) (h : a.length ≤ i) :
    u16At (a ++ b) i = u16At b (i - a.length) := by
  unfold u16At
  rw [u8At_append_right _ _ _ h, u8At_append_right _ _ _ (by omega)]
  congr 2
  omega

theorem u16At_be16 (v : U16) (r : Bytes) : u16At (be16 v ++ r) 0 = v.toNat := by
  unfold u16At u8At be16
  have := v.isLt
  simp [Nat.shiftRight_eq_div_pow]
  omega

def Walk (chk : Bool) (l : Layer) (b : Bytes) (hs : List Hdr) (l' : Layer) : Prop :=
  ∀ r, Slow.parseL chk l (b ++ r) = (Slow.parseL chk l' r).map (prep hs)

theorem map_prep (x : R Packet) (a b : List Hdr) : (x.map (prep b)).map (prep a) = x.map (prep (a ++ b)) := by
  cases x with
  | error e => rfl
  | ok p => simp [Except.map, Slow.prep_prep]

theorem Walk.nil (chk : Bool) (l : Layer) : Walk chk l [] [] l := by
  intro r
  rw [List.nil_append]
  cases Slow.parseL chk l r <;> rfl

theorem Walk.trans {chk : Bool} {l l' l'' : Layer} {b b' : Bytes} {hs hs' : List Hdr} (h : Walk chk l b hs l')
    (h' : Walk chk l' b' hs' l'') : Walk chk l (b ++ b') (hs ++ hs') l'' := by
  intro r
  rw [List.append_assoc, h, h', map_prep]

theorem Walk.of_step {chk : Bool} {l l' : Layer} {b : Bytes} {hs : List Hdr}
    (h : ∀ r, dstep l (b ++ r) = some (hs, b.length, l')) : Walk chk l b hs l' := by
  intro r
  have hl : l ≠ .payload := by rintro rfl; exact nomatch h r
  rw [Slow.parseL_eq _ _ _ hl, h]
  simp only [stepThen, drop_append_len]

theorem Walk.parse {chk : Bool} {l : Layer} {b : Bytes} {hs : List Hdr} (h : Walk chk l b hs .payload) (r : Bytes) :
    Slow.parseL chk l (b ++ r) = .ok ⟨hs, r⟩ := by
  rw [h]
  simp [Slow.parseL, Slow.accept, Except.map, pure, Except.pure, prep, Packet.new, Packet.set_payload]

section
variable (chk : Bool)

theorem walk_ether (b : Bytes) (hb : b.length = 14) : Walk chk .ether b [⟨Ether, b⟩] (etherNext (u16At b 12)) :=
  .of_step fun r => by
    simp only [dstep]
    rw [one_append hb, u16At_append_left _ _ _ (by omega), hb]; rfl

theorem walk_vlan (b : Bytes) (hb : b.length = 4) : Walk chk .vlan b [⟨Vlan, b⟩] (etherNext (u16At b 2)) :=
  .of_step fun r => by
    simp only [dstep]
    rw [one_append hb, u16At_append_left _ _ _ (by omega), hb]; rfl

theorem walk_ipv4 (b : Bytes) (hb : b.length = 20) : Walk chk .ipv4 b [⟨IPv4, b⟩] (ipv4Next (u8At b 9)) :=
  .of_step fun r => by
    simp only [dstep]
    rw [one_append hb, u8At_append_left _ _ _ (by omega), hb]; rfl

theorem walk_ipv6 (b : Bytes) (hb : b.length = 40) : Walk chk .ipv6 b [⟨IPv6, b⟩] (ipv6Next (u8At b 6)) :=
  .of_step fun r => by
    simp only [dstep]
    rw [one_append hb, u8At_append_left _ _ _ (by omega), hb]; rfl

theorem walk_udp (b : Bytes) (hb : b.length = 8) :
    Walk chk .udp b [⟨UDP, b⟩] (if u16At b 2 = 4789 then .vxlan else .payload) :=
  .of_step fun r => by
    simp only [dstep]
    rw [one_append hb, u16At_append_left _ _ _ (by omega), hb]; rfl

theorem walk_tcp (b : Bytes) (hb : b.length = 20) : Walk chk .tcp b [⟨TCP, b⟩] .payload :=
  .of_step fun r => by simp only [dstep]; rw [one_append hb, hb]; rfl

theorem walk_icmp (b : Bytes) (hb : b.length = 4) : Walk chk .icmp b [⟨ICMP, b⟩] .payload :=
  .of_step fun r => by simp only [dstep]; rw [one_append hb, hb]; rfl

theorem walk_arp (b : Bytes) (hb : b.length = 28) : Walk chk .arp b [⟨ARP, b⟩] .payload :=
  .of_step fun r => by simp only [dstep]; rw [one_append hb, hb]; rfl

theorem walk_vxlan (b : Bytes) (hb : b.length = 8) : Walk chk .vxlan b [⟨Vxlan, b⟩] .ether :=
  .of_step fun r => by simp only [dstep]; rw [one_append hb, hb]; rfl

theorem walk_erspan2 (b : Bytes) (hb : b.length = 8) : Walk chk .erspan2 b [⟨ERSPAN2, b⟩] .ether :=
  .of_step fun r => by simp only [dstep]; rw [one_append hb, hb]; rfl

theorem walk_gre {h c k s : Bytes} (hl : h.length = 4) (hc : c.length = optLen (bitAt h 0 7) 4)
    (hk : k.length = optLen (bitAt h 0 5) 4) (hs : s.length = optLen (bitAt h 0 4) 4) :
    Walk chk .gre (h ++ (c ++ (k ++ s)))
      (⟨GRE, h⟩ :: (optH GRESequenceNum s ++ (optH GREKey k ++ optH GREChksumOffset c))) (greNext (u16At h 2)) :=
  .of_step fun r => by
    rw [show h ++ (c ++ (k ++ s)) ++ r = h ++ (c ++ (k ++ (s ++ r))) by simp, dstep_gre hl hc hk hs]
    simp only [List.length_append, hl, hc, hk, hs]
    congr 3
    omega

theorem walk_erspan3 {h p : Bytes} (hl : h.length = 12) (hp : p.length = optLen (bitAt h 11 0) 8) :
    Walk chk .erspan3 (h ++ p) (⟨ERSPAN3, h⟩ :: optH ERSPANPLATFORM p) .ether :=
  .of_step fun r => by
    rw [show h ++ p ++ r = h ++ (p ++ r) by simp, dstep_erspan3 hl hp]
    simp only [List.length_append, hl, hp]

/-! ## The headers of the builders -/

theorem walk_l2 (d s : Bytes) (hd : d.length = 6) (hs : s.length = 6) (ve : Bool) (vid : U16) (pcp : Byte) (et : U16) :
    Walk chk .ether (hdrBytes (l2Hdrs d s ve vid pcp et)) (l2Hdrs d s ve vid pcp et) (etherNext et.toNat) := by
  have e : ∀ t : U16, u16At (d ++ s ++ be16 t) 12 = t.toNat := by
    intro t
    have := u16At_be16 t []
    rw [List.append_nil] at this
    rw [u16At_append_right _ _ _ (by simp; omega), ← this]
    simp [hd, hs]
  cases ve with
  | false =>
    have := walk_ether chk (d ++ s ++ be16 et) (by simp; omega)
    rw [e] at this
    simpa [l2Hdrs, hdrBytes, onWire] using this
  | true =>
    have h1 := walk_ether chk (d ++ s ++ be16 0x8100#16) (by simp; omega)
    rw [e] at h1
    have h2 := walk_vlan chk (be16 (vid ||| (pcp.setWidth 16 <<< 13)) ++ be16 et) (by simp)
    rw [u16At_append_right _ _ _ (by simp)] at h2
    have := u16At_be16 et []
    rw [List.append_nil] at this
    simp only [be16_length, Nat.sub_self, this] at h2
    have := Walk.trans h1 h2
    simpa [l2Hdrs, hdrBytes, onWire] using this

/-- The frame parser takes the Ethernet II branch on what the builders write. -/
theorem parse_l2 (d s : Bytes) (hd : d.length = 6) (hs : s.length = 6) (ve : Bool) (vid : U16) (pcp : Byte) (et : U16)
    (het : ve = true ∨ 1500 ≤ et.toNat) (r : Bytes) :
    Slow.parse chk (hdrBytes (l2Hdrs d s ve vid pcp et) ++ r) =
      Slow.parseL chk .ether (hdrBytes (l2Hdrs d s ve vid pcp et) ++ r) := by
  rw [Slow.parse_eq]
  have e : ∀ (t : U16) (q : Bytes), u16At (d ++ (s ++ (be16 t ++ q))) 12 = t.toNat := by
    intro t q
    rw [← List.append_assoc, u16At_append_right _ _ _ (by simp; omega)]
    have := u16At_be16 t q
    rw [← this]
    simp [hd, hs]
  cases ve with
  | false =>
    simp only [Bool.false_eq_true, false_or] at het
    simp only [l2Hdrs, hdrBytes, onWire, Bool.false_eq_true, if_false, List.map_cons, List.map_nil, List.flatten_cons,
      List.flatten_nil, List.append_nil, List.append_assoc]
    rw [e, if_neg (by simp [hd, hs]; omega), if_neg (by omega)]
  | true =>
    simp only [l2Hdrs, hdrBytes, onWire, if_true, List.map_cons, List.map_nil, List.flatten_cons,
      List.flatten_nil, List.append_nil, List.append_assoc]
    rw [e, if_neg (by simp [hd, hs]; omega), if_neg (by decide)]

theorem walk_ip4 (a : Ip4) (ha : a.Ok) (len ck : U16) :
    Walk chk .ipv4 (a.raw len ck) [⟨IPv4, a.raw len ck⟩] (ipv4Next a.proto.toNat) :=
  walk_ipv4 chk _ (a.raw_length ha len ck)

theorem walk_ip6 (p6 : Ipv6FromStr) (tc : Byte) (flow : U32) (nh hl : Byte) (src dst : Str) (len : U16) :
    Walk chk .ipv6 (Packet.ipv6 p6 tc flow nh hl src dst len).data [Packet.ipv6 p6 tc flow nh hl src dst len]
      (ipv6Next nh.toNat) :=
  walk_ipv6 chk _ (C35_ipv6 p6 tc flow nh hl src dst len).2.1

theorem udp_dst (usrc udst len ck : U16) : u16At (be16 usrc ++ be16 udst ++ be16 len ++ be16 ck) 2 = udst.toNat := by
  rw [List.append_assoc, List.append_assoc, u16At_append_right _ _ _ (by simp)]
  exact u16At_be16 _ _

/-- Any UDP header whose destination port is `udst`. -/
theorem walk_udp' (usrc udst len ck : U16) :
    Walk chk .udp (be16 usrc ++ be16 udst ++ be16 len ++ be16 ck) [⟨UDP, be16 usrc ++ be16 udst ++ be16 len ++ be16 ck⟩]
      (if udst = 4789#16 then .vxlan else .payload) := by
  have := walk_udp chk (be16 usrc ++ be16 udst ++ be16 len ++ be16 ck) (by simp)
  rw [udp_dst] at this
  have e : (udst.toNat = 4789) = (udst = 4789#16) :=
    propext ⟨fun h => BitVec.eq_of_toNat_eq h, fun h => h ▸ rfl⟩
  simpa only [e] using this

end
end PacketRs
