import Verif.Spec.Forward
import Verif.Props.Seen
import Verif.Props.Refresh
import Verif.Props.Transport
/-!
# Property C99: forwarding and address translation

A client parses a frame, edits the IPv4 header, refreshes its checksum and sends the result.  What the host behind it gets.
-/
namespace PacketRs
open Spec Utils

/-- The IPv4 header of a frame a host takes, in the parsed packet. -/
theorem ip4_shape {chk : Bool} {f : Bytes} {g : Datagram} {p : Packet} (hi : ipInput f = some g) (h4 : g.v6 = false)
    (hp : Slow.parse chk f = .ok p) :
    linkInput f = some (0x0800, f.drop (l3At f)) ∧ ip4Input (f.drop (l3At f)) = some g ∧ l3At f ≤ f.length ∧
      u16At f (l3At f - 2) = 0x0800 ∧
      ∃ front ip post, IsFirstNamed p.hdrs "IPv4" front ip post ∧ ip.ty = IPv4 ∧ sizes front = l3At f := by
  unfold ipInput at hi
  split at hi
  rotate_left
  · cases hi
  next et b hl =>
  split at hi
  rotate_left
  · split at hi
    · unfold ip6Input at hi
      split at hi
      · cases hi; exact nomatch h4
      · cases hi
    · cases hi
  next he =>
  obtain ⟨e1, e2, e3, front, hf, hsz, hq⟩ := link_seen f b et hl (.inl he)
  subst he
  have hlen : 20 ≤ b.length := by
    unfold ip4Input at hi
    split at hi
    · next hc => exact hc.1
    · cases hi
  rw [hq, show etherNext 0x0800 = .ipv4 from rfl, parse_one b (by decide) rfl hlen, map_prep] at hp
  refine ⟨e2 ▸ hl, e2 ▸ hi, e3, e1.symm, ?_⟩
  generalize Slow.parseL chk _ _ = c at hp
  cases c with
  | error e => exact nomatch hp
  | ok p' =>
    cases hp
    refine ⟨front, ⟨IPv4, b.take 20⟩, p'.hdrs, ⟨by simp only [prep, List.append_assoc]; rfl, rfl, fun x hx => ?_⟩, rfl, hsz⟩
    rcases hf x hx with h | h <;> rw [Hdr.name, h] <;> decide

theorem putAt_length (b : Bytes) (a : Nat) (w : Bytes) (h : a + w.length ≤ b.length) : (putAt b a w).length = b.length := by
  simp only [putAt, List.length_append, List.length_take, List.length_drop]
  omega

theorem putAt_u8 (b : Bytes) (a : Nat) (w : Bytes) (h : a + w.length ≤ b.length) (i : Nat) (hi : i < a ∨ a + w.length ≤ i) :
    u8At (putAt b a w) i = u8At b i := by
  have hl : (b.take a).length = a := by rw [List.length_take]; omega
  unfold u8At putAt
  rw [List.getD_eq_getElem?_getD, List.getD_eq_getElem?_getD]
  rcases hi with hi | hi
  · rw [List.getElem?_append_left (by omega), List.getElem?_take, if_pos hi]
  · rw [List.getElem?_append_right (by omega), List.getElem?_append_right (by omega), List.getElem?_drop, hl,
      show a + w.length + (i - a - w.length) = i by omega]

theorem putChecksum_u8 (d : Bytes) (c i : Nat) (h1 : i ≠ 10) (h2 : i ≠ 11) : u8At (putChecksum d c) i = u8At d i := by
  unfold u8At putChecksum
  rw [List.getD_eq_getElem?_getD, List.getD_eq_getElem?_getD, List.getElem?_set_ne (Ne.symm h2), List.getElem?_set_ne (Ne.symm h1)]

theorem putChecksum_drop (d : Bytes) (c n : Nat) (h : 12 ≤ n) : (putChecksum d c).drop n = d.drop n := by
  unfold putChecksum
  rw [List.drop_set_of_lt (by omega), List.drop_set_of_lt (by omega)]

theorem linkInput_front {f : Bytes} {et : Nat} {b : Bytes} (h : linkInput f = some (et, b)) (r : Bytes) :
    linkInput (f.take (l3At f) ++ r) = some (et, r) := by
  have : linkInput (f.take (l3At f)) = some (et, []) := by
    unfold linkInput at h
    unfold linkInput l3At
    split at h
    · cases h
    split at h
    · next c1 c2 =>
      cases h
      rw [if_neg c2, List.length_take, if_neg (by omega), u16At_take _ _ _ (by omega), if_pos c2]
      simp
    · split at h
      · cases h
      next c1 c2 c3 =>
      cases h
      rw [if_pos (Classical.not_not.mp c2), List.length_take, if_neg (by omega), u16At_take _ _ _ (by omega),
        u16At_take _ _ _ (by omega), if_neg c2, if_neg (by omega)]
      simp
  exact (linkInput_more r this).1

/-- When a header with a refreshed checksum verifies. -/
theorem refresh_verifies (d o : Bytes) (c : Nat) (hd : d.length = 20)
    (hc : c = 65535 - (plainSum d / 65536 + plainSum d) % 65536) :
    Verifies (putChecksum d c ++ o) ↔ RefreshRight d o := by
  have hb := sum0_le d ((d.length + 1) / 2)
  rw [← plainSum_eq, hd] at hb
  rw [verifies_iff, words_append _ _ (by rw [length_putChecksum, hd]), List.sum_append, sum_putChecksum d c (by omega) (by omega),
    RefreshRight]
  generalize (words o).sum = O
  obtain ⟨f1, f2⟩ := fold_once (plainSum d) (by omega)
  rw [hc]
  by_cases hf : plainSum d / 65536 + plainSum d % 65536 < 65536
  · rw [if_pos (show FoldsOnce d from hf), f1 hf]
    omega
  · rw [if_neg (show ¬ FoldsOnce d from hf), (f2 (by omega)).2]
    omega

/-- Editing octets of the addresses or the time to live. -/
theorem edit_datagram {chk : Bool} {f : Bytes} {g : Datagram} {p : Packet} (hi : ipInput f = some g) (h4 : g.v6 = false)
    (hp : Slow.parse chk f = .ok p) (hg : ∀ g ∈ p.hdrs, g.ty = GRE → greOptCount g.data ≤ 1)
    (x : Field) (v : U64) (a : Nat) (w : Bytes) (hx1 : x.lo = 8 * a) (hx2 : x.hi + 1 = 8 * (a + w.length)) (hw : 0 < w.length)
    (hok : (a = 8 ∧ w.length = 1) ∨ (12 ≤ a ∧ a + w.length ≤ 20))
    (hb : ∀ j, j < 8 * w.length → netBit w j = v.getLsbD (8 * w.length - 1 - j)) :
    let d := putAt (ip4Hdr f) a w
    ∃ q, editAndRefresh chk x v p = .ok q ∧
      ipInput q.to_vec = if RefreshRight d (ip4Opts f) then some { g with src := (d.drop 12).take 4, dst := (d.drop 16).take 4 } else none := by
  obtain ⟨h1, h2, h3, h5, front, ip, post, hfirst, hty, hsz⟩ := ip4_shape hi h4 hp
  obtain ⟨q, d, c, e, -, -, hdl, hbits, hcv, hv, -, -, -⟩ :=
    C74_frame chk f p hp hg front post ip hfirst hty x ⟨by omega, by omega⟩ v
  rw [hsz] at hbits hv
  have hihl : ihl (f.drop (l3At f)) 0 = ihl f (l3At f) := by
    rw [ihl, u8At_drop_add, Nat.add_zero, ihl]
  have hopt : ip4Opts f = ((f.drop (l3At f)).drop 20).take (ihl f (l3At f) - 20) := by rw [ip4Opts, List.drop_drop]
  generalize hbb : f.drop (l3At f) = b at h1 h2 hihl hopt
  have h20 : 20 ≤ b.length := by
    unfold ip4Input at h2
    split at h2
    · next hc => exact hc.1
    · cases h2
  have hhl : (ip4Hdr f).length = 20 := by rw [ip4Hdr, hbb, List.length_take]; omega
  have hd : putAt (ip4Hdr f) a w = d := by
    apply eq_of_netBit
    · rw [putAt_length _ _ _ (by omega), hhl, hdl]
    · rw [putAt_length _ _ _ (by omega), hhl]
      intro i hi'
      rw [hbits i (by omega)]
      have hta : ((ip4Hdr f).take a).length = a := by rw [List.length_take]; omega
      have hold : netBit (ip4Hdr f) i = netBit f (8 * l3At f + i) := by
        rw [ip4Hdr, netBit_take, netBit_drop, decide_eq_true (by omega), Bool.true_and]
      unfold putAt
      by_cases c1 : i < 8 * a
      · rw [netBit_append_left _ _ _ (by omega), netBit_take, if_neg (by omega), ← hold, decide_eq_true c1, Bool.true_and]
      · rw [netBit_append_right _ _ _ (by omega), hta]
        by_cases c2 : i < 8 * (a + w.length)
        · rw [netBit_append_left _ _ _ (by omega), hb _ (by omega), if_pos (by omega)]
          congr 1; omega
        · rw [netBit_append_right _ _ _ (by omega), netBit_drop, if_neg (by omega), ← hold]
          congr 1; omega
  intro d'
  have hd' : d' = d := hd
  refine ⟨q, e, ?_⟩
  have hfr : ipInput q.to_vec = ip4Input (putChecksum d c.toNat ++ b.drop 20) := by
    unfold ipInput
    rw [hv, linkInput_front h1, ← List.drop_drop, hbb]
    rfl
  have hpl : (putChecksum d c.toNat).length = 20 := by simp [putChecksum, hdl]
  have hu : ∀ i, i < 20 → i ≠ 10 → i ≠ 11 → (i < a ∨ a + w.length ≤ i) →
      u8At (putChecksum d c.toNat ++ b.drop 20) i = u8At b i := by
    intro i q1 q2 q3 q4
    rw [u8At_append_left _ _ _ (by omega), putChecksum_u8 _ _ _ q2 q3, ← hd, putAt_u8 _ _ _ (by omega) _ q4, ip4Hdr, hbb,
      u8At_take _ _ _ q1]
  unfold ip4Input at h2
  split at h2
  rotate_left
  · cases h2
  next hc =>
  obtain ⟨c1, c2, c3, c4, c5, c6, c7⟩ := hc
  have e0 := hu 0 (by omega) (by omega) (by omega) (by omega)
  have e9 := hu 9 (by omega) (by omega) (by omega) (by omega)
  have e2 : u16At (putChecksum d c.toNat ++ b.drop 20) 2 = u16At b 2 := by
    rw [u16At, u16At, hu 2 (by omega) (by omega) (by omega) (by omega), hu 3 (by omega) (by omega) (by omega) (by omega)]
  have e6 : u16At (putChecksum d c.toNat ++ b.drop 20) 6 = u16At b 6 := by
    rw [u16At, u16At, hu 6 (by omega) (by omega) (by omega) (by omega), hu 7 (by omega) (by omega) (by omega) (by omega)]
  have ei : ihl (putChecksum d c.toNat ++ b.drop 20) 0 = ihl b 0 := by rw [ihl, e0, ihl]
  have htake : (putChecksum d c.toNat ++ b.drop 20).take (ihl b 0) = putChecksum d c.toNat ++ ip4Opts f := by
    rw [List.take_append, hpl, List.take_of_length_le (by omega), hopt, hihl]
  have hver' : Verifies (putChecksum d c.toNat ++ ip4Opts f) ↔ RefreshRight d (ip4Opts f) :=
    refresh_verifies d _ _ hdl hcv
  have el : (putChecksum d c.toNat ++ b.drop 20).length = b.length := by
    rw [List.length_append, hpl, List.length_drop]; omega
  have hdata : ((putChecksum d c.toNat ++ b.drop 20).take (u16At b 2)).drop (ihl b 0) = (b.take (u16At b 2)).drop (ihl b 0) := by
    rw [List.drop_take, List.drop_take]
    obtain ⟨k, hk⟩ : ∃ k, ihl b 0 = 20 + k := ⟨ihl b 0 - 20, by omega⟩
    rw [hk, drop_add_left _ _ _ _ hpl, List.drop_drop]
  have hsd : ∀ n, 12 ≤ n → n ≤ 16 → ((putChecksum d c.toNat ++ b.drop 20).drop n).take 4 = (d.drop n).take 4 := by
    intro n q1 q2
    rw [List.drop_append_of_le_length (by omega), List.take_append_of_le_length (by rw [List.length_drop]; omega),
      putChecksum_drop _ _ _ q1]
  rw [hfr, ip4Input, e0, e9, e2, e6, ei, el, htake, hsd 12 (by omega) (by omega), hsd 16 (by omega) (by omega),
    hdata, hd', ← Option.some.inj h2]
  by_cases hf : RefreshRight d (ip4Opts f)
  · rw [if_pos ⟨c1, c2, c3, c4, c5, hver'.mpr hf, c7⟩, if_pos hf]
  · rw [if_neg (fun h => hf (hver'.mp h.2.2.2.2.2.1)), if_neg hf]

theorem putAt_drop (b : Bytes) (a : Nat) (w : Bytes) (h : a + w.length ≤ b.length) (n : Nat) (hn : a + w.length ≤ n) :
    (putAt b a w).drop n = b.drop n := by
  have hl : (b.take a).length = a := by rw [List.length_take]; omega
  obtain ⟨k, rfl⟩ : ∃ k, n = a + (w.length + k) := ⟨n - a - w.length, by omega⟩
  rw [putAt, drop_add_left _ _ _ _ hl, drop_add_left _ _ _ _ rfl, List.drop_drop]
  congr 1; omega

theorem putAt_at (b : Bytes) (a : Nat) (w : Bytes) (h : a + w.length ≤ b.length) : ((putAt b a w).drop a).take w.length = w := by
  have hl : (b.take a).length = a := by rw [List.length_take]; omega
  rw [putAt, List.drop_left' hl, List.take_left' rfl]

theorem putAt_before (b : Bytes) (a : Nat) (w : Bytes) (n m : Nat) (h : a + w.length ≤ b.length) (hn : n + m ≤ a) :
    ((putAt b a w).drop n).take m = (b.drop n).take m := by
  have hl : (b.take a).length = a := by rw [List.length_take]; omega
  rw [putAt, List.drop_append_of_le_length (by omega), List.take_append_of_le_length (by rw [List.length_drop]; omega),
    List.drop_take, List.take_take, Nat.min_eq_left (by omega)]

/-- What the host reads in a header without options. -/
theorem ip4_fields {f : Bytes} {g : Datagram} (hi : ipInput f = some g) (hf : u16At f (l3At f - 2) = 0x0800) :
    g.v6 = false ∧ g.src = ((ip4Hdr f).drop 12).take 4 ∧ g.dst = ((ip4Hdr f).drop 16).take 4 ∧ (ip4Hdr f).length = 20 ∧
      (∀ i, i < g.data.length → u8At g.data i = u8At f (l3At f + ihl f (l3At f) + i)) := by
  unfold ipInput at hi
  split at hi
  rotate_left
  · cases hi
  next et b hl =>
  split at hi
  rotate_left
  · split at hi
    · next he =>
      obtain ⟨e1, -⟩ := link_seen f b et hl (.inr he)
      rw [he, hf] at e1
      cases e1
    · cases hi
  next he =>
  obtain ⟨e1, e2, e3, -⟩ := link_seen f b et hl (.inl he)
  unfold ip4Input at hi
  split at hi
  rotate_left
  · cases hi
  next hc =>
  obtain ⟨c1, c2, c3, c4, c5, c6, c7⟩ := hc
  cases hi
  refine ⟨rfl, ?_, ?_, ?_, fun i hi => ?_⟩
  · rw [ip4Hdr, ← e2, List.drop_take (l := b) (j := 20), List.take_take]; rfl
  · rw [ip4Hdr, ← e2, List.drop_take (l := b) (j := 20), List.take_take]; rfl
  · rw [ip4Hdr, ← e2, List.length_take]; omega
  · have h20 : ihl b 0 = ihl f (l3At f) := by rw [e2, ihl, u8At_drop_add, Nat.add_zero, ihl]
    simp only [List.length_drop, List.length_take] at hi
    rw [u8At_drop_add, u8At_take _ _ _ (by omega), e2, u8At_drop_add]
    rw [← e2, h20]
    congr 1; omega

/-- **C99, forwarding.** Whatever is written into the time to live, the host behind gets what it would have got from the frame itself,
or nothing at all: without options iff the sum of the new header carries again when folded (`C99_no_options`), with options iff these do
not make up for it. -/
theorem C99_forward {chk : Bool} {f : Bytes} {g : Datagram} {p : Packet} (hi : ipInput f = some g)
    (h4 : u16At f (l3At f - 2) = 0x0800) (hp : Slow.parse chk f = .ok p)
    (hg : ∀ g ∈ p.hdrs, g.ty = GRE → greOptCount g.data ≤ 1) (v : U64) :
    let d := putAt (ip4Hdr f) 8 [BitVec.ofNat 8 v.toNat]
    ∃ q, editAndRefresh chk IPv4.ttl v p = .ok q ∧
      ipInput q.to_vec = (if RefreshRight d (ip4Opts f) then some g else none) ∧
      hostUdp q.to_vec = (if RefreshRight d (ip4Opts f) then hostUdp f else none) ∧
      hostTcp q.to_vec = (if RefreshRight d (ip4Opts f) then hostTcp f else none) ∧
      hostIcmp q.to_vec = (if RefreshRight d (ip4Opts f) then hostIcmp f else none) := by
  obtain ⟨f1, f2, f3, f4, -⟩ := ip4_fields hi h4
  intro d
  have h1 : [BitVec.ofNat 8 v.toNat].length = 1 := rfl
  obtain ⟨q, e, h⟩ := edit_datagram hi f1 hp hg IPv4.ttl v 8 [BitVec.ofNat 8 v.toNat] rfl rfl (by omega) (.inl ⟨rfl, rfl⟩) (by
    intro j hj
    simp only [List.length_cons, List.length_nil] at hj
    rw [netBit_cons, if_pos (by omega), BitVec.getMsbD, BitVec.getLsbD_ofNat, decide_eq_true (show j < 8 by omega),
      decide_eq_true (show 8 - 1 - j < 8 by omega)]
    rfl)
  rw [putAt_drop _ _ _ (by omega) _ (by omega), putAt_drop _ _ _ (by omega) _ (by omega), ← f2, ← f3] at h
  have h : ipInput q.to_vec = if RefreshRight d (ip4Opts f) then some g else none := h
  refine ⟨q, e, h, ?_, ?_, ?_⟩
  all_goals
    simp only [hostUdp, hostTcp, hostIcmp, h, hi]
    split <;> rfl

/-- The hypotheses on a sample, and what comes out. -/
example :
    let f := (Sample.get Sample.udp).to_vec
    let p := Sample.get (Slow.parse true f)
    let m : UdpMsg := ⟨[10, 0, 0, 1], [192, 168, 0, 2], 1234, 53, Sample.data⟩
    hostUdp f = some m ∧ u16At f (l3At f - 2) = 0x0800 ∧ ihl f (l3At f) = 20 ∧ Slow.parse true f = .ok p ∧
      (∀ g ∈ p.hdrs, g.ty ≠ GRE) ∧ FoldsOnce (putAt (ip4Hdr f) 8 [63]) ∧
      hostUdp (Sample.get (editAndRefresh true IPv4.ttl 63 p)).to_vec = some m := by
  decide +kernel

/-- Without options a refreshed checksum is right iff the sum folds right. -/
theorem C99_no_options (f d : Bytes) (h4 : u16At f (l3At f - 2) = 0x0800) (ho : NoOptions f) :
    RefreshRight d (ip4Opts f) ↔ FoldsOnce d := by
  rw [ip4Opts, ho h4, RefreshRight]
  by_cases h : FoldsOnce d
  · simp [h, words]
  · simp [h, words]

/-- Options that are no more than padding do no harm, others do. -/
example :
    let f : Bytes := [0, 17, 34, 51, 68, 85, 0, 6, 7, 8, 9, 10, 8, 0, 70, 0, 0, 34, 0, 1, 0, 0, 64, 17, 175, 31, 10, 0, 0, 1, 192, 168, 0,
      2, 0, 0, 0, 0, 4, 210, 0, 53, 0, 10, 0, 0, 170, 187]
    let p := Sample.get (Slow.parse true f)
    (hostUdp f).isSome ∧ Slow.parse true f = .ok p ∧ (∀ g ∈ p.hdrs, g.ty ≠ GRE) ∧ ip4Opts f = [0, 0, 0, 0] ∧
      hostUdp (Sample.get (editAndRefresh true IPv4.ttl 63 p)).to_vec = hostUdp f := by
  decide +kernel

example :
    let f : Bytes := [0, 17, 34, 51, 68, 85, 0, 6, 7, 8, 9, 10, 8, 0, 70, 0, 0, 34, 0, 1, 0, 0, 64, 17, 173, 29, 10, 0, 0, 1, 192, 168, 0,
      2, 1, 1, 1, 1, 4, 210, 0, 53, 0, 10, 0, 0, 170, 187]
    let p := Sample.get (Slow.parse true f)
    (hostUdp f).isSome ∧ Slow.parse true f = .ok p ∧ (∀ g ∈ p.hdrs, g.ty ≠ GRE) ∧ ip4Opts f = [1, 1, 1, 1] ∧
      hostUdp (Sample.get (editAndRefresh true IPv4.ttl 63 p)).to_vec = none := by
  decide +kernel

theorem netBit_num32 (v : U64) (j : Nat) (h : j < 32) : netBit (num32 v.toNat) j = v.getLsbD (31 - j) := by
  have key : ∀ k : Nat, ∀ i, i < 8 → (BitVec.ofNat 8 k).getMsbD i = k.testBit (7 - i) := by
    intro k i hi
    rw [BitVec.getMsbD, BitVec.getLsbD_ofNat, decide_eq_true hi, decide_eq_true (show 8 - 1 - i < 8 by omega)]
    rfl
  have e1 : ∀ i, v.getLsbD i = v.toNat.testBit i := fun i => rfl
  unfold num32 num16
  simp only [List.cons_append, List.nil_append, netBit_cons]
  rw [e1]
  by_cases c1 : j < 8
  · rw [if_pos c1, key _ _ c1, Nat.div_div_eq_div_mul, show 65536 * 256 = 2 ^ 24 from rfl, Nat.testBit_div_two_pow]
    congr 1; omega
  rw [if_neg c1]
  by_cases c2 : j - 8 < 8
  · rw [if_pos c2, key _ _ c2, show 65536 = 2 ^ 16 from rfl, Nat.testBit_div_two_pow]
    congr 1; omega
  rw [if_neg c2]
  by_cases c3 : j - 8 - 8 < 8
  · rw [if_pos c3, key _ _ c3, show 256 = 2 ^ 8 from rfl, Nat.testBit_div_two_pow]
    congr 1; omega
  rw [if_neg c3, if_pos (by omega), key _ _ (by omega)]
  congr 1; omega

/-- Another even part in a verified string. -/
theorem verifies_swap (a s s' r : Bytes) (ha : a.length % 2 = 0) (hs : s.length % 2 = 0) (hs' : s'.length % 2 = 0)
    (hr : (words r).sum ≠ 0) (h : Verifies (a ++ (s ++ r))) : Verifies (a ++ (s' ++ r)) ↔ SameSum s' s := by
  rw [verifies_iff, words_append _ _ ha, words_append _ _ hs] at h
  rw [verifies_iff, words_append _ _ ha, words_append _ _ hs', SameSum]
  simp only [List.sum_append] at h ⊢
  omega

theorem pseudo_src (g : Datagram) (h : g.v6 = false) (s : Bytes) (n : Nat) (r : Bytes) :
    ({ g with src := s } : Datagram).pseudo n ++ r =
      [] ++ (s ++ (g.dst ++ ([0#8, BitVec.ofNat 8 g.proto] ++ (num16 n ++ r)))) := by
  simp [Datagram.pseudo, h]

theorem pseudo_dst (g : Datagram) (h : g.v6 = false) (s : Bytes) (n : Nat) (r : Bytes) :
    ({ g with dst := s } : Datagram).pseudo n ++ r =
      g.src ++ (s ++ ([0#8, BitVec.ofNat 8 g.proto] ++ (num16 n ++ r))) := by
  simp [Datagram.pseudo, h]

theorem pseudo_tail (pr : Nat) (h : pr = 17 ∨ pr = 6) (r : Bytes) : (words ([0#8, BitVec.ofNat 8 pr] ++ r)).sum ≠ 0 := by
  rw [words_append _ _ (by simp), List.sum_append]
  rcases h with rfl | rfl <;> simp [words]

theorem verifies_src (g : Datagram) (h : g.v6 = false) (hp : g.proto = 17 ∨ g.proto = 6) (hs : g.src.length = 4) (hd : g.dst.length = 4)
    (s : Bytes) (h4 : s.length = 4) (n : Nat) (r : Bytes) (hv : Verifies (g.pseudo n ++ r)) :
    Verifies (({ g with src := s } : Datagram).pseudo n ++ r) ↔ SameSum s g.src := by
  have e := pseudo_src g h g.src n r
  rw [show ({ g with src := g.src } : Datagram) = g from rfl] at e
  rw [e] at hv
  rw [pseudo_src g h]
  refine verifies_swap _ _ _ _ rfl (by rw [hs]) (by rw [h4]) ?_ hv
  rw [words_append _ _ (by rw [hd]), List.sum_append]
  have := pseudo_tail g.proto hp (num16 n ++ r)
  omega

theorem verifies_dst (g : Datagram) (h : g.v6 = false) (hp : g.proto = 17 ∨ g.proto = 6) (hs : g.src.length = 4) (hd : g.dst.length = 4)
    (s : Bytes) (h4 : s.length = 4) (n : Nat) (r : Bytes) (hv : Verifies (g.pseudo n ++ r)) :
    Verifies (({ g with dst := s } : Datagram).pseudo n ++ r) ↔ SameSum s g.dst := by
  have e := pseudo_dst g h g.dst n r
  rw [show ({ g with dst := g.dst } : Datagram) = g from rfl] at e
  rw [e] at hv
  rw [pseudo_dst g h]
  exact verifies_swap _ _ _ _ (by rw [hs]) (by rw [hd]) (by rw [h4]) (pseudo_tail _ hp _) hv

theorem udpInput_src (g : Datagram) (m : UdpMsg) (h : g.v6 = false) (hs : g.src.length = 4) (hd : g.dst.length = 4) (s : Bytes)
    (h4 : s.length = 4) (hm : udpInput g = some m) :
    udpInput { g with src := s } = if u16At g.data 6 = 0 ∨ SameSum s m.src then some { m with src := s } else none := by
  unfold udpInput at hm
  simp only [Option.ite_none_right_eq_some] at hm
  obtain ⟨⟨c1, c2, c3, c4⟩, hm⟩ := hm
  cases hm
  unfold udpInput
  simp only
  by_cases c : u16At g.data 6 = 0
  · rw [if_pos ⟨c1, c2, c3, .inl ⟨c, h⟩⟩, if_pos (.inl c)]
  · have hv : Verifies (g.pseudo (u16At g.data 4) ++ g.data.take (u16At g.data 4)) := by
      rcases c4 with c4 | c4
      · exact absurd c4.1 c
      · exact c4.2
    have e := verifies_src g h (.inl c1) hs hd s h4 _ _ hv
    by_cases k : SameSum s g.src
    · rw [if_pos ⟨c1, c2, c3, .inr ⟨c, e.mpr k⟩⟩, if_pos (.inr k)]
    · rw [if_neg (fun hc => ?_), if_neg (fun hc => hc.elim c k)]
      rcases hc.2.2.2 with hc | hc
      · exact c hc.1
      · exact k (e.mp hc.2)

theorem tcpInput_src (g : Datagram) (m : TcpSeg) (h : g.v6 = false) (hs : g.src.length = 4) (hd : g.dst.length = 4) (s : Bytes)
    (h4 : s.length = 4) (hm : tcpInput g = some m) :
    tcpInput { g with src := s } = if SameSum s m.src then some { m with src := s } else none := by
  unfold tcpInput at hm
  simp only [Option.ite_none_right_eq_some] at hm
  obtain ⟨⟨c1, c2, c3, c4⟩, hm⟩ := hm
  cases hm
  unfold tcpInput
  simp only
  have e := verifies_src g h (.inr c1) hs hd s h4 _ _ c4
  by_cases k : SameSum s g.src
  · rw [if_pos ⟨c1, c2, c3, e.mpr k⟩, if_pos k]
  · rw [if_neg (fun hc => k (e.mp hc.2.2.2)), if_neg k]

theorem icmpInput_src (g : Datagram) (m : IcmpMsg) (h : g.v6 = false) (s : Bytes) (hm : icmpInput g = some m) :
    icmpInput { g with src := s } = some { m with src := s } := by
  unfold icmpInput at hm
  simp only [Option.ite_none_right_eq_some] at hm
  obtain ⟨⟨c1, c2⟩, hm⟩ := hm
  cases hm
  rcases c2 with c2 | c2
  · rw [h] at c2; exact nomatch c2.1
  · exact if_pos ⟨c1, .inr c2⟩

theorem udpInput_dst (g : Datagram) (m : UdpMsg) (h : g.v6 = false) (hs : g.src.length = 4) (hd : g.dst.length = 4) (s : Bytes)
    (h4 : s.length = 4) (hm : udpInput g = some m) :
    udpInput { g with dst := s } = if u16At g.data 6 = 0 ∨ SameSum s m.dst then some { m with dst := s } else none := by
  unfold udpInput at hm
  simp only [Option.ite_none_right_eq_some] at hm
  obtain ⟨⟨c1, c2, c3, c4⟩, hm⟩ := hm
  cases hm
  unfold udpInput
  simp only
  by_cases c : u16At g.data 6 = 0
  · rw [if_pos ⟨c1, c2, c3, .inl ⟨c, h⟩⟩, if_pos (.inl c)]
  · have hv : Verifies (g.pseudo (u16At g.data 4) ++ g.data.take (u16At g.data 4)) := by
      rcases c4 with c4 | c4
      · exact absurd c4.1 c
      · exact c4.2
    have e := verifies_dst g h (.inl c1) hs hd s h4 _ _ hv
    by_cases k : SameSum s g.dst
    · rw [if_pos ⟨c1, c2, c3, .inr ⟨c, e.mpr k⟩⟩, if_pos (.inr k)]
    · rw [if_neg (fun hc => ?_), if_neg (fun hc => hc.elim c k)]
      rcases hc.2.2.2 with hc | hc
      · exact c hc.1
      · exact k (e.mp hc.2)

theorem tcpInput_dst (g : Datagram) (m : TcpSeg) (h : g.v6 = false) (hs : g.src.length = 4) (hd : g.dst.length = 4) (s : Bytes)
    (h4 : s.length = 4) (hm : tcpInput g = some m) :
    tcpInput { g with dst := s } = if SameSum s m.dst then some { m with dst := s } else none := by
  unfold tcpInput at hm
  simp only [Option.ite_none_right_eq_some] at hm
  obtain ⟨⟨c1, c2, c3, c4⟩, hm⟩ := hm
  cases hm
  unfold tcpInput
  simp only
  have e := verifies_dst g h (.inr c1) hs hd s h4 _ _ c4
  by_cases k : SameSum s g.dst
  · rw [if_pos ⟨c1, c2, c3, e.mpr k⟩, if_pos k]
  · rw [if_neg (fun hc => k (e.mp hc.2.2.2)), if_neg k]

theorem icmpInput_dst (g : Datagram) (m : IcmpMsg) (h : g.v6 = false) (s : Bytes) (hm : icmpInput g = some m) :
    icmpInput { g with dst := s } = some { m with dst := s } := by
  unfold icmpInput at hm
  simp only [Option.ite_none_right_eq_some] at hm
  obtain ⟨⟨c1, c2⟩, hm⟩ := hm
  cases hm
  rcases c2 with c2 | c2
  · rw [h] at c2; exact nomatch c2.1
  · exact if_pos ⟨c1, .inr c2⟩

theorem udp_long {g : Datagram} {m : UdpMsg} (hm : udpInput g = some m) : 8 ≤ g.data.length := by
  unfold udpInput at hm
  simp only [Option.ite_none_right_eq_some] at hm
  omega

/-- **C99, another source address.** The host behind gets a UDP message from the new address iff the refreshed checksum is right and
the message has no checksum or the two addresses count the same in it; a TCP segment iff they do; an ICMP message whenever the
refreshed checksum is right.  Otherwise it gets nothing. -/
theorem C99_source {chk : Bool} {f : Bytes} {g : Datagram} {p : Packet} (hi : ipInput f = some g)
    (h4 : u16At f (l3At f - 2) = 0x0800) (hp : Slow.parse chk f = .ok p)
    (hg : ∀ g ∈ p.hdrs, g.ty = GRE → greOptCount g.data ≤ 1) (v : U64) :
    let s := num32 v.toNat
    let d := putAt (ip4Hdr f) 12 s
    ∃ q, editAndRefresh chk IPv4.src v p = .ok q ∧
      (∀ m, hostUdp f = some m → hostUdp q.to_vec =
        if RefreshRight d (ip4Opts f) ∧ (u16At f (l3At f + ihl f (l3At f) + 6) = 0 ∨ SameSum s m.src) then some { m with src := s } else none) ∧
      (∀ m, hostTcp f = some m → hostTcp q.to_vec = if RefreshRight d (ip4Opts f) ∧ SameSum s m.src then some { m with src := s } else none) ∧
      (∀ m, hostIcmp f = some m → hostIcmp q.to_vec = if RefreshRight d (ip4Opts f) then some { m with src := s } else none) := by
  obtain ⟨f1, f2, f3, f4, f5⟩ := ip4_fields hi h4
  intro s d
  have hs4 : s.length = 4 := rfl
  obtain ⟨q, e, h⟩ := edit_datagram hi f1 hp hg IPv4.src v 12 s rfl rfl (by omega) (.inr ⟨by omega, by omega⟩)
    (fun j hj => netBit_num32 v j (by rw [hs4] at hj; omega))
  rw [putAt_drop _ _ _ (by omega) 16 (by omega), ← f3] at h
  have hat : ((putAt (ip4Hdr f) 12 s).drop 12).take 4 = s := hs4 ▸ putAt_at (ip4Hdr f) 12 s (by omega)
  rw [hat] at h
  have h : ipInput q.to_vec = if RefreshRight d (ip4Opts f) then some { g with src := s } else none := h
  have hsl : g.src.length = 4 := by rw [f2, List.length_take, List.length_drop, f4]; rfl
  have hdl : g.dst.length = 4 := by rw [f3, List.length_take, List.length_drop, f4]; rfl
  refine ⟨q, e, fun m hm => ?_, fun m hm => ?_, fun m hm => ?_⟩
  · unfold hostUdp at hm ⊢
    rw [hi] at hm
    have hm : udpInput g = some m := hm
    have hl := udp_long hm
    have e6 : u16At g.data 6 = u16At f (l3At f + ihl f (l3At f) + 6) := by
      rw [u16At, u16At, f5 6 (by omega), f5 7 (by omega)]
    have k := udpInput_src g m f1 hsl hdl s hs4 hm
    rw [e6] at k
    rw [h]
    by_cases hf : RefreshRight d (ip4Opts f)
    · rw [if_pos hf]
      simp only [Option.bind_some, k, hf, true_and]
    · rw [if_neg hf, if_neg (fun c => hf c.1)]
      rfl
  · unfold hostTcp at hm ⊢
    rw [hi] at hm
    have k := tcpInput_src g m f1 hsl hdl s hs4 hm
    rw [h]
    by_cases hf : RefreshRight d (ip4Opts f)
    · rw [if_pos hf]
      simp only [Option.bind_some, k, hf, true_and]
    · rw [if_neg hf, if_neg (fun c => hf c.1)]
      rfl
  · unfold hostIcmp at hm ⊢
    rw [hi] at hm
    have k := icmpInput_src g m f1 s hm
    rw [h]
    by_cases hf : RefreshRight d (ip4Opts f)
    · rw [if_pos hf, if_pos hf]
      exact k
    · rw [if_neg hf, if_neg hf]
      rfl

/-- The sample has no UDP checksum: 167.238.0.0 is the kind of address that makes the header sum carry again, 167.238.0.1 is not. -/
example :
    let f := (Sample.get Sample.udp).to_vec
    let p := Sample.get (Slow.parse true f)
    let m : UdpMsg := ⟨[10, 0, 0, 1], [192, 168, 0, 2], 1234, 53, Sample.data⟩
    u16At f (l3At f + 26) = 0 ∧ ¬ FoldsOnce (putAt (ip4Hdr f) 12 [167, 238, 0, 0]) ∧
      hostUdp (Sample.get (editAndRefresh true IPv4.src 0xa7ee0000 p)).to_vec = none ∧
      hostUdp (Sample.get (editAndRefresh true IPv4.src 0xa7ee0001 p)).to_vec = some { m with src := [167, 238, 0, 1] } := by
  decide +kernel

/-- A TCP segment with a right checksum: 10.1.0.0 counts like 10.0.0.1, 10.0.0.3 does not. -/
example :
    let f := (Sample.get (create_tcp_packet true Sample.mac1 Sample.mac2 true 10 3 5 Sample.ip1 Sample.ip2 1 64 0x1234
      0 [] 80 1234 7 9 5 0 2 512 16227 true Sample.data)).to_vec
    let p := Sample.get (Slow.parse true f)
    let m : TcpSeg := ⟨[10, 0, 0, 1], [192, 168, 0, 2], 1234, 80, 7, 9, 2, 512, 16227, Sample.data⟩
    hostTcp f = some m ∧ u16At f (l3At f - 2) = 0x0800 ∧ ihl f (l3At f) = 20 ∧ Slow.parse true f = .ok p ∧
      (∀ g ∈ p.hdrs, g.ty ≠ GRE) ∧ SameSum [10, 1, 0, 0] m.src ∧ ¬ SameSum [10, 0, 0, 3] m.src ∧
      hostTcp (Sample.get (editAndRefresh true IPv4.src 0x0a010000 p)).to_vec = some { m with src := [10, 1, 0, 0] } ∧
      hostTcp (Sample.get (editAndRefresh true IPv4.src 0x0a000003 p)).to_vec = none := by
  decide +kernel

/-- **C99, another destination address.** Likewise. -/
theorem C99_destination {chk : Bool} {f : Bytes} {g : Datagram} {p : Packet} (hi : ipInput f = some g)
    (h4 : u16At f (l3At f - 2) = 0x0800) (hp : Slow.parse chk f = .ok p)
    (hg : ∀ g ∈ p.hdrs, g.ty = GRE → greOptCount g.data ≤ 1) (v : U64) :
    let s := num32 v.toNat
    let d := putAt (ip4Hdr f) 16 s
    ∃ q, editAndRefresh chk IPv4.dst v p = .ok q ∧
      (∀ m, hostUdp f = some m → hostUdp q.to_vec =
        if RefreshRight d (ip4Opts f) ∧ (u16At f (l3At f + ihl f (l3At f) + 6) = 0 ∨ SameSum s m.dst) then some { m with dst := s } else none) ∧
      (∀ m, hostTcp f = some m → hostTcp q.to_vec = if RefreshRight d (ip4Opts f) ∧ SameSum s m.dst then some { m with dst := s } else none) ∧
      (∀ m, hostIcmp f = some m → hostIcmp q.to_vec = if RefreshRight d (ip4Opts f) then some { m with dst := s } else none) := by
  obtain ⟨f1, f2, f3, f4, f5⟩ := ip4_fields hi h4
  intro s d
  have hs4 : s.length = 4 := rfl
  obtain ⟨q, e, h⟩ := edit_datagram hi f1 hp hg IPv4.dst v 16 s rfl rfl (by omega) (.inr ⟨by omega, by omega⟩)
    (fun j hj => netBit_num32 v j (by rw [hs4] at hj; omega))
  rw [putAt_before _ _ _ 12 4 (by omega) (by omega), ← f2] at h
  have hat : ((putAt (ip4Hdr f) 16 s).drop 16).take 4 = s := hs4 ▸ putAt_at (ip4Hdr f) 16 s (by omega)
  rw [hat] at h
  have h : ipInput q.to_vec = if RefreshRight d (ip4Opts f) then some { g with dst := s } else none := h
  have hsl : g.src.length = 4 := by rw [f2, List.length_take, List.length_drop, f4]; rfl
  have hdl : g.dst.length = 4 := by rw [f3, List.length_take, List.length_drop, f4]; rfl
  refine ⟨q, e, fun m hm => ?_, fun m hm => ?_, fun m hm => ?_⟩
  · unfold hostUdp at hm ⊢
    rw [hi] at hm
    have hm : udpInput g = some m := hm
    have hl := udp_long hm
    have e6 : u16At g.data 6 = u16At f (l3At f + ihl f (l3At f) + 6) := by
      rw [u16At, u16At, f5 6 (by omega), f5 7 (by omega)]
    have k := udpInput_dst g m f1 hsl hdl s hs4 hm
    rw [e6] at k
    rw [h]
    by_cases hf : RefreshRight d (ip4Opts f)
    · rw [if_pos hf]
      simp only [Option.bind_some, k, hf, true_and]
    · rw [if_neg hf, if_neg (fun c => hf c.1)]
      rfl
  · unfold hostTcp at hm ⊢
    rw [hi] at hm
    have k := tcpInput_dst g m f1 hsl hdl s hs4 hm
    rw [h]
    by_cases hf : RefreshRight d (ip4Opts f)
    · rw [if_pos hf]
      simp only [Option.bind_some, k, hf, true_and]
    · rw [if_neg hf, if_neg (fun c => hf c.1)]
      rfl
  · unfold hostIcmp at hm ⊢
    rw [hi] at hm
    have k := icmpInput_dst g m f1 s hm
    rw [h]
    by_cases hf : RefreshRight d (ip4Opts f)
    · rw [if_pos hf, if_pos hf]
      exact k
    · rw [if_neg hf, if_neg hf]
      rfl

example :
    let f := (Sample.get (create_icmp_packet true Sample.mac1 Sample.mac2 false 10 3 5 Sample.ip1 Sample.ip2 1 64
      0x1234 0 [] 0x61 0x62 [1, 2] true Sample.data)).to_vec
    let p := Sample.get (Slow.parse true f)
    let m : IcmpMsg := ⟨[10, 0, 0, 1], [192, 168, 0, 2], 0x61, 0x62, Sample.data⟩
    hostIcmp f = some m ∧ u16At f (l3At f - 2) = 0x0800 ∧ ihl f (l3At f) = 20 ∧ Slow.parse true f = .ok p ∧
      (∀ g ∈ p.hdrs, g.ty ≠ GRE) ∧
      hostIcmp (Sample.get (editAndRefresh true IPv4.dst 0x0a000003 p)).to_vec = some { m with dst := [10, 0, 0, 3] } := by
  decide +kernel

end PacketRs
