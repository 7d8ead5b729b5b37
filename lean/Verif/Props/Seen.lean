import Verif.Spec.Seen
import Verif.Props.Lengths
import Verif.Lemmas.Pieces
import Verif.Samples
/-!
# Property C98: what a host gets from a frame and what the parser shows of it

The host of C97 takes a message from a frame; the parser knows no options, no lengths and no padding.  Here: exactly when it shows the
message.
-/
namespace PacketRs
open Spec Utils

theorem parse_one {chk : Bool} {l l' : Layer} {T : HeaderDef} (r : Bytes) (hl : l ≠ .payload) (hd : dstep l r = one T r l')
    (hlen : T.size ≤ r.length) :
    Slow.parseL chk l r = (Slow.parseL chk l' (r.drop T.size)).map (prep [⟨T, r.take T.size⟩]) := by
  rw [Slow.parseL_eq _ _ _ hl, hd, one, if_pos hlen]
  rfl

theorem map_prep (x : R Packet) (a b : List Hdr) : (x.map (prep b)).map (prep a) = x.map (prep (a ++ b)) := by
  cases x with
  | error e => rfl
  | ok p => simp [Except.map, prep]

/-- What the parser makes of a frame with an IP header behind its link header. -/
theorem link_seen (f b : Bytes) (et : Nat) (h : linkInput f = some (et, b)) (het : et = 0x0800 ∨ et = 0x86DD) :
    et = u16At f (l3At f - 2) ∧ b = f.drop (l3At f) ∧ l3At f ≤ f.length ∧
      ∃ front, LinkOnly front ∧ (front.map fun h => h.ty.size).sum = l3At f ∧ ∀ chk, Slow.parse chk f = (Slow.parseL chk (etherNext et) b).map (prep front) := by
  unfold linkInput at h
  split at h
  · cases h
  next h14 =>
  split at h
  next h1 =>
    cases h
    have hl : l3At f = 14 := by rw [l3At, if_neg h1]
    rw [hl]
    refine ⟨rfl, rfl, by omega, [⟨Ether, f.take 14⟩], ?_, rfl, fun chk => ?_⟩
    · intro x hx
      rw [List.mem_singleton] at hx
      exact .inl (hx ▸ rfl)
    · rw [Slow.parse_eq, if_neg h14, if_neg (by omega)]
      exact parse_one f (by decide) rfl (show 14 ≤ f.length by omega)
  next h1 =>
    split at h
    · cases h
    next h18 =>
    cases h
    have h1 : u16At f 12 = 0x8100 := Classical.byContradiction fun hc => h1 hc
    have hl : l3At f = 18 := by rw [l3At, if_pos h1]
    rw [hl]
    refine ⟨rfl, rfl, by omega, [⟨Ether, f.take 14⟩, ⟨Vlan, (f.drop 14).take 4⟩], ?_, rfl, fun chk => ?_⟩
    · intro x hx
      simp only [List.mem_cons, List.not_mem_nil, or_false] at hx
      rcases hx with rfl | rfl
      · exact .inl rfl
      · exact .inr rfl
    · rw [Slow.parse_eq, if_neg h14, if_neg (by omega), parse_one f (by decide) rfl (show 14 ≤ f.length by omega), h1,
        show etherNext 0x8100 = .vlan from rfl,
        parse_one (f.drop Ether.size) (by decide) rfl (show 4 ≤ (f.drop 14).length by rw [List.length_drop]; omega), map_prep,
        List.drop_drop, u16At_drop_add]
      rfl

/-- The rest of a datagram behind twenty octets: options, contents, padding. -/
theorem cut_rest (b : Bytes) (n k a : Nat) (h1 : n ≤ k) (h2 : k ≤ a) (h3 : a ≤ b.length) :
    b.drop n = (b.drop n).take (k - n) ++ ((b.take a).drop k ++ b.drop a) := by
  have e1 : b.drop k = (b.take a).drop k ++ b.drop a := by
    conv => lhs; rw [← List.take_append_drop a b]
    rw [List.drop_append, List.length_take, show k - min a b.length = 0 by omega, List.drop_zero]
  rw [← e1]
  conv => lhs; rw [← List.take_append_drop (k - n) (b.drop n)]
  rw [List.drop_drop, show n + (k - n) = k by omega]

/-- What the parser makes of a datagram that a host takes: it reads on behind the first 20 or 40 octets, so options come before and
padding behind what the host hands on. -/
theorem datagram_seen (f : Bytes) (g : Datagram) (h : ipInput f = some g) :
    ∃ front ip x y, LinkOnly front ∧ ShowsIp ip g.src g.dst ∧
      f.length = l3At f + ipLen f + x.length + g.data.length + y.length ∧ (x = [] ↔ NoOptions f) ∧
      ((front ++ [ip]).map fun h => h.ty.size).sum = l3At f + ipLen f ∧
      f.drop (l3At f + ipLen f) = x ++ (g.data ++ y) ∧ ∀ chk, Slow.parse chk f =
        (Slow.parseL chk (if g.v6 then ipv6Next g.proto else ipv4Next g.proto) (x ++ (g.data ++ y))).map (prep (front ++ [ip])) := by
  unfold ipInput at h
  split at h
  rotate_left
  · cases h
  next et b hl =>
  split at h
  next he =>
    obtain ⟨e1, e2, e3, front, hf, hsz, hp⟩ := link_seen f b et hl (.inl he)
    subst he
    unfold ip4Input at h
    split at h
    rotate_left
    · cases h
    next hc =>
    obtain ⟨c1, c2, c3, c4, c5, c6, c7⟩ := hc
    cases h
    have hb : b.length = f.length - l3At f := by rw [e2, List.length_drop]
    have hi : ihl b 0 = ihl f (l3At f) := by
      rw [e2, ihl, ihl, u8At_drop_add, Nat.add_zero]
    refine ⟨front, ⟨IPv4, b.take 20⟩, (b.drop 20).take (ihl b 0 - 20), b.drop (u16At b 2), hf,
      .inl ⟨rfl, ?_, ?_⟩, ?_, ?_, ?_, ?_, fun chk => ?_⟩
    · refine readsBytes_of (a := 12) (n := 4) rfl rfl (by decide) (by decide) ?_ ?_
      · simp only [List.length_take]; omega
      · rw [List.drop_take, List.take_take]; rfl
    · refine readsBytes_of (a := 16) (n := 4) rfl rfl (by decide) (by decide) ?_ ?_
      · simp only [List.length_take]; omega
      · rw [List.drop_take, List.take_take]; rfl
    · rw [ipLen, ← e1, if_pos rfl]
      simp only [List.length_take, List.length_drop]
      omega
    · rw [NoOptions, ← e1, ← hi, List.take_eq_nil_iff, List.drop_eq_nil_iff]
      simp only [true_imp_iff]
      omega
    · rw [ipLen, ← e1, if_pos rfl, List.map_append, List.sum_append, hsz]; rfl
    · rw [ipLen, ← e1, if_pos rfl, ← List.drop_drop, ← e2]
      exact cut_rest b 20 _ _ c3 c4 c5
    · rw [hp, show etherNext 0x0800 = .ipv4 from rfl, parse_one b (by decide) rfl (show 20 ≤ b.length from c1), map_prep,
        ← cut_rest b 20 _ _ c3 c4 c5]
      rfl
  next he =>
    split at h
    rotate_left
    · cases h
    next he6 =>
    obtain ⟨e1, e2, e3, front, hf, hsz, hp⟩ := link_seen f b et hl (.inr he6)
    subst he6
    unfold ip6Input at h
    split at h
    rotate_left
    · cases h
    next hc =>
    obtain ⟨c1, c2, c3⟩ := hc
    cases h
    have hb : b.length = f.length - l3At f := by rw [e2, List.length_drop]
    refine ⟨front, ⟨IPv6, b.take 40⟩, [], b.drop (40 + u16At b 4), hf, .inr ⟨rfl, ?_, ?_⟩, ?_, ?_, ?_, ?_, fun chk => ?_⟩
    · refine readsBytes_of (a := 8) (n := 16) rfl rfl (by decide) (by decide) ?_ ?_
      · simp only [List.length_take]; omega
      · rw [List.drop_take, List.take_take]; rfl
    · refine readsBytes_of (a := 24) (n := 16) rfl rfl (by decide) (by decide) ?_ ?_
      · simp only [List.length_take]; omega
      · rw [List.drop_take, List.take_take]; rfl
    · rw [ipLen, ← e1, if_neg (by decide)]
      simp only [List.length_take, List.length_drop, List.length_nil]
      omega
    · rw [NoOptions, ← e1]
      exact iff_of_true rfl (fun h => absurd h (by decide))
    · rw [ipLen, ← e1, if_neg (by decide), List.map_append, List.sum_append, hsz]; rfl
    · rw [ipLen, ← e1, if_neg (by decide), ← List.drop_drop, ← e2, List.nil_append, ← List.drop_drop, List.take_append_drop]
    · rw [hp, show etherNext 0x86DD = .ipv6 from rfl, parse_one b (by decide) rfl (show 40 ≤ b.length from c1), map_prep,
        List.nil_append, ← List.drop_drop, List.take_append_drop]
      rfl

theorem front_unique {a a' : List Hdr} {i i' : Hdr} {t t' : List Hdr} (h : LinkOnly a) (h' : LinkOnly a')
    (hi : ¬ (i.ty = Ether ∨ i.ty = Vlan)) (hi' : ¬ (i'.ty = Ether ∨ i'.ty = Vlan)) (e : a ++ i :: t = a' ++ i' :: t') :
    a = a' ∧ i = i' ∧ t = t' := by
  induction a generalizing a' with
  | nil =>
    cases a' with
    | nil =>
      injection e with e1 e2
      exact ⟨rfl, e1, e2⟩
    | cons y ys =>
      injection e with e1 e2
      exact absurd (h' y (List.mem_cons_self ..)) (e1 ▸ hi)
  | cons x xs ih =>
    cases a' with
    | nil =>
      injection e with e1 e2
      exact absurd (h x (List.mem_cons_self ..)) (e1 ▸ hi')
    | cons y ys =>
      injection e with e1 e2
      obtain ⟨q1, q2, q3⟩ := ih (fun z hz => h z (List.mem_cons_of_mem _ hz)) (fun z hz => h' z (List.mem_cons_of_mem _ hz)) e2
      exact ⟨by rw [e1, q1], q2, q3⟩

theorem ip_no_link {ip : Hdr} {s d : Bytes} (h : ShowsIp ip s d) : ¬ (ip.ty = Ether ∨ ip.ty = Vlan) := by
  rcases h with ⟨h, -⟩ | ⟨h, -⟩ <;> rw [h] <;> decide +kernel

/-- The transport header and the payload: shown as they are iff nothing but them is left. -/
theorem shown_iff {chk : Bool} {f : Bytes} {T : HeaderDef} {l : Layer} {nx : Bytes → Layer} (P : Hdr → Prop) (hl : l ≠ .payload)
    (hstep : ∀ r, dstep l r = one T r (nx r)) (hnx : ∀ r, nx r = .payload ∨ nx r = .vxlan) {front : List Hdr} {ip : Hdr}
    {src dst x D y : Bytes} (hf : LinkOnly front) (hip : ShowsIp ip src dst)
    (hparse : Slow.parse chk f = (Slow.parseL chk l (x ++ (D ++ y))).map (prep (front ++ [ip])))
    (k len : Nat) (h1 : T.size ≤ k) (h2 : k ≤ len) (h3 : len ≤ D.length) (hP : P ⟨T, D.take T.size⟩) :
    (∃ p, Slow.parse chk f = .ok p ∧ ∃ front' ip' t, p.hdrs = front' ++ [ip', t] ∧ LinkOnly front' ∧ ShowsIp ip' src dst ∧
        t.ty = T ∧ P t ∧ p.payload = (D.take len).drop k) ↔
      x.length + D.length + y.length = T.size + (len - k) ∧ nx D = .payload := by
  rw [hparse, parse_one _ hl (hstep _) (by simp only [List.length_append]; omega), map_prep]
  have hlen : ((D.take len).drop k).length = len - k := by
    rw [List.length_drop, List.length_take]; omega
  constructor
  · rintro ⟨p, hp, front', ip', t, q1, q2, q3, -, -, q4⟩
    cases hq : Slow.parseL chk (nx (x ++ (D ++ y))) ((x ++ (D ++ y)).drop T.size) with
    | error e => rw [hq] at hp; exact nomatch hp
    | ok p' =>
      rw [hq] at hp
      cases hp
      simp only [prep, List.append_assoc, List.cons_append, List.nil_append] at q1 q4
      obtain ⟨-, -, q5⟩ := front_unique hf q2 (ip_no_link hip) (ip_no_link q3) q1
      injection q5 with q5 q6
      rcases hnx (x ++ (D ++ y)) with hn | hn
      · rw [hn] at hq
        have hq' : Slow.accept ((x ++ (D ++ y)).drop T.size) = p' := Except.ok.inj hq
        rw [← hq'] at q4
        have q4 : (x ++ (D ++ y)).drop T.size = (D.take len).drop k := q4
        have := congrArg List.length q4
        rw [hlen] at this
        simp only [List.length_drop, List.length_append] at this
        have hx : x = [] := List.length_eq_zero_iff.mp (by omega)
        have hy : y = [] := List.length_eq_zero_iff.mp (by omega)
        refine ⟨by omega, ?_⟩
        rwa [hx, hy, List.nil_append, List.append_nil] at hn
      · rw [hn] at hq
        have := parse_kind hq
        rw [q6] at this
        exact nomatch this
  · rintro ⟨e, hn⟩
    have hx : x = [] := List.length_eq_zero_iff.mp (by omega)
    have hy : y = [] := List.length_eq_zero_iff.mp (by omega)
    subst hx hy
    simp only [List.length_nil] at e
    rw [List.nil_append, List.append_nil, hn]
    refine ⟨_, rfl, front, ip, ⟨T, D.take T.size⟩, ?_, hf, hip, rfl, hP, ?_⟩
    · simp [prep, Slow.accept, Packet.set_payload, Packet.new]
    · rw [List.take_of_length_le (l := D) (i := len) (by omega), show k = T.size by omega]
      rfl

theorem reads_u8 (T : HeaderDef) (d : Bytes) (n : Nat) (x : Field) (a : Nat) (h1 : x.lo = 8 * a) (h2 : x.hi = 8 * a + 7)
    (hn : n ≤ d.length) (h : a < n) : (Hdr.mk T (d.take n)).Reads x (u8At d a) := by
  have hl : (d.take n).length = n := by rw [List.length_take]; omega
  refine reads_of (by omega) (by omega) (by rw [h2]; simp only [hl]; omega) ?_
  simp only [h1, h2]
  rw [fieldVal_u8 _ _ (by omega), u8At, u8At, List.getD_eq_getElem?_getD, List.getD_eq_getElem?_getD, List.getElem?_take, if_pos h]

theorem reads_u16 (T : HeaderDef) (d : Bytes) (n : Nat) (x : Field) (a : Nat) (h1 : x.lo = 8 * a) (h2 : x.hi = 8 * a + 15)
    (hn : n ≤ d.length) (h : a + 1 < n) : (Hdr.mk T (d.take n)).Reads x (u16At d a) := by
  have hl : (d.take n).length = n := by rw [List.length_take]; omega
  refine reads_of (by omega) (by omega) (by rw [h2]; simp only [hl]; omega) ?_
  simp only [h1, h2]
  rw [fieldVal_u16 _ _ (by omega), u16At_take _ _ _ h]

theorem reads_u32 (T : HeaderDef) (d : Bytes) (n : Nat) (x : Field) (a : Nat) (h1 : x.lo = 8 * a) (h2 : x.hi = 8 * a + 31)
    (hn : n ≤ d.length) (h : a + 3 < n) : (Hdr.mk T (d.take n)).Reads x (65536 * u16At d a + u16At d (a + 2)) := by
  have hl : (d.take n).length = n := by rw [List.length_take]; omega
  refine reads_of (by omega) (by omega) (by rw [h2]; simp only [hl]; omega) ?_
  simp only [h1, h2]
  have e := fieldVal_u16 (d.take n) (a + 2) (by omega)
  rw [show 8 * (a + 2) = 8 * a + 15 + 1 by omega, show 8 * a + 15 + 1 + 15 = 8 * a + 31 by omega] at e
  rw [fieldVal_split _ (8 * a) (8 * a + 15) (8 * a + 31) (by omega) (by omega) (by omega), fieldVal_u16 _ _ (by omega), e,
    u16At_take _ _ _ (by omega), u16At_take _ _ _ (by omega), show 8 * a + 31 - (8 * a + 15) = 16 by omega]
  omega

/-- **C98, UDP.** Of a frame from which a host takes a UDP message the parser shows that message iff the frame holds nothing beside its
headers without options and the message, and the message is not for port 4789. -/
theorem C98_udp (chk : Bool) (f : Bytes) (m : UdpMsg) (h : hostUdp f = some m) :
    (∃ p, Slow.parse chk f = .ok p ∧ ShowsUdp p m) ↔
      f.length = l3At f + ipLen f + 8 + m.data.length ∧ m.dport ≠ 4789 := by
  obtain ⟨g, h1, h2⟩ := Option.bind_eq_some_iff.mp h
  obtain ⟨front, ip, x, y, hf, hip, hlen, -, -, -, hp⟩ := datagram_seen f g h1
  unfold udpInput at h2
  simp only at h2
  split at h2
  rotate_left
  · cases h2
  next hc =>
  obtain ⟨c1, c2, c3, -⟩ := hc
  cases h2
  have hl : (if g.v6 then ipv6Next g.proto else ipv4Next g.proto) = .udp := by rw [c1]; split <;> rfl
  rw [hl] at hp
  have := shown_iff (chk := chk) (T := UDP) (nx := fun r => if u16At r 2 = 4789 then .vxlan else .payload)
    (fun t => t.Reads UDP.src (u16At g.data 0) ∧ t.Reads UDP.dst (u16At g.data 2)) (by decide) (fun _ => rfl)
    (fun r => by split <;> simp) hf hip (hp chk) 8 (u16At g.data 4) (by decide) c2 c3
    ⟨reads_u16 _ _ 8 _ 0 rfl rfl (by omega) (by omega), reads_u16 _ _ 8 _ 2 rfl rfl (by omega) (by omega)⟩
  unfold ShowsUdp
  simp only [and_assoc] at this ⊢
  rw [this]
  have e1 : (if u16At g.data 2 = 4789 then Layer.vxlan else .payload) = .payload ↔ u16At g.data 2 ≠ 4789 := by
    split <;> simp_all
  rw [e1, hlen, show UDP.size = 8 from rfl, List.length_drop, List.length_take]
  exact and_congr_left fun _ => by omega

/-- A message that is shown, and the same of a frame with IPv4 options, with padding, and for port 4789. -/
example :
    let f := (Sample.get Sample.udp).to_vec
    let m : UdpMsg := ⟨[10, 0, 0, 1], [192, 168, 0, 2], 1234, 53, Sample.data⟩
    hostUdp f = some m ∧ f.length = l3At f + ipLen f + 8 + m.data.length ∧ m.dport ≠ 4789 := by
  decide +kernel

example :
    let f : Bytes := [0x00, 0x11, 0x22, 0x33, 0x44, 0x55, 0x00, 0x06, 0x07, 0x08, 0x09, 0x0a, 0x08, 0x00, 0x46, 0x00, 0x00, 0x22, 0x00,
      0x01, 0x00, 0x00, 0x40, 0x11, 0xad, 0x1d, 0x0a, 0x00, 0x00, 0x01, 0xc0, 0xa8, 0x00, 0x02, 0x01, 0x01, 0x01, 0x01,
      0x04, 0xd2, 0x00, 0x35, 0x00, 0x0a, 0x00, 0x00, 0xaa, 0xbb]
    let m : UdpMsg := ⟨[10, 0, 0, 1], [192, 168, 0, 2], 1234, 53, [0xaa, 0xbb]⟩
    hostUdp f = some m ∧ f.length = l3At f + ipLen f + 8 + m.data.length + 4 ∧
      (Slow.parse true f).map (fun p => p.payload) = .ok [0, 10, 0, 0, 0xaa, 0xbb] := by
  decide +kernel

example :
    let f := (Sample.get (Sample.udpTo 4789)).to_vec
    hostUdp f = some ⟨[10, 0, 0, 1], [192, 168, 0, 2], 1234, 4789, Sample.data⟩ ∧
      (Slow.parse true f).map (fun p => p.payload) ≠ .ok Sample.data := by
  decide +kernel

/-- **C98, TCP.** Likewise; options of the segment count as well. -/
theorem C98_tcp (chk : Bool) (f : Bytes) (m : TcpSeg) (h : hostTcp f = some m) :
    (∃ p, Slow.parse chk f = .ok p ∧ ShowsTcp p m) ↔ f.length = l3At f + ipLen f + 20 + m.data.length := by
  obtain ⟨g, h1, h2⟩ := Option.bind_eq_some_iff.mp h
  obtain ⟨front, ip, x, y, hf, hip, hlen, -, -, -, hp⟩ := datagram_seen f g h1
  unfold tcpInput at h2
  simp only at h2
  split at h2
  rotate_left
  · cases h2
  next hc =>
  obtain ⟨c1, c2, c3, -⟩ := hc
  cases h2
  have hl : (if g.v6 then ipv6Next g.proto else ipv4Next g.proto) = .tcp := by rw [c1]; split <;> rfl
  rw [hl] at hp
  have := shown_iff (chk := chk) (T := TCP) (nx := fun r => .payload)
    (fun t => t.Reads TCP.src (u16At g.data 0) ∧ t.Reads TCP.dst (u16At g.data 2) ∧
      t.Reads TCP.seq_no (65536 * u16At g.data 4 + u16At g.data 6) ∧ t.Reads TCP.ack_no (65536 * u16At g.data 8 + u16At g.data 10) ∧
      t.Reads TCP.flags (u8At g.data 13) ∧ t.Reads TCP.window (u16At g.data 14) ∧ t.Reads TCP.urgent_ptr (u16At g.data 18))
    (by decide) (fun _ => rfl) (fun r => .inl rfl) hf hip (hp chk) (4 * (u8At g.data 12 / 16)) g.data.length c2 c3 (Nat.le_refl _)
    ⟨reads_u16 _ _ 20 _ 0 rfl rfl (by omega) (by omega), reads_u16 _ _ 20 _ 2 rfl rfl (by omega) (by omega),
      reads_u32 _ _ 20 _ 4 rfl rfl (by omega) (by omega), reads_u32 _ _ 20 _ 8 rfl rfl (by omega) (by omega),
      reads_u8 _ _ 20 _ 13 rfl rfl (by omega) (by omega), reads_u16 _ _ 20 _ 14 rfl rfl (by omega) (by omega),
      reads_u16 _ _ 20 _ 18 rfl rfl (by omega) (by omega)⟩
  unfold ShowsTcp
  rw [List.take_of_length_le (Nat.le_refl _)] at this
  simp only [and_assoc] at this ⊢
  rw [this]
  rw [hlen, show TCP.size = 20 from rfl, List.length_drop]
  simp only [and_true]
  omega

example :
    let f := (Sample.get (create_tcp_packet true Sample.mac1 Sample.mac2 true 10 3 5 Sample.ip1 Sample.ip2 1 64 0x1234
      0 [] 80 1234 7 9 5 0 2 512 16227 true Sample.data)).to_vec
    let m : TcpSeg := ⟨[10, 0, 0, 1], [192, 168, 0, 2], 1234, 80, 7, 9, 2, 512, 16227, Sample.data⟩
    hostTcp f = some m ∧ f.length = l3At f + ipLen f + 20 + m.data.length := by
  decide +kernel

/-- **C98, ICMP.** -/
theorem C98_icmp (chk : Bool) (f : Bytes) (m : IcmpMsg) (h : hostIcmp f = some m) :
    (∃ p, Slow.parse chk f = .ok p ∧ ShowsIcmp p m) ↔ f.length = l3At f + ipLen f + 4 + m.data.length := by
  obtain ⟨g, h1, h2⟩ := Option.bind_eq_some_iff.mp h
  obtain ⟨front, ip, x, y, hf, hip, hlen, -, -, -, hp⟩ := datagram_seen f g h1
  unfold icmpInput at h2
  split at h2
  rotate_left
  · cases h2
  next hc =>
  obtain ⟨c1, c2⟩ := hc
  cases h2
  have hl : (if g.v6 then ipv6Next g.proto else ipv4Next g.proto) = .icmp := by
    rcases c2 with ⟨q1, q2, -⟩ | ⟨q1, q2, -⟩ <;> rw [q1, q2] <;> rfl
  rw [hl] at hp
  have := shown_iff (chk := chk) (T := ICMP) (nx := fun r => .payload)
    (fun t => t.Reads ICMP.icmp_type (u8At g.data 0) ∧ t.Reads ICMP.icmp_code (u8At g.data 1))
    (by decide) (fun _ => rfl) (fun r => .inl rfl) hf hip (hp chk) 4 g.data.length (by decide) c1 (Nat.le_refl _)
    ⟨reads_u8 _ _ 4 _ 0 rfl rfl (by omega) (by omega), reads_u8 _ _ 4 _ 1 rfl rfl (by omega) (by omega)⟩
  unfold ShowsIcmp
  rw [List.take_of_length_le (Nat.le_refl _)] at this
  simp only [and_assoc] at this ⊢
  rw [this]
  rw [hlen, show ICMP.size = 4 from rfl, List.length_drop]
  simp only [and_true]
  omega

example :
    let f := (Sample.get (create_icmp_packet true Sample.mac1 Sample.mac2 false 10 3 5 Sample.ip1 Sample.ip2 1 64
      0x1234 0 [] 0x61 0x62 [1, 2] true Sample.data)).to_vec
    let m : IcmpMsg := ⟨[10, 0, 0, 1], [192, 168, 0, 2], 0x61, 0x62, Sample.data⟩
    hostIcmp f = some m ∧ f.length = l3At f + ipLen f + 4 + m.data.length := by
  decide +kernel

theorem u16At_more (a z : Bytes) (i : Nat) (h : i + 1 < a.length) : u16At (a ++ z) i = u16At a i := by
  rw [u16At, u16At, u8At_append_left _ _ _ (by omega), u8At_append_left _ _ _ h]

theorem ip4Input_more {b : Bytes} {g : Datagram} (z : Bytes) (h : ip4Input b = some g) : ip4Input (b ++ z) = some g := by
  unfold ip4Input at h
  split at h
  rotate_left
  · cases h
  next hc =>
  obtain ⟨c1, c2, c3, c4, c5, c6, c7⟩ := hc
  unfold ip4Input
  have e0 : u8At (b ++ z) 0 = u8At b 0 := u8At_append_left _ _ _ (by omega)
  have e1 : ihl (b ++ z) 0 = ihl b 0 := by unfold ihl; rw [e0]
  rw [e0, e1, u16At_more _ _ _ (by omega), u16At_more _ _ _ (by omega), u8At_append_left _ _ _ (by omega),
    List.take_append_of_le_length (by omega), List.take_append_of_le_length (by omega),
    if_pos ⟨by rw [List.length_append]; omega, c2, c3, c4, by rw [List.length_append]; omega, c6, c7⟩, ← h,
    List.drop_append_of_le_length (by omega), List.drop_append_of_le_length (by omega),
    List.take_append_of_le_length (by rw [List.length_drop]; omega), List.take_append_of_le_length (by rw [List.length_drop]; omega)]

theorem ip6Input_more {b : Bytes} {g : Datagram} (z : Bytes) (h : ip6Input b = some g) : ip6Input (b ++ z) = some g := by
  unfold ip6Input at h
  split at h
  rotate_left
  · cases h
  next hc =>
  obtain ⟨c1, c2, c3⟩ := hc
  unfold ip6Input
  rw [u8At_append_left _ _ _ (by omega), u16At_more _ _ _ (by omega), u8At_append_left _ _ _ (by omega),
    if_pos ⟨by rw [List.length_append]; omega, c2, by rw [List.length_append]; omega⟩, ← h,
    List.drop_append_of_le_length (by omega), List.drop_append_of_le_length (by omega), List.drop_append_of_le_length (by omega),
    List.take_append_of_le_length (by rw [List.length_drop]; omega), List.take_append_of_le_length (by rw [List.length_drop]; omega),
    List.take_append_of_le_length (by rw [List.length_drop]; omega)]

theorem linkInput_more {f : Bytes} {e : Nat} {b : Bytes} (z : Bytes) (h : linkInput f = some (e, b)) :
    linkInput (f ++ z) = some (e, b ++ z) ∧ l3At (f ++ z) = l3At f ∧ ipLen (f ++ z) = ipLen f := by
  unfold linkInput at h
  unfold linkInput ipLen l3At
  rw [List.length_append]
  split at h
  · cases h
  rw [u16At_more f z 12 (by omega), if_neg (by omega)]
  split at h
  · next c1 c2 =>
    cases h
    rw [if_pos c2, if_neg c2, u16At_more f z _ (by omega), List.drop_append_of_le_length (by omega)]
    exact ⟨rfl, rfl, rfl⟩
  · split at h
    · cases h
    · next c1 c2 c3 =>
      cases h
      rw [if_neg c2, if_neg (by omega), if_pos (Classical.not_not.mp c2), u16At_more f z 16 (by omega),
        List.drop_append_of_le_length (by omega)]
      exact ⟨rfl, rfl, rfl⟩

/-- A host does not see octets after the datagram. -/
theorem ipInput_more {f : Bytes} {g : Datagram} (z : Bytes) (h : ipInput f = some g) :
    ipInput (f ++ z) = some g ∧ l3At (f ++ z) = l3At f ∧ ipLen (f ++ z) = ipLen f := by
  unfold ipInput at h
  cases hl : linkInput f with
  | none => rw [hl] at h; cases h
  | some eb =>
    obtain ⟨e, b⟩ := eb
    obtain ⟨q1, q2⟩ := linkInput_more z hl
    rw [hl] at h
    refine ⟨?_, q2⟩
    unfold ipInput
    rw [q1]
    simp only at h ⊢
    split at h
    · next c => rw [if_pos c]; exact ip4Input_more z h
    · next c =>
      rw [if_neg c]
      split at h
      · next c => rw [if_pos c]; exact ip6Input_more z h
      · cases h

/-- **C98, padding.** Octets after the datagram (the padding to the least length of an Ethernet frame, or a frame check sequence) are
nothing to a host; the parser shows no message of such a frame as it was sent. -/
theorem C98_padding (chk : Bool) (f z : Bytes) (hz : z ≠ []) :
    (∀ m, hostUdp f = some m → hostUdp (f ++ z) = some m ∧ ¬ ∃ p, Slow.parse chk (f ++ z) = .ok p ∧ ShowsUdp p m) ∧
      (∀ m, hostTcp f = some m → hostTcp (f ++ z) = some m ∧ ¬ ∃ p, Slow.parse chk (f ++ z) = .ok p ∧ ShowsTcp p m) ∧
      (∀ m, hostIcmp f = some m → hostIcmp (f ++ z) = some m ∧ ¬ ∃ p, Slow.parse chk (f ++ z) = .ok p ∧ ShowsIcmp p m) := by
  have hz : 0 < z.length := List.length_pos_iff.mpr hz
  refine ⟨fun m h => ?_, fun m h => ?_, fun m h => ?_⟩
  all_goals
    obtain ⟨g, h1, h2⟩ := Option.bind_eq_some_iff.mp h
    obtain ⟨q1, q2, q3⟩ := ipInput_more z h1
    obtain ⟨front, ip, x, y, -, -, hlen, -, -, -, -⟩ := datagram_seen f g h1
  · have hm : hostUdp (f ++ z) = some m := Option.bind_eq_some_iff.mpr ⟨g, q1, h2⟩
    refine ⟨hm, fun hp => ?_⟩
    obtain ⟨e, -⟩ := (C98_udp chk _ m hm).mp hp
    unfold udpInput at h2
    simp only [Option.ite_none_right_eq_some] at h2
    obtain ⟨⟨-, c2, c3, -⟩, h2⟩ := h2
    cases h2
    rw [q2, q3, List.length_append, hlen, List.length_drop, List.length_take] at e
    omega
  · have hm : hostTcp (f ++ z) = some m := Option.bind_eq_some_iff.mpr ⟨g, q1, h2⟩
    refine ⟨hm, fun hp => ?_⟩
    have e := (C98_tcp chk _ m hm).mp hp
    unfold tcpInput at h2
    simp only [Option.ite_none_right_eq_some] at h2
    obtain ⟨⟨-, c2, c3, -⟩, h2⟩ := h2
    cases h2
    rw [q2, q3, List.length_append, hlen, List.length_drop] at e
    omega
  · have hm : hostIcmp (f ++ z) = some m := Option.bind_eq_some_iff.mpr ⟨g, q1, h2⟩
    refine ⟨hm, fun hp => ?_⟩
    have e := (C98_icmp chk _ m hm).mp hp
    unfold icmpInput at h2
    simp only [Option.ite_none_right_eq_some] at h2
    obtain ⟨⟨c1, -⟩, h2⟩ := h2
    cases h2
    rw [q2, q3, List.length_append, hlen, List.length_drop] at e
    omega

/-- Nine zeros bring the sample to the sixty octets of the least Ethernet frame; they end up in the payload. -/
example :
    let f := (Sample.get Sample.udp).to_vec
    hostUdp (f ++ List.replicate 9 0) = hostUdp f ∧ (hostUdp f).isSome ∧ (f ++ List.replicate 9 0).length = 60 ∧
      (Slow.parse true (f ++ List.replicate 9 0)).map (fun p => p.payload) = .ok (Sample.data ++ List.replicate 9 0) := by
  decide +kernel

/-- **C98, the fast parser.** The same of the fast parser. -/
theorem C98_fast (chk : Bool) (w : Fast.Win) (hb : w.InBounds) (Q : Packet → Prop) :
    (∃ s, Fast.parse chk w = .ok s ∧ Q s.toPacket) ↔ ∃ p, Slow.parse chk w.bytes = .ok p ∧ Q p := by
  rw [← C26_parse chk w hb]
  cases Fast.parse chk w with
  | error e => constructor <;> rintro ⟨_, h, _⟩ <;> exact nomatch h
  | ok s =>
    constructor
    · rintro ⟨t, h, q⟩; cases h; exact ⟨_, rfl, q⟩
    · rintro ⟨t, h, q⟩; cases h; exact ⟨_, rfl, q⟩

end PacketRs
