import Verif.TestVerify
import Verif.Props.BuildersSum
import Mathlib.Tactic.Ring
/-!
# Property C92: the checksum check of the repository's tests
-/
namespace PacketRs
open Spec Utils RepoTests

theorem verifyStep_ok (chk : Bool) (v : Bytes) (s j : Nat) (hl : 2 * j + 1 < v.length) (hs : s + word v j < 2 ^ 32) :
    verifyStep chk v (BitVec.ofNat 32 s) (2 * j) = .ok (BitVec.ofNat 32 (s + word v j)) := by
  unfold verifyStep
  rw [index_ok v _ (by omega), index_ok v _ hl]
  simp only [bind, Except.bind]
  have hw : (((v.getD (2 * j) 0#8).setWidth 16 <<< 8).setWidth 32 ||| (v.getD (2 * j + 1) 0#8).setWidth 32 : U32)
      = BitVec.ofNat 32 (word v j) := by
    apply BitVec.eq_of_toNat_eq
    have h1 := (v.getD (2 * j) 0#8).isLt
    have h2 := (v.getD (2 * j + 1) 0#8).isLt
    simp only [BitVec.toNat_or, BitVec.toNat_setWidth, BitVec.toNat_shiftLeft, Nat.shiftLeft_eq, BitVec.toNat_ofNat, word]
    generalize (v.getD (2 * j) 0#8).toNat = a at *
    generalize (v.getD (2 * j + 1) 0#8).toNat = b at *
    rw [show a % 2 ^ 16 * 2 ^ 8 % 2 ^ 16 % 2 ^ 32 = 2 ^ 8 * a by omega, show b % 2 ^ 32 = b by omega,
      ← Nat.two_pow_add_eq_or_of_lt (i := 8) (by omega)]
    omega
  rw [hw]
  have hlt := word_lt v j
  have : (BitVec.ofNat 32 s).toNat + (BitVec.ofNat 32 (word v j)).toNat < 2 ^ 32 := by
    simp only [BitVec.toNat_ofNat]; omega
  rw [if_pos this, BitVec.ofNat_add]
  rfl

/-- The sum of the first `k` words. -/
def sumW (d : Bytes) (k : Nat) : Nat := ((List.range k).map (word d)).sum

theorem sumW_succ (d : Bytes) (k : Nat) : sumW d (k + 1) = sumW d k + word d k := by simp [sumW, List.range_succ]

theorem sumW_le (d : Bytes) (k : Nat) : sumW d k ≤ 65535 * k := by
  induction k with
  | zero => simp [sumW]
  | succ k ih => rw [sumW_succ]; have := word_lt d k; omega

theorem verifyLoop_ok (chk : Bool) (v : Bytes) (k : Nat) (hl : 2 * k ≤ v.length) (hs : sumW v k < 2 ^ 32) :
    (List.range' 0 k 2).foldlM (verifyStep chk v) 0#32 = .ok (BitVec.ofNat 32 (sumW v k)) := by
  induction k with
  | zero => rfl
  | succ k ih =>
    rw [sumW_succ] at hs
    rw [List.range'_concat, List.foldlM_append, ih (by omega) (by omega)]
    simp only [Nat.zero_add, List.foldlM_cons, List.foldlM_nil, bind, Except.bind]
    rw [verifyStep_ok chk v _ k (by omega) hs, sumW_succ]
    rfl

/-- **C92**: on buffers of even length up to `2^17` the check returns the complement of the word sum folded once. -/
theorem C92_value (chk : Bool) (v : Bytes) (he : v.length % 2 = 0) (hb : v.length ≤ 2 ^ 17) :
    ∃ c, ipv4_checksum_verify chk v = .ok c ∧
      c.toNat = 65535 - ((words v).sum / 65536 + (words v).sum) % 65536 := by
  have e : (words v).sum = sumW v ((v.length + 1) / 2) := sum_words v
  have hs := sumW_le v ((v.length + 1) / 2)
  unfold ipv4_checksum_verify
  rw [verifyLoop_ok chk v _ (by omega) (by omega), ← e]
  rw [← e] at hs
  simp only [bind, Except.bind]
  rw [foldLoop_ok chk _ (by omega)]
  refine ⟨_, rfl, ?_⟩
  simp only [BitVec.toNat_not, BitVec.toNat_setWidth, BitVec.toNat_ofNat]
  omega

/-- **C92**: it panics exactly on buffers of odd length. -/
theorem C92_panics_iff (chk : Bool) (v : Bytes) (hb : v.length ≤ 2 ^ 17) :
    (∃ e, ipv4_checksum_verify chk v = .error e) ↔ v.length % 2 = 1 := by
  constructor
  · intro ⟨e, he⟩
    by_cases h : v.length % 2 = 0
    · obtain ⟨c, h', -⟩ := C92_value chk v h hb
      rw [h'] at he; cases he
    · omega
  · intro h1
    obtain ⟨k, hk⟩ : ∃ k, v.length = 2 * k + 1 := ⟨v.length / 2, by omega⟩
    refine ⟨.index, ?_⟩
    have hs := sumW_le v k
    unfold ipv4_checksum_verify
    rw [show (v.length + 1) / 2 = k + 1 by omega, List.range'_concat, List.foldlM_append,
      verifyLoop_ok chk v k (by omega) (by omega)]
    simp only [Nat.zero_add, List.foldlM_cons, List.foldlM_nil, bind, Except.bind]
    unfold verifyStep
    rw [index_ok v _ (by omega), index_err v _ (by omega)]
    rfl

example : ipv4_checksum_verify true [1#8] = .error .index ∧ ipv4_checksum_verify true [1#8, 2#8, 3#8] = .error .index := by
  decide +kernel

theorem fold_right (s : Nat) (hs : s ≤ 65535 * 65536) :
    65535 - (s / 65536 + s) % 65536 = 0 ↔ s ≠ 0 ∧ s % 65535 = 0 := by
  obtain ⟨h, l, hl, rfl⟩ : ∃ h l, l < 65536 ∧ s = 65536 * h + l := ⟨s / 65536, s % 65536, by omega, by omega⟩
  have e1 : (65536 * h + l) / 65536 = h := by omega
  have e2 : (h + (65536 * h + l)) % 65536 = (h + l) % 65536 := by
    rw [show h + (65536 * h + l) = h + l + 65536 * h by ring, Nat.add_mul_mod_self_left]
  have e3 : (65536 * h + l) % 65535 = (h + l) % 65535 := by
    rw [show 65536 * h + l = h + l + 65535 * h by ring, Nat.add_mul_mod_self_left]
  rw [e1, e2, e3]
  have hh : h ≤ 65534 ∨ h = 65535 ∧ l = 0 := by omega
  have hz : 65536 * h + l ≠ 0 ↔ h + l ≠ 0 := by omega
  have ht : h + l ≤ 131069 := by omega
  rw [hz]
  generalize h + l = t at ht
  clear hz e1 e2 e3 hh hs hl
  rcases Nat.lt_or_ge t 65535 with c | c
  · rw [Nat.mod_eq_of_lt c, Nat.mod_eq_of_lt (by omega)]; omega
  · rw [Nat.mod_eq_sub_mod c, Nat.mod_eq_of_lt (a := t - 65535) (by omega)]
    rcases Nat.lt_or_ge t 65536 with c' | c'
    · rw [Nat.mod_eq_of_lt c']; omega
    · rw [Nat.mod_eq_sub_mod c', Nat.mod_eq_of_lt (a := t - 65536) (by omega)]; omega

/-- **C92**: the check is right: although it folds only once, it returns zero exactly on the buffers that verify. -/
theorem C92_right (chk : Bool) (v : Bytes) (he : v.length % 2 = 0) (hb : v.length ≤ 2 ^ 17) :
    ipv4_checksum_verify chk v = .ok 0 ↔ Verifies v := by
  obtain ⟨c, h, hc⟩ := C92_value chk v he hb
  have e : (words v).sum = sumW v ((v.length + 1) / 2) := sum_words v
  have hs := sumW_le v ((v.length + 1) / 2)
  rw [← e] at hs
  rw [h, verifies_iff, Except.ok.injEq, ← BitVec.toNat_inj, hc]
  have : (0 : U16).toNat = 0 := rfl
  rw [this]
  generalize (words v).sum = s at *
  exact fold_right s (by omega)

/-- `pkt["IPv4"]` of a packet with an Ethernet layer in front of an IPv4 header. -/
theorem indexName_ipv4 (d s : Bytes) (ve : Bool) (vid : U16) (pcp : Byte) (et : U16) (data : Bytes) (post : List Hdr)
    (pl : Bytes) : Packet.indexName ⟨l2Hdrs d s ve vid pcp et ++ ⟨IPv4, data⟩ :: post, pl⟩ "IPv4" = .ok ⟨IPv4, data⟩ := by
  unfold Packet.indexName l2Hdrs
  cases ve <;> rfl

/-- **C92**: the IPv4 header of a packet of `create_tcp_packet` is the one `Packet::ipv4` makes of the same arguments. -/
theorem C92_same_header {chk : Bool} {eth_dst eth_src : Str} {ve : Bool} {vid : U16} {pcp ihl : Byte} {src dst : Str}
    {tos ttl : Byte} {id frag : U16} {opts : Bytes} {tdst tsrc : U16} {seq ack : U32} {off res flags : Byte}
    {window urg : U16} {ck : Bool} {payload : Bytes} {p : Packet}
    (h : create_tcp_packet chk eth_dst eth_src ve vid pcp ihl src dst tos ttl id frag opts tdst tsrc seq ack off res flags
      window urg ck payload = .ok p) :
    ∃ ip, p.indexName "IPv4" = .ok ip ∧ ip.ty = IPv4 ∧
      Packet.ipv4 chk ihl tos id ttl frag 6 src dst (BitVec.ofNat 16 (40 + payload.length)) = .ok ip := by
  obtain ⟨⟨⟨d, hd⟩, s, hs⟩, ⟨si, his⟩, di, hid⟩ := (C41_tcp_returns_iff .. ).mp ⟨p, h⟩
  have e := C41_tcp chk _ _ ve vid pcp d s hd hs ⟨ihl, tos, id, ttl, frag, 0#8, si, di⟩ _ _ his hid opts payload tdst tsrc
    seq ack off res flags window urg ck
  obtain rfl := Except.ok.inj (h.symm.trans e)
  refine ⟨_, indexName_ipv4 .., rfl, ?_⟩
  have := packet_ipv4_eq chk (Ip4.withProto ⟨ihl, tos, id, ttl, frag, 0#8, si, di⟩ 6#8) src dst his hid
    (BitVec.ofNat 16 (20 + payload.length + 20))
  rw [show 40 + payload.length = 20 + payload.length + 20 by omega]
  exact this

theorem words_append_four (s d : Bytes) (hs : s.length = 4) : words (s ++ d) = words s ++ words d := by
  match s, hs with
  | [_, _, _, _], _ => rfl

/-- The words other than the checksum of the header `ip_checksum_test` looks at. -/
def testSum (s d : Bytes) (ttl : Byte) : Nat :=
  0x4500 + 140 + 115 + (ttl.toNat * 256 + 6) + (words s).sum + (words d).sum

/-- **C92**: for any two addresses and any time to live the assertions of `ip_checksum_test` hold iff folding the sum of
the header once does not carry.  The third assertion (both constructions store the same checksum) holds in any case. -/
theorem C92_body (chk : Bool) (sip dip : Str) (ttl : Byte) (s d : Bytes) (hs : to_ipv4_bytes sip = .ok s)
    (hd : to_ipv4_bytes dip = .ok d) :
    checksumBody chk sip dip ttl = .ok (decide (testSum s d ttl / 65536 + testSum s d ttl % 65536 < 65536)) := by
  have m1 : to_mac_bytes "00:01:02:03:04:05".toList = .ok [0#8, 1#8, 2#8, 3#8, 4#8, 5#8] := by decide +kernel
  have m2 : to_mac_bytes "00:06:07:08:09:0a".toList = .ok [0#8, 6#8, 7#8, 8#8, 9#8, 10#8] := by decide +kernel
  have e := C41_tcp chk _ _ false 10 3 _ _ m1 m2 ⟨5, 0, 115, ttl, 0, 0#8, s, d⟩ _ _ hs hd [] payload 80 9090 100 101 0 0 1
    0 0 false
  obtain ⟨ip, i1, i2, i3⟩ := C92_same_header e
  have f := packet_ipv4_eq chk ⟨5, 0, 115, ttl, 0, 6#8, s, d⟩ sip dip hs hd 140#16
  have ha : Ip4.Ok ⟨5, 0, 115, ttl, 0, 6#8, s, d⟩ := ⟨C32_length _ _ hs, C32_length _ _ hd⟩
  rw [show BitVec.ofNat 16 (40 + payload.length) = 140#16 from rfl] at i3
  obtain rfl := Except.ok.inj (i3.symm.trans f)
  simp only at e f i3
  generalize ha' : (⟨5, 0, 115, ttl, 0, 6#8, s, d⟩ : Ip4) = a at *
  have hl : (a.hdr 140#16).to_vec.length = 20 := a.raw_length ha _ _
  obtain ⟨c, hc, -⟩ := C92_value chk (a.hdr 140#16).to_vec (by rw [hl]) (by rw [hl]; omega)
  have hr := C92_right chk (a.hdr 140#16).to_vec (by rw [hl]) (by rw [hl]; omega)
  have hv := a.verifies_hdr ha 140#16
  obtain ⟨x, hx, -⟩ := a.reads_ck ha 140#16 (a.ck 140#16) chk
  have hsum : plainSum (a.raw 140#16 (a.ck 140#16)) = testSum s d ttl := by
    rw [a.plainSum_raw, ← ha']
    have hb : Ip4.base ⟨5, 0, 115, ttl, 0, 6#8, s, d⟩ = 0x4500 + 115 + (ttl.toNat * 256 + 6) + (words (s ++ d)).sum := by
      simp only [Ip4.base, Ip4.raw, ipv4Raw, be16, List.cons_append, List.nil_append, words, List.sum_cons]
      simp
      omega
    rw [hb, words_append_four s d (C32_length _ _ hs)]
    simp [testSum]
    omega
  rw [hsum] at hv
  have hdec : decide (testSum s d ttl / 65536 + testSum s d ttl % 65536 < 65536) =
      decide (Verifies (a.raw 140#16 (a.ck 140#16))) := decide_eq_decide.mpr hv.symm
  rw [hdec]
  have i4 : Packet.ipv4 chk 5 0 115 ttl 0 6 sip dip 140 = .ok (a.hdr 140#16) := i3
  unfold checksumBody
  rw [e]
  simp only [bind, Except.bind, i1, i2, hc, i4]
  rw [show (a.hdr 140#16).get chk IPv4.header_checksum = _ from hx]
  rw [hc, Except.ok.injEq] at hr
  have hr' : c = 0 ↔ Verifies (a.raw 140#16 (a.ck 140#16)) := hr
  simp [pure, Except.pure]
  exact hr'

/-- **C92**: `ip_checksum_test` passes, for each of its 25400 combinations. -/
theorem C92_test (chk : Bool) (sip dip : Str) (ttl : Byte) (hs : sip ∈ ips) (hd : dip ∈ ips) :
    checksumBody chk sip dip ttl = .ok true := by
  have key : ∀ x ∈ ips, (to_ipv4_bytes x).toOption.any (fun b => decide ((words b).sum ≤ 10000)) = true := by decide +kernel
  have get : ∀ x ∈ ips, ∃ b, to_ipv4_bytes x = .ok b ∧ (words b).sum ≤ 10000 := by
    intro x hx
    have h := key x hx
    cases e : to_ipv4_bytes x with
    | error _ => rw [e] at h; simp [Except.toOption] at h
    | ok b => rw [e] at h; exact ⟨b, rfl, by simpa [Except.toOption] using h⟩
  obtain ⟨s, h1, b1⟩ := get sip hs
  obtain ⟨d, h2, b2⟩ := get dip hd
  rw [C92_body chk sip dip ttl s d h1 h2]
  have := ttl.isLt
  congr 1
  rw [decide_eq_true_iff]
  unfold testSum
  omega

example : checksumBody true "10.10.10.1".toList "19.19.19.1".toList 254 = .ok true := by decide +kernel

/-- **C92**: with other addresses the test would fail: here the sum is `0x1ffff`. -/
theorem C92_fails : checksumBody true "10.10.255.255".toList "111.240.0.1".toList 64 = .ok false := by decide +kernel
example : testSum [10, 10, 255, 255] [111, 240, 0, 1] 64 = 0x1ffff := by decide +kernel

end PacketRs
