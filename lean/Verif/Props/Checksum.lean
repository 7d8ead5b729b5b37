import Verif.Spec.Checksum
import Verif.Packet
import Verif.Lemmas.Pieces
/-!
# Properties C39, C40: `Packet::ipv4_checksum`
-/
namespace PacketRs
open Spec

/-- Word `j` of a byte string, zero beyond the end. -/
def word (d : Bytes) (j : Nat) : Nat := (d.getD (2 * j) 0#8).toNat * 256 + (d.getD (2 * j + 1) 0#8).toNat

theorem sum_words (d : Bytes) : (words d).sum = ((List.range ((d.length + 1) / 2)).map (word d)).sum := by
  fun_induction words d with
  | case1 => rfl
  | case2 a => simp [word, List.range_succ]
  | case3 a b r ih =>
    rw [show ((a :: b :: r).length + 1) / 2 = (r.length + 1) / 2 + 1 by simp; omega,
      List.range_succ_eq_map, List.map_cons, List.sum_cons, List.sum_cons, ih, List.map_map]
    congr 1

theorem word_lt (d : Bytes) (j : Nat) : word d j < 65536 := by
  unfold word
  have := (d.getD (2 * j) 0#8).isLt
  have := (d.getD (2 * j + 1) 0#8).isLt
  omega

/-- Word `j` as `ipv4_checksum` sees it. -/
def word0 (d : Bytes) (j : Nat) : Nat := if j = 5 then 0 else word d j

theorem word0_lt (d : Bytes) (j : Nat) : word0 d j < 65536 := by
  unfold word0
  have := word_lt d j
  split <;> omega

/-- The first `k` words. -/
def sum0 (d : Bytes) (k : Nat) : Nat := ((List.range k).map (word0 d)).sum

theorem sum0_succ (d : Bytes) (k : Nat) : sum0 d (k + 1) = sum0 d k + word0 d k := by
  simp [sum0, List.range_succ]

theorem sum0_le (d : Bytes) (k : Nat) : sum0 d k ≤ 65535 * k := by
  induction k with
  | zero => simp [sum0]
  | succ k ih => rw [sum0_succ]; have := word0_lt d k; omega

theorem length_putChecksum (d : Bytes) (c : Nat) : (putChecksum d c).length = d.length := by
  simp [putChecksum]

theorem word_putChecksum (d : Bytes) (c j : Nat) (h : 12 ≤ d.length) (hc : c < 65536) :
    word (putChecksum d c) j = if j = 5 then c else word d j := by
  unfold word putChecksum
  simp only [List.getD_eq_getElem?_getD, List.getElem?_set]
  by_cases hj : j = 5
  · subst hj
    have h1 : 10 < d.length := by omega
    have h2 : 11 < d.length := by omega
    simp [h1, h2]
    omega
  · rw [if_neg (by omega), if_neg (by omega), if_neg (by omega), if_neg (by omega), if_neg hj]

theorem word_putChecksum_zero (d : Bytes) (j : Nat) : word (putChecksum d 0) j = word0 d j := by
  unfold word0 word putChecksum
  simp only [List.getD_eq_getElem?_getD, List.getElem?_set]
  by_cases hj : j = 5
  · subst hj
    by_cases h1 : 10 < d.length <;> by_cases h2 : 11 < d.length <;> simp [h1, h2] 
  · rw [if_neg (by omega), if_neg (by omega), if_neg (by omega), if_neg (by omega), if_neg hj]

theorem plainSum_eq (d : Bytes) : plainSum d = sum0 d ((d.length + 1) / 2) := by
  unfold plainSum sum0
  rw [sum_words, length_putChecksum]
  congr 2
  funext j
  exact word_putChecksum_zero d j

/-! ## One's complement arithmetic -/

theorem ocFold (l : List Nat) (hl : ∀ x ∈ l, x < 65536) (a : Nat) (ha : a < 65536) :
    l.foldl ocAdd a < 65536 ∧ (l.foldl ocAdd a) % 65535 = (a + l.sum) % 65535 ∧
      (l.foldl ocAdd a = 0 ↔ a + l.sum = 0) := by
  induction l generalizing a with
  | nil => simp [ha]
  | cons x l ih =>
    have hx := hl x (by simp)
    have hb : ocAdd a x < 65536 := by unfold ocAdd; split <;> omega
    obtain ⟨i1, i2, i3⟩ := ih (fun y hy => hl y (by simp [hy])) _ hb
    have e : ocAdd a x % 65535 = (a + x) % 65535 := by unfold ocAdd; split <;> omega
    have z : ocAdd a x = 0 ↔ a + x = 0 := by unfold ocAdd; split <;> omega
    refine ⟨i1, ?_, ?_⟩
    · rw [List.foldl_cons, i2, List.sum_cons]; omega
    · rw [List.foldl_cons, i3, List.sum_cons]; omega

theorem words_lt (d : Bytes) : ∀ x ∈ words d, x < 65536 := by
  fun_induction words d with
  | case1 => simp
  | case2 a => have := a.isLt; simp; omega
  | case3 a b r ih =>
    have := a.isLt
    have := b.isLt
    intro x hx
    rcases List.mem_cons.1 hx with h | h
    · omega
    · exact ih x h

theorem verifies_iff (d : Bytes) : Verifies d ↔ (words d).sum ≠ 0 ∧ (words d).sum % 65535 = 0 := by
  obtain ⟨h1, h2, h3⟩ := ocFold (words d) (words_lt d) 0 (by omega)
  unfold Verifies ocSum
  rw [Nat.zero_add] at h2 h3
  constructor
  · intro h
    rw [h] at h2 h3
    refine ⟨fun h0 => ?_, by omega⟩
    have := h3.2 h0
    omega
  · intro ⟨a, b⟩
    have : (words d).foldl ocAdd 0 ≠ 0 := fun h => a (h3.1 h)
    omega

theorem range_sum_if (f : Nat → Nat) (c k : Nat) (hk : 5 < k) :
    ((List.range k).map fun j => if j = 5 then c else f j).sum =
      c + ((List.range k).map fun j => if j = 5 then 0 else f j).sum := by
  induction k with
  | zero => omega
  | succ k ih =>
    simp only [List.range_succ, List.map_append, List.map_cons, List.map_nil, List.sum_append, List.sum_cons,
      List.sum_nil, Nat.add_zero]
    by_cases h : k = 5
    · subst h
      simp [List.range_succ]
      omega
    · rw [ih (by omega), if_neg h, if_neg h]; omega

theorem sum_putChecksum (d : Bytes) (c : Nat) (h : 12 ≤ d.length) (hc : c < 65536) :
    (words (putChecksum d c)).sum = c + plainSum d := by
  rw [sum_words, plainSum_eq, length_putChecksum]
  have : word (putChecksum d c) = fun j => if j = 5 then c else word d j := by
    funext j; exact word_putChecksum d c j h hc
  rw [this, range_sum_if _ _ _ (by omega)]
  rfl

/-! ## The loops -/

theorem checksumStep_ok (chk : Bool) (v : Bytes) (s j : Nat) (hl : 2 * j + 1 < v.length ∨ j = 5)
    (hs : s + word0 v j < 2 ^ 32) :
    Packet.checksumStep chk v (BitVec.ofNat 32 s) (2 * j) = .ok (BitVec.ofNat 32 (s + word0 v j)) := by
  unfold Packet.checksumStep
  by_cases h5 : j = 5
  · subst h5; simp [word0, pure, Except.pure]
  · have hl : 2 * j + 1 < v.length := by omega
    rw [if_neg (by omega), index_ok v _ (by omega), index_ok v _ hl]
    simp only [bind, Except.bind]
    have hw : (((v.getD (2 * j) 0#8).setWidth 16 <<< 8).setWidth 32 ||| (v.getD (2 * j + 1) 0#8).setWidth 32 : U32)
        = BitVec.ofNat 32 (word0 v j) := by
      apply BitVec.eq_of_toNat_eq
      have h1 := (v.getD (2 * j) 0#8).isLt
      have h2 := (v.getD (2 * j + 1) 0#8).isLt
      simp only [BitVec.toNat_or, BitVec.toNat_setWidth, BitVec.toNat_shiftLeft, Nat.shiftLeft_eq, BitVec.toNat_ofNat,
        word0, if_neg h5, word]
      generalize (v.getD (2 * j) 0#8).toNat = a at *
      generalize (v.getD (2 * j + 1) 0#8).toNat = b at *
      rw [show a % 2 ^ 16 * 2 ^ 8 % 2 ^ 16 % 2 ^ 32 = 2 ^ 8 * a by omega, show b % 2 ^ 32 = b by omega,
        ← Nat.two_pow_add_eq_or_of_lt (i := 8) (by omega)]
      omega
    rw [hw]
    have hlt := word0_lt v j
    have : (BitVec.ofNat 32 s).toNat + (BitVec.ofNat 32 (word0 v j)).toNat < 2 ^ 32 := by
      simp only [BitVec.toNat_ofNat]; omega
    rw [if_pos this, BitVec.ofNat_add]
    rfl

theorem checksumLoop_ok (chk : Bool) (v : Bytes) (k : Nat) (hl : ∀ j < k, 2 * j + 1 < v.length ∨ j = 5)
    (hs : sum0 v k < 2 ^ 32) :
    (List.range' 0 k 2).foldlM (Packet.checksumStep chk v) 0#32 = .ok (BitVec.ofNat 32 (sum0 v k)) := by
  induction k with
  | zero => rfl
  | succ k ih =>
    rw [sum0_succ] at hs
    rw [List.range'_concat, List.foldlM_append, ih (fun j hj => hl j (by omega)) (by omega)]
    simp only [Nat.zero_add, List.foldlM_cons, List.foldlM_nil, bind, Except.bind]
    rw [checksumStep_ok chk v _ k (hl k (by omega)) hs, sum0_succ]
    rfl

theorem and_ffff (n : Nat) : n &&& 65535 = n % 65536 := Nat.and_two_pow_sub_one_eq_mod n 16

theorem foldLoop_ok (chk : Bool) (s : Nat) (h : s + s / 65536 < 2 ^ 32) :
    Packet.foldLoop chk (BitVec.ofNat 32 s) = .ok (BitVec.ofNat 32 ((s / 65536 + s) % 65536)) := by
  have hn : (BitVec.ofNat 32 s >>> 16).toNat = s / 65536 := by
    simp only [BitVec.toNat_ushiftRight, BitVec.toNat_ofNat, Nat.shiftRight_eq_div_pow]; omega
  have small : ∀ t, t < 65536 → Packet.foldLoop chk (BitVec.ofNat 32 t) = .ok (BitVec.ofNat 32 t) := by
    intro t ht
    unfold Packet.foldLoop
    rw [dif_neg]
    intro hc
    apply hc
    apply BitVec.eq_of_toNat_eq
    simp only [BitVec.toNat_ushiftRight, BitVec.toNat_ofNat, Nat.shiftRight_eq_div_pow]
    have : (0 : U32).toNat = 0 := rfl
    omega
  by_cases hs : s < 65536
  · rw [small s hs]; congr 2; omega
  · unfold Packet.foldLoop
    rw [dif_pos]
    · rw [if_neg]
      · have : ((BitVec.ofNat 32 s >>> 16) + BitVec.ofNat 32 s) &&& 65535#32
            = BitVec.ofNat 32 ((s / 65536 + s) % 65536) := by
          apply BitVec.eq_of_toNat_eq
          rw [BitVec.toNat_and, BitVec.toNat_add, hn]
          simp only [BitVec.toNat_ofNat]
          rw [show 65535 % 2 ^ 32 = 65535 by rfl, and_ffff]
          omega
        rw [this, small _ (by omega)]
      · rw [hn]
        simp only [BitVec.toNat_ofNat]
        omega
    · intro hc
      rw [hc] at hn
      simp at hn
      omega

/-- The number of words the loop reads. -/
theorem checksum_eq (chk : Bool) (v : Bytes) (hl : v.length % 2 = 0 ∨ v.length = 11) (hb : v.length ≤ 2 ^ 17) :
    Packet.ipv4_checksum chk v =
      .ok (BitVec.ofNat 16 (65535 - (plainSum v / 65536 + plainSum v) % 65536)) := by
  unfold Packet.ipv4_checksum
  have hb2 := sum0_le v ((v.length + 1) / 2)
  rw [checksumLoop_ok chk v _ (fun j hj => by omega) (by omega), ← plainSum_eq] 
  rw [← plainSum_eq] at hb2
  simp only [bind, Except.bind]
  rw [foldLoop_ok chk _ (by omega)]
  simp only [pure, Except.pure]
  congr 1
  apply BitVec.eq_of_toNat_eq
  simp only [BitVec.toNat_not, BitVec.toNat_setWidth, BitVec.toNat_ofNat]
  omega

/-- Folding once, with and without a carry. -/
theorem fold_once (s : Nat) (h : s < 2 ^ 32) :
    (s / 65536 + s % 65536 < 65536 →
      65535 - (s / 65536 + s) % 65536 + s = 65535 * (s / 65536 + 1)) ∧
    (65536 ≤ s / 65536 + s % 65536 → (s / 65536 + s) % 65536 < 65535 ∧
      65535 - (s / 65536 + s) % 65536 + s = 65535 * (s / 65536 + 2) + 1) := by
  omega

/-! ## C39 -/

/-- **C39**: for every buffer of even length at most `2^17` the function returns, in both overflow-check
profiles, the complement of the word sum folded once. -/
theorem C39_value (chk : Bool) (v : Bytes) (he : v.length % 2 = 0) (hb : v.length ≤ 2 ^ 17) :
    ∃ c, Packet.ipv4_checksum chk v = .ok c ∧
      c.toNat = 65535 - (plainSum v / 65536 + plainSum v) % 65536 := by
  refine ⟨_, checksum_eq chk v (.inl he) hb, ?_⟩
  rw [BitVec.toNat_ofNat]
  omega

/-- **C39**: the stored checksum makes the header verify iff folding the sum once does not carry. -/
theorem C39_correct_iff (chk : Bool) (v : Bytes) (he : v.length % 2 = 0) (hl : 12 ≤ v.length)
    (hb : v.length ≤ 2 ^ 17) :
    ∃ c, Packet.ipv4_checksum chk v = .ok c ∧
      (Verifies (putChecksum v c.toNat) ↔ plainSum v / 65536 + plainSum v % 65536 < 65536) := by
  obtain ⟨c, h1, h2⟩ := C39_value chk v he hb
  refine ⟨c, h1, ?_⟩
  have hs := sum0_le v ((v.length + 1) / 2)
  rw [← plainSum_eq] at hs
  obtain ⟨f1, f2⟩ := fold_once (plainSum v) (by omega)
  rw [verifies_iff, sum_putChecksum v _ hl (by omega), h2]
  constructor
  · intro ⟨_, h⟩
    by_cases hc : plainSum v / 65536 + plainSum v % 65536 < 65536
    · exact hc
    · rw [(f2 (by omega)).2] at h
      omega
  · intro hc
    rw [f1 hc]
    omega

/-- **C39**: when folding carries, the returned checksum is too large by exactly one. -/
theorem C39_off_by_one (chk : Bool) (v : Bytes) (he : v.length % 2 = 0) (hl : 12 ≤ v.length)
    (hb : v.length ≤ 2 ^ 17) (hc : 65536 ≤ plainSum v / 65536 + plainSum v % 65536) :
    ∃ c, Packet.ipv4_checksum chk v = .ok c ∧ 1 ≤ c.toNat ∧ ¬ Verifies (putChecksum v c.toNat) ∧
      Verifies (putChecksum v (c.toNat - 1)) := by
  obtain ⟨c, h1, h2⟩ := C39_value chk v he hb
  have hs := sum0_le v ((v.length + 1) / 2)
  rw [← plainSum_eq] at hs
  obtain ⟨f3, f2⟩ := (fold_once (plainSum v) (by omega)).2 hc
  refine ⟨c, h1, by omega, ?_, ?_⟩
  · rw [verifies_iff, sum_putChecksum v _ hl (by omega), h2, f2]
    omega
  · rw [verifies_iff, sum_putChecksum v _ hl (by omega), h2]
    rw [show 65535 - (plainSum v / 65536 + plainSum v) % 65536 - 1 + plainSum v
      = 65535 * (plainSum v / 65536 + 2) by omega]
    omega

/-- **C39**: headers whose word sum fits 16 bits always get a right checksum. -/
theorem C39_small_sums (chk : Bool) (v : Bytes) (he : v.length % 2 = 0) (hl : 12 ≤ v.length)
    (hb : v.length ≤ 2 ^ 17) (hc : plainSum v < 65536) :
    ∃ c, Packet.ipv4_checksum chk v = .ok c ∧ Verifies (putChecksum v c.toNat) := by
  obtain ⟨c, h1, h2⟩ := C39_correct_iff chk v he hl hb
  exact ⟨c, h1, h2.2 (by omega)⟩

/-- A 20 byte header (10.255.255.240 to 10.0.101.205, total length 60) whose sum carries when folded. -/
def carryHdr : Bytes := [0x45#8, 0#8, 0#8, 0x3c#8, 0#8, 1#8, 0#8, 0#8, 0x40#8, 6#8, 0#8, 0#8,
  0x0a#8, 0xff#8, 0xff#8, 0xf0#8, 0x0a#8, 0x00#8, 0x65#8, 0xcd#8]

-- both sides of C39 occur
example : plainSum carryHdr = 0x1ffff ∧ (Packet.ipv4_checksum true carryHdr) = .ok 0xffff#16 ∧
    ¬ Verifies (putChecksum carryHdr 0xffff) ∧ Verifies (putChecksum carryHdr 0xfffe) := by decide +kernel
example : (Packet.ipv4_checksum true (carryHdr.set 19 0xcc#8)) = .ok 0#16 ∧
    Verifies (putChecksum (carryHdr.set 19 0xcc#8) 0) := by decide +kernel

/-! ## C40 -/

/-- **C40**: the result (value or panic) does not depend on bytes 10 and 11. -/
theorem C40_ignores_checksum_field (chk : Bool) (v w : Bytes) (hl : v.length = w.length)
    (h : ∀ i, i ≠ 10 → i ≠ 11 → v[i]? = w[i]?) : Packet.ipv4_checksum chk v = Packet.ipv4_checksum chk w := by
  unfold Packet.ipv4_checksum
  rw [hl]
  congr 1
  -- every index the loop visits is even
  have : ∀ n k s, (List.range' (2 * k) n 2).foldlM (Packet.checksumStep chk v) s =
      (List.range' (2 * k) n 2).foldlM (Packet.checksumStep chk w) s := by
    intro n
    induction n with
    | zero => intro k s; rfl
    | succ n ih =>
      intro k s
      rw [List.range'_succ, List.foldlM_cons, List.foldlM_cons, show 2 * k + 2 = 2 * (k + 1) by omega]
      have e : Packet.checksumStep chk v s (2 * k) = Packet.checksumStep chk w s (2 * k) := by
        unfold Packet.checksumStep
        by_cases h5 : 2 * k = 10
        · rw [if_pos h5, if_pos h5]
        · rw [if_neg h5, if_neg h5]
          unfold index
          rw [h (2 * k) h5 (by omega), h (2 * k + 1) (by omega) (by omega)]
      rw [e]
      congr 1
      funext s'
      exact ih (k + 1) s'
  exact this _ 0 _

example : Packet.ipv4_checksum true carryHdr = Packet.ipv4_checksum true (putChecksum carryHdr 0x1234) :=
  C40_ignores_checksum_field true _ _ rfl (by
    intro i h1 h2
    simp [putChecksum, Ne.symm h1, Ne.symm h2])

/-- **C40**: the call panics iff the length is odd and different from 11. -/
theorem C40_panics_iff (chk : Bool) (v : Bytes) (hb : v.length ≤ 2 ^ 17) :
    (∃ e, Packet.ipv4_checksum chk v = .error e) ↔ v.length % 2 = 1 ∧ v.length ≠ 11 := by
  constructor
  · intro ⟨e, he⟩
    by_cases h : v.length % 2 = 0 ∨ v.length = 11
    · rw [checksum_eq chk v h hb] at he; cases he
    · omega
  · intro ⟨h1, h2⟩
    obtain ⟨k, hk⟩ : ∃ k, v.length = 2 * k + 1 := ⟨v.length / 2, by omega⟩
    have hk5 : k ≠ 5 := by omega
    refine ⟨.index, ?_⟩
    have hs := sum0_le v k
    unfold Packet.ipv4_checksum
    rw [show (v.length + 1) / 2 = k + 1 by omega, List.range'_concat, List.foldlM_append,
      checksumLoop_ok chk v k (fun j hj => by omega) (by omega)]
    simp only [Nat.zero_add, List.foldlM_cons, List.foldlM_nil, bind, Except.bind]
    have : Packet.checksumStep chk v (BitVec.ofNat 32 (sum0 v k)) (2 * k) = .error .index := by
      unfold Packet.checksumStep
      rw [if_neg (by omega), index_ok v _ (by omega)]
      simp only [bind, Except.bind]
      have : index v (2 * k + 1) = .error .index := by
        unfold index
        rw [List.getElem?_eq_none (by omega)]
      rw [this]
    rw [this]

example : Packet.ipv4_checksum true [1#8, 2#8, 3#8] = .error .index ∧
    Packet.ipv4_checksum true (carryHdr.take 11) = .ok 0x7abc#16 ∧
    Packet.ipv4_checksum true [] = .ok 0xffff#16 := by decide +kernel

end PacketRs
