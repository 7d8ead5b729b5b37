import Verif.Props.Checksum
import Verif.Spec.Dissect
/-!
# Property C62: which transmission errors `ipv4_checksum` notices

A receiver that recomputes `ipv4_checksum` of the header and compares with the checksum field.
-/
namespace PacketRs
open Spec

theorem word_eq (d : Bytes) (j : Nat) : word d j = u16At d (2 * j) := by
  unfold word u16At u8At; omega

theorem range_sum_split (f : Nat → Nat) (m k : Nat) (hk : m < k) :
    ((List.range k).map f).sum = f m + ((List.range k).map fun j => if j = m then 0 else f j).sum := by
  induction k with
  | zero => omega
  | succ k ih =>
    simp only [List.range_succ, List.map_append, List.map_cons, List.map_nil, List.sum_append, List.sum_cons,
      List.sum_nil, Nat.add_zero]
    by_cases h : m = k
    · subst h
      have : (List.range m).map (fun j => if j = m then 0 else f j) = (List.range m).map f :=
        List.map_congr_left fun j hj => by
          rw [List.mem_range] at hj
          rw [if_neg (by omega)]
      rw [this, if_pos rfl]; omega
    · rw [ih (by omega), if_neg (Ne.symm h)]; omega

/-- Two byte strings that differ in word `j` at most. -/
theorem plainSum_split {v w : Bytes} (hl : v.length = w.length) {j : Nat} (hj : 2 * j + 1 < v.length) (h5 : j ≠ 5)
    (h : ∀ i, i ≠ 2 * j → i ≠ 2 * j + 1 → v[i]? = w[i]?) :
    ∃ s, plainSum v = s + u16At v (2 * j) ∧ plainSum w = s + u16At w (2 * j) := by
  refine ⟨((List.range ((v.length + 1) / 2)).map fun i => if i = j then 0 else word0 v i).sum, ?_, ?_⟩
  · rw [plainSum_eq, sum0, range_sum_split (word0 v) j _ (by omega), word0, if_neg h5, word_eq]; omega
  · rw [plainSum_eq, sum0, ← hl, range_sum_split (word0 w) j _ (by omega), Nat.add_comm (word0 w j)]
    have e : (List.range ((v.length + 1) / 2)).map (fun i => if i = j then 0 else word0 w i) =
        (List.range ((v.length + 1) / 2)).map (fun i => if i = j then 0 else word0 v i) := by
      refine List.map_congr_left fun i _ => ?_
      by_cases hi : i = j
      · rw [if_pos hi, if_pos hi]
      · rw [if_neg hi, if_neg hi]
        unfold word0 word
        rw [List.getD_eq_getElem?_getD, List.getD_eq_getElem?_getD, List.getD_eq_getElem?_getD,
          List.getD_eq_getElem?_getD, h _ (by omega) (by omega), h _ (by omega) (by omega)]
    rw [e, word0, if_neg h5, word_eq]

theorem u16At_lt_65536 (d : Bytes) (i : Nat) : u16At d i < 65536 := by
  have h1 := (d.getD i 0#8).isLt
  have h2 := (d.getD (i + 1) 0#8).isLt
  unfold u16At u8At
  omega

/-- The checksum as a function of the plain sum. -/
theorem checksum_eq_iff (chk : Bool) (v w : Bytes) (hl : v.length = w.length) (he : v.length % 2 = 0)
    (hb : v.length ≤ 2 ^ 17) : Packet.ipv4_checksum chk v = Packet.ipv4_checksum chk w ↔
      (plainSum v / 65536 + plainSum v) % 65536 = (plainSum w / 65536 + plainSum w) % 65536 := by
  obtain ⟨c, e1, c1⟩ := C39_value chk v he hb
  obtain ⟨c', e2, c2⟩ := C39_value chk w (hl ▸ he) (hl ▸ hb)
  rw [e1, e2, Except.ok.injEq, ← BitVec.toNat_inj, c1, c2]
  omega

/-- **C62**, one 16-bit word changed: the checksum stays the same iff the word is not changed, or changed between
0x0000 and 0xffff while the sum with the word 0x0000 is not a multiple of 2^16. -/
theorem C62_word (chk : Bool) (v w : Bytes) (hl : v.length = w.length) (he : v.length % 2 = 0) (hb : v.length ≤ 2 ^ 17)
    (j : Nat) (hj : 2 * j + 1 < v.length) (h5 : j ≠ 5) (h : ∀ i, i ≠ 2 * j → i ≠ 2 * j + 1 → v[i]? = w[i]?) :
    Packet.ipv4_checksum chk v = Packet.ipv4_checksum chk w ↔
      u16At v (2 * j) = u16At w (2 * j) ∨
      (u16At v (2 * j) = 0 ∧ u16At w (2 * j) = 0xffff ∧ plainSum v % 65536 ≠ 0) ∨
      (u16At w (2 * j) = 0 ∧ u16At v (2 * j) = 0xffff ∧ plainSum w % 65536 ≠ 0) := by
  rw [checksum_eq_iff chk v w hl he hb]
  obtain ⟨s, h1, h2⟩ := plainSum_split hl hj h5 h
  have a := u16At_lt_65536 v (2 * j)
  have b := u16At_lt_65536 w (2 * j)
  rw [h1, h2]
  generalize u16At v (2 * j) = x at *
  generalize u16At w (2 * j) = y at *
  have hs : s = 65536 * (s / 65536) + s % 65536 := by omega
  have hr : s % 65536 < 65536 := by omega
  generalize s / 65536 = q at *
  generalize s % 65536 = r at *
  subst hs
  have f : ∀ z, z < 65536 → (65536 * q + r + z) / 65536 + (65536 * q + r + z) =
      if r + z < 65536 then 65537 * q + r + z else 65537 * q + r + z + 1 := by
    intro z hz
    split <;> omega
  rw [f x a, f y b]
  clear f h h1 h2
  split <;> split <;> omega

/-- The receiver's test: the recomputed checksum is the one in the header. -/
def Accepts (chk : Bool) (v : Bytes) : Prop := ∃ c, Packet.ipv4_checksum chk v = .ok c ∧ c.toNat = u16At v 10

theorem accepts_iff (chk : Bool) (v : Bytes) :
    Accepts chk v ↔ (match Packet.ipv4_checksum chk v with | .ok c => c.toNat == u16At v 10 | .error _ => false) = true := by
  unfold Accepts
  cases Packet.ipv4_checksum chk v <;> simp

instance (chk : Bool) (v : Bytes) : Decidable (Accepts chk v) := decidable_of_iff _ (accepts_iff chk v).symm

theorem u8At_set (v : Bytes) (b i : Nat) (x : Byte) (hb : b < v.length) :
    u8At (v.set b x) i = if i = b then x.toNat else u8At v i := by
  unfold u8At
  simp only [List.getD_eq_getElem?_getD, List.getElem?_set]
  by_cases h : b = i
  · subst h; simp [hb]
  · simp [h, Ne.symm h]

/-- **C62**: change one octet of an accepted header in any way, be it in the checksum field: it is no longer accepted.
(In particular every single bit error is noticed, although the checksum may be the wrong one, see C39.) -/
theorem C62_octet (chk : Bool) (v : Bytes) (he : v.length % 2 = 0) (hb : v.length ≤ 2 ^ 17) (hl : 12 ≤ v.length)
    (ha : Accepts chk v) (b : Nat) (x : Byte) (hlt : b < v.length) (hx : x.toNat ≠ u8At v b) :
    ¬ Accepts chk (v.set b x) := by
  rintro ⟨c', e', h'⟩
  obtain ⟨c, e, h⟩ := ha
  by_cases h5 : b = 10 ∨ b = 11
  · have same : Packet.ipv4_checksum chk v = Packet.ipv4_checksum chk (v.set b x) :=
      C40_ignores_checksum_field chk v _ (by simp) fun i h1 h2 => by
        rw [List.getElem?_set_ne (by omega)]
    rw [e, e'] at same
    obtain rfl := Except.ok.inj same
    have : u16At (v.set b x) 10 ≠ u16At v 10 := by
      have k : ∀ i, u8At v i < 256 := fun i => (v.getD i 0#8).isLt
      have k1 := k 10
      have k2 := k 11
      have kx := x.isLt
      unfold u16At
      rw [u8At_set v b _ x hlt, u8At_set v b _ x hlt]
      rcases h5 with rfl | rfl <;> simp <;> omega
    exact this (h'.symm.trans h)
  · have keep : u16At (v.set b x) 10 = u16At v 10 := by
      unfold u16At
      rw [u8At_set v b _ x hlt, u8At_set v b _ x hlt, if_neg (by omega), if_neg (by omega)]
    have same : Packet.ipv4_checksum chk v = Packet.ipv4_checksum chk (v.set b x) := by
      rw [e, e', Except.ok.injEq, ← BitVec.toNat_inj, h, h', keep]
    rw [C62_word chk v _ (by simp) he hb (b / 2) (by omega) (by omega) (fun i h1 h2 => by
      rw [List.getElem?_set_ne (by omega)])] at same
    have k : ∀ i, u8At v i < 256 := fun i => (v.getD i 0#8).isLt
    have k1 := k (2 * (b / 2))
    have k2 := k (2 * (b / 2) + 1)
    have kx := x.isLt
    unfold u16At at same
    rw [u8At_set v b _ x hlt, u8At_set v b _ x hlt] at same
    rcases Nat.mod_two_eq_zero_or_one b with hm | hm
    · have e0 : 2 * (b / 2) = b := by omega
      rw [e0] at same k1 k2
      rw [if_pos rfl, if_neg (by omega)] at same
      omega
    · have e1 : 2 * (b / 2) + 1 = b := by omega
      rw [e1] at same k2
      rw [if_pos rfl, if_neg (by omega)] at same
      omega

theorem sum_perm {l m : List Nat} (h : l.Perm m) : l.sum = m.sum := by
  induction h with
  | nil => rfl
  | cons a _ ih => simp [ih]
  | swap a b l => simp only [List.sum_cons]; omega
  | trans _ _ h1 h2 => exact h1.trans h2

/-- **C62**: the order of the words other than the checksum does not matter, so exchanged words are never noticed. -/
theorem C62_order (chk : Bool) (v w : Bytes) (hl : v.length = w.length) (he : v.length % 2 = 0) (hb : v.length ≤ 2 ^ 17)
    (h : (words (putChecksum v 0)).Perm (words (putChecksum w 0))) :
    Packet.ipv4_checksum chk v = Packet.ipv4_checksum chk w := by
  rw [checksum_eq_iff chk v w hl he hb, show plainSum v = plainSum w from sum_perm h]

/-- A 20 byte header with the checksum computed by the code. -/
def sealedHdr : Bytes := putChecksum carryHdr 0xffff

example : Accepts true sealedHdr ∧ sealedHdr.length % 2 = 0 ∧ sealedHdr.length ≤ 2 ^ 17 ∧ 12 ≤ sealedHdr.length := by
  decide +kernel
-- one flipped bit
example : ¬ Accepts true (sealedHdr.set 16 (sealedHdr.getD 16 0 ^^^ 0x20)) :=
  C62_octet true sealedHdr (by decide) (by decide) (by decide) (by decide +kernel) 16 _ (by decide) (by decide +kernel)
-- a word changed from 0x0000 to 0xffff is not noticed
example : u16At sealedHdr 6 = 0 ∧ Accepts true ((sealedHdr.set 6 0xff).set 7 0xff) := by decide +kernel
-- source and destination exchanged
example : Accepts true (sealedHdr.take 12 ++ (sealedHdr.drop 16 ++ (sealedHdr.drop 12).take 4)) := by decide +kernel

end PacketRs
