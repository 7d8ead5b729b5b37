import Verif.Props.Depth
import Verif.Lemmas.CostFast
/-!
# C81: what parsing costs
-/
namespace PacketRs
open Spec
open Cost (Charged)

theorem two_tri (n : Nat) : 2 * tri n + n = n * n := by
  induction n with
  | zero => rfl
  | succ n ih =>
    show 2 * (tri n + n) + (n + 1) = (n + 1) * (n + 1)
    simp only [Nat.add_mul, Nat.mul_add]; omega

theorem tri_mono {m n : Nat} (h : m ≤ n) : tri m ≤ tri n := by
  induction h with
  | refl => exact Nat.le_refl _
  | step _ ih => exact Nat.le_trans ih (Nat.le_add_right _ _)

namespace Cost

theorem Slow.parse_rel (chk : Bool) (b : Bytes) :
    Rel tys (fun _ => True) 1 b.length 0 0 (Slow.parse chk b) (PacketRs.Slow.parse chk b) := by
  unfold Slow.parse PacketRs.Slow.parse
  refine Rel.free (by omega) (by omega) fun x _ => ?_
  refine Rel.free (by omega) (by omega) fun y _ => ?_
  dsimp only
  split
  · exact (Slow.dot3_rel b).mono fun _ _ => trivial
  · exact (Slow.ether_rel chk b).mono fun _ _ => trivial

theorem Fast.parse_rel (chk : Bool) (w : Fast.Win) :
    Rel Fast.tys (fun _ => True) 0 w.len 0 0 (Fast.parse chk w) (PacketRs.Fast.parse chk w) := by
  unfold Fast.parse PacketRs.Fast.parse
  refine Rel.free (by omega) (by omega) fun x _ => ?_
  refine Rel.free (by omega) (by omega) fun y _ => ?_
  dsimp only
  split
  · exact (Fast.dot3_rel w).mono fun _ _ => trivial
  · exact (Fast.ether_rel chk w).mono fun _ _ => trivial

end Cost

/-- The least number of bytes that headers beginning with this layer need besides four bytes each. -/
def slack : Layer → Nat
  | .ether => 10
  | .dot3 => 9
  | _ => 0

theorem next_ne_llc (v : Nat) : etherNext v ≠ .llc ∧ ipv4Next v ≠ .llc ∧ ipv6Next v ≠ .llc ∧ greNext v ≠ .llc ∧ bosNext v ≠ .llc := by
  refine ⟨?_, ?_, ?_, ?_, ?_⟩
  · unfold etherNext; repeat' split
    all_goals decide
  · unfold ipv4Next; repeat' split
    all_goals decide
  · unfold ipv6Next; repeat' split
    all_goals decide
  · unfold greNext; repeat' split
    all_goals decide
  · unfold bosNext; repeat' split
    all_goals decide

theorem headers_le (chk : Bool) (l : Layer) (b : Bytes) (p : Packet) (h : Slow.parseL chk l b = .ok p) :
    4 * p.hdrs.length + slack l ≤ b.length + (if l = .llc then 1 else 0) := by
  refine parse_induct (M := fun l b p => 4 * p.hdrs.length + slack l ≤ b.length + (if l = .llc then 1 else 0)) ?_ ?_ l b p h
  · intro b; simp [slack]
  · intro l b hs n l' p e _ ih
    have hn := (dstep_bounds e).2
    have hb : (b.drop n).length = b.length - n := List.length_drop
    rw [hb] at ih
    have key : 4 * hs.length + slack l + (if l' = .llc then 1 else 0) ≤ n + (if l = .llc then 1 else 0) := by
      have one_key : ∀ {T : HeaderDef} {L : Layer}, one T b L = some (hs, n, l') → hs.length = 1 ∧ n = T.size ∧ l' = L := by
        intro T L e
        unfold one at e
        split at e
        · injection e with e; injection e with e1 e2; injection e2 with e2 e3
          exact ⟨by rw [← e1]; rfl, e2.symm, e3.symm⟩
        · exact nomatch e
      cases l <;> simp only [dstep] at e
      case payload => exact nomatch e
      case mplsBos =>
        split at e
        · obtain ⟨h1, h2, h3⟩ := one_key e
          rw [h1, h2, if_neg (by rw [h3]; exact (next_ne_llc _).2.2.2.2)]; decide
        · exact nomatch e
      case gre =>
        split at e
        · injection e with e; injection e with e1 e2; injection e2 with e2 e3
          rw [← e1, ← e2, if_neg (by rw [← e3]; exact (next_ne_llc _).2.2.2.1)]
          cases bitAt b 0 7 <;> cases bitAt b 0 5 <;> cases bitAt b 0 4 <;> simp [optAt, optLen, slack]
        · exact nomatch e
      case erspan3 =>
        split at e
        · injection e with e; injection e with e1 e2; injection e2 with e2 e3
          rw [← e1, ← e2, ← e3]
          cases bitAt b 11 0 <;> simp [optAt, optLen, slack]
        · exact nomatch e
      all_goals
        obtain ⟨h1, h2, h3⟩ := one_key e
        rw [h1, h2]
      case ether => rw [if_neg (by rw [h3]; exact (next_ne_llc _).1)]; decide
      case vlan => rw [if_neg (by rw [h3]; exact (next_ne_llc _).1)]; decide
      case ipv4 => rw [if_neg (by rw [h3]; exact (next_ne_llc _).2.1)]; decide
      case ipv6 => rw [if_neg (by rw [h3]; exact (next_ne_llc _).2.2.1)]; decide
      case mpls => rw [if_neg (by rw [h3]; split <;> decide)]; decide
      case udp => rw [if_neg (by rw [h3]; split <;> decide)]; decide
      case llc => rw [if_neg (by rw [h3]; split <;> decide)]; decide
      all_goals subst h3; decide
    simp only [prep, List.length_append] 
    omega

/-- **C81, what is counted is what is done**: leaving out the counts gives the parsers, for all inputs. -/
theorem C81_same (chk : Bool) (b : Bytes) (w : Fast.Win) :
    (Cost.Slow.parse chk b).val = Slow.parse chk b ∧ (Cost.Fast.parse chk w).val = Fast.parse chk w :=
  ⟨(Cost.Slow.parse_rel chk b).val, (Cost.Fast.parse_rel chk w).val⟩

/-- **C81, accepted frames.** Every byte is copied exactly once, `k` headers are moved `0 + 1 + ... + (k - 1)` times, and what is
read is the fields that say what comes next. -/
theorem C81_accepted (chk : Bool) (b : Bytes) (p : Packet) (h : Slow.parse chk b = .ok p) :
    (Cost.Slow.parse chk b).cost =
      { copied := b.length, moved := tri p.hdrs.length, bits := lookedAll (p.hdrs.map (·.ty)) } := by
  obtain ⟨h1, h2, h3, -⟩ := (Cost.Slow.parse_rel chk b).ok p h
  generalize (Cost.Slow.parse chk b).cost = c at *
  cases c
  simp only [Cost.tys, List.length_map] at h1 h2 h3
  congr 1 <;> omega

/-- **C81, accepted frames**, for the zero-copy parser: nothing is copied, the rest is the same. -/
theorem C81_accepted_fast (chk : Bool) (w : Fast.Win) (p : Fast.PacketSlice) (h : Fast.parse chk w = .ok p) :
    (Cost.Fast.parse chk w).cost =
      { copied := 0, moved := tri p.hdrs.length, bits := lookedAll (p.hdrs.map (·.ty)) } := by
  obtain ⟨h1, h2, h3, -⟩ := (Cost.Fast.parse_rel chk w).ok p h
  generalize (Cost.Fast.parse chk w).cost = c at *
  cases c
  simp only [Cost.Fast.tys, List.length_map] at h1 h2 h3
  congr 1 <;> omega

/-- **C81, refused frames.** A panic comes before any header is inserted; no byte has been copied twice, and at most five bits per
byte have been read. -/
theorem C81_refused (chk : Bool) (b : Bytes) (e : Fault) (h : Slow.parse chk b = .error e) :
    (Cost.Slow.parse chk b).cost.copied ≤ b.length ∧ (Cost.Slow.parse chk b).cost.moved = 0 ∧
      (Cost.Slow.parse chk b).cost.bits ≤ 5 * b.length := by
  obtain ⟨h1, h2, h3⟩ := (Cost.Slow.parse_rel chk b).err e h
  exact ⟨by omega, h2, by omega⟩

theorem C81_refused_fast (chk : Bool) (w : Fast.Win) (e : Fault) (h : Fast.parse chk w = .error e) :
    (Cost.Fast.parse chk w).cost.copied = 0 ∧ (Cost.Fast.parse chk w).cost.moved = 0 ∧
      (Cost.Fast.parse chk w).cost.bits ≤ 5 * w.len := by
  obtain ⟨h1, h2, h3⟩ := (Cost.Fast.parse_rel chk w).err e h
  exact ⟨by omega, h2, by omega⟩

/-- **C81, how many moves at most**, in terms of the length of the frame. -/
theorem C81_bound (chk : Bool) (b : Bytes) : (Cost.Slow.parse chk b).cost.moved ≤ tri ((b.length - 9) / 4) := by
  cases h : Slow.parse chk b with
  | error e => rw [(C81_refused chk b e h).2.1]; exact Nat.zero_le _
  | ok p =>
    rw [C81_accepted chk b p h]
    apply tri_mono
    rw [Slow.parse_eq] at h
    split at h
    · exact nomatch h
    · have := headers_le chk _ b p h
      split at this <;> simp [slack] at this <;> omega

/-- **C81, the bound is attained**, so the work is quadratic in the length of the frame: for every `n` there is an accepted frame of
`14 + 4 n` bytes for which `n (n + 1) / 2` headers are moved. -/
theorem C81_quadratic (chk : Bool) (n : Nat) : ∃ b p, b.length = 14 + 4 * n ∧ Slow.parse chk b = .ok p ∧
    (Cost.Slow.parse chk b).cost.moved = tri ((b.length - 9) / 4) ∧ 2 * (Cost.Slow.parse chk b).cost.moved = n * (n + 1) ∧
    (Cost.Fast.parse chk (.ofBytes b)).cost.moved = (Cost.Slow.parse chk b).cost.moved := by
  obtain ⟨hs, h1, h2⟩ := dissect_tagged n
  have hp := (C21_parse_frame chk _ _ _).mpr h1
  have hl : hs.length = n + 1 := by
    have := congrArg List.length h2
    simpa using this
  have hb : (Fast.Win.ofBytes (tagged n)).InBounds := by simp [Fast.Win.ofBytes, Fast.Win.InBounds]
  have hbb : (Fast.Win.ofBytes (tagged n)).bytes = tagged n := by simp [Fast.Win.ofBytes, Fast.Win.bytes]
  have hc := C26_parse chk _ hb
  rw [hbb, hp] at hc
  have hm : (Cost.Slow.parse chk (tagged n)).cost.moved = tri (n + 1) := by
    rw [C81_accepted chk _ _ hp]; exact congrArg tri hl
  refine ⟨tagged n, ⟨hs, []⟩, tagged_length n, hp, ?_, ?_, ?_⟩
  · rw [hm, tagged_length]; congr 1; omega
  · rw [hm]
    have := two_tri (n + 1)
    simp only [Nat.add_mul, Nat.mul_add] at this ⊢
    omega
  · cases hq : Fast.parse chk (.ofBytes (tagged n)) with
    | error e => rw [hq] at hc; exact nomatch hc
    | ok q =>
      rw [hq] at hc
      have hlen : q.hdrs.length = hs.length := by
        injection hc with hc
        have := congrArg (fun p : Packet => p.hdrs.length) hc
        simpa [Fast.PacketSlice.toPacket] using this
      rw [C81_accepted_fast chk _ q hq, hm, hlen, hl]

/-- **C81, no linear bound.** -/
theorem C81_not_linear (chk : Bool) (c : Nat) : ∃ b p, Slow.parse chk b = .ok p ∧
    c * b.length < (Cost.Slow.parse chk b).cost.moved := by
  obtain ⟨b, p, h1, h2, -, h3, -⟩ := C81_quadratic chk (8 * c + 28)
  refine ⟨b, p, h2, ?_⟩
  rw [h1]
  have e : (8 * c + 28) * (8 * c + 28 + 1) = 8 * (c * (8 * c + 28)) + 28 * (8 * c + 28) + (8 * c + 28) := by
    rw [Nat.mul_add _ (8 * c + 28) 1, Nat.mul_one, Nat.add_mul, Nat.mul_assoc]
  rw [e] at h3
  have e2 : c * (14 + 4 * (8 * c + 28)) = 14 * c + 4 * (c * (8 * c + 28)) := by
    rw [Nat.mul_add, Nat.mul_left_comm, Nat.mul_comm c 14]
  rw [e2]
  omega

/-! Not vacuous: six headers of 68 bytes and the payload; and the same frame cut in its fifth header, VXLAN. -/
example : (okPkt (Slow.parse true exFrame)).hdrs.length = 6 ∧
    (Cost.Slow.parse true exFrame).cost = { copied := exFrame.length, moved := 15, bits := 72 } ∧
    (Cost.Fast.parse true (.ofBytes exFrame)).cost = { copied := 0, moved := 15, bits := 72 } ∧
    (Cost.Slow.parse true (exFrame.take 50)).cost = { copied := 46, moved := 0, bits := 56 } := by decide +kernel

end PacketRs
