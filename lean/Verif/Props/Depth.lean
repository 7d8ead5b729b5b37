import Verif.Props.Parser
import Verif.Lemmas.StackFast
/-!
# C68: how deep the recursive parsers nest
-/
namespace PacketRs
open Spec

theorem Agree.up {α : Type} {need : α → Nat} {d k : Nat} {x y : R α} (h : Agree need d k x y) :
    Agree (fun p => need p + 1) (d + 1) (k + 1) x y where
  ok p hp := by rw [h.ok p hp]; simp only [Nat.add_le_add_iff_right]
  err := h.err
  enough hk := h.enough (by omega)

theorem Stack.Slow.parse_agree (chk : Bool) (d : Nat) (b : Bytes) :
    Agree (fun p => Stack.Slow.need p + 1) d (max 1 ((b.length - 1) / 4)) (Stack.Slow.parse chk d b) (PacketRs.Slow.parse chk b) := by
  cases d with
  | zero => exact .zero (fun p => by omega) (by omega)
  | succ d =>
    unfold Stack.Slow.parse PacketRs.Slow.parse
    refine .bind fun x _ => .bind fun y hy => ?_
    have hl : 14 ≤ b.length := by
      apply Classical.byContradiction
      intro hc
      rw [index_err _ _ (by omega)] at hy
      exact nomatch hy
    have hk : room (b.length - 14) + 1 + 1 ≤ max 1 ((b.length - 1) / 4) := by unfold room; omega
    dsimp only
    cases d with
    | zero =>
      have : ∀ y, Agree (fun p => Stack.Slow.need p + 1) (0 + 1) (max 1 ((b.length - 1) / 4)) (.error .stack) y := fun y =>
        (Agree.up (.zero (k := 1) Stack.Slow.need_pos (by omega))).mono (by unfold room at hk; omega)
      split
      · exact this _
      · unfold Stack.Slow.parse_ethernet; exact this _
    | succ d =>
      split
      · exact (Stack.Slow.dot3_tight chk d b).up.mono hk
      · exact (Stack.Slow.ethernet_tight chk d b).up.mono hk

theorem Stack.Fast.parse_agree (chk : Bool) (d : Nat) (b : Fast.Win) :
    Agree (fun p => Stack.Fast.need p + 1) d (max 1 ((b.len - 1) / 4)) (Stack.Fast.parse chk d b) (PacketRs.Fast.parse chk b) := by
  cases d with
  | zero => exact .zero (fun p => by omega) (by omega)
  | succ d =>
    unfold Stack.Fast.parse PacketRs.Fast.parse
    refine .bind fun x _ => .bind fun y hy => ?_
    have hl : 14 ≤ b.len := by
      apply Classical.byContradiction
      intro hc
      rw [Fast.Win.index, if_neg (by omega)] at hy
      exact nomatch hy
    have hk : room (b.len - 14) + 1 + 1 ≤ max 1 ((b.len - 1) / 4) := by unfold room; omega
    dsimp only
    cases d with
    | zero =>
      have : ∀ y, Agree (fun p => Stack.Fast.need p + 1) (0 + 1) (max 1 ((b.len - 1) / 4)) (.error .stack) y := fun y =>
        (Agree.up (.zero (k := 1) Stack.Fast.need_pos (by omega))).mono (by unfold room at hk; omega)
      split
      · exact this _
      · unfold Stack.Fast.parse_ethernet; exact this _
    | succ d =>
      split
      · exact (Stack.Fast.dot3_tight chk d b).up.mono hk
      · exact (Stack.Fast.ethernet_tight chk d b).up.mono hk

/-- **C68**: parsing an accepted frame takes exactly one nested call per layer and two more (`parse` and `accept`). With
room for fewer the stack overflows. -/
theorem C68_depth (chk : Bool) (d : Nat) (b : Bytes) (p : Packet) (h : Slow.parse chk b = .ok p) :
    Stack.Slow.parse chk d b = if layers (p.hdrs.map (·.ty)) + 2 ≤ d then .ok p else .error .stack :=
  (Stack.Slow.parse_agree chk d b).ok p h

/-- **C68** for the zero-copy parser. -/
theorem C68_depth_fast (chk : Bool) (d : Nat) (w : Fast.Win) (p : Fast.PacketSlice) (h : Fast.parse chk w = .ok p) :
    Stack.Fast.parse chk d w = if layers (p.hdrs.map (·.ty)) + 2 ≤ d then .ok p else .error .stack :=
  (Stack.Fast.parse_agree chk d w).ok p h

/-- **C68**: whatever the frame and the stack, the parser does what it does on an infinite stack, or the stack
overflows; and it does not overflow if there is room for a quarter as many calls as the frame has bytes. -/
theorem C68_enough (chk : Bool) (d : Nat) (b : Bytes) :
    (Stack.Slow.parse chk d b = Slow.parse chk b ∨ Stack.Slow.parse chk d b = .error .stack) ∧
    (1 ≤ d → (b.length - 1) / 4 ≤ d → Stack.Slow.parse chk d b = Slow.parse chk b) := by
  have h := Stack.Slow.parse_agree chk d b
  refine ⟨?_, fun h1 h2 => h.enough (by omega)⟩
  cases hp : Slow.parse chk b with
  | error e => exact h.err e hp
  | ok p =>
    rw [h.ok p hp]
    split
    · exact .inl rfl
    · exact .inr rfl

/-- **C68** for the zero-copy parser. -/
theorem C68_enough_fast (chk : Bool) (d : Nat) (w : Fast.Win) :
    (Stack.Fast.parse chk d w = Fast.parse chk w ∨ Stack.Fast.parse chk d w = .error .stack) ∧
    (1 ≤ d → (w.len - 1) / 4 ≤ d → Stack.Fast.parse chk d w = Fast.parse chk w) := by
  have h := Stack.Fast.parse_agree chk d w
  refine ⟨?_, fun h1 h2 => h.enough (by omega)⟩
  cases hp : Fast.parse chk w with
  | error e => exact h.err e hp
  | ok p =>
    rw [h.ok p hp]
    split
    · exact .inl rfl
    · exact .inr rfl

/-- A frame with `k` VLAN tags and no payload. -/
def tagged (k : Nat) : Bytes :=
  List.replicate 12 0#8 ++ (List.replicate k [0x81#8, 0#8, 0#8, 0#8]).flatten ++ [0xff#8, 0xff#8]

theorem tagged_length (k : Nat) : (tagged k).length = 14 + 4 * k := by
  simp [tagged, List.length_flatten]; omega

/-- The tags of `tagged`, cut after the type field. -/
def tags : Nat → Bytes
  | 0 => []
  | 1 => [0#8, 0#8, 0xff#8, 0xff#8]
  | k + 2 => [0#8, 0#8, 0x81#8, 0#8] ++ tags (k + 1)

theorem tagged_succ (k : Nat) : tagged (k + 1) = (List.replicate 12 0#8 ++ [0x81#8, 0#8]) ++ tags (k + 1) := by
  have : ∀ k, (List.replicate (k + 1) [0x81#8, 0#8, 0#8, 0#8]).flatten ++ [0xff#8, 0xff#8] =
      [0x81#8, 0#8] ++ tags (k + 1) := by
    intro k
    induction k with
    | zero => rfl
    | succ k ih =>
      rw [List.replicate_succ, List.flatten_cons, List.append_assoc, ih]; rfl
  rw [tagged, List.append_assoc, this, List.append_assoc]

theorem dissect_tags (k : Nat) : ∃ hs, Dissect .vlan (tags (k + 1)) hs [] ∧ hs.map (·.ty) = List.replicate (k + 1) Vlan := by
  induction k with
  | zero => exact ⟨_, .vlan (h := [0#8, 0#8, 0xff#8, 0xff#8]) (r := []) rfl (.payload []), rfl⟩
  | succ k ih =>
    obtain ⟨hs, h1, h2⟩ := ih
    exact ⟨_, .vlan (h := [0#8, 0#8, 0x81#8, 0#8]) (r := tags (k + 1)) rfl h1, by
      rw [List.map_cons, h2]; rfl⟩

theorem dissect_tagged (k : Nat) : ∃ hs, DissectFrame (tagged k) hs [] ∧ hs.map (·.ty) = Ether :: List.replicate k Vlan := by
  cases k with
  | zero =>
    refine ⟨[⟨Ether, tagged 0⟩], ?_, rfl⟩
    refine ⟨by decide, ?_⟩
    exact Dissect.ether (h := tagged 0) (r := []) rfl (.payload [])
  | succ k =>
    obtain ⟨hs, h1, h2⟩ := dissect_tags k
    refine ⟨⟨Ether, List.replicate 12 0#8 ++ [0x81#8, 0#8]⟩ :: hs, ?_, by rw [List.map_cons, h2]⟩
    rw [tagged_succ]
    refine ⟨by simp, ?_⟩
    have h3 : u16At ((List.replicate 12 0#8 ++ [0x81#8, 0#8]) ++ tags (k + 1)) 12 = 0x8100 := rfl
    rw [h3, if_neg (by decide)]
    exact .ether rfl h1

/-- **C68**: the bound is attained by accepted frames: with room for `k + 2` calls a frame of `14 + 4 k` bytes, which is
accepted with `k + 3`, overflows the stack. Hence no stack is large enough for all frames. -/
theorem C68_attained (chk : Bool) (k : Nat) : ∃ b p, b.length = 14 + 4 * k ∧ Slow.parse chk b = .ok p ∧
    (b.length - 1) / 4 = k + 3 ∧ Stack.Slow.parse chk (k + 3) b = .ok p ∧ Stack.Slow.parse chk (k + 2) b = .error .stack := by
  obtain ⟨hs, h1, h2⟩ := dissect_tagged k
  have hp := (C21_parse_frame chk _ _ _).mpr h1
  have hn : layers ((⟨hs, []⟩ : Packet).hdrs.map (·.ty)) = k + 1 := by
    rw [h2, layers, List.filter_cons, if_pos (by decide), List.length_cons, List.filter_replicate, if_pos (by decide),
      List.length_replicate]
  refine ⟨tagged k, ⟨hs, []⟩, tagged_length k, hp, by rw [tagged_length]; omega, ?_, ?_⟩
  · rw [C68_depth chk _ _ _ hp, hn, if_pos (by omega)]
  · rw [C68_depth chk _ _ _ hp, hn, if_neg (by omega)]

/-- **C68** for the zero-copy parser. -/
theorem C68_attained_fast (chk : Bool) (k : Nat) : ∃ b p, b.length = 14 + 4 * k ∧ Fast.parse chk (.ofBytes b) = .ok p ∧
    Stack.Fast.parse chk (k + 3) (.ofBytes b) = .ok p ∧ Stack.Fast.parse chk (k + 2) (.ofBytes b) = .error .stack := by
  obtain ⟨hs, h1, h2⟩ := dissect_tagged k
  have hp := (C21_parse_frame chk _ _ _).mpr h1
  have hb : (Fast.Win.ofBytes (tagged k)).InBounds := by simp [Fast.Win.ofBytes, Fast.Win.InBounds]
  have hbb : (Fast.Win.ofBytes (tagged k)).bytes = tagged k := by simp [Fast.Win.ofBytes, Fast.Win.bytes]
  have hc := C26_parse chk _ hb
  rw [hbb, hp] at hc
  cases hq : Fast.parse chk (.ofBytes (tagged k)) with
  | error e => rw [hq] at hc; exact nomatch hc
  | ok q =>
    rw [hq] at hc
    have hty : q.hdrs.map (·.ty) = hs.map (·.ty) := by
      injection hc with hc
      have := congrArg (fun p : Packet => p.hdrs.map (·.ty)) hc
      simp only [Fast.PacketSlice.toPacket, List.map_map] at this
      exact this
    have hn : layers (q.hdrs.map (·.ty)) = k + 1 := by
      rw [hty, h2, layers, List.filter_cons, if_pos (by decide), List.length_cons, List.filter_replicate, if_pos (by decide),
        List.length_replicate]
    refine ⟨tagged k, q, tagged_length k, hq, ?_, ?_⟩
    · rw [C68_depth_fast chk _ _ _ hq, hn, if_pos (by omega)]
    · rw [C68_depth_fast chk _ _ _ hq, hn, if_neg (by omega)]

-- `exFrame` has six layers; three GRE options are parsed by one call
example : layers ((okPkt (Slow.parse true exFrame)).hdrs.map (·.ty)) = 6 ∧
    Stack.Slow.parse true 8 exFrame = Slow.parse true exFrame ∧ Stack.Slow.parse true 7 exFrame = .error .stack ∧
    layers ((okPkt (Slow.parse true exGre)).hdrs.map (·.ty)) = 3 ∧ (okPkt (Slow.parse true exGre)).hdrs.length = 6 ∧
    Stack.Slow.parse true 5 exGre = Slow.parse true exGre ∧ Stack.Slow.parse true 4 exGre = .error .stack := by decide +kernel

-- a frame that is refused: the stack overflows before the missing bytes are noticed
example : Slow.parse true (exFrame.take 50) = .error .index ∧ Stack.Slow.parse true 6 (exFrame.take 50) = .error .index ∧
    Stack.Slow.parse true 5 (exFrame.take 50) = .error .stack := by decide +kernel

end PacketRs
