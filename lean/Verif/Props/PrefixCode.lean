import Verif.Props.Nest
/-!
# C80: the header strings form a complete prefix code

A *header string* is a byte string that dissects (Spec/Dissect) without leaving a payload.
-/
namespace PacketRs
open Spec

/-- A byte string that is headers of a frame and nothing else. -/
def HeaderString (a : Bytes) : Prop := ∃ hs, DissectFrame a hs []

/-- The same for the part of a frame beginning with the given layer. -/
def HeaderStringOf (l : Layer) (a : Bytes) : Prop := ∃ hs, Dissect l a hs []

theorem octets_total (chk : Bool) (b : Bytes) (p : Packet)
    (h : ∃ l, Slow.parseL chk l b = .ok p) : octets p.hdrs + p.payload.length = b.length := by
  obtain ⟨l, h⟩ := h
  have h1 := (C24_accounts chk l b p h).2.2.2.length_eq
  rw [Packet.to_vec_length] at h1
  exact h1

theorem layer_of_parse {chk : Bool} {b : Bytes} {p : Packet} (h : Slow.parse chk b = .ok p) :
    ∃ l, Slow.parseL chk l b = .ok p := by
  rw [Slow.parse_eq] at h
  split at h
  · exact nomatch h
  · exact ⟨_, h⟩

theorem payload_opaque_layer (chk : Bool) (l : Layer) (b : Bytes) (p : Packet) (h : Slow.parseL chk l b = .ok p) :
    ∃ a, b = a ++ p.payload ∧ ∀ pl', Slow.parseL chk l (a ++ pl') = .ok ⟨p.hdrs, pl'⟩ := by
  obtain ⟨l', k, hle, hr, hrepl⟩ := C63_nest chk l b p h p.hdrs [] (by simp) (by simp)
  have hl : l' = .payload := by cases l' <;> first | rfl | exact nomatch k
  subst hl
  have hpl : b.drop (octets p.hdrs) = p.payload := by injection hr with hr; injection hr
  refine ⟨b.take (octets p.hdrs), by rw [← hpl, List.take_append_drop], fun pl' => ?_⟩
  rw [hrepl pl' fun _ _ _ h => absurd rfl h]
  show Except.ok (prep p.hdrs (Slow.accept pl')) = _
  simp [prep, Slow.accept, Packet.set_payload, Packet.new]

theorem only_truncation_frame (chk : Bool) (b : Bytes) : ∃ x p, Slow.parse chk (b ++ x) = .ok p := by
  have key : ∀ y : Bytes, 14 ≤ y.length → ∃ x p, Slow.parse chk (y ++ x) = .ok p := by
    intro y hy
    obtain ⟨x, p, h⟩ := C22_only_truncation chk (if u16At y 12 < 1500 then .dot3 else .ether) y
    refine ⟨x, p, ?_⟩
    rw [Slow.parse_eq, if_neg (by rw [List.length_append]; omega)]
    have : u16At (y ++ x) 12 = u16At y 12 := by
      simp only [u16At, u8At, List.getD_eq_getElem?_getD]
      rw [List.getElem?_append_left (by omega), List.getElem?_append_left (by omega)]
    rw [this]; exact h
  obtain ⟨x, p, h⟩ := key (b ++ List.replicate 14 0#8) (by simp)
  exact ⟨_, p, by rw [List.append_assoc] at h; exact h⟩

/-- The common argument, for `parse` and for each of its layers. -/
structure PrefixParser (P : Bytes → R Packet) : Prop where
  total : ∀ b p, P b = .ok p → octets p.hdrs + p.payload.length = b.length
  trailing : ∀ b x p, P b = .ok p → P (b ++ x) = .ok ⟨p.hdrs, p.payload ++ x⟩
  opaq : ∀ b p, P b = .ok p → ∃ a, b = a ++ p.payload ∧ ∀ pl', P (a ++ pl') = .ok ⟨p.hdrs, pl'⟩
  fault : ∀ b, (∃ p, P b = .ok p) ∨ P b = .error .index
  extend : ∀ b, ∃ x p, P (b ++ x) = .ok p

namespace PrefixParser
variable {P : Bytes → R Packet} (hP : PrefixParser P)
include hP

theorem threshold {b : Bytes} {p : Packet} (h : P b = .ok p) (m : Nat) :
    P (b.take m) = if octets p.hdrs ≤ m then .ok ⟨p.hdrs, p.payload.take (m - octets p.hdrs)⟩ else .error .index := by
  split
  · rename_i hm
    obtain ⟨a, e, ho⟩ := hP.opaq b p h
    have hl : a.length = octets p.hdrs := by
      have := hP.total b p h
      have := congrArg List.length e
      rw [List.length_append] at this; omega
    rw [e, List.take_append, List.take_of_length_le (by omega), hl, ho]
  · rename_i hm
    rcases hP.fault (b.take m) with ⟨q, hq⟩ | hq
    · have h1 := hP.trailing _ (b.drop m) q hq
      rw [List.take_append_drop, h] at h1
      have h1 := Except.ok.inj h1
      have h2 := hP.total _ q hq
      rw [h1] at hm
      rw [List.length_take] at h2
      exact absurd (by omega : octets q.hdrs ≤ m) hm
    · exact hq

theorem accepts_iff (b : Bytes) :
    (∃ p, P b = .ok p) ↔ ∃ a hs, P a = .ok ⟨hs, []⟩ ∧ a <+: b := by
  constructor
  · rintro ⟨p, h⟩
    obtain ⟨a, e, ho⟩ := hP.opaq b p h
    have := ho []
    rw [List.append_nil] at this
    exact ⟨a, _, this, ⟨_, e.symm⟩⟩
  · rintro ⟨a, hs, h, x, rfl⟩
    exact ⟨_, hP.trailing a x _ h⟩

theorem code {a a' : Bytes} {hs hs' : List Hdr} (h : P a = .ok ⟨hs, []⟩) (h' : P a' = .ok ⟨hs', []⟩) (hp : a <+: a') :
    a = a' := by
  obtain ⟨x, rfl⟩ := hp
  have h1 := hP.trailing a x _ h
  rw [h'] at h1
  have h2 := Except.ok.inj h1
  injection h2 with h3 h4
  rw [← (by simpa using h4 : [] = x), List.append_nil]

theorem complete {b : Bytes} (h : ∀ p, P b ≠ .ok p) : ∃ a hs, P a = .ok ⟨hs, []⟩ ∧ b <+: a ∧ b ≠ a := by
  obtain ⟨x, p, hx⟩ := hP.extend b
  obtain ⟨a, hs, ha, hab⟩ := (hP.accepts_iff _).1 ⟨p, hx⟩
  have : b <+: a := by
    rcases Nat.le_total b.length a.length with hl | hl
    · exact List.prefix_of_prefix_length_le (List.prefix_append b x) hab hl
    · have hp : a <+: b := List.prefix_of_prefix_length_le hab (List.prefix_append b x) hl
      obtain ⟨p', hp'⟩ := (hP.accepts_iff b).2 ⟨a, hs, ha, hp⟩
      exact absurd hp' (h p')
  exact ⟨a, hs, ha, this, fun e => h _ (e ▸ ha)⟩

end PrefixParser

theorem prefixParser_layer (chk : Bool) (l : Layer) : PrefixParser (Slow.parseL chk l) where
  total b p h := octets_total chk b p ⟨l, h⟩
  trailing b x p h := C25_trailing chk l b x p.hdrs p.payload h
  opaq b p h := payload_opaque_layer chk l b p h
  fault b := by
    rcases C20_slow_terminates chk l b with h | ⟨p, h, -⟩
    · exact .inr h
    · exact .inl ⟨p, h⟩
  extend b := C22_only_truncation chk l b

theorem prefixParser_frame (chk : Bool) : PrefixParser (Slow.parse chk) where
  total b p h := octets_total chk b p (layer_of_parse h)
  trailing b x p h := C25_trailing_frame chk b x p.hdrs p.payload h
  opaq b p h := C63_payload_opaque chk b p h
  fault b := by
    rcases C20_slow_parse_terminates chk b with h | ⟨p, h, -⟩
    · exact .inr h
    · exact .inl ⟨p, h⟩
  extend b := only_truncation_frame chk b

/-- **C80, where to cut.** A frame accepted with headers of `n` octets, cut after `m` octets, is accepted iff `n ≤ m`, with the
same headers and what is left of the payload; otherwise `parse` panics. -/
theorem C80_threshold (chk : Bool) (b : Bytes) (p : Packet) (h : Slow.parse chk b = .ok p) (m : Nat) :
    Slow.parse chk (b.take m) =
      if octets p.hdrs ≤ m then .ok ⟨p.hdrs, p.payload.take (m - octets p.hdrs)⟩ else .error .index :=
  (prefixParser_frame chk).threshold h m

/-- **C80, where to cut**, for each entry point. -/
theorem C80_threshold_layer (chk : Bool) (l : Layer) (b : Bytes) (p : Packet) (h : Slow.parseL chk l b = .ok p) (m : Nat) :
    Slow.parseL chk l (b.take m) =
      if octets p.hdrs ≤ m then .ok ⟨p.hdrs, p.payload.take (m - octets p.hdrs)⟩ else .error .index :=
  (prefixParser_layer chk l).threshold h m

/-- **C80, where to cut**, for the zero-copy parser: cutting the slice. -/
theorem C80_threshold_fast (chk : Bool) (b : Bytes) (p : Fast.PacketSlice) (h : Fast.parse chk (.ofBytes b) = .ok p) (m : Nat) :
    (Fast.parse chk (.ofBytes (b.take m))).map Fast.PacketSlice.toPacket =
      if octets p.toPacket.hdrs ≤ m
      then .ok ⟨p.toPacket.hdrs, p.toPacket.payload.take (m - octets p.toPacket.hdrs)⟩ else .error .index := by
  have hb : ∀ b, (Fast.Win.ofBytes b).InBounds := fun b => by simp [Fast.Win.ofBytes, Fast.Win.InBounds]
  have hby : ∀ b, (Fast.Win.ofBytes b).bytes = b := fun b => by simp [Fast.Win.ofBytes, Fast.Win.bytes]
  have h1 := C26_parse chk (.ofBytes b) (hb b)
  rw [h, hby] at h1
  rw [C26_parse chk _ (hb _), hby]
  exact (prefixParser_frame chk).threshold h1.symm m

/-- **C80, a prefix code.** No header string is a proper prefix of another one. -/
theorem C80_prefix_code (a a' : Bytes) (h : HeaderString a) (h' : HeaderString a') (hp : a <+: a') : a = a' := by
  obtain ⟨hs, h⟩ := h
  obtain ⟨hs', h'⟩ := h'
  exact (prefixParser_frame true).code ((C21_parse_frame true _ _ _).2 h) ((C21_parse_frame true _ _ _).2 h') hp

/-- **C80, what is accepted.** `parse` accepts a frame iff it begins with a header string; there is only one such, and what
follows it is the payload. -/
theorem C80_accepts_iff (chk : Bool) (b : Bytes) :
    (∃ p, Slow.parse chk b = .ok p) ↔ ∃ a, HeaderString a ∧ a <+: b := by
  rw [(prefixParser_frame chk).accepts_iff b]
  simp only [C21_parse_frame, HeaderString]
  exact ⟨fun ⟨a, hs, h, hp⟩ => ⟨a, ⟨hs, h⟩, hp⟩, fun ⟨a, ⟨hs, h⟩, hp⟩ => ⟨a, hs, h, hp⟩⟩

theorem C80_payload (chk : Bool) (a x : Bytes) (h : HeaderString a) :
    ∃ hs, DissectFrame a hs [] ∧ Slow.parse chk (a ++ x) = .ok ⟨hs, x⟩ := by
  obtain ⟨hs, h⟩ := h
  refine ⟨hs, h, ?_⟩
  exact (prefixParser_frame chk).trailing a x ⟨hs, []⟩ ((C21_parse_frame chk _ _ _).2 h)

/-- **C80, complete.** Every byte string either begins with exactly one header string (and is accepted), or is a proper prefix of
a header string (and is rejected), not both. -/
theorem C80_complete (chk : Bool) (b : Bytes) :
    ((∃ p, Slow.parse chk b = .ok p) ∧ (∃ a, (HeaderString a ∧ a <+: b) ∧ ∀ a', HeaderString a' ∧ a' <+: b → a' = a) ∧
      ∀ a, HeaderString a → b <+: a → b = a) ∨
    (Slow.parse chk b = .error .index ∧ (∃ a, HeaderString a ∧ b <+: a ∧ b ≠ a) ∧ ∀ a, HeaderString a → ¬ a <+: b) := by
  by_cases h : ∃ p, Slow.parse chk b = .ok p
  · left
    obtain ⟨a, ha, hab⟩ := (C80_accepts_iff chk b).1 h
    refine ⟨h, ⟨a, ⟨ha, hab⟩, ?_⟩, ?_⟩
    · rintro a' ⟨ha', hab'⟩
      rcases Nat.le_total a.length a'.length with hl | hl
      · exact (C80_prefix_code a a' ha ha' (List.prefix_of_prefix_length_le hab hab' hl)).symm
      · exact C80_prefix_code a' a ha' ha (List.prefix_of_prefix_length_le hab' hab hl)
    · intro c hc hbc
      have := C80_prefix_code a c ha hc (hab.trans hbc)
      subst this
      exact (hbc.eq_of_length_le hab.length_le)
  · right
    refine ⟨?_, ?_, fun a ha hp => h ((C80_accepts_iff chk b).2 ⟨a, ha, hp⟩)⟩
    · rcases (prefixParser_frame chk).fault b with hq | hq
      · exact absurd hq h
      · exact hq
    · obtain ⟨a, hs, ha, hp, hne⟩ := (prefixParser_frame chk).complete (b := b) fun p hp => h ⟨p, hp⟩
      exact ⟨a, ⟨hs, (C21_parse_frame chk _ _ _).1 ha⟩, hp, hne⟩

/-- **C80** for each entry point: the header strings of a layer form a complete prefix code. -/
theorem C80_layer (chk : Bool) (l : Layer) :
    (∀ a a', HeaderStringOf l a → HeaderStringOf l a' → a <+: a' → a = a') ∧
    (∀ b, (∃ p, Slow.parseL chk l b = .ok p) ↔ ∃ a, HeaderStringOf l a ∧ a <+: b) ∧
    (∀ b, (∃ p, Slow.parseL chk l b = .ok p) ∨ ∃ a, HeaderStringOf l a ∧ b <+: a ∧ b ≠ a) := by
  refine ⟨?_, fun b => ?_, fun b => ?_⟩
  · rintro a a' ⟨hs, h⟩ ⟨hs', h'⟩ hp
    exact (prefixParser_layer chk l).code ((C21_parse_iff_dissect chk _ _ _ _).2 h) ((C21_parse_iff_dissect chk _ _ _ _).2 h') hp
  · rw [(prefixParser_layer chk l).accepts_iff b]
    simp only [C21_parse_iff_dissect, HeaderStringOf]
    exact ⟨fun ⟨a, hs, h, hp⟩ => ⟨a, ⟨hs, h⟩, hp⟩, fun ⟨a, ⟨hs, h⟩, hp⟩ => ⟨a, hs, h, hp⟩⟩
  · by_cases h : ∃ p, Slow.parseL chk l b = .ok p
    · exact .inl h
    · obtain ⟨a, hs, ha, hp, hne⟩ := (prefixParser_layer chk l).complete (b := b) fun p hp => h ⟨p, hp⟩
      exact .inr ⟨a, ⟨hs, (C21_parse_iff_dissect chk _ _ _ _).1 ha⟩, hp, hne⟩

/-! Not vacuous: the sample frame has 68 octets of headers; cut after 68 octets it is accepted, after 67 it is not. -/
example : let p := okPkt (Slow.parse true exFrame)
    Slow.parse true exFrame = .ok p ∧ octets p.hdrs = 68 ∧ 68 < exFrame.length ∧
    Slow.parse true (exFrame.take 68) = .ok ⟨p.hdrs, []⟩ ∧ Slow.parse true (exFrame.take 67) = .error .index ∧
    HeaderString (exFrame.take 68) := by
  refine ⟨by decide +kernel, by decide +kernel, by decide +kernel, by decide +kernel, by decide +kernel,
    (okPkt (Slow.parse true exFrame)).hdrs, (C21_parse_frame true _ _ _).1 (by decide +kernel)⟩
-- and a string of one octet is a proper prefix of one
example : Slow.parse true [7#8] = .error .index := by decide +kernel

end PacketRs
