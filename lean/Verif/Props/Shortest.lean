import Verif.Props.Guard
import Verif.Props.Padding
/-!
# Property C122, continued: which octets can be appended

The client of C122 appends 100 octets 0xFF.  The same check works with exactly those octets that let every octet string be parsed, and no
such octets, whatever they are, are fewer than 73.
-/
namespace PacketRs
open Spec Utils

/-- The client of C122 with other octets appended: `if parse(&[f, z].concat()).payload().len() < z.len() { None } else { Some(parse(f)) }` -/
def tryParseWith (chk : Bool) (z f : Bytes) : R (Option Packet) := do
  let p ← Slow.parse chk (f ++ z)
  if p.payload.length < z.length then pure none
  else do
    let q ← Slow.parse chk f
    pure (some q)

theorem tryParse_with (chk : Bool) (f : Bytes) : tryParse chk f = tryParseWith chk guardPad f := by
  have hlen : guardPad.length = 100 := by simp [guardPad]
  unfold tryParse tryParseWith
  rw [hlen]

/-- **C122, other octets.** The client gets the parser's answer on every octet string, without a panic, iff the appended octets let every
octet string be parsed. -/
theorem C122_any (chk : Bool) (z : Bytes) : (∀ f, tryParseWith chk z f = .ok (Slow.parse chk f).toOption) ↔
    ∀ f, ∃ p, Slow.parse chk (f ++ z) = .ok p := by
  constructor
  · intro h f
    have h := h f
    unfold tryParseWith at h
    cases hp : Slow.parse chk (f ++ z) with
    | error e => rw [hp] at h; cases h
    | ok p => exact ⟨p, rfl⟩
  · intro h f
    obtain ⟨⟨hs, pl⟩, hp⟩ := h f
    have hd := (C21_parse_frame chk _ _ _).mp hp
    by_cases c : pl.length < z.length
    · have e : tryParseWith chk z f = .ok none := by
        simp only [tryParseWith, hp, bind, Except.bind, if_pos c]; rfl
      rw [e]
      cases hq : Slow.parse chk f with
      | error e => rfl
      | ok q =>
        obtain ⟨hs', pl'⟩ := q
        have := (C21_parse_frame chk _ _ _).mpr (DissectFrame_more z ((C21_parse_frame chk _ _ _).mp hq))
        rw [hp] at this
        cases this
        rw [List.length_append] at c
        omega
    · obtain ⟨pl', rfl, hd'⟩ := DissectFrame_trim hd (by omega)
      have hp' := (C21_parse_frame chk _ _ _).mpr hd'
      rw [hp']
      simp only [tryParseWith, hp, bind, Except.bind, if_neg c, hp']
      rfl

/-- **C122, how many.** Whatever is appended: fewer than 73 octets do not let every octet string be parsed.  73 octets 0xFF do (C110). -/
theorem C122_shortest (chk : Bool) (z : Bytes) (h : ∀ f, ∃ p, Slow.parse chk (f ++ z) = .ok p) : 73 ≤ z.length := by
  obtain ⟨⟨hs, pl⟩, hp⟩ := h cutInIpv6
  have hd := ((C21_parse_frame chk _ _ _).mp hp).2
  rw [u16At_append_left _ _ _ (by decide), if_neg (by decide)] at hd
  have hlen : (cutInIpv6 ++ z).length = 21 + z.length := by rw [List.length_append]; rfl
  have h12 : u16At (cutInIpv6 ++ z) 12 = 0x86DD := by rw [u16At_append_left _ _ _ (by decide)]; decide
  have h20 : u8At (cutInIpv6 ++ z) 20 = 41 := by rw [u8At_append_left _ _ _ (by decide)]; decide
  generalize cutInIpv6 ++ z = b at hd hlen h12 h20
  cases hd with
  | @ether h r hs pl h14 hd =>
    rw [u16At_append_left _ _ _ (by omega)] at h12
    rw [u8At_append_right _ _ _ (by omega), h14] at h20
    rw [h12, show etherNext 0x86DD = .ipv6 from rfl] at hd
    rw [List.length_append] at hlen
    cases hd with
    | @ipv6 h' r hs pl h40 hd =>
      rw [u8At_append_left _ _ _ (by omega)] at h20
      rw [h20, show ipv6Next 41 = .ipv6 from rfl] at hd
      rw [List.length_append] at hlen
      cases hd with
      | ipv6 h40' hd =>
        rw [List.length_append] at hlen
        omega

/-- **C122, exactly.** There are `n` octets that make the check right iff `73 ≤ n`. -/
theorem C122_exact (chk : Bool) (n : Nat) :
    (∃ z : Bytes, z.length = n ∧ ∀ f, tryParseWith chk z f = .ok (Slow.parse chk f).toOption) ↔ 73 ≤ n := by
  constructor
  · rintro ⟨z, rfl, h⟩
    exact C122_shortest chk z ((C122_any chk z).mp h)
  · intro h
    exact ⟨List.replicate n 0xFF#8, List.length_replicate, (C122_any chk _).mpr ((C110_least chk n).mpr h)⟩

/-! ## Cases -/

-- 73 octets 0xFF do, 72 do not, nor do 100 octets 0
example : tryParseWith true (List.replicate 73 0xFF#8) cutInIpv6 = .ok none ∧
    tryParseWith true (List.replicate 72 0xFF#8) cutInIpv6 = .error .index := by decide +kernel
example : tryParseWith true (List.replicate 100 0#8) etherMpls = .error .index := by decide +kernel
example : (tryParseWith true (List.replicate 73 0xFF#8) exFrame).toOption.bind id = (Slow.parse true exFrame).toOption := by decide +kernel

end PacketRs
