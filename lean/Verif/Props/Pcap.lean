import Verif.Pcap
import Verif.Spec.Pcap
/-!
# Property C72: what is in the capture file of tests/pcap.rs
-/
namespace PacketRs
open Spec

/-- The bytes that are written, in one piece. -/
def pcapRecords (t : UnixTime) : List Bytes → Bytes
  | [] => []
  | p :: ps => pcapPacketHeader t p ++ (p ++ pcapRecords t ps)

theorem write_all_end (a old b : Bytes) :
    OpenFile.write_all ⟨a ++ old.drop a.length, a.length⟩ b = ⟨(a ++ b) ++ old.drop (a ++ b).length, (a ++ b).length⟩ := by
  have h1 : a.length - (a ++ old.drop a.length).length = 0 := by rw [List.length_append]; omega
  have h2 : (a ++ old.drop a.length).take a.length = a := List.take_left' rfl
  have h3 : (a ++ old.drop a.length).drop (a.length + b.length) = old.drop (a.length + b.length) := by
    rw [← List.drop_drop, List.drop_left' rfl, List.drop_drop]
  unfold OpenFile.write_all
  simp only
  rw [h1, h2, h3, List.replicate_zero, List.append_nil, List.length_append]

theorem pcapLoop_eq (t : UnixTime) (old : Bytes) (ps : List Bytes) : ∀ a : Bytes,
    (pcapLoop t ⟨a ++ old.drop a.length, a.length⟩ ps).data =
      (a ++ pcapRecords t ps) ++ old.drop (a ++ pcapRecords t ps).length := by
  induction ps with
  | nil => intro a; simp [pcapLoop, pcapRecords]
  | cons p ps ih =>
    intro a
    rw [pcapLoop, write_all_end, write_all_end, ih]
    simp only [pcapRecords, List.append_assoc]

/-- **C72, the file.** The header and the packets are written over the beginning of the old file. -/
theorem C72_contents (t : UnixTime) (old : Option Bytes) (ps : List Bytes) :
    pcap_write t old ps = (pcapGlobalHeader ++ pcapRecords t ps) ++
      (old.getD []).drop (pcapGlobalHeader ++ pcapRecords t ps).length := by
  unfold pcap_write OpenFile.openForWrite
  have := write_all_end [] (old.getD []) pcapGlobalHeader
  simp only [List.nil_append, List.length_nil, List.drop_zero] at this
  rw [this, pcapLoop_eq]

theorem leNat_le32 (x : U32) : leNat (le32 x) = x.toNat := by
  have := x.isLt
  simp [leNat, le32, Nat.shiftRight_eq_div_pow]
  omega

theorem le32_length (x : U32) : (le32 x).length = 4 := rfl

/-- A reader has no choice. -/
theorem CapRecords_unique {snap : Nat} {b : Bytes} {r1 r2 : List CapRec} (h1 : CapRecords snap b r1)
    (h2 : CapRecords snap b r2) : r1 = r2 := by
  induction h1 generalizing r2 with
  | nil =>
    generalize hb : ([] : Bytes) = b at h2
    cases h2 with
    | nil => rfl
    | @cons s u c o d rest rs hs =>
      have := congrArg List.length hb
      rw [List.length_append, hs, List.length_nil] at this
      omega
  | @cons s u c o d rest rs hs hu hc ho hl hle hr ih =>
    generalize hb : s ++ (u ++ (c ++ (o ++ (d ++ rest)))) = b at h2
    cases h2 with
    | nil =>
      have := congrArg List.length hb
      rw [List.length_append, hs, List.length_nil] at this
      omega
    | @cons s' u' c' o' d' rest' rs' hs' hu' hc' ho' hl' hle' hr' =>
      obtain ⟨e1, hb⟩ := List.append_inj hb (hs.trans hs'.symm)
      obtain ⟨e2, hb⟩ := List.append_inj hb (hu.trans hu'.symm)
      obtain ⟨e3, hb⟩ := List.append_inj hb (hc.trans hc'.symm)
      obtain ⟨e4, hb⟩ := List.append_inj hb (ho.trans ho'.symm)
      obtain ⟨e5, e6⟩ := List.append_inj hb (by rw [← hl, ← hl', e3])
      rw [ih (e6 ▸ hr'), e1, e2, e4, e5]

/-- What a reader should get for the packets written at a time. -/
def pcapExpected (t : UnixTime) (ps : List Bytes) : List CapRec :=
  ps.map fun p => ⟨t.secs.toNat % 2 ^ 32, t.nanos / 1000000, p.length, p⟩

theorem CapRecords_append {t : UnixTime} {ps : List Bytes} (tail : Bytes) (rs : List CapRec) (snap : Nat)
    (hsnap : snap < 2 ^ 32) (hps : ∀ p ∈ ps, p.length ≤ snap) (h : CapRecords snap tail rs) :
    CapRecords snap (pcapRecords t ps ++ tail) (pcapExpected t ps ++ rs) := by
  induction ps with
  | nil => exact h
  | cons p ps ih =>
    have hp : p.length ≤ snap := hps p (by simp)
    have ih := ih fun q hq => hps q (by simp [hq])
    have hlen : leNat (le32 (BitVec.ofNat 32 p.length)) = p.length := by
      rw [leNat_le32, BitVec.toNat_ofNat, Nat.mod_eq_of_lt (by omega)]
    have := CapRecords.cons (snap := snap) (s := le32 t.tv_sec) (u := le32 t.tv_usec)
      (c := le32 (BitVec.ofNat 32 p.length)) (o := le32 (BitVec.ofNat 32 p.length)) rfl rfl rfl rfl hlen hp ih
    rw [hlen, leNat_le32, leNat_le32] at this
    have e1 : t.tv_sec.toNat = t.secs.toNat % 2 ^ 32 := by simp [UnixTime.tv_sec]
    have e2 : t.tv_usec.toNat = t.nanos / 1000000 := by
      have := t.lt
      rw [UnixTime.tv_usec, BitVec.toNat_ofNat, Nat.mod_eq_of_lt (by omega)]
    rw [e1, e2] at this
    simpa only [pcapRecords, pcapPacketHeader, pcapExpected, List.map_cons, List.cons_append, List.append_assoc] using this

theorem pcap_capture_iff (b : Bytes) (rs : List CapRec) :
    Capture (pcapGlobalHeader ++ b) rs ↔ CapRecords 65535 b rs := by
  constructor
  · rintro ⟨snap, rest, hl, e, h⟩
    have e' : [0xff#8, 0xff#8, 0#8, 0#8] ++ ([1#8, 0#8, 0#8, 0#8] ++ b) = snap ++ ([1#8, 0#8, 0#8, 0#8] ++ rest) := by
      obtain ⟨-, e⟩ := List.append_inj (s₁ := pcapGlobalHeader.take 16)
        (t₁ := pcapGlobalHeader.drop 16 ++ b)
        (s₂ := [0xd4#8, 0xc3#8, 0xb2#8, 0xa1#8] ++ ([2#8, 0#8, 4#8, 0#8] ++ List.replicate 8 0#8))
        (t₂ := snap ++ ([1#8, 0#8, 0#8, 0#8] ++ rest)) (by
          rw [← List.append_assoc, List.take_append_drop, e]; simp only [List.append_assoc]) rfl
      exact e
    obtain ⟨rfl, e2⟩ := List.append_inj e' (by rw [hl]; rfl)
    rw [List.append_cancel_left e2]; exact h
  · intro h
    exact ⟨[0xff#8, 0xff#8, 0#8, 0#8], b, rfl, rfl, h⟩

theorem CapRecords_short {snap : Nat} {b : Bytes} {rs : List CapRec} (h : CapRecords snap b rs) :
    ∀ r ∈ rs, r.data.length ≤ snap := by
  induction h with
  | nil => intro r hr; exact nomatch hr
  | cons hs hu hc ho hl hle hr ih =>
    intro r hm
    rcases List.mem_cons.mp hm with rfl | hm
    · exact hle
    · exact ih r hm

theorem CapRecords_prefix {t : UnixTime} {ps : List Bytes} (tail : Bytes) (snap : Nat)
    (hsnap : snap < 2 ^ 32) (hps : ∀ p ∈ ps, p.length ≤ snap) : ∀ rs : List CapRec,
    CapRecords snap (pcapRecords t ps ++ tail) rs → ∃ stale, CapRecords snap tail stale := by
  induction ps with
  | nil => intro rs h; exact ⟨rs, h⟩
  | cons p ps ih =>
    intro rs h
    have hp : p.length ≤ snap := hps p (by simp)
    have hlen : leNat (le32 (BitVec.ofNat 32 p.length)) = p.length := by
      rw [leNat_le32, BitVec.toNat_ofNat, Nat.mod_eq_of_lt (by omega)]
    generalize hb : pcapRecords t (p :: ps) ++ tail = b at h
    simp only [pcapRecords, pcapPacketHeader, List.append_assoc] at hb
    cases h with
    | nil =>
      have := congrArg List.length hb
      rw [List.length_append, le32_length, List.length_nil] at this
      omega
    | @cons s' u' c' o' d' rest' rs' hs' hu' hc' ho' hl' hle' hr' =>
      obtain ⟨-, hb⟩ := List.append_inj hb hs'.symm
      obtain ⟨-, hb⟩ := List.append_inj hb hu'.symm
      obtain ⟨e3, hb⟩ := List.append_inj hb hc'.symm
      obtain ⟨-, hb⟩ := List.append_inj hb ho'.symm
      obtain ⟨-, e6⟩ := List.append_inj hb (by rw [← hl', ← e3, hlen])
      exact ih (fun q hq => hps q (by simp [hq])) rs' (e6 ▸ hr')

/-- **C72, what is read back.** Packets of up to 65535 bytes: a reader of the file gets exactly the packets written, in
order, followed by whatever records the rest of the old file happens to consist of; and it cannot read the file iff that
rest does not consist of records. -/
theorem C72_read (t : UnixTime) (old : Option Bytes) (ps : List Bytes) (hps : ∀ p ∈ ps, p.length ≤ 65535)
    (rs : List CapRec) :
    Capture (pcap_write t old ps) rs ↔
      ∃ stale, rs = pcapExpected t ps ++ stale ∧
        CapRecords 65535 ((old.getD []).drop (pcapGlobalHeader ++ pcapRecords t ps).length) stale := by
  rw [C72_contents, List.append_assoc, pcap_capture_iff]
  generalize (old.getD []).drop (pcapGlobalHeader ++ pcapRecords t ps).length = tail
  constructor
  · intro h
    obtain ⟨stale, hs⟩ := CapRecords_prefix tail 65535 (by decide) hps rs h
    exact ⟨stale, CapRecords_unique h (CapRecords_append tail stale 65535 (by decide) hps hs), hs⟩
  · rintro ⟨stale, rfl, h⟩
    exact CapRecords_append tail stale 65535 (by decide) hps h

/-- **C72, a new file** can be read, giving the packets, iff none is longer than the announced limit of 65535 bytes. -/
theorem C72_new_file (t : UnixTime) (ps : List Bytes) :
    (∃ rs, Capture (pcap_write t none ps) rs ∧ rs.map (·.data) = ps) ↔ ∀ p ∈ ps, p.length ≤ 65535 := by
  constructor
  · rintro ⟨rs, h, rfl⟩ p hp
    rw [C72_contents, List.append_assoc, pcap_capture_iff] at h
    obtain ⟨r, hr, rfl⟩ := List.mem_map.mp hp
    exact CapRecords_short h r hr
  · intro hps
    refine ⟨pcapExpected t ps, (C72_read t none ps hps _).2 ⟨[], by simp, ?_⟩, ?_⟩
    · simp only [Option.getD_none, List.drop_nil]; exact .nil
    · rw [pcapExpected, List.map_map]; exact List.map_id ps

/-- **C72, an old file** that is not longer does no harm. -/
theorem C72_old_file (t : UnixTime) (old : Bytes) (ps : List Bytes) (hps : ∀ p ∈ ps, p.length ≤ 65535)
    (hold : old.length ≤ 24 + (ps.map fun p => 16 + p.length).sum) (rs : List CapRec) :
    Capture (pcap_write t (some old) ps) rs ↔ rs = pcapExpected t ps := by
  have hl : (pcapGlobalHeader ++ pcapRecords t ps).length = 24 + (ps.map fun p => 16 + p.length).sum := by
    rw [List.length_append, show pcapGlobalHeader.length = 24 from rfl]
    congr 1
    clear hps hold
    induction ps with
    | nil => rfl
    | cons p ps ih =>
      simp only [pcapRecords, List.length_append, ih, List.map_cons, List.sum_cons, pcapPacketHeader, le32_length]; omega
  rw [C72_read t _ ps hps, hl, Option.getD_some, List.drop_of_length_le hold]
  constructor
  · rintro ⟨stale, rfl, h⟩
    rw [CapRecords_unique h .nil, List.append_nil]
  · rintro rfl
    exact ⟨[], by simp, .nil⟩

/-- **C72, an old capture that is longer shows through.** Written over a capture whose first packets take as many bytes,
the file is read as the new packets and then the remaining old ones. -/
theorem C72_stale (t0 t : UnixTime) (ps0 qs ps : List Bytes) (h0 : ∀ p ∈ qs, p.length ≤ 65535)
    (hps : ∀ p ∈ ps, p.length ≤ 65535)
    (hlen : (ps0.map fun p => 16 + p.length).sum = (ps.map fun p => 16 + p.length).sum) :
    Capture (pcap_write t (some (pcap_write t0 none (ps0 ++ qs))) ps) (pcapExpected t ps ++ pcapExpected t0 qs) := by
  have hl : ∀ (t : UnixTime) (ps : List Bytes), (pcapRecords t ps).length = (ps.map fun p => 16 + p.length).sum := by
    intro t ps
    induction ps with
    | nil => rfl
    | cons p ps ih =>
      simp only [pcapRecords, List.length_append, ih, List.map_cons, List.sum_cons, pcapPacketHeader, le32_length]; omega
  have happ : ∀ (ps qs : List Bytes), pcapRecords t0 (ps ++ qs) = pcapRecords t0 ps ++ pcapRecords t0 qs := by
    intro ps qs
    induction ps with
    | nil => rfl
    | cons p ps ih => simp only [List.cons_append, pcapRecords, ih, List.append_assoc]
  refine (C72_read t _ ps hps _).2 ⟨_, rfl, ?_⟩
  rw [C72_contents, Option.getD_some, Option.getD_none, List.drop_nil, List.append_nil, happ, ← List.append_assoc,
    List.drop_left' (by rw [List.length_append, List.length_append, hl, hl, hlen])]
  have := CapRecords_append (t := t0) (ps := qs) [] [] 65535 (by decide) h0 .nil
  simpa using this

/-- **C72, time stamps.** The time read back, in microseconds, is the time of writing iff the time of writing was within
the first microsecond of a second before the year 2106. -/
theorem C72_time (t : UnixTime) (r : CapRec) (ps : List Bytes) (h : r ∈ pcapExpected t ps) :
    r.sec * 1000000 + r.usec = t.secs.toNat * 1000000 + t.nanos / 1000 ↔ t.secs.toNat < 2 ^ 32 ∧ t.nanos < 1000 := by
  obtain ⟨p, -, rfl⟩ := List.mem_map.mp h
  have := t.lt
  simp only
  omega

/-! Concrete cases. -/

def exTime : UnixTime := ⟨1700000000#64, 123456789, by decide⟩

-- two packets in a new file, and what is read
example : Capture (pcap_write exTime none [[1#8, 2#8, 3#8], [4#8]])
    [⟨1700000000, 123, 3, [1#8, 2#8, 3#8]⟩, ⟨1700000000, 123, 1, [4#8]⟩] := by
  have := (C72_read exTime none [[1#8, 2#8, 3#8], [4#8]] (by decide) (pcapExpected exTime [[1#8, 2#8, 3#8], [4#8]])).2
    ⟨[], by simp, by simp; exact .nil⟩
  exact this

-- the file of the second call of two: the second packet of the first call is still there
example : pcap_write exTime (some (pcap_write exTime none [[1#8, 2#8], [3#8]])) [[9#8, 9#8]] =
    pcap_write exTime none [[9#8, 9#8], [3#8]] := by decide +kernel

-- over an old capture whose packets do not line up, the file cannot be read at all
example : ¬ ∃ rs, Capture (pcap_write exTime (some (pcap_write exTime none [[1#8, 2#8, 7#8]])) [[9#8, 9#8]]) rs := by
  rintro ⟨rs, h⟩
  obtain ⟨stale, -, hs⟩ := (C72_read exTime _ _ (by decide) rs).1 h
  have e : ((some (pcap_write exTime none [[1#8, 2#8, 7#8]])).getD []).drop
      (pcapGlobalHeader ++ pcapRecords exTime [[9#8, 9#8]]).length = [7#8] := by decide +kernel
  rw [e] at hs
  generalize hb : [7#8] = b at hs
  cases hs with
  | nil => exact nomatch hb
  | @cons s u c o d rest rs hs =>
    have := congrArg List.length hb
    rw [List.length_append, hs] at this
    simp at this
    omega

-- 123456789 ns after the second: 123456 microseconds, of which the file says 123
example : ∃ r ∈ pcapExpected exTime [[4#8]], r.usec = 123 ∧ exTime.nanos / 1000 = 123456 := by decide +kernel

end PacketRs
