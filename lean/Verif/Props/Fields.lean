import Verif.Headers
import Verif.Fast
import Verif.Lemmas.Bytes
import Verif.Lemmas.Win
/-!
# Properties C01 - C09: field access
-/
namespace PacketRs
open Spec

/-- The field lies inside a buffer of `n` bytes and is not empty. -/
def Field.Inside (f : Field) (n : Nat) : Prop := f.lo ≤ f.hi ∧ f.hi < 8 * n

instance (f : Field) (n : Nat) : Decidable (f.Inside n) := inferInstanceAs (Decidable (_ ∧ _))

/-- The two fields have no bit in common. -/
def Field.Disjoint (f g : Field) : Prop := f.hi < g.lo ∨ g.hi < f.lo

/-! ## C01 -/

/-- **C01**: for every buffer, every field of 1..64 bits inside it and both profiles, the getter
returns the big-endian number made of the field's bits; it does not panic; the result fits. -/
theorem C01_getter_value (chk : Bool) (h : Hdr) (f : Field) (hin : f.Inside h.data.length)
    (hw : f.width ≤ 64) :
    ∃ v, h.get chk f = .ok v ∧ v.toNat = fieldVal h.data f.lo f.hi ∧ v.toNat < 2 ^ f.width := by
  obtain ⟨h1, h2⟩ := hin
  unfold Field.width at *
  refine ⟨_, bitRange_toNat chk h.data f.lo f.hi h1 (by omega) (by omega), ?_⟩
  have hlt := fieldVal_lt h.data f.lo f.hi
  have e : f.hi + 1 - f.lo = f.hi - f.lo + 1 := by omega
  rw [e] at hlt
  have : fieldVal h.data f.lo f.hi < 2 ^ 64 :=
    Nat.lt_of_lt_of_le hlt (Nat.pow_le_pow_right (by omega) (by omega))
  rw [BitVec.toNat_ofNat, Nat.mod_eq_of_lt this]
  exact ⟨rfl, hlt⟩

/-- **C01**, bit by bit: bit `j` of the value is network bit `hi - j` of the buffer. -/
theorem C01_getter_bits (chk : Bool) (h : Hdr) (f : Field) (hin : f.Inside h.data.length)
    (hw : f.width ≤ 64) :
    ∃ v, h.get chk f = .ok v ∧
      ∀ j, v.getLsbD j = (decide (j < f.width) && netBit h.data (f.hi - j)) := by
  obtain ⟨h1, h2⟩ := hin
  unfold Field.width at *
  obtain ⟨r, e, hr⟩ := bitRange_ok chk h.data f.lo f.hi h1 (by omega) (by omega)
  refine ⟨r, e, ?_⟩
  intro j
  by_cases hj : j < 64
  · rw [hr j hj]; congr 2; apply propext; omega
  · rw [BitVec.getLsbD_of_ge _ _ (by omega)]
    have : ¬ j < f.hi - f.lo + 1 := by omega
    simp [this]

/-- All fields of all predefined headers are non-empty and inside the declared size. -/
theorem predefined_inside : ∀ T ∈ predefined, ∀ f ∈ T.fields, f.Inside T.size := by decide

theorem Field.Inside.mono {f : Field} {m n : Nat} (h : f.Inside m) (hmn : m ≤ n) : f.Inside n :=
  ⟨h.1, Nat.lt_of_lt_of_le h.2 (Nat.mul_le_mul_left _ hmn)⟩

/-- **C01** for the predefined headers: no field getter of up to 64 bits panics on a buffer of at
least the declared size. -/
theorem C01_predefined (chk : Bool) (T : HeaderDef) (hT : T ∈ predefined) (f : Field)
    (hf : f ∈ T.fields) (hw : f.width ≤ 64) (d : Bytes) (hd : T.size ≤ d.length) :
    ∃ v, (T.ofVec d).get chk f = .ok v ∧ v.toNat = fieldVal d f.lo f.hi ∧ v.toNat < 2 ^ f.width :=
  C01_getter_value chk (T.ofVec d) f ((predefined_inside T hT f hf).mono hd) hw

-- a 13-bit unaligned field crossing a byte boundary, and what the getter returns for it
example : IPv4.frag_startset.Inside (IPv4.new).data.length ∧ IPv4.frag_startset.width ≤ 64 ∧
    (IPv4.new).get true IPv4.frag_startset = .ok 0xdd#64 ∧
    fieldVal (IPv4.new).data IPv4.frag_startset.lo IPv4.frag_startset.hi = 0xdd := by decide +kernel

/-! ## C02, C03 -/

/-- What a set does, bit by bit (used for C02, C03, C04). -/
theorem set_bits (h : Hdr) (f : Field) (v : U64) (hin : f.Inside h.data.length) :
    ∃ h', h.set f v = .ok h' ∧ h'.ty = h.ty ∧ h'.data.length = h.data.length ∧
      ∀ i, netBit h'.data i = if f.lo ≤ i ∧ i ≤ f.hi then v.getLsbD (f.hi - i) else netBit h.data i := by
  obtain ⟨d', e, l, b⟩ := setBitRange_ok h.data f.lo f.hi v hin.1 (by have := hin.2; omega)
  exact ⟨{ h with data := d' }, by simp only [Hdr.set, e]; rfl, rfl, l, b⟩

/-- **C02**: set then get returns the value truncated to the field width. -/
theorem C02_set_get (chk : Bool) (h : Hdr) (f : Field) (v : U64) (hin : f.Inside h.data.length)
    (hw : f.width ≤ 64) :
    ∃ h' r, h.set f v = .ok h' ∧ h'.get chk f = .ok r ∧ r.toNat = v.toNat % 2 ^ f.width := by
  obtain ⟨h', e, _, l, b⟩ := set_bits h f v hin
  have hin' : f.Inside h'.data.length := by rw [l]; exact hin
  obtain ⟨r, er, hr⟩ := C01_getter_bits chk h' f hin' hw
  refine ⟨h', r, e, er, ?_⟩
  apply Nat.eq_of_testBit_eq
  intro j
  rw [BitVec.testBit_toNat, hr, Nat.testBit_mod_two_pow, BitVec.testBit_toNat]
  by_cases hj : j < f.width
  · obtain ⟨h1, _⟩ := hin
    unfold Field.width at hj
    rw [b, if_pos (by omega), show f.hi - (f.hi - j) = j by omega]
  · simp [hj]

-- a 13-bit field given a 64-bit value
example : IPv4.frag_startset.Inside (IPv4.new).data.length ∧
    ((IPv4.new).set IPv4.frag_startset 0xFFFFFFFFFFFFABCD#64 >>= fun h => h.get true IPv4.frag_startset)
      = .ok 0xBCD#64 := by decide +kernel

/-- **C03**: a set keeps the header type, the buffer length and every bit outside the field. -/
theorem C03_set_frame (h : Hdr) (f : Field) (v : U64) (hin : f.Inside h.data.length) :
    ∃ h', h.set f v = .ok h' ∧ h'.ty = h.ty ∧ h'.data.length = h.data.length ∧
      ∀ i, (i < f.lo ∨ f.hi < i) → netBit h'.data i = netBit h.data i := by
  obtain ⟨h', e, t, l, b⟩ := set_bits h f v hin
  refine ⟨h', e, t, l, ?_⟩
  intro i hi
  rw [b, if_neg (by omega)]

/-- **C03** at the level of getters: every disjoint field reads the same before and after, including
the cases in which its getter panics. -/
theorem C03_other_fields (chk : Bool) (h h' : Hdr) (f g : Field) (v : U64)
    (hin : f.Inside h.data.length) (hs : h.set f v = .ok h') (hdis : f.Disjoint g) :
    h'.get chk g = h.get chk g := by
  obtain ⟨h'', e, _, l, b⟩ := C03_set_frame h f v hin
  obtain rfl : h'' = h' := by rw [e] at hs; exact Except.ok.inj hs
  unfold Hdr.get bitRange
  have key : (inclRange g.lo g.hi).foldlM (bitRangeStep h''.data) 0#64 =
      (inclRange g.lo g.hi).foldlM (bitRangeStep h.data) 0#64 := by
    rw [inclRange_eq]
    by_cases hle : g.lo ≤ g.hi
    · by_cases hb : g.hi / 8 < h.data.length
      · have hb1 : g.hi + 1 - g.lo = 0 ∨ (g.lo + (g.hi + 1 - g.lo) - 1) / 8 < h.data.length := by
          right; rw [show g.lo + (g.hi + 1 - g.lo) - 1 = g.hi by omega]; exact hb
        obtain ⟨r1, e1, q1⟩ := getLoop_ok h.data (g.hi + 1 - g.lo) g.lo 0#64 hb1
        obtain ⟨r2, e2, q2⟩ := getLoop_ok h''.data (g.hi + 1 - g.lo) g.lo 0#64 (by rw [l]; exact hb1)
        rw [e1, e2]; congr 1
        apply BitVec.eq_of_getLsbD_eq
        intro j hj
        rw [q1 j hj, q2 j hj]
        split
        · next hjn =>
          apply b
          unfold Field.Disjoint at hdis
          omega
        · rfl
      · have hb1 : h.data.length ≤ (g.lo + (g.hi + 1 - g.lo) - 1) / 8 := by
          rw [show g.lo + (g.hi + 1 - g.lo) - 1 = g.hi by omega]; omega
        rw [getLoop_err _ _ _ _ (by omega) hb1, getLoop_err _ _ _ _ (by omega) (by rw [l]; exact hb1)]
    · rw [show g.hi + 1 - g.lo = 0 by omega]; rfl
  rw [key]

-- hypotheses met by neighbouring fields sharing a byte
example : IPv4.flags.Inside (IPv4.new).data.length ∧ IPv4.flags.Disjoint IPv4.frag_startset ∧
    ((IPv4.new).set IPv4.flags 7#64 >>= fun h => h.get true IPv4.frag_startset) = .ok 0xdd#64 ∧
    ((IPv4.new).set IPv4.flags 7#64).toOption ≠ some IPv4.new := by
  refine ⟨by decide, Or.inl (by decide), by decide +kernel, by decide +kernel⟩

/-! ## C04 -/

/-- **C04** (a): writing back the value just read leaves the header unchanged. -/
theorem C04_set_read_value (chk : Bool) (h : Hdr) (f : Field) (v : U64)
    (hin : f.Inside h.data.length) (hw : f.width ≤ 64) (hg : h.get chk f = .ok v) :
    h.set f v = .ok h := by
  obtain ⟨r, er, hr⟩ := C01_getter_bits chk h f hin hw
  obtain rfl : r = v := by rw [er] at hg; exact Except.ok.inj hg
  obtain ⟨h', e, t, l, b⟩ := set_bits h f r hin
  rw [e]; congr 1
  have : h'.data = h.data := by
    apply eq_of_netBit _ _ l
    intro i _
    rw [b]
    split
    · next hi =>
      rw [hr]
      have : f.hi - i < f.width := by unfold Field.width; omega
      simp only [this, decide_true, Bool.true_and]
      congr 1; omega
    · rfl
  cases h; cases h'; simp_all

/-- **C04** (b): of two writes to one field the second wins. -/
theorem C04_last_write_wins (h : Hdr) (f : Field) (v w : U64) (hin : f.Inside h.data.length) :
    (h.set f v >>= fun h1 => h1.set f w) = h.set f w := by
  obtain ⟨h1, e1, t1, l1, b1⟩ := set_bits h f v hin
  obtain ⟨h2, e2, t2, l2, b2⟩ := set_bits h1 f w (by rw [l1]; exact hin)
  obtain ⟨h3, e3, t3, l3, b3⟩ := set_bits h f w hin
  simp only [e1, bind, Except.bind, e2, e3]
  congr 1
  have : h2.data = h3.data := by
    apply eq_of_netBit _ _ (by omega)
    intro i _
    rw [b2, b3, b1]
    split <;> simp_all
  cases h2; cases h3; simp_all

/-- **C04** (c): writes to disjoint fields commute. -/
theorem C04_disjoint_commute (h : Hdr) (f g : Field) (v w : U64) (hf : f.Inside h.data.length)
    (hg : g.Inside h.data.length) (hdis : f.Disjoint g) :
    (h.set f v >>= fun h1 => h1.set g w) = (h.set g w >>= fun h1 => h1.set f v) := by
  obtain ⟨h1, e1, t1, l1, b1⟩ := set_bits h f v hf
  obtain ⟨h2, e2, t2, l2, b2⟩ := set_bits h1 g w (by rw [l1]; exact hg)
  obtain ⟨h3, e3, t3, l3, b3⟩ := set_bits h g w hg
  obtain ⟨h4, e4, t4, l4, b4⟩ := set_bits h3 f v (by rw [l3]; exact hf)
  simp only [e1, bind, Except.bind, e2, e3, e4]
  congr 1
  have : h2.data = h4.data := by
    apply eq_of_netBit _ _ (by omega)
    intro i _
    rw [b2, b4, b1, b3]
    unfold Field.Disjoint at hdis
    by_cases q1 : f.lo ≤ i ∧ i ≤ f.hi
    · have q2 : ¬ (g.lo ≤ i ∧ i ≤ g.hi) := by omega
      simp only [q1, q2, and_self, if_true, if_false]
    · simp only [q1, if_false]
  cases h2; cases h4; simp_all

example : (TCP.new).get true TCP.data_startset = .ok 5#64 ∧
    TCP.data_startset.Disjoint TCP.res ∧ TCP.res.Inside (TCP.new).data.length ∧
    (TCP.new).set TCP.res 0xF#64 ≠ .ok TCP.new := by
  refine ⟨by decide +kernel, Or.inl (by decide), by decide, by decide +kernel⟩

/-! ## C05 -/

/-- The number of fields of `T` that contain bit `i`. -/
def coverCount (fs : List Field) (i : Nat) : Nat :=
  (fs.filter (fun f => decide (f.lo ≤ i ∧ i ≤ f.hi))).length

/-- The fields follow each other without gap from bit `a` to bit `b` (exclusive). -/
def chainFrom : Nat → List Field → Nat → Bool
  | a, [], b => a = b
  | a, f :: fs, b => f.lo = a && a ≤ f.hi && chainFrom (f.hi + 1) fs b

theorem chainFrom_le {a b : Nat} {fs : List Field} (h : chainFrom a fs b = true) : a ≤ b := by
  induction fs generalizing a with
  | nil => simp [chainFrom] at h; omega
  | cons f fs ih =>
    simp [chainFrom] at h
    have := ih h.2; omega

theorem chainFrom_lo {a b : Nat} {fs : List Field} (h : chainFrom a fs b = true) :
    ∀ f ∈ fs, a ≤ f.lo ∧ f.lo ≤ f.hi ∧ f.hi < b := by
  induction fs generalizing a with
  | nil => simp
  | cons f fs ih =>
    simp only [chainFrom, Bool.and_eq_true, decide_eq_true_eq] at h
    have hb := chainFrom_le h.2
    intro g hg
    rcases List.mem_cons.mp hg with rfl | hg
    · omega
    · have := ih h.2 g hg; omega

theorem chainFrom_cover {a b : Nat} {fs : List Field} (h : chainFrom a fs b = true) (i : Nat) :
    coverCount fs i = if a ≤ i ∧ i < b then 1 else 0 := by
  induction fs generalizing a with
  | nil =>
    simp only [chainFrom, decide_eq_true_eq] at h
    simp only [coverCount, List.filter_nil, List.length_nil]
    rw [if_neg (by omega)]
  | cons f fs ih =>
    have hall := h
    simp only [chainFrom, Bool.and_eq_true, decide_eq_true_eq] at h
    have hb := chainFrom_le h.2
    have := ih h.2
    simp only [coverCount, List.filter_cons] at this ⊢
    by_cases hi : f.lo ≤ i ∧ i ≤ f.hi
    · simp only [hi, and_self, decide_true, if_true, List.length_cons]
      rw [this, if_neg (by omega), if_pos (by omega)]
    · simp only [hi, decide_false, Bool.false_eq_true, if_false]
      rw [this]
      by_cases h2 : f.hi + 1 ≤ i ∧ i < b
      · rw [if_pos h2, if_pos (by omega)]
      · rw [if_neg h2, if_neg (by omega)]

theorem predefined_chain : ∀ T ∈ predefined, chainFrom 0 T.fields (8 * T.size) = true := by decide

/-- **C05** (a): in each of the 21 predefined headers every field is inside the header and every bit
of the header belongs to exactly one field. -/
theorem C05_fields_tile (T : HeaderDef) (hT : T ∈ predefined) :
    (∀ f ∈ T.fields, f.Inside T.size) ∧ ∀ i, i < 8 * T.size → coverCount T.fields i = 1 := by
  refine ⟨predefined_inside T hT, ?_⟩
  intro i hi
  rw [chainFrom_cover (predefined_chain T hT), if_pos (by omega)]

/-- **C05** (b): two headers of the same predefined kind, both of the declared size, whose fields read
equal (getter for fields up to 64 bits, `bytes` for the wider ones) have equal bytes. -/
theorem C05_fields_determine (chk : Bool) (T : HeaderDef) (hT : T ∈ predefined) (d e : Bytes)
    (hd : d.length = T.size) (he : e.length = T.size)
    (hget : ∀ f ∈ T.fields, f.width ≤ 64 → (T.ofVec d).get chk f = (T.ofVec e).get chk f)
    (hbytes : ∀ f ∈ T.fields, 64 < f.width →
      (T.ofVec d).bytes chk f.hi f.lo = (T.ofVec e).bytes chk f.hi f.lo) : d = e := by
  have hwide : ∀ T ∈ predefined, ∀ f ∈ T.fields, 64 < f.width → f.width = 8 * 16 := by decide
  apply eq_of_netBit _ _ (by omega)
  intro i hi
  have hc := (C05_fields_tile T hT).2 i (by omega)
  obtain ⟨f, hf⟩ : ∃ f, f ∈ T.fields.filter (fun f => decide (f.lo ≤ i ∧ i ≤ f.hi)) := by
    apply List.exists_mem_of_length_pos
    unfold coverCount at hc; omega
  rw [List.mem_filter] at hf
  obtain ⟨hfm, hfi⟩ := hf
  simp only [decide_eq_true_eq] at hfi
  have hin := predefined_inside T hT f hfm
  by_cases hw : f.width ≤ 64
  · obtain ⟨v, ev, hv, _⟩ := C01_getter_value chk (T.ofVec d) f (by simpa [HeaderDef.ofVec, hd] using hin) hw
    obtain ⟨w, ew, hw', _⟩ := C01_getter_value chk (T.ofVec e) f (by simpa [HeaderDef.ofVec, he] using hin) hw
    have := hget f hfm hw
    rw [ev, ew] at this
    have : v = w := Except.ok.inj this
    subst this
    apply netBit_of_fieldVal d e f.lo f.hi (by have := hin.2; omega) (by have := hin.2; omega) _ i hfi.1 hfi.2
    exact hv.symm.trans hw'
  · have h16 := hwide T hT f hfm (by omega)
    unfold Field.width at h16
    have hhi : f.hi = f.lo + 8 * 16 - 1 := by have := hin.1; omega
    have := hbytes f hfm (by omega)
    simp only [Hdr.bytes, HeaderDef.ofVec, hhi] at this
    have h2 := hin.2
    rw [getBytes_ok chk d f.lo 16 (by omega) (by omega) (by omega),
      getBytes_ok chk e f.lo 16 (by omega) (by omega) (by omega)] at this
    have h3 := congrArg (fun x => netBit x (i - f.lo)) (Except.ok.inj this)
    rw [netBit_octetsAt _ _ _ _ (by omega) (by omega), netBit_octetsAt _ _ _ _ (by omega) (by omega)] at h3
    rwa [show f.lo + (i - f.lo) = i by omega] at h3

-- the table is not empty, IPv6 (with its two wide fields) is in it; the test header does not tile
example : predefined.length = 21 ∧ IPv6 ∈ predefined ∧ 64 < IPv6.src.width ∧
    coverCount Tester.fields 66 = 2 := by decide

/-! ## C06 -/

/-- **C06** (a): `bytes` of a range of `n > 0` octets inside the buffer returns these octets, whether
or not the range starts at a byte boundary (`8 * n < 2^64`: the range is a range of `usize`). -/
theorem C06_bytes_value (chk : Bool) (h : Hdr) (lo n : Nat) (hn : n ≠ 0)
    (hin : lo + 8 * n ≤ 8 * h.data.length) (hs : 8 * n < 2 ^ 64) :
    h.bytes chk (lo + 8 * n - 1) lo = .ok (octetsAt h.data lo n) :=
  getBytes_ok chk h.data lo n hn hin hs

/-- **C06** (a'): at a byte boundary these are the bytes `a .. a + n` of the buffer. -/
theorem C06_bytes_aligned (chk : Bool) (h : Hdr) (a n : Nat) (hn : n ≠ 0)
    (hin : a + n ≤ h.data.length) (hs : 8 * n < 2 ^ 64) :
    h.bytes chk (8 * a + 8 * n - 1) (8 * a) = .ok ((h.data.drop a).take n) := by
  rw [C06_bytes_value chk h (8 * a) n hn (by omega) hs, octetsAt_aligned _ _ _ hin]

/-- **C06** (b): `set_bytes` keeps length, type and all bits outside the range, and `bytes` then returns
what was written. -/
theorem C06_set_bytes (chk : Bool) (h : Hdr) (lo : Nat) (v : Bytes) (hv : v ≠ [])
    (hin : lo + 8 * v.length ≤ 8 * h.data.length) (hs : 8 * v.length < 2 ^ 64) :
    ∃ h', h.set_bytes chk (lo + 8 * v.length - 1) lo v = .ok h' ∧ h'.ty = h.ty ∧
      h'.data.length = h.data.length ∧
      (∀ i, (i < lo ∨ lo + 8 * v.length ≤ i) → netBit h'.data i = netBit h.data i) ∧
      h'.bytes chk (lo + 8 * v.length - 1) lo = .ok v := by
  obtain ⟨d', e, l, b⟩ := setBytes_ok chk h.data lo v hv hin hs
  refine ⟨{ h with data := d' }, by simp only [Hdr.set_bytes, e]; rfl, rfl, l, ?_, ?_⟩
  · intro i hi
    simp only
    rw [b, if_neg (by omega)]
  · have hl : v.length ≠ 0 := by simpa using hv
    rw [C06_bytes_value chk _ lo v.length hl (by simp only [l]; exact hin) hs]
    congr 1
    apply eq_of_netBit _ _ (by simp)
    intro i hi
    simp at hi
    rw [netBit_octetsAt _ _ _ _ (by simp only [l]; exact hin) hi]
    simp only
    rw [b, if_pos (by omega)]
    congr 1; omega

/-- **C06** (c): `set_bytes` panics when the value has the wrong number of octets, `bytes` when the
range is not a whole number of octets. -/
theorem C06_assert (chk : Bool) (h : Hdr) (lo hi : Nat) (v : Bytes) (hle : lo ≤ hi) (hs : hi < 2 ^ 64 - 1) :
    (v.length * 8 ≠ hi - lo + 1 → h.set_bytes chk hi lo v = .error .assert) ∧
    ((hi - lo + 1) % 8 ≠ 0 → h.bytes chk hi lo = .error .assert) := by
  constructor
  · intro hne
    simp only [Hdr.set_bytes, setBytes, usizeSub_ok chk hi lo hle,
      usizeAdd_ok chk (hi - lo) 1 (by omega), bind, Except.bind, if_pos hne]
    rfl
  · intro hne
    simp only [Hdr.bytes, getBytes, usizeSub_ok chk hi lo hle,
      usizeAdd_ok chk (hi - lo) 1 (by omega), bind, Except.bind, if_pos hne]
    rfl

-- an unaligned two-octet range
example : ((IPv4.new).set_bytes true 19 4 [0xAB#8, 0xCD#8] >>= fun h => h.bytes true 19 4)
    = .ok [0xAB#8, 0xCD#8] ∧
    ((IPv4.new).set_bytes true 19 4 [0xAB#8, 0xCD#8]).map (fun h => h.data.take 4) =
      .ok [0x4A#8, 0xBC#8, 0xD0#8, 0x14#8] := by decide +kernel

/-! ## C07 -/

/-- The number of low bits of a wide field that its getter returns when overflow checks are off. -/
def wideBits (w : Nat) : Nat := if w % 64 = 0 then 64 else w % 64

/-- **C07** (a): with overflow checks the getter of a field wider than 64 bits always panics. -/
theorem C07_wide_getter_checked (h : Hdr) (f : Field) (hin : f.Inside h.data.length)
    (hw : 64 < f.width) (hs : f.width < 2 ^ 64) : h.get true f = .error .overflow := by
  obtain ⟨h1, h2⟩ := hin
  unfold Field.width at *
  obtain ⟨v, ev, _⟩ := getLoop_ok h.data (f.hi + 1 - f.lo) f.lo 0#64
    (by right; rw [show f.lo + (f.hi + 1 - f.lo) - 1 = f.hi by omega]; omega)
  have : ¬ (f.hi - f.lo + 1 ≤ 64) := by omega
  simp only [Hdr.get, bitRange, inclRange_eq, ev, usizeSub_ok true f.hi f.lo h1,
    usizeAdd_ok true (f.hi - f.lo) 1 (by omega), bind, Except.bind]
  simp [usizeSub, this]

/-- **C07** (b): without overflow checks it returns the field modulo `2^k` with `k = wideBits width`. -/
theorem C07_wide_getter_unchecked (h : Hdr) (f : Field) (hin : f.Inside h.data.length)
    (hw : 64 < f.width) (hs : f.width < 2 ^ 64) :
    ∃ v, h.get false f = .ok v ∧
      v.toNat = fieldVal h.data f.lo f.hi % 2 ^ wideBits f.width := by
  obtain ⟨h1, h2⟩ := hin
  unfold Field.width at *
  generalize hwd : f.hi - f.lo + 1 = w at *
  obtain ⟨v, ev, hv⟩ := getLoop_ok h.data (f.hi + 1 - f.lo) f.lo 0#64
    (by right; rw [show f.lo + (f.hi + 1 - f.lo) - 1 = f.hi by omega]; omega)
  have hn : ¬ (w ≤ 64) := by omega
  have hs2 : ¬ (64 + 2 ^ 64 - w < 64) := by omega
  have hmod : (64 + 2 ^ 64 - w) % 64 = 64 - wideBits w := by unfold wideBits; split <;> omega
  have hk : 0 < wideBits w ∧ wideBits w ≤ 64 := by unfold wideBits; split <;> omega
  generalize hkk : wideBits w = k at *
  refine ⟨(v <<< (64 - k)) >>> (64 - k), ?_, ?_⟩
  · simp only [Hdr.get, bitRange, inclRange_eq, ev, usizeSub_ok false f.hi f.lo h1,
      usizeAdd_ok false (f.hi - f.lo) 1 (by omega), bind, Except.bind, hwd]
    simp only [usizeSub, hn, if_false, Bool.false_eq_true, shl64, shr64, hs2, hmod]
  · apply Nat.eq_of_testBit_eq
    intro j
    rw [Nat.testBit_mod_two_pow, testBit_fieldVal _ _ _ h2, BitVec.testBit_toNat]
    simp only [BitVec.getLsbD_ushiftRight, BitVec.getLsbD_shiftLeft]
    by_cases hj : j < k
    · have a1 : 64 - k + j < 64 := by omega
      have a2 : ¬ (64 - k + j < 64 - k) := by omega
      have a3 : 64 - k + j - (64 - k) = j := by omega
      have a4 : j < f.hi + 1 - f.lo := by omega
      rw [a3, hv j (by omega), if_pos a4, show f.lo + (f.hi + 1 - f.lo) - 1 - j = f.hi - j by omega]
      simp [a1, a2, a4, hj]
    · have a1 : ¬ 64 - k + j < 64 := by omega
      simp [a1, hj]

/-- **C07** (c): the setter of a field wider than 64 bits stores the 64-bit value in the low bits and
zeroes the others. -/
theorem C07_wide_setter (h : Hdr) (f : Field) (v : U64) (hin : f.Inside h.data.length)
    (hw : 64 ≤ f.width) :
    ∃ h', h.set f v = .ok h' ∧ fieldVal h'.data f.lo f.hi = v.toNat := by
  obtain ⟨h', e, _, l, b⟩ := set_bits h f v hin
  obtain ⟨h1, h2⟩ := hin
  refine ⟨h', e, ?_⟩
  apply Nat.eq_of_testBit_eq
  intro j
  rw [testBit_fieldVal _ _ _ (by omega), BitVec.testBit_toNat, b]
  unfold Field.width at hw
  by_cases hj : j < f.hi + 1 - f.lo
  · rw [if_pos (by omega), show f.hi - (f.hi - j) = j by omega]; simp [hj]
  · simp only [hj, decide_false, Bool.false_and]
    rw [BitVec.getLsbD_of_ge _ _ (by omega)]

-- IPv6 addresses: 128 bits
example : IPv6.src.Inside (IPv6.new).data.length ∧ 64 < IPv6.src.width ∧ IPv6.src.width < 2 ^ 64 ∧
    wideBits IPv6.src.width = 64 ∧
    (IPv6.new).get true IPv6.src = .error .overflow ∧
    (IPv6.new).get false IPv6.src = .ok 0x00008a2e03707334#64 := by decide +kernel

/-! ## C08 (the part about what a panicking setter leaves behind is in `Verif.Props.Heap`) -/

/-- **C08** (a): the getter of a field of 1..64 bits panics iff the last byte of the field is outside
the buffer. -/
theorem C08_getter_panics_iff (chk : Bool) (h : Hdr) (f : Field) (hle : f.lo ≤ f.hi)
    (hw : f.width ≤ 64) : (∃ e, h.get chk f = .error e) ↔ h.data.length ≤ f.hi / 8 := by
  constructor
  · rintro ⟨e, he⟩
    by_cases hb : f.hi / 8 < h.data.length
    · obtain ⟨v, ev, _⟩ := C01_getter_value chk h f ⟨hle, by omega⟩ hw
      rw [ev] at he; cases he
    · omega
  · intro hb
    exact ⟨_, bitRange_err chk h.data f.lo f.hi hle hb⟩

/-- **C08** (b): the setter of a field (of any width) panics iff the last byte of the field is outside
the buffer. -/
theorem C08_setter_panics_iff (h : Hdr) (f : Field) (v : U64) (hle : f.lo ≤ f.hi) :
    (∃ e, h.set f v = .error e) ↔ h.data.length ≤ f.hi / 8 := by
  constructor
  · rintro ⟨e, he⟩
    by_cases hb : f.hi / 8 < h.data.length
    · obtain ⟨h', e', _⟩ := set_bits h f v ⟨hle, by omega⟩
      rw [e'] at he; cases he
    · omega
  · intro hb
    exact ⟨.index, by simp only [Hdr.set, setBitRange_err h.data f.lo f.hi v hle hb]; rfl⟩

-- a UDP header made from 5 bytes: `src` readable, `length` not
example : (UDP.ofVec [1#8, 2#8, 3#8, 4#8, 5#8]).get true UDP.src = .ok 0x102#64 ∧
    (UDP.ofVec [1#8, 2#8, 3#8, 4#8, 5#8]).get true UDP.length = .error .index := by decide +kernel

/-! ## C09 -/

/-- **C09**: on a slice of at least the declared size, `XSlice::from(slice)` shows the first `size`
bytes, and all its getters and `bytes` return what the owned header made from these bytes returns
(including when they panic). -/
theorem C09_slice_header_agrees (T : HeaderDef) (w : Fast.Win) (hb : w.InBounds) (hl : T.size ≤ w.len) :
    (Fast.SHdr.from T w).as_slice.bytes = w.bytes.take T.size ∧
    (Fast.SHdr.from T w).as_slice.InBounds ∧
    (∀ chk f, (Fast.SHdr.from T w).get chk f = (T.ofVec (w.bytes.take T.size)).get chk f) ∧
    (∀ chk msb lsb, (Fast.SHdr.from T w).bytes chk msb lsb =
      (T.ofVec (w.bytes.take T.size)).bytes chk msb lsb) := by
  have hin : ({ w with len := T.size } : Fast.Win).InBounds := by
    unfold Fast.Win.InBounds at *; simp only; omega
  have hby : ({ w with len := T.size } : Fast.Win).bytes = w.bytes.take T.size := by
    simp only [Fast.Win.bytes, List.take_take]
    congr 1; omega
  refine ⟨hby, hin, ?_, ?_⟩
  · intro chk f
    simp only [Fast.SHdr.get, Fast.SHdr.from, Hdr.get, HeaderDef.ofVec, Fast.bitRange_eq chk _ hin, hby]
  · intro chk msb lsb
    simp only [Fast.SHdr.bytes, Fast.SHdr.from, Hdr.bytes, HeaderDef.ofVec, getBytes,
      Fast.bitRange_eq chk _ hin, hby]

-- a slice of 6 bytes in the middle of a 10-byte buffer, viewed as a 4-byte VLAN tag
example : let w : Fast.Win := { base := (List.range 10).map (BitVec.ofNat 8), off := 3, len := 6 }
    w.InBounds ∧ Vlan.size ≤ w.len ∧ (Fast.SHdr.from Vlan w).get true Vlan.vid = .ok 0x304#64 := by
  refine ⟨by unfold Fast.Win.InBounds; decide, by decide, by decide +kernel⟩

end PacketRs
