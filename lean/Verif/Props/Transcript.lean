import Verif.Props.Show
import Verif.Props.Reparse
import Verif.Samples
/-!
# C85: the text `show()` prints identifies the packet

Texts are those of `Spec/Show`.
-/
namespace PacketRs
open Spec Out

/-! ## The dump of the bytes -/

theorem digits_inj {m n : Nat} {x y : List Char}
    (h : Nat.toDigits 10 m ++ ' ' :: x = Nat.toDigits 10 n ++ ' ' :: y) : m = n ∧ x = y := by
  have hd : ∀ k, ∀ c ∈ Nat.toDigits 10 k, c ≠ ' ' := by
    rintro k c hc rfl
    exact absurd (Nat.isDigit_of_mem_toDigits (by omega) (by omega) hc) (by decide)
  have key : ∀ (u v : List Char), (∀ c ∈ u, c ≠ ' ') → (∀ c ∈ v, c ≠ ' ') → u ++ ' ' :: x = v ++ ' ' :: y →
      u = v ∧ x = y := by
    intro u
    induction u with
    | nil =>
      intro v _ hv e
      cases v with
      | nil => exact ⟨rfl, by simpa using e⟩
      | cons c v => simp only [List.nil_append, List.cons_append, List.cons.injEq] at e; exact absurd e.1.symm (hv c (by simp))
    | cons c u ih =>
      intro v hu hv e
      cases v with
      | nil => simp only [List.nil_append, List.cons_append, List.cons.injEq] at e; exact absurd e.1 (hu c (by simp))
      | cons c' v =>
        simp only [List.cons_append, List.cons.injEq] at e
        obtain ⟨e1, e2⟩ := ih v (fun c h => hu c (by simp [h])) (fun c h => hv c (by simp [h])) e.2
        exact ⟨by rw [e.1, e1], e2⟩
  obtain ⟨e1, e2⟩ := key _ _ (hd m) (hd n) h
  have := congrArg (fun t => Nat.ofDigitChars 10 t 0) e1
  simp only [Nat.ofDigitChars_ten_toDigits] at this
  exact ⟨this, e2⟩

theorem rawLines_inj {v w : Bytes} (hl : v.length = w.length) {x y : List Char}
    (h : rawLines v ++ x = rawLines w ++ y) : v = w := by
  have key : ∀ (v w : Bytes) (k : Nat), v.length = w.length → ∀ x y : List Char,
      (v.mapIdx fun i b => hexByte b.toNat ++ [' '] ++ if (k + i + 1) % 16 = 0 then ['\n'] else []).flatten ++ x =
      (w.mapIdx fun i b => hexByte b.toNat ++ [' '] ++ if (k + i + 1) % 16 = 0 then ['\n'] else []).flatten ++ y →
      v = w := by
    intro v
    induction v with
    | nil => intro w k hl x y _; exact (List.length_eq_zero_iff.1 hl.symm).symm
    | cons b v ih =>
      intro w k hl x y h
      cases w with
      | nil => simp at hl
      | cons c w =>
        simp only [List.mapIdx_cons, List.flatten_cons] at h
        simp only [List.append_assoc] at h
        obtain ⟨h1, h2⟩ := List.append_inj h (by rw [length_hexByte, length_hexByte])
        have e1 := hexByte_inj _ _ h1
        have h2 := List.append_cancel_left (List.append_cancel_left h2)
        have hs : ∀ i, k + (i + 1) + 1 = k + 1 + i + 1 := by omega
        simp only [hs, ← List.append_assoc] at h2
        rw [e1, ih w (k + 1) (by simpa using hl) x y h2]
  refine key v w 0 hl x y ?_
  simpa [rawLines] using h

theorem rawText_inj {v w : Bytes} (h : rawText v = rawText w) : v = w := by
  unfold rawText at h
  simp only [List.append_assoc] at h
  have h := List.append_cancel_left h
  obtain ⟨e1, e2⟩ := digits_inj h
  have e3 : rawLines v ++ ['\n'] = rawLines w ++ ['\n'] := List.append_cancel_left (as := "bytes ####\n".toList) e2
  exact rawLines_inj e1 e3

/-! ## The headers -/

theorem headLines_inj : ∀ T ∈ predefined, ∀ U ∈ predefined, headLines T.name = headLines U.name → T = U := by
  decide +kernel

theorem length_headLines : ∀ T ∈ predefined, (headLines T.name).length = 78 := by decide +kernel

/-- Equal fields are equal bytes, up to the declared size. -/
theorem take_of_fields {T : HeaderDef} (hT : T ∈ predefined) {d e : Bytes} (hd : T.size ≤ d.length) (he : T.size ≤ e.length)
    (h : ∀ f ∈ T.fields, fieldVal d f.lo f.hi = fieldVal e f.lo f.hi) : d.take T.size = e.take T.size := by
  apply eq_of_netBit _ _ (by simp; omega)
  intro i hi
  have hi : i < 8 * T.size := by simp at hi; omega
  have hc := (C05_fields_tile T hT).2 i hi
  obtain ⟨f, hf⟩ : ∃ f, f ∈ T.fields.filter (fun f => decide (f.lo ≤ i ∧ i ≤ f.hi)) := by
    apply List.exists_mem_of_length_pos
    unfold coverCount at hc; omega
  rw [List.mem_filter] at hf
  have hr : f.lo ≤ i ∧ i ≤ f.hi := by simpa using hf.2
  have hin := predefined_inside T hT f hf.1
  rw [netBit_take, netBit_take, netBit_of_fieldVal d e f.lo f.hi (hin.mono hd).2 (hin.mono he).2 (h f hf.1) i hr.1 hr.2]

theorem fields_of_take {T : HeaderDef} (hT : T ∈ predefined) {d e : Bytes} (hd : T.size ≤ d.length) (he : T.size ≤ e.length)
    (h : d.take T.size = e.take T.size) : ∀ f ∈ T.fields, fieldVal d f.lo f.hi = fieldVal e f.lo f.hi := by
  intro f hf
  have hin := predefined_inside T hT f hf
  refine fieldVal_congr d e _ _ (hin.mono hd).2 (hin.mono he).2 fun i h1 h2 => ?_
  have := congrArg (netBit · i) h
  simpa [netBit_take, show i < 8 * T.size from Nat.lt_of_le_of_lt h2 hin.2] using this

theorem length_fieldLines (fs : List Field) (d e : Bytes) :
    (fs.map (fieldLine d)).flatten.length = (fs.map (fieldLine e)).flatten.length := by
  induction fs with
  | nil => rfl
  | cons f fs ih => simp only [List.map_cons, List.flatten_cons, List.length_append, ih, length_fieldLine d e f]

theorem headerText_inj {T U : HeaderDef} (hT : T ∈ predefined) (hU : U ∈ predefined) {d e : Bytes}
    (hd : T.size ≤ d.length) (he : U.size ≤ e.length) {x y : List Char}
    (h : headerText T d ++ x = headerText U e ++ y) : T = U ∧ d.take T.size = e.take U.size ∧ x = y := by
  unfold headerText at h
  rw [List.append_assoc, List.append_assoc] at h
  obtain ⟨h1, h2⟩ := List.append_inj h (by rw [length_headLines T hT, length_headLines U hU])
  obtain rfl := headLines_inj T hT U hU h1
  obtain ⟨h3, h4⟩ := List.append_inj h2 (length_fieldLines _ _ _)
  have hf := (C55_text_determines_fields true T d e (fun f hf => (predefined_inside T hT f hf).mono hd)
    (fun f hf => (predefined_inside T hT f hf).mono he)).mp (by
      rw [C55_predefined true T hT d hd, C55_predefined true T hT e he, h3])
  exact ⟨rfl, take_of_fields hT hd he hf, h4⟩

/-- A packet of predefined headers, none shorter than declared. -/
def Printable (p : Packet) : Prop := ∀ h ∈ p.hdrs, h.ty ∈ predefined ∧ h.ty.size ≤ h.data.length

theorem Printable.inside {p : Packet} (hp : Printable p) : ∀ h ∈ p.hdrs, ∀ f ∈ h.ty.fields, f.Inside h.data.length :=
  fun h hh f hf => (predefined_inside h.ty (hp h hh).1 f hf).mono (hp h hh).2

theorem headersText_inj : ∀ (hs gs : List Hdr), (∀ h ∈ hs, h.ty ∈ predefined ∧ h.ty.size ≤ h.data.length) →
    (∀ h ∈ gs, h.ty ∈ predefined ∧ h.ty.size ≤ h.data.length) → ∀ v w : Bytes,
    (hs.map fun h => headerText h.ty h.data).flatten ++ rawText v =
      (gs.map fun h => headerText h.ty h.data).flatten ++ rawText w →
    hs.map (fun h => (h.ty, h.data.take h.ty.size)) = gs.map (fun h => (h.ty, h.data.take h.ty.size)) ∧ v = w := by
  intro hs
  have hash : ∀ (T : HeaderDef) (d : Bytes) (x : List Char), (headerText T d ++ x).head? = some '#' := by
    intro T d x
    have e : "#### ".toList = ['#', '#', '#', '#', ' '] := by decide +kernel
    have : ∀ y : List Char, ("#### ".toList ++ y).head? = some '#' := by intro y; rw [e]; rfl
    unfold headerText headLines
    repeat rw [List.append_assoc]
    exact this _
  have nl : ∀ v, (rawText v).head? = some '\n' := by
    intro v
    have e : "\n#### raw ".toList = ['\n', '#', '#', '#', '#', ' ', 'r', 'a', 'w', ' '] := by decide +kernel
    have : ∀ y : List Char, ("\n#### raw ".toList ++ y).head? = some '\n' := by intro y; rw [e]; rfl
    unfold rawText
    repeat rw [List.append_assoc]
    exact this _
  induction hs with
  | nil =>
    intro gs _ _ v w e
    cases gs with
    | nil => exact ⟨rfl, rawText_inj (by simpa using e)⟩
    | cons g gs =>
      have := congrArg List.head? e
      simp only [List.map_nil, List.flatten_nil, List.nil_append, List.map_cons, List.flatten_cons, List.append_assoc] at this
      rw [nl, hash] at this
      exact absurd this (by decide)
  | cons h hs ih =>
    intro gs hh hg v w e
    cases gs with
    | nil =>
      have := congrArg List.head? e
      simp only [List.map_nil, List.flatten_nil, List.nil_append, List.map_cons, List.flatten_cons, List.append_assoc] at this
      rw [nl, hash] at this
      exact absurd this (by decide)
    | cons g gs =>
      simp only [List.map_cons, List.flatten_cons, List.append_assoc] at e
      obtain ⟨e1, e2, e3⟩ := headerText_inj (hh h (by simp)).1 (hg g (by simp)).1 (hh h (by simp)).2 (hg g (by simp)).2 e
      obtain ⟨e4, e5⟩ := ih gs (fun x hx => hh x (by simp [hx])) (fun x hx => hg x (by simp [hx])) v w e3
      exact ⟨by rw [List.map_cons, List.map_cons, e4, e1, ← e1, e2, e1], e5⟩

/-- **C85** (packets): two packets of predefined headers, none shorter than declared, print the same text iff they have the same
header types in the same order, the headers agree in their declared bytes, and both serialize to the same bytes. -/
theorem C85_text_iff (chk : Bool) (p q : Packet) (hp : Printable p) (hq : Printable q) :
    p.show chk [] = q.show chk [] ↔
      p.hdrs.map (fun h => (h.ty, h.data.take h.ty.size)) = q.hdrs.map (fun h => (h.ty, h.data.take h.ty.size)) ∧
      p.to_vec = q.to_vec := by
  rw [C55_packet_text chk p hp.inside, C55_packet_text chk q hq.inside]
  simp only [List.nil_append, Prod.mk.injEq, true_and]
  constructor
  · exact headersText_inj _ _ hp hq _ _
  · rintro ⟨h1, h2⟩
    rw [h2]
    congr 2
    obtain ⟨hs, pl⟩ := p
    obtain ⟨gs, pl'⟩ := q
    unfold Printable at hp hq
    simp only at h1 hp hq ⊢
    clear h2
    induction hs generalizing gs with
    | nil => cases gs with
      | nil => rfl
      | cons => simp at h1
    | cons h hs ih => cases gs with
      | nil => simp at h1
      | cons g gs =>
        simp only [List.map_cons, List.cons.injEq, Prod.mk.injEq] at h1
        obtain ⟨⟨e1, e2⟩, e3⟩ := h1
        rw [List.map_cons, List.map_cons, ih (fun x hx => hp x (by simp [hx])) gs (fun x hx => hq x (by simp [hx])) e3]
        congr 1
        have c1 := hp h (by simp)
        have c2 := hq g (by simp)
        obtain ⟨ty, d⟩ := h
        obtain ⟨ty', d'⟩ := g
        simp only at e1 e2 c1 c2 ⊢
        subst e1
        have := (C55_text_determines_fields true ty d d' (fun f hf => (predefined_inside ty c1.1 f hf).mono c1.2)
          (fun f hf => (predefined_inside ty c1.1 f hf).mono c2.2)).mpr (fields_of_take c1.1 c1.2 c2.2 e2)
        rw [C55_predefined true ty c1.1 d c1.2, C55_predefined true ty c1.1 d' c2.2, Prod.mk.injEq] at this
        simpa [headerText] using this.2

/-- **C85** (packets whose headers have their declared sizes): the text determines the packet. -/
theorem C85_text_determines (chk : Bool) (p q : Packet) (hp : ∀ h ∈ p.hdrs, h.ty ∈ predefined ∧ h.data.length = h.ty.size)
    (hq : ∀ h ∈ q.hdrs, h.ty ∈ predefined ∧ h.data.length = h.ty.size) : p.show chk [] = q.show chk [] ↔ p = q := by
  refine ⟨fun h => ?_, fun h => by rw [h]⟩
  obtain ⟨h1, h2⟩ := (C85_text_iff chk p q (fun x hx => ⟨(hp x hx).1, by rw [(hp x hx).2]; exact Nat.le_refl _⟩)
    (fun x hx => ⟨(hq x hx).1, by rw [(hq x hx).2]; exact Nat.le_refl _⟩)).mp h
  have full : ∀ l : List Hdr, (∀ x ∈ l, x.ty ∈ predefined ∧ x.data.length = x.ty.size) →
      (l.map fun h => (h.ty, h.data.take h.ty.size)).map (fun x => (⟨x.1, x.2⟩ : Hdr)) = l := by
    intro l hl
    rw [List.map_map]
    conv => rhs; rw [← List.map_id l]
    apply List.map_congr_left
    intro x hx
    simp [← (hl x hx).2]
  have e : p.hdrs = q.hdrs := by rw [← full p.hdrs hp, ← full q.hdrs hq, h1]
  obtain ⟨hs, pl⟩ := p
  obtain ⟨gs, pl'⟩ := q
  simp only at e
  subst e
  rw [to_vec_eq_wire, to_vec_eq_wire] at h2
  congr 1
  simpa [wire] using h2

/-- **C85** (where a header ends is not printed): with a header longer than declared the text is ambiguous: a byte that is part
of the header and a byte of the payload look alike. -/
theorem C85_end_of_header_not_shown : ∃ p q : Packet, Printable p ∧ Printable q ∧ p ≠ q ∧ p.hdrs.length = q.hdrs.length ∧
    ∀ chk, p.show chk [] = q.show chk [] := by
  refine ⟨⟨[Vlan.ofVec [0x6a#8, 0xbc#8, 0x08#8, 0x00#8, 0x5f#8]], []⟩, ⟨[Vlan.ofVec [0x6a#8, 0xbc#8, 0x08#8, 0x00#8]], [0x5f#8]⟩,
    ?_, ?_, by decide, rfl, ?_⟩
  · unfold Printable; decide
  · unfold Printable; decide
  · intro chk
    rw [C85_text_iff chk _ _ (by unfold Printable; decide) (by unfold Printable; decide)]
    decide

/-! ## Parsed frames -/

theorem parsed_predefined {l : Layer} {b : Bytes} {hs : List Hdr} {pl : Bytes} (h : Dissect l b hs pl) :
    ∀ g ∈ hs, g.ty ∈ predefined := by
  have hp : ∀ T ∈ predefined, T ∈ predefined := fun _ h => h
  induction h <;> simp_all [predefined, Spec.optH] <;> grind

/-- **C85** (frames): two frames the parser accepts print the same text after parsing iff they are the same frame. -/
theorem C85_frames (chk : Bool) (b b' : Bytes) (p p' : Packet) (h : Slow.parse chk b = .ok p) (h' : Slow.parse chk b' = .ok p') :
    p.show chk [] = p'.show chk [] ↔ b = b' := by
  have ok : ∀ b p, Slow.parse chk b = .ok p → ∀ x ∈ p.hdrs, x.ty ∈ predefined ∧ x.data.length = x.ty.size := by
    intro b p h x hx
    obtain ⟨-, d⟩ := (C21_parse_frame chk b p.hdrs p.payload).mp h
    exact ⟨parsed_predefined d x hx, (C24_accounts_frame chk b p h).1 x hx⟩
  rw [C85_text_determines chk p p' (ok b p h) (ok b' p' h')]
  constructor
  · intro e
    exact (C57_injective chk b b' p p' h h' (by rw [e])).1
  · rintro rfl
    exact Except.ok.inj (h.symm.trans h')

/-- **C85** (both parsers): a packet slice prints exactly what the copied packet prints. -/
theorem C85_slices_print_alike (chk : Bool) (w : Fast.Win) (hb : w.InBounds) (p : Fast.PacketSlice) (q : Packet)
    (hp : Fast.parse chk w = .ok p) (hq : Slow.parse chk w.bytes = .ok q) (t : Text) : p.show chk t = q.show chk t := by
  have hf := C26_parse chk w hb
  rw [hp, hq] at hf
  injection hf with hf
  subst hf
  have inb := (C27_frame chk w hb p hp).2.2.2.2.1
  unfold Fast.PacketSlice.show Packet.show
  rw [← p.to_vec_toPacket, Out.bind_def, Out.bind_def]
  have : ∀ (l : List Fast.SHdr), (∀ g ∈ l, g.win.InBounds) → ∀ t, forEach l (fun h => h.show chk) t =
      forEach (l.map Fast.SHdr.toHdr) (fun h => h.show chk) t := by
    intro l
    induction l with
    | nil => intro _ t; rfl
    | cons g l ih =>
      intro hl t
      have e : g.show chk t = g.toHdr.show chk t := by rw [C55_slice_same chk g (hl g (by simp))]; rfl
      rw [List.map_cons, forEach, forEach, Out.bind_def, Out.bind_def, e]
      cases g.toHdr.show chk t with
      | mk r t' => cases r with
        | error e => rfl
        | ok u => exact ih (fun g hg => hl g (by simp [hg])) t'
  rw [this p.hdrs (fun g hg => (inb g.win (List.mem_cons_of_mem _ (List.mem_map_of_mem hg))).2.2.2) t]
  rfl

/-! Non-vacuity -/

example : ∃ p q, Slow.parse true (Sample.get Sample.vxlan).to_vec = .ok p ∧
    Slow.parse true (Sample.get Sample.udp).to_vec = .ok q ∧ p.show true [] ≠ q.show true [] := by
  obtain ⟨p, hp⟩ : ∃ p, Slow.parse true (Sample.get Sample.vxlan).to_vec = .ok p :=
    ⟨Sample.get (Slow.parse true (Sample.get Sample.vxlan).to_vec), by decide +kernel⟩
  obtain ⟨q, hq⟩ : ∃ p, Slow.parse true (Sample.get Sample.udp).to_vec = .ok p :=
    ⟨Sample.get (Slow.parse true (Sample.get Sample.udp).to_vec), by decide +kernel⟩
  refine ⟨p, q, hp, hq, ?_⟩
  rw [ne_eq, C85_frames true _ _ p q hp hq]
  decide +kernel

end PacketRs
