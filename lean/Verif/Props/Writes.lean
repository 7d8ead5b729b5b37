import Verif.Spec.Writes
import Verif.Props.Fields
import Verif.Lemmas.Prog
/-!
# C90: histories of writes to one header
-/
namespace PacketRs
open Spec

theorem lastWriter_or (ws : List Write) (i : Nat) : (∃ w, LastWriter ws i w) ∨ ∀ w ∈ ws, ¬ w.Covers i := by
  induction ws with
  | nil => exact .inr (by simp)
  | cons w ws ih =>
    rcases ih with ⟨x, pre, post, e, hc, hp⟩ | h
    · exact .inl ⟨x, w :: pre, post, by rw [e]; rfl, hc, hp⟩
    · by_cases hw : w.Covers i
      · exact .inl ⟨w, [], ws, rfl, hw, h⟩
      · refine .inr (fun x hx => ?_)
        rcases List.mem_cons.mp hx with rfl | hx
        · exact hw
        · exact h x hx

theorem Spec.LastWriter.cons {w x : Write} {ws : List Write} {i : Nat} (h : LastWriter ws i x) : LastWriter (w :: ws) i x := by
  obtain ⟨pre, post, rfl, hc, hp⟩ := h
  exact ⟨w :: pre, post, rfl, hc, hp⟩

theorem Spec.LastWriter.mem {x : Write} {ws : List Write} {i : Nat} (h : LastWriter ws i x) : x ∈ ws ∧ x.Covers i := by
  obtain ⟨pre, post, rfl, hc, -⟩ := h
  exact ⟨by simp, hc⟩

theorem Spec.LastWriter.unique {x y : Write} {ws : List Write} {i : Nat} (h : LastWriter ws i x) (k : LastWriter ws i y) : x = y := by
  induction ws with
  | nil => obtain ⟨pre, post, e, -⟩ := h; simp at e
  | cons w ws ih =>
    by_cases hm : ∃ z ∈ ws, z.Covers i
    · have key : ∀ {x}, LastWriter (w :: ws) i x → LastWriter ws i x := by
        rintro x ⟨pre, post, e, hc, hp⟩
        cases pre with
        | nil =>
          obtain ⟨rfl, rfl⟩ := List.cons.inj e
          obtain ⟨z, hz, hzc⟩ := hm
          exact absurd hzc (hp z hz)
        | cons p pre => exact ⟨pre, post, (List.cons.inj e).2, hc, hp⟩
      exact ih (key h) (key k)
    · have key : ∀ {x}, LastWriter (w :: ws) i x → x = w := by
        rintro x h
        obtain ⟨hx, hc⟩ := h.mem
        rcases List.mem_cons.mp hx with rfl | hx
        · rfl
        · exact absurd ⟨x, hx, hc⟩ hm
      rw [key h, key k]

/-- One call. -/
theorem Spec.Write.call_ok (chk : Bool) (h : Hdr) (w : Write) (hp : w.Proper) (hf : w.stop ≤ 8 * h.data.length) :
    ∃ h', w.call chk h = .ok h' ∧ h'.ty = h.ty ∧ h'.data.length = h.data.length ∧
      ∀ i, netBit h'.data i = if w.Covers i then w.bit i else netBit h.data i := by
  cases w with
  | field f v =>
    obtain ⟨h', e, t, l, b⟩ := set_bits h f v ⟨hp, by simp only [Write.stop] at hf; omega⟩
    refine ⟨h', e, t, l, fun i => ?_⟩
    rw [b i]
    simp only [Write.Covers, Write.first, Write.stop, Write.bit, Nat.lt_succ_iff]
  | octets lo v =>
    obtain ⟨d', e, l, b⟩ := setBytes_ok chk h.data lo v hp.1 hf hp.2
    exact ⟨{ h with data := d' }, by simp only [Write.call, Hdr.set_bytes, e]; rfl, rfl, l, b⟩

/-- A call that does not fit panics. -/
theorem Spec.Write.call_error (chk : Bool) (h : Hdr) (w : Write) (hp : w.Proper) (hf : 8 * h.data.length < w.stop) :
    w.call chk h = .error .index := by
  cases w with
  | field f v =>
    simp only [Write.stop] at hf
    simp only [Write.call, Hdr.set, setBitRange_err h.data f.lo f.hi v hp (by omega)]
    rfl
  | octets lo v =>
    let s : Store := fun _ => ⟨h.data, false, none⟩
    have hc : (s 0).Clean := ⟨rfl, rfl⟩
    have hi : Idle 0 s := fun x => by simp [s]
    obtain ⟨d, hd, -⟩ := run_setBytesP_short (t := 0) hc hi chk lo v hp.1 hf hp.2
    have : setBytes chk h.data (lo + 8 * v.length - 1) lo v = .error .index := by
      cases e : setBytes chk h.data (lo + 8 * v.length - 1) lo v with
      | ok d' => rw [run_setBytesP_ok hc hi chk _ _ _ _ e] at hd; cases hd
      | error f =>
        have := run_setBytesP_error hc hi chk _ _ _ _ e
        rw [hd] at this
        rw [Except.error.inj this]
    simp only [Write.call, Hdr.set_bytes, this]
    rfl

/-- **C90**: after any sequence of setter and `set_bytes` calls, overlapping or not, every bit of the header holds what the last
call that writes it put there, and its old value if there is none.  The type and the length stay. -/
theorem C90_history (chk : Bool) (h : Hdr) (ws : List Write) (hp : ∀ w ∈ ws, w.Proper)
    (hf : ∀ w ∈ ws, w.stop ≤ 8 * h.data.length) :
    ∃ h', writeAll chk h ws = .ok h' ∧ h'.ty = h.ty ∧ h'.data.length = h.data.length ∧
      ∀ i, BitAfter ws i (netBit h.data i) (netBit h'.data i) := by
  induction ws generalizing h with
  | nil => exact ⟨h, rfl, rfl, rfl, fun i => .inr ⟨by simp, rfl⟩⟩
  | cons w ws ih =>
    obtain ⟨h1, e1, t1, l1, b1⟩ := Write.call_ok chk h w (hp w (by simp)) (hf w (by simp))
    obtain ⟨h2, e2, t2, l2, b2⟩ := ih h1 (fun x hx => hp x (List.mem_cons_of_mem _ hx))
      (fun x hx => by rw [l1]; exact hf x (List.mem_cons_of_mem _ hx))
    refine ⟨h2, ?_, t2.trans t1, l2.trans l1, fun i => ?_⟩
    · simp only [writeAll, List.foldlM_cons, e1, bind, Except.bind] at e2 ⊢
      exact e2
    · rcases b2 i with ⟨x, hx, hb⟩ | ⟨hn, hb⟩
      · exact .inl ⟨x, hx.cons, hb⟩
      · rw [b1 i] at hb
        by_cases hw : w.Covers i
        · rw [if_pos hw] at hb
          exact .inl ⟨w, ⟨[], ws, rfl, hw, hn⟩, hb⟩
        · rw [if_neg hw] at hb
          refine .inr ⟨fun x hx => ?_, hb⟩
          rcases List.mem_cons.mp hx with rfl | hx
          · exact hw
          · exact hn x hx

/-- **C90**: the description determines the bit. -/
theorem C90_determined (ws : List Write) (i : Nat) (old b c : Bool) (hb : BitAfter ws i old b) (hc : BitAfter ws i old c) :
    b = c := by
  rcases hb with ⟨w, hw, rfl⟩ | ⟨hn, rfl⟩ <;> rcases hc with ⟨v, hv, rfl⟩ | ⟨hm, rfl⟩
  · rw [hw.unique hv]
  · exact absurd hw.mem.2 (hm w hw.mem.1)
  · exact absurd hv.mem.2 (hn v hv.mem.1)
  · rfl

/-- **C90**: a sequence of calls panics iff one of them reaches beyond the end of the header; the panic is that of an index. -/
theorem C90_panics (chk : Bool) (h : Hdr) (ws : List Write) (hp : ∀ w ∈ ws, w.Proper) :
    (writeAll chk h ws = .error .index ↔ ∃ w ∈ ws, 8 * h.data.length < w.stop) ∧
    ∀ e, writeAll chk h ws = .error e → e = .index := by
  have key : (∃ w ∈ ws, 8 * h.data.length < w.stop) → writeAll chk h ws = .error .index := by
    induction ws generalizing h with
    | nil => rintro ⟨w, hw, -⟩; simp at hw
    | cons w ws ih =>
      rintro ⟨x, hx, hs⟩
      by_cases hw : 8 * h.data.length < w.stop
      · simp only [writeAll, List.foldlM_cons, Write.call_error chk h w (hp w (by simp)) hw, bind, Except.bind]
      · obtain ⟨h1, e1, -, l1, -⟩ := Write.call_ok chk h w (hp w (by simp)) (by omega)
        simp only [writeAll, List.foldlM_cons, e1, bind, Except.bind]
        refine ih h1 (fun x hx => hp x (List.mem_cons_of_mem _ hx)) ⟨x, ?_, by rw [l1]; exact hs⟩
        rcases List.mem_cons.mp hx with rfl | hx
        · exact absurd hs hw
        · exact hx
  have back : ∀ e, writeAll chk h ws = .error e → ∃ w ∈ ws, 8 * h.data.length < w.stop := by
    intro e he
    apply Classical.byContradiction
    intro hn
    obtain ⟨h', e', -⟩ := C90_history chk h ws hp (fun w hw => by
      apply Classical.byContradiction
      intro h1
      exact hn ⟨w, hw, by omega⟩)
    rw [e'] at he
    cases he
  refine ⟨⟨back _, key⟩, fun e he => ?_⟩
  rw [key (back e he)] at he
  cases he
  rfl

theorem sameAt_of (ws vs : List Write) (i : Nat) (h : ∀ old : Bool, ∃ b, BitAfter ws i old b ∧ BitAfter vs i old b) :
    SameAt ws vs i := by
  obtain ⟨b, h1, h2⟩ := h true
  obtain ⟨c, k1, k2⟩ := h false
  rcases h1 with ⟨w, hw, e⟩ | ⟨hn, e⟩ <;> rcases h2 with ⟨v, hv, e'⟩ | ⟨hm, e'⟩
  · exact .inr ⟨w, v, hw, hv, e.symm.trans e'⟩
  · rcases k1 with ⟨w', hw', f⟩ | ⟨hn, f⟩
    · rcases k2 with ⟨v', hv', f'⟩ | ⟨hm', f'⟩
      · exact absurd hv'.mem.2 (hm v' hv'.mem.1)
      · have := hw.unique hw'
        subst this
        have : (true : Bool) = false := by rw [← e', e, ← f, f']
        cases this
    · exact absurd hw.mem.2 (hn w hw.mem.1)
  · rcases k2 with ⟨w', hw', f⟩ | ⟨hm, f⟩
    · rcases k1 with ⟨v', hv', f'⟩ | ⟨hm', f'⟩
      · exact absurd hv'.mem.2 (hn v' hv'.mem.1)
      · have := hv.unique hw'
        subst this
        have : (true : Bool) = false := by rw [← e, e', ← f, f']
        cases this
    · exact absurd hv.mem.2 (hm v hv.mem.1)
  · exact .inl ⟨hn, hm⟩

theorem Spec.SameAt.after {ws vs : List Write} {i : Nat} (h : SameAt ws vs i) (old b : Bool) :
    BitAfter ws i old b ↔ BitAfter vs i old b := by
  rcases h with ⟨hn, hm⟩ | ⟨w, v, hw, hv, e⟩
  · constructor
    · rintro (⟨w, hw, -⟩ | ⟨-, e⟩)
      · exact absurd hw.mem.2 (hn w hw.mem.1)
      · exact .inr ⟨hm, e⟩
    · rintro (⟨w, hw, -⟩ | ⟨-, e⟩)
      · exact absurd hw.mem.2 (hm w hw.mem.1)
      · exact .inr ⟨hn, e⟩
  · constructor
    · rintro (⟨w', hw', rfl⟩ | ⟨hn, -⟩)
      · exact .inl ⟨v, hv, by rw [hw'.unique hw, e]⟩
      · exact absurd hw.mem.2 (hn w hw.mem.1)
    · rintro (⟨w', hw', rfl⟩ | ⟨hn, -⟩)
      · exact .inl ⟨w, hw, by rw [hw'.unique hv, e]⟩
      · exact absurd hv.mem.2 (hn v hv.mem.1)

/-- **C90**: two sequences of calls do the same to every header of `n` octets iff for every bit their last writers write the
same. -/
theorem C90_same_iff (chk : Bool) (T : HeaderDef) (n : Nat) (ws vs : List Write) (hp : ∀ w ∈ ws ++ vs, w.Proper)
    (hf : ∀ w ∈ ws ++ vs, w.stop ≤ 8 * n) :
    (∀ d : Bytes, d.length = n → writeAll chk ⟨T, d⟩ ws = writeAll chk ⟨T, d⟩ vs) ↔ ∀ i, SameAt ws vs i := by
  have run : ∀ us : List Write, (∀ w ∈ us, w ∈ ws ++ vs) → ∀ d : Bytes, d.length = n → ∃ d', writeAll chk ⟨T, d⟩ us = .ok ⟨T, d'⟩ ∧
      d'.length = n ∧ ∀ i, BitAfter us i (netBit d i) (netBit d' i) := by
    intro us hu d hd
    obtain ⟨⟨t, d'⟩, e, t', l, b⟩ := C90_history chk ⟨T, d⟩ us (fun w hw => hp w (hu w hw))
      (fun w hw => by simpa [hd] using hf w (hu w hw))
    simp only at t' l b
    subst t'
    exact ⟨d', e, l.trans hd, b⟩
  constructor
  · intro h i
    apply Classical.byContradiction
    intro hs
    have hi : i < 8 * n := by
      rcases lastWriter_or ws i with ⟨w, hw⟩ | hn
      · have := hf w (by simp [hw.mem.1])
        have := hw.mem.2.2
        omega
      · rcases lastWriter_or vs i with ⟨v, hv⟩ | hm
        · have := hf v (by simp [hv.mem.1])
          have := hv.mem.2.2
          omega
        · exact absurd (.inl ⟨hn, hm⟩) hs
    refine hs (sameAt_of ws vs i (fun old => ?_))
    let d : Bytes := List.replicate n (if old then 0xff#8 else 0#8)
    have hb : netBit d i = old := by
      have hj : i / 8 < n := by omega
      simp only [netBit, d, List.getD_eq_getElem?_getD, List.getElem?_replicate, hj, if_true, Option.getD_some]
      have : i % 8 < 8 := Nat.mod_lt _ (by omega)
      generalize i % 8 = k at this
      cases old
      · simp
      · have : ∀ k : Fin 8, (0xff#8).getMsbD k.val = true := by decide
        exact this ⟨k, by omega⟩
    obtain ⟨d1, e1, -, b1⟩ := run ws (by simp +contextual) d (by simp [d])
    obtain ⟨d2, e2, -, b2⟩ := run vs (by simp +contextual) d (by simp [d])
    have : d1 = d2 := by
      have := h d (by simp [d])
      rw [e1, e2] at this
      exact (Hdr.mk.inj (Except.ok.inj this)).2
    subst this
    exact ⟨netBit d1 i, hb ▸ b1 i, hb ▸ b2 i⟩
  · intro h d hd
    obtain ⟨d1, e1, l1, b1⟩ := run ws (by simp +contextual) d hd
    obtain ⟨d2, e2, l2, b2⟩ := run vs (by simp +contextual) d hd
    rw [e1, e2]
    congr 2
    apply eq_of_netBit _ _ (by omega)
    intro i _
    exact C90_determined vs i _ _ _ (((h i).after _ _).mp (b1 i)) (b2 i)

/-- **C90**: a call all of whose bits are written again later has no effect. -/
theorem C90_overwritten (chk : Bool) (h : Hdr) (pre : List Write) (w : Write) (post : List Write)
    (hp : ∀ x ∈ pre ++ w :: post, x.Proper) (hf : ∀ x ∈ pre ++ w :: post, x.stop ≤ 8 * h.data.length)
    (hc : ∀ i, w.Covers i → ∃ x ∈ post, x.Covers i) :
    writeAll chk h (pre ++ w :: post) = writeAll chk h (pre ++ post) := by
  obtain ⟨T, d⟩ := h
  have sub : ∀ x ∈ (pre ++ w :: post) ++ (pre ++ post), x ∈ pre ++ w :: post := by
    intro x hx
    simp only [List.mem_append, List.mem_cons] at hx ⊢
    rcases hx with hx | hx | hx
    · exact hx
    · exact .inl hx
    · exact .inr (.inr hx)
  refine (C90_same_iff chk T d.length _ _ (fun x hx => hp x (sub x hx)) (fun x hx => hf x (sub x hx))).mpr ?_ d rfl
  intro i
  have tail : ∀ {us us' : List Write} {x}, LastWriter us i x → LastWriter (us' ++ us) i x := by
    rintro us us' x ⟨p, q, rfl, hc, hq⟩
    exact ⟨us' ++ p, q, by simp, hc, hq⟩
  rcases lastWriter_or post i with ⟨x, hx⟩ | hn
  · exact .inr ⟨x, x, tail hx.cons, tail hx, rfl⟩
  · have hw : ¬ w.Covers i := fun h => by
      obtain ⟨x, hx, hxc⟩ := hc i h
      exact hn x hx hxc
    rcases lastWriter_or pre i with ⟨x, p, q, rfl, hxc, hq⟩ | hm
    · refine .inr ⟨x, x, ⟨p, q ++ w :: post, by simp, hxc, ?_⟩, ⟨p, q ++ post, by simp, hxc, ?_⟩, rfl⟩
      · intro y hy
        simp only [List.mem_append, List.mem_cons] at hy
        rcases hy with hy | rfl | hy
        · exact hq y hy
        · exact hw
        · exact hn y hy
      · intro y hy
        rcases List.mem_append.mp hy with hy | hy
        · exact hq y hy
        · exact hn y hy
    · refine .inl ⟨?_, ?_⟩
      · intro y hy
        simp only [List.mem_append, List.mem_cons] at hy
        rcases hy with hy | rfl | hy
        · exact hm y hy
        · exact hw
        · exact hn y hy
      · intro y hy
        rcases List.mem_append.mp hy with hy | hy
        · exact hm y hy
        · exact hn y hy

/-- **C90**: calls that agree on the bits they share (in particular calls for disjoint fields) can be made in any order. -/
theorem C90_any_order (chk : Bool) (h : Hdr) (ws vs : List Write) (hperm : ws.Perm vs) (hp : ∀ w ∈ ws, w.Proper)
    (hf : ∀ w ∈ ws, w.stop ≤ 8 * h.data.length) (ha : ∀ w ∈ ws, ∀ x ∈ ws, w.Agree x) :
    writeAll chk h ws = writeAll chk h vs := by
  obtain ⟨T, d⟩ := h
  have sub : ∀ x ∈ ws ++ vs, x ∈ ws := by
    intro x hx
    rcases List.mem_append.mp hx with hx | hx
    · exact hx
    · exact hperm.mem_iff.mpr hx
  refine (C90_same_iff chk T d.length _ _ (fun x hx => hp x (sub x hx)) (fun x hx => hf x (sub x hx))).mpr ?_ d rfl
  intro i
  rcases lastWriter_or ws i with ⟨w, hw⟩ | hn
  · rcases lastWriter_or vs i with ⟨v, hv⟩ | hm
    · exact .inr ⟨w, v, hw, hv, ha w hw.mem.1 v (hperm.mem_iff.mpr hv.mem.1) i hw.mem.2 hv.mem.2⟩
    · exact absurd hw.mem.2 (hm w (hperm.mem_iff.mp hw.mem.1))
  · exact .inl ⟨hn, fun v hv => hn v (hperm.mem_iff.mpr hv)⟩

/-- **C90**: a getter after the calls: bit `j` of the value is what the calls left in bit `hi - j` of the header. -/
theorem C90_read (chk : Bool) (h h' : Hdr) (ws : List Write) (hp : ∀ w ∈ ws, w.Proper) (e : writeAll chk h ws = .ok h')
    (g : Field) (hg : g.Inside h.data.length) (hw : g.width ≤ 64) :
    ∃ r, h'.get chk g = .ok r ∧ r.toNat < 2 ^ g.width ∧
      ∀ j, j < g.width → BitAfter ws (g.hi - j) (netBit h.data (g.hi - j)) (r.getLsbD j) := by
  have hf : ∀ w ∈ ws, w.stop ≤ 8 * h.data.length := by
    intro w hw
    apply Classical.byContradiction
    intro h1
    rw [((C90_panics chk h ws hp).1).mpr ⟨w, hw, by omega⟩] at e
    cases e
  obtain ⟨h2, e2, -, l2, b2⟩ := C90_history chk h ws hp hf
  rw [e2] at e
  cases e
  obtain ⟨r, er, hr⟩ := C01_getter_bits chk h' g (by rw [l2]; exact hg) hw
  obtain ⟨r', er', -, hlt⟩ := C01_getter_value chk h' g (by rw [l2]; exact hg) hw
  obtain rfl := Except.ok.inj (er.symm.trans er')
  refine ⟨r, er, hlt, fun j hj => ?_⟩
  rw [hr j]
  simpa [hj] using b2 (g.hi - j)

/-! ## A case: overlapping writes to a VLAN tag -/

/-- The identifier is set, then the first two octets (which hold priority, flag and identifier), then the flag. -/
def vlanWrites : List Write := [.field Vlan.vid 0xabc#64, .octets 0 [0x61#8, 0x23#8], .field Vlan.cfi 1#64]

example : (∀ w ∈ vlanWrites, w.Proper ∧ w.stop ≤ 8 * Vlan.new.data.length) ∧
    writeAll true Vlan.new vlanWrites = .ok ⟨Vlan, [0x71#8, 0x23#8, 8#8, 0#8]⟩ := by decide +kernel

-- the first call could have been left out
example : writeAll true Vlan.new vlanWrites = writeAll true Vlan.new (vlanWrites.drop 1) :=
  C90_overwritten true Vlan.new [] (.field Vlan.vid 0xabc#64) _ (by decide +kernel) (by decide +kernel)
    (fun i hi => ⟨.octets 0 [0x61#8, 0x23#8], by simp, by
      simp only [Write.Covers, Write.first, Write.stop, Vlan.vid, List.length_cons, List.length_nil] at hi ⊢; omega⟩)

-- the identifier and the octets agree on the bits they share, so their order does not matter
example (chk : Bool) : writeAll chk Vlan.new [.field Vlan.vid 0x123#64, .octets 0 [0x61#8, 0x23#8]] =
    writeAll chk Vlan.new [.octets 0 [0x61#8, 0x23#8], .field Vlan.vid 0x123#64] := by
  refine C90_any_order chk Vlan.new _ _ (List.Perm.swap ..) (by decide +kernel) (by decide +kernel) ?_
  have key : ∀ i : Fin 16, ∀ w ∈ [Write.field Vlan.vid 0x123#64, .octets 0 [0x61#8, 0x23#8]],
      ∀ x ∈ [Write.field Vlan.vid 0x123#64, .octets 0 [0x61#8, 0x23#8]],
      w.Covers i.val → x.Covers i.val → w.bit i.val = x.bit i.val := by decide +kernel
  intro w hw x hx i h1 h2
  refine key ⟨i, ?_⟩ w hw x hx h1 h2
  have h3 : ∀ w ∈ [Write.field Vlan.vid 0x123#64, .octets 0 [0x61#8, 0x23#8]], w.stop ≤ 16 := by decide +kernel
  exact Nat.lt_of_lt_of_le h1.2 (h3 w hw)

-- the identifier read after the three calls
example : ∃ r h', writeAll true Vlan.new vlanWrites = .ok h' ∧ h'.get true Vlan.vid = .ok r ∧ r = 0x123#64 :=
  ⟨_, _, rfl, rfl, rfl⟩

-- one octet too far
example : writeAll true Vlan.new (vlanWrites ++ [.octets 24 [1#8, 2#8]]) = .error .index := by decide +kernel

end PacketRs
