import Verif.Lemmas.Mix
/-!
# One getter against one setter
-/
namespace PacketRs
open Spec
open Prog hiding bind

section
variable {L : Nat → Nat}

/-- Bit `i` of the vector `r` once the setter is through. -/
def newBit (m : Store) (r : Nat) (f : Field) (v : U64) (i : Nat) : Bool :=
  ((Call.set r f v).writes r i).getD (netBit (m r).bytes i)

theorem newBit_in {m : Store} {r : Nat} {f : Field} {v : U64} {i : Nat} (h : f.lo ≤ i ∧ i ≤ f.hi) :
    newBit m r f v i = v.getLsbD (f.hi - i) := by
  simp only [newBit, Call.writes, h, and_self, if_true, Option.getD_some]

theorem newBit_out {m : Store} {r : Nat} {f : Field} {v : U64} {i : Nat} (h : ¬ (f.lo ≤ i ∧ i ≤ f.hi)) :
    newBit m r f v i = netBit (m r).bytes i := by
  simp only [newBit, Call.writes, h, and_false, if_false, Option.getD_none]

/-- What holds while one getter and one setter run. -/
structure Torn (L : Nat → Nat) (chk : Bool) (m : Store) (r : Nat) (f g : Field) (v : U64) (ts tg : Nat)
    (s : Sys (Option U64)) (n q k : Nat) (a : U64) : Prop where
  fresh : Fresh L s.mem
  others : ∀ t, t ≠ ts → t ≠ tg → s.th t = .ret none
  setter : s.th ts = setRest r f.lo n (v >>> (f.hi + 1 - f.lo - n))
  hn : n ≤ f.hi + 1 - f.lo
  getter : s.th tg = getRest chk r g q a
  hq : q ≤ g.hi + 1 - g.lo
  mem : ∀ i, netBit (s.mem r).bytes i = if f.lo + n ≤ i ∧ i ≤ f.hi then v.getLsbD (f.hi - i) else netBit (m r).bytes i
  hk : g.lo ≤ k ∧ k ≤ g.hi + 1 - q
  read : ∀ j, j < g.hi + 1 - g.lo - q → a.getLsbD j =
    if g.hi - q - j < k then netBit (m r).bytes (g.hi - q - j) else newBit m r f v (g.hi - q - j)
  settled : k < g.hi + 1 - q → ∀ i, k ≤ i → netBit (s.mem r).bytes i = newBit m r f v i

theorem Torn.step {chk : Bool} {m : Store} {r : Nat} {f g : Field} {v : U64} {ts tg : Nat} (hne : ts ≠ tg)
    (hf1 : f.lo ≤ f.hi) (hf2 : f.hi < 8 * L r) (hg1 : g.lo ≤ g.hi) (hg2 : g.hi < 8 * L r) (hg3 : g.hi - g.lo < 64)
    {s s' : Sys (Option U64)} {n q k : Nat} {a : U64} (h : Torn L chk m r f g v ts tg s n q k a) {t : Nat}
    (hs : s.astep t = some s') : ∃ n' q' k' a', Torn L chk m r f g v ts tg s' n' q' k' a' := by
  have h1 := h.setter
  have h2 := h.hn
  have h3 := h.getter
  have h4 := h.hq
  have h5 := h.hk
  by_cases hts : t = ts
  · subst hts
    cases n with
    | zero => rw [setRest_zero] at h1; rw [Sys.astep, h1] at hs; cases hs
    | succ n =>
      obtain ⟨d, hd, hb, ha⟩ := astep_set h.fresh h1 (by omega)
      rw [ha] at hs
      cases hs
      have hv : (v >>> (f.hi + 1 - f.lo - (n + 1))).getLsbD 0 = v.getLsbD (f.hi - (f.lo + n)) := by
        rw [BitVec.getLsbD_ushiftRight]; congr 1; omega
      have hcur : ∀ i, netBit d i = if f.lo + n ≤ i ∧ i ≤ f.hi then v.getLsbD (f.hi - i) else netBit (m r).bytes i := by
        intro i
        rw [hb, hv]
        by_cases hi : i = f.lo + n
        · subst hi
          rw [if_pos rfl, if_pos ⟨Nat.le_refl _, by omega⟩]
        · rw [if_neg hi, h.mem]
          by_cases hc : f.lo + n ≤ i ∧ i ≤ f.hi
          · rw [if_pos hc, if_pos (by omega)]
          · rw [if_neg hc, if_neg (by omega)]
      refine ⟨n, q, k, a, h.fresh.put hd, ?_, ?_, by omega, ?_, h.hq, ?_, h5, h.read, ?_⟩
      · intro u hu1 hu2
        simp only [Sys.setTh_ne _ _ hu1]; exact h.others u hu1 hu2
      · simp only [Sys.setTh_same]
        rw [← BitVec.shiftRight_add, show f.hi + 1 - f.lo - (n + 1) + 1 = f.hi + 1 - f.lo - n from by omega]
      · simp only [Sys.setTh_ne _ _ (Ne.symm hne)]; exact h3
      · simp only [put_same]; exact hcur
      · intro hkq i hki
        have := h.settled hkq i hki
        simp only [put_same, hb, hv]
        by_cases hi : i = f.lo + n
        · subst hi
          rw [if_pos rfl, newBit_in (by omega)]
        · rw [if_neg hi]; exact this
  · by_cases htg : t = tg
    · subst htg
      cases q with
      | zero => rw [getRest_zero hg1 hg3] at h3; rw [Sys.astep, h3] at hs; cases hs
      | succ q =>
        obtain ⟨a', hb, ha⟩ := astep_get h.fresh h3 (by omega) (by omega)
        rw [ha] at hs
        cases hs
        have hpos : g.hi + 1 - (q + 1) = g.hi - q := by omega
        have hset : ∀ u, u ≠ ts → u ≠ t → s.setTh t (getRest chk r g q a') u = .ret none := by
          intro u hu1 hu2
          rw [Sys.setTh_ne _ _ hu2]; exact h.others u hu1 hu2
        have hse : s.setTh t (getRest chk r g q a') ts = setRest r f.lo n (v >>> (f.hi + 1 - f.lo - n)) := by
          rw [Sys.setTh_ne _ _ hne]; exact h1
        -- the bits read so far, one position further
        have hread : ∀ k', (∀ i, i < g.hi - q → (i < k ↔ i < k')) →
            (netBit (s.mem r).bytes (g.hi - q) =
              if g.hi - q < k' then netBit (m r).bytes (g.hi - q) else newBit m r f v (g.hi - q)) →
            ∀ j, j < g.hi + 1 - g.lo - q → a'.getLsbD j =
              if g.hi - q - j < k' then netBit (m r).bytes (g.hi - q - j) else newBit m r f v (g.hi - q - j) := by
          intro k' hkk hcur j hj
          rw [hb j (by omega)]
          by_cases hj0 : j = 0
          · subst hj0; rw [if_pos rfl]; exact hcur
          · rw [if_neg hj0, h.read (j - 1) (by omega)]
            have e1 : g.hi - (q + 1) - (j - 1) = g.hi - q - j := by omega
            have := hkk (g.hi - q - j) (by omega)
            rw [e1]
            by_cases hc : g.hi - q - j < k
            · rw [if_pos hc, if_pos (this.1 hc)]
            · rw [if_neg hc, if_neg (fun h => hc (this.2 h))]
        by_cases hset2 : ∀ i, k ≤ i → netBit (s.mem r).bytes i = newBit m r f v i
        · refine ⟨n, q, k, a', h.fresh, hset, hse, h2, by simp, by omega, h.mem, by omega, hread k (fun _ _ => .rfl) ?_,
            fun _ => hset2⟩
          rw [if_neg (by omega)]
          exact hset2 _ (by omega)
        · -- nothing new has been read yet
          have hkp : k = g.hi - q := by
            by_cases hlt : k < g.hi + 1 - (q + 1)
            · exact absurd (h.settled hlt) hset2
            · omega
          have hcur : netBit (s.mem r).bytes (g.hi - q) = netBit (m r).bytes (g.hi - q) := by
            rw [h.mem]
            split
            · next hc =>
              exfalso
              refine hset2 fun i hi => ?_
              rw [h.mem]
              by_cases hfi : i ≤ f.hi
              · rw [if_pos (by omega), newBit_in (by omega)]
              · rw [if_neg (by omega), newBit_out (by omega)]
            · rfl
          refine ⟨n, q, k + 1, a', h.fresh, hset, hse, h2, by simp, by omega, h.mem, by omega, hread (k + 1) ?_ ?_, ?_⟩
          · intro i hi; omega
          · rw [if_pos (by omega)]; exact hcur
          · intro hh; omega
    · have := h.others t hts htg
      rw [Sys.astep, this] at hs; cases hs

theorem Torn.areach {chk : Bool} {m : Store} (hm : Fresh L m) {r : Nat} {f g : Field} {v : U64} {ts tg : Nat} (hne : ts ≠ tg)
    (hf1 : f.lo ≤ f.hi) (hf2 : f.hi < 8 * L r) (hg1 : g.lo ≤ g.hi) (hg2 : g.hi < 8 * L r) (hg3 : g.hi - g.lo < 64)
    {s s' : Sys (Option U64)} (hsm : s.mem = m) (hss : s.th ts = setRest r f.lo (f.hi + 1 - f.lo) v)
    (hsg : s.th tg = getRest chk r g (g.hi + 1 - g.lo) 0#64) (hso : ∀ t, t ≠ ts → t ≠ tg → s.th t = .ret none)
    (h : Sys.AReach s s') : ∃ n q k a, Torn L chk m r f g v ts tg s' n q k a := by
  induction h with
  | refl =>
    refine ⟨f.hi + 1 - f.lo, g.hi + 1 - g.lo, g.lo, 0#64, by rw [hsm]; exact hm, hso, by rw [hss, Nat.sub_self]; simp, Nat.le_refl _, hsg,
      Nat.le_refl _, ?_, by omega, fun j hj => by omega, fun hk => by omega⟩
    intro i
    rw [if_neg (by omega), hsm]
  | step t _ hs ih =>
    obtain ⟨n, q, k, a, h⟩ := ih
    exact h.step hne hf1 hf2 hg1 hg2 hg3 hs

theorem setTh_setTh {α : Type} (s : Sys α) (m : Store) (t : Nat) (p q : Prog α) :
    (⟨m, s.setTh t p⟩ : Sys α).setTh t q = s.setTh t q := by
  funext x; simp only [Sys.setTh]; split <;> rfl

/-- A getter runs `d` steps undisturbed. -/
theorem get_steps {chk : Bool} {r : Nat} {g : Field} {t : Nat} (d : Nat) {s : Sys (Option U64)} (hf : Fresh L s.mem)
    (q : Nat) (a : U64) (hth : s.th t = getRest chk r g (q + d) a) (hq : q + d ≤ g.hi + 1) (hin : g.hi < 8 * L r) :
    ∃ a', Sys.AReach s ⟨s.mem, s.setTh t (getRest chk r g q a')⟩ ∧
      ∀ j, j < 64 → a'.getLsbD j = if j < d then netBit (s.mem r).bytes (g.hi - q - j) else a.getLsbD (j - d) := by
  induction d generalizing s a with
  | zero =>
    refine ⟨a, ?_, fun j _ => by simp⟩
    have : (⟨s.mem, s.setTh t (getRest chk r g q a)⟩ : Sys (Option U64)) = s := by
      have : s.setTh t (getRest chk r g q a) = s.th := by
        funext x
        by_cases hx : x = t
        · subst hx; rw [Sys.setTh_same]; exact hth.symm
        · rw [Sys.setTh_ne _ _ hx]
      rw [this]
    rw [this]; exact .refl
  | succ d ih =>
    obtain ⟨a1, hb, ha⟩ := astep_get hf (n := q + d) hth (by omega) (by omega)
    obtain ⟨a2, hr, hb2⟩ := ih (s := ⟨s.mem, s.setTh t (getRest chk r g (q + d) a1)⟩) hf a1 (by simp) (by omega)
    simp only [setTh_setTh] at hr
    refine ⟨a2, Sys.AReach.trans (.step t .refl ha) hr, fun j hj => ?_⟩
    rw [hb2 j hj]
    by_cases hjd : j < d
    · rw [if_pos hjd, if_pos (by omega)]
    · rw [if_neg hjd, hb _ (by omega)]
      by_cases hjd' : j = d
      · subst hjd'
        rw [if_pos (by omega), if_pos (by omega)]
        congr 1; omega
      · rw [if_neg (by omega), if_neg (by omega)]
        congr 1

/-- A setter runs to its end undisturbed. -/
theorem set_steps {r lo t : Nat} (n : Nat) {s : Sys (Option U64)} (hf : Fresh L s.mem) (v : U64)
    (hth : s.th t = setRest r lo n v) (hin : n ≠ 0 → lo + n - 1 < 8 * L r) :
    ∃ d, d.length = L r ∧ Sys.AReach s ⟨s.mem.put r ⟨d, false, none⟩, s.setTh t (.ret none)⟩ ∧
      ∀ i, netBit d i = if lo ≤ i ∧ i < lo + n then v.getLsbD (lo + n - 1 - i) else netBit (s.mem r).bytes i := by
  induction n generalizing s v with
  | zero =>
    refine ⟨(s.mem r).bytes, (hf r).2.2, ?_, fun i => by rw [if_neg (by omega)]⟩
    have h1 : s.mem.put r ⟨(s.mem r).bytes, false, none⟩ = s.mem := by
      refine put_eq_self _ ?_
      have h1 := (hf r).1
      have h2 := (hf r).2.1
      cases hc : s.mem r with
      | mk b p o => rw [hc] at h1 h2; simp only at h1 h2; subst h1; subst h2; rfl
    have h2 : s.setTh t (.ret none) = s.th := by
      funext x
      by_cases hx : x = t
      · subst hx; rw [Sys.setTh_same]; exact hth.symm
      · rw [Sys.setTh_ne _ _ hx]
    rw [h1, h2]; exact .refl
  | succ n ih =>
    obtain ⟨d1, hd1, hb1, ha⟩ := astep_set hf hth (by have := hin (by omega); omega)
    obtain ⟨d2, hd2, hr, hb2⟩ := ih (s := ⟨s.mem.put r ⟨d1, false, none⟩, s.setTh t (setRest r lo n (v >>> 1))⟩)
      (hf.put hd1) (v >>> 1) (by simp) (fun hn => by have := hin (by omega); omega)
    simp only [setTh_setTh, put_put] at hr
    refine ⟨d2, hd2, Sys.AReach.trans (.step t .refl ha) hr, fun i => ?_⟩
    rw [hb2 i]
    by_cases hi : lo ≤ i ∧ i < lo + n
    · rw [if_pos hi, if_pos (by omega), BitVec.getLsbD_ushiftRight]
      congr 1; omega
    · rw [if_neg hi]
      simp only [put_same, hb1]
      by_cases hi2 : i = lo + n
      · subst hi2
        rw [if_pos rfl, if_pos (by omega)]
        congr 1; omega
      · rw [if_neg hi2, if_neg (by omega)]

theorem mask_bits {lo hi : Nat} (h2 : hi - lo < 64) (a : U64) (j : Nat) :
    ((a <<< (64 - (hi - lo + 1))) >>> (64 - (hi - lo + 1))).getLsbD j = (decide (j < hi - lo + 1) && a.getLsbD j) := by
  simp only [BitVec.getLsbD_ushiftRight, BitVec.getLsbD_shiftLeft]
  by_cases hjn : j < hi - lo + 1
  · have a1 : 64 - (hi - lo + 1) + j < 64 := by omega
    have a2 : ¬ (64 - (hi - lo + 1) + j < 64 - (hi - lo + 1)) := by omega
    have a3 : 64 - (hi - lo + 1) + j - (64 - (hi - lo + 1)) = j := by omega
    simp only [a1, a2, a3, hjn, decide_true, decide_false, Bool.not_false, Bool.true_and]
  · have a1 : ¬ 64 - (hi - lo + 1) + j < 64 := by omega
    simp only [a1, hjn, decide_false, Bool.false_and]

/-- A schedule in which the getter reads its first bits, the setter runs, and the getter reads on. -/
theorem torn_attained {chk : Bool} {r : Nat} {f g : Field} {v : U64} {ts tg : Nat} (hne : ts ≠ tg)
    (hf1 : f.lo ≤ f.hi) (hf2 : f.hi < 8 * L r) (hg1 : g.lo ≤ g.hi) (hg2 : g.hi < 8 * L r) (hg3 : g.hi - g.lo < 64)
    {s : Sys (Option U64)} (hm : Fresh L s.mem) (hss : s.th ts = setRest r f.lo (f.hi + 1 - f.lo) v)
    (hsg : s.th tg = getRest chk r g (g.hi + 1 - g.lo) 0#64) (hso : ∀ t, t ≠ ts → t ≠ tg → s.th t = .ret none)
    (k : Nat) (hk : g.lo ≤ k ∧ k ≤ g.hi + 1) :
    ∃ s' x, Sys.AReach s s' ∧ s'.Final ∧ s'.th tg = .ret (some x) ∧ ∀ j, j < 64 → x.getLsbD j =
      (decide (j < g.width) && if g.hi - j < k then netBit (s.mem r).bytes (g.hi - j) else newBit s.mem r f v (g.hi - j)) := by
  obtain ⟨a1, r1, b1⟩ := get_steps (k - g.lo) hm (g.hi + 1 - k) 0#64
    (by rw [hsg]; congr 1; omega) (by omega) hg2
  obtain ⟨d, hd, r2, b2⟩ := set_steps (r := r) (lo := f.lo) (t := ts) (f.hi + 1 - f.lo) (L := L)
    (s := ⟨s.mem, s.setTh tg (getRest chk r g (g.hi + 1 - k) a1)⟩) hm v
    (by simp only [Sys.setTh_ne _ _ hne]; exact hss) (by omega)
  simp only at r2 b2
  obtain ⟨a3, r3, b3⟩ := get_steps (L := L) (chk := chk) (r := r) (g := g) (t := tg) (g.hi + 1 - k)
    (s := ⟨s.mem.put r ⟨d, false, none⟩, (⟨s.mem, s.setTh tg (getRest chk r g (g.hi + 1 - k) a1)⟩ : Sys (Option U64)).setTh ts (.ret none)⟩)
    (Spec.Fresh.put hm hd) 0 a1 (by simp only [Sys.setTh_ne _ _ (Ne.symm hne), Sys.setTh_same]; congr 1; omega) (by omega) hg2
  refine ⟨_, (a3 <<< (64 - (g.hi - g.lo + 1))) >>> (64 - (g.hi - g.lo + 1)), r1.trans (r2.trans r3), ?_, ?_, ?_⟩
  · intro t
    by_cases ht : t = tg
    · subst ht; simp only [Sys.setTh_same, getRest_zero hg1 hg3]; trivial
    · simp only [Sys.setTh_ne _ _ ht]
      by_cases ht2 : t = ts
      · subst ht2; simp only [Sys.setTh_same]; trivial
      · simp only [Sys.setTh_ne _ _ ht2, Sys.setTh_ne _ _ ht, hso t ht2 ht]; trivial
  · simp only [Sys.setTh_same, getRest_zero hg1 hg3]
  · intro j hj
    rw [mask_bits hg3]
    simp only [Field.width]
    by_cases hjn : j < g.hi - g.lo + 1
    · simp only [hjn, decide_true, Bool.true_and]
      rw [b3 j hj]
      by_cases hjk : g.hi - j < k
      · rw [if_neg (by omega), if_pos hjk, b1 _ (by omega), if_pos (by omega)]
        congr 1; omega
      · rw [if_pos (by omega), if_neg hjk]
        simp only [put_same, b2, Nat.sub_zero]
        by_cases hfi : f.lo ≤ g.hi - j ∧ g.hi - j ≤ f.hi
        · rw [if_pos (by omega), newBit_in hfi]
          congr 1; omega
        · rw [if_neg (by omega), newBit_out hfi]
    · simp only [hjn, decide_false, Bool.false_and]

theorem torn_final {chk : Bool} {m : Store} {r : Nat} {f g : Field} {v : U64} {ts tg : Nat}
    (hg1 : g.lo ≤ g.hi) (hg3 : g.hi - g.lo < 64)
    {s : Sys (Option U64)} {n q k : Nat} {a : U64} (h : Torn L chk m r f g v ts tg s n q k a) (hs : s.Final) :
    ∃ x, s.th tg = .ret (some x) ∧ ∀ j, j < 64 → x.getLsbD j =
      (decide (j < g.width) && if g.hi - j < k then netBit (m r).bytes (g.hi - j) else newBit m r f v (g.hi - j)) := by
  have h1 := hs tg
  have h2 := h.getter
  rw [h2] at h1
  have hq := getRest_finished h1
  subst hq
  refine ⟨_, h2.trans (getRest_zero hg1 hg3 a), fun j hj => ?_⟩
  rw [mask_bits hg3]
  simp only [Field.width]
  by_cases hjn : j < g.hi - g.lo + 1
  · simp only [hjn, decide_true, Bool.true_and]
    simpa using h.read j (by omega)
  · simp only [hjn, decide_false, Bool.false_and]

end
end PacketRs
