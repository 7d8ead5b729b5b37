import Verif.Lemmas.Store
import Verif.Spec.Names
/-!
# Storage that only one packet variable refers to stays so
-/
namespace PacketRs
open Spec
namespace World

/-- Nothing but packet variable `r` refers to the cells in `F`. -/
structure Alone (w : World) (r : Nat) (F : Nat → Prop) : Prop where
  hs : ∀ i h, w.hdr? i = some h → ¬ F h.ref
  ps : ∀ i q, i ≠ r → w.pkt? i = some q → ∀ a ∈ q.hdrs, ¬ F a.ref
  lt : ∀ n, F n → n < w.next

theorem join_append {γ : Type} {l : List (Option γ)} {x : Option γ} {i : Nat} {q : γ}
    (h : ((l ++ [x])[i]?).join = some q) : (l[i]?).join = some q ∨ x = some q := by
  by_cases hi : i < l.length
  · rw [List.getElem?_append_left hi] at h; exact .inl h
  · rw [List.getElem?_append_right (by omega)] at h
    cases hk : i - l.length with
    | zero => rw [hk] at h; exact .inr (by simpa using h)
    | succ k => rw [hk] at h; simp at h

theorem join_set {γ : Type} {l : List (Option γ)} {x : Option γ} {p i : Nat} {q : γ}
    (h : ((l.set p x)[i]?).join = some q) : (l[i]?).join = some q ∨ (i = p ∧ x = some q) := by
  by_cases hi : p = i
  · subst hi
    rw [List.getElem?_set_self'] at h
    cases hl : l[p]? with
    | none => rw [hl] at h; simp at h
    | some y => rw [hl] at h; exact .inr ⟨rfl, by simpa using h⟩
  · rw [List.getElem?_set_ne hi] at h; exact .inl h

variable {w : World} {r : Nat} {F : Nat → Prop}

theorem Alone.resolve (h : Alone w r F) {x : Place} (hx : placeNames r x = false) {a : HRef} (ha : w.resolve x = .ok a) :
    ¬ F a.ref := by
  cases x with
  | var i =>
    simp only [World.resolve] at ha
    split at ha
    · next e => cases ha; exact h.hs _ _ e
    · cases ha
  | inPkt p name T =>
    simp only [placeNames, decide_eq_false_iff_not] at hx
    simp only [World.resolve] at ha
    split at ha
    · cases ha
    · next q e =>
      split at ha
      · cases ha
      · next b eb =>
        split at ha
        · cases ha; exact h.ps p q hx e a (List.mem_of_find?_eq_some eb)
        · cases ha

/-- A change of one packet other than `r`. -/
theorem Alone.setPkt (h : Alone w r F) (p : Nat) (o : Option PRef) (ho : ∀ q, o = some q → ∀ a ∈ q.hdrs, ¬ F a.ref) :
    Alone { w with ps := w.ps.set p o } r F where
  hs := h.hs
  lt := h.lt
  ps i q hi hq := by
    rcases join_set hq with e | ⟨-, e⟩
    · exact h.ps i q hi e
    · exact ho q e

theorem Alone.addPkt (h : Alone w r F) (q : PRef) (hq : ∀ a ∈ q.hdrs, ¬ F a.ref) :
    Alone { w with ps := w.ps ++ [some q] } r F where
  hs := h.hs
  lt := h.lt
  ps i q' hi hq' := by
    rcases join_append hq' with e | e
    · exact h.ps i q' hi e
    · cases e; exact hq

theorem Alone.addHdr (h : Alone w r F) (x : HRef) (hx : ¬ F x.ref) : Alone { w with hs := w.hs ++ [some x] } r F where
  ps := h.ps
  lt := h.lt
  hs i a ha := by
    rcases join_append ha with e | e
    · exact h.hs i a e
    · cases e; exact hx

theorem Alone.dropHdr (h : Alone w r F) (i : Nat) : Alone { w with hs := w.hs.set i none } r F where
  ps := h.ps
  lt := h.lt
  hs j a ha := by
    rcases join_set ha with e | ⟨-, e⟩
    · exact h.hs j a e
    · cases e

theorem Alone.mem (h : Alone w r F) (w' : World) (h1 : w'.hs = w.hs) (h2 : w'.ps = w.ps) (h3 : w.next ≤ w'.next) :
    Alone w' r F where
  hs i a ha := h.hs i a (by simpa only [World.hdr?, h1] using ha)
  ps i q hi hq := h.ps i q hi (by simpa only [World.pkt?, h2] using hq)
  lt n hn := Nat.lt_of_lt_of_le (h.lt n hn) h3

theorem mem_assignFirst {name : String} {x a : HRef} {l : List HRef} (h : a ∈ assignFirst name x l) : a ∈ l ∨ a = x := by
  induction l with
  | nil => exact nomatch h
  | cons c l ih =>
    rw [assignFirst] at h
    split at h
    · rcases List.mem_cons.1 h with h | h
      · exact .inr h
      · exact .inl (List.mem_cons_of_mem _ h)
    · rcases List.mem_cons.1 h with h | h
      · exact .inl (h ▸ List.mem_cons_self)
      · exact (ih h).imp (List.mem_cons_of_mem _) id

theorem Alone.step (h : Alone w r F) (chk : Bool) (op : Op) (hn : names r op = false) : Alone (w.step chk op).1 r F := by
  have fresh : ∀ k, ¬ F (w.next + k) := fun k hk => by have := h.lt _ hk; omega
  cases ht : target op with
  | some x =>
    rcases step_target chk w op x ht with ⟨e, he, -⟩ | ⟨a, o, -, -, he⟩
    · rw [he]; exact h
    · rw [he]; exact h.mem _ rfl rfl (Nat.le_refl _)
  | none =>
    cases op <;> simp only [target, reduceCtorEq] at ht <;> simp only [names, decide_eq_false_iff_not, not_or] at hn
    case new T => exact (h.mem (w.alloc T T.dflt).1 rfl rfl (Nat.le_succ _)).addHdr _ (fresh 0)
    case ofVec T b => exact (h.mem (w.alloc T b).1 rfl rfl (Nat.le_succ _)).addHdr _ (fresh 0)
    case adopt a =>
      obtain ⟨e1, e2, e3, e4, -⟩ := allocAll_props a.hdrs w
      have := (h.mem (w.allocAll a.hdrs).1 e2 e3 (by omega)).addPkt ⟨(w.allocAll a.hdrs).2, a.payload⟩ (by
        intro b hb
        rw [e4] at hb
        obtain ⟨i, hi, rfl⟩ := List.mem_mapIdx.1 hb
        exact fresh i)
      exact this
    case clone x =>
      simp only [World.step]
      split
      · exact h
      · next a ha => exact h.addHdr a (h.resolve hn ha)
    case pktNew => exact h.addPkt ⟨[], []⟩ (by simp)
    case push p i =>
      simp only [World.step]
      repeat' split
      · exact h
      · exact h
      · next x hx _ q hq =>
        refine (h.dropHdr i).setPkt p (some _) ?_
        rintro _ ⟨⟩ a ha
        rcases List.mem_append.1 ha with ha | ha
        · exact h.ps p q hn hq a ha
        · rw [List.mem_singleton] at ha; subst ha; exact h.hs _ _ hx
    case insert p i =>
      simp only [World.step]
      repeat' split
      · exact h
      · exact h
      · next x hx _ q hq =>
        refine (h.dropHdr i).setPkt p (some _) ?_
        rintro _ ⟨⟩ a ha
        rcases List.mem_cons.1 ha with ha | ha
        · subst ha; exact h.hs _ _ hx
        · exact h.ps p q hn hq a ha
    case pop p =>
      simp only [World.step, updPkt]
      split
      · exact h
      · next q hq =>
        refine h.setPkt p (some _) ?_
        rintro _ ⟨⟩ a ha
        exact h.ps p q hn hq a (List.dropLast_subset _ ha)
    case remove p i =>
      simp only [World.step, updPkt]
      split
      · exact h
      · next q hq =>
        refine h.setPkt p (some _) ?_
        rintro _ ⟨⟩ a ha
        exact h.ps p q hn hq a (List.mem_of_mem_eraseIdx ha)
    case setPayload p b =>
      simp only [World.step, updPkt]
      split
      · exact h
      · next q hq =>
        refine h.setPkt p (some _) ?_
        rintro _ ⟨⟩ a ha
        exact h.ps p q hn hq a ha
    case pktClone p =>
      simp only [World.step]
      split
      · exact h
      · next q hq => exact h.addPkt _ (h.ps p q hn hq)
    case add a b =>
      simp only [World.step]
      repeat' split
      · exact h
      · exact h
      · exact h
      · next qa ha _ qb hb =>
        refine ((h.setPkt a none (by simp)).setPkt b none (by simp)).addPkt ⟨qa.hdrs ++ qb.hdrs, qa.payload⟩ ?_
        intro x hx
        rcases List.mem_append.1 hx with hx | hx
        · exact h.ps a qa hn.1 ha x hx
        · exact h.ps b qb hn.2 hb x hx
    case pktToVec p =>
      simp only [World.step]; split
      · exact h
      · exact h.mem _ rfl rfl (Nat.le_refl _)
    case compare a b =>
      simp only [World.step]; repeat' split
      · exact h
      · exact h
      · exact h.mem _ rfl rfl (Nat.le_refl _)
    case assign p name i =>
      simp only [World.step]
      repeat' split
      · exact h
      · exact h
      · next x hx _ q hq _ =>
        refine (h.dropHdr i).setPkt p (some _) ?_
        rintro _ ⟨⟩ a ha
        rcases mem_assignFirst ha with ha | ha
        · exact h.ps p q hn hq a ha
        · subst ha; exact h.hs _ _ hx
      · exact h.dropHdr i
    case compareSlice p b =>
      simp only [World.step]; split
      · exact h
      · exact h.mem _ rfl rfl (Nat.le_refl _)
    case pktLen p =>
      simp only [World.step]; split
      · exact h
      · exact h

theorem names_reshapes {op : Op} (hn : names r op = false) : reshapes r op = false := by
  cases op <;> simp only [names, reshapes, decide_eq_false_iff_not, not_or] at hn ⊢
  case add a b => exact ⟨fun e => hn.1 e.symm, fun e => hn.2 e.symm⟩
  all_goals exact fun e => hn e.symm

theorem names_target {op : Op} (hn : names r op = false) {x : Place} (hx : target op = some x) : placeNames r x = false := by
  cases op <;> simp_all [names, target]

/-- A packet whose storage nobody else refers to keeps its bytes over every history that does not name it. -/
theorem Alone.runOps {chk : Bool} {w' : World} (ops : List Op) (hf : AllFree w.mem) (h : Alone w r F)
    (hn : ∀ op ∈ ops, names r op = false) (hr : w.runOps chk ops = some w') : ∀ n, F n → w'.mem n = w.mem n := by
  induction ops generalizing w with
  | nil => cases hr; intros; rfl
  | cons o os ih =>
    obtain ⟨hd, hr'⟩ := runOps_cons hr
    have ho := hn o List.mem_cons_self
    obtain ⟨m1, -, m3, -⟩ := step_mem chk w o hf hd
    intro n hF
    rw [ih m1 (h.step chk o ho) (fun op hop => hn op (List.mem_cons_of_mem _ hop)) hr' n hF]
    refine m3 n (h.lt n hF) ?_
    intro x a hx ha e
    exact h.resolve (names_target ho hx) ha (e ▸ hF)

end World
end PacketRs
