import Verif.Lemmas.Heap
/-!
# The store follows the bookkeeping of constructor calls
-/
namespace PacketRs
open Spec

/-- The header reference of a header, given where each constructor call put its headers. -/
def conv (φ : Nat → Nat → Nat) (b : Born) : HRef := ⟨b.ty, φ b.call b.pos⟩

/-- The world `w` holds the headers that the bookkeeping `g` says, `φ` telling where; `A` are the
headers made so far. -/
structure Tracks (w : World) (g : Family) (φ : Nat → Nat → Nat) (A : Nat → Nat → Prop) : Prop where
  hs : w.hs = g.hs.map (Option.map (conv φ))
  ps : w.ps.map (Option.map PRef.hdrs) = g.ps.map (Option.map (List.map (conv φ)))
  hsA : ∀ b, some b ∈ g.hs → A b.call b.pos
  psA : ∀ l, some l ∈ g.ps → ∀ b ∈ l, A b.call b.pos
  inj : ∀ c i c' i', A c i → A c' i' → φ c i = φ c' i' → c = c' ∧ i = i'
  lt : ∀ c i, A c i → φ c i < w.next
  old : ∀ c i, A c i → c < g.time
  free : AllFree w.mem

section
variable {w : World} {g : Family} {φ : Nat → Nat → Nat} {A : Nat → Nat → Prop}

theorem Tracks.hdr? (h : Tracks w g φ A) (i : Nat) : w.hdr? i = ((g.hs[i]?).join).map (conv φ) := by
  unfold World.hdr?
  rw [h.hs, List.getElem?_map]
  cases g.hs[i]? with
  | none => rfl
  | some x => cases x <;> rfl

theorem Tracks.pkt? (h : Tracks w g φ A) (i : Nat) :
    (w.pkt? i).map PRef.hdrs = ((g.ps[i]?).join).map (List.map (conv φ)) := by
  have := congrArg (fun l => l[i]?) h.ps
  simp only [List.getElem?_map] at this
  unfold World.pkt?
  cases h1 : w.ps[i]? with
  | none =>
    rw [h1] at this
    cases h2 : g.ps[i]? with
    | none => rfl
    | some y => rw [h2] at this; cases this
  | some x =>
    rw [h1] at this
    cases h2 : g.ps[i]? with
    | none => rw [h2] at this; cases this
    | some y =>
      rw [h2] at this
      simpa using this

theorem Tracks.pkt_some (h : Tracks w g φ A) {i : Nat} {q : PRef} (hq : w.pkt? i = some q) :
    ∃ l, (g.ps[i]?).join = some l ∧ q.hdrs = l.map (conv φ) := by
  have := h.pkt? i
  rw [hq] at this
  cases hl : (g.ps[i]?).join with
  | none => rw [hl] at this; cases this
  | some l => rw [hl] at this; exact ⟨l, rfl, by simpa using this⟩

theorem Tracks.pkt_none (h : Tracks w g φ A) {i : Nat} (hq : w.pkt? i = none) : (g.ps[i]?).join = none := by
  have := h.pkt? i
  rw [hq] at this
  cases hl : (g.ps[i]?).join with
  | none => rfl
  | some l => rw [hl] at this; cases this

theorem join_mem {γ : Type} {l : List (Option γ)} {i : Nat} {x : γ} (h : (l[i]?).join = some x) : some x ∈ l := by
  cases e : l[i]? with
  | none => rw [e] at h; cases h
  | some y => rw [e] at h; simp at h; subst h; exact List.mem_of_getElem? e

theorem find_conv (φ : Nat → Nat → Nat) (name : String) (l : List Born) :
    (l.map (conv φ)).find? (fun h => h.ty.name = name) = (l.find? (fun b => b.ty.name = name)).map (conv φ) := by
  rw [List.find?_map]; rfl

/-- Both agree on which header a place denotes. -/
theorem Tracks.resolve (h : Tracks w g φ A) (x : Place) :
    (∃ b, g.find x = some b ∧ w.resolve x = .ok (conv φ b) ∧ A b.call b.pos) ∨
    (g.find x = none ∧ ∃ e, w.resolve x = .error e) := by
  cases x with
  | var i =>
    simp only [Family.find, World.resolve, h.hdr? i]
    cases e : (g.hs[i]?).join with
    | none => exact .inr ⟨rfl, _, rfl⟩
    | some b => exact .inl ⟨b, rfl, rfl, h.hsA b (join_mem e)⟩
  | inPkt p name T =>
    simp only [Family.find, World.resolve]
    cases e : w.pkt? p with
    | none => rw [h.pkt_none e]; exact .inr ⟨rfl, _, rfl⟩
    | some q =>
      obtain ⟨l, hl, hq⟩ := h.pkt_some e
      rw [hl]
      simp only [hq, find_conv, bind, Option.bind]
      cases e2 : l.find? (fun b => b.ty.name = name) with
      | none => exact .inr ⟨rfl, _, rfl⟩
      | some b =>
        simp only [Option.map_some, conv]
        split
        · exact .inl ⟨b, rfl, rfl, h.psA l (join_mem hl) b (List.mem_of_find?_eq_some e2)⟩
        · exact .inr ⟨rfl, _, rfl⟩

theorem Tracks.mono {g' : Family} (h : Tracks w g φ A) (h1 : g'.hs = g.hs) (h2 : g'.ps = g.ps)
    (h3 : g.time ≤ g'.time) : Tracks w g' φ A :=
  ⟨by rw [h1]; exact h.hs, by rw [h2]; exact h.ps, by rw [h1]; exact h.hsA, by rw [h2]; exact h.psA, h.inj, h.lt,
    fun c i hc => Nat.lt_of_lt_of_le (h.old c i hc) h3, h.free⟩

theorem Tracks.mem {w' : World} (h : Tracks w g φ A) (h1 : w'.hs = w.hs) (h2 : w'.ps = w.ps)
    (h3 : w'.next = w.next) (hf : AllFree w'.mem) : Tracks w' g φ A :=
  ⟨by rw [h1]; exact h.hs, by rw [h2]; exact h.ps, h.hsA, h.psA, h.inj, by rw [h3]; exact h.lt, h.old, hf⟩

theorem set_map {γ δ : Type} (l : List γ) (f : γ → δ) (i : Nat) (x : γ) : (l.set i x).map f = (l.map f).set i (f x) := by
  simp [List.map_set]

theorem eraseIdx_map' {γ δ : Type} (f : γ → δ) (l : List γ) (i : Nat) : (l.map f).eraseIdx i = (l.eraseIdx i).map f := by
  induction l generalizing i with
  | nil => rfl
  | cons a l ih => cases i with
    | zero => rfl
    | succ i => simp [ih]

theorem modify_some {γ : Type} {l : List (Option γ)} {i : Nat} {x : γ} (f : γ → γ) (h : (l[i]?).join = some x) :
    l.modify i (Option.map f) = l.set i (some (f x)) := by
  cases e : l[i]? with
  | none => rw [e] at h; cases h
  | some y =>
    rw [e] at h; simp at h; subst h
    have hi : i < l.length := by rw [List.getElem?_eq_some_iff] at e; exact e.1
    refine List.ext_getElem? fun j => ?_
    rw [List.getElem?_modify, List.getElem?_set]
    by_cases hj : i = j
    · subst hj; rw [e]; simp [hi]
    · simp [hj]

theorem modify_fix {γ : Type} {l : List (Option γ)} {i : Nat} {f : γ → γ} {x : γ} (h : (l[i]?).join = some x) (hf : f x = x) :
    l.modify i (Option.map f) = l := by
  refine List.ext_getElem? fun j => ?_
  rw [List.getElem?_modify]
  by_cases hj : i = j
  · subst hj
    cases e : l[i]? with
    | none => simp
    | some y => rw [e] at h; simp at h; subst h; simp [hf]
  · simp [hj]

theorem swapIn_cons (name : String) (b c : Born) (l : List Born) :
    Family.swapIn name b (c :: l) = if c.ty.name = name then b :: l else c :: Family.swapIn name b l := by
  unfold Family.swapIn
  rw [List.findIdx?_cons]
  by_cases h : c.ty.name = name
  · simp [h]
  · simp only [h, decide_false, Bool.false_eq_true, if_false]
    cases l.findIdx? (fun c => decide (c.ty.name = name)) <;> rfl

theorem assignFirst_swapIn (φ : Nat → Nat → Nat) (name : String) (b : Born) (l : List Born) :
    World.assignFirst name (conv φ b) (l.map (conv φ)) = (Family.swapIn name b l).map (conv φ) := by
  induction l with
  | nil => rfl
  | cons c l ih =>
    rw [swapIn_cons, List.map_cons, World.assignFirst]
    by_cases h : c.ty.name = name
    · rw [if_pos h, if_pos (show (conv φ c).ty.name = name from h)]; rfl
    · rw [if_neg h, if_neg (show ¬ (conv φ c).ty.name = name from h), ih]; rfl

theorem mem_swapIn {name : String} {b c : Born} {l : List Born} (h : c ∈ Family.swapIn name b l) : c ∈ l ∨ c = b := by
  unfold Family.swapIn at h
  split at h
  · exact List.mem_or_eq_of_mem_set h
  · exact .inl h

theorem swapIn_none {name : String} {b : Born} {l : List Born} (h : (l.any fun c => c.ty.name = name) = false) :
    Family.swapIn name b l = l := by
  unfold Family.swapIn
  rw [List.findIdx?_eq_none_iff.2]
  intro c hc
  rw [List.any_eq_false] at h
  simpa using h c hc

theorem modify_none {γ : Type} {l : List (Option γ)} {i : Nat} (f : γ → γ) (h : (l[i]?).join = none) :
    l.modify i (Option.map f) = l := by
  refine List.ext_getElem? fun j => ?_
  rw [List.getElem?_modify]
  by_cases hj : i = j
  · subst hj
    cases e : l[i]? with
    | none => simp
    | some y => rw [e] at h; simp at h; subst h; simp
  · simp [hj]

/-- Changing the header list of a live packet on both sides. -/
theorem Tracks.upd (h : Tracks w g φ A) {p : Nat} {q : PRef} (hq : w.pkt? p = some q) (f : List Born → List Born)
    (q' : PRef) (hf : ∀ l, q.hdrs = l.map (conv φ) → q'.hdrs = (f l).map (conv φ))
    (hA : ∀ l, (∀ b ∈ l, A b.call b.pos) → ∀ b ∈ f l, A b.call b.pos) :
    Tracks { w with ps := w.ps.set p (some q') } (g.upd p f) φ A := by
  obtain ⟨l, hl, hql⟩ := h.pkt_some hq
  refine ⟨h.hs, ?_, h.hsA, ?_, h.inj, h.lt, h.old, h.free⟩
  · simp only [Family.upd]
    rw [modify_some f hl, set_map, set_map, h.ps]
    simp only [Option.map_some, hf l hql]
  · intro l' hl' b hb
    simp only [Family.upd] at hl'
    rw [modify_some f hl] at hl'
    rcases List.mem_or_eq_of_mem_set hl' with h1 | h1
    · exact h.psA l' h1 b hb
    · cases h1
      exact hA l (fun b hb => h.psA l (join_mem hl) b hb) b hb

theorem Tracks.addPkt (h : Tracks w g φ A) (q : PRef) (l : List Born) (hq : q.hdrs = l.map (conv φ))
    (hA : ∀ b ∈ l, A b.call b.pos) :
    Tracks { w with ps := w.ps ++ [some q] } { g with ps := g.ps ++ [some l] } φ A := by
  refine ⟨h.hs, ?_, h.hsA, ?_, h.inj, h.lt, h.old, h.free⟩
  · simp [h.ps, hq]
  · intro l' hl' b hb
    rcases List.mem_append.1 hl' with h1 | h1
    · exact h.psA l' h1 b hb
    · simp at h1; subst h1; exact hA b hb

theorem Tracks.addHdr (h : Tracks w g φ A) (b : Born) (hA : A b.call b.pos) :
    Tracks { w with hs := w.hs ++ [some (conv φ b)] } { g with hs := g.hs ++ [some b] } φ A := by
  refine ⟨by simp [h.hs], h.ps, ?_, h.psA, h.inj, h.lt, h.old, h.free⟩
  intro b' hb'
  rcases List.mem_append.1 hb' with h1 | h1
  · exact h.hsA b' h1
  · simp at h1; subst h1; exact hA

theorem Tracks.dropHdr (h : Tracks w g φ A) (i : Nat) :
    Tracks { w with hs := w.hs.set i none } { g with hs := g.hs.set i none } φ A := by
  refine ⟨by simp [h.hs], h.ps, ?_, h.psA, h.inj, h.lt, h.old, h.free⟩
  intro b hb
  rcases List.mem_or_eq_of_mem_set hb with h1 | h1
  · exact h.hsA b h1
  · cases h1

theorem Tracks.dropPkt (h : Tracks w g φ A) (i : Nat) :
    Tracks { w with ps := w.ps.set i none } { g with ps := g.ps.set i none } φ A := by
  refine ⟨h.hs, ?_, h.hsA, ?_, h.inj, h.lt, h.old, h.free⟩
  · simp only [set_map, h.ps, Option.map_none]
  · intro l hl
    rcases List.mem_or_eq_of_mem_set hl with h1 | h1
    · exact h.psA l h1
    · cases h1

/-- Allocating `n` cells for the headers made by the current call. -/
theorem Tracks.alloc (h : Tracks w g φ A) (n : Nat) (w' : World) (h1 : w'.hs = w.hs) (h2 : w'.ps = w.ps)
    (h3 : w'.next = w.next + n) (hf : AllFree w'.mem) :
    Tracks w' { g with time := g.time + 1 } (fun c i => if c = g.time then w.next + i else φ c i)
      (fun c i => A c i ∨ (c = g.time ∧ i < n)) := by
  have hne : ∀ c i, A c i → c ≠ g.time := fun c i hc e => by have := h.old c i hc; omega
  have hconv : ∀ b : Born, A b.call b.pos →
      conv (fun c i => if c = g.time then w.next + i else φ c i) b = conv φ b := by
    intro b hb; simp only [conv, if_neg (hne _ _ hb)]
  refine ⟨?_, ?_, fun b hb => .inl (h.hsA b hb), fun l hl b hb => .inl (h.psA l hl b hb), ?_, ?_, ?_, hf⟩
  · rw [h1, h.hs]
    refine List.map_congr_left fun x hx => ?_
    cases x with
    | none => rfl
    | some b => simp only [Option.map_some, hconv b (h.hsA b hx)]
  · rw [h2, h.ps]
    refine List.map_congr_left fun x hx => ?_
    cases x with
    | none => rfl
    | some l =>
      simp only [Option.map_some, Option.some.injEq]
      exact List.map_congr_left fun b hb => (hconv b (h.psA l hx b hb)).symm
  · rintro c i c' i' (ha | ⟨rfl, hi⟩) (ha' | ⟨rfl, hi'⟩) he
    · simp only [if_neg (hne _ _ ha), if_neg (hne _ _ ha')] at he
      exact h.inj _ _ _ _ ha ha' he
    · simp only [if_neg (hne _ _ ha), if_true] at he
      have := h.lt _ _ ha; omega
    · simp only [if_neg (hne _ _ ha'), if_true] at he
      have := h.lt _ _ ha'; omega
    · simp only [if_true] at he
      exact ⟨rfl, by omega⟩
  · rintro c i (ha | ⟨rfl, hi⟩)
    · simp only [if_neg (hne _ _ ha), h3]
      have := h.lt _ _ ha; omega
    · simp only [if_true, h3]; omega
  · rintro c i (ha | ⟨rfl, hi⟩)
    · have := h.old _ _ ha; simp only; omega
    · simp only; omega

/-- One call keeps the world in step with the bookkeeping. -/
theorem Tracks.step (h : Tracks w g φ A) (chk : Bool) (op : Op) (hd : (w.step chk op).2 ≠ .error .deadlock) :
    ∃ φ' A', Tracks (w.step chk op).1 (g.next op) φ' A' ∧
      (∀ c i, A c i → A' c i ∧ φ' c i = φ c i) := by
  have hmem := (World.step_mem chk w op h.free hd).1
  have keep : ∀ (w' : World) (g' : Family), Tracks w' { g' with time := g.time } φ A → ∃ φ' A', Tracks w' { g' with time := g.time + 1 } φ' A' ∧
      (∀ c i, A c i → A' c i ∧ φ' c i = φ c i) := by
    intro w' g' h'
    exact ⟨φ, A, h'.mono rfl rfl (Nat.le_succ _), fun c i hc => ⟨hc, rfl⟩⟩
  have hne : ∀ c i, A c i → c ≠ g.time := fun c i hc e => by have := h.old c i hc; omega
  cases ht : target op with
  | some x =>
    have hg : g.act op = g := by cases op <;> simp [target] at ht <;> rfl
    have : Tracks (w.step chk op).1 g φ A := by
      rcases World.step_target chk w op x ht with ⟨e, he, -⟩ | ⟨a, o, hr, -, he⟩
      · rw [he]; exact h
      · rw [he] at hmem ⊢; exact h.mem rfl rfl rfl hmem
    rw [Family.next, hg]
    exact keep _ g this
  | none =>
    cases op <;> simp only [target, reduceCtorEq] at ht
    case new T =>
      have h1 := h.alloc 1 (w.alloc T T.dflt).1 rfl rfl rfl (h.free.put rfl)
      have h2 := h1.addHdr ⟨T, g.time, 0⟩ (.inr ⟨rfl, Nat.zero_lt_one⟩)
      refine ⟨(fun c i => if c = g.time then w.next + i else φ c i), (fun c i => A c i ∨ (c = g.time ∧ i < 1)), ?_,
        fun c i hc => ⟨Or.inl hc, if_neg (hne _ _ hc)⟩⟩
      simpa [conv, World.step, World.alloc, Family.next, Family.act] using h2
    case ofVec T b =>
      have h1 := h.alloc 1 (w.alloc T b).1 rfl rfl rfl (h.free.put rfl)
      have h2 := h1.addHdr ⟨T, g.time, 0⟩ (.inr ⟨rfl, Nat.zero_lt_one⟩)
      refine ⟨(fun c i => if c = g.time then w.next + i else φ c i), (fun c i => A c i ∨ (c = g.time ∧ i < 1)), ?_,
        fun c i hc => ⟨Or.inl hc, if_neg (hne _ _ hc)⟩⟩
      simpa [conv, World.step, World.alloc, Family.next, Family.act] using h2
    case adopt q =>
      obtain ⟨e1, e2, e3, e4, e5, e6, -⟩ := World.allocAll_props q.hdrs w
      have h1 := h.alloc q.hdrs.length (w.allocAll q.hdrs).1 e2 e3 e1 (e6 h.free)
      have h2 := h1.addPkt ⟨(w.allocAll q.hdrs).2, q.payload⟩ (q.hdrs.mapIdx fun i h => ⟨h.ty, g.time, i⟩) (by
          simp only [e4]
          refine List.ext_getElem? fun j => ?_
          simp only [List.getElem?_map, List.getElem?_mapIdx]
          cases q.hdrs[j]? with
          | none => rfl
          | some x => simp [conv]) (by
          intro b hb
          rw [List.mem_mapIdx] at hb
          obtain ⟨i, hi, rfl⟩ := hb
          exact .inr ⟨rfl, hi⟩)
      exact ⟨_, _, h2, fun c i hc => ⟨.inl hc, by simp only [if_neg (hne _ _ hc)]⟩⟩
    case clone x =>
      simp only [World.step, Family.next, Family.act]
      rcases h.resolve x with ⟨b, hb, hr, hA⟩ | ⟨hb, e, hr⟩
      · simp only [hb, hr]; exact keep _ { g with hs := g.hs ++ [some b] } (h.addHdr b hA)
      · simp only [hb, hr]; exact keep _ g h
    case pktNew => exact keep _ { g with ps := g.ps ++ [some []] } (h.addPkt ⟨[], []⟩ [] rfl (by simp))
    case push p i =>
      simp only [World.step, Family.next, Family.act, h.hdr? i]
      cases e : (g.hs[i]?).join with
      | none => exact keep _ g h
      | some b =>
        simp only [Option.map_some]
        cases e2 : w.pkt? p with
        | none => rw [h.pkt_none e2]; exact keep _ g h
        | some q =>
          obtain ⟨l, hl, hq⟩ := h.pkt_some e2
          rw [hl]
          have h1 := h.upd e2 (fun l => l ++ [b]) { q with hdrs := q.hdrs ++ [conv φ b] } (by
            intro l' hl'; simp [hl']) (by
            intro l' hl' b' hb'
            rcases List.mem_append.1 hb' with h1 | h1
            · exact hl' b' h1
            · simp at h1; subst h1; exact h.hsA b' (join_mem e))
          exact keep _ _ (h1.dropHdr i)
    case insert p i =>
      simp only [World.step, Family.next, Family.act, h.hdr? i]
      cases e : (g.hs[i]?).join with
      | none => exact keep _ g h
      | some b =>
        simp only [Option.map_some]
        cases e2 : w.pkt? p with
        | none => rw [h.pkt_none e2]; exact keep _ g h
        | some q =>
          obtain ⟨l, hl, hq⟩ := h.pkt_some e2
          rw [hl]
          have h1 := h.upd e2 (fun l => b :: l) { q with hdrs := conv φ b :: q.hdrs } (by
            intro l' hl'; simp [hl']) (by
            intro l' hl' b' hb'
            rcases List.mem_cons.1 hb' with h1 | h1
            · subst h1; exact h.hsA b' (join_mem e)
            · exact hl' b' h1)
          exact keep _ _ (h1.dropHdr i)
    case pop p =>
      simp only [World.step, World.updPkt, Family.next, Family.act]
      cases e2 : w.pkt? p with
      | none =>
        have : g.upd p List.dropLast = g := by simp only [Family.upd, modify_none _ (h.pkt_none e2)]
        rw [this]; exact keep _ g h
      | some q =>
        exact keep _ _ (h.upd e2 List.dropLast { q with hdrs := q.hdrs.dropLast } (by
          intro l hl; simp [hl]) (fun l hl b hb => hl b (List.dropLast_subset _ hb)))
    case remove p i =>
      simp only [World.step, World.updPkt, Family.next, Family.act]
      cases e2 : w.pkt? p with
      | none =>
        have : g.upd p (fun l => l.eraseIdx i) = g := by simp only [Family.upd, modify_none _ (h.pkt_none e2)]
        rw [this]; exact keep _ g h
      | some q =>
        exact keep _ _ (h.upd e2 (fun l => l.eraseIdx i) { q with hdrs := q.hdrs.eraseIdx i } (by
          intro l hl; simp only [hl, eraseIdx_map']) (fun l hl b hb => hl b (List.mem_of_mem_eraseIdx hb)))
    case setPayload p b =>
      simp only [World.step, World.updPkt, Family.next, Family.act]
      cases e2 : w.pkt? p with
      | none => exact keep _ g h
      | some q =>
        have h1 := h.upd e2 id { q with payload := q.payload ++ b } (by intro l hl; simp [hl]) (fun l hl b hb => hl b hb)
        refine keep _ g ?_
        have : g.upd p id = g := by simp [Family.upd, List.modify_id]
        rw [this] at h1
        exact h1
    case pktClone p =>
      simp only [World.step, Family.next, Family.act]
      cases e2 : w.pkt? p with
      | none => rw [h.pkt_none e2]; exact keep _ g h
      | some q =>
        obtain ⟨l, hl, hq⟩ := h.pkt_some e2
        rw [hl]
        exact keep _ _ (h.addPkt ⟨q.hdrs, q.payload⟩ l hq (h.psA l (join_mem hl)))
    case add p q =>
      simp only [World.step, Family.next, Family.act]
      by_cases hpq : p = q
      · simp only [hpq, if_true]
        cases (g.ps[q]?).join <;> exact keep _ g h
      · simp only [if_neg hpq]
        cases e1 : w.pkt? p with
        | none => rw [h.pkt_none e1]; exact keep _ g h
        | some a =>
          obtain ⟨la, hla, hqa⟩ := h.pkt_some e1
          rw [hla]
          cases e2 : w.pkt? q with
          | none => rw [h.pkt_none e2]; exact keep _ g h
          | some b =>
            obtain ⟨lb, hlb, hqb⟩ := h.pkt_some e2
            rw [hlb]
            exact keep _ _ (((h.dropPkt p).dropPkt q).addPkt ⟨a.hdrs ++ b.hdrs, a.payload⟩ (la ++ lb)
              (by simp [hqa, hqb]) (by
                intro x hx
                rcases List.mem_append.1 hx with h1 | h1
                · exact h.psA la (join_mem hla) x h1
                · exact h.psA lb (join_mem hlb) x h1))
    case pktToVec p =>
      refine keep _ g (h.mem ?_ ?_ ?_ hmem) <;> (simp only [World.step]; split <;> rfl)
    case compare p q =>
      refine keep _ g (h.mem ?_ ?_ ?_ hmem) <;> (simp only [World.step]; repeat' split) <;> rfl
    case assign p name i =>
      simp only [World.step, Family.next, Family.act, h.hdr? i]
      cases e : (g.hs[i]?).join with
      | none => exact keep _ g h
      | some b =>
        simp only [Option.map_some]
        cases e2 : w.pkt? p with
        | none => rw [h.pkt_none e2]; exact keep _ g h
        | some q =>
          obtain ⟨l, hl, hq⟩ := h.pkt_some e2
          rw [hl]
          simp only
          split
          · have h1 := h.upd e2 (fun l => Family.swapIn name b l) { q with hdrs := World.assignFirst name (conv φ b) q.hdrs } (by
              intro l' hl'; simp only [hl', assignFirst_swapIn]) (by
              intro l' hl' b' hb'
              rcases mem_swapIn hb' with h1 | h1
              · exact hl' b' h1
              · subst h1; exact h.hsA _ (join_mem e))
            exact keep _ { g.upd p (fun l => Family.swapIn name b l) with hs := g.hs.set i none } (h1.dropHdr i)
          · next hany =>
            have : g.upd p (fun l => Family.swapIn name b l) = g := by
              simp only [Family.upd]
              rw [modify_fix hl (swapIn_none ?_)]
              rw [hq, List.any_map] at hany
              exact Bool.eq_false_iff.2 hany
            rw [this]
            exact keep _ { g with hs := g.hs.set i none } (h.dropHdr i)
    case compareSlice p b =>
      refine keep _ g (h.mem ?_ ?_ ?_ hmem) <;> (simp only [World.step]; split <;> rfl)
    case pktLen p =>
      refine keep _ g (h.mem ?_ ?_ ?_ hmem) <;> (simp only [World.step]; split <;> rfl)

theorem tracks_init : Tracks World.init Family.init (fun _ _ => 0) (fun _ _ => False) :=
  ⟨rfl, rfl, by simp [Family.init], by simp [Family.init], by simp, by simp, by simp, fun _ => rfl⟩

theorem runOps_cons {chk : Bool} {w w' : World} {o : Op} {os : List Op} (h : w.runOps chk (o :: os) = some w') :
    (w.step chk o).2 ≠ .error .deadlock ∧ (w.step chk o).1.runOps chk os = some w' := by
  simp only [World.runOps] at h
  cases e : w.step chk o with
  | mk w1 r =>
    rw [e] at h
    by_cases hr : r = .error .deadlock
    · subst hr; cases h
    · refine ⟨hr, ?_⟩
      split at h
      · next heq => cases heq; exact absurd rfl hr
      · next heq => cases heq; exact h

theorem Tracks.runOps {w' : World} (h : Tracks w g φ A) (chk : Bool) (ops : List Op) (hr : w.runOps chk ops = some w') :
    ∃ φ' A', Tracks w' (ops.foldl Family.next g) φ' A' := by
  induction ops generalizing w g φ A with
  | nil => cases hr; exact ⟨φ, A, h⟩
  | cons o os ih =>
    obtain ⟨hd, hr'⟩ := runOps_cons hr
    obtain ⟨φ', A', h', -⟩ := h.step chk o hd
    exact ih h' hr'

/-- Every reachable world is in step with the bookkeeping. -/
theorem tracks_of_runOps {chk : Bool} {ops : List Op} {w : World} (h : World.init.runOps chk ops = some w) :
    ∃ φ A, Tracks w (Family.after ops) φ A := tracks_init.runOps chk ops h

end
end PacketRs
