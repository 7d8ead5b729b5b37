import Verif.Lemmas.Drop
/-!
# Property C93: storage lives as long as someone holds it

The `Arc` events of any history of calls, builders and drops are memory safe; each cell has as many `Arc`s as the program's
variables hold it, is freed by the statement that takes away its last holder, and nothing is left when all variables are
gone.  When variables are dropped is invisible to the rest of the program.
-/
namespace PacketRs
open Spec

/-- C93: no history of calls, builders and drops uses storage after it was freed, frees it twice, or allocates a cell that
is in use. -/
theorem C93_safe (chk : Bool) (ss : List Stmt) {w : World} {es : List ArcEv}
    (hr : World.init.runStmts chk ss = some (w, es)) : Safe es := by
  obtain ⟨a, k, h1, -, h3, -⟩ := Counts.init.history chk ss hr
  exact ArcEv.run_safe h1 h3

/-- C93: after every history each cell has as many undropped `Arc`s as the variables hold it. -/
theorem C93_counts (chk : Bool) (ss : List Stmt) {w : World} {es : List ArcEv}
    (hr : World.init.runStmts chk ss = some (w, es)) (r : Nat) : made es r = ended es r + (held w).count r := by
  obtain ⟨a, k, h1, h2, -⟩ := Counts.init.history chk ss hr
  have := ArcEv.run_count h1 r
  rw [h2.count] at this
  omega

/-- C93: an allocated cell is freed exactly when no variable holds it. -/
theorem C93_freed_iff (chk : Bool) (ss : List Stmt) {w : World} {es : List ArcEv}
    (hr : World.init.runStmts chk ss = some (w, es)) {r : Nat} (ha : Allocated es r) : Freed es r ↔ r ∉ held w := by
  have := C93_counts chk ss hr r
  rw [← List.count_eq_zero]
  unfold Freed
  constructor
  · intro h; omega
  · intro h; exact ⟨ha, by omega⟩

/-- C93: every cell a variable holds is allocated and not freed. -/
theorem C93_held (chk : Bool) (ss : List Stmt) {w : World} {es : List ArcEv}
    (hr : World.init.runStmts chk ss = some (w, es)) {r : Nat} (h : r ∈ held w) : Allocated es r ∧ ¬ Freed es r := by
  obtain ⟨a, k, h1, h2, h3, h4⟩ := Counts.init.history chk ss hr
  have ha : Allocated es r := by
    have hlt := h2.lt r h
    have hm : r ∈ news es := by rw [h3, List.mem_range'_1]; simp only [World.init] at *; omega
    obtain ⟨e, he, hx⟩ := List.mem_filterMap.mp hm
    cases e with
    | new s => cases hx; exact he
    | clone s => cases hx
    | use s => cases hx
    | drop s => cases hx
  exact ⟨ha, fun hf => (C93_freed_iff chk ss hr ha).mp hf h⟩

/-- C93: when all variables are gone everything that was allocated is freed: there is no leak. -/
theorem C93_no_leak (chk : Bool) (ss : List Stmt) {w : World} {es : List ArcEv}
    (hr : World.init.runStmts chk ss = some (w, es)) (hh : ∀ h, w.hdr? h = none) (hp : ∀ p, w.pkt? p = none) :
    ∀ r, Allocated es r → Freed es r := by
  intro r ha
  rw [C93_freed_iff chk ss hr ha]
  intro hm
  simp only [held, List.mem_append, List.mem_flatMap] at hm
  rcases hm with ⟨x, hx, hm⟩ | ⟨x, hx, hm⟩
  · cases x with
    | none => simp [heldH] at hm
    | some x =>
      obtain ⟨i, hi⟩ := List.getElem?_of_mem hx
      have := hh i
      unfold World.hdr? at this
      rw [hi] at this; cases this
  · cases x with
    | none => simp [heldP] at hm
    | some x =>
      obtain ⟨i, hi⟩ := List.getElem?_of_mem hx
      have := hp i
      unfold World.pkt? at this
      rw [hi] at this; cases this

/-- C93: a statement frees exactly the cells of which it takes away the last holder. -/
theorem C93_frees (chk : Bool) (ss : List Stmt) (s : Stmt) {w w' : World} {es es' : List ArcEv}
    (hr : World.init.runStmts chk ss = some (w, es)) (hr' : World.init.runStmts chk (ss ++ [s]) = some (w', es')) (r : Nat)
    (ha : Allocated es r) : (¬ Freed es r ∧ Freed es' r) ↔ (r ∈ held w ∧ r ∉ held w') := by
  have ha' : Allocated es' r := by
    have pre : ∀ (ss : List Stmt) (w0 : World) {w es w' es'}, w0.runStmts chk ss = some (w, es) →
        w0.runStmts chk (ss ++ [s]) = some (w', es') → ∃ t, es' = es ++ t := by
      intro ss
      induction ss with
      | nil =>
        intro w0 w es w' es' h1 h2
        obtain ⟨rfl, rfl⟩ := Prod.mk.inj (Option.some.inj h1)
        exact ⟨es', rfl⟩
      | cons x ss ih =>
        intro w0 w es w' es' h1 h2
        simp only [World.runStmts, List.cons_append] at h1 h2
        split at h1
        · cases h1
        · next w1 v es1 hne heq =>
          rw [heq] at h2
          split at h2
          · next heq' =>
            obtain ⟨rfl, h4⟩ := Prod.mk.inj heq'
            obtain ⟨rfl, rfl⟩ := Prod.mk.inj h4
            exact (hne rfl).elim
          · next w1' v' es1' hne' heq' =>
            obtain ⟨rfl, h4⟩ := Prod.mk.inj heq'
            obtain ⟨rfl, rfl⟩ := Prod.mk.inj h4
            cases h5 : w1.runStmts chk ss with
            | none => rw [h5] at h1; cases h1
            | some z =>
              cases h6 : w1.runStmts chk (ss ++ [s]) with
              | none => rw [h6] at h2; cases h2
              | some z' =>
                rw [h5] at h1; rw [h6] at h2
                obtain ⟨z1, z2⟩ := z
                obtain ⟨z1', z2'⟩ := z'
                obtain ⟨rfl, rfl⟩ := Prod.mk.inj (Option.some.inj h1)
                obtain ⟨rfl, rfl⟩ := Prod.mk.inj (Option.some.inj h2)
                obtain ⟨t, rfl⟩ := ih w1 h5 h6
                exact ⟨t, by simp⟩
    obtain ⟨t, rfl⟩ := pre ss _ hr hr'
    exact List.mem_append_left _ ha
  rw [C93_freed_iff chk ss hr ha, C93_freed_iff chk _ hr' ha']
  constructor
  · rintro ⟨h1, h2⟩; exact ⟨Classical.not_not.mp h1, h2⟩
  · rintro ⟨h1, h2⟩; exact ⟨fun h => h h1, h2⟩

/-- C93: what a history does, returns and frees does not depend on variables it does not mention (and that exist at its
beginning). -/
theorem C93_frame (chk : Bool) {H P : List Nat} (ss : List Stmt) :
    ∀ {w w' : World}, SameExcept H P w w' → (∀ p ∈ P, p < w.ps.length) →
      (∀ s ∈ ss, (∀ h ∈ (stmtVars s).1, h ∉ H) ∧ ∀ p ∈ (stmtVars s).2, p ∉ P) →
      w'.outcomes chk ss = w.outcomes chk ss ∧
      (∀ u es, w.runStmts chk ss = some (u, es) → ∃ u', w'.runStmts chk ss = some (u', es) ∧ SameExcept H P u u') := by
  induction ss with
  | nil =>
    intro w w' s _ _
    refine ⟨rfl, fun u es h => ?_⟩
    obtain ⟨rfl, rfl⟩ := Prod.mk.inj (Option.some.inj h)
    exact ⟨w', rfl, s⟩
  | cons o ss ih =>
    intro w w' s hlt hv
    obtain ⟨s1, e1⟩ := s.stmt chk (hv o (by simp)) hlt
    have g1 := ps_grow chk w o
    simp only [World.outcomes, World.runStmts]
    revert s1 e1 g1
    rcases w.stmt chk o with ⟨w1, v, es1⟩
    rcases w'.stmt chk o with ⟨w1', v', es1'⟩
    intro s1 e1 g1
    obtain ⟨rfl, rfl⟩ := Prod.mk.inj e1
    dsimp only at s1 g1
    obtain ⟨i1, i2⟩ := ih s1 (fun p hp => Nat.lt_of_lt_of_le (hlt p hp) g1) (fun x hx => hv x (by simp [hx]))
    by_cases hd : v' = .error .deadlock
    · subst hd
      exact ⟨rfl, fun u es h => by cases h⟩
    · refine ⟨?_, ?_⟩
      · split
        · next heq => exact absurd (Prod.mk.inj (Prod.mk.inj heq).2).1 hd
        · next heq =>
          obtain ⟨rfl, h4⟩ := Prod.mk.inj heq
          obtain ⟨rfl, rfl⟩ := Prod.mk.inj h4
          rw [i1]
      · intro u es h
        split at h
        · cases h
        · next heq =>
          obtain ⟨rfl, h4⟩ := Prod.mk.inj heq
          obtain ⟨rfl, rfl⟩ := Prod.mk.inj h4
          cases h5 : w1.runStmts chk ss with
          | none => rw [h5] at h; cases h
          | some z =>
            obtain ⟨z1, z2⟩ := z
            rw [h5] at h
            obtain ⟨rfl, rfl⟩ := Prod.mk.inj (Option.some.inj h)
            obtain ⟨u', h6, s6⟩ := i2 _ _ h5
            refine ⟨u', ?_, s6⟩
            rw [h6]; rfl

/-- C93: dropping a header variable is invisible to a program that does not mention it again. -/
theorem C93_drop_hdr (chk : Bool) (w : World) (h : Nat) (ss : List Stmt) (hv : ∀ s ∈ ss, h ∉ (stmtVars s).1) :
    (w.stmt chk (.dropHdr h)).1.outcomes chk ss = w.outcomes chk ss := by
  refine (C93_frame chk (H := [h]) (P := []) ss ?_ (by simp) fun s hs => ⟨?_, by simp⟩).1
  · simp only [World.stmt]
    split
    · refine ⟨rfl, rfl, by simp, rfl, fun i hi => ?_, fun p _ => rfl⟩
      exact List.getElem?_set_ne (fun e => hi (by simp [e]))
    · exact ⟨rfl, rfl, rfl, rfl, fun _ _ => rfl, fun _ _ => rfl⟩
  · intro x hx hm
    simp at hm
    exact hv s hs (hm ▸ hx)

/-- C93: dropping a packet is invisible to a program that does not mention it again: the storage it shared with clones
and with headers taken from it stays as it was. -/
theorem C93_drop_pkt (chk : Bool) (w : World) (p : Nat) (ss : List Stmt) (hv : ∀ s ∈ ss, p ∉ (stmtVars s).2) :
    (w.stmt chk (.dropPkt p)).1.outcomes chk ss = w.outcomes chk ss := by
  by_cases hp : p < w.ps.length
  · refine (C93_frame chk (H := []) (P := [p]) ss ?_ (by simpa using hp) fun s hs => ⟨by simp, ?_⟩).1
    · simp only [World.stmt, World.dropPkt]
      split
      · refine ⟨rfl, rfl, rfl, by simp, fun _ _ => rfl, fun i hi => ?_⟩
        exact List.getElem?_set_ne (fun e => hi (by simp [e]))
      · exact ⟨rfl, rfl, rfl, rfl, fun _ _ => rfl, fun _ _ => rfl⟩
    · intro x hx hm
      simp at hm
      exact hv s hs (hm ▸ hx)
  · have : w.pkt? p = none := by
      unfold World.pkt?
      rw [List.getElem?_eq_none (by omega)]; rfl
    simp only [World.stmt, World.dropPkt, this]

/-- C93: a builder called as a statement gives what `World.build` gives, and moves its inner packet away. -/
theorem C93_build (chk : Bool) (w : World) (p : Nat) (e : Encap) :
    (w.stmt chk (.build p e)).2.1 = (w.build chk p e).2 ∧
    SameExcept [] [p] (w.build chk p e).1 (w.stmt chk (.build p e)).1 ∧ (w.stmt chk (.build p e)).1.pkt? p = none := by
  have fin : ∀ (w : World), SameExcept [] [p] w (w.dropPkt p).1 ∧ (w.dropPkt p).1.pkt? p = none := by
    intro w
    unfold World.dropPkt
    cases ep : w.pkt? p with
    | none => exact ⟨⟨rfl, rfl, rfl, rfl, fun _ _ => rfl, fun _ _ => rfl⟩, ep⟩
    | some q =>
      refine ⟨⟨rfl, rfl, rfl, by simp, fun _ _ => rfl, fun i hi => List.getElem?_set_ne (fun e => hi (by simp [e]))⟩, ?_⟩
      unfold World.pkt?
      rw [List.getElem?_set]
      by_cases h : p < w.ps.length <;> simp [h]
  simp only [World.stmt, World.build]
  cases ep : w.pkt? p with
  | none => exact ⟨rfl, ⟨rfl, rfl, rfl, rfl, fun _ _ => rfl, fun _ _ => rfl⟩, ep⟩
  | some q =>
    have pl : (w.step chk (.pktToVec p)).1.ps = w.ps := by simp only [World.step, ep]; rfl
    dsimp only
    revert pl
    rcases w.step chk (.pktToVec p) with ⟨w1, v⟩
    intro pl
    dsimp only at pl
    cases v with
    | error f => exact ⟨rfl, fin w1⟩
    | ok v =>
      cases v with
      | bytes b =>
        dsimp only
        cases e.outer b q.len with
        | error f => exact ⟨rfl, fin w1⟩
        | ok o =>
          dsimp only
          split
          · refine ⟨rfl, ⟨rfl, rfl, rfl, rfl, fun _ _ => rfl, fun _ _ => rfl⟩, ?_⟩
            have hlt : p < w1.ps.length := by
              rw [pl]; exact (List.getElem?_eq_some_iff.mp (World.pkt?_get ep)).1
            obtain ⟨-, a2, a3, -⟩ := World.allocAll_props o.hdrs w1
            have hq : (w1.step chk (.adopt o)).1.pkt? p = some q := by
              simp only [World.step, World.pkt?, a3]
              rw [List.getElem?_append_left hlt, pl, World.pkt?_get ep]; rfl
            have hn : ∃ y, (w1.step chk (.adopt o)).1.pkt? w1.ps.length = some y := by
              refine ⟨⟨(w1.allocAll o.hdrs).2, o.payload⟩, ?_⟩
              simp only [World.step, World.pkt?, a3]
              rw [List.getElem?_append_right (Nat.le_refl _)]; simp
            obtain ⟨y, hn⟩ := hn
            generalize hw2 : (w1.step chk (.adopt o)).1 = w2 at hq hn ⊢
            have hlt2 : p < w2.ps.length := (List.getElem?_eq_some_iff.mp (World.pkt?_get hq)).1
            simp only [World.step, if_neg (show w1.ps.length ≠ p by omega), hn, hq]
            unfold World.pkt?
            rw [List.getElem?_append_left (by simpa using hlt2), List.getElem?_set_self (by simpa using hlt2)]; rfl
          · exact ⟨rfl, fin _⟩
      | unit => exact ⟨rfl, fin w1⟩
      | word x => exact ⟨rfl, fin w1⟩
      | bool x => exact ⟨rfl, fin w1⟩
      | num x => exact ⟨rfl, fin w1⟩

/-! ## Cases -/

/-- A packet with one header is cloned, the header is also cloned out of it; then everything is dropped. -/
def dropDemo : List Stmt :=
  [.call (.new Vlan), .call .pktNew, .call (.push 0 0), .call (.pktClone 0), .call (.clone (.inPkt 1 "Vlan" Vlan)),
    .dropPkt 0, .dropPkt 1, .call (.toVec (.var 1)), .dropHdr 1]

/-- The events of `dropDemo`. -/
def dropDemoEvents : List ArcEv := [.new 0, .clone 0, .clone 0, .drop 0, .drop 0, .use 0, .drop 0]

-- The hypotheses of the theorems hold of it: the run exists, everything is dead at the end, and the cell is freed by the
-- last statement only.
example : (World.init.runStmts true dropDemo).map (·.2) = some dropDemoEvents := by decide +kernel
example : ∃ w es, World.init.runStmts true dropDemo = some (w, es) ∧ held w = [] ∧ Freed es 0 := by
  cases h : World.init.runStmts true dropDemo with
  | none =>
    have : (World.init.runStmts true dropDemo).isSome = true := by decide +kernel
    rw [h] at this; cases this
  | some z =>
    have e1 : (World.init.runStmts true dropDemo).map (fun z => (held z.1, z.2)) = some ([], dropDemoEvents) := by
      decide +kernel
    rw [h] at e1
    obtain ⟨h1, h2⟩ := Prod.mk.inj (Option.some.inj e1)
    refine ⟨z.1, z.2, rfl, h1, ?_⟩
    rw [h2]
    exact ⟨by simp [Allocated, dropDemoEvents], by decide⟩

-- Not every sequence of events is safe: a use after the last drop, a double drop, a cell allocated twice.
example : ¬ Safe [.new 0, .drop 0, .use 0] := fun h => absurd (h [.new 0, .drop 0] (.use 0) [] rfl) (by decide)
example : ¬ Safe [.new 0, .drop 0, .drop 0] := fun h => absurd (h [.new 0, .drop 0] (.drop 0) [] rfl) (by decide)
example : ¬ Safe [.new 0, .drop 0, .new 0] := fun h => h [.new 0, .drop 0] (.new 0) [] rfl (.new 0) (by simp) rfl

-- Dropping the original packet is not seen through its clone.
example : (World.init.outcomes true dropDemo)[7]? = some (.ok (.bytes Vlan.dflt)) := by decide +kernel

end PacketRs
