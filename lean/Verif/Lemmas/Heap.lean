import Verif.Spec.Origin
import Verif.Lemmas.Sect
/-!
# Storage of packets: lemmas
-/
namespace PacketRs
open Spec
open Prog hiding bind

section
variable {α β : Type}

/-! ## `replace` -/

theorem replaceP_eq (a b : Nat) : replaceP a b =
    .lock a (.store a [] (.lock b (.load b fun o => .load a fun m => .store a (m ++ o) (.unlock b (.unlock a (.ret ())))))) :=
  rfl

theorem run_replaceP_ok {t : Nat} {s : Store} (hs : AllFree s) {a b : Nat} (hab : a ≠ b) (ha : (s a).poisoned = false)
    (hb : (s b).poisoned = false) : run t (replaceP a b) s = (.ok (), s.put a ⟨(s b).bytes, false, none⟩) := by
  have hba : b ≠ a := fun e => hab e.symm
  simp only [replaceP_eq, run, hs a, ha, put_same, put_put, put_ne _ _ hba, put_ne _ _ hab, hs b, hb,
    ne_eq, not_true_eq_false, if_false, List.nil_append, Bool.false_eq_true]
  refine congrArg _ ?_
  funext x
  by_cases hx : x = a
  · subst hx; simp
  · rw [put_ne _ _ hx, put_ne _ _ hx]
    by_cases hxb : x = b
    · subst hxb; simp only [put_same]
      have := hs x; cases hc : s x; simp [hc] at this hb; simp [this, hb]
    · rw [put_ne _ _ hxb, put_ne _ _ hx, put_ne _ _ hxb, put_ne _ _ hx]

theorem run_replaceP_alias {t : Nat} {s : Store} (hs : AllFree s) {a : Nat} (ha : (s a).poisoned = false) :
    (run t (replaceP a a) s).1 = .error .deadlock := by
  simp [replaceP_eq, run, hs a, ha]

theorem run_replaceP_self {t : Nat} {s : Store} (hs : AllFree s) {a b : Nat} (ha : (s a).poisoned = true) :
    run t (replaceP a b) s = (.error .poisoned, s) := by
  rw [replaceP_eq, run_lock_poisoned hs _ ha]

theorem run_replaceP_src {t : Nat} {s : Store} (hs : AllFree s) {a b : Nat} (hab : a ≠ b) (ha : (s a).poisoned = false)
    (hb : (s b).poisoned = true) : run t (replaceP a b) s = (.error .poisoned, s.put a ⟨[], true, none⟩) := by
  have hba : b ≠ a := fun e => hab e.symm
  simp only [replaceP_eq, run, hs a, ha, put_same, put_put, put_ne _ _ hba, hs b, hb,
    ne_eq, not_true_eq_false, if_false, if_true, Bool.false_eq_true, unwind_put (hs.idle t)]

/-! ## `Packet::to_vec` -/

/-- The value a packet denotes. -/
def PRef.view (m : Store) (p : PRef) : Packet := ⟨p.hdrs.map fun h => ⟨h.ty, (m h.ref).bytes⟩, p.payload⟩

theorem run_toVecLoop {t : Nat} {s : Store} (hs : AllFree s) (l : List HRef) (acc : Bytes) :
    run t (l.foldlM (fun r (h : HRef) => do
      let v ← toVecP h.ref
      pure (r ++ v)) acc) s =
    if l.any (fun h => (s h.ref).poisoned) then (.error .poisoned, s)
    else (.ok (acc ++ (l.map fun h => (s h.ref).bytes).flatten), s) := by
  induction l generalizing acc with
  | nil => simp [pure_def, run]
  | cons h l ih =>
    rw [List.foldlM_cons, bind_def, run_bind, bind_def, run_bind]
    cases hp : (s h.ref).poisoned with
    | true => 
      have : run t (toVecP h.ref) s = (.error .poisoned, s) := run_lock_poisoned hs _ hp
      rw [this]; simp [hp]
    | false =>
      rw [run_toVecP ⟨hs _, hp⟩]
      simp only [pure_def, run]
      have := ih (acc ++ (s h.ref).bytes)
      simp only [pure_def] at this
      rw [this]
      simp [hp]

theorem foldl_append_map {γ : Type} (l : List γ) (g : γ → Bytes) (acc : Bytes) :
    l.foldl (fun r s => r ++ g s) acc = acc ++ (l.map g).flatten := by
  induction l generalizing acc with
  | nil => simp
  | cons x l ih => simp [ih]

/-- `to_vec` of a packet changes nothing; it panics iff a header is poisoned, otherwise it returns the
bytes of the value the packet denotes. -/
theorem run_pktToVecP {t : Nat} {s : Store} (hs : AllFree s) (p : PRef) :
    run t (pktToVecP p) s =
      if p.hdrs.any (fun h => (s h.ref).poisoned) then (.error .poisoned, s) else (.ok (p.view s).to_vec, s) := by
  unfold pktToVecP
  rw [bind_def, run_bind, run_toVecLoop hs]
  by_cases hp : p.hdrs.any (fun h => (s h.ref).poisoned) = true
  · rw [if_pos hp, if_pos hp]
  · rw [if_neg hp, if_neg hp]
    simp only [pure_def, run, PRef.view, Packet.to_vec, Hdr.to_vec, foldl_append_map, List.map_map]
    simp [Function.comp_def]

theorem run_compareSliceP {t : Nat} {s : Store} (hs : AllFree s) (p : PRef) (b : Bytes) :
    (run t (compareSliceP p b) s).2 = s := by
  unfold compareSliceP
  simp only
  split
  · rfl
  · rw [bind_def, run_bind, run_pktToVecP hs]
    split
    · next heq => split at heq <;> cases heq
                  split <;> rfl
    · next heq => split at heq <;> cases heq; rfl

theorem run_compareP {t : Nat} {s : Store} (hs : AllFree s) (p q : PRef) : (run t (compareP p q) s).2 = s := by
  unfold compareP
  rw [bind_def, run_bind, run_pktToVecP hs]
  split
  · next heq => split at heq <;> cases heq
                exact run_compareSliceP hs _ _
  · next heq => split at heq <;> cases heq; rfl

/-! ## Calls -/

/-- The program run by a call that has a target, given the header it works on and, for `replace`, the
other one. -/
def World.prog (chk : Bool) (h o : HRef) : Op → Prog Val
  | .get _ f => (getP chk h.ref f).bind fun v => .ret (.word v)
  | .set _ f v => (setP h.ref f v).bind fun _ => .ret .unit
  | .bytes _ msb lsb => (bytesP chk h.ref msb lsb).bind fun v => .ret (.bytes v)
  | .setBytes _ msb lsb v => (setBytesP chk h.ref msb lsb v).bind fun _ => .ret .unit
  | .toVec _ => (toVecP h.ref).bind fun v => .ret (.bytes v)
  | .replace _ _ => (replaceP h.ref o.ref).bind fun _ => .ret .unit
  | _ => .ret .unit

theorem acc_prog (chk : Bool) (h o : HRef) (op : Op) (hr : ∀ x y, op ≠ .replace x y) :
    Acc (fun r => r = h.ref) (World.prog chk h o op) := by
  cases op <;> simp only [World.prog]
  case get => exact (acc_bitRangeP (S := fun r => r = h.ref) rfl _ _ _).bind fun _ => .ret _
  case set => exact (acc_setBitRangeP (S := fun r => r = h.ref) rfl _ _ _).bind fun _ => .ret _
  case bytes => exact (acc_bytesP (S := fun r => r = h.ref) rfl _ _ _).bind fun _ => .ret _
  case setBytes => exact (acc_setBytesP (S := fun r => r = h.ref) rfl _ _ _ _).bind fun _ => .ret _
  case toVec => exact (acc_toVecP (S := fun r => r = h.ref) rfl).bind fun _ => .ret _
  case replace x y => exact absurd rfl (hr x y)
  all_goals exact .ret _

/-- The memory and result of any call on a header: only the target's cell may change; if it was
poisoned it does not change. -/
theorem prog_run (chk : Bool) (h o : HRef) (op : Op) {s : Store} (hs : AllFree s)
    (hd : (run 0 (World.prog chk h o op) s).1 ≠ .error .deadlock) :
    AllFree (run 0 (World.prog chk h o op) s).2 ∧
      (∀ x, x ≠ h.ref → (run 0 (World.prog chk h o op) s).2 x = s x) ∧
      (∀ x, (s x).poisoned = true → (run 0 (World.prog chk h o op) s).2 x = s x) := by
  by_cases hr : ∃ x y, op = .replace x y
  · obtain ⟨x, y, rfl⟩ := hr
    simp only [World.prog, run_bind] at hd ⊢
    cases ha : (s h.ref).poisoned with
    | true => rw [run_replaceP_self hs ha]; exact ⟨hs, fun _ _ => rfl, fun _ _ => rfl⟩
    | false =>
      have hx : ∀ c : Cell, (∀ x, x ≠ h.ref → (s.put h.ref c) x = s x) ∧
          (∀ x, (s x).poisoned = true → (s.put h.ref c) x = s x) := by
        intro c
        refine ⟨fun x hx => put_ne _ _ hx, fun x hx => put_ne _ _ ?_⟩
        intro e; rw [e, ha] at hx; cases hx
      by_cases hab : h.ref = o.ref
      · exfalso
        have := run_replaceP_alias (t := 0) hs ha
        rw [hab] at this hd
        cases e : run 0 (replaceP o.ref o.ref) s with
        | mk x m => rw [e] at this hd; cases this; exact hd rfl
      · cases hb : (s o.ref).poisoned with
        | true => rw [run_replaceP_src hs hab ha hb]; exact ⟨hs.put rfl, (hx _).1, (hx _).2⟩
        | false => rw [run_replaceP_ok hs hab ha hb]; exact ⟨hs.put rfl, (hx _).1, (hx _).2⟩
  · have := (acc_prog chk h o op (fun x y e => hr ⟨x, y, e⟩)).run 0 hs
    exact ⟨this.1, fun x hx => this.2.1 x hx, this.2.2⟩

namespace World

/-- A call with a target, as one program on the resolved header. -/
theorem step_target (chk : Bool) (w : World) (op : Op) (x : Place) (hx : target op = some x) :
    (∃ e, w.step chk op = (w, .error e) ∧ (e = .unwrapNone ∨ e = .downcast)) ∨
    ∃ h o, w.resolve x = .ok h ∧ (∀ y, op = .replace x y → w.resolve y = .ok o) ∧
      w.step chk op = ({ w with mem := (run 0 (prog chk h o op) w.mem).2 }, (run 0 (prog chk h o op) w.mem).1) := by
  have hres : ∀ (x : Place) (e : Fault), w.resolve x = .error e → e = .unwrapNone ∨ e = .downcast := by
    intro x e he
    cases x with
    | var h => simp only [resolve] at he; split at he <;> cases he; exact .inl rfl
    | inPkt p name T =>
      simp only [resolve] at he
      split at he
      · cases he; exact .inl rfl
      · split at he
        · cases he; exact .inl rfl
        · split at he <;> cases he; exact .inr rfl
  have main : ∀ (x : Place) (p : HRef → Prog Val),
      (∃ e, w.accessAt x p = (w, .error e) ∧ (e = .unwrapNone ∨ e = .downcast)) ∨
      ∃ h, w.resolve x = .ok h ∧ w.accessAt x p = ({ w with mem := (run 0 (p h) w.mem).2 }, (run 0 (p h) w.mem).1) := by
    intro x p
    cases e : w.resolve x with
    | error f => exact .inl ⟨f, by simp [accessAt, e], hres x f e⟩
    | ok h => exact .inr ⟨h, rfl, by simp [accessAt, e, access]⟩
  cases op <;> simp only [target, Option.some.injEq, reduceCtorEq] at hx
  case replace a b =>
    subst hx
    cases e : w.resolve a with
    | error f => exact .inl ⟨f, by simp [step, e], hres a f e⟩
    | ok h =>
      rcases main b (fun o => (replaceP h.ref o.ref).bind fun _ => .ret .unit) with ⟨e', h1, h2⟩ | ⟨o, h1, h2⟩
      · exact .inl ⟨e', by simp only [step, e]; exact h1, h2⟩
      · refine .inr ⟨h, o, rfl, ?_, by simp only [step, e]; exact h2⟩
        intro y hy; cases hy; exact h1
  all_goals
    subst hx
    rcases main _ _ with ⟨e', h1, h2⟩ | ⟨h, h1, h2⟩
    · exact .inl ⟨e', h1, h2⟩
    · exact .inr ⟨h, h, h1, fun y hy => (by cases hy), h2⟩

theorem run_map_snd (t : Nat) (p : Prog α) (f : α → β) (s : Store) :
    (run t (p.bind fun a => .ret (f a)) s).2 = (run t p s).2 := by
  rw [run_bind]; split <;> rename_i h <;> simp [h, run]

theorem allocAll_props (hs : List Hdr) : ∀ w : World,
    (w.allocAll hs).1.next = w.next + hs.length ∧ (w.allocAll hs).1.hs = w.hs ∧ (w.allocAll hs).1.ps = w.ps ∧
    (w.allocAll hs).2 = hs.mapIdx (fun i h => ⟨h.ty, w.next + i⟩) ∧
    (∀ x, x < w.next → (w.allocAll hs).1.mem x = w.mem x) ∧
    (AllFree w.mem → AllFree (w.allocAll hs).1.mem) ∧
    (∀ i (hi : i < hs.length), (w.allocAll hs).1.mem (w.next + i) = ⟨hs[i].data, false, none⟩) := by
  induction hs with
  | nil => intro w; simp [allocAll]
  | cons h hs ih =>
    intro w
    obtain ⟨h1, h2, h3, h4, h5, h6, h7⟩ := ih (w.alloc h.ty h.data).1
    simp only [allocAll, List.length_cons]
    refine ⟨?_, h2, h3, ?_, ?_, ?_, ?_⟩
    · rw [h1]; simp only [alloc]; omega
    · rw [h4, List.mapIdx_cons]
      simp only [alloc, List.cons.injEq, Nat.add_zero, true_and]
      congr 1; funext i x; congr 1; omega
    · intro x hx
      rw [h5 x (by simp only [alloc]; omega)]
      simp only [alloc]
      rw [put_ne]; omega
    · intro hf
      exact h6 (by simp only [alloc]; exact hf.put rfl)
    · intro i hi
      cases i with
      | zero =>
        rw [Nat.add_zero, h5 _ (by simp only [alloc]; omega)]
        simp [alloc]
      | succ i =>
        have := h7 i (by simpa using hi)
        simp only [alloc] at this
        simp only [List.getElem_cons_succ]
        rw [← this]
        simp only [alloc]
        congr 1
        omega

/-- Effect of any call that does not hang on the store: allocated cells are only changed through the
call's target, and never once they are poisoned. -/
theorem step_mem (chk : Bool) (w : World) (op : Op) (hf : AllFree w.mem)
    (hd : (w.step chk op).2 ≠ .error .deadlock) :
    AllFree (w.step chk op).1.mem ∧ w.next ≤ (w.step chk op).1.next ∧
    (∀ y, y < w.next → (∀ x h, target op = some x → w.resolve x = .ok h → h.ref ≠ y) →
      (w.step chk op).1.mem y = w.mem y) ∧
    (∀ y, y < w.next → (w.mem y).poisoned = true → (w.step chk op).1.mem y = w.mem y) := by
  cases ht : target op with
  | some x =>
    rcases step_target chk w op x ht with ⟨e, he, -⟩ | ⟨h, o, hr, -, he⟩
    · rw [he]; exact ⟨hf, Nat.le_refl _, fun _ _ _ => rfl, fun _ _ _ => rfl⟩
    · rw [he] at hd ⊢
      obtain ⟨h1, h2, h3⟩ := prog_run chk h o op hf hd
      refine ⟨h1, Nat.le_refl _, fun y _ hy => h2 y ?_, fun y _ hy => h3 y hy⟩
      exact fun e => hy x h rfl hr e.symm
  | none =>
    have triv : ∀ w' : World, w'.mem = w.mem → w'.next = w.next →
        AllFree w'.mem ∧ w.next ≤ w'.next ∧
        (∀ y, y < w.next → (∀ x h, (none : Option Place) = some x → w.resolve x = .ok h → h.ref ≠ y) →
          w'.mem y = w.mem y) ∧
        (∀ y, y < w.next → (w.mem y).poisoned = true → w'.mem y = w.mem y) := by
      intro w' e1 e2
      rw [e1, e2]
      exact ⟨hf, Nat.le_refl _, fun _ _ _ => rfl, fun _ _ _ => rfl⟩
    have hput : ∀ b : Bytes, ∀ y, y < w.next → (w.mem.put w.next ⟨b, false, none⟩) y = w.mem y := by
      intro b y hy; rw [put_ne]; omega
    cases op <;> simp only [target, reduceCtorEq] at ht
    case new T => exact ⟨hf.put rfl, Nat.le_succ _, fun y hy _ => hput _ y hy, fun y hy _ => hput _ y hy⟩
    case ofVec T b => exact ⟨hf.put rfl, Nat.le_succ _, fun y hy _ => hput _ y hy, fun y hy _ => hput _ y hy⟩
    case adopt q =>
      obtain ⟨h1, -, -, -, h5, h6, -⟩ := allocAll_props q.hdrs w
      exact ⟨h6 hf, by simp only [step, h1]; omega, fun y hy _ => h5 y hy, fun y hy _ => h5 y hy⟩
    case clone x => simp only [step]; split <;> exact triv _ rfl rfl
    case pktNew => exact triv _ rfl rfl
    case push p h =>
      simp only [step]
      repeat' split
      all_goals exact triv _ rfl rfl
    case insert p h =>
      simp only [step]
      repeat' split
      all_goals exact triv _ rfl rfl
    case pop p => simp only [step, updPkt]; split <;> exact triv _ rfl rfl
    case remove p i => simp only [step, updPkt]; split <;> exact triv _ rfl rfl
    case setPayload p b => simp only [step, updPkt]; split <;> exact triv _ rfl rfl
    case pktClone p => simp only [step]; split <;> exact triv _ rfl rfl
    case add p q =>
      simp only [step]
      repeat' split
      all_goals exact triv _ rfl rfl
    case pktToVec p =>
      simp only [step]
      split
      · exact triv _ rfl rfl
      · refine triv _ ?_ rfl
        simp only [access, run_map_snd]
        rw [run_pktToVecP hf]; split <;> rfl
    case compare p q =>
      simp only [step]
      split
      · exact triv _ rfl rfl
      · split
        · exact triv _ rfl rfl
        · refine triv _ ?_ rfl
          simp only [access, run_map_snd]
          exact run_compareP hf _ _
    case assign p name h =>
      simp only [step]
      repeat' split
      all_goals exact triv _ rfl rfl
    case compareSlice p b =>
      simp only [step]
      split
      · exact triv _ rfl rfl
      · refine triv _ ?_ rfl
        simp only [access, run_map_snd]
        exact run_compareSliceP hf _ _
    case pktLen p => simp only [step]; split <;> exact triv _ rfl rfl

end World
end
end PacketRs
