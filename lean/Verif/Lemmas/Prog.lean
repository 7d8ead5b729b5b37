import Verif.Prog
import Verif.Lemmas.Bytes
/-!
# Running accessor programs without interference

The program versions of the accessors agree with the functions on byte lists of `Verif.Bits`.
-/
namespace PacketRs
open Spec
open Prog hiding bind

section
variable {α β : Type}

@[simp] theorem put_same (s : Store) (r : Nat) (c : Cell) : (s.put r c) r = c := by simp [Store.put]
theorem put_ne (s : Store) {r x : Nat} (c : Cell) (h : x ≠ r) : (s.put r c) x = s x := by simp [Store.put, h]
@[simp] theorem put_put (s : Store) (r : Nat) (c c' : Cell) : (s.put r c).put r c' = s.put r c' := by
  funext x; simp only [Store.put]; split <;> rfl
@[simp] theorem put_self (s : Store) (r : Nat) : s.put r (s r) = s := by
  funext x; simp only [Store.put]; split
  · next h => rw [h]
  · rfl
theorem put_eq_self (s : Store) {r : Nat} {c : Cell} (h : c = s r) : s.put r c = s := by rw [h, put_self]

theorem bind_def (p : Prog α) (f : α → Prog β) : (p >>= f) = p.bind f := rfl
theorem pure_def (a : α) : (pure a : Prog α) = .ret a := rfl

@[simp] theorem bind_ret (a : α) (f : α → Prog β) : (Prog.ret a).bind f = f a := rfl
@[simp] theorem bind_panic (e : Fault) (f : α → Prog β) : (Prog.panic e).bind f = .panic e := rfl
@[simp] theorem bind_lock (r : Nat) (k : Prog α) (f : α → Prog β) : (Prog.lock r k).bind f = .lock r (k.bind f) := rfl
@[simp] theorem bind_load (r : Nat) (k : Bytes → Prog α) (f : α → Prog β) :
    (Prog.load r k).bind f = .load r (fun d => (k d).bind f) := rfl
@[simp] theorem bind_store (r : Nat) (b : Bytes) (k : Prog α) (f : α → Prog β) :
    (Prog.store r b k).bind f = .store r b (k.bind f) := rfl
@[simp] theorem bind_unlock (r : Nat) (k : Prog α) (f : α → Prog β) :
    (Prog.unlock r k).bind f = .unlock r (k.bind f) := rfl

theorem bind_assoc' {γ : Type} (p : Prog α) (f : α → Prog β) (g : β → Prog γ) :
    (p.bind f).bind g = p.bind (fun a => (f a).bind g) := by
  induction p <;> simp_all [Prog.bind]

theorem bind_ret_right (p : Prog α) : p.bind Prog.ret = p := by
  induction p <;> simp_all [Prog.bind]

instance : LawfulMonad Prog := LawfulMonad.mk' _
  (id_map := fun x => bind_ret_right x)
  (pure_bind := fun _ _ => rfl)
  (bind_assoc := fun x f g => bind_assoc' x f g)

theorem run_bind (t : Nat) (p : Prog α) (f : α → Prog β) (s : Store) :
    run t (p.bind f) s = match run t p s with
      | (.ok a, s') => run t (f a) s'
      | (.error e, s') => (.error e, s') := by
  induction p generalizing s with
  | ret a => rfl
  | panic e => rfl
  | died e => rfl
  | lock r k ih =>
    simp only [bind_lock, run]
    split
    · rfl
    · split
      · rfl
      · exact ih _
  | load r k ih => simp only [bind_load, run]; exact ih _ _
  | store r b k ih => simp only [bind_store, run]; exact ih _
  | unlock r k ih => simp only [bind_unlock, run]; exact ih _

/-- The mutex is free and not poisoned. -/
def Cell.Clean (c : Cell) : Prop := c.owner = none ∧ c.poisoned = false

/-- Thread `t` holds no guard. -/
def Idle (t : Nat) (s : Store) : Prop := ∀ x, (s x).owner ≠ some t

theorem unwind_idle {t : Nat} {s : Store} (h : Idle t s) : s.unwind t = s := by
  funext x; simp only [Store.unwind]; rw [if_neg (h x)]

/-- Poison the cell `r`. -/
def Store.poison (s : Store) (r : Nat) : Store := s.put r { s r with poisoned := true }

theorem unwind_put {t : Nat} {s : Store} (h : Idle t s) (r : Nat) (b : Bytes) (p : Bool) :
    Store.unwind t (s.put r ⟨b, p, some t⟩) = s.put r ⟨b, true, none⟩ := by
  funext x
  simp only [Store.unwind, Store.put]
  by_cases hx : x = r
  · simp [hx]
  · simp [hx, h x]

theorem Idle.put {t : Nat} {s : Store} (h : Idle t s) (r : Nat) (c : Cell) (hc : c.owner ≠ some t) :
    Idle t (s.put r c) := by
  intro x
  by_cases hx : x = r
  · subst hx; simpa using hc
  · rw [put_ne _ _ hx]; exact h x

theorem run_lock_clean {t : Nat} {s : Store} {r : Nat} (k : Prog α) (h : (s r).Clean) :
    run t (.lock r k) s = run t k (s.put r ⟨(s r).bytes, false, some t⟩) := by
  simp only [run]
  rw [if_neg (by simp [h.1]), if_neg (by simp [h.2])]
  rw [← h.2]

theorem Cell.Clean.eq {c : Cell} (h : c.Clean) : (⟨c.bytes, false, none⟩ : Cell) = c := by
  cases c; simp [Clean] at h; simp [h]

theorem run_ofR (t : Nat) (x : R α) {s : Store} (h : Idle t s) : run t (ofR x) s = (x, s) := by
  cases x with
  | ok a => rfl
  | error e => simp [ofR, run, unwind_idle h]

theorem run_bitRangeStepP {t : Nat} {s : Store} {r : Nat} (hc : (s r).Clean) (hi : Idle t s) (v : U64) (i : Nat) :
    run t (bitRangeStepP r v i) s = match bitRangeStep (s r).bytes v i with
      | .ok v' => (.ok v', s)
      | .error e => (.error e, s.poison r) := by
  simp only [bitRangeStepP, lockM, loadM, unlockM, bind_def, bind_lock, bind_load, bind_ret, pure_def]
  rw [run_lock_clean _ hc]
  simp only [run, put_same]
  unfold bitRangeStep
  cases e : index (s r).bytes (i / 8) with
  | error f =>
    simp only [ofR, bind_panic, run, unwind_put hi, bind, Except.bind, Store.poison, hc.1]
  | ok b =>
    simp only [ofR, bind_ret, bind_unlock, run, put_same, put_put, bind, Except.bind, pure, Except.pure]
    rw [put_eq_self _ hc.eq]

theorem run_getLoop {t : Nat} {s : Store} {r : Nat} (hc : (s r).Clean) (hi : Idle t s) (l : List Nat) (v : U64) :
    run t (l.foldlM (bitRangeStepP r) v) s = match l.foldlM (bitRangeStep (s r).bytes) v with
      | .ok v' => (.ok v', s)
      | .error e => (.error e, s.poison r) := by
  induction l generalizing v with
  | nil => rfl
  | cons i l ih =>
    rw [List.foldlM_cons, List.foldlM_cons, bind_def, run_bind, run_bitRangeStepP hc hi]
    cases e : bitRangeStep (s r).bytes v i with
    | error f => rfl
    | ok v' => exact ih v'

/-- The loops only fail by indexing. -/
theorem bitRangeStep_error {d : Bytes} {v : U64} {i : Nat} {e : Fault} (h : bitRangeStep d v i = .error e) :
    e = .index := by
  unfold bitRangeStep index at h
  split at h <;> cases h
  rfl

theorem getLoop_error {d : Bytes} {v : U64} {l : List Nat} {e : Fault}
    (h : l.foldlM (bitRangeStep d) v = .error e) : e = .index := by
  induction l generalizing v with
  | nil => cases h
  | cons i l ih =>
    rw [List.foldlM_cons] at h
    cases e' : bitRangeStep d v i with
    | error f => rw [e'] at h; cases h; exact bitRangeStep_error e'
    | ok v' => rw [e'] at h; exact ih h

/-- What an accessor that reads `r` leaves behind: an index panic happens while the guard is held and
poisons `r`; no other panic does. -/
def afterRead (s : Store) (r : Nat) : R α → Store
  | .error .index => s.poison r
  | _ => s

theorem usizeAdd_error {chk : Bool} {a b : Nat} {e : Fault} (h : usizeAdd chk a b = .error e) : e = .overflow := by
  unfold usizeAdd at h; split at h
  · cases h
  · split at h <;> cases h; rfl

theorem usizeSub_error {chk : Bool} {a b : Nat} {e : Fault} (h : usizeSub chk a b = .error e) : e = .overflow := by
  unfold usizeSub at h; split at h
  · cases h
  · split at h <;> cases h; rfl

theorem shl64_error {chk : Bool} {a : U64} {b : Nat} {e : Fault} (h : shl64 chk a b = .error e) : e = .overflow := by
  unfold shl64 at h; split at h
  · cases h
  · split at h <;> cases h; rfl

theorem shr64_error {chk : Bool} {a : U64} {b : Nat} {e : Fault} (h : shr64 chk a b = .error e) : e = .overflow := by
  unfold shr64 at h; split at h
  · cases h
  · split at h <;> cases h; rfl

theorem bitRangeEnd_error {chk : Bool} {msb lsb : Nat} {v : U64} {e : Fault}
    (h : bitRangeEnd chk msb lsb v = .error e) : e = .overflow := by
  unfold bitRangeEnd at h
  simp only [bind, Except.bind] at h
  repeat' split at h
  all_goals (first
    | exact shr64_error h
    | (cases h; first
        | exact usizeSub_error ‹_›
        | exact usizeAdd_error ‹_›
        | exact shl64_error ‹_›))

theorem bitRange_split (chk : Bool) (d : Bytes) (msb lsb : Nat) :
    bitRange chk d msb lsb = ((inclRange lsb msb).foldlM (bitRangeStep d) 0#64).bind (bitRangeEnd chk msb lsb) := rfl

theorem run_bitRangeP {t : Nat} {s : Store} {r : Nat} (hc : (s r).Clean) (hi : Idle t s) (chk : Bool) (msb lsb : Nat) :
    run t (bitRangeP chk r msb lsb) s =
      (bitRange chk (s r).bytes msb lsb, afterRead s r (bitRange chk (s r).bytes msb lsb)) := by
  unfold bitRangeP
  rw [bind_def, run_bind, run_getLoop hc hi, bitRange_split]
  cases e : (inclRange lsb msb).foldlM (bitRangeStep (s r).bytes) 0#64 with
  | error f => obtain rfl := getLoop_error e; rfl
  | ok v =>
    simp only [Except.bind]
    rw [run_ofR t _ hi]
    cases e' : bitRangeEnd chk msb lsb v with
    | error f => obtain rfl := bitRangeEnd_error e'; rfl
    | ok v' => rfl

theorem run_setBitStepP {t : Nat} {s : Store} {r : Nat} (hc : (s r).Clean) (hi : Idle t s) (v : U64) (i : Nat) :
    run t (setBitStepP r v i) s = match setBitStep ((s r).bytes, v) i with
      | .ok x => (.ok x.2, s.put r { s r with bytes := x.1 })
      | .error e => (.error e, s.poison r) := by
  simp only [setBitStepP, lockM, loadM, unlockM, storeM, bind_def, bind_lock, bind_load, bind_store, bind_ret, pure_def]
  rw [run_lock_clean _ hc]
  simp only [run, put_same]
  unfold setBitStep
  cases e : index (s r).bytes (i / 8) with
  | error f =>
    simp only [e, ofR, bind_panic, run, unwind_put hi, bind, Except.bind, Store.poison, hc.1]
  | ok b =>
    have hlt : i / 8 < (s r).bytes.length := by
      refine Nat.lt_of_not_le fun hn => ?_
      rw [index_err _ _ hn] at e; cases e
    have e2 := index_ok ((s r).bytes.set (i / 8) (b &&& ~~~(1#8 <<< (8 - i % 8 - 1)))) (i / 8) (by simpa using hlt)
    simp only [e, e2, ofR, bind_ret, bind_unlock, run, put_same, put_put, bind, Except.bind, pure, Except.pure, hc.1, hc.2]

theorem run_setLoop {t : Nat} (l : List Nat) {s : Store} {r : Nat} (hc : (s r).Clean) (hi : Idle t s) (v : U64)
    (x : Bytes × U64) (h : l.foldlM setBitStep ((s r).bytes, v) = .ok x) :
    run t (l.foldlM (setBitStepP r) v) s = (.ok x.2, s.put r { s r with bytes := x.1 }) := by
  induction l generalizing s v with
  | nil => cases h; simp [List.foldlM, pure_def, run]
  | cons i l ih =>
    rw [List.foldlM_cons] at h
    rw [List.foldlM_cons, bind_def, run_bind, run_setBitStepP hc hi]
    cases e : setBitStep ((s r).bytes, v) i with
    | error f => rw [e] at h; cases h
    | ok y =>
      rw [e] at h
      simp only
      rw [ih (s := s.put r { s r with bytes := y.1 }) (by simpa [Cell.Clean] using hc) (hi.put _ _ (by simp [hc.1])) y.2
        (by rw [put_same]; exact h)]
      simp

theorem inclRange_reverse {lo hi : Nat} (h : lo ≤ hi) :
    (inclRange lo hi).reverse = hi :: (List.range' lo (hi - lo)).reverse := by
  obtain ⟨n, hn⟩ : ∃ n, hi + 1 - lo = n + 1 := ⟨hi - lo, by omega⟩
  rw [inclRange_eq, hn, List.range'_concat, List.reverse_append]
  have e1 : hi - lo = n := by omega
  have e2 : lo + n = hi := by omega
  simp [e1, e2]

theorem setBitRange_empty {lo hi : Nat} (h : hi < lo) (d : Bytes) (v : U64) : setBitRange d hi lo v = .ok d := by
  have : hi + 1 - lo = 0 := by omega
  simp [setBitRange, inclRange_eq, this, pure, Except.pure, bind, Except.bind]

/-- `set_bit_range` without interference: it writes what `setBitRange` says; if it panics, it has
changed no byte and the storage is poisoned. -/
theorem run_setBitRangeP {t : Nat} {s : Store} {r : Nat} (hc : (s r).Clean) (hi : Idle t s) (msb lsb : Nat) (v : U64) :
    run t (setBitRangeP r msb lsb v) s = match setBitRange (s r).bytes msb lsb v with
      | .ok d => (.ok (), s.put r { s r with bytes := d })
      | .error e => (.error e, s.poison r) := by
  unfold setBitRangeP
  rw [bind_def, run_bind]
  by_cases hle : lsb ≤ msb
  · by_cases hlt : msb / 8 < (s r).bytes.length
    · obtain ⟨d', e, -, -⟩ := setBitRange_ok (s r).bytes lsb msb v hle hlt
      rw [e]
      unfold setBitRange at e
      cases h : (inclRange lsb msb).reverse.foldlM setBitStep ((s r).bytes, v) with
      | error f => rw [h] at e; cases e
      | ok x =>
        rw [h] at e
        cases e
        rw [run_setLoop _ hc hi _ _ h]
        rfl
    · rw [setBitRange_err _ _ _ _ hle (by omega), inclRange_reverse hle, List.foldlM_cons, bind_def, run_bind,
        run_setBitStepP hc hi]
      have : setBitStep ((s r).bytes, v) msb = .error .index := by
        simp only [setBitStep, index_err (s r).bytes _ (Nat.le_of_not_lt hlt)]; rfl
      rw [this]
  · rw [setBitRange_empty (by omega)]
    have : msb + 1 - lsb = 0 := by omega
    simp [inclRange_eq, this, pure_def, run]

theorem run_toVecP {t : Nat} {s : Store} {r : Nat} (hc : (s r).Clean) : run t (toVecP r) s = (.ok (s r).bytes, s) := by
  simp only [toVecP, lockM, loadM, unlockM, bind_def, bind_lock, bind_load, bind_unlock, bind_ret, pure_def]
  rw [run_lock_clean _ hc]
  simp only [run, put_same, put_put]
  rw [put_eq_self _ hc.eq]

theorem getBytesLoop_run {t : Nat} {s : Store} {r : Nat} (hc : (s r).Clean) (hi : Idle t s) (chk : Bool) (l : List Nat)
    (acc : Bytes) :
    run t (l.foldlM (fun value i => do
        let v ← bitRangeP chk r (i + 7) i
        pure (value ++ [v.setWidth 8])) acc) s =
      let x : R Bytes := l.foldlM (fun value i => do
        let v ← bitRange chk (s r).bytes (i + 7) i
        pure (value ++ [v.setWidth 8])) acc
      (x, afterRead s r x) := by
  induction l generalizing acc with
  | nil => rfl
  | cons i l ih =>
    rw [List.foldlM_cons, bind_def, run_bind, bind_def, run_bind, run_bitRangeP hc hi]
    simp only [List.foldlM_cons]
    cases e : bitRange chk (s r).bytes (i + 7) i with
    | error f => simp only [bind, Except.bind]; cases f <;> rfl
    | ok v =>
      simp only [bind, Except.bind, afterRead, pure_def, run]
      exact ih _

/-- The width computed by `bytes` and `set_bytes`. -/
def rangeWidth (chk : Bool) (msb lsb : Nat) : R Nat := do usizeAdd chk (← usizeSub chk msb lsb) 1

theorem rangeWidth_error {chk : Bool} {msb lsb : Nat} {e : Fault} (h : rangeWidth chk msb lsb = .error e) :
    e = .overflow := by
  unfold rangeWidth at h
  simp only [bind, Except.bind] at h
  split at h
  · cases h; exact usizeSub_error ‹_›
  · exact usizeAdd_error h

theorem getBytes_split (chk : Bool) (d : Bytes) (msb lsb : Nat) :
    getBytes chk d msb lsb = (rangeWidth chk msb lsb).bind fun w =>
      if w % 8 ≠ 0 then .error .assert
      else (inclRangeStep8 lsb msb).foldlM
        (fun value i => do
          let v ← bitRange chk d (i + 7) i
          pure (value ++ [v.setWidth 8])) [] := by
  unfold getBytes rangeWidth
  cases usizeSub chk msb lsb with
  | error f => rfl
  | ok w0 =>
    cases e1 : usizeAdd chk w0 1 with
    | error f => simp only [bind, Except.bind, e1]
    | ok w =>
      simp only [bind, Except.bind, e1]
      split <;> rfl

theorem bytesP_split (chk : Bool) (r msb lsb : Nat) :
    bytesP chk r msb lsb = (ofR (rangeWidth chk msb lsb)).bind fun w =>
      if w % 8 ≠ 0 then Prog.panic .assert
      else (inclRangeStep8 lsb msb).foldlM
        (fun value i => do
          let v ← bitRangeP chk r (i + 7) i
          pure (value ++ [v.setWidth 8])) [] := rfl

theorem run_bytesP {t : Nat} {s : Store} {r : Nat} (hc : (s r).Clean) (hi : Idle t s) (chk : Bool) (msb lsb : Nat) :
    run t (bytesP chk r msb lsb) s =
      (getBytes chk (s r).bytes msb lsb, afterRead s r (getBytes chk (s r).bytes msb lsb)) := by
  rw [bytesP_split, getBytes_split, run_bind, run_ofR t _ hi]
  cases e : rangeWidth chk msb lsb with
  | error f => obtain rfl := rangeWidth_error e; rfl
  | ok w =>
    simp only [Except.bind]
    by_cases hw : w % 8 ≠ 0
    · rw [if_pos hw, if_pos hw]; simp only [run, unwind_idle hi, afterRead]
    · rw [if_neg hw, if_neg hw]; exact getBytesLoop_run hc hi _ _ _

/-! ## `set_bytes`, which may have written some octets when it panics -/

/-- Loop body of `setBytes`. -/
def setBytesBody (value : Bytes) (s : Bytes × Nat) (i : Nat) : R (Bytes × Nat) := do
  let b ← index value s.2
  let d ← setBitRange s.1 (i + 7) i (b.setWidth 64)
  pure (d, s.2 + 1)

/-- Loop body of `setBytesP`. -/
def setBytesBodyP (r : Nat) (value : Bytes) (iter : Nat) (i : Nat) : Prog Nat := do
  let b ← ofR (index value iter)
  setBitRangeP r (i + 7) i (b.setWidth 64)
  pure (iter + 1)

theorem setBytes_split (chk : Bool) (d : Bytes) (msb lsb : Nat) (value : Bytes) :
    setBytes chk d msb lsb value = (rangeWidth chk msb lsb).bind fun w =>
      if value.length * 8 ≠ w then .error .assert
      else ((inclRangeStep8 lsb msb).foldlM (setBytesBody value) (d, 0)).map Prod.fst := by
  unfold setBytes rangeWidth
  cases usizeSub chk msb lsb with
  | error f => rfl
  | ok w0 =>
    cases e1 : usizeAdd chk w0 1 with
    | error f => simp only [bind, Except.bind, e1]
    | ok w =>
      simp only [bind, Except.bind, e1]
      split <;> rfl

theorem setBytesP_split (chk : Bool) (r msb lsb : Nat) (value : Bytes) :
    setBytesP chk r msb lsb value = (ofR (rangeWidth chk msb lsb)).bind fun w =>
      if value.length * 8 ≠ w then Prog.panic .assert
      else ((inclRangeStep8 lsb msb).foldlM (setBytesBodyP r value) 0).bind fun _ => Prog.ret () := rfl

theorem setBytesLoop_run {t : Nat} (value : Bytes) (l : List Nat) {s : Store} {r : Nat} (hc : (s r).Clean)
    (hi : Idle t s) (k : Nat) (x : Bytes × Nat)
    (h : l.foldlM (setBytesBody value) ((s r).bytes, k) = .ok x) :
    run t (l.foldlM (setBytesBodyP r value) k) s = (.ok x.2, s.put r { s r with bytes := x.1 }) := by
  induction l generalizing s k with
  | nil => cases h; simp [List.foldlM, pure_def, run]
  | cons i l ih =>
    rw [List.foldlM_cons] at h
    rw [List.foldlM_cons, bind_def, run_bind, setBytesBodyP, bind_def, run_bind, run_ofR t _ hi]
    unfold setBytesBody at h
    cases e : index value k with
    | error f => simp only [e] at h; cases h
    | ok b =>
      simp only [e] at h ⊢
      rw [bind_def, run_bind, run_setBitRangeP hc hi]
      cases e2 : setBitRange (s r).bytes (i + 7) i (b.setWidth 64) with
      | error f => simp only [bind, Except.bind, e2] at h; cases h
      | ok d =>
        simp only [bind, Except.bind, e2] at h
        have := ih (s := s.put r { s r with bytes := d }) (by simpa [Cell.Clean] using hc)
          (hi.put _ _ (by simp [hc.1])) (k + 1) (by rw [put_same]; exact h)
        simp only [pure_def, run]
        rw [this]
        simp

/-- `set_bytes` without interference, range inside the buffer. -/
theorem run_setBytesP_ok {t : Nat} {s : Store} {r : Nat} (hc : (s r).Clean) (hi : Idle t s) (chk : Bool) (msb lsb : Nat)
    (value d : Bytes) (h : setBytes chk (s r).bytes msb lsb value = .ok d) :
    run t (setBytesP chk r msb lsb value) s = (.ok (), s.put r { s r with bytes := d }) := by
  rw [setBytesP_split, run_bind, run_ofR t _ hi]
  rw [setBytes_split] at h
  cases e : rangeWidth chk msb lsb with
  | error f => rw [e] at h; cases h
  | ok w =>
    rw [e] at h
    simp only [Except.bind] at h ⊢
    by_cases hw : value.length * 8 ≠ w
    · rw [if_pos hw] at h; cases h
    · rw [if_neg hw] at h ⊢
      rw [run_bind]
      cases e2 : (inclRangeStep8 lsb msb).foldlM (setBytesBody value) ((s r).bytes, 0) with
      | error f => rw [e2] at h; cases h
      | ok x =>
        rw [setBytesLoop_run value _ hc hi 0 x e2]
        rw [e2] at h; cases h
        rfl

theorem setBytesLoop_error {t : Nat} (value : Bytes) (l : List Nat) {s : Store} {r : Nat} (hc : (s r).Clean)
    (hi : Idle t s) (k : Nat) (e : Fault) (h : l.foldlM (setBytesBody value) ((s r).bytes, k) = .error e) :
    (run t (l.foldlM (setBytesBodyP r value) k) s).1 = .error e := by
  induction l generalizing s k with
  | nil => cases h
  | cons i l ih =>
    rw [List.foldlM_cons] at h
    rw [List.foldlM_cons, bind_def, run_bind, setBytesBodyP, bind_def, run_bind, run_ofR t _ hi]
    unfold setBytesBody at h
    cases e1 : index value k with
    | error f => simp only [e1] at h; cases h; rfl
    | ok b =>
      simp only [e1] at h ⊢
      rw [bind_def, run_bind, run_setBitRangeP hc hi]
      cases e2 : setBitRange (s r).bytes (i + 7) i (b.setWidth 64) with
      | error f => simp only [bind, Except.bind, e2] at h; cases h; rfl
      | ok d =>
        simp only [bind, Except.bind, e2] at h
        exact ih (s := s.put r { s r with bytes := d }) (by simpa [Cell.Clean] using hc)
          (hi.put _ _ (by simp [hc.1])) (k + 1) (by rw [put_same]; exact h)

theorem run_setBytesP_error {t : Nat} {s : Store} {r : Nat} (hc : (s r).Clean) (hi : Idle t s) (chk : Bool)
    (msb lsb : Nat) (value : Bytes) (e : Fault) (h : setBytes chk (s r).bytes msb lsb value = .error e) :
    (run t (setBytesP chk r msb lsb value) s).1 = .error e := by
  rw [setBytesP_split, run_bind, run_ofR t _ hi]
  rw [setBytes_split] at h
  cases e1 : rangeWidth chk msb lsb with
  | error f => rw [e1] at h; cases h; rfl
  | ok w =>
    rw [e1] at h
    simp only [Except.bind] at h ⊢
    by_cases hw : value.length * 8 ≠ w
    · rw [if_pos hw] at h ⊢; cases h; rfl
    · rw [if_neg hw] at h ⊢
      rw [run_bind]
      cases e2 : (inclRangeStep8 lsb msb).foldlM (setBytesBody value) ((s r).bytes, 0) with
      | ok x => rw [e2] at h; cases h
      | error f =>
        rw [e2] at h; cases h
        have := setBytesLoop_error value _ hc hi 0 e e2
        cases c : run t ((inclRangeStep8 lsb msb).foldlM (setBytesBodyP r value) 0) s with
        | mk x m => rw [c] at this; cases this; rfl

/-- `set_bytes` without interference, range leaving the buffer: the octets that fit have been
written, and the storage is poisoned. -/
theorem run_setBytesP_short {t : Nat} {s : Store} {r : Nat} (hc : (s r).Clean) (hi : Idle t s) (chk : Bool) (lo : Nat)
    (value : Bytes) (hn : value ≠ []) (hshort : 8 * (s r).bytes.length < lo + 8 * value.length)
    (hs : 8 * value.length < 2 ^ 64) :
    ∃ d, run t (setBytesP chk r (lo + 8 * value.length - 1) lo value) s =
        (.error .index, s.put r ⟨d, true, none⟩) ∧ d.length = (s r).bytes.length ∧
      ∀ i, netBit d i = if lo ≤ i ∧ i < lo + 8 * ((8 * (s r).bytes.length - lo) / 8) then netBit value (i - lo)
        else netBit (s r).bytes i := by
  have hn' : 0 < value.length := List.length_pos_iff.mpr hn
  have e1 : lo + 8 * value.length - 1 - lo + 1 = 8 * value.length := by omega
  have e2 : (lo + 8 * value.length - 1 + 1 - lo + 7) / 8 = value.length := by omega
  have ew : rangeWidth chk (lo + 8 * value.length - 1) lo = .ok (8 * value.length) := by
    simp only [rangeWidth, usizeSub_ok chk _ lo (show lo ≤ lo + 8 * value.length - 1 by omega), bind, Except.bind,
      usizeAdd_ok chk (lo + 8 * value.length - 1 - lo) 1 (by omega), e1]
  generalize hk : (8 * (s r).bytes.length - lo) / 8 = k
  have hkn : k < value.length := by omega
  obtain ⟨m, hm⟩ : ∃ m, value.length = k + (m + 1) := ⟨value.length - k - 1, by omega⟩
  have hk0 : k = 0 ∨ lo + 8 * k ≤ 8 * (s r).bytes.length := by omega
  obtain ⟨d, ed, ld, bd⟩ : ∃ d', (List.range' lo k 8).foldlM (setBytesBody value) ((s r).bytes, 0) = .ok (d', k) ∧ d'.length = (s r).bytes.length ∧
      ∀ i, netBit d' i = if lo ≤ i ∧ i < lo + 8 * k then netBit value (i - lo) else netBit (s r).bytes i := by
    rcases hk0 with h0 | h0
    · subst h0
      exact ⟨_, rfl, rfl, by intro i; rw [if_neg (by omega)]⟩
    · obtain ⟨d', e, l, b⟩ := setBytesLoop value k lo 0 (s r).bytes h0 (by omega)
      exact ⟨d', by rw [Nat.zero_add] at e; exact e, l, by intro i; rw [b]; simp⟩
  refine ⟨d, ?_, ld, bd⟩
  rw [setBytesP_split, run_bind, run_ofR t _ hi, ew]
  simp only
  rw [if_neg (by omega), run_bind, inclRangeStep8, e2, hm]
  have happ := List.range'_append (s := lo) (m := k) (n := m + 1) (step := 8)
  rw [← happ, List.foldlM_append, bind_def, run_bind, setBytesLoop_run value _ hc hi 0 _ ed]
  simp only
  rw [List.range'_succ, List.foldlM_cons, bind_def, run_bind, setBytesBodyP, bind_def, run_bind,
    run_ofR t _ (hi.put _ _ (by simp [hc.1])), index_ok value k hkn]
  simp only
  rw [bind_def, run_bind, run_setBitRangeP (by simpa [Cell.Clean] using hc) (hi.put _ _ (by simp [hc.1])), put_same,
    setBitRange_err _ _ _ _ (by omega) (by simp only [ld]; omega)]
  simp [Store.poison, hc.1]

end
end PacketRs
