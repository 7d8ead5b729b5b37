import Verif.Lemmas.Race
import Verif.Lemmas.Step
import Verif.Spec.Taint
import Verif.Spec.Mutex
import Verif.Samples
/-!
# C117: how poison spreads between threads

Nothing is assumed of the threads: any accessors, any bit ranges, any contents, poisoned or not.
-/
namespace PacketRs
open Spec
open Prog hiding bind

section
variable {α β : Type}

/-- Where a thread is in a call: outside, with a guard, with a guard and the bytes `d` read, in the middle of a
`replace` with the target emptied, or with both guards. -/
inductive Pos where
  | out
  | got (r : Nat)
  | saw (r : Nat) (d : Bytes)
  | cleared (r o : Nat)
  | both (r o : Nat)

/-- The mutexes held there. -/
def Pos.held : Pos → List Nat
  | .out => []
  | .got r => [r]
  | .saw r _ => [r]
  | .cleared r _ => [r]
  | .both r o => [o, r]

/-- What is known of the bytes there. -/
def Pos.at (m : Store) : Pos → Prop
  | .saw r d => (m r).bytes = d
  | .cleared r _ => (m r).bytes = []
  | .both r o => r ≠ o
  | _ => True

/-- What a thread can do to headers, step by step. -/
inductive Sh (T : Nat → Nat → Prop) (Rp : Nat → Nat → Prop) (U P : Nat → Prop) : Pos → Prog α → Prop where
  | ret (a : α) : Sh T Rp U P .out (.ret a)
  | panic {f : Fault} : f ≠ .poisoned → Sh T Rp U P .out (.panic f)
  | died {f : Fault} : f ≠ .poisoned → Sh T Rp U P .out (.died f)
  | lock {r : Nat} {k : Prog α} : U r → Sh T Rp U P (.got r) k → Sh T Rp U P .out (.lock r k)
  | load {r : Nat} {k : Bytes → Prog α} : (∀ d, Sh T Rp U P (.saw r d) (k d)) → Sh T Rp U P (.got r) (.load r k)
  | clear {r o : Nat} {k : Prog α} : Rp r o → Sh T Rp U P (.cleared r o) k → Sh T Rp U P (.got r) (.store r [] k)
  | lock2 {r o : Nat} {k : Prog α} : Rp r o → U o → Sh T Rp U P (.both r o) k → Sh T Rp U P (.cleared r o) (.lock o k)
  | fail {r j : Nat} {d : Bytes} : T r j → 8 * d.length ≤ j → Sh T Rp U P (.saw r d) (.panic .index)
  | write {r : Nat} {d b : Bytes} {k : Prog α} : b.length = d.length → Sh T Rp U P (.got r) k →
      Sh T Rp U P (.saw r d) (.store r b k)
  | drop {r : Nat} {k : Prog α} : Sh T Rp U P .out k → Sh T Rp U P (.got r) (.unlock r k)
  | drop' {r : Nat} {d : Bytes} {k : Prog α} : Sh T Rp U P .out k → Sh T Rp U P (.saw r d) (.unlock r k)
  | loadS {r o : Nat} {k : Bytes → Prog α} : (∀ d, Sh T Rp U P (.both r o) (k d)) → Sh T Rp U P (.both r o) (.load o k)
  | loadT {r o : Nat} {k : Bytes → Prog α} : (∀ d, Sh T Rp U P (.both r o) (k d)) → Sh T Rp U P (.both r o) (.load r k)
  | fill {r o : Nat} {b : Bytes} {k : Prog α} : Rp r o → Sh T Rp U P (.both r o) k → Sh T Rp U P (.both r o) (.store r b k)
  | dropS {r o : Nat} {k : Prog α} : Sh T Rp U P (.got r) k → Sh T Rp U P (.both r o) (.unlock o k)
  | hit {o : Nat} : U o → P o → Sh T Rp U P .out (.panic .poisoned)
  | hit2 {r o : Nat} : Rp r o → U o → P o → Sh T Rp U P (.cleared r o) (.panic .poisoned)
  | dead {o : Nat} : U o → P o → Sh T Rp U P .out (.died .poisoned)

section
variable {T : Nat → Nat → Prop} {Rp : Nat → Nat → Prop} {U P P' : Nat → Prop}

theorem Sh.mono {pos : Pos} {p : Prog α} (h : Sh T Rp U P pos p) (hp : ∀ r, P r → P' r) : Sh T Rp U P' pos p := by
  induction h with
  | ret a => exact .ret a
  | panic h => exact .panic h
  | died h => exact .died h
  | lock h _ ih => exact .lock h ih
  | load _ ih => exact .load ih
  | clear h _ ih => exact .clear h ih
  | lock2 h h' _ ih => exact .lock2 h h' ih
  | fail h h' => exact .fail h h'
  | write h _ ih => exact .write h ih
  | drop _ ih => exact .drop ih
  | drop' _ ih => exact .drop' ih
  | loadS _ ih => exact .loadS ih
  | loadT _ ih => exact .loadT ih
  | fill h _ ih => exact .fill h ih
  | dropS _ ih => exact .dropS ih
  | hit h h' => exact .hit h (hp _ h')
  | hit2 h h' h'' => exact .hit2 h h' (hp _ h'')
  | dead h h' => exact .dead h (hp _ h')

/-- A computation that starts and ends outside calls. -/
def Proc (T : Nat → Nat → Prop) (Rp : Nat → Nat → Prop) (U P : Nat → Prop) (β : Type) (α : Type) (p : Prog β) : Prop :=
  ∀ f : β → Prog α, (∀ b, Sh T Rp U P .out (f b)) → Sh T Rp U P .out (p.bind f)

theorem Proc.ret (b : β) : Proc T Rp U P β α (.ret b) := fun _ hf => hf b

theorem Proc.bind {γ : Type} {p : Prog β} {g : β → Prog γ} (hp : Proc T Rp U P β α p) (hg : ∀ b, Proc T Rp U P γ α (g b)) :
    Proc T Rp U P γ α (p.bind g) := fun f hf => by
  rw [bind_assoc']
  exact hp _ fun b => hg b f hf

theorem Proc.foldlM {γ : Type} {f : β → γ → Prog β} (l : List γ) (hf : ∀ b, ∀ c ∈ l, Proc T Rp U P β α (f b c)) (b : β) :
    Proc T Rp U P β α (l.foldlM f b) := by
  induction l generalizing b with
  | nil => exact .ret b
  | cons c l ih =>
    rw [List.foldlM_cons]
    exact Proc.bind (hf b c (by simp)) fun b' => ih (fun b c hc => hf b c (by simp [hc])) b'

theorem call_ofR {x : R β} (hx : x ≠ .error .poisoned) : Proc T Rp U P β α (ofR x) := by
  cases x with
  | ok b => exact .ret b
  | error e => exact fun f _ => .panic fun h => hx (h ▸ rfl)

theorem call_bitRangeStepP {r i : Nat} (hu : U r) (ht : T r i) (v : U64) : Proc T Rp U P U64 α (bitRangeStepP r v i) := by
  intro f hf
  unfold bitRangeStepP
  simp only [bind_def, pure_def, lockM, loadM, unlockM, bind_lock, bind_load, bind_ret, bind_unlock]
  refine .lock hu (.load fun d => ?_)
  unfold index
  cases e : d[i / 8]? with
  | none =>
    have := List.getElem?_eq_none_iff.1 e
    exact .fail ht (by omega)
  | some b => exact .drop' (hf _)

theorem call_setBitStepP {r i : Nat} (hu : U r) (ht : T r i) (v : U64) : Proc T Rp U P U64 α (setBitStepP r v i) := by
  intro f hf
  unfold setBitStepP
  simp only [bind_def, pure_def, lockM, loadM, storeM, unlockM, bind_lock, bind_load, bind_store, bind_unlock, bind_ret]
  refine .lock hu (.load fun d => ?_)
  unfold index
  cases e : d[i / 8]? with
  | none =>
    have := List.getElem?_eq_none_iff.1 e
    exact .fail ht (by omega)
  | some b =>
    refine .write (List.length_set ..) (.load fun c => ?_)
    dsimp only
    cases e : c[i / 8]? with
    | none =>
      have := List.getElem?_eq_none_iff.1 e
      exact .fail ht (by omega)
    | some b => exact .write (List.length_set ..) (.drop (hf _))

/-- Not a panic on a poisoned mutex. -/
def NoPoison {β : Type} (x : R β) : Prop := x ≠ .error .poisoned

theorem NoPoison.bind {γ : Type} {x : R β} {g : β → R γ} (hx : NoPoison x) (hg : ∀ b, NoPoison (g b)) : NoPoison (x >>= g) := by
  cases x with
  | ok b => exact hg b
  | error e => exact fun h => hx (by cases h; rfl)

theorem np_ite {p : Prop} [Decidable p] {x y : R β} (hx : NoPoison x) (hy : NoPoison y) : NoPoison (if p then x else y) := by
  split <;> assumption

theorem np_ok (b : β) : NoPoison (.ok b) := nofun
theorem np_overflow : NoPoison (.error .overflow : R β) := nofun

theorem np_width (chk : Bool) (msb lsb : Nat) : NoPoison (do usizeAdd chk (← usizeSub chk msb lsb) 1) :=
  NoPoison.bind (np_ite (np_ok _) (np_ite np_overflow (np_ok _))) fun _ => np_ite (np_ok _) (np_ite np_overflow (np_ok _))

theorem np_bitRangeEnd (chk : Bool) (msb lsb : Nat) (v : U64) : NoPoison (bitRangeEnd chk msb lsb v) :=
  NoPoison.bind (np_ite (np_ok _) (np_ite np_overflow (np_ok _))) fun _ =>
    NoPoison.bind (np_ite (np_ok _) (np_ite np_overflow (np_ok _))) fun _ =>
    NoPoison.bind (np_ite (np_ok _) (np_ite np_overflow (np_ok _))) fun _ =>
    NoPoison.bind (np_ite (np_ok _) (np_ite np_overflow (np_ok _))) fun _ => np_ite (np_ok _) (np_ite np_overflow (np_ok _))

theorem np_index (d : Bytes) (i : Nat) : NoPoison (index d i) := by
  unfold index; split <;> nofun

theorem call_bitRangeP {r msb lsb : Nat} (hu : U r) (ht : ∀ j, lsb ≤ j → j ≤ msb → T r j) (chk : Bool) :
    Proc T Rp U P U64 α (bitRangeP chk r msb lsb) := by
  refine Proc.bind (Proc.foldlM _ (fun v i hi => ?_) _) fun v => call_ofR (np_bitRangeEnd chk msb lsb v)
  simp only [inclRange, List.mem_range'_1] at hi
  exact call_bitRangeStepP hu (ht i hi.1 (by omega)) v

theorem call_setBitRangeP {r msb lsb : Nat} (hu : U r) (ht : ∀ j, lsb ≤ j → j ≤ msb → T r j) (v : U64) :
    Proc T Rp U P Unit α (setBitRangeP r msb lsb v) := by
  refine Proc.bind (Proc.foldlM _ (fun v i hi => ?_) _) fun v => .ret _
  simp only [inclRange, List.mem_reverse, List.mem_range'_1] at hi
  exact call_setBitStepP hu (ht i hi.1 (by omega)) v

/-- Also a width that wraps is a multiple of eight only if the range is. -/
theorem width_mod {chk : Bool} {msb lsb w : Nat} (h : rangeWidth chk msb lsb = Except.ok w)
    (hle : lsb ≤ msb) : w % 8 = (msb + 1 - lsb) % 8 := by
  simp only [rangeWidth, usizeSub_ok chk msb lsb hle, R.ok_bind, usizeAdd] at h
  split at h
  · cases h; omega
  · split at h
    · cases h
    · cases h; omega

theorem mem_step8 {chk : Bool} {msb lsb w i : Nat} (h : rangeWidth chk msb lsb = Except.ok w) (hw : w % 8 = 0)
    (hi : i ∈ inclRangeStep8 lsb msb) : lsb ≤ i ∧ i + 7 ≤ msb := by
  by_cases hle : lsb ≤ msb
  · exact mem_inclRangeStep8 hi (width_mod h hle ▸ hw)
  · rw [inclRangeStep8, show (msb + 1 - lsb + 7) / 8 = 0 by omega] at hi
    simp at hi

theorem call_bytesP {r msb lsb : Nat} (hu : U r) (ht : ∀ j, lsb ≤ j → j ≤ msb → T r j) (chk : Bool) :
    Proc T Rp U P Bytes α (bytesP chk r msb lsb) := by
  rw [bytesP_split]
  have hn : NoPoison (rangeWidth chk msb lsb) := np_width chk msb lsb
  cases hw : rangeWidth chk msb lsb with
  | error e => rw [hw] at hn; exact fun _ _ => .panic fun h => hn (h ▸ rfl)
  | ok w =>
    simp only [ofR, bind_ret]
    split
    · exact fun _ _ => .panic (by decide)
    · next h8 =>
      refine Proc.foldlM _ (fun v i hi => ?_) _
      have := mem_step8 hw (by omega) hi
      exact Proc.bind (call_bitRangeP hu (fun j a b => ht j (by omega) (by omega)) chk) fun _ => .ret _

theorem call_setBytesP {r msb lsb : Nat} (hu : U r) (ht : ∀ j, lsb ≤ j → j ≤ msb → T r j) (chk : Bool) (v : Bytes) :
    Proc T Rp U P Unit α (setBytesP chk r msb lsb v) := by
  rw [setBytesP_split]
  have hn : NoPoison (rangeWidth chk msb lsb) := np_width chk msb lsb
  cases hw : rangeWidth chk msb lsb with
  | error e => rw [hw] at hn; exact fun _ _ => .panic fun h => hn (h ▸ rfl)
  | ok w =>
    simp only [ofR, bind_ret]
    split
    · exact fun _ _ => .panic (by decide)
    · next h8 =>
      refine Proc.bind (Proc.foldlM _ (fun n i hi => ?_) _) fun _ => .ret _
      have := mem_step8 hw (by omega) hi
      exact Proc.bind (call_ofR (np_index v n)) fun b =>
        Proc.bind (call_setBitRangeP hu (fun j a b => ht j (by omega) (by omega)) _) fun _ => .ret _

theorem call_toVecP {r : Nat} (hu : U r) : Proc T Rp U P Bytes α (toVecP r) :=
  fun _ hf => .lock hu (.load fun d => .drop' (hf d))

theorem call_replaceP {r o : Nat} (hr : U r) (ho : U o) (h : Rp r o) : Proc T Rp U P Unit α (replaceP r o) :=
  fun _ hf => .lock hr (.clear h (.lock2 h ho (.loadS fun _ => .loadT fun _ => .fill h (.dropS (.drop (hf _))))))

theorem sh_client (chk : Bool) : (c : Client α) → (∀ r j, MayTouch c r j → T r j) → (∀ r o, MayReplace c r o → Rp r o) →
    (∀ r, MayUse c r → U r) → Sh T Rp U P .out (c.prog chk)
  | .done a, _, _, _ => .ret a
  | .get _ _ k, h1, h2, h3 => call_bitRangeP (h3 _ (.inl rfl)) (fun _ a b => h1 _ _ (.inl ⟨rfl, a, b⟩)) chk _ fun v =>
    sh_client chk (k v) (fun x y h => h1 x y (.inr ⟨v, h⟩)) (fun x y h => h2 x y ⟨v, h⟩) fun x h => h3 x (.inr ⟨v, h⟩)
  | .set _ _ v k, h1, h2, h3 => call_setBitRangeP (h3 _ (.inl rfl)) (fun _ a b => h1 _ _ (.inl ⟨rfl, a, b⟩)) v _ fun _ =>
    sh_client chk k (fun x y h => h1 x y (.inr h)) h2 fun x h => h3 x (.inr h)
  | .bytes _ _ _ k, h1, h2, h3 => call_bytesP (h3 _ (.inl rfl)) (fun _ a b => h1 _ _ (.inl ⟨rfl, a, b⟩)) chk _ fun v =>
    sh_client chk (k v) (fun x y h => h1 x y (.inr ⟨v, h⟩)) (fun x y h => h2 x y ⟨v, h⟩) fun x h => h3 x (.inr ⟨v, h⟩)
  | .setBytes _ _ _ v k, h1, h2, h3 =>
    call_setBytesP (h3 _ (.inl rfl)) (fun _ a b => h1 _ _ (.inl ⟨rfl, a, b⟩)) chk v _ fun _ =>
    sh_client chk k (fun x y h => h1 x y (.inr h)) h2 fun x h => h3 x (.inr h)
  | .toVec _ k, h1, h2, h3 => call_toVecP (h3 _ (.inl rfl)) _ fun v =>
    sh_client chk (k v) (fun x y h => h1 x y ⟨v, h⟩) (fun x y h => h2 x y ⟨v, h⟩) fun x h => h3 x (.inr ⟨v, h⟩)
  | .replace _ _ k, h1, h2, h3 => call_replaceP (h3 _ (.inl rfl)) (h3 _ (.inr (.inl rfl))) (h2 _ _ (.inl ⟨rfl, rfl⟩)) _ fun _ =>
    sh_client chk k h1 (fun x y h => h2 x y (.inr h)) fun x h => h3 x (.inr (.inr h))

end

/-- The invariant of all executions. -/
structure Ledger (m : Store) (cs : Nat → Client α) (s : Sys α) : Prop where
  th : ∀ t, ∃ pos : Pos, (∀ r, (s.mem r).owner = some t ↔ r ∈ pos.held) ∧ pos.at s.mem ∧
    Sh (MayTouch (cs t)) (MayReplace (cs t)) (MayUse (cs t)) (fun r => (s.mem r).poisoned = true) pos (s.th t)
  free : ∀ r, (s.mem r).poisoned = true → (s.mem r).owner = none
  len : ∀ r, (∀ t o, ¬ MayReplace (cs t) r o) → (s.mem r).bytes.length = (m r).bytes.length
  traced : ∀ r, (s.mem r).poisoned = true → Traced m cs s r
  killer : ∃ g : Nat → Nat, ∀ r, (s.mem r).poisoned = true → (m r).poisoned = false →
    (Overran cs s (g r) r ∨ ∃ o, Infected cs s (g r) r o) ∧
    ∀ r', (s.mem r').poisoned = true → (m r').poisoned = false → g r = g r' → r = r'

theorem ledger_start (chk : Bool) (m : Store) (hf : ∀ r, (m r).owner = none) (cs : Nat → Client α) :
    Ledger m cs ⟨m, fun t => (cs t).prog chk⟩ where
  th t := ⟨.out, fun r => by simp [hf r, Pos.held], trivial, sh_client chk (cs t) (fun _ _ h => h) (fun _ _ h => h) fun _ h => h⟩
  free r _ := hf r
  len r _ := rfl
  traced r h := .start h
  killer := ⟨fun _ => 0, fun r h h' => by simp at h; simp [h] at h'⟩

/-- A thread that has died of `f` before a step of another thread has died of it after. -/
theorem died_setTh {s : Sys α} {t u : Nat} {p : Prog α} {f : Fault} (hd : ∀ f, s.th t ≠ .died f) (h : s.th u = .died f) :
    s.setTh t p u = .died f := by
  have hu : u ≠ t := fun e => hd f (e ▸ h)
  rw [Sys.setTh_ne _ _ hu, h]

section
variable {m : Store} {cs : Nat → Client α} {s : Sys α} {t : Nat} {p : Prog α} {m' : Store}

theorem Spec.Overran.later {u r : Nat} (h : Overran cs s u r) (hd : ∀ f, s.th t ≠ .died f) (hr : m' r = s.mem r) :
    Overran cs ⟨m', s.setTh t p⟩ u r := by
  obtain ⟨h1, j, h2, h3⟩ := h
  exact ⟨died_setTh hd h1, j, h2, by dsimp only; rw [hr]; exact h3⟩

theorem Spec.Infected.later {u r o : Nat} (h : Infected cs s u r o) (hd : ∀ f, s.th t ≠ .died f) (hr : m' r = s.mem r)
    (ho : m' o = s.mem o) : Infected cs ⟨m', s.setTh t p⟩ u r o := by
  obtain ⟨h1, h2, h3, h4⟩ := h
  exact ⟨died_setTh hd h1, h2, by dsimp only; rw [ho]; exact h3, by dsimp only; rw [hr]; exact h4⟩

theorem Spec.Traced.later {r : Nat} (h : Traced m cs s r) (hd : ∀ f, s.th t ≠ .died f)
    (hm : ∀ x, (s.mem x).poisoned = true → m' x = s.mem x) : Traced m cs ⟨m', s.setTh t p⟩ r := by
  induction h with
  | start h => exact .start h
  | overran h h' => exact .overran (by dsimp only; rw [hm _ h]; exact h) (h'.later hd (hm _ h))
  | infected h h' _ ih => exact .infected (by dsimp only; rw [hm _ h]; exact h) (h'.later hd (hm _ h) (hm _ h'.2.2.1)) ih

/-- A step that changes nothing for the others and poisons nothing. -/
theorem Ledger.mild (h : Ledger m cs s) (hd : ∀ f, s.th t ≠ .died f)
    (hpo : ∀ x, (m' x).poisoned = (s.mem x).poisoned)
    (hfr : ∀ x, (s.mem x).poisoned = true → m' x = s.mem x)
    (hot : ∀ u, u ≠ t → ∀ x, ((m' x).owner = some u ↔ (s.mem x).owner = some u) ∧
      ((s.mem x).owner = some u → (m' x).bytes = (s.mem x).bytes))
    (hlen : ∀ x, (∀ o, ¬ MayReplace (cs t) x o) → (m' x).bytes.length = (s.mem x).bytes.length)
    (pos : Pos) (ho : ∀ r, (m' r).owner = some t ↔ r ∈ pos.held) (hat : pos.at m')
    (hsh : Sh (MayTouch (cs t)) (MayReplace (cs t)) (MayUse (cs t)) (fun r => (s.mem r).poisoned = true) pos p) :
    Ledger m cs ⟨m', s.setTh t p⟩ where
  th u := by
    by_cases hu : u = t
    · subst hu
      exact ⟨pos, ho, hat, by simpa [hpo] using hsh⟩
    · obtain ⟨pos', ho', hat', hsh'⟩ := h.th u
      refine ⟨pos', fun r => (hot u hu r).1.trans (ho' r), ?_, by simpa [hpo, Sys.setTh_ne _ _ hu] using hsh'⟩
      cases pos' with
      | saw r d => exact ((hot u hu r).2 ((ho' r).2 (by simp [Pos.held]))).trans hat'
      | cleared r o => exact ((hot u hu r).2 ((ho' r).2 (by simp [Pos.held]))).trans hat'
      | both r o => exact hat'
      | _ => trivial
  free r hr := by
    have hr : (s.mem r).poisoned = true := (hpo r) ▸ hr
    show (m' r).owner = none
    rw [hfr r hr]; exact h.free r hr
  len r hr := (hlen r (hr t)).trans (h.len r hr)
  traced r hr := (h.traced r ((hpo r) ▸ hr)).later hd hfr
  killer := by
    obtain ⟨g, hg⟩ := h.killer
    refine ⟨g, fun r hr hn => ?_⟩
    have hr : (s.mem r).poisoned = true := (hpo r) ▸ hr
    refine ⟨?_, fun r' hr' hn' e => (hg r hr hn).2 r' ((hpo r') ▸ hr') hn' e⟩
    rcases (hg r hr hn).1 with a | ⟨o, a⟩
    · exact .inl (a.later hd (hfr r hr))
    · exact .inr ⟨o, a.later hd (hfr r hr) (hfr o a.2.2.1)⟩

/-- A panic outside calls. -/
theorem Ledger.panicOut (h : Ledger m cs s) (hd : ∀ f, s.th t ≠ .died f) (ho : ∀ r, (s.mem r).owner ≠ some t)
    (hsh : Sh (MayTouch (cs t)) (MayReplace (cs t)) (MayUse (cs t)) (fun r => (s.mem r).poisoned = true) .out p) :
    Ledger m cs ⟨s.mem.unwind t, s.setTh t p⟩ := by
  have e : s.mem.unwind t = s.mem := by funext r; simp [Store.unwind, ho r]
  rw [e]
  exact h.mild hd (fun _ => rfl) (fun _ _ => rfl) (fun u _ x => ⟨Iff.rfl, fun _ => rfl⟩) (fun _ _ => rfl) .out
    (fun r => by simp [ho r, Pos.held]) trivial hsh

/-- A panic with the guard of `x` held. -/
theorem Ledger.panicIn (h : Ledger m cs s) (hd : ∀ f, s.th t ≠ .died f) {x : Nat} {f : Fault}
    (ho : ∀ r, (s.mem r).owner = some t ↔ r = x)
    (hsh : (f = .index ∧ ∃ j, MayTouch (cs t) x j ∧ 8 * (s.mem x).bytes.length ≤ j) ∨
      (f = .poisoned ∧ (s.mem x).bytes = [] ∧ ∃ o, MayReplace (cs t) x o ∧ MayUse (cs t) o ∧ (s.mem o).poisoned = true)) :
    Ledger m cs ⟨s.mem.unwind t, s.setTh t (.died f)⟩ := by
  have hx : (s.mem x).owner = some t := (ho x).2 rfl
  have hxp : (s.mem x).poisoned = false := by
    cases e : (s.mem x).poisoned with
    | false => rfl
    | true => simp [h.free x e] at hx
  have hsame : ∀ r, r ≠ x → s.mem.unwind t r = s.mem r := fun r hr => by simp [Store.unwind, ho r, hr]
  have hself : s.mem.unwind t x = { s.mem x with poisoned := true, owner := none } := by simp [Store.unwind, hx]
  have hfr : ∀ r, (s.mem r).poisoned = true → s.mem.unwind t r = s.mem r := fun r hr =>
    hsame r fun e => by rw [e, hxp] at hr; cases hr
  have hpo : ∀ r, (s.mem r).poisoned = true → (s.mem.unwind t r).poisoned = true := fun r hr => by rw [hfr r hr]; exact hr
  have hby : ∀ r, (s.mem.unwind t r).bytes = (s.mem r).bytes := fun r => by
    by_cases e : r = x
    · subst e; rw [hself]
    · rw [hsame r e]
  have hcause : Overran cs ⟨s.mem.unwind t, s.setTh t (.died f)⟩ t x ∨
      ∃ o, Infected cs ⟨s.mem.unwind t, s.setTh t (.died f)⟩ t x o ∧ (s.mem o).poisoned = true := by
    rcases hsh with ⟨rfl, j, h1, h2⟩ | ⟨rfl, h1, o, h2, -, h4⟩
    · exact .inl ⟨by simp [Sys.setTh], j, h1, by simpa [hby] using h2⟩
    · exact .inr ⟨o, ⟨by simp [Sys.setTh], h2, hpo o h4, by simpa [hby] using h1⟩, h4⟩
  refine ⟨fun u => ?_, fun r hr => ?_, fun r hr => ?_, fun r hr => ?_, ?_⟩
  · by_cases hu : u = t
    · subst hu
      refine ⟨.out, fun r => ?_, trivial, ?_⟩
      · by_cases e : r = x
        · subst e; simp [hself, Pos.held]
        · simp [hsame r e, ho r, e, Pos.held]
      · rcases hsh with ⟨rfl, -⟩ | ⟨rfl, -, o, -, h3, h4⟩
        · simpa [Sys.setTh] using Sh.died (by decide)
        · simpa [Sys.setTh] using Sh.dead h3 (hpo o h4)
    · obtain ⟨pos', ho', hat', hsh'⟩ := h.th u
      refine ⟨pos', fun r => ?_, ?_, ?_⟩
      · rw [← ho' r]
        by_cases e : r = x
        · subst e; simp [hself, hx, show t ≠ u from fun e => hu e.symm]
        · simp only [hsame r e]
      · cases pos' with
        | saw r d => exact (hby r).trans hat'
        | cleared r o => exact (hby r).trans hat'
        | both r o => exact hat'
        | _ => trivial
      · simp only [Sys.setTh_ne _ _ hu]
        exact hsh'.mono hpo
  · by_cases e : r = x
    · subst e; simp [hself]
    · simp only [hsame r e] at hr ⊢; exact h.free r hr
  · simp only [hby]; exact h.len r hr
  · by_cases e : r = x
    · subst e
      rcases hcause with a | ⟨o, a, hp⟩
      · exact .overran hr a
      · exact .infected hr a ((h.traced o hp).later hd hfr)
    · simp only [hsame r e] at hr
      exact (h.traced r hr).later hd hfr
  · obtain ⟨g, hg⟩ := h.killer
    have hgt : ∀ r, (s.mem r).poisoned = true → (m r).poisoned = false → g r ≠ t := by
      intro r hr hn e
      rcases (hg r hr hn).1 with a | ⟨o, a⟩
      · exact hd _ (e ▸ a.1)
      · exact hd _ (e ▸ a.1)
    refine ⟨fun r => if r = x then t else g r, fun r hr hn => ?_⟩
    by_cases e : r = x
    · subst e
      refine ⟨?_, fun r' hr' hn' e' => ?_⟩
      · simp only [if_true]
        exact hcause.imp id fun ⟨o, a, _⟩ => ⟨o, a⟩
      · by_cases e2 : r' = r
        · exact e2.symm
        · simp only [if_true, if_neg e2] at e'
          simp only [hsame r' e2] at hr'
          exact absurd e'.symm (hgt r' hr' hn')
    · simp only [hsame r e] at hr
      refine ⟨?_, fun r' hr' hn' e' => ?_⟩
      · simp only [if_neg e]
        rcases (hg r hr hn).1 with a | ⟨o, a⟩
        · exact .inl (a.later hd (hfr r hr))
        · exact .inr ⟨o, a.later hd (hfr r hr) (hfr o a.2.2.1)⟩
      · by_cases e2 : r' = x
        · simp only [if_neg e, if_pos e2] at e'
          exact absurd e' (hgt r hr hn)
        · simp only [if_neg e, if_neg e2] at e'
          simp only [hsame r' e2] at hr'
          exact (hg r hr hn).2 r' hr' hn' e'

/-- Taking a free mutex. -/
theorem Ledger.take (h : Ledger m cs s) (hd : ∀ f, s.th t ≠ .died f) {x : Nat} (hfree : (s.mem x).owner = none)
    (hpo : (s.mem x).poisoned = false) {old pos : Pos} (ho : ∀ r, (s.mem r).owner = some t ↔ r ∈ old.held)
    (hheld : pos.held = x :: old.held) (hat : ∀ m', pos.at m')
    (hsh : Sh (MayTouch (cs t)) (MayReplace (cs t)) (MayUse (cs t)) (fun r => (s.mem r).poisoned = true) pos p) :
    Ledger m cs ⟨s.mem.put x { s.mem x with owner := some t }, s.setTh t p⟩ := by
  refine h.mild hd (fun y => ?_) (fun y hy => ?_) (fun u hu y => ?_) (fun y _ => ?_) pos (fun y => ?_) (hat _) hsh
  all_goals by_cases e : y = x
  · subst e; simp
  · rw [put_ne _ _ e]
  · subst e; rw [hpo] at hy; cases hy
  · rw [put_ne _ _ e]
  · subst e; simp [hfree, show t ≠ u from fun e => hu e.symm]
  · rw [put_ne _ _ e]; exact ⟨Iff.rfl, fun _ => rfl⟩
  · subst e; simp
  · rw [put_ne _ _ e]
  · subst e; simp [hheld]
  · rw [put_ne _ _ e, hheld, ho y]; simp [e]

/-- Dropping a guard. -/
theorem Ledger.give (h : Ledger m cs s) (hd : ∀ f, s.th t ≠ .died f) {x : Nat} {old pos : Pos}
    (ho : ∀ r, (s.mem r).owner = some t ↔ r ∈ old.held) (hx : x ∈ old.held)
    (hheld : ∀ y, y ∈ pos.held ↔ y ∈ old.held ∧ y ≠ x) (hat : ∀ m', pos.at m')
    (hsh : Sh (MayTouch (cs t)) (MayReplace (cs t)) (MayUse (cs t)) (fun r => (s.mem r).poisoned = true) pos p) :
    Ledger m cs ⟨s.mem.put x { s.mem x with owner := none }, s.setTh t p⟩ := by
  have hown := (ho x).2 hx
  refine h.mild hd (fun y => ?_) (fun y hy => ?_) (fun u hu y => ?_) (fun y _ => ?_) pos (fun y => ?_) (hat _) hsh
  all_goals by_cases e : y = x
  · subst e; simp
  · rw [put_ne _ _ e]
  · subst e; simp [h.free y hy] at hown
  · rw [put_ne _ _ e]
  · subst e; simp [hown, show t ≠ u from fun e => hu e.symm]
  · rw [put_ne _ _ e]; exact ⟨Iff.rfl, fun _ => rfl⟩
  · subst e; simp
  · rw [put_ne _ _ e]
  · subst e; simp [hheld]
  · rw [put_ne _ _ e, hheld, ho y]; simp [e]

/-- Writing under a guard. -/
theorem Ledger.put (h : Ledger m cs s) (hd : ∀ f, s.th t ≠ .died f) {x : Nat} {b : Bytes} {old pos : Pos}
    (ho : ∀ r, (s.mem r).owner = some t ↔ r ∈ old.held) (hx : x ∈ old.held) (hheld : pos.held = old.held)
    (hat : ∀ m' : Store, (m' x).bytes = b → pos.at m')
    (hlen : b.length = (s.mem x).bytes.length ∨ ∃ o, MayReplace (cs t) x o)
    (hsh : Sh (MayTouch (cs t)) (MayReplace (cs t)) (MayUse (cs t)) (fun r => (s.mem r).poisoned = true) pos p) :
    Ledger m cs ⟨s.mem.put x { s.mem x with bytes := b }, s.setTh t p⟩ := by
  have hown := (ho x).2 hx
  refine h.mild hd (fun y => ?_) (fun y hy => ?_) (fun u hu y => ?_) (fun y hy => ?_) pos (fun y => ?_) (hat _ (by simp)) hsh
  all_goals by_cases e : y = x
  · subst e; simp
  · rw [put_ne _ _ e]
  · subst e; simp [h.free y hy] at hown
  · rw [put_ne _ _ e]
  · subst e; simp [hown, show t ≠ u from fun e => hu e.symm]
  · rw [put_ne _ _ e]; exact ⟨Iff.rfl, fun _ => rfl⟩
  · subst e
    rcases hlen with hl | ⟨o, hl⟩
    · simpa using hl
    · exact absurd hl (hy o)
  · rw [put_ne _ _ e]
  · subst e; simp [hheld, hown, hx]
  · rw [put_ne _ _ e, hheld, ho y]

/-- Reading, or finding a mutex poisoned. -/
theorem Ledger.look (h : Ledger m cs s) (hd : ∀ f, s.th t ≠ .died f) {old pos : Pos}
    (ho : ∀ r, (s.mem r).owner = some t ↔ r ∈ old.held) (hheld : pos.held = old.held) (hat : pos.at s.mem)
    (hsh : Sh (MayTouch (cs t)) (MayReplace (cs t)) (MayUse (cs t)) (fun r => (s.mem r).poisoned = true) pos p) :
    Ledger m cs ⟨s.mem, s.setTh t p⟩ :=
  h.mild hd (fun _ => rfl) (fun _ _ => rfl) (fun _ _ _ => ⟨Iff.rfl, fun _ => rfl⟩) (fun _ _ => rfl) pos
    (fun r => by rw [hheld, ho r]) hat hsh

theorem Ledger.step (h : Ledger m cs s) {s' : Sys α} (hs : s.step t = some s') : Ledger m cs s' := by
  obtain ⟨pos, ho, hat, hsh⟩ := h.th t
  have hd : ∀ f, s.th t ≠ .died f := fun f e => by simp [Sys.step, e] at hs
  unfold Sys.step at hs
  generalize s.th t = p at hs hsh
  cases hsh with
  | ret a => cases hs
  | panic hf =>
    cases hs
    exact h.panicOut hd (fun r e => by simpa [Pos.held] using (ho r).1 e) (.died hf)
  | died hf => cases hs
  | @lock r k hu hk =>
    simp only at hs
    split at hs
    · cases hs
    · next hfree =>
      have hfree : (s.mem r).owner = none := Classical.byContradiction hfree
      split at hs
      · next hp => cases hs; exact h.look hd ho rfl trivial (.hit hu hp)
      · next hp => cases hs; exact h.take hd hfree (by simpa using hp) ho (pos := .got r) rfl (fun _ => trivial) hk
  | @load r k hk => cases hs; exact h.look hd ho (pos := .saw r _) rfl rfl (hk _)
  | @clear r o k hr hk =>
    cases hs
    exact h.put hd ho (by simp [Pos.held]) (pos := .cleared r o) rfl (fun _ e => e) (.inr ⟨o, hr⟩) hk
  | @lock2 r o k hr hu hk =>
    simp only at hs
    split at hs
    · cases hs
    · next hfree =>
      have hfree : (s.mem o).owner = none := Classical.byContradiction hfree
      split at hs
      · next hp => cases hs; exact h.look hd ho rfl hat (.hit2 hr hu hp)
      · next hp =>
        cases hs
        have hne : r ≠ o := fun e => by
          have := (ho r).2 (by simp [Pos.held])
          rw [e, hfree] at this; cases this
        exact h.take hd hfree (by simpa using hp) ho (pos := .both r o) rfl (fun _ => hne) hk
  | fail ht hl =>
    cases hs
    exact h.panicIn hd (fun r => by rw [ho r]; simp [Pos.held]) (.inl ⟨rfl, _, ht, by rw [show _ = _ from hat]; exact hl⟩)
  | @write r _ _ _ hl hk =>
    cases hs
    exact h.put hd ho (by simp [Pos.held]) (pos := .got r) rfl (fun _ _ => trivial) (.inl (by rw [show _ = _ from hat]; exact hl)) hk
  | drop hk => cases hs; exact h.give hd ho (by simp [Pos.held]) (pos := .out) (fun y => by simp [Pos.held]) (fun _ => trivial) hk
  | drop' hk => cases hs; exact h.give hd ho (by simp [Pos.held]) (pos := .out) (fun y => by simp [Pos.held]) (fun _ => trivial) hk
  | @loadS r o _ hk => cases hs; exact h.look hd ho (pos := .both r o) rfl hat (hk _)
  | @loadT r o _ hk => cases hs; exact h.look hd ho (pos := .both r o) rfl hat (hk _)
  | @fill r o _ _ hr hk => cases hs; exact h.put hd ho (by simp [Pos.held]) (pos := .both r o) rfl (fun _ _ => hat) (.inr ⟨_, hr⟩) hk
  | @dropS r o k hk =>
    cases hs
    refine h.give hd ho (by simp [Pos.held]) (pos := .got r) (fun y => ?_) (fun _ => trivial) hk
    have : r ≠ o := hat
    simp only [Pos.held, List.mem_cons, List.not_mem_nil, or_false]
    constructor
    · rintro rfl; exact ⟨.inr rfl, this⟩
    · rintro ⟨a | a, b⟩ <;> simp_all
  | hit hu hp =>
    cases hs
    exact h.panicOut hd (fun r e => by simpa [Pos.held] using (ho r).1 e) (.dead hu hp)
  | hit2 hr hu hp =>
    cases hs
    exact h.panicIn hd (fun r => by rw [ho r]; simp [Pos.held]) (.inr ⟨rfl, hat, _, hr, hu, hp⟩)
  | dead hu hp => cases hs

theorem Ledger.reach (h : Ledger m cs s) {s' : Sys α} (hr : Sys.Reach s s') : Ledger m cs s' := by
  induction hr with
  | refl => exact h
  | step t _ hs ih => exact ih.step hs

/-- A step of anyone leaves a poisoned header alone. -/
theorem Ledger.frozen (h : Ledger m cs s) {s' : Sys α} (hs : s.step t = some s') {r : Nat}
    (hp : (s.mem r).poisoned = true) : s'.mem r = s.mem r := by
  obtain ⟨pos, ho, hat, hsh⟩ := h.th t
  have hfree := h.free r hp
  have hne : r ∉ pos.held := fun hm => by simp [(ho r).2 hm] at hfree
  unfold Sys.step at hs
  generalize s.th t = p at hs hsh
  cases p with
  | ret a => cases hs
  | died f => cases hs
  | panic f => cases hs; simp [Store.unwind, hfree]
  | lock x k =>
    simp only at hs
    split at hs
    · cases hs
    · split at hs
      · cases hs; rfl
      · next hx => cases hs; exact put_ne _ _ fun e => hx (e ▸ hp)
  | load x k => cases hs; rfl
  | store x b k =>
    cases hs
    refine put_ne _ _ fun e => hne ?_
    cases hsh <;> simp [Pos.held, e]
  | unlock x k =>
    cases hs
    refine put_ne _ _ fun e => hne ?_
    cases hsh <;> simp [Pos.held, e]

end

end

section
variable {α : Type} (chk : Bool) (m : Store) (hf : ∀ r, (m r).owner = none) (cs : Nat → Client α)
include hf

/-- **C117**: once a header is poisoned nothing about it ever changes again: it stays poisoned, nobody holds its mutex,
and its bytes are never written. -/
theorem C117_frozen (s s' : Sys α) (hs : Sys.Reach ⟨m, fun t => (cs t).prog chk⟩ s) (hs' : Sys.Reach s s') (r : Nat)
    (hp : (s.mem r).poisoned = true) : s'.mem r = s.mem r ∧ (s'.mem r).owner = none := by
  have hl := (ledger_start chk m hf cs).reach hs
  have key : s'.mem r = s.mem r := by
    induction hs' with
    | refl => rfl
    | @step s1 s2 t hr' h ih => rw [(hl.reach hr').frozen h (by rw [ih]; exact hp), ih]
  exact ⟨key, by rw [key]; exact hl.free r hp⟩

/-- **C117**: a thread that asks for the mutex of a poisoned header is not blocked, and whatever happens it never gets
beyond that call: it dies of the poison. -/
theorem C117_shut_out (s s' : Sys α) (hs : Sys.Reach ⟨m, fun t => (cs t).prog chk⟩ s) (hs' : Sys.Reach s s') (r t : Nat)
    (k : Prog α) (hp : (s.mem r).poisoned = true) (ht : s.th t = .lock r k) :
    s.step t ≠ none ∧ (s'.th t = .lock r k ∨ s'.th t = .panic .poisoned ∨ s'.th t = .died .poisoned) := by
  have hl := (ledger_start chk m hf cs).reach hs
  refine ⟨by simp [Sys.step, ht, hl.free r hp, hp], ?_⟩
  induction hs' with
  | refl => exact .inl ht
  | @step s1 s2 u hr' h ih =>
    obtain ⟨hm, -⟩ := C117_frozen chk m hf cs s s1 hs hr' r hp
    by_cases hu : t = u
    · subst hu
      rcases ih with e | e | e
      · simp only [Sys.step, e, hm, hl.free r hp, hp, ne_eq, not_true_eq_false, if_false, if_true] at h
        cases h
        simp [Sys.setTh]
      · simp only [Sys.step, e] at h
        cases h
        simp [Sys.setTh]
      · simp [Sys.step, e] at h
    · have : s2.th t = s1.th t := by
        unfold Sys.step at h
        split at h <;> (try cases h) <;> (try exact Sys.setTh_ne _ _ hu)
        split at h <;> (try cases h)
        split at h <;> cases h <;> exact Sys.setTh_ne _ _ hu
      rwa [this]

/-- **C117**: every poisoned header has its own dead thread: there is a map from the headers poisoned since the beginning
to threads, no two headers to one thread, such that the thread of `r` died going beyond the bytes of `r`, or in a call
`r.replace(&o)` with `o` poisoned, in which case `r` is left empty. -/
theorem C117_cause (s : Sys α) (hs : Sys.Reach ⟨m, fun t => (cs t).prog chk⟩ s) :
    ∃ g : Nat → Nat, ∀ r, (s.mem r).poisoned = true → (m r).poisoned = false →
      (Overran cs s (g r) r ∨ ∃ o, Infected cs s (g r) r o) ∧
      ∀ r', (s.mem r').poisoned = true → (m r').poisoned = false → g r = g r' → r = r' :=
  ((ledger_start chk m hf cs).reach hs).killer

/-- **C117**: all poison can be traced over `replace` calls to a header poisoned at the beginning or to a thread that went
beyond the bytes of a header. -/
theorem C117_traced (s : Sys α) (hs : Sys.Reach ⟨m, fun t => (cs t).prog chk⟩ s) (r : Nat)
    (hp : (s.mem r).poisoned = true) : Traced m cs s r :=
  ((ledger_start chk m hf cs).reach hs).traced r hp

/-- **C117**: if no header was poisoned at the beginning and one is now, some thread went beyond the bytes of a header. -/
theorem C117_origin (h0 : ∀ r, (m r).poisoned = false) (s : Sys α) (hs : Sys.Reach ⟨m, fun t => (cs t).prog chk⟩ s) (r : Nat)
    (hp : (s.mem r).poisoned = true) : ∃ t x, (s.mem x).poisoned = true ∧ Overran cs s t x := by
  have h := C117_traced chk m hf cs s hs r hp
  clear hp
  induction h with
  | start h => rw [h0] at h; cases h
  | overran h h' => exact ⟨_, _, h, h'⟩
  | infected _ _ _ ih => exact ih

/-- **C117**: a thread that died of poison did so on a header it uses. -/
theorem C117_died (s : Sys α) (hs : Sys.Reach ⟨m, fun t => (cs t).prog chk⟩ s) (t : Nat)
    (hd : s.th t = .died .poisoned) : ∃ o, MayUse (cs t) o ∧ (s.mem o).poisoned = true := by
  obtain ⟨pos, -, -, hsh⟩ := ((ledger_start chk m hf cs).reach hs).th t
  rw [hd] at hsh
  cases hsh with
  | died h => exact absurd rfl h
  | dead h h' => exact ⟨_, h, h'⟩

/-- **C117**: a header that is not poisoned at the beginning, that nobody replaces and in which nobody asks for a bit
beyond its bytes is never poisoned and keeps its length, whatever happens to other headers. -/
theorem C117_spared (s : Sys α) (hs : Sys.Reach ⟨m, fun t => (cs t).prog chk⟩ s) (r : Nat) (h0 : (m r).poisoned = false)
    (hr : ∀ t o, ¬ MayReplace (cs t) r o) (hb : ∀ t j, MayTouch (cs t) r j → j < 8 * (m r).bytes.length) :
    (s.mem r).poisoned = false ∧ (s.mem r).bytes.length = (m r).bytes.length := by
  have hl := (ledger_start chk m hf cs).reach hs
  refine ⟨?_, hl.len r hr⟩
  cases e : (s.mem r).poisoned with
  | false => rfl
  | true =>
    obtain ⟨g, hg⟩ := hl.killer
    rcases (hg r e h0).1 with ⟨-, j, h1, h2⟩ | ⟨o, -, h1, -⟩
    · have := hb _ j h1
      rw [hl.len r hr] at h2
      omega
    · exact absurd h1 (hr _ o)

end

theorem Sys.Reach.tail {α : Type} {s s' s'' : Sys α} (h : Sys.Reach s s') (h' : Sys.Reach s' s'') : Sys.Reach s s'' := by
  induction h' with
  | refl => exact h
  | step t _ hs ih => exact .step t ih hs

theorem setTh_twice {α : Type} (s : Sys α) (m : Store) (t : Nat) (p q : Prog α) :
    (⟨m, s.setTh t p⟩ : Sys α).setTh t q = s.setTh t q := by
  funext x; simp only [Sys.setTh]; split <;> rfl

theorem setTh_here {α : Type} (s : Sys α) (t : Nat) (p : Prog α) : s.setTh t p t = p := by simp [Sys.setTh]

theorem put_twice (m : Store) (x : Nat) (c c' : Cell) : (m.put x c).put x c' = m.put x c' := by
  funext y; simp only [Store.put]; split <;> rfl

theorem put_here (m : Store) (x : Nat) (c : Cell) : m.put x c x = c := by simp [Store.put]

theorem unwind_held {m : Store} {t x : Nat} {b : Bytes} (hn : ∀ x, (m x).owner ≠ some t) :
    (m.put x ⟨b, false, some t⟩).unwind t = m.put x ⟨b, true, none⟩ := by
  funext y
  simp only [Store.unwind, Store.put]
  by_cases e : y = x
  · simp [e]
  · simp [e, hn y]

/-- A thread about to replace `a` by a poisoned header can run until it is dead, leaving `a` empty and poisoned. -/
theorem infect {α : Type} {s : Sys α} {t a o : Nat} {k : Prog α} {b : Bytes}
    (ht : s.th t = (replaceP a o).bind fun _ => k) (ha : s.mem a = ⟨b, false, none⟩) (hao : a ≠ o)
    (ho : (s.mem o).owner = none) (hp : (s.mem o).poisoned = true) (hn : ∀ x, (s.mem x).owner ≠ some t) :
    ∃ s', Sys.Reach s s' ∧ s'.mem a = ⟨[], true, none⟩ ∧ (∀ x, x ≠ a → s'.mem x = s.mem x) ∧
      s'.th t = .died .poisoned ∧ ∀ u, u ≠ t → s'.th u = s.th u := by
  have h1 : ∃ k1, s.th t = .lock a (.store a [] (.lock o k1)) := ⟨_, ht⟩
  obtain ⟨k1, h1⟩ := h1
  let s1 : Sys α := ⟨s.mem.put a ⟨b, false, some t⟩, s.setTh t (.store a [] (.lock o k1))⟩
  let s2 : Sys α := ⟨s.mem.put a ⟨[], false, some t⟩, s.setTh t (.lock o k1)⟩
  let s3 : Sys α := ⟨s.mem.put a ⟨[], false, some t⟩, s.setTh t (.panic .poisoned)⟩
  let s4 : Sys α := ⟨s.mem.put a ⟨[], true, none⟩, s.setTh t (.died .poisoned)⟩
  have e1 : s.step t = some s1 := by simp [Sys.step, h1, ha, s1]
  have e2 : s1.step t = some s2 := by
    simp only [Sys.step, s1, s2, setTh_here, setTh_twice, put_twice, put_here]
  have e3 : s2.step t = some s3 := by
    have : o ≠ a := fun e => hao e.symm
    simp only [Sys.step, s2, s3, setTh_here, setTh_twice, put_ne _ _ this, ho, hp, ne_eq, not_true_eq_false, if_false, if_true]
  have e4 : s3.step t = some s4 := by
    simp only [Sys.step, s3, s4, setTh_here, setTh_twice, unwind_held hn]
  refine ⟨s4, .step t (.step t (.step t (.step t .refl e1) e2) e3) e4, by simp [s4, Store.put], fun x hx => put_ne _ _ hx,
    by simp [s4, Sys.setTh], fun u hu => Sys.setTh_ne _ _ hu⟩

/-- A thread about to read a field beyond the bytes of `a` can run until it is dead, leaving `a` poisoned. -/
theorem overrun {α : Type} {s : Sys α} {t a : Nat} {f : Field} {k : U64 → Prog α} {b : Bytes} (chk : Bool)
    (ht : s.th t = (getP chk a f).bind k) (hf : f.lo ≤ f.hi) (ha : s.mem a = ⟨b, false, none⟩) (hb : 8 * b.length ≤ f.lo)
    (hn : ∀ x, (s.mem x).owner ≠ some t) :
    ∃ s', Sys.Reach s s' ∧ s'.mem a = ⟨b, true, none⟩ ∧ (∀ x, x ≠ a → s'.mem x = s.mem x) ∧
      s'.th t = .died .index ∧ ∀ u, u ≠ t → s'.th u = s.th u := by
  have h0 : ∃ g : Bytes → Byte → Prog α, s.th t = .lock a (.load a fun d => (ofR (index d (f.lo / 8))).bind (g d)) := by
    rw [ht, getP, bitRangeP, inclRange, show f.hi + 1 - f.lo = (f.hi - f.lo) + 1 by omega, List.range'_succ,
      List.foldlM_cons, bitRangeStepP]
    simp only [bind_def, lockM, loadM, bind_lock, bind_load, bind_ret, bind_assoc']
    exact ⟨_, rfl⟩
  obtain ⟨g, h1⟩ := h0
  have h2 : (ofR (index b (f.lo / 8))).bind (g b) = .panic .index := by
    have : b[f.lo / 8]? = none := List.getElem?_eq_none_iff.2 (by omega)
    simp only [index, this]
    rfl
  generalize hk : (fun d : Bytes => (ofR (index d (f.lo / 8))).bind (g d)) = k1 at h1
  replace h2 : k1 b = .panic .index := by rw [← hk]; exact h2
  let s1 : Sys α := ⟨s.mem.put a ⟨b, false, some t⟩, s.setTh t (.load a k1)⟩
  let s2 : Sys α := ⟨s.mem.put a ⟨b, false, some t⟩, s.setTh t (.panic .index)⟩
  let s3 : Sys α := ⟨s.mem.put a ⟨b, true, none⟩, s.setTh t (.died .index)⟩
  have e1 : s.step t = some s1 := by simp [Sys.step, h1, ha, s1]
  have e2 : s1.step t = some s2 := by
    simp only [Sys.step, s1, s2, setTh_here, setTh_twice, put_here, h2]
  have e3 : s2.step t = some s3 := by
    simp only [Sys.step, s2, s3, setTh_here, setTh_twice, unwind_held hn]
  exact ⟨s3, .step t (.step t (.step t .refl e1) e2) e3, by simp [s3, Store.put], fun x hx => put_ne _ _ hx,
    by simp [s3, Sys.setTh], fun u hu => Sys.setTh_ne _ _ hu⟩

/-- Thread `n` reads the field `f` of header `n`; every thread `t` before it calls `t.replace(&(t+1))`. -/
def chainClients (n : Nat) (f : Field) (t : Nat) : Client Unit :=
  if t < n then .replace t (t + 1) (.done ()) else if t = n then .get n f fun _ => .done () else .done ()

/-- **C117, the bound is reached**: one read beyond the bytes of one header can, with a `replace` call per header, leave any
number of headers emptied and poisoned and as many threads dead. -/
theorem C117_chain (chk : Bool) (n : Nat) (f : Field) (hf : f.lo ≤ f.hi) (m : Store)
    (hm : ∀ r, (m r).owner = none ∧ (m r).poisoned = false) (hb : 8 * (m n).bytes.length ≤ f.lo) :
    ∃ s, Sys.Reach ⟨m, fun t => (chainClients n f t).prog chk⟩ s ∧ s.Final ∧
      (∀ r, r ≤ n → (s.mem r).poisoned = true) ∧ (∀ r, r < n → (s.mem r).bytes = [] ∧ s.th r = .died .poisoned) ∧
      s.th n = .died .index := by
  have key : ∀ i, i ≤ n → ∃ s : Sys Unit, Sys.Reach ⟨m, fun t => (chainClients n f t).prog chk⟩ s ∧
      (∀ r, (s.mem r).owner = none) ∧
      (∀ r, r < n - i → s.mem r = m r ∧ s.th r = (chainClients n f r).prog chk) ∧
      (∀ r, n - i ≤ r → r ≤ n → (s.mem r).poisoned = true) ∧
      (∀ r, n - i ≤ r → r < n → (s.mem r).bytes = [] ∧ s.th r = .died .poisoned) ∧
      s.th n = .died .index ∧ ∀ t, n < t → s.th t = .ret () := by
    intro i
    induction i with
    | zero =>
      intro _
      obtain ⟨s', h1, h2, h3, h4, h5⟩ := overrun (s := ⟨m, fun t => (chainClients n f t).prog chk⟩) (t := n) (a := n)
        (f := f) (b := (m n).bytes) (k := fun _ => .ret ()) chk (by simp [chainClients, Client.prog]) hf
        (by obtain ⟨a, b⟩ := hm n; cases e : m n; simp_all) hb (fun x => by simp [(hm x).1])
      refine ⟨s', h1, fun r => ?_, fun r hr => ?_, fun r a b => ?_, fun r a b => by omega, h4, fun t ht => ?_⟩
      · by_cases e : r = n
        · rw [e, h2]
        · rw [h3 r e]; exact (hm r).1
      · exact ⟨h3 r (by omega), h5 r (by omega)⟩
      · obtain rfl : r = n := by omega
        rw [h2]
      · rw [h5 t (by omega)]
        simp [chainClients, show ¬ t < n by omega, show t ≠ n by omega, Client.prog]
    | succ i ih =>
      intro hi
      obtain ⟨s, h1, h2, h3, h4, h5, h6, h7⟩ := ih (by omega)
      obtain ⟨hma, hta⟩ := h3 (n - (i + 1)) (by omega)
      obtain ⟨s', g1, g2, g3, g4, g5⟩ := infect (s := s) (t := n - (i + 1)) (a := n - (i + 1)) (o := n - (i + 1) + 1)
        (k := .ret ()) (b := (m (n - (i + 1))).bytes)
        (by rw [hta]; simp [chainClients, show n - (i + 1) < n by omega, Client.prog])
        (by rw [hma]; obtain ⟨a, b⟩ := hm (n - (i + 1)); cases e : m (n - (i + 1)); simp_all) (by omega) (h2 _)
        (h4 _ (by omega) (by omega)) (fun x => by simp [h2 x])
      refine ⟨s', h1.tail g1, fun r => ?_, fun r hr => ?_, fun r a b => ?_, fun r a b => ?_, ?_, fun t ht => ?_⟩
      · by_cases e : r = n - (i + 1)
        · rw [e, g2]
        · rw [g3 r e]; exact h2 r
      · rw [g3 r (by omega), g5 r (by omega)]
        exact h3 r (by omega)
      · by_cases e : r = n - (i + 1)
        · rw [e, g2]
        · rw [g3 r e]; exact h4 r (by omega) b
      · by_cases e : r = n - (i + 1)
        · rw [e]; exact ⟨by rw [g2], g4⟩
        · rw [g3 r e, g5 r e]; exact h5 r (by omega) b
      · rw [g5 n (by omega)]; exact h6
      · rw [g5 t (by omega)]; exact h7 t ht
  obtain ⟨s, h1, -, -, h4, h5, h6, h7⟩ := key n (Nat.le_refl n)
  refine ⟨s, h1, fun t => ?_, fun r hr => h4 r (by omega) hr, fun r hr => h5 r (by omega) hr, h6⟩
  rcases Nat.lt_trichotomy t n with h | h | h
  · rw [(h5 t (by omega) h).2]; trivial
  · rw [h, h6]; trivial
  · rw [h7 t h]; trivial

/-- Two Ethernet headers and an empty one: the etype of header 2 is read, 1 is replaced by 2 and 0 by 1. -/
def taintStore : Store := fun r => ⟨if r < 2 then Ether.dflt else [], false, none⟩

/-- A thread that asks for a poisoned header is shut out. -/
example (s' : Sys Bytes) (h : Sys.Reach ⟨fun _ => ⟨[], true, none⟩, fun _ => (.toVec 7 .done : Client Bytes).prog false⟩ s') :
    s'.th 0 = .lock 7 (.load 7 fun d => .unlock 7 (.ret d)) ∨ s'.th 0 = .panic .poisoned ∨ s'.th 0 = .died .poisoned :=
  (C117_shut_out false (fun _ => ⟨[], true, none⟩) (fun _ => rfl) (fun _ => .toVec 7 .done) _ s' .refl h 7 0 _ rfl rfl).2

example : ∃ s, Sys.Reach ⟨taintStore, fun t => (chainClients 2 Ether.etype t).prog false⟩ s ∧ s.Final ∧
    (∀ r, r ≤ 2 → (s.mem r).poisoned = true) ∧ (∀ r, r < 2 → (s.mem r).bytes = [] ∧ s.th r = .died .poisoned) ∧
    s.th 2 = .died .index :=
  C117_chain false 2 Ether.etype (by decide) taintStore (fun _ => ⟨rfl, rfl⟩) (by decide)

/-- The theorems above on such a state: the poison of header 0 goes back to the read of header 2, nothing will change any more,
and each of the three headers has its own dead thread. -/
example : ∃ s, Sys.Reach ⟨taintStore, fun t => (chainClients 2 Ether.etype t).prog false⟩ s ∧ (taintStore 0).poisoned = false ∧
    Traced taintStore (chainClients 2 Ether.etype) s 0 ∧ (∃ t x, (s.mem x).poisoned = true ∧ Overran (chainClients 2 Ether.etype) s t x) ∧
    (∀ s', Sys.Reach s s' → s'.mem 0 = s.mem 0) ∧ (∃ o, MayUse (chainClients 2 Ether.etype 0) o ∧ (s.mem o).poisoned = true) ∧
    ∃ g : Nat → Nat, g 0 ≠ g 1 ∧ g 1 ≠ g 2 ∧ g 0 ≠ g 2 := by
  obtain ⟨s, h1, -, h3, h4, -⟩ := C117_chain false 2 Ether.etype (by decide) taintStore (fun _ => ⟨rfl, rfl⟩) (by decide)
  obtain ⟨g, hg⟩ := C117_cause false taintStore (fun _ => rfl) _ s h1
  refine ⟨s, h1, rfl, C117_traced false taintStore (fun _ => rfl) _ s h1 0 (h3 0 (by omega)),
    C117_origin false taintStore (fun _ => rfl) _ (fun _ => rfl) s h1 0 (h3 0 (by omega)),
    fun s' h' => (C117_frozen false taintStore (fun _ => rfl) _ s s' h1 h' 0 (h3 0 (by omega))).1,
    C117_died false taintStore (fun _ => rfl) _ s h1 0 (h4 0 (by omega)).2, g, ?_, ?_, ?_⟩
  · exact fun e => by simpa using (hg 0 (h3 0 (by omega)) rfl).2 1 (h3 1 (by omega)) rfl e
  · exact fun e => by simpa using (hg 1 (h3 1 (by omega)) rfl).2 2 (h3 2 (by omega)) rfl e
  · exact fun e => by simpa using (hg 0 (h3 0 (by omega)) rfl).2 2 (h3 2 (by omega)) rfl e

/-- Header 3 is not touched by these threads: it is spared in every execution. -/
example (s : Sys Unit) (hs : Sys.Reach ⟨taintStore, fun t => (chainClients 2 Ether.etype t).prog false⟩ s) :
    (s.mem 3).poisoned = false :=
  (C117_spared false taintStore (fun _ => rfl) _ s hs 3 rfl
    (fun t o h => by
      unfold chainClients at h
      split at h
      · next ht => simp [MayReplace] at h; omega
      · split at h <;> simp [MayReplace] at h)
    (fun t j h => by
      unfold chainClients at h
      split at h
      · simp [MayTouch] at h
      · split at h <;> simp [MayTouch] at h)).1

/-- If thread 0 makes its call before the others, it returns and header 0 is not poisoned: the order decides. -/
example : ∃ s, Sys.Reach ⟨taintStore, fun t => (chainClients 2 Ether.etype t).prog false⟩ s ∧
    (s.mem 0).poisoned = false ∧ (s.mem 0).bytes = Ether.dflt ∧ s.th 0 = .ret () := by
  let s0 : Sys Unit := ⟨taintStore, fun t => (chainClients 2 Ether.etype t).prog false⟩
  have go : ∀ n, ∀ s : Sys Unit, Sys.Reach s0 s → Sys.Reach s0 (Nat.rec s (fun _ x => (x.step 0).getD x) n) := by
    intro n s hs
    induction n with
    | zero => exact hs
    | succ n ih =>
      show Sys.Reach s0 ((Sys.step 0 _).getD _)
      cases e : Sys.step 0 (Nat.rec s (fun _ x => (x.step 0).getD x) n : Sys Unit) with
      | none => exact ih
      | some s' => exact .step 0 ih e
  exact ⟨_, go 8 s0 .refl, by decide +kernel, by decide +kernel, rfl⟩

end PacketRs
