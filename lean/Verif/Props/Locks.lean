import Verif.Spec.Locks
import Verif.Lemmas.Prog
import Verif.Props.Conc
/-!
# C96: how many times each call locks
-/
namespace PacketRs
open Spec
variable {α : Type}

/-- A way through a program to the result `a` with `n` locks. -/
inductive Path : Prog α → α → Nat → Prop
  | ret (a : α) : Path (.ret a) a 0
  | lock {r : Nat} {k : Prog α} {a : α} {n : Nat} : Path k a n → Path (.lock r k) a (n + 1)
  | load {r : Nat} {k : Bytes → Prog α} {a : α} {n : Nat} (d : Bytes) : Path (k d) a n → Path (.load r k) a n
  | store {r : Nat} {b : Bytes} {k : Prog α} {a : α} {n : Nat} : Path k a n → Path (.store r b k) a n
  | unlock {r : Nat} {k : Prog α} {a : α} {n : Nat} : Path k a n → Path (.unlock r k) a n

theorem Path.of_bind {β : Type} (p : Prog α) (f : α → Prog β) {b : β} {n : Nat} (h : Path (p.bind f) b n) :
    ∃ a n1 n2, Path p a n1 ∧ Path (f a) b n2 ∧ n = n1 + n2 := by
  induction p generalizing n with
  | ret a => exact ⟨a, 0, n, .ret a, h, by omega⟩
  | panic e => cases h
  | died e => cases h
  | lock r k ih =>
    rcases h with _ | h
    obtain ⟨a, n1, n2, h1, h2, rfl⟩ := ih h
    exact ⟨a, n1 + 1, n2, .lock h1, h2, by omega⟩
  | load r k ih =>
    rcases h with _ | _ | ⟨d, h⟩
    obtain ⟨a, n1, n2, h1, h2, rfl⟩ := ih d h
    exact ⟨a, n1, n2, .load d h1, h2, rfl⟩
  | store r c k ih =>
    rcases h with _ | _ | _ | h
    obtain ⟨a, n1, n2, h1, h2, rfl⟩ := ih h
    exact ⟨a, n1, n2, .store h1, h2, rfl⟩
  | unlock r k ih =>
    rcases h with _ | _ | _ | _ | h
    obtain ⟨a, n1, n2, h1, h2, rfl⟩ := ih h
    exact ⟨a, n1, n2, .unlock h1, h2, rfl⟩

theorem Path.of_bind' {β : Type} {p : Prog α} {f : α → Prog β} {b : β} {n : Nat} (h : Path (p >>= f) b n) :
    ∃ a n1 n2, Path p a n1 ∧ Path (f a) b n2 ∧ n = n1 + n2 := Path.of_bind p f h

theorem Path.of_ofR {x : R α} {a : α} {n : Nat} (h : Path (Prog.ofR x) a n) : x = .ok a ∧ n = 0 := by
  rcases x with e | b
  · cases h
  · cases h; exact ⟨rfl, rfl⟩

theorem Path.of_foldlM {β : Type} (f : β → α → Prog β) (c : Nat) (hf : ∀ b a b' n, Path (f b a) b' n → n = c) (l : List α)
    (b : β) {b' : β} {n : Nat} (h : Path (l.foldlM f b) b' n) : n = c * l.length := by
  induction l generalizing b n with
  | nil => cases h; simp
  | cons a l ih =>
    rw [List.foldlM_cons] at h
    obtain ⟨b1, n1, n2, h1, h2, rfl⟩ := h.of_bind'
    rw [hf _ _ _ _ h1, ih _ h2, List.length_cons, Nat.mul_add, Nat.mul_one, Nat.add_comm]

theorem path_lockM {r n : Nat} {u : Unit} (h : Path (Prog.lockM r) u n) : n = 1 := by
  cases h with
  | lock h => cases h; rfl

theorem path_loadM {r n : Nat} {d : Bytes} (h : Path (Prog.loadM r) d n) : n = 0 := by
  cases h with
  | load _ h => cases h; rfl

theorem path_storeM {r n : Nat} {b : Bytes} {u : Unit} (h : Path (Prog.storeM r b) u n) : n = 0 := by
  cases h with
  | store h => cases h; rfl

theorem path_unlockM {r n : Nat} {u : Unit} (h : Path (Prog.unlockM r) u n) : n = 0 := by
  cases h with
  | unlock h => cases h; rfl

theorem path_bitRangeStepP {r : Nat} {v v' : U64} {i n : Nat} (h : Path (bitRangeStepP r v i) v' n) : n = 1 := by
  unfold bitRangeStepP at h
  obtain ⟨_, n1, n2, h1, h2, rfl⟩ := h.of_bind'
  obtain ⟨_, n3, n4, h3, h4, rfl⟩ := h2.of_bind'
  obtain ⟨_, n5, n6, h5, h6, rfl⟩ := h4.of_bind'
  obtain ⟨_, n7, n8, h7, h8, rfl⟩ := h6.of_bind'
  obtain rfl := path_lockM h1
  obtain rfl := path_loadM h3
  obtain ⟨-, rfl⟩ := h5.of_ofR
  obtain rfl := path_unlockM h7
  cases h8
  rfl

theorem path_bitRangeP {chk : Bool} {r msb lsb n : Nat} {v : U64} (h : Path (bitRangeP chk r msb lsb) v n) :
    n = msb + 1 - lsb := by
  unfold bitRangeP at h
  obtain ⟨_, n1, n2, h1, h2, rfl⟩ := h.of_bind'
  obtain ⟨-, rfl⟩ := h2.of_ofR
  rw [Path.of_foldlM _ 1 (fun _ _ _ _ h => path_bitRangeStepP h) _ _ h1]
  simp [inclRange]

theorem path_setBitStepP {r : Nat} {v v' : U64} {i n : Nat} (h : Path (setBitStepP r v i) v' n) : n = 1 := by
  unfold setBitStepP at h
  obtain ⟨_, _, _, h1, k1, rfl⟩ := h.of_bind'
  obtain ⟨_, _, _, h2, k2, rfl⟩ := k1.of_bind'
  obtain ⟨_, _, _, h3, k3, rfl⟩ := k2.of_bind'
  obtain ⟨_, _, _, h4, k4, rfl⟩ := k3.of_bind'
  obtain ⟨_, _, _, h5, k5, rfl⟩ := k4.of_bind'
  obtain ⟨_, _, _, h6, k6, rfl⟩ := k5.of_bind'
  obtain ⟨_, _, _, h7, k7, rfl⟩ := k6.of_bind'
  obtain ⟨_, _, _, h8, k8, rfl⟩ := k7.of_bind'
  obtain ⟨-, rfl⟩ := h3.of_ofR
  obtain ⟨-, rfl⟩ := h6.of_ofR
  obtain rfl := path_lockM h1
  obtain rfl := path_loadM h2
  obtain rfl := path_storeM h4
  obtain rfl := path_loadM h5
  obtain rfl := path_storeM h7
  obtain rfl := path_unlockM h8
  cases k8
  rfl

theorem path_setBitRangeP {r msb lsb n : Nat} {v : U64} {u : Unit} (h : Path (setBitRangeP r msb lsb v) u n) :
    n = msb + 1 - lsb := by
  unfold setBitRangeP at h
  obtain ⟨_, n1, n2, h1, h2, rfl⟩ := h.of_bind'
  cases h2
  rw [Path.of_foldlM _ 1 (fun _ _ _ _ h => path_setBitStepP h) _ _ h1]
  simp [inclRange]

theorem path_bytesP {chk : Bool} {r msb lsb n : Nat} {v : Bytes} (hle : lsb ≤ msb) (hm : msb < 2 ^ 64 - 1)
    (h : Path (bytesP chk r msb lsb) v n) : n = msb + 1 - lsb := by
  unfold bytesP at h
  obtain ⟨w, n1, n2, h1, h2, rfl⟩ := h.of_bind'
  obtain ⟨hw, rfl⟩ := h1.of_ofR
  simp only [usizeSub_ok chk msb lsb hle, usizeAdd_ok chk (msb - lsb) 1 (by omega), bind, Except.bind, Except.ok.injEq] at hw
  subst hw
  split at h2
  · cases h2
  · rename_i h8
    rw [Path.of_foldlM _ 8 (fun b i b' n h => ?_) _ _ h2]
    · simp only [inclRangeStep8, List.length_range']
      omega
    · obtain ⟨_, n1, n2, h1, h2, rfl⟩ := h.of_bind'
      cases h2
      rw [path_bitRangeP h1]
      omega

theorem path_setBytesP {chk : Bool} {r msb lsb n : Nat} {v : Bytes} {u : Unit} (hle : lsb ≤ msb) (hm : msb < 2 ^ 64 - 1)
    (h : Path (setBytesP chk r msb lsb v) u n) : n = 8 * v.length := by
  unfold setBytesP at h
  obtain ⟨w, n1, n2, h1, h2, rfl⟩ := h.of_bind'
  obtain ⟨hw, rfl⟩ := h1.of_ofR
  simp only [usizeSub_ok chk msb lsb hle, usizeAdd_ok chk (msb - lsb) 1 (by omega), bind, Except.bind, Except.ok.injEq] at hw
  subst hw
  split at h2
  · cases h2
  · rename_i h8
    obtain ⟨_, n1, n2, h1, h2', rfl⟩ := h2.of_bind'
    cases h2'
    rw [Path.of_foldlM _ 8 (fun b i b' n h => ?_) _ _ h1]
    · simp only [inclRangeStep8, List.length_range']
      omega
    · obtain ⟨_, n1, n2, h1, h2, rfl⟩ := h.of_bind'
      obtain ⟨_, n3, n4, h3, h4, rfl⟩ := h2.of_bind'
      cases h4
      obtain ⟨-, rfl⟩ := h1.of_ofR
      rw [path_setBitRangeP h3]
      omega

theorem path_toVecP {r n : Nat} {v : Bytes} (h : Path (toVecP r) v n) : n = 1 := by
  unfold toVecP at h
  obtain ⟨_, _, _, h1, k1, rfl⟩ := h.of_bind'
  obtain ⟨_, _, _, h2, k2, rfl⟩ := k1.of_bind'
  obtain ⟨_, _, _, h3, k3, rfl⟩ := k2.of_bind'
  obtain rfl := path_lockM h1
  obtain rfl := path_loadM h2
  obtain rfl := path_unlockM h3
  cases k3
  rfl

theorem path_replaceP {r o n : Nat} {u : Unit} (h : Path (replaceP r o) u n) : n = 2 := by
  unfold replaceP at h
  obtain ⟨_, _, _, h1, k1, rfl⟩ := h.of_bind'
  obtain ⟨_, _, _, h2, k2, rfl⟩ := k1.of_bind'
  obtain ⟨_, _, _, h3, k3, rfl⟩ := k2.of_bind'
  obtain ⟨_, _, _, h4, k4, rfl⟩ := k3.of_bind'
  obtain ⟨_, _, _, h5, k5, rfl⟩ := k4.of_bind'
  obtain ⟨_, _, _, h6, k6, rfl⟩ := k5.of_bind'
  obtain ⟨_, _, _, h7, h8, rfl⟩ := k6.of_bind'
  obtain rfl := path_lockM h1
  obtain rfl := path_storeM h2
  obtain rfl := path_lockM h3
  obtain rfl := path_loadM h4
  obtain rfl := path_loadM h5
  obtain rfl := path_storeM h6
  obtain rfl := path_unlockM h7
  obtain rfl := path_unlockM h8
  rfl

theorem locked_of_path {chk : Bool} {c : Client α} (hr : Ranges c) {a : α} {n : Nat} (h : Path (c.prog chk) a n) : Locked c a n := by
  induction c generalizing n with
  | done b => cases h; exact .done _
  | get r f k ih =>
    obtain ⟨v, n1, n2, h1, h2, rfl⟩ := Path.of_bind _ _ h
    cases hr with | get hr =>
    rw [path_bitRangeP h1]
    exact .get v (ih v (hr v) h2)
  | set r f v k ih =>
    obtain ⟨_, n1, n2, h1, h2, rfl⟩ := Path.of_bind _ _ h
    cases hr with | set hr =>
    rw [path_setBitRangeP h1]
    exact .set (ih hr h2)
  | bytes r msb lsb k ih =>
    obtain ⟨v, n1, n2, h1, h2, rfl⟩ := Path.of_bind _ _ h
    cases hr with | bytes hle hm hr =>
    rw [path_bytesP hle hm h1]
    exact .bytes v (ih v (hr v) h2)
  | setBytes r msb lsb v k ih =>
    obtain ⟨_, n1, n2, h1, h2, rfl⟩ := Path.of_bind _ _ h
    cases hr with | setBytes hle hm hr =>
    rw [path_setBytesP hle hm h1]
    exact .setBytes (ih hr h2)
  | toVec r k ih =>
    obtain ⟨v, n1, n2, h1, h2, rfl⟩ := Path.of_bind _ _ h
    cases hr with | toVec hr =>
    rw [path_toVecP h1]
    exact .toVec v (ih v (hr v) h2)
  | replace r o k ih =>
    obtain ⟨_, n1, n2, h1, h2, rfl⟩ := Path.of_bind _ _ h
    cases hr with | replace hr =>
    rw [path_replaceP h1]
    exact .replace (ih hr h2)

/-- A step and thread `t`: it either leaves the thread's owned mutexes and shortens no path, or takes one mutex. -/
theorem path_step {t u : Nat} {s s' : Sys α} (hs : s.step u = some s') {a : α} {m : Nat} (h : Path (s'.th t) a m) :
    ((∀ r, (s.mem r).owner ≠ some t → (s'.mem r).owner ≠ some t) ∧ Path (s.th t) a m) ∨
    ((∃ r, (s.mem r).owner ≠ some t ∧ (s'.mem r).owner = some t) ∧ Path (s.th t) a (m + 1)) := by
  unfold Sys.step at hs
  by_cases hu : u = t
  · subst hu
    split at hs
    · cases hs
    · cases hs
    · cases hs
      simp only [Sys.setTh, if_true] at h
      cases h
    · rename_i r k hk
      split at hs
      · cases hs
      · split at hs
        · cases hs
          simp only [Sys.setTh, if_true] at h
          cases h
        · rename_i hfree _
          cases hs
          simp only [Sys.setTh, if_true] at h
          refine .inr ⟨⟨r, by simp at hfree; simp [hfree], by simp [Store.put]⟩, ?_⟩
          rw [hk]; exact .lock h
    · rename_i r k hk
      cases hs
      simp only [Sys.setTh, if_true] at h
      refine .inl ⟨fun r h => h, ?_⟩
      rw [hk]; exact .load _ h
    · rename_i r b k hk
      cases hs
      simp only [Sys.setTh, if_true] at h
      refine .inl ⟨fun r' h' => ?_, ?_⟩
      · simp only [Store.put]; split
        · rename_i e; subst e; exact h'
        · exact h'
      · rw [hk]; exact .store h
    · rename_i r k hk
      cases hs
      simp only [Sys.setTh, if_true] at h
      refine .inl ⟨fun r' h' => ?_, ?_⟩
      · simp only [Store.put]; split
        · simp
        · exact h'
      · rw [hk]; exact .unlock h
  · have hth : ∀ p : Prog α, s.setTh u p t = s.th t := fun p => by simp [Sys.setTh, Ne.symm hu]
    have hput : ∀ (r : Nat) (c : Cell), (c.owner = (s.mem r).owner ∨ c.owner = none ∨ c.owner = some u) →
        ∀ r', (s.mem r').owner ≠ some t → ((s.mem.put r c) r').owner ≠ some t := by
      intro r c hc r' h'
      simp only [Store.put]
      split
      · rename_i e; subst e
        rcases hc with hc | hc | hc <;> rw [hc]
        · exact h'
        · simp
        · simp [hu]
      · exact h'
    refine .inl ?_
    split at hs
    · cases hs
    · cases hs
    · cases hs
      refine ⟨fun r h' => ?_, by rw [← hth]; exact h⟩
      simp only [Store.unwind]
      split
      · simp
      · exact h'
    · split at hs
      · cases hs
      · split at hs
        · cases hs
          exact ⟨fun r h => h, by rw [← hth]; exact h⟩
        · cases hs
          exact ⟨hput _ _ (by simp), by rw [← hth]; exact h⟩
    · cases hs
      exact ⟨fun r h => h, by rw [← hth]; exact h⟩
    · cases hs
      exact ⟨hput _ _ (by simp), by rw [← hth]; exact h⟩
    · cases hs
      exact ⟨hput _ _ (by simp), by rw [← hth]; exact h⟩

theorem path_acquires {t : Nat} {s s' : Sys α} {n : Nat} (h : Acquires t s s' n) {a : α} {m : Nat} (hp : Path (s'.th t) a m) :
    Path (s.th t) a (n + m) := by
  induction h generalizing m with
  | refl => rw [Nat.zero_add]; exact hp
  | other u _ hs ho ih =>
    rcases path_step hs hp with ⟨_, h⟩ | ⟨⟨r, h1, h2⟩, _⟩
    · exact ih h
    · exact absurd h2 (ho r h1)
  | @take _ _ n u r _ hs h1 h2 ih =>
    rcases path_step hs hp with ⟨h, _⟩ | ⟨_, h⟩
    · exact absurd h2 (h r h1)
    · rw [show n + 1 + m = n + (m + 1) by omega]; exact ih h

/-- **C96.** Whatever the other threads do: a thread that has returned has taken mutexes once per bit it read or wrote with getters,
setters, `bytes` and `set_bytes`, once per `to_vec` and twice per `replace`. -/
theorem C96_locks (chk : Bool) (t : Nat) (c : Client α) (hr : Ranges c) (m : Store) (th : Nat → Prog α) (ht : th t = c.prog chk)
    (s : Sys α) (n : Nat) (h : Acquires t ⟨m, th⟩ s n) (a : α) (ha : s.th t = .ret a) : Locked c a n := by
  refine locked_of_path (chk := chk) hr ?_
  have := path_acquires h (m := 0) (a := a) (by rw [ha]; exact .ret a)
  rwa [show (⟨m, th⟩ : Sys α).th t = c.prog chk from ht] at this

/-- **C96** (every schedule can be counted): so the theorem speaks of all of them. -/
theorem C96_counted (t : Nat) {s s' : Sys α} (h : Sys.Reach s s') : ∃ n, Acquires t s s' n := by
  induction h with
  | refl => exact ⟨0, .refl⟩
  | @step s1 s2 u _ hs ih =>
    obtain ⟨n, hn⟩ := ih
    by_cases hex : ∃ r, (s1.mem r).owner ≠ some t ∧ (s2.mem r).owner = some t
    · obtain ⟨r, h1, h2⟩ := hex
      exact ⟨n + 1, .take u r hn hs h1 h2⟩
    · exact ⟨n, .other u hn hs fun r h1 h2 => hex ⟨r, h1, h2⟩⟩

theorem locked_done {a b : α} {n : Nat} (h : Locked (.done b) a n) : n = 0 := by
  generalize hc : Client.done b = c at h
  cases h <;> first | rfl | cases hc

theorem locked_get {r : Nat} {f : Field} {k : U64 → Client α} {a : α} {n : Nat} (h : Locked (.get r f k) a n) :
    ∃ v n', Locked (k v) a n' ∧ n = f.hi + 1 - f.lo + n' := by
  generalize hc : Client.get r f k = c at h
  cases h <;> cases hc
  exact ⟨_, _, ‹_›, rfl⟩

theorem locked_set {r : Nat} {f : Field} {v : U64} {k : Client α} {a : α} {n : Nat} (h : Locked (.set r f v k) a n) :
    ∃ n', Locked k a n' ∧ n = f.hi + 1 - f.lo + n' := by
  generalize hc : Client.set r f v k = c at h
  cases h <;> cases hc
  exact ⟨_, ‹_›, rfl⟩

/-- **C96** (a getter): one mutex operation per bit. -/
theorem C96_getter (chk : Bool) (t r : Nat) (f : Field) (m : Store) (th : Nat → Prog U64)
    (ht : th t = (Client.get r f .done).prog chk) (s : Sys U64) (n : Nat) (h : Acquires t ⟨m, th⟩ s n) (v : U64)
    (hv : s.th t = .ret v) (hle : f.lo ≤ f.hi) : n = f.width := by
  obtain ⟨v', n', h', rfl⟩ := locked_get (C96_locks chk t _ (.get fun _ => .done _) m th ht s n h v hv)
  rw [locked_done h', Field.width]
  omega

/-- **C96** (a setter). -/
theorem C96_setter (chk : Bool) (t r : Nat) (f : Field) (v : U64) (m : Store) (th : Nat → Prog Unit)
    (ht : th t = (Client.set r f v (.done ())).prog chk) (s : Sys Unit) (n : Nat) (h : Acquires t ⟨m, th⟩ s n)
    (hv : s.th t = .ret ()) (hle : f.lo ≤ f.hi) : n = f.width := by
  obtain ⟨n', h', rfl⟩ := locked_set (C96_locks chk t _ (.set (.done _)) m th ht s n h () hv)
  rw [locked_done h', Field.width]
  omega

/-- The hypotheses are met: a schedule in which a getter of `ttl` races with a setter and reads half of the new value; it took the
mutex eight times. -/
example : ∃ s, Acquires 0 ⟨fun _ => ⟨List.replicate 20 0#8, false, none⟩, fun t => (match t with
      | 0 => Call.get 0 IPv4.ttl
      | 1 => Call.set 0 IPv4.ttl 0xFF#64
      | _ => Call.rest).client.prog true⟩ s 8 ∧ s.th 0 = .ret (some 0x0F#64) := by
  have h := C52_exactly (L := fun _ => 20) true (fun _ => ⟨List.replicate 20 0#8, false, none⟩)
    (fun r => ⟨rfl, rfl, rfl⟩) 0 IPv4.ttl IPv4.ttl 0xFF#64 (by decide) (by decide) (by decide) _ rfl 0x0F#64
  obtain ⟨s, hr, -, hs⟩ := h.2 ⟨68, by decide, by decide, by decide +kernel⟩
  obtain ⟨n, hn⟩ := C96_counted 0 hr
  obtain ⟨v', n', h', e⟩ := locked_get (C96_locks true 0 _ (.get fun _ => .done _) _ _ rfl s n hn _ hs)
  rw [locked_done h'] at e
  obtain rfl : n = 8 := e
  exact ⟨s, hn, hs⟩

end PacketRs
