import Verif.Lemmas.Origin
/-!
# Reachable worlds: invariants, frames, results of calls
-/
namespace PacketRs
open Spec
open Prog hiding bind

namespace World
variable {chk : Bool} {w : World}

theorem Reachable.free (h : w.Reachable chk) : AllFree w.mem := by
  obtain ⟨ops, h⟩ := h
  obtain ⟨φ, A, ht⟩ := tracks_of_runOps h
  exact ht.free

theorem Reachable.hdr_lt (h : w.Reachable chk) {x : Place} {a : HRef} (hx : w.resolve x = .ok a) : a.ref < w.next := by
  obtain ⟨ops, h⟩ := h
  obtain ⟨φ, A, ht⟩ := tracks_of_runOps h
  rcases ht.resolve x with ⟨b, -, hr, hA⟩ | ⟨-, e, hr⟩
  · rw [hr] at hx; cases hx; exact ht.lt _ _ hA
  · rw [hr] at hx; cases hx

theorem Reachable.pkt_lt (h : w.Reachable chk) {p : Nat} {q : PRef} (hx : w.pkt? p = some q) :
    ∀ a ∈ q.hdrs, a.ref < w.next := by
  obtain ⟨ops, h⟩ := h
  obtain ⟨φ, A, ht⟩ := tracks_of_runOps h
  obtain ⟨l, hl, hq⟩ := ht.pkt_some hx
  intro a ha
  rw [hq] at ha
  obtain ⟨b, hb, rfl⟩ := List.mem_map.1 ha
  exact ht.lt _ _ (ht.psA l (join_mem hl) b hb)

theorem runOps_append (chk : Bool) (w : World) (a b : List Op) :
    w.runOps chk (a ++ b) = (w.runOps chk a).bind fun w' => w'.runOps chk b := by
  induction a generalizing w with
  | nil => rfl
  | cons o os ih =>
    simp only [List.cons_append, runOps]
    split
    · rfl
    · exact ih _

theorem Reachable.runOps {w' : World} (h : w.Reachable chk) {ops : List Op} (hr : w.runOps chk ops = some w') :
    w'.Reachable chk := by
  obtain ⟨os, h⟩ := h
  exact ⟨os ++ ops, by rw [runOps_append, h]; exact hr⟩

theorem runOps_one (chk : Bool) (w : World) (op : Op) (hd : (w.step chk op).2 ≠ .error .deadlock) :
    w.runOps chk [op] = some (w.step chk op).1 := by
  simp only [World.runOps]

theorem Reachable.step (h : w.Reachable chk) {op : Op} (hd : (w.step chk op).2 ≠ .error .deadlock) :
    (w.step chk op).1.Reachable chk := h.runOps (runOps_one chk w op hd)

/-- `to_vec` of a live packet. -/
theorem serialize_eq (hf : AllFree w.mem) {p : Nat} {q : PRef} (hq : w.pkt? p = some q) :
    w.serialize chk p = if q.hdrs.any (fun h => (w.mem h.ref).poisoned) then .error .poisoned
      else .ok (.bytes (q.view w.mem).to_vec) := by
  simp only [serialize, World.step, hq, access, run_bind, run_pktToVecP hf]
  by_cases h : (q.hdrs.any fun h => (w.mem h.ref).poisoned) = true
  · simp only [if_pos h]
  · simp only [if_neg h, run]

/-- It depends only on the storage of its headers. -/
theorem serialize_congr {w' : World} (hf : AllFree w.mem) (hf' : AllFree w'.mem) {p p' : Nat} {q : PRef}
    (hq : w.pkt? p = some q) (hq' : w'.pkt? p' = some q) (hm : ∀ a ∈ q.hdrs, w'.mem a.ref = w.mem a.ref) :
    w'.serialize chk p' = w.serialize chk p := by
  rw [serialize_eq hf hq, serialize_eq hf' hq']
  have h1 : q.hdrs.any (fun h => (w'.mem h.ref).poisoned) = q.hdrs.any (fun h => (w.mem h.ref).poisoned) := by
    rw [Bool.eq_iff_iff]
    simp only [List.any_eq_true]
    constructor <;> rintro ⟨x, hx, hp⟩ <;> refine ⟨x, hx, ?_⟩
    · rw [← hm x hx]; exact hp
    · rw [hm x hx]; exact hp
  have h2 : q.view w'.mem = q.view w.mem := by
    simp only [PRef.view]
    congr 1
    exact List.map_congr_left fun a ha => by rw [hm a ha]
  rw [h1, h2]

theorem pkt?_append {ps : List (Option PRef)} {c : Nat} {q x} (h : (ps[c]?).join = some q) :
    ((ps ++ [x])[c]?).join = some q := by
  cases e : ps[c]? with
  | none => rw [e] at h; cases h
  | some y =>
    have hlt : c < ps.length := by rw [List.getElem?_eq_some_iff] at e; exact e.1
    rw [List.getElem?_append_left hlt, e]; rw [e] at h; exact h

theorem pkt?_set {ps : List (Option PRef)} {c p : Nat} {x} (h : c ≠ p) :
    ((ps.set p x)[c]?).join = (ps[c]?).join := by
  rw [List.getElem?_set_ne (Ne.symm h)]

/-- A call that does not reshape the packet `c` leaves the variable as it is. -/
theorem step_pkt (chk : Bool) (w : World) (op : Op) {c : Nat} {q : PRef} (hr : reshapes c op = false)
    (hq : w.pkt? c = some q) : (w.step chk op).1.pkt? c = some q := by
  cases ht : target op with
  | some x =>
    rcases step_target chk w op x ht with ⟨e, he, -⟩ | ⟨a, o, -, -, he⟩ <;> rw [he] <;> exact hq
  | none =>
    cases op <;> simp only [target, reduceCtorEq] at ht <;> simp only [reshapes, decide_eq_false_iff_not, not_or] at hr
    case new T => exact hq
    case ofVec T b => exact hq
    case adopt a =>
      simp only [World.step, pkt?, (allocAll_props a.hdrs w).2.2.1]
      exact pkt?_append hq
    case clone x => simp only [World.step]; split <;> exact hq
    case pktNew => exact pkt?_append hq
    case push p h =>
      simp only [World.step]
      repeat' split
      · exact hq
      · exact hq
      · simp only [pkt?]; rw [pkt?_set hr]; exact hq
    case insert p h =>
      simp only [World.step]
      repeat' split
      · exact hq
      · exact hq
      · simp only [pkt?]; rw [pkt?_set hr]; exact hq
    case pop p =>
      simp only [World.step, updPkt]
      split
      · exact hq
      · simp only [pkt?]; rw [pkt?_set hr]; exact hq
    case remove p i =>
      simp only [World.step, updPkt]
      split
      · exact hq
      · simp only [pkt?]; rw [pkt?_set hr]; exact hq
    case setPayload p b =>
      simp only [World.step, updPkt]
      split
      · exact hq
      · simp only [pkt?]; rw [pkt?_set hr]; exact hq
    case pktClone p => simp only [World.step]; split <;> first | exact hq | exact pkt?_append hq
    case add a b =>
      simp only [World.step]
      repeat' split
      · exact hq
      · exact hq
      · exact hq
      · simp only [pkt?]
        apply pkt?_append
        rw [pkt?_set hr.2, pkt?_set hr.1]; exact hq
    case pktToVec p => simp only [World.step]; split <;> exact hq
    case compare a b => simp only [World.step]; repeat' split
                        all_goals exact hq
    case assign p name h =>
      simp only [World.step]
      repeat' split
      · exact hq
      · exact hq
      · simp only [pkt?]; rw [pkt?_set hr]; exact hq
      · exact hq
    case compareSlice p b => simp only [World.step]; split <;> exact hq
    case pktLen p => simp only [World.step]; split <;> exact hq

/-- Over a whole history. -/
theorem runOps_pkt (chk : Bool) {w w' : World} (ops : List Op) {c : Nat} {q : PRef}
    (hr : ∀ op ∈ ops, reshapes c op = false) (hq : w.pkt? c = some q) (h : w.runOps chk ops = some w') :
    w'.pkt? c = some q := by
  induction ops generalizing w with
  | nil => cases h; exact hq
  | cons o os ih =>
    obtain ⟨-, h'⟩ := runOps_cons h
    exact ih (fun op ho => hr op (List.mem_cons_of_mem _ ho)) (step_pkt chk w o (hr o List.mem_cons_self) hq) h'

theorem runOps_mem (chk : Bool) {w w' : World} (ops : List Op) (hf : AllFree w.mem) (h : w.runOps chk ops = some w') :
    w.next ≤ w'.next ∧ ∀ y, y < w.next → (w.mem y).poisoned = true → w'.mem y = w.mem y := by
  induction ops generalizing w with
  | nil => cases h; exact ⟨Nat.le_refl _, fun _ _ _ => rfl⟩
  | cons o os ih =>
    obtain ⟨hd, h'⟩ := runOps_cons h
    obtain ⟨h1, h2, -, h4⟩ := step_mem chk w o hf hd
    obtain ⟨i1, i2⟩ := ih h1 h'
    refine ⟨Nat.le_trans h2 i1, fun y hy hp => ?_⟩
    rw [i2 y (Nat.lt_of_lt_of_le hy h2) (by rw [h4 y hy hp]; exact hp), h4 y hy hp]

/-- A call with a target whose header (and, for `replace`, source) are found. -/
theorem step_ok (chk : Bool) (w : World) (op : Op) {x : Place} {h : HRef} (o : HRef) (hx : target op = some x)
    (hr : w.resolve x = .ok h) (ho : ∀ y, op = .replace x y → w.resolve y = .ok o) :
    w.step chk op = ({ w with mem := (run 0 (prog chk h o op) w.mem).2 }, (run 0 (prog chk h o op) w.mem).1) := by
  cases op <;> simp only [target, Option.some.injEq, reduceCtorEq] at hx
  case replace a b =>
    subst hx
    simp only [World.step, ho b rfl, accessAt, hr]; rfl
  all_goals
    subst hx
    simp only [World.step, accessAt, hr]; rfl

end World

/-! ## Panics inside a critical section poison -/

/-- Started on the unpoisoned cell `r`, the program keeps it unpoisoned if it returns and poisons it if
it panics with an index error. -/
def Poisons {α : Type} (r : Nat) (p : Prog α) : Prop :=
  ∀ s, AllFree s → (s r).poisoned = false →
    AllFree (run 0 p s).2 ∧ match (run 0 p s).1 with
      | .ok _ => ((run 0 p s).2 r).poisoned = false
      | .error e => e = .index → ((run 0 p s).2 r).poisoned = true

section
variable {α β : Type}

theorem Poisons.ret (r : Nat) (a : α) : Poisons r (.ret a) := fun _ h1 h2 => ⟨h1, h2⟩

theorem Poisons.bind {r : Nat} {p : Prog α} {f : α → Prog β} (hp : Poisons r p) (hf : ∀ a, Poisons r (f a)) :
    Poisons r (p.bind f) := by
  intro s h1 h2
  have := hp s h1 h2
  rw [run_bind]
  split
  · next a s' heq => rw [heq] at this; exact hf a s' this.1 this.2
  · next e s' heq => rw [heq] at this; exact this

theorem Poisons.foldlM {r : Nat} {γ : Type} {f : β → γ → Prog β} (hf : ∀ b c, Poisons r (f b c)) (l : List γ) (b : β) :
    Poisons r (l.foldlM f b) := by
  induction l generalizing b with
  | nil => exact Poisons.ret r b
  | cons c l ih => rw [List.foldlM_cons]; exact (hf b c).bind ih

theorem Poisons.ofR {r : Nat} (x : R α) (hx : x ≠ .error .index) : Poisons r (ofR x) := by
  intro s h1 h2
  rw [run_ofR 0 x (h1.idle 0)]
  cases x with
  | ok a => exact ⟨h1, h2⟩
  | error e => exact ⟨h1, fun he => absurd (by rw [he]) hx⟩

theorem poisons_bitRangeStepP (r : Nat) (v : U64) (i : Nat) : Poisons r (bitRangeStepP r v i) := by
  intro s h1 h2
  rw [run_bitRangeStepP ⟨h1 r, h2⟩ (h1.idle 0)]
  cases bitRangeStep (s r).bytes v i with
  | ok v => exact ⟨h1, h2⟩
  | error e => exact ⟨h1.put (by simp [h1 r]), by simp [Store.poison]⟩

theorem poisons_setBitStepP (r : Nat) (v : U64) (i : Nat) : Poisons r (setBitStepP r v i) := by
  intro s h1 h2
  rw [run_setBitStepP ⟨h1 r, h2⟩ (h1.idle 0)]
  cases setBitStep ((s r).bytes, v) i with
  | ok v => exact ⟨h1.put (by simp [h1 r]), by simp [h2]⟩
  | error e => exact ⟨h1.put (by simp [h1 r]), by simp [Store.poison]⟩

theorem poisons_bitRangeP (chk : Bool) (r msb lsb : Nat) : Poisons r (bitRangeP chk r msb lsb) :=
  (Poisons.foldlM (poisons_bitRangeStepP r) _ _).bind fun _ => Poisons.ofR _ fun h => by
    have := bitRangeEnd_error h; cases this

theorem poisons_setBitRangeP (r msb lsb : Nat) (v : U64) : Poisons r (setBitRangeP r msb lsb v) :=
  (Poisons.foldlM (poisons_setBitStepP r) _ _).bind fun _ => Poisons.ret r ()

theorem poisons_bytesP (chk : Bool) (r msb lsb : Nat) : Poisons r (bytesP chk r msb lsb) := by
  rw [bytesP_split]
  refine (Poisons.ofR _ fun h => by have := rangeWidth_error h; cases this).bind fun w => ?_
  split
  · exact Poisons.ofR (.error .assert) (by simp)
  · exact Poisons.foldlM (fun b i => (poisons_bitRangeP chk r _ _).bind fun v => Poisons.ret r _) _ _

theorem poisons_setBytesLoop (r : Nat) (value : Bytes) (l : List Nat) (k : Nat) (h : k + l.length ≤ value.length) :
    Poisons r (l.foldlM (setBytesBodyP r value) k) := by
  induction l generalizing k with
  | nil => exact Poisons.ret r k
  | cons i l ih =>
    simp only [List.length_cons] at h
    rw [List.foldlM_cons]
    have hb : setBytesBodyP r value k i = (ofR (index value k)).bind fun b =>
        (setBitRangeP r (i + 7) i (b.setWidth 64)).bind fun _ => .ret (k + 1) := rfl
    rw [bind_def, hb, index_ok value k (by omega)]
    simp only [ofR, bind_ret, bind_assoc']
    exact (poisons_setBitRangeP r _ _ _).bind fun _ => ih (k + 1) (by omega)

theorem rangeWidth_ok {chk : Bool} {msb lsb w : Nat} (h : rangeWidth chk msb lsb = .ok w) :
    (lsb ≤ msb ∧ (w = msb - lsb + 1 ∨ w = (msb - lsb + 1) % 2 ^ 64)) ∨ msb < lsb := by
  by_cases hlt : msb < lsb
  · exact .inr hlt
  · refine .inl ⟨by omega, ?_⟩
    unfold rangeWidth usizeSub usizeAdd at h
    rw [if_pos (by omega)] at h
    simp only [bind, Except.bind] at h
    split at h
    · cases h; exact .inl rfl
    · split at h
      · cases h
      · cases h; exact .inr rfl

theorem poisons_setBytesP (chk : Bool) (r msb lsb : Nat) (value : Bytes) (hw : msb - lsb + 1 < 2 ^ 64) :
    Poisons r (setBytesP chk r msb lsb value) := by
  rw [setBytesP_split]
  cases e : rangeWidth chk msb lsb with
  | error f =>
    obtain rfl := rangeWidth_error e
    exact Poisons.ofR (.error .overflow) (by simp)
  | ok w =>
    simp only [ofR, bind_ret]
    split
    · exact Poisons.ofR (.error .assert) (by simp)
    · next hv =>
      refine (poisons_setBytesLoop r value _ 0 ?_).bind fun _ => Poisons.ret r ()
      simp only [inclRangeStep8, List.length_range']
      rcases rangeWidth_ok e with ⟨h1, h2⟩ | h1
      · rw [Nat.mod_eq_of_lt hw, or_self] at h2
        omega
      · omega

/-! ## Hanging -/

/-- Started with all mutexes free, the program does not hang. -/
def NoHang (p : Prog α) : Prop := ∀ s, AllFree s → AllFree (run 0 p s).2 ∧ (run 0 p s).1 ≠ .error .deadlock

theorem NoHang.ret (a : α) : NoHang (.ret a) := fun _ h1 => ⟨h1, by simp [run]⟩

theorem NoHang.bind {p : Prog α} {f : α → Prog β} (hp : NoHang p) (hf : ∀ a, NoHang (f a)) : NoHang (p.bind f) := by
  intro s h1
  have := hp s h1
  rw [run_bind]
  split
  · next a s' heq => rw [heq] at this; exact hf a s' this.1
  · next e s' heq => rw [heq] at this; exact ⟨this.1, fun h => this.2 (by cases h; rfl)⟩

theorem NoHang.foldlM {γ : Type} {f : β → γ → Prog β} (hf : ∀ b c, NoHang (f b c)) (l : List γ) (b : β) :
    NoHang (l.foldlM f b) := by
  induction l generalizing b with
  | nil => exact NoHang.ret b
  | cons c l ih => rw [List.foldlM_cons]; exact (hf b c).bind ih

theorem NoHang.ofR (x : R α) (hx : x ≠ .error .deadlock) : NoHang (ofR x) := by
  intro s h1
  rw [run_ofR 0 x (h1.idle 0)]
  exact ⟨h1, hx⟩

theorem noHang_bitRangeStepP (r : Nat) (v : U64) (i : Nat) : NoHang (bitRangeStepP r v i) := by
  intro s h1
  cases hp : (s r).poisoned with
  | true =>
    have : run 0 (bitRangeStepP r v i) s = (.error .poisoned, s) := run_lock_poisoned h1 _ hp
    rw [this]; exact ⟨h1, by simp⟩
  | false =>
    rw [run_bitRangeStepP ⟨h1 r, hp⟩ (h1.idle 0)]
    cases e : bitRangeStep (s r).bytes v i with
    | ok v => exact ⟨h1, by simp⟩
    | error e' => obtain rfl := bitRangeStep_error e; exact ⟨h1.put (by simp [h1 r]), by simp⟩

theorem setBitStep_error {x : Bytes × U64} {i : Nat} {e : Fault} (h : setBitStep x i = .error e) : e = .index := by
  obtain ⟨d, v⟩ := x
  unfold setBitStep at h
  simp only [bind, Except.bind] at h
  split at h
  · next heq => unfold index at heq; split at heq <;> cases heq; cases h; rfl
  · split at h
    · next heq => unfold index at heq; split at heq <;> cases heq; cases h; rfl
    · cases h

theorem noHang_setBitStepP (r : Nat) (v : U64) (i : Nat) : NoHang (setBitStepP r v i) := by
  intro s h1
  cases hp : (s r).poisoned with
  | true =>
    have : run 0 (setBitStepP r v i) s = (.error .poisoned, s) := run_lock_poisoned h1 _ hp
    rw [this]; exact ⟨h1, by simp⟩
  | false =>
    rw [run_setBitStepP ⟨h1 r, hp⟩ (h1.idle 0)]
    cases e : setBitStep ((s r).bytes, v) i with
    | ok v => exact ⟨h1.put (by simp [h1 r]), by simp⟩
    | error e' => obtain rfl := setBitStep_error e; exact ⟨h1.put (by simp [h1 r]), by simp⟩

theorem noHang_toVecP (r : Nat) : NoHang (toVecP r) := by
  intro s h1
  cases hp : (s r).poisoned with
  | true =>
    have : run 0 (toVecP r) s = (.error .poisoned, s) := run_lock_poisoned h1 _ hp
    rw [this]; exact ⟨h1, by simp⟩
  | false => rw [run_toVecP ⟨h1 r, hp⟩]; exact ⟨h1, by simp⟩

theorem noHang_bitRangeP (chk : Bool) (r msb lsb : Nat) : NoHang (bitRangeP chk r msb lsb) :=
  (NoHang.foldlM (noHang_bitRangeStepP r) _ _).bind fun _ => NoHang.ofR _ fun h => by
    have := bitRangeEnd_error h; cases this

theorem noHang_setBitRangeP (r msb lsb : Nat) (v : U64) : NoHang (setBitRangeP r msb lsb v) :=
  (NoHang.foldlM (noHang_setBitStepP r) _ _).bind fun _ => NoHang.ret ()

theorem noHang_bytesP (chk : Bool) (r msb lsb : Nat) : NoHang (bytesP chk r msb lsb) := by
  rw [bytesP_split]
  refine (NoHang.ofR _ fun h => by have := rangeWidth_error h; cases this).bind fun w => ?_
  split
  · exact NoHang.ofR (.error .assert) (by simp)
  · exact NoHang.foldlM (fun b i => (noHang_bitRangeP chk r _ _).bind fun v => NoHang.ret _) _ _

theorem noHang_setBytesP (chk : Bool) (r msb lsb : Nat) (value : Bytes) : NoHang (setBytesP chk r msb lsb value) := by
  rw [setBytesP_split]
  refine (NoHang.ofR _ fun h => by have := rangeWidth_error h; cases this).bind fun w => ?_
  split
  · exact NoHang.ofR (.error .assert) (by simp)
  · refine (NoHang.foldlM (fun b i => ?_) _ _).bind fun _ => NoHang.ret ()
    refine (NoHang.ofR (index value b) fun h => ?_).bind fun v => (noHang_setBitRangeP r _ _ _).bind fun _ => NoHang.ret _
    unfold index at h; split at h <;> cases h

theorem noHang_pktToVecP (p : PRef) : NoHang (pktToVecP p) := by
  intro s hs
  rw [run_pktToVecP hs]
  split <;> exact ⟨hs, by simp⟩

theorem noHang_compareSliceP (p : PRef) (a : Bytes) : NoHang (compareSliceP p a) := by
  unfold compareSliceP
  simp only
  split
  · exact NoHang.ret _
  · refine (noHang_pktToVecP p).bind fun b => ?_
    split <;> exact NoHang.ret _

theorem noHang_compareP (p q : PRef) : NoHang (compareP p q) :=
  (noHang_pktToVecP q).bind fun a => noHang_compareSliceP p a

/-- A call that hangs is `replace` of a header by itself (or a header sharing its storage). -/
theorem World.step_hang (chk : Bool) (w : World) (op : Op) (hf : AllFree w.mem)
    (hd : (w.step chk op).2 = .error .deadlock) :
    ∃ x y a b, op = .replace x y ∧ w.resolve x = .ok a ∧ w.resolve y = .ok b ∧ a.ref = b.ref ∧
      (w.mem a.ref).poisoned = false := by
  cases ht : target op with
  | some x =>
    rcases World.step_target chk w op x ht with ⟨e, he, h1⟩ | ⟨h, o, hr, ho, he⟩
    · rw [he] at hd; cases hd; rcases h1 with h1 | h1 <;> cases h1
    · rw [he] at hd
      have nh : ∀ {p : Prog Val}, World.prog chk h o op = p → NoHang p → False := by
        intro p e hp; rw [e] at hd; exact (hp w.mem hf).2 hd
      cases op <;> simp only [target, Option.some.injEq, reduceCtorEq] at ht
      case get => exact (nh rfl ((noHang_bitRangeP _ _ _ _).bind fun _ => NoHang.ret _)).elim
      case set => exact (nh rfl ((noHang_setBitRangeP _ _ _ _).bind fun _ => NoHang.ret _)).elim
      case bytes => exact (nh rfl ((noHang_bytesP _ _ _ _).bind fun _ => NoHang.ret _)).elim
      case setBytes => exact (nh rfl ((noHang_setBytesP _ _ _ _ _).bind fun _ => NoHang.ret _)).elim
      case toVec => exact (nh rfl ((noHang_toVecP _).bind fun _ => NoHang.ret _)).elim
      case replace a b =>
        subst ht
        refine ⟨a, b, h, o, rfl, hr, ho b rfl, ?_⟩
        simp only [World.prog, run_bind] at hd
        cases ha : (w.mem h.ref).poisoned with
        | true => rw [run_replaceP_self hf ha] at hd; cases hd
        | false =>
          refine ⟨?_, rfl⟩
          by_cases hab : h.ref = o.ref
          · exact hab
          · exfalso
            cases hb : (w.mem o.ref).poisoned with
            | true => rw [run_replaceP_src hf hab ha hb] at hd; cases hd
            | false => rw [run_replaceP_ok hf hab ha hb] at hd; cases hd
  | none =>
    exfalso
    cases op <;> simp only [target, reduceCtorEq] at ht
    case clone x =>
      simp only [World.step] at hd
      split at hd
      · next e he =>
        cases hd
        cases x with
        | var h => simp only [World.resolve] at he; split at he <;> cases he
        | inPkt p name T =>
          simp only [World.resolve] at he
          repeat' split at he
          all_goals cases he
      · cases hd
    case pktToVec p =>
      simp only [World.step] at hd
      split at hd
      · cases hd
      · exact (((noHang_pktToVecP _).bind fun _ => NoHang.ret _) w.mem hf).2 hd
    case compare p q =>
      simp only [World.step] at hd
      split at hd
      · cases hd
      · split at hd
        · cases hd
        · exact (((noHang_compareP _ _).bind fun _ => NoHang.ret _) w.mem hf).2 hd
    case compareSlice p b =>
      simp only [World.step] at hd
      split at hd
      · cases hd
      · exact (((noHang_compareSliceP _ _).bind fun _ => NoHang.ret _) w.mem hf).2 hd
    case pop p => simp only [World.step, World.updPkt] at hd; split at hd <;> cases hd
    case remove p i => simp only [World.step, World.updPkt] at hd; split at hd <;> cases hd
    case setPayload p b => simp only [World.step, World.updPkt] at hd; split at hd <;> cases hd
    all_goals
      simp only [World.step] at hd
      repeat' split at hd
      all_goals cases hd

/-! ## Congruence and poisoned cells -/

/-- The result of a call on a header depends only on the storage of that header and, for `replace`, of
the source. -/
theorem prog_congr (chk : Bool) (h o : HRef) (op : Op) {s s' : Store} (hs : AllFree s) (hs' : AllFree s')
    (he : s h.ref = s' h.ref) (ho : (∃ x y, op = .replace x y) → s o.ref = s' o.ref) :
    (run 0 (World.prog chk h o op) s).1 = (run 0 (World.prog chk h o op) s').1 := by
  by_cases hr : ∃ x y, op = .replace x y
  · replace ho := ho hr
    obtain ⟨x, y, rfl⟩ := hr
    simp only [World.prog, run_bind]
    cases ha : (s h.ref).poisoned with
    | true => rw [run_replaceP_self hs ha, run_replaceP_self hs' (by rw [← he]; exact ha)]
    | false =>
      have ha' : (s' h.ref).poisoned = false := by rw [← he]; exact ha
      by_cases hab : h.ref = o.ref
      · have e1 := run_replaceP_alias (t := 0) hs ha
        have e2 := run_replaceP_alias (t := 0) hs' ha'
        rw [← hab]
        cases c1 : run 0 (replaceP h.ref h.ref) s
        cases c2 : run 0 (replaceP h.ref h.ref) s'
        rw [c1] at e1; rw [c2] at e2
        cases e1; cases e2; rfl
      · cases hb : (s o.ref).poisoned with
        | true => rw [run_replaceP_src hs hab ha hb, run_replaceP_src hs' hab ha' (by rw [← ho]; exact hb)]
        | false => rw [run_replaceP_ok hs hab ha hb, run_replaceP_ok hs' hab ha' (by rw [← ho]; exact hb)]; rfl
  · exact ((acc_prog chk h o op (fun x y e => hr ⟨x, y, e⟩)).run_congr 0 hs hs' (fun x hx => by rw [hx]; exact he)).1

theorem run_bitRangeP_poisoned {s : Store} (hs : AllFree s) {r : Nat} (hp : (s r).poisoned = true) (chk : Bool)
    {msb lsb : Nat} (hle : lsb ≤ msb) : run 0 (bitRangeP chk r msb lsb) s = (.error .poisoned, s) := by
  have hl : inclRange lsb msb = lsb :: List.range' (lsb + 1) (msb - lsb) := by
    rw [inclRange_eq, show msb + 1 - lsb = (msb - lsb) + 1 from by omega, List.range'_succ]
  have : run 0 (bitRangeStepP r 0#64 lsb) s = (.error .poisoned, s) := run_lock_poisoned hs _ hp
  rw [bitRangeP, hl, List.foldlM_cons, bind_def, run_bind, bind_def, run_bind, this]

theorem run_setBitRangeP_poisoned {s : Store} (hs : AllFree s) {r : Nat} (hp : (s r).poisoned = true)
    {msb lsb : Nat} (hle : lsb ≤ msb) (v : U64) : run 0 (setBitRangeP r msb lsb v) s = (.error .poisoned, s) := by
  have : run 0 (setBitStepP r v msb) s = (.error .poisoned, s) := run_lock_poisoned hs _ hp
  rw [setBitRangeP, inclRange_reverse hle, List.foldlM_cons, bind_def, run_bind, bind_def, run_bind, this]

theorem run_toVecP_poisoned {s : Store} (hs : AllFree s) {r : Nat} (hp : (s r).poisoned = true) :
    run 0 (toVecP r) s = (.error .poisoned, s) := run_lock_poisoned hs _ hp

theorem inclRangeStep8_cons {lsb msb : Nat} (hle : lsb ≤ msb) : ∃ l, inclRangeStep8 lsb msb = lsb :: l := by
  refine ⟨List.range' (lsb + 8) ((msb + 1 - lsb + 7) / 8 - 1) 8, ?_⟩
  rw [inclRangeStep8, show (msb + 1 - lsb + 7) / 8 = ((msb + 1 - lsb + 7) / 8 - 1) + 1 from by omega, List.range'_succ]
  rfl

theorem run_bytesP_poisoned {s : Store} (hs : AllFree s) {r : Nat} (hp : (s r).poisoned = true) (chk : Bool)
    {msb lsb : Nat} (hle : lsb ≤ msb) : ∃ e, run 0 (bytesP chk r msb lsb) s = (.error e, s) := by
  rw [bytesP_split, run_bind, run_ofR 0 _ (hs.idle 0)]
  cases e : rangeWidth chk msb lsb with
  | error f => exact ⟨f, rfl⟩
  | ok w =>
    simp only
    split
    · exact ⟨.assert, by simp only [run, unwind_idle (hs.idle 0)]⟩
    · obtain ⟨l, hl⟩ := inclRangeStep8_cons hle
      refine ⟨.poisoned, ?_⟩
      rw [hl, List.foldlM_cons, bind_def, run_bind, bind_def, run_bind, run_bitRangeP_poisoned hs hp chk (Nat.le_add_right _ _)]

theorem run_setBytesP_poisoned {s : Store} (hs : AllFree s) {r : Nat} (hp : (s r).poisoned = true) (chk : Bool)
    {msb lsb : Nat} (hle : lsb ≤ msb) (v : Bytes) : ∃ e, run 0 (setBytesP chk r msb lsb v) s = (.error e, s) := by
  rw [setBytesP_split, run_bind, run_ofR 0 _ (hs.idle 0)]
  cases e : rangeWidth chk msb lsb with
  | error f => exact ⟨f, rfl⟩
  | ok w =>
    simp only
    split
    · exact ⟨.assert, by simp only [run, unwind_idle (hs.idle 0)]⟩
    · obtain ⟨l, hl⟩ := inclRangeStep8_cons hle
      rw [run_bind, hl, List.foldlM_cons, bind_def, run_bind]
      have hb : ∀ i, setBytesBodyP r v 0 i = (ofR (index v 0)).bind fun b =>
          (setBitRangeP r (i + 7) i (b.setWidth 64)).bind fun _ => .ret 1 := fun _ => rfl
      rw [hb, run_bind, run_ofR 0 _ (hs.idle 0)]
      cases e2 : index v 0 with
      | error f => exact ⟨f, rfl⟩
      | ok b =>
        refine ⟨.poisoned, ?_⟩
        simp only [run_bind, run_setBitRangeP_poisoned hs hp (Nat.le_add_right _ 7)]

end
end PacketRs
