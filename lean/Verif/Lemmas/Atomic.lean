import Verif.Lemmas.Race
import Verif.Spec.Atomic
/-!
# Sections of the accessors are the steps of the machine of atomic bits
-/
namespace PacketRs
open Spec
open Prog hiding bind

section
variable {α β : Type} {L : Nat → Nat}

/-- The program does, section by section, what the thread of the machine does. -/
inductive Impl (L : Nat → Nat) : Prog α → Micro α → Prop where
  | done (a : α) : Impl L (.ret a) (.done a)
  | read {r i : Nat} {k : Prog α} (p : Bool → Prog α) {q : Bool → Micro α}
      (h : ∀ d, d.length = L r → finish r k d = some (p (netBit d i), d, false))
      (hk : ∀ b, Impl L (p b) (q b)) : Impl L (.lock r k) (.read r i q)
  | write {r i : Nat} {b : Bool} {k p : Prog α} {q : Micro α}
      (h : ∀ d, d.length = L r → ∃ e, BitSet d i b e ∧ finish r k d = some (p, e, false))
      (hk : Impl L p q) : Impl L (.lock r k) (.write r i b q)
  | readAll {r : Nat} {k : Prog α} (p : Bytes → Prog α) {q : Bytes → Micro α}
      (h : ∀ d, d.length = L r → finish r k d = some (p d, d, false))
      (hk : ∀ d, Impl L (p d) (q d)) : Impl L (.lock r k) (.readAll r q)
  | copy {r o : Nat} {p : Prog α} {q : Micro α} (hne : r ≠ o) (hL : L r = L o) (hk : Impl L p q) :
      Impl L (.lock r (replRest r o p)) (.copy r o q)

/-- Shift in one bit. -/
def shiftIn (v : U64) (b : Bool) : U64 := v <<< 1 ||| (if b then 1#64 else 0#64)

theorem bitRangeStep_shiftIn (d : Bytes) (v : U64) (i : Nat) (h : i / 8 < d.length) :
    bitRangeStep d v i = .ok (shiftIn v (netBit d i)) := by
  obtain ⟨x, hx, hb⟩ := bitRangeStep_ok d v i h
  rw [hx]; congr 1
  apply BitVec.eq_of_getLsbD_eq
  intro j hj
  rw [hb j hj, shiftIn, BitVec.getLsbD_or, BitVec.getLsbD_shiftLeft]
  cases netBit d i
  · by_cases hj0 : j = 0
    · subst hj0; simp
    · simp [hj0, hj, show ¬ j < 1 by omega]
  · by_cases hj0 : j = 0
    · subst hj0; simp
    · simp [hj0, hj, show ¬ j < 1 by omega]

theorem shiftIn_ofNat (n : Nat) (b : Bool) : shiftIn (BitVec.ofNat 64 n) b = BitVec.ofNat 64 (2 * n + b.toNat) := by
  unfold shiftIn
  have e : ∀ j, (BitVec.ofNat 64 (2 * n + b.toNat)).getLsbD j = (decide (j < 64) && (2 * n + b.toNat).testBit j) :=
    fun j => BitVec.getLsbD_ofNat ..
  apply BitVec.eq_of_getLsbD_eq
  intro j hj
  rw [e, BitVec.getLsbD_or, BitVec.getLsbD_shiftLeft, BitVec.getLsbD_ofNat]
  cases j with
  | zero => cases b <;> simp [Nat.testBit_zero] 
  | succ j =>
    have : (2 * n + b.toNat).testBit (j + 1) = n.testBit j := by
      rw [Nat.testBit_succ]; congr 1; cases b <;> simp <;> omega
    rw [this]
    cases b <;> simp [hj, show j < 64 by omega]

theorem foldl_shiftIn (bs : List Bool) (n : Nat) :
    bs.foldl shiftIn (BitVec.ofNat 64 n) = BitVec.ofNat 64 (bs.foldl (fun n b => 2 * n + b.toNat) n) := by
  induction bs generalizing n with
  | nil => rfl
  | cons b bs ih => rw [List.foldl_cons, shiftIn_ofNat, ih, List.foldl_cons]

theorem foldl_bits_lt (bs : List Bool) (n m : Nat) (h : n < 2 ^ m) :
    bs.foldl (fun n b => 2 * n + b.toNat) n < 2 ^ (m + bs.length) := by
  induction bs generalizing n m with
  | nil => simpa using h
  | cons b bs ih =>
    rw [List.foldl_cons, List.length_cons, show m + (bs.length + 1) = (m + 1) + bs.length by omega]
    apply ih
    have := Bool.toNat_le b
    rw [Nat.pow_succ]; omega

theorem bitsNat_lt (bs : List Bool) : readOctets.bitsNat bs < 2 ^ bs.length := by
  have := foldl_bits_lt bs 0 0 (by simp)
  simpa [readOctets.bitsNat] using this

theorem bitRangeEnd_bits (chk : Bool) {lo hi : Nat} (h1 : lo ≤ hi) (h2 : hi - lo < 64) (bs : List Bool)
    (hb : bs.length = hi + 1 - lo) :
    bitRangeEnd chk hi lo (bs.foldl shiftIn 0#64) = .ok (BitVec.ofNat 64 (readOctets.bitsNat bs)) := by
  rw [bitRangeEnd_ok chk h1 h2, foldl_shiftIn bs 0]
  congr 1
  have hlt := bitsNat_lt bs
  change (BitVec.ofNat 64 (readOctets.bitsNat bs) <<< _) >>> _ = _
  apply BitVec.eq_of_getLsbD_eq
  intro j hj
  rw [BitVec.getLsbD_ushiftRight, BitVec.getLsbD_shiftLeft, BitVec.getLsbD_ofNat, BitVec.getLsbD_ofNat]
  by_cases hjw : j < bs.length
  · rw [show 64 - (hi - lo + 1) + j - (64 - (hi - lo + 1)) = j by omega]
    have : decide (64 - (hi - lo + 1) + j < 64) = true := by simp; omega
    rw [this]; simp [hj]
  · have : (readOctets.bitsNat bs).testBit j = false :=
      Nat.testBit_lt_two_pow (Nat.lt_of_lt_of_le hlt (Nat.pow_le_pow_right (by omega) (by omega)))
    have h' : decide (64 - (hi - lo + 1) + j < 64) = false := by simp; omega
    rw [this, h']; simp

theorem impl_readLoop {r : Nat} (f : U64 → Prog α) (n : Nat) : ∀ (lo : Nat) (v : U64) (q : List Bool → Micro α),
    lo + n ≤ 8 * L r → (∀ bs : List Bool, bs.length = n → Impl L (f (bs.foldl shiftIn v)) (q bs)) →
    Impl L (((List.range' lo n).foldlM (bitRangeStepP r) v).bind f) (readBits r lo n q) := by
  induction n with
  | zero => intro lo v q _ h; exact h [] rfl
  | succ n ih =>
    intro lo v q hl h
    rw [List.range'_succ, List.foldlM_cons, bind_def, bind_assoc']
    obtain ⟨k, e, hk⟩ := bitRangeStepP_sect r v lo
      (fun v => ((List.range' (lo + 1) n).foldlM (bitRangeStepP r) v).bind f)
    rw [e]
    refine .read (fun b => ((List.range' (lo + 1) n).foldlM (bitRangeStepP r) (shiftIn v b)).bind f) ?_ ?_
    · intro d hd
      rw [hk, bitRangeStep_shiftIn d v lo (by omega)]; rfl
    · intro b
      exact ih (lo + 1) (shiftIn v b) _ (by omega) (fun bs hbs => h (b :: bs) (by simp [hbs]))

theorem impl_bitRangeP {r lo hi n : Nat} (hn : n = hi + 1 - lo) (chk : Bool) (h1 : lo ≤ hi) (h2 : hi - lo < 64) (h3 : hi < 8 * L r)
    (f : U64 → Prog α) (q : List Bool → Micro α)
    (h : ∀ bs : List Bool, bs.length = hi + 1 - lo → Impl L (f (BitVec.ofNat 64 (readOctets.bitsNat bs))) (q bs)) :
    Impl L ((bitRangeP chk r hi lo).bind f) (readBits r lo n q) := by
  subst hn
  unfold bitRangeP
  rw [inclRange_eq, bind_def, bind_assoc']
  refine impl_readLoop _ _ _ _ _ (by omega) (fun bs hbs => ?_)
  rw [bitRangeEnd_bits chk h1 h2 bs hbs]
  exact h bs hbs

theorem impl_writeLoop {r hi : Nat} (g : Nat → Bool) (f : U64 → Prog α) (q : Micro α) (h : ∀ x, Impl L (f x) q)
    (h3 : hi < 8 * L r) (lo n : Nat) : ∀ (j : Nat) (v : U64), lo + n + j = hi + 1 → (∀ i, v.getLsbD i = g (i + j)) →
    Impl L (((List.range' lo n).reverse.foldlM (setBitStepP r) v).bind f) (writeBits r hi g q n j) := by
  induction n with
  | zero => intro j v _ _; exact h v
  | succ n ih =>
    intro j v hj hv
    rw [List.range'_concat, List.reverse_append, List.reverse_singleton, List.singleton_append, List.foldlM_cons,
      bind_def, bind_assoc', Nat.one_mul]
    obtain ⟨k, e, hk⟩ := setBitStepP_sect r v (lo + n)
      (fun v => ((List.range' lo n).reverse.foldlM (setBitStepP r) v).bind f)
    rw [e]
    have hij : hi - j = lo + n := by omega
    unfold writeBits
    rw [hij]
    refine .write (p := ((List.range' lo n).reverse.foldlM (setBitStepP r) (v >>> 1)).bind f) ?_ ?_
    · intro d hd
      obtain ⟨d', h1, h2, h3⟩ := setBitStep_ok d v (lo + n) (by omega)
      refine ⟨d', ⟨h2, fun i => ?_⟩, by rw [hk, h1]; rfl⟩
      rw [h3, hv 0, Nat.zero_add]
    · refine ih (j + 1) _ (by omega) (fun i => ?_)
      rw [BitVec.getLsbD_ushiftRight, hv]; congr 1; omega

theorem impl_setBitRangeP {r lo hi n : Nat} (hn : n = hi + 1 - lo) (h1 : lo ≤ hi) (h3 : hi < 8 * L r) (v : U64) (g : Nat → Bool)
    (hg : ∀ i, v.getLsbD i = g i) (f : Unit → Prog α) (q : Micro α) (h : Impl L (f ()) q) :
    Impl L ((setBitRangeP r hi lo v).bind f) (writeBits r hi g q n 0) := by
  subst hn
  unfold setBitRangeP
  rw [inclRange_eq, bind_def, bind_assoc']
  exact impl_writeLoop g _ q (fun _ => h) h3 lo _ 0 v (by omega) hg

theorem impl_bytesLoop {r : Nat} (chk : Bool) (f : Bytes → Prog α) (n : Nat) :
    ∀ (lo : Nat) (acc : Bytes) (q : Bytes → Micro α), lo + 8 * n ≤ 8 * L r →
    (∀ v, Impl L (f (acc ++ v)) (q v)) →
    Impl L (((List.range' lo n 8).foldlM (fun value i => do
      let v ← bitRangeP chk r (i + 7) i
      pure (value ++ [v.setWidth 8])) acc).bind f) (readOctets r lo n q) := by
  induction n with
  | zero =>
    intro lo acc q _ h
    have := h []
    rw [List.append_nil] at this
    exact this
  | succ n ih =>
    intro lo acc q hl h
    rw [List.range'_succ, List.foldlM_cons, bind_def, bind_assoc', bind_def, bind_assoc']
    unfold readOctets
    refine impl_bitRangeP (by omega) chk (by omega) (by omega) (by omega) _ _ (fun bs _ => ?_)
    refine ih (lo + 8) _ _ (by omega) (fun v => ?_)
    have : (BitVec.ofNat 64 (readOctets.bitsNat bs)).setWidth 8 = BitVec.ofNat 8 (readOctets.bitsNat bs) := by
      apply BitVec.eq_of_toNat_eq; simp
    rw [this]
    simpa using h (BitVec.ofNat 8 (readOctets.bitsNat bs) :: v)

theorem impl_setBytesLoop {r : Nat} (f : Nat → Prog α) (q : Micro α) (h : ∀ x, Impl L (f x) q) (value : Bytes) :
    ∀ (v : Bytes) (lo k : Nat), lo + 8 * v.length ≤ 8 * L r → value.drop k = v →
    Impl L (((List.range' lo v.length 8).foldlM (setBytesBodyP r value) k).bind f) (writeOctets r lo v q) := by
  intro v
  induction v with
  | nil => intro lo k _ _; exact h k
  | cons b v ih =>
    intro lo k hl hk
    rw [List.length_cons, List.range'_succ, List.foldlM_cons]
    have hb : setBytesBodyP r value k lo = (ofR (index value k)).bind fun b =>
      (setBitRangeP r (lo + 7) lo (b.setWidth 64)).bind fun _ => .ret (k + 1) := rfl
    have hlen : k < value.length := by
      have := congrArg List.length hk; simp at this; omega
    have hget : value.getD k 0#8 = b := by
      have := congrArg (fun l => l.getD 0 0#8) hk
      simpa using this
    rw [hb, index_ok _ _ hlen]
    simp only [ofR, bind_ret, hget]
    rw [bind_def, bind_assoc', bind_assoc']
    unfold writeOctets
    rw [List.length_cons] at hl
    refine impl_setBitRangeP (by omega) (by omega) (by omega) _ _ (fun i => ?_) _ _ ?_
    · rw [BitVec.getLsbD_setWidth]
      by_cases hi : i < 64
      · simp [hi]
      · simp [hi, BitVec.getLsbD_of_ge b i (by omega)]
    · refine ih (lo + 8) (k + 1) (by omega) ?_
      rw [← List.drop_drop, hk]; simp

theorem impl_client (chk : Bool) : (c : Client α) → Inside L c → Impl L (c.prog chk) (micro c)
  | .done a, _ => .done a
  | .get _ _ k, h => impl_bitRangeP rfl chk h.1 h.2.2.1 h.2.1 _ _ fun _ _ => impl_client chk (k _) (h.2.2.2.2 _)
  | .set _ _ v k, h => impl_setBitRangeP rfl h.1 h.2.1 v _ (fun _ => rfl) _ _ (impl_client chk k h.2.2.2)
  | .bytes r msb lsb k, h => by
    obtain ⟨h1, h2, h3, h4, -, h6⟩ := h
    simp only [Client.prog, micro]
    rw [bytesP_split, rangeWidth_eq chk h1 h3]
    simp only [ofR, bind_ret]
    rw [if_neg (by omega), inclRangeStep8]
    have e : (msb + 1 - lsb + 7) / 8 = (msb + 1 - lsb) / 8 := by omega
    rw [e]
    exact impl_bytesLoop chk _ _ _ [] _ (by omega) (fun v => impl_client chk (k v) (h6 v))
  | .setBytes r msb lsb v k, h => by
    obtain ⟨h1, h2, h3, h4, -, h6⟩ := h
    simp only [Client.prog, micro]
    rw [setBytesP_split, rangeWidth_eq chk h1 h3]
    simp only [ofR, bind_ret]
    rw [if_neg (by omega), inclRangeStep8, bind_assoc']
    have e : (msb + 1 - lsb + 7) / 8 = v.length := by omega
    rw [e]
    exact impl_setBytesLoop _ _ (fun _ => impl_client chk k h6) v v lsb 0 (by omega) rfl
  | .toVec r k, h => .readAll (fun d => (k d).prog chk)
      (by intro d _; simp [bind_def, pure_def, loadM, unlockM, finish])
      (fun d => impl_client chk (k d) (h.2 d))
  | .replace _ _ k, h => .copy h.1 h.2.1 (impl_client chk k h.2.2.2.2)

/-! ## The two machines step alike -/

/-- Same contents, and every thread at the same point. -/
structure Alike (L : Nat → Nat) (s : Sys α) (w : Machine α) : Prop where
  fresh : Fresh L s.mem
  cont : ∀ r, w.cont r = (s.mem r).bytes
  th : ∀ t, Impl L (s.th t) (w.th t)

theorem finish_replRest (r o : Nat) (k : Prog α) (d : Bytes) : finish r (replRest r o k) d = none := by
  simp [replRest, replLock, finish]

theorem bitSet_unique {d e e' : Bytes} {i : Nat} {b : Bool} (h : BitSet d i b e) (h' : BitSet d i b e') : e = e' :=
  netBit_inj h.1 h'.1 (fun j _ => by rw [h.2, h'.2])

theorem Spec.Upd.eq {f g : Nat → β} {x : Nat} {y : β} (h : Upd f x y g) : g = fun z => if z = x then y else f z := by
  funext z
  by_cases hz : z = x
  · subst hz; simp [h.1]
  · simp [hz, h.2 z hz]

theorem upd_mk (f : Nat → β) (x : Nat) (y : β) : Upd f x y (fun z => if z = x then y else f z) :=
  ⟨by simp, fun z hz => by simp [hz]⟩

theorem Alike.put {s : Sys α} {w : Machine α} (h : Alike L s w) {r : Nat} {d : Bytes} (hd : d.length = L r)
    {t : Nat} {p : Prog α} {q : Micro α} (hq : Impl L p q) :
    Alike L ⟨s.mem.put r ⟨d, false, none⟩, s.setTh t p⟩
      ⟨fun z => if z = r then d else w.cont z, fun z => if z = t then q else w.th z⟩ := by
  refine ⟨h.fresh.put hd, fun x => ?_, fun u => ?_⟩
  · by_cases hx : x = r
    · subst hx; simp
    · simp [hx, put_ne _ _ hx, h.cont]
  · by_cases hu : u = t
    · subst hu; simpa using hq
    · simp only [Sys.setTh_ne _ _ hu, if_neg hu]; exact h.th u

theorem Alike.step {s s' : Sys α} {w : Machine α} (h : Alike L s w) {t : Nat} (hs : Sys.TStep t s s') :
    ∃ w', Machine.Step t w w' ∧ Alike L s' w' := by
  have hi := h.th t
  have nosect : ∀ {r : Nat} {k : Prog α} {x}, s.th t = .lock r k → finish r k (s.mem r).bytes = some x →
      ∃ k' d b, x = (k', d, b) ∧ s' = ⟨s.mem.put r ⟨d, b, none⟩, s.setTh t k'⟩ := by
    intro r k x e hf
    cases hs with
    | panic e' => rw [e] at e'; cases e'
    | poisoned e' e'' => rw [e] at e'; cases e'; rw [(h.fresh r).2.1] at e''; cases e''
    | @sect _ _ k' d b e' e'' e3 => rw [e] at e'; cases e'; rw [hf] at e3; cases e3; exact ⟨_, _, _, rfl, rfl⟩
    | repl e' => rw [e] at e'; cases e'; rw [finish_replRest] at hf; cases hf
    | replPoisoned e' => rw [e] at e'; cases e'; rw [finish_replRest] at hf; cases hf
  have hcopy : ∀ r, (fun z => if z = r then (s.mem r).bytes else w.cont z) = w.cont := by
    intro r; funext z; split
    · rename_i e; subst e; exact (h.cont z).symm
    · rfl
  generalize ep : s.th t = p at hi
  generalize eq : w.th t = q at hi
  cases hi with
  | done a =>
    cases hs with
    | panic e => rw [ep] at e; cases e
    | poisoned e => rw [ep] at e; cases e
    | sect e => rw [ep] at e; cases e
    | repl e => rw [ep] at e; cases e
    | replPoisoned e => rw [ep] at e; cases e
  | @read r i k p q hf hk =>
    obtain ⟨_, _, _, e, rfl⟩ := nosect ep (hf _ (h.fresh r).2.2)
    cases e
    have := h.put (h.fresh r).2.2 (t := t) (hk (netBit (s.mem r).bytes i))
    rw [hcopy] at this
    refine ⟨_, .read eq ?_ ?_, this⟩
    · rfl
    · rw [h.cont]; exact upd_mk _ _ _
  | @write r i b k p q hf hk =>
    obtain ⟨e, he, hfe⟩ := hf _ (h.fresh r).2.2
    obtain ⟨_, _, _, e', rfl⟩ := nosect ep hfe
    cases e'
    exact ⟨_, .write eq (by rw [h.cont]; exact he) (upd_mk _ _ _) (upd_mk _ _ _),
      h.put (he.1.trans (h.fresh r).2.2) hk⟩
  | @readAll r k p q hf hk =>
    obtain ⟨_, _, _, e, rfl⟩ := nosect ep (hf _ (h.fresh r).2.2)
    cases e
    have := h.put (h.fresh r).2.2 (t := t) (hk (s.mem r).bytes)
    rw [hcopy] at this
    refine ⟨_, .readAll eq ?_ ?_, this⟩
    · rfl
    · rw [h.cont]; exact upd_mk _ _ _
  | @copy r o p q hne hL hk =>
    have hs' : s' = ⟨s.mem.put r ⟨(s.mem o).bytes, false, none⟩, s.setTh t p⟩ := by
      cases hs with
      | panic e => rw [ep] at e; cases e
      | poisoned e e' => rw [ep] at e; cases e; rw [(h.fresh r).2.1] at e'; cases e'
      | sect e e' e'' => rw [ep] at e; cases e; rw [finish_replRest] at e''; cases e''
      | repl e =>
        rw [ep] at e
        simp only [Prog.lock.injEq] at e
        obtain ⟨rfl, e⟩ := e
        obtain ⟨rfl, rfl⟩ := replRest_inj e
        rfl
      | replPoisoned e e' e'' =>
        rw [ep] at e
        simp only [Prog.lock.injEq] at e
        obtain ⟨rfl, e⟩ := e
        obtain ⟨rfl, rfl⟩ := replRest_inj e
        rw [(h.fresh o).2.1] at e''; cases e''
    subst hs'
    exact ⟨_, .copy eq (by rw [h.cont o]; exact upd_mk _ _ _) (upd_mk _ _ _),
      h.put ((h.fresh o).2.2.trans hL.symm) hk⟩

theorem Alike.back {s : Sys α} {w w' : Machine α} (h : Alike L s w) {t : Nat} (hs : Machine.Step t w w') :
    ∃ s', Sys.TStep t s s' ∧ Alike L s' w' := by
  have hi := h.th t
  have hcopy : ∀ r, (fun z => if z = r then (s.mem r).bytes else w.cont z) = w.cont := by
    intro r; funext z; split
    · rename_i e; subst e; exact (h.cont z).symm
    · rfl
  obtain ⟨c', th'⟩ := w'
  generalize ep : s.th t = p at hi
  cases hs with
  | @read r i k e hc hu =>
    simp only at hc hu
    rw [e] at hi
    rw [hu.eq, hc, h.cont, ← hcopy r]
    cases hi with
    | @read _ _ k p q hf hk =>
      exact ⟨_, .sect ep (h.fresh r).2.1 (hf _ (h.fresh r).2.2), h.put (h.fresh r).2.2 (hk _)⟩
  | @write r i b k d e hb hc hu =>
    simp only at hc hu
    rw [e] at hi
    rw [hu.eq, hc.eq]
    cases hi with
    | @write _ _ _ k p q hf hk =>
      obtain ⟨d', hd', hfin⟩ := hf _ (h.fresh r).2.2
      rw [h.cont] at hb
      have := bitSet_unique hb hd'
      subst this
      exact ⟨_, .sect ep (h.fresh r).2.1 hfin, h.put (hb.1.trans (h.fresh r).2.2) hk⟩
  | @readAll r k e hc hu =>
    simp only at hc hu
    rw [e] at hi
    rw [hu.eq, hc, h.cont, ← hcopy r]
    cases hi with
    | @readAll _ k p q hf hk =>
      exact ⟨_, .sect ep (h.fresh r).2.1 (hf _ (h.fresh r).2.2), h.put (h.fresh r).2.2 (hk _)⟩
  | @copy r o k e hc hu =>
    simp only at hc hu
    rw [e] at hi
    rw [hu.eq, hc.eq, h.cont]
    cases hi with
    | @copy _ _ p q hne hL hk =>
      exact ⟨_, .repl ep hne (h.fresh r).2.1 (h.fresh o).2.1, h.put ((h.fresh o).2.2.trans hL.symm) hk⟩

theorem Alike.treach {s s' : Sys α} {w : Machine α} (h : Alike L s w) (hr : Sys.TReach s s') :
    ∃ w', Machine.Reach w w' ∧ Alike L s' w' := by
  induction hr with
  | refl => exact ⟨w, .refl, h⟩
  | step t _ hs ih =>
    obtain ⟨w1, h1, h2⟩ := ih
    obtain ⟨w2, h3, h4⟩ := h2.step hs
    exact ⟨w2, .step t h1 h3, h4⟩

theorem Alike.mreach {s : Sys α} {w w' : Machine α} (h : Alike L s w) (hr : Machine.Reach w w') :
    ∃ s', Sys.TReach s s' ∧ Alike L s' w' := by
  induction hr with
  | refl => exact ⟨s, .refl, h⟩
  | step t _ hs ih =>
    obtain ⟨s1, h1, h2⟩ := ih
    obtain ⟨s2, h3, h4⟩ := h2.back hs
    exact ⟨s2, .step t h1 h3, h4⟩

/-- No thread panics. -/
theorem Alike.alive {c a : Sys α} {w : Machine α} (h : Alike L a w) (hsim : Sys.TSim c a) (t : Nat) (f : Fault) :
    c.th t ≠ .panic f ∧ c.th t ≠ .died f := by
  have hi := h.th t
  cases hsim.mode t with
  | idle h1 h2 =>
    rw [h2] at hi
    constructor <;> intro e <;> rw [e] at hi <;> cases hi
  | sect r h1 h2 h3 h4 =>
    constructor
    · intro e; rw [e] at h4; simp only [finish, Option.some.injEq, Prod.mk.injEq] at h4
      rw [(h.fresh r).2.1] at h4; cases h4.2.2
    · intro e; rw [e] at h4; simp [finish] at h4
  | pend r o k h1 h2 h3 h4 h5 h6 =>
    rcases h6 with h6 | ⟨h6, -⟩ <;> rw [h6] <;> constructor <;> intro e <;> cases e
  | both r o k h0 h1 h2 h3 h4 h5 h6 h7 =>
    rcases h7 with ⟨h7, -⟩ | ⟨h7, -⟩ | h7 | ⟨h7, -⟩ <;> rw [h7] <;> constructor <;> intro e <;> cases e

/-- No mutex is poisoned. -/
theorem Alike.clean {c a : Sys α} {w : Machine α} (h : Alike L a w) (hsim : Sys.TSim c a) (r : Nat) :
    (c.mem r).poisoned = false := by
  cases e : (c.mem r).owner with
  | none => rw [← hsim.free r e]; exact (h.fresh r).2.1
  | some t =>
    cases hsim.mode t with
    | idle h1 h2 => exact absurd e (h1 r)
    | sect x h1 h2 h3 h4 => rw [(h1 r).1 e]; exact h2
    | pend x o k h1 h2 h3 h4 h5 h6 => rw [(h1 r).1 e]; exact h2
    | both x o k h0 h1 h2 h3 h4 h5 h6 h7 =>
      rcases (h1 r).1 e with rfl | rfl
      · exact h2
      · exact h4

end
end PacketRs
