import Verif.Props.Tally
import Verif.Spec.Seqlock
/-!
# C130: readers that check a version before and after see the headers as they were between two edits
-/
namespace PacketRs
open Spec

section
variable {α β : Type} {D : Nat → Prop}

/-- One thread of the machine after another. -/
def chain : Micro α → (α → Micro β) → Micro β
  | .done a, h => h a
  | .read r i k, h => .read r i fun b => chain (k b) h
  | .write r i b k, h => .write r i b (chain k h)
  | .readAll r k, h => .readAll r fun v => chain (k v) h
  | .copy r o k, h => .copy r o (chain k h)

theorem chain_readBits (r : Nat) (h : α → Micro β) : ∀ (n lo : Nat) (k : List Bool → Micro α),
    chain (readBits r lo n k) h = readBits r lo n fun bs => chain (k bs) h
  | 0, _, _ => rfl
  | n + 1, lo, k => by
    simp only [readBits, chain]
    congr 1; funext b
    exact chain_readBits r h n _ _

theorem chain_writeBits (r hi : Nat) (v : Nat → Bool) (h : α → Micro β) (k : Micro α) : ∀ (n j : Nat),
    chain (writeBits r hi v k n j) h = writeBits r hi v (chain k h) n j
  | 0, _ => rfl
  | n + 1, j => by simp only [writeBits, chain, chain_writeBits r hi v h k n (j + 1)]

theorem chain_readOctets (r : Nat) (h : α → Micro β) : ∀ (n lo : Nat) (k : Bytes → Micro α),
    chain (readOctets r lo n k) h = readOctets r lo n fun v => chain (k v) h
  | 0, _, _ => rfl
  | n + 1, lo, k => by
    simp only [readOctets, chain_readBits]
    congr 1; funext bs
    exact chain_readOctets r h n _ _

theorem chain_writeOctets (r : Nat) (h : α → Micro β) (k : Micro α) : ∀ (v : Bytes) (lo : Nat),
    chain (writeOctets r lo v k) h = writeOctets r lo v (chain k h)
  | [], _ => rfl
  | b :: v, lo => by simp only [writeOctets, chain_writeBits, chain_writeOctets r h k v]

theorem micro_andThen (h : α → Client β) : ∀ c : Client α, micro (andThen c h) = chain (micro c) fun a => micro (h a)
  | .done _ => rfl
  | .get r f k => by
    simp only [andThen, micro, chain_readBits]
    congr 1; funext bs; exact micro_andThen h _
  | .set r f v k => by simp only [andThen, micro, chain_writeBits, micro_andThen h k]
  | .bytes r msb lsb k => by
    simp only [andThen, micro, chain_readOctets]
    congr 1; funext bs; exact micro_andThen h _
  | .setBytes r msb lsb v k => by simp only [andThen, micro, chain_writeOctets, micro_andThen h k]
  | .toVec r k => by
    simp only [andThen, micro, chain]
    congr 1; funext v; exact micro_andThen h _
  | .replace r o k => by simp only [andThen, micro, chain, micro_andThen h k]

theorem inside_andThen {L : Nat → Nat} {h : α → Client β} (hh : ∀ a, Inside L (h a)) : ∀ c : Client α, Inside L c → Inside L (andThen c h)
  | .done a, _ => hh a
  | .get _ _ k, ⟨h1, h2, h3, h4, h5⟩ => ⟨h1, h2, h3, h4, fun v => inside_andThen hh (k v) (h5 v)⟩
  | .set _ _ _ k, ⟨h1, h2, h3, h4⟩ => ⟨h1, h2, h3, inside_andThen hh k h4⟩
  | .bytes _ _ _ k, ⟨h1, h2, h3, h4, h5, h6⟩ => ⟨h1, h2, h3, h4, h5, fun v => inside_andThen hh (k v) (h6 v)⟩
  | .setBytes _ _ _ _ k, ⟨h1, h2, h3, h4, h5, h6⟩ => ⟨h1, h2, h3, h4, h5, inside_andThen hh k h6⟩
  | .toVec _ k, ⟨h1, h2⟩ => ⟨h1, fun v => inside_andThen hh (k v) (h2 v)⟩
  | .replace _ _ k, ⟨h1, h2, h3, h4, h5⟩ => ⟨h1, h2, h3, h4, inside_andThen hh k h5⟩

/-- All steps are on vectors in `D`. -/
def StepsOn (D : Nat → Prop) : Micro α → Prop
  | .done _ => True
  | .read r _ k => D r ∧ ∀ b, StepsOn D (k b)
  | .write r _ _ k => D r ∧ StepsOn D k
  | .readAll r k => D r ∧ ∀ v, StepsOn D (k v)
  | .copy r o k => D r ∧ D o ∧ r ≠ o ∧ StepsOn D k

/-- All steps read vectors in `D`. -/
def PeeksOn (D : Nat → Prop) : Micro α → Prop
  | .done _ => True
  | .read r _ k => D r ∧ ∀ b, PeeksOn D (k b)
  | .readAll r k => D r ∧ ∀ v, PeeksOn D (k v)
  | _ => False

theorem stepsOn_readBits {r : Nat} (hr : D r) : ∀ (n lo : Nat) (k : List Bool → Micro α), (∀ bs, StepsOn D (k bs)) → StepsOn D (readBits r lo n k)
  | 0, _, _, h => h []
  | n + 1, _, _, h => ⟨hr, fun _ => stepsOn_readBits hr n _ _ fun _ => h _⟩

theorem stepsOn_writeBits {r : Nat} (hr : D r) (hi : Nat) (v : Nat → Bool) {k : Micro α} (h : StepsOn D k) : ∀ (n j : Nat),
    StepsOn D (writeBits r hi v k n j)
  | 0, _ => h
  | n + 1, j => ⟨hr, stepsOn_writeBits hr hi v h n (j + 1)⟩

theorem stepsOn_readOctets {r : Nat} (hr : D r) : ∀ (n lo : Nat) (k : Bytes → Micro α), (∀ v, StepsOn D (k v)) → StepsOn D (readOctets r lo n k)
  | 0, _, _, h => h []
  | n + 1, _, _, h => stepsOn_readBits hr _ _ _ fun _ => stepsOn_readOctets hr n _ _ fun _ => h _

theorem stepsOn_writeOctets {r : Nat} (hr : D r) {k : Micro α} (h : StepsOn D k) : ∀ (v : Bytes) (lo : Nat), StepsOn D (writeOctets r lo v k)
  | [], _ => h
  | _ :: v, _ => stepsOn_writeBits hr _ _ (stepsOn_writeOctets hr h v _) _ _

theorem stepsOn_micro : ∀ c : Client α, CallsOn D c → StepsOn D (micro c)
  | .done _, _ => trivial
  | .get _ _ k, h => stepsOn_readBits h.1 _ _ _ fun _ => stepsOn_micro (k _) (h.2 _)
  | .set _ _ _ k, h => stepsOn_writeBits h.1 _ _ (stepsOn_micro k h.2) _ _
  | .bytes _ _ _ k, h => stepsOn_readOctets h.1 _ _ _ fun _ => stepsOn_micro (k _) (h.2 _)
  | .setBytes _ _ _ _ k, h => stepsOn_writeOctets h.1 (stepsOn_micro k h.2) _ _
  | .toVec _ k, h => ⟨h.1, fun _ => stepsOn_micro (k _) (h.2 _)⟩
  | .replace _ _ k, h => ⟨h.1, h.2.1, h.2.2.1, stepsOn_micro k h.2.2.2⟩

theorem peeksOn_readBits {r : Nat} (hr : D r) : ∀ (n lo : Nat) (k : List Bool → Micro α), (∀ bs, PeeksOn D (k bs)) → PeeksOn D (readBits r lo n k)
  | 0, _, _, h => h []
  | n + 1, _, _, h => ⟨hr, fun _ => peeksOn_readBits hr n _ _ fun _ => h _⟩

theorem peeksOn_readOctets {r : Nat} (hr : D r) : ∀ (n lo : Nat) (k : Bytes → Micro α), (∀ v, PeeksOn D (k v)) → PeeksOn D (readOctets r lo n k)
  | 0, _, _, h => h []
  | n + 1, _, _, h => peeksOn_readBits hr _ _ _ fun _ => peeksOn_readOctets hr n _ _ fun _ => h _

theorem peeksOn_micro : ∀ c : Client α, LooksOn D c → PeeksOn D (micro c)
  | .done _, _ => trivial
  | .get _ _ k, h => peeksOn_readBits h.1 _ _ _ fun _ => peeksOn_micro (k _) (h.2 _)
  | .bytes _ _ _ k, h => peeksOn_readOctets h.1 _ _ _ fun _ => peeksOn_micro (k _) (h.2 _)
  | .toVec _ k, h => ⟨h.1, fun _ => peeksOn_micro (k _) (h.2 _)⟩
  | .set .., h => h.elim
  | .setBytes .., h => h.elim
  | .replace .., h => h.elim

/-- The contents are the same in `D`. -/
def SameOn (D : Nat → Prop) (c d : Nat → Bytes) : Prop := ∀ r, D r → c r = d r

/-- A step inside an edit. -/
theorem edit_step {c0 c : Nat → Bytes} {p0 p : Micro α} {h : α → Micro β} {w w' : Machine β} {t : Nat} (hp : StepsOn D p)
    (hnd : ∀ a, p ≠ .done a) (hc : SameOn D c w.cont) (hw : w.th t = chain p h) (ha : Lonely c0 p0 c p) (hs : Machine.Step t w w') :
    ∃ p' c', StepsOn D p' ∧ SameOn D c' w'.cont ∧ w'.th t = chain p' h ∧ Lonely c0 p0 c' p' ∧ (∀ r, ¬ D r → w'.cont r = w.cont r) ∧
      ∀ u, u ≠ t → w'.th u = w.th u := by
  cases p with
  | done a => exact absurd rfl (hnd a)
  | read r i k =>
    rcases hs with ⟨g, g1, g2⟩ | ⟨g, _, _, _⟩ | ⟨g, _, _⟩ | ⟨g, _, _⟩ <;> rw [hw] at g <;> cases g
    refine ⟨k (netBit (c r) i), c, hp.2 _, by rw [g1]; exact hc, ?_, .read ha, fun _ _ => by rw [g1], g2.2⟩
    rw [g2.1, hc r hp.1]
  | write r i b k =>
    rcases hs with ⟨g, _, _⟩ | @⟨_, _, _, _, e, g, g1, g2, g3⟩ | ⟨g, _, _⟩ | ⟨g, _, _⟩ <;> rw [hw] at g <;> cases g
    refine ⟨k, fun z => if z = r then e else c z, hp.2, fun z hz => ?_, g3.1, .write ha (e := e) (by rw [hc r hp.1]; exact g1) ⟨if_pos rfl, fun z hz => if_neg hz⟩,
      fun z hz => g2.2 z fun e => hz (e ▸ hp.1), g3.2⟩
    dsimp only
    by_cases e : z = r
    · subst e; rw [if_pos rfl, g2.1]
    · rw [if_neg e, g2.2 z e]; exact hc z hz
  | readAll r k =>
    rcases hs with ⟨g, _, _⟩ | ⟨g, _, _, _⟩ | ⟨g, g1, g2⟩ | ⟨g, _, _⟩ <;> rw [hw] at g <;> cases g
    refine ⟨k (c r), c, hp.2 _, by rw [g1]; exact hc, ?_, .readAll ha, fun _ _ => by rw [g1], g2.2⟩
    rw [g2.1, hc r hp.1]
  | copy r o k =>
    rcases hs with ⟨g, _, _⟩ | ⟨g, _, _, _⟩ | ⟨g, _, _⟩ | ⟨g, g1, g2⟩ <;> rw [hw] at g <;> cases g
    refine ⟨k, fun z => if z = r then c o else c z, hp.2.2.2, fun z hz => ?_, g2.1, .copy ha ⟨if_pos rfl, fun z hz => if_neg hz⟩,
      fun z hz => g1.2 z fun e => hz (e ▸ hp.1), g2.2⟩
    dsimp only
    by_cases e : z = r
    · subst e; rw [if_pos rfl, g1.1]; exact hc o hp.2.1
    · rw [if_neg e, g1.2 z e]; exact hc z hz

/-- A step of somebody who reads. -/
theorem peek_step {p : Micro α} {h : α → Micro β} {w w' : Machine β} {t : Nat} (hp : PeeksOn D p)
    (hnd : ∀ a, p ≠ .done a) (hw : w.th t = chain p h) (hs : Machine.Step t w w') :
    ∃ p', PeeksOn D p' ∧ w'.th t = chain p' h ∧ w'.cont = w.cont ∧ (∀ u, u ≠ t → w'.th u = w.th u) ∧
      ∀ c c0 p0, SameOn D c w.cont → Lonely c0 p0 c p → Lonely c0 p0 c p' := by
  cases p with
  | done a => exact absurd rfl (hnd a)
  | read r i k =>
    rcases hs with ⟨g, g1, g2⟩ | ⟨g, _, _, _⟩ | ⟨g, _, _⟩ | ⟨g, _, _⟩ <;> rw [hw] at g <;> cases g
    refine ⟨k (netBit (w.cont r) i), hp.2 _, g2.1, g1, g2.2, fun c c0 p0 hc ha => ?_⟩
    rw [← hc r hp.1]; exact .read ha
  | readAll r k =>
    rcases hs with ⟨g, _, _⟩ | ⟨g, _, _, _⟩ | ⟨g, g1, g2⟩ | ⟨g, _, _⟩ <;> rw [hw] at g <;> cases g
    refine ⟨k (w.cont r), hp.2 _, g2.1, g1, g2.2, fun c c0 p0 hc ha => ?_⟩
    rw [← hc r hp.1]; exact .readAll ha
  | write => exact hp.elim
  | copy => exact hp.elim

/-- Where a reader is, when version `2 * j` (or the odd one after it, if `busy`) is in force and `c` are the contents after `j` edits. -/
inductive SeqReaderAt (D : Nat → Prop) (g : Nat) (V : Nat → Bytes) (even : Bytes → Bool) (c0 : Nat → Bytes) (es : List (Client Unit)) (rd : Client α)
    (j : Nat) (busy : Bool) (c : Nat → Bytes) : Micro (Option α) → Prop where
  | start : SeqReaderAt D g V even c0 es rd j busy c (micro (seqReader g even rd))
  | mid (i : Nat) (p : Micro α) : i ≤ j → PeeksOn D p → (i = j → busy = false → Lonely c (micro rd) c p) →
      SeqReaderAt D g V even c0 es rd j busy c
        (chain p fun a => .readAll g fun v' => .done (if v' = V (2 * i) then some a else none))
  | fail : SeqReaderAt D g V even c0 es rd j busy c (.done none)
  | good (a : α) (j' : Nat) (c' : Nat → Bytes) : j' ≤ es.length → AfterEdits c0 (es.take j') c' → Lonely c' (micro rd) c' (.done a) →
      SeqReaderAt D g V even c0 es rd j busy c (.done (some a))

/-- The writer has gone on. -/
theorem SeqReaderAt.onward {g : Nat} {V : Nat → Bytes} {even : Bytes → Bool} {c0 : Nat → Bytes} {es : List (Client Unit)} {rd : Client α}
    {j j' : Nat} {busy busy' : Bool} {c c' : Nat → Bytes} {x : Micro (Option α)} (h : SeqReaderAt D g V even c0 es rd j busy c x)
    (hj : j < j' ∨ j = j' ∧ busy' = true) : SeqReaderAt D g V even c0 es rd j' busy' c' x := by
  cases h with
  | start => exact .start
  | mid i p h1 h2 _ =>
    refine .mid i p (by omega) h2 fun e hb => ?_
    rcases hj with hj | ⟨_, hj⟩
    · omega
    · rw [hj] at hb; cases hb
  | fail => exact .fail
  | good a j'' c'' h1 h2 h3 => exact .good a j'' c'' h1 h2 h3

/-- The state of all. -/
structure SeqState (D : Nat → Prop) (g : Nat) (q : Nat → Nat) (V : Nat → Bytes) (even : Bytes → Bool) (c0 : Nat → Bytes) (es : List (Client Unit))
    (rds : List (Client α)) (w : Machine (Option α)) (j : Nat) (busy : Bool) (c : Nat → Bytes) : Prop where
  after : AfterEdits c0 (es.take j) c
  version : w.cont g = V (2 * j + busy.toNat)
  versions : ∀ k, w.cont (q k) = V k
  writer : (busy = false ∧ j ≤ es.length ∧ SameOn D c w.cont ∧ w.th 0 = micro (seqWriter g q j (es.drop j))) ∨
    busy = true ∧ ∃ (e : Client Unit) (p : Micro Unit) (d : Nat → Bytes), es[j]? = some e ∧ StepsOn D p ∧ SameOn D d w.cont ∧ Lonely c (micro e) d p ∧
      w.th 0 = chain p fun _ => .copy g (q (2 * j + 2)) (micro (seqWriter g q (j + 1) (es.drop (j + 1))))
  readers : ∀ t rd, rds[t]? = some rd → SeqReaderAt D g V even c0 es rd j busy c (w.th (t + 1))
  others : ∀ t, rds[t]? = none → w.th (t + 1) = .done none

theorem SeqState.step {g : Nat} {q : Nat → Nat} {V : Nat → Bytes} {even : Bytes → Bool} {c0 : Nat → Bytes} {es : List (Client Unit)}
    {rds : List (Client α)} {w w' : Machine (Option α)} {j : Nat} {busy : Bool} {c : Nat → Bytes}
    (hg : ¬ D g) (hq : ∀ k, ¬ D (q k)) (hqg : ∀ k, q k ≠ g) (hes : ∀ e ∈ es, CallsOn D e) (hrd : ∀ rd ∈ rds, LooksOn D rd)
    (hV : ∀ i k, i ≤ 2 * es.length → k ≤ 2 * es.length → V i = V k → i = k)
    (heven : ∀ k, k ≤ 2 * es.length → (even (V k) = true ↔ k % 2 = 0))
    (h : SeqState D g q V even c0 es rds w j busy c) {t : Nat} (hs : Machine.Step t w w') :
    ∃ j' busy' c', SeqState D g q V even c0 es rds w' j' busy' c' := by
  cases t with
  | zero =>
    rcases h.writer with ⟨rfl, hj, hc, hw⟩ | ⟨rfl, e, p, d, he, hp, hd, ha, hw⟩
    · -- between two edits
      cases hdr : es.drop j with
      | nil =>
        rw [hdr] at hw
        have hw : w.th 0 = .done none := hw
        rcases hs with ⟨g, _, _⟩ | ⟨g, _, _, _⟩ | ⟨g, _, _⟩ | ⟨g, _, _⟩ <;> rw [hw] at g <;> cases g
      | cons e rest =>
        have he : es[j]? = some e := by
          have := congrArg List.head? hdr
          rwa [List.head?_drop] at this
        have hrest : es.drop (j + 1) = rest := by
          rw [← List.drop_drop, hdr]; rfl
        rw [hdr] at hw
        have hw : w.th 0 = .copy g (q (2 * j + 1)) (micro (andThen e fun _ => .replace g (q (2 * j + 2)) (seqWriter g q (j + 1) rest))) := hw
        rcases hs with ⟨x, _, _⟩ | ⟨x, _, _, _⟩ | ⟨x, _, _⟩ | ⟨x, g1, g2⟩ <;> rw [hw] at x <;> cases x
        refine ⟨j, true, c, ⟨h.after, ?_, fun k => ?_, .inr ⟨rfl, e, micro e, c, he, ?_, fun r hr => ?_, .refl, ?_⟩, fun t rd ht => ?_, fun t ht => ?_⟩⟩
        · rw [g1.1, h.versions]; rfl
        · rw [g1.2 _ (hqg k), h.versions]
        · exact stepsOn_micro e (hes e (List.mem_of_getElem? he))
        · rw [g1.2 r fun e => hg (e ▸ hr)]; exact hc r hr
        · rw [g2.1, micro_andThen, hrest]; rfl
        · rw [g2.2 (t + 1) (by omega)]; exact (h.readers t rd ht).onward (.inr ⟨rfl, rfl⟩)
        · rw [g2.2 (t + 1) (by omega)]; exact h.others t ht
    · have hlt : j < es.length := (List.getElem?_eq_some_iff.mp he).1
      by_cases hnd : ∃ a, p = .done a
      · -- the edit is finished
        obtain ⟨a, rfl⟩ := hnd
        have hw : w.th 0 = .copy g (q (2 * j + 2)) (micro (seqWriter g q (j + 1) (es.drop (j + 1)))) := hw
        rcases hs with ⟨x, _, _⟩ | ⟨x, _, _, _⟩ | ⟨x, _, _⟩ | ⟨x, g1, g2⟩ <;> rw [hw] at x <;> cases x
        refine ⟨j + 1, false, d, ⟨?_, ?_, fun k => ?_, .inl ⟨rfl, hlt, fun r hr => ?_, g2.1⟩, fun t rd ht => ?_, fun t ht => ?_⟩⟩
        · rw [List.take_add_one, he]
          exact .more h.after ha
        · rw [g1.1, h.versions]; rfl
        · rw [g1.2 _ (hqg k), h.versions]
        · rw [g1.2 r fun e => hg (e ▸ hr)]; exact hd r hr
        · rw [g2.2 (t + 1) (by omega)]; exact (h.readers t rd ht).onward (.inl (by omega))
        · rw [g2.2 (t + 1) (by omega)]; exact h.others t ht
      · obtain ⟨p', d', h1, h2, h3, h4, h5, h6⟩ := edit_step hp (fun a e => hnd ⟨a, e⟩) hd hw ha hs
        refine ⟨j, true, c, ⟨h.after, ?_, fun k => ?_, .inr ⟨rfl, e, p', d', he, h1, h2, h4, h3⟩, fun t rd ht => ?_, fun t ht => ?_⟩⟩
        · rw [h5 g hg, h.version]
        · rw [h5 _ (hq k), h.versions]
        · rw [h6 (t + 1) (by omega)]; exact h.readers t rd ht
        · rw [h6 (t + 1) (by omega)]; exact h.others t ht
  | succ t =>
    have hle : 2 * j + busy.toNat ≤ 2 * es.length ∧ j ≤ es.length := by
      rcases h.writer with ⟨rfl, hj, -⟩ | ⟨rfl, e, p, d, he, -⟩
      · exact ⟨by simp; omega, hj⟩
      · have := (List.getElem?_eq_some_iff.mp he).1
        exact ⟨by simp; omega, by omega⟩
    cases hr : rds[t]? with
    | none =>
      have hw := h.others t hr
      rcases hs with ⟨g, _, _⟩ | ⟨g, _, _, _⟩ | ⟨g, _, _⟩ | ⟨g, _, _⟩ <;> rw [hw] at g <;> cases g
    | some rd =>
      -- it is enough to say where the reader is then
      suffices hx : w'.cont = w.cont ∧ (∀ u, u ≠ t + 1 → w'.th u = w.th u) ∧ SeqReaderAt D g V even c0 es rd j busy c (w'.th (t + 1)) by
        obtain ⟨x1, x2, x3⟩ := hx
        refine ⟨j, busy, c, ⟨h.after, by rw [x1]; exact h.version, by rw [x1]; exact h.versions, ?_, fun u rd' hu => ?_, fun u hu => ?_⟩⟩
        · rw [x1, x2 0 (by omega)]; exact h.writer
        · by_cases e : u = t
          · subst e; rw [hr] at hu; cases hu; exact x3
          · rw [x2 (u + 1) (by omega)]; exact h.readers u rd' hu
        · rw [x2 (u + 1) fun e => by cases e; rw [hr] at hu; cases hu]; exact h.others u hu
      have hR := h.readers t rd hr
      generalize hx : w.th (t + 1) = x at hR
      cases hR with
      | start =>
        have hx : w.th (t + 1) = .readAll g fun v => micro (if even v then andThen rd fun a => .toVec g fun v' => .done (if v' = v then some a else none) else .done none) := hx
        rcases hs with ⟨y, _, _⟩ | ⟨y, _, _, _⟩ | ⟨y, g1, g2⟩ | ⟨y, _, _⟩ <;> rw [hx] at y <;> cases y
        refine ⟨g1, g2.2, ?_⟩
        rw [g2.1, h.version]
        dsimp only
        by_cases c : even (V (2 * j + busy.toNat)) = true
        · rw [if_pos c, micro_andThen]
          have hb : busy = false := by
            have := (heven _ hle.1).mp c
            cases busy
            · rfl
            · simp at this
          subst hb
          exact .mid j (micro rd) (Nat.le_refl _) (peeksOn_micro rd (hrd rd (List.mem_of_getElem? hr))) fun _ _ => .refl
        · rw [if_neg c]; exact .fail
      | mid i p h1 h2 h3 =>
        by_cases hnd : ∃ a, p = .done a
        · obtain ⟨a, rfl⟩ := hnd
          have hx : w.th (t + 1) = .readAll g fun v' => .done (if v' = V (2 * i) then some a else none) := hx
          rcases hs with ⟨y, _, _⟩ | ⟨y, _, _, _⟩ | ⟨y, g1, g2⟩ | ⟨y, _, _⟩ <;> rw [hx] at y <;> cases y
          refine ⟨g1, g2.2, ?_⟩
          rw [g2.1, h.version]
          dsimp only
          by_cases c : V (2 * j + busy.toNat) = V (2 * i)
          · rw [if_pos c]
            have := hV _ _ hle.1 (by omega) c
            have hb : busy = false := by
              cases busy
              · rfl
              · simp at this; omega
            subst hb
            have hij : i = j := by simp at this; omega
            exact .good a j _ hle.2 h.after (h3 hij rfl)
          · rw [if_neg c]; exact .fail
        · obtain ⟨p', k1, k2, k3, k4, k5⟩ := peek_step h2 (fun a e => hnd ⟨a, e⟩) hx hs
          refine ⟨k3, k4, ?_⟩
          rw [k2]
          refine .mid i p' h1 k1 fun e hb => ?_
          rcases h.writer with ⟨-, -, hc, -⟩ | ⟨hb', -⟩
          · exact k5 _ _ _ hc (h3 e hb)
          · rw [hb] at hb'; cases hb'
      | fail => rcases hs with ⟨g, _, _⟩ | ⟨g, _, _, _⟩ | ⟨g, _, _⟩ | ⟨g, _, _⟩ <;> rw [hx] at g <;> cases g
      | good => rcases hs with ⟨g, _, _⟩ | ⟨g, _, _, _⟩ | ⟨g, _, _⟩ | ⟨g, _, _⟩ <;> rw [hx] at g <;> cases g

theorem inside_seqWriter {L : Nat → Nat} {g : Nat} {q : Nat → Nat} (hqg : ∀ k, q k ≠ g) (hL : ∀ k, L (q k) = L g) :
    ∀ (es : List (Client Unit)) (i : Nat), (∀ e ∈ es, Inside L e) → Inside L (seqWriter (α := α) g q i es)
  | [], _, _ => trivial
  | e :: es, i, h => by
    refine ⟨(hqg _).symm, (hL _).symm, fun _ _ => trivial, fun _ _ => .inl trivial, ?_⟩
    refine inside_andThen (h := fun _ => .replace g (q (2 * i + 2)) (seqWriter g q (i + 1) es)) (fun _ => ?_) e (h e (List.mem_cons_self ..))
    exact ⟨(hqg _).symm, (hL _).symm, fun _ _ => trivial, fun _ _ => .inl trivial,
      inside_seqWriter hqg hL es (i + 1) fun e he => h e (List.mem_cons_of_mem _ he)⟩

theorem inside_seqThreads {L : Nat → Nat} {g : Nat} {q : Nat → Nat} {es : List (Client Unit)} {even : Bytes → Bool} {rds : List (Client α)}
    (hqg : ∀ k, q k ≠ g) (hL : ∀ k, L (q k) = L g) (hes : ∀ e ∈ es, Inside L e) (hrd : ∀ rd ∈ rds, Inside L rd) (t : Nat) :
    Inside L (seqThreads g q es even rds t) := by
  match t with
  | 0 => exact inside_seqWriter hqg hL es 0 hes
  | t + 1 =>
    show Inside L (match rds[t]? with | some rd => seqReader g even rd | none => .done none)
    cases hr : rds[t]? with
    | none => trivial
    | some rd =>
      refine ⟨fun _ _ => .inl trivial, fun v => ?_⟩
      dsimp only
      split
      · exact inside_andThen (h := fun a => .toVec g fun v' => .done (if v' = v then some a else none))
          (fun a => ⟨fun _ _ => .inl trivial, fun _ => trivial⟩) rd (hrd rd (List.mem_of_getElem? hr))
      · trivial

theorem seq_reach (m : Store) (g : Nat) (q : Nat → Nat) (es : List (Client Unit)) (even : Bytes → Bool)
    (rds : List (Client α)) (D : Nat → Prop) (hg : ¬ D g) (hq : ∀ k, ¬ D (q k)) (hqg : ∀ k, q k ≠ g)
    (hes : ∀ e ∈ es, CallsOn D e) (hrd : ∀ rd ∈ rds, LooksOn D rd)
    (hV : ∀ i k, i ≤ 2 * es.length → k ≤ 2 * es.length → (m (q i)).bytes = (m (q k)).bytes → i = k)
    (heven : ∀ k, k ≤ 2 * es.length → (even (m (q k)).bytes = true ↔ k % 2 = 0)) (h0 : (m g).bytes = (m (q 0)).bytes) {w : Machine (Option α)}
    (hw : Machine.Reach ⟨fun r => (m r).bytes, fun t => micro (seqThreads g q es even rds t)⟩ w) :
    ∃ j busy c, SeqState D g q (fun k => (m (q k)).bytes) even (fun r => (m r).bytes) es rds w j busy c := by
  induction hw with
  | refl =>
    refine ⟨0, false, fun r => (m r).bytes, ⟨.none, h0, fun _ => rfl, .inl ⟨rfl, Nat.zero_le _, fun _ _ => rfl, rfl⟩, fun t rd ht => ?_, fun t ht => ?_⟩⟩
    · simp only [seqThreads, ht]; exact .start
    · simp only [seqThreads, ht]; rfl
  | step t _ hs ih =>
    obtain ⟨j, busy, c, h⟩ := ih
    exact h.step hg hq hqg hes hrd hV heven hs

/-- The writer is about to replace a header by another one, if by any; nobody else replaces anything. -/
theorem SeqState.copies {g : Nat} {q : Nat → Nat} {V : Nat → Bytes} {even : Bytes → Bool} {c0 : Nat → Bytes} {es : List (Client Unit)}
    {rds : List (Client α)} {w : Machine (Option α)} {j : Nat} {busy : Bool} {c : Nat → Bytes} (hqg : ∀ k, q k ≠ g)
    (h : SeqState D g q V even c0 es rds w j busy c) {t r o : Nat} {p : Micro (Option α)} (ht : w.th t = .copy r o p) : t = 0 ∧ r ≠ o := by
  cases t with
  | zero =>
    refine ⟨rfl, ?_⟩
    rcases h.writer with ⟨-, -, -, hw⟩ | ⟨-, e, p', d, -, hp, -, -, hw⟩ <;> rw [ht] at hw
    · cases hd : es.drop j with
      | nil => rw [hd] at hw; cases hw
      | cons e rest =>
        rw [hd] at hw
        simp only [seqWriter, micro, Micro.copy.injEq] at hw
        rw [hw.1, hw.2.1]; exact (hqg _).symm
    · cases p' with
      | done a =>
        simp only [chain, Micro.copy.injEq] at hw
        rw [hw.1, hw.2.1]; exact (hqg _).symm
      | copy r' o' k =>
        simp only [chain, Micro.copy.injEq] at hw
        rw [hw.1, hw.2.1]; exact hp.2.2.1
      | _ => simp [chain] at hw
  | succ t =>
    cases hr : rds[t]? with
    | none => rw [h.others t hr] at ht; cases ht
    | some rd =>
      have hR := h.readers t rd hr
      rw [ht] at hR
      generalize hx : (Micro.copy r o p : Micro (Option α)) = x at hR
      cases hR with
      | start => cases hx
      | mid i p' _ hp _ =>
        cases p' with
        | copy => exact hp.elim
        | _ => simp [chain] at hx
      | fail => cases hx
      | good => cases hx

/-- C130.  A writer edits any number of headers in place, with any accessors, and puts a new version into a header of its own before
and after each edit with `replace`; readers look at the version with `to_vec` before and after they read, and return nothing if it is odd or has
changed.  Then a reader that returns something returns what it would have returned alone, of the headers as they are after some of
the edits, each made from beginning to end by the writer alone. -/
theorem C130_readers_agree (chk : Bool) {L : Nat → Nat} (m : Store) (hm : Fresh L m) (g : Nat) (q : Nat → Nat) (es : List (Client Unit)) (even : Bytes → Bool)
    (rds : List (Client α)) (D : Nat → Prop) (hg : ¬ D g) (hq : ∀ k, ¬ D (q k)) (hqg : ∀ k, q k ≠ g) (hL : ∀ k, L (q k) = L g)
    (hes : ∀ e ∈ es, Inside L e ∧ CallsOn D e) (hrd : ∀ rd ∈ rds, Inside L rd ∧ LooksOn D rd)
    (hV : ∀ i k, i ≤ 2 * es.length → k ≤ 2 * es.length → (m (q i)).bytes = (m (q k)).bytes → i = k)
    (heven : ∀ k, k ≤ 2 * es.length → (even (m (q k)).bytes = true ↔ k % 2 = 0)) (h0 : (m g).bytes = (m (q 0)).bytes)
    {s : Sys (Option α)} (hs : Sys.Reach ⟨m, fun t => (seqThreads g q es even rds t).prog chk⟩ s) (hF : s.Final) :
    ∀ t rd, rds[t]? = some rd → s.th (t + 1) = .ret none ∨ ∃ a, s.th (t + 1) = .ret (some a) ∧
      ∃ j c, j ≤ es.length ∧ AfterEdits (fun r => (m r).bytes) (es.take j) c ∧ Lonely c (micro rd) c (.done a) := by
  have hin := inside_seqThreads (even := even) (rds := rds) hqg hL (fun e he => (hes e he).1) fun rd h => (hrd rd h).1
  obtain ⟨res, hres⟩ := all_returned chk m hm _ hin hs hF
  have hw := (C65_atomic_bits chk m hm _ hin res fun r => (s.mem r).bytes).1 ⟨s, hs, hres, fun _ => rfl⟩
  obtain ⟨j, busy, c, h⟩ := seq_reach m g q es even rds D hg hq hqg (fun e he => (hes e he).2) (fun rd h => (hrd rd h).2) hV heven h0 hw
  intro t rd ht
  have hR := h.readers t rd ht
  rw [hres]
  dsimp only at hR
  generalize hx : (Micro.done (res (t + 1)) : Micro (Option α)) = x at hR
  cases hR with
  | start => cases hx
  | mid i p _ _ _ => cases p <;> cases hx
  | fail =>
    simp only [Micro.done.injEq] at hx
    rw [hx]; exact .inl rfl
  | good a j' c' h1 h2 h3 =>
    simp only [Micro.done.injEq] at hx
    rw [hx]
    exact .inr ⟨a, rfl, j', c', h1, h2, h3⟩

/-- C130.  Such threads always finish: no run is infinite, and none comes to a deadlock, although the writer may replace headers by
each other in its edits. -/
theorem C130_finish (chk : Bool) {L : Nat → Nat} (m : Store) (hm : Fresh L m) (g : Nat) (q : Nat → Nat) (es : List (Client Unit)) (even : Bytes → Bool)
    (rds : List (Client α)) (D : Nat → Prop) (hg : ¬ D g) (hq : ∀ k, ¬ D (q k)) (hqg : ∀ k, q k ≠ g) (hL : ∀ k, L (q k) = L g)
    (hes : ∀ e ∈ es, Inside L e ∧ CallsOn D e) (hrd : ∀ rd ∈ rds, Inside L rd ∧ LooksOn D rd)
    (hV : ∀ i k, i ≤ 2 * es.length → k ≤ 2 * es.length → (m (q i)).bytes = (m (q k)).bytes → i = k)
    (heven : ∀ k, k ≤ 2 * es.length → (even (m (q k)).bytes = true ↔ k % 2 = 0)) (h0 : (m g).bytes = (m (q 0)).bytes) :
    (¬ ∃ s, Sys.Reach ⟨m, fun t => (seqThreads g q es even rds t).prog chk⟩ s ∧ Stuck s) ∧
    ¬ ∃ (σ : Nat → Sys (Option α)) (sch : Nat → Nat), σ 0 = ⟨m, fun t => (seqThreads g q es even rds t).prog chk⟩ ∧
      ∀ i, (σ i).step (sch i) = some (σ (i + 1)) := by
  have hin := inside_seqThreads (even := even) (rds := rds) hqg hL (fun e he => (hes e he).1) fun rd h => (hrd rd h).1
  have hn : ∀ t, rds.length + 1 ≤ t → ∃ a, seqThreads g q es even rds t = .done a := by
    intro t ht
    obtain ⟨t, rfl⟩ : ∃ u, t = u + 1 := ⟨t - 1, by omega⟩
    exact ⟨none, by simp only [seqThreads, List.getElem?_eq_none (show rds.length ≤ t by omega)]⟩
  constructor
  · rw [C128_deadlock_iff chk m hm _ hin (rds.length + 1) hn]
    rintro ⟨w, hw, k, x, u, hk, hx, hu⟩
    obtain ⟨j, busy, c, h⟩ := seq_reach m g q es even rds D hg hq hqg (fun e he => (hes e he).2) (fun rd h => (hrd rd h).2) hV heven h0 hw
    obtain ⟨p, hp⟩ := hu 0 hk
    obtain ⟨p', hp'⟩ := hu _ (Nat.mod_lt (0 + 1) hk)
    have h1 := h.copies hqg hp
    have h2 := h.copies hqg hp'
    rw [h1.1] at hp
    rw [h2.1, hp] at hp'
    simp only [Micro.copy.injEq] at hp'
    exact h1.2 hp'.1
  · refine Sys.no_infinite (n := rds.length + 1) fun t ht => ?_
    obtain ⟨a, ha⟩ := hn t ht
    dsimp only
    rw [ha]; trivial

theorem goes_peek {h : α → Micro β} {t : Nat} : ∀ (p : Micro α) (w : Machine β), PeeksOn D p → w.th t = chain p h →
    ∃ a w', Machine.Reach w w' ∧ w'.th t = h a ∧ w'.cont = w.cont
  | .done a, w, _, e => ⟨a, w, .refl, e, rfl⟩
  | .read r i k, w, hp, e => by
    obtain ⟨a, w', h1, h2, h3⟩ := goes_peek (h := h) (t := t) (k (netBit (w.cont r) i))
      ⟨w.cont, fun u => if u = t then chain (k (netBit (w.cont r) i)) h else w.th u⟩ (hp.2 _) (if_pos rfl)
    have st : Machine.Step t w ⟨w.cont, fun u => if u = t then chain (k (netBit (w.cont r) i)) h else w.th u⟩ := .read e rfl ⟨if_pos rfl, fun u hu => if_neg hu⟩
    exact ⟨a, w', (Machine.Reach.step t .refl st).append h1, h2, h3⟩
  | .readAll r k, w, hp, e => by
    obtain ⟨a, w', h1, h2, h3⟩ := goes_peek (h := h) (t := t) (k (w.cont r))
      ⟨w.cont, fun u => if u = t then chain (k (w.cont r)) h else w.th u⟩ (hp.2 _) (if_pos rfl)
    have st : Machine.Step t w ⟨w.cont, fun u => if u = t then chain (k (w.cont r)) h else w.th u⟩ := .readAll e rfl ⟨if_pos rfl, fun u hu => if_neg hu⟩
    exact ⟨a, w', (Machine.Reach.step t .refl st).append h1, h2, h3⟩
  | .write .., _, hp, _ => hp.elim
  | .copy .., _, hp, _ => hp.elim

/-- C130.  Every reader can return something: there is an execution in which it does. -/
theorem C130_can_succeed (chk : Bool) {L : Nat → Nat} (m : Store) (hm : Fresh L m) (g : Nat) (q : Nat → Nat) (es : List (Client Unit)) (even : Bytes → Bool)
    (rds : List (Client α)) (D : Nat → Prop) (hg : ¬ D g) (hq : ∀ k, ¬ D (q k)) (hqg : ∀ k, q k ≠ g) (hL : ∀ k, L (q k) = L g)
    (hes : ∀ e ∈ es, Inside L e ∧ CallsOn D e) (hrd : ∀ rd ∈ rds, Inside L rd ∧ LooksOn D rd)
    (hV : ∀ i k, i ≤ 2 * es.length → k ≤ 2 * es.length → (m (q i)).bytes = (m (q k)).bytes → i = k)
    (heven : ∀ k, k ≤ 2 * es.length → (even (m (q k)).bytes = true ↔ k % 2 = 0)) (h0 : (m g).bytes = (m (q 0)).bytes) (t : Nat) (rd : Client α)
    (ht : rds[t]? = some rd) :
    ∃ s a, Sys.Reach ⟨m, fun t => (seqThreads g q es even rds t).prog chk⟩ s ∧ s.Final ∧ s.th (t + 1) = .ret (some a) := by
  have hin := inside_seqThreads (even := even) (rds := rds) hqg hL (fun e he => (hes e he).1) fun rd h => (hrd rd h).1
  let w0 : Machine (Option α) := ⟨fun r => (m r).bytes, fun t => micro (seqThreads g q es even rds t)⟩
  have hth : w0.th (t + 1) = .readAll g fun v => micro (if even v then andThen rd fun a => .toVec g fun v' => .done (if v' = v then some a else none) else .done none) := by
    show micro (seqThreads g q es even rds (t + 1)) = _
    simp only [seqThreads, ht]; rfl
  have hev : even (w0.cont g) = true := by
    show even (m g).bytes = true
    rw [h0]; exact (heven 0 (Nat.zero_le _)).mpr rfl
  let p1 : Micro (Option α) := chain (micro rd) fun a => .readAll g fun v' => .done (if v' = w0.cont g then some a else none)
  let w1 : Machine (Option α) := ⟨w0.cont, fun u => if u = t + 1 then p1 else w0.th u⟩
  have s1 : Machine.Step (t + 1) w0 w1 := by
    refine .readAll hth rfl ⟨?_, fun u hu => if_neg hu⟩
    show (if t + 1 = t + 1 then p1 else _) = _
    rw [if_pos rfl, if_pos hev, micro_andThen]; rfl
  obtain ⟨a, w2, r2, e2, c2⟩ := goes_peek (D := D) (micro rd) w1 (peeksOn_micro rd (hrd rd (List.mem_of_getElem? ht)).2) (if_pos rfl : w1.th (t + 1) = p1)
  let w3 : Machine (Option α) := ⟨w2.cont, fun u => if u = t + 1 then .done (some a) else w2.th u⟩
  have s3 : Machine.Step (t + 1) w2 w3 := by
    refine .readAll e2 rfl ⟨?_, fun u hu => if_neg hu⟩
    show (if t + 1 = t + 1 then _ else _) = _
    rw [if_pos rfl, c2, if_pos rfl]
  have hw : Machine.Reach w0 w3 := .step _ (Machine.Reach.append (.step _ .refl s1) r2) s3
  have hA : Alike L (⟨m, fun t => (seqThreads g q es even rds t).prog chk⟩ : Sys (Option α)) w0 :=
    ⟨hm, fun _ => rfl, fun t => impl_client chk _ (hin t)⟩
  obtain ⟨x, h1, h2⟩ := hA.mreach hw
  have r1 := (Sys.reach_of_treach hm.free h1).1
  have hx : x.th (t + 1) = .ret (some a) := by
    have := h2.th (t + 1)
    rw [show w3.th (t + 1) = .done (some a) from if_pos rfl] at this
    generalize x.th (t + 1) = y at this
    cases this; rfl
  have keep : ∀ u b y z, y.th u = .ret b → Sys.Reach y z → (z : Sys (Option α)).th u = .ret b := by
    intro u b y z hy hz
    induction hz with
    | refl => exact hy
    | @step s' s'' v _ hs ih =>
      by_cases hv : u = v
      · subst hv; simp only [Sys.step, ih] at hs; cases hs
      · rw [(Sys.step_next hs).2 u hv]; exact ih
  obtain ⟨y, r3, hst⟩ := Sys.exists_stuck (s := x) (n := rds.length + 1) fun u hu => by
    obtain ⟨u, rfl⟩ : ∃ v, u = v + 1 := ⟨u - 1, by omega⟩
    rw [keep (u + 1) none _ x (by
      simp only [seqThreads, List.getElem?_eq_none (show rds.length ≤ u by omega)]; rfl) r1]
    trivial
  have hfin := C130_finish chk m hm g q es even rds D hg hq hqg hL hes hrd hV heven h0
  exact ⟨y, a, r1.trans r3, Classical.byContradiction fun hnf => hfin.1 ⟨y, r1.trans r3, hnf, hst⟩, keep _ _ _ _ hx r3⟩

end

/-! ## Non-vacuity -/

/-- Headers 0 and 1 are read and edited, header 2 holds the version, and headers 3, 4, ... hold versions 0, 1, ... -/
def seqStore : Store := fun r => ⟨[BitVec.ofNat 8 (r - 3)], false, none⟩

/-- Copy header 1 to header 0 after setting it. -/
def seqEdit (v : U64) : Client Unit := .set 1 lowPair v (.replace 0 1 (.done ()))

/-- Read both headers. -/
def seqLook : Client (U64 × U64) := .get 0 lowPair fun a => .get 1 lowPair fun b => .done (a, b)

theorem seqEdit_ok (v : U64) : Inside (fun _ => 1) (seqEdit v) ∧ CallsOn (· < 2) (seqEdit v) :=
  ⟨⟨by decide, by decide, fun _ _ _ => trivial, by decide, rfl, fun _ _ => trivial, fun _ _ => .inl trivial, trivial⟩,
    by decide, by decide, by decide, by decide, trivial⟩

theorem seqLook_ok : Inside (fun _ => 1) seqLook ∧ LooksOn (· < 2) seqLook :=
  ⟨⟨by decide, by decide, by decide, fun _ _ _ => .inl trivial, fun _ => ⟨by decide, by decide, by decide, fun _ _ _ => .inl trivial, fun _ => trivial⟩⟩,
    by decide, fun _ => ⟨by decide, fun _ => trivial⟩⟩

-- two edits, three readers
example {s : Sys (Option (U64 × U64))}
    (hs : Sys.Reach ⟨seqStore, fun t => (seqThreads 2 (· + 3) [seqEdit 2#64, seqEdit 3#64] (fun v => v.all (·.toNat % 2 = 0)) [seqLook, seqLook, seqLook] t).prog true⟩ s)
    (hF : s.Final) (t : Nat) (rd : Client (U64 × U64)) (ht : [seqLook, seqLook, seqLook][t]? = some rd) :
    s.th (t + 1) = .ret none ∨ ∃ a, s.th (t + 1) = .ret (some a) ∧ ∃ j c, j ≤ 2 ∧
      AfterEdits (fun r => (seqStore r).bytes) ([seqEdit 2#64, seqEdit 3#64].take j) c ∧ Lonely c (micro rd) c (.done a) :=
  C130_readers_agree true (L := fun _ => 1) seqStore (fun _ => ⟨rfl, rfl, rfl⟩) 2 (· + 3) _ _ _ (· < 2) (by decide) (fun k => by omega) (fun k => by omega)
    (fun _ => rfl) (fun e he => by
      rcases List.mem_cons.mp he with rfl | he
      · exact seqEdit_ok _
      · rw [List.mem_singleton.mp he]; exact seqEdit_ok _)
    (fun rd h => by simp only [List.mem_cons, List.not_mem_nil, or_false, or_self] at h; rw [h]; exact seqLook_ok)
    (fun i k hi hk e => by
      have hi : i ≤ 4 := hi
      have hk : k ≤ 4 := hk
      have e := congrArg BitVec.toNat (List.cons.inj e).1
      simp only [Nat.add_sub_cancel, BitVec.toNat_ofNat] at e
      omega)
    (by decide) rfl hs hF t rd ht

end PacketRs
