import Verif.ShowStore
import Verif.Props.Show
import Verif.Lemmas.Store
/-!
# Property C73: `show` of headers with shared storage
-/
namespace PacketRs
open Spec

/-- `p` does to storage `r`, clean before, what a read with the outcome and text of `q` does. -/
def Shows {α : Type} (s : Store) (r : Nat) (p : SOut α) (q : Out α) : Prop :=
  ∀ t, p s t = ((q t).1, afterRead s r (q t).1, (q t).2)

theorem afterRead_ok {α : Type} (s : Store) (r : Nat) (a : α) : afterRead s r (.ok a : R α) = s := rfl

theorem afterRead_error {α β : Type} (s : Store) (r : Nat) (e : Fault) :
    afterRead s r (.error e : R α) = afterRead s r (.error e : R β) := by cases e <;> rfl

theorem Shows.bind {α β : Type} {s : Store} {r : Nat} {p : SOut α} {q : Out α} {f : α → SOut β} {g : α → Out β}
    (h : Shows s r p q) (hf : ∀ a, Shows s r (f a) (g a)) : Shows s r (p >>= f) (q >>= g) := by
  intro t
  show (match p s t with
    | (.ok a, s', t') => f a s' t'
    | (.error e, s', t') => (.error e, s', t')) = _
  rw [h t, Out.bind_def]
  generalize q t = x
  obtain ⟨x, t'⟩ := x
  cases x with
  | ok a => exact hf a t'
  | error e => simp only; rw [afterRead_error]

theorem Shows.print {s : Store} {r : Nat} (x : Text) : Shows s r (SOut.print x) (Out.print x) := fun _ => rfl

theorem Shows.pure {α : Type} {s : Store} {r : Nat} (x : α) : Shows s r (Pure.pure x) (Pure.pure x) := fun _ => rfl

theorem Shows.call {s : Store} {r : Nat} (hs : AllFree s) (hp : (s r).poisoned = false) (chk : Bool) (hi lo : Nat) :
    Shows s r (SOut.call (bitRangeP chk r hi lo)) (Out.ofR (bitRange chk (s r).bytes hi lo)) := by
  intro t
  have : Idle 0 s := fun x => by rw [hs x]; exact nofun
  simp only [SOut.call, Out.ofR, run_bitRangeP ⟨hs r, hp⟩ this]

theorem Shows.forEach {α : Type} {s : Store} {r : Nat} (l : List α) {f : α → SOut Unit} {g : α → Out Unit}
    (h : ∀ a ∈ l, Shows s r (f a) (g a)) : Shows s r (SOut.forEach l f) (Out.forEach l g) := by
  induction l with
  | nil => exact Shows.pure ()
  | cons a l ih =>
    exact Shows.bind (h a List.mem_cons_self) fun _ => ih fun b hb => h b (List.mem_cons_of_mem _ hb)

theorem showOctetsS_shows {s : Store} {r : Nat} (hs : AllFree s) (hp : (s r).poisoned = false) (chk : Bool) (lo n : Nat) :
    Shows s r (showOctetsS chk r lo n) (showOctets (bitRange chk (s r).bytes) lo n) :=
  Shows.forEach _ fun _ _ => (Shows.call hs hp chk _ _).bind fun _ => Shows.print _

theorem showFieldS_shows {s : Store} {r : Nat} (hs : AllFree s) (hp : (s r).poisoned = false) (chk : Bool) (f : Field) :
    Shows s r (showFieldS chk r f) (showField (bitRange chk (s r).bytes) f) := by
  refine (Shows.print _).bind fun _ => ?_
  by_cases h1 : f.width ≤ 8
  · simp only [if_pos h1]
    exact (Shows.call hs hp chk _ _).bind fun _ => (Shows.print _).bind fun _ => Shows.print _
  · by_cases h2 : f.width % 8 = 0
    · simp only [if_neg h1, if_pos h2]
      exact (showOctetsS_shows hs hp chk _ _).bind fun _ => Shows.print _
    · simp only [if_neg h1, if_neg h2]
      exact (showOctetsS_shows hs hp chk _ _).bind fun _ =>
        (Shows.call hs hp chk _ _).bind fun _ => (Shows.print _).bind fun _ => Shows.print _

/-- **C73, a header.** On storage that is not poisoned `show` prints and panics exactly as `show` of a header with these
bytes; if it returns the store is unchanged, if it panics on a missing byte it poisons the storage. -/
theorem C73_header (chk : Bool) (s : Store) (hs : AllFree s) (h : HRef) (hp : (s h.ref).poisoned = false) (t : Text) :
    h.show chk s t =
      let v : Hdr := ⟨h.ty, (s h.ref).bytes⟩
      ((v.show chk t).1, (if (v.show chk t).1 = .error .index then s.poison h.ref else s), (v.show chk t).2) := by
  have : Shows s h.ref (h.show chk) (Hdr.show chk ⟨h.ty, (s h.ref).bytes⟩) :=
    (Shows.print _).bind fun _ => (Shows.print _).bind fun _ => Shows.forEach _ fun f _ => showFieldS_shows hs hp chk f
  rw [this t]
  simp only
  generalize (Hdr.show chk ⟨h.ty, (s h.ref).bytes⟩ t).1 = x
  cases x with
  | ok a => rfl
  | error e => cases e <;> rfl

/-! ## Packets -/

theorem SOut.bind_def {α β : Type} (p : SOut α) (f : α → SOut β) (s : Store) (t : Text) :
    (p >>= f) s t = match p s t with
      | (.ok a, s', t') => f a s' t'
      | (.error e, s', t') => (.error e, s', t') := rfl

theorem SOut.print_bind {β : Type} (x : Text) (f : Unit → SOut β) (s : Store) (t : Text) :
    (SOut.print x >>= f) s t = f () s (t ++ x) := rfl

theorem SOut.call_bind {α β : Type} (p : Prog α) (f : α → SOut β) (s s' : Store) (a : α) (t : Text)
    (h : run 0 p s = (.ok a, s')) : (SOut.call p >>= f) s t = f a s' t := by
  rw [SOut.bind_def, SOut.call, h]

/-- The bytes of `h` in the store contain all its fields. -/
def Whole (s : Store) (h : HRef) : Prop := ∀ f ∈ h.ty.fields, f.Inside (s h.ref).bytes.length

theorem show_whole (chk : Bool) {s : Store} (hs : AllFree s) {h : HRef} (hp : (s h.ref).poisoned = false)
    (hw : Whole s h) (t : Text) : h.show chk s t = (.ok (), s, t ++ headerText h.ty (s h.ref).bytes) := by
  rw [C73_header chk s hs h hp]
  have := C55_header_text chk ⟨h.ty, (s h.ref).bytes⟩ hw t
  simp only [this, headerText, List.append_assoc]
  rfl

/-- **C73, a header that is too short.** `show` prints everything up to the last whole octet before the end of the data,
panics, and poisons the storage. -/
theorem C73_short_header (chk : Bool) (s : Store) (hs : AllFree s) (h : HRef) (hp : (s h.ref).poisoned = false)
    (pre post : List Field) (f : Field) (hT : h.ty.fields = pre ++ f :: post)
    (hpre : ∀ g ∈ pre, g.Inside (s h.ref).bytes.length) (h1 : f.lo ≤ f.hi) (h2 : ¬ f.Inside (s h.ref).bytes.length)
    (t : Text) :
    let d := (s h.ref).bytes
    h.show chk s t = (.error .index, s.poison h.ref,
      t ++ headLines h.ty.name ++ (pre.map (fieldLine d)).flatten ++ fieldLabel f ++
        if f.width ≤ 8 then [] else spaced (octetsAt d f.lo (min (f.width / 8) ((8 * d.length - f.lo) / 8)))) := by
  have h2 : 8 * (s h.ref).bytes.length ≤ f.hi := by
    unfold Field.Inside at h2; omega
  rw [C73_header chk s hs h hp]
  simp only [C55_panic chk ⟨h.ty, (s h.ref).bytes⟩ pre post f hT hpre h1 h2 t, if_true]

/-- **C73, a poisoned header.** `show` prints the head lines and the label of the first field, and panics. -/
theorem C73_poisoned_header (chk : Bool) (s : Store) (hs : AllFree s) (h : HRef) (hp : (s h.ref).poisoned = true)
    (f : Field) (gs : List Field) (hT : h.ty.fields = f :: gs) (h1 : f.lo ≤ f.hi) (t : Text) :
    h.show chk s t = (.error .poisoned, s, t ++ headLines h.ty.name ++ fieldLabel f) := by
  have hwd : f.width = f.hi - f.lo + 1 := rfl
  have hlab : padRight 20 f.name.toList ++ ": ".toList ++ decimal 4 f.width ++ " : ".toList = fieldLabel f := by
    simp [fieldLabel, padRight, decimal, String.length_toList]
  have key : ∀ hi lo, lo ≤ hi → ∀ t, SOut.call (bitRangeP chk h.ref hi lo) s t = (.error .poisoned, s, t) := by
    intro hi lo hle t
    simp only [SOut.call, run_bitRangeP_poisoned hs hp chk hle]
  have koct : ∀ n lo, n ≠ 0 → ∀ t, showOctetsS chk h.ref lo n s t = (.error .poisoned, s, t) := by
    intro n lo hn t
    obtain ⟨m, rfl⟩ : ∃ m, n = m + 1 := ⟨n - 1, by omega⟩
    unfold showOctetsS
    rw [List.range_succ_eq_map]
    simp only [List.map_cons, SOut.forEach]
    rw [SOut.bind_def, SOut.bind_def, key _ _ (by omega)]
  have kf : ∀ t, showFieldS chk h.ref f s t = (.error .poisoned, s, t ++ fieldLabel f) := by
    intro t
    unfold showFieldS
    rw [SOut.print_bind, hlab]
    by_cases hw : f.width ≤ 8
    · simp only [if_pos hw]
      rw [SOut.bind_def, key _ _ h1]
    · by_cases h8 : f.width % 8 = 0
      · simp only [if_neg hw, if_pos h8]
        rw [SOut.bind_def, koct _ _ (by omega)]
      · simp only [if_neg hw, if_neg h8]
        rw [SOut.bind_def, koct _ _ (by omega)]
  unfold HRef.show
  rw [SOut.print_bind, SOut.print_bind, hT, SOut.forEach, SOut.bind_def, kf]
  unfold headLines padRight
  simp [String.length_toList]

theorem forEach_show_append (chk : Bool) {s : Store} (hs : AllFree s) (pre l : List HRef)
    (hpre : ∀ h ∈ pre, (s h.ref).poisoned = false ∧ Whole s h) (t : Text) :
    SOut.forEach (pre ++ l) (fun h => h.show chk) s t =
      SOut.forEach l (fun h => h.show chk) s (t ++ (pre.map fun h => headerText h.ty (s h.ref).bytes).flatten) := by
  induction pre generalizing t with
  | nil => simp
  | cons h pre ih =>
    have hh := hpre h List.mem_cons_self
    rw [List.cons_append, SOut.forEach, SOut.bind_def, show_whole chk hs hh.1 hh.2]
    simp only
    rw [ih fun g hg => hpre g (List.mem_cons_of_mem _ hg)]
    simp

/-- **C73, a packet.** If no header is poisoned and each contains its fields, `show` returns, changes nothing, and prints
the headers in order and the bytes. Otherwise the first header that is poisoned or too short decides: the headers before it
are printed, the outcome is that of its own `show`, and nothing more is printed. -/
theorem C73_packet (chk : Bool) (s : Store) (hs : AllFree s) (p : PRef) (t : Text) :
    ((∀ h ∈ p.hdrs, (s h.ref).poisoned = false ∧ Whole s h) →
      p.show chk s t = (.ok (), s,
        t ++ (p.hdrs.map fun h => headerText h.ty (s h.ref).bytes).flatten ++ rawText (p.view s).to_vec)) ∧
    (∀ pre post h, p.hdrs = pre ++ h :: post → (∀ g ∈ pre, (s g.ref).poisoned = false ∧ Whole s g) →
      (∀ t', (h.show chk s t').1 ≠ .ok ()) →
      p.show chk s t = h.show chk s (t ++ (pre.map fun h => headerText h.ty (s h.ref).bytes).flatten)) := by
  constructor
  · intro hall
    unfold PRef.show
    have := forEach_show_append chk hs p.hdrs [] hall t
    rw [List.append_nil] at this
    rw [SOut.bind_def, this]
    simp only [SOut.forEach, Pure.pure]
    have hnp : (p.hdrs.any fun h => (s h.ref).poisoned) = false := by
      rw [List.any_eq_false]; intro h hh; simp [(hall h hh).1]
    rw [SOut.call_bind _ _ s s (p.view s).to_vec _ (by rw [run_pktToVecP hs, if_neg (by simp [hnp])]), SOut.out, showBytes_ok]
  · intro pre post h hp hpre herr
    unfold PRef.show
    rw [SOut.bind_def, hp, forEach_show_append chk hs pre _ hpre, SOut.forEach, SOut.bind_def]
    have := herr (t ++ (pre.map fun h => headerText h.ty (s h.ref).bytes).flatten)
    generalize h.show chk s (t ++ (pre.map fun h => headerText h.ty (s h.ref).bytes).flatten) = x at this
    obtain ⟨x, s', t'⟩ := x
    cases x with
    | ok a => exact absurd rfl this
    | error e => rfl

/-- **C73, showing destroys.** A packet with a header that is too short (and no poisoned one) can be serialized. After
`show` of that packet has panicked no packet that shares this header can be. All bytes and all other headers are as before. -/
theorem C73_show_destroys (chk : Bool) (s : Store) (hs : AllFree s) (p : PRef) (pre post : List HRef) (h : HRef)
    (hp : p.hdrs = pre ++ h :: post) (hc : ∀ g ∈ p.hdrs, (s g.ref).poisoned = false) (hpre : ∀ g ∈ pre, Whole s g)
    (hwf : ∀ f ∈ h.ty.fields, f.lo ≤ f.hi) (hshort : ¬ Whole s h) (t : Text) :
    let s' := (p.show chk s t).2.1
    run 0 (pktToVecP p) s = (.ok (p.view s).to_vec, s) ∧
    (p.show chk s t).1 = .error .index ∧
    (∀ q : PRef, (∃ g ∈ q.hdrs, g.ref = h.ref) → run 0 (pktToVecP q) s' = (.error .poisoned, s')) ∧
    (∀ x, (s' x).bytes = (s x).bytes) ∧ (∀ x, x ≠ h.ref → s' x = s x) := by
  have hph : (s h.ref).poisoned = false := hc h (by rw [hp]; simp)
  have hex : ∃ fs f gs, h.ty.fields = fs ++ f :: gs ∧ (∀ g ∈ fs, g.Inside (s h.ref).bytes.length) ∧
      ¬ f.Inside (s h.ref).bytes.length := by
    unfold Whole at hshort
    clear hwf
    generalize h.ty.fields = l at *
    induction l with
    | nil => exact absurd (fun f hf => nomatch hf) hshort
    | cons a l ih =>
      by_cases ha : a.Inside (s h.ref).bytes.length
      · have : ¬ ∀ f ∈ l, f.Inside (s h.ref).bytes.length := fun hl =>
          hshort fun f hf => (List.mem_cons.mp hf).elim (fun e => e ▸ ha) (hl f)
        obtain ⟨fs, f, gs, rfl, h1, h2⟩ := ih this
        exact ⟨a :: fs, f, gs, rfl, fun g hg => (List.mem_cons.mp hg).elim (fun e => e ▸ ha) (h1 g), h2⟩
      · exact ⟨[], a, l, rfl, (fun g hg => nomatch hg), ha⟩
  obtain ⟨fs, f, gs, hT, hfs, hf⟩ := hex
  have hle : f.lo ≤ f.hi := hwf f (by rw [hT]; simp)
  have hshow := fun t => C73_short_header chk s hs h hph fs gs f hT hfs hle hf t
  have hpk := (C73_packet chk s hs p t).2 pre post h hp
    (fun g hg => ⟨hc g (by rw [hp]; simp [hg]), hpre g hg⟩) (fun t' => by rw [hshow t']; exact nofun)
  intro s'
  have hs' : s' = s.poison h.ref := by
    show (p.show chk s t).2.1 = _
    rw [hpk, hshow]
  have hfree : AllFree (s.poison h.ref) := by
    intro x
    unfold Store.poison Store.put
    split
    · exact hs h.ref
    · exact hs x
  refine ⟨?_, by rw [hpk, hshow], ?_, ?_, ?_⟩
  · have hnp : (p.hdrs.any fun h => (s h.ref).poisoned) = false := by
      rw [List.any_eq_false]; intro g hg; simp [hc g hg]
    rw [run_pktToVecP hs, if_neg (by simp [hnp])]
  · rintro q ⟨g, hg, hgr⟩
    rw [hs', run_pktToVecP hfree, if_pos]
    exact List.any_eq_true.2 ⟨g, hg, by simp [hgr, Store.poison]⟩
  · intro x
    rw [hs']
    unfold Store.poison Store.put
    split
    · next e => rw [e]
    · rfl
  · intro x hx
    rw [hs', Store.poison, put_ne _ _ hx]

/-! Concrete cases: an Ethernet header with all its bytes and a UDP header with five, the latter in two packets. -/

def showStore : Store := fun x =>
  if x = 0 then ⟨List.replicate 14 0x11#8, false, none⟩
  else if x = 1 then ⟨[0xde#8, 0xad#8, 0xbe#8, 0xef#8, 0x55#8], false, none⟩ else ⟨[], false, none⟩

def showPkt : PRef := ⟨[⟨Ether, 0⟩, ⟨UDP, 1⟩], [7#8]⟩

example : AllFree showStore ∧ (∀ g ∈ showPkt.hdrs, (showStore g.ref).poisoned = false) ∧
    (∀ f ∈ UDP.fields, f.lo ≤ f.hi) := by
  refine ⟨?_, by decide +kernel, by decide +kernel⟩
  intro x; unfold showStore; split
  · rfl
  · split <;> rfl

-- both ports and the first octet of the length are printed before the panic
example : ((⟨UDP, 1⟩ : HRef).show true showStore []).2.2.drop 78 =
    "src                 :   16 : de ad \ndst                 :   16 : be ef \nlength              :   16 : 55 ".toList := by
  decide +kernel

example : (showPkt.show true showStore []).1 = .error .index ∧
    ((showPkt.show true showStore []).2.1 1).poisoned = true ∧ ((showPkt.show true showStore []).2.1 0).poisoned = false ∧
    (run 0 (pktToVecP ⟨[⟨UDP, 1⟩], []⟩) showStore).1 = .ok [0xde#8, 0xad#8, 0xbe#8, 0xef#8, 0x55#8] ∧
    (run 0 (pktToVecP ⟨[⟨UDP, 1⟩], []⟩) (showPkt.show true showStore []).2.1).1 = .error .poisoned := by
  decide +kernel

-- shown again: the poisoned header stops it at its first label
example : ((⟨UDP, 1⟩ : HRef).show true (showPkt.show true showStore []).2.1 []).2.2.drop 78 =
    "src                 :   16 : ".toList := by decide +kernel

end PacketRs
