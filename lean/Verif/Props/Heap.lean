import Verif.Lemmas.Store
import Verif.Props.Fields
/-!
# C08 (rest), C18, C19, C53, C54, C56: shared header storage
-/
namespace PacketRs
open Spec
open Prog hiding bind

/-! ## Histories used in the examples -/

/-- Ethernet and IPv4 in packet 0, cloned to packet 1; another Ethernet header as variable 2. -/
def sampleOps : List Op :=
  [.pktNew, .new Ether, .new IPv4, .push 0 0, .push 0 1, .setPayload 0 [0xaa#8], .pktClone 0, .new Ether]

/-- The world after a history that does not hang. -/
def sampleWorld (ops : List Op) : World := (World.init.runOps true ops).getD World.init

/-! ## C19: aliasing is common origin -/

/-- **C19** (a): in every reachable world, two header handles denote the same storage iff the headers
come from the same constructor call (and position, for calls that make several). -/
theorem C19_alias_iff (chk : Bool) (ops : List Op) (w : World) (h : World.init.runOps chk ops = some w)
    (x y : Place) (a b : HRef) (hx : w.resolve x = .ok a) (hy : w.resolve y = .ok b) :
    ∃ o o', (Family.after ops).find x = some o ∧ (Family.after ops).find y = some o' ∧ o.ty = a.ty ∧ o'.ty = b.ty ∧
      (a.ref = b.ref ↔ o.call = o'.call ∧ o.pos = o'.pos) := by
  obtain ⟨φ, A, ht⟩ := tracks_of_runOps h
  rcases ht.resolve x with ⟨o, ho, hr, hA⟩ | ⟨-, e, hr⟩
  · rcases ht.resolve y with ⟨o', ho', hr', hA'⟩ | ⟨-, e, hr'⟩
    · rw [hr] at hx; cases hx
      rw [hr'] at hy; cases hy
      refine ⟨o, o', ho, ho', rfl, rfl, fun he => ht.inj _ _ _ _ hA hA' he, ?_⟩
      rintro ⟨h1, h2⟩
      simp only [conv, h1, h2]
    · rw [hr'] at hy; cases hy
  · rw [hr] at hx; cases hx

/-- **C19** (b): a call changes what a packet serializes to only if it changes the shape of that very
packet, or writes to a header that comes from the same constructor call as a header of the packet. -/
theorem C19_isolated (chk : Bool) (ops : List Op) (w : World) (h : World.init.runOps chk ops = some w)
    (op : Op) (hd : (w.step chk op).2 ≠ .error .deadlock) (p : Nat) (l : List Born)
    (hl : ((Family.after ops).ps[p]?).join = some l) (hs : reshapes p op = false)
    (hno : ∀ x b, target op = some x → (Family.after ops).find x = some b →
      ∀ c ∈ l, ¬ (c.call = b.call ∧ c.pos = b.pos)) :
    (w.step chk op).1.serialize chk p = w.serialize chk p := by
  obtain ⟨φ, A, ht⟩ := tracks_of_runOps h
  have hr : w.Reachable chk := ⟨ops, h⟩
  have hp := ht.pkt? p
  rw [hl] at hp
  cases hq : w.pkt? p with
  | none => rw [hq] at hp; cases hp
  | some q =>
    rw [hq] at hp
    have hql : q.hdrs = l.map (conv φ) := by simpa using hp
    obtain ⟨m1, -, m3, -⟩ := World.step_mem chk w op hr.free hd
    refine World.serialize_congr hr.free m1 hq (World.step_pkt chk w op hs hq) ?_
    intro a ha
    refine m3 _ (hr.pkt_lt hq a ha) ?_
    intro x b hx hb
    rw [hql] at ha
    obtain ⟨c, hc, rfl⟩ := List.mem_map.1 ha
    rcases ht.resolve x with ⟨o, ho, hro, hA⟩ | ⟨-, e, hro⟩
    · rw [hro] at hb; cases hb
      intro he
      have := ht.inj _ _ _ _ hA (ht.psA l (join_mem hl) c hc) he
      exact hno x o hx ho c hc ⟨this.1.symm, this.2.symm⟩
    · rw [hro] at hb; cases hb

/-- **C19** (c): a newly made header shares storage with no header reachable before; likewise every header
of a newly parsed or built packet, and no two of those share storage. -/
theorem C19_fresh (chk : Bool) (w : World) (hw : w.Reachable chk) :
    (∀ T b a, ((w.step chk (.ofVec T b)).1.resolve (.var w.hs.length) = .ok a ∨
        (w.step chk (.new T)).1.resolve (.var w.hs.length) = .ok a) →
      (∀ y c, w.resolve y = .ok c → c.ref ≠ a.ref) ∧ (∀ p q, w.pkt? p = some q → ∀ c ∈ q.hdrs, c.ref ≠ a.ref)) ∧
    (∀ pk r, (w.step chk (.adopt pk)).1.pkt? w.ps.length = some r →
      r.hdrs.map HRef.ty = pk.hdrs.map Hdr.ty ∧ (r.hdrs.map HRef.ref).Nodup ∧
      ∀ a ∈ r.hdrs, (∀ y c, w.resolve y = .ok c → c.ref ≠ a.ref) ∧
        (∀ p q, w.pkt? p = some q → ∀ c ∈ q.hdrs, c.ref ≠ a.ref)) := by
  have key : ∀ n, w.next ≤ n → (∀ y c, w.resolve y = .ok c → c.ref ≠ n) ∧
      (∀ p q, w.pkt? p = some q → ∀ c ∈ q.hdrs, c.ref ≠ n) := by
    intro n hn
    exact ⟨fun y c hy => by have := hw.hdr_lt hy; omega, fun p q hp c hc => by have := hw.pkt_lt hp c hc; omega⟩
  constructor
  · intro T b a ha
    have : a.ref = w.next := by
      rcases ha with ha | ha <;>
        simp [World.step, World.alloc, World.resolve, World.hdr?] at ha <;> rw [← ha]
    rw [this]; exact key _ (Nat.le_refl _)
  · intro pk r hr
    obtain ⟨-, -, e3, e4, -⟩ := World.allocAll_props pk.hdrs w
    simp only [World.step, World.pkt?, e3] at hr
    rw [List.getElem?_append_right (Nat.le_refl _)] at hr
    simp only [Nat.sub_self, List.getElem?_cons_zero, Option.join_some, Option.some.injEq] at hr
    subst hr
    simp only [e4]
    refine ⟨?_, ?_, ?_⟩
    · refine List.ext_getElem? fun j => ?_
      simp only [List.getElem?_map, List.getElem?_mapIdx]
      cases pk.hdrs[j]? <;> rfl
    · have : (pk.hdrs.mapIdx fun i h => (⟨h.ty, w.next + i⟩ : HRef)).map HRef.ref = List.range' w.next pk.hdrs.length := by
        refine List.ext_getElem (by simp) fun j h1 h2 => ?_
        simp
      rw [this]
      exact List.nodup_range'
    · intro a ha
      rw [List.mem_mapIdx] at ha
      obtain ⟨i, hi, rfl⟩ := ha
      exact key _ (Nat.le_add_right _ _)

-- the header in packet 0 and in its clone have one origin, the header made separately another
example :
    let w := sampleWorld sampleOps
    (World.init.runOps true sampleOps).isSome = true ∧
    (∃ a, w.resolve (.inPkt 0 "Ether" Ether) = .ok a ∧ w.resolve (.inPkt 1 "Ether" Ether) = .ok a) ∧
    (Family.after sampleOps).find (.inPkt 0 "Ether" Ether) = some ⟨Ether, 1, 0⟩ ∧
    (Family.after sampleOps).find (.inPkt 1 "Ether" Ether) = some ⟨Ether, 1, 0⟩ ∧
    (Family.after sampleOps).find (.var 2) = some ⟨Ether, 7, 0⟩ ∧
    w.resolve (.var 2) = .ok ⟨Ether, 2⟩ := by
  refine ⟨by decide +kernel, ⟨⟨Ether, 0⟩, by decide +kernel, by decide +kernel⟩, ?_⟩
  decide +kernel

-- the hypotheses of `C19_isolated` hold for a write to the separate header and packet 0
example : ((Family.after sampleOps).ps[0]?).join = some [⟨Ether, 1, 0⟩, ⟨IPv4, 2, 0⟩] ∧
    reshapes 0 (.set (.var 2) Ether.etype 7#64) = false ∧
    ((sampleWorld sampleOps).step true (.set (.var 2) Ether.etype 7#64)).2 = .ok .unit := by
  decide +kernel

/-! ## C18: clones -/

/-- **C18** (a): a clone serializes to the same bytes as the original, and continues to do so in every
later history that does not push, pop, … on one of the two. -/
theorem C18_clone_serializes (chk : Bool) (w w' : World) (hw : w.Reachable chk) (p : Nat) (q : PRef)
    (hq : w.pkt? p = some q) (ops : List Op)
    (hops : ∀ op ∈ ops, reshapes p op = false ∧ reshapes w.ps.length op = false)
    (hr : w.runOps chk (.pktClone p :: ops) = some w') :
    (w.step chk (.pktClone p)).1.serialize chk w.ps.length = w.serialize chk p ∧
    w'.serialize chk w.ps.length = w'.serialize chk p := by
  obtain ⟨hd, hr'⟩ := runOps_cons hr
  have hq1 : (w.step chk (.pktClone p)).1.pkt? w.ps.length = some q := by
    simp only [World.step, hq]
    simp [World.pkt?]
  have hq2 : (w.step chk (.pktClone p)).1.pkt? p = some q := World.step_pkt chk w _ rfl hq
  have hm : (w.step chk (.pktClone p)).1.mem = w.mem := by simp only [World.step, hq]
  constructor
  · exact World.serialize_congr hw.free (hw.step hd).free hq hq1 (fun a _ => by rw [hm])
  · have h1 := World.runOps_pkt chk ops (fun op ho => (hops op ho).2) hq1 hr'
    have h2 := World.runOps_pkt chk ops (fun op ho => (hops op ho).1) hq2 hr'
    have hf := (hw.runOps hr).free
    exact World.serialize_congr hf hf h2 h1 (fun _ _ => rfl)

/-- **C18** (b): in every reachable world, a value written to a field through one handle is read back
through every handle sharing the storage. -/
theorem C18_alias_write (chk : Bool) (w : World) (hw : w.Reachable chk) (x y : Place) (a b : HRef)
    (hx : w.resolve x = .ok a) (hy : w.resolve y = .ok b) (hab : a.ref = b.ref) (f : Field) (v : U64)
    (hle : f.lo ≤ f.hi) (hwd : f.width ≤ 64) (hok : (w.step chk (.set x f v)).2 = .ok .unit) :
    ∃ r, ((w.step chk (.set x f v)).1.step chk (.get y f)).2 = .ok (.word r) ∧ r.toNat = v.toNat % 2 ^ f.width := by
  have hs := World.step_ok chk w (.set x f v) a rfl hx (fun y h => by cases h)
  rw [hs] at hok ⊢
  have hf := hw.free
  cases hp : (w.mem a.ref).poisoned with
  | true =>
    exfalso
    have : run 0 (World.prog chk a a (.set x f v)) w.mem = (.error .poisoned, w.mem) := by
      simp only [World.prog, setP, setBitRangeP, run_bind, bind_def]
      rw [inclRange_reverse hle, List.foldlM_cons, bind_def, run_bind]
      have : run 0 (setBitStepP a.ref v f.hi) w.mem = (.error .poisoned, w.mem) := run_lock_poisoned hf _ hp
      rw [this]
    rw [this] at hok; cases hok
  | false =>
    have hrun := run_setBitRangeP (t := 0) ⟨hf a.ref, hp⟩ (hf.idle 0) f.hi f.lo v
    simp only [World.prog, setP, run_bind] at hok ⊢
    rw [hrun] at hok ⊢
    cases e : setBitRange (w.mem a.ref).bytes f.hi f.lo v with
    | error g => simp only [e] at hok; cases hok
    | ok d =>
      simp only [run]
      have hin : f.Inside (w.mem a.ref).bytes.length := by
        refine ⟨hle, ?_⟩
        refine Nat.lt_of_not_le fun hn => ?_
        rw [setBitRange_err _ _ _ _ hle (by omega)] at e; cases e
      obtain ⟨h', r, e1, e2, e3⟩ := C02_set_get chk ⟨a.ty, (w.mem a.ref).bytes⟩ f v hin hwd
      simp only [Hdr.set, e, bind, Except.bind, pure, Except.pure, Except.ok.injEq] at e1
      subst e1
      refine ⟨r, ?_, e3⟩
      have hf' : AllFree (w.mem.put a.ref { w.mem a.ref with bytes := d }) := hf.put (hf a.ref)
      have hy' : ({ w with mem := w.mem.put a.ref { w.mem a.ref with bytes := d } } : World).resolve y = .ok b := by
        rw [← hy]; cases y <;> rfl
      rw [World.step_ok chk _ (.get y f) b rfl hy' (fun y h => by cases h)]
      simp only [World.prog, getP, run_bind, ← hab]
      rw [run_bitRangeP (t := 0) ⟨hf' a.ref, by simp [hp]⟩ (hf'.idle 0)]
      simp only [Hdr.get] at e2
      simp only [put_same, e2, afterRead, run]

/-- **C18** (c): in particular a field written through a packet is read back through its clone and the
other way round, after any history that does not push, pop, … on one of the two. -/
theorem C18_write_visible (chk : Bool) (w w' : World) (hw : w.Reachable chk) (p : Nat) (q : PRef)
    (hq : w.pkt? p = some q) (ops : List Op)
    (hops : ∀ op ∈ ops, reshapes p op = false ∧ reshapes w.ps.length op = false)
    (hr : w.runOps chk (.pktClone p :: ops) = some w') (name : String) (T : HeaderDef) (f : Field) (v : U64)
    (hle : f.lo ≤ f.hi) (hwd : f.width ≤ 64) (i j : Nat)
    (hij : (i = p ∧ j = w.ps.length) ∨ (i = w.ps.length ∧ j = p))
    (hok : (w'.step chk (.set (.inPkt i name T) f v)).2 = .ok .unit) :
    ∃ r, ((w'.step chk (.set (.inPkt i name T) f v)).1.step chk (.get (.inPkt j name T) f)).2 = .ok (.word r) ∧
      r.toNat = v.toNat % 2 ^ f.width := by
  obtain ⟨hd, hr'⟩ := runOps_cons hr
  have hq1 : (w.step chk (.pktClone p)).1.pkt? w.ps.length = some q := by
    simp only [World.step, hq]
    simp [World.pkt?]
  have hq2 : (w.step chk (.pktClone p)).1.pkt? p = some q := World.step_pkt chk w _ rfl hq
  have h1 := World.runOps_pkt chk ops (fun op ho => (hops op ho).2) hq1 hr'
  have h2 := World.runOps_pkt chk ops (fun op ho => (hops op ho).1) hq2 hr'
  have hi : w'.pkt? i = some q := by rcases hij with ⟨rfl, rfl⟩ | ⟨rfl, rfl⟩ <;> assumption
  have hj : w'.pkt? j = some q := by rcases hij with ⟨rfl, rfl⟩ | ⟨rfl, rfl⟩ <;> assumption
  have hres : w'.resolve (.inPkt i name T) = w'.resolve (.inPkt j name T) := by
    simp only [World.resolve, hi, hj]
  rcases World.step_target chk w' (.set (.inPkt i name T) f v) _ rfl with ⟨e, he, -⟩ | ⟨a, o, ha, -, -⟩
  · rw [he] at hok; cases hok
  · exact C18_alias_write chk w' (hw.runOps hr) _ _ a a ha (by rw [← hres]; exact ha) rfl f v hle hwd hok

/-- **C18** (d): calls that write to no header do not change what another packet serializes to; so push,
insert, pop, remove and set_payload on a packet do not affect its clones, nor the other way round. -/
theorem C18_shape_independent (chk : Bool) (w : World) (hw : w.Reachable chk) (op : Op) (ht : target op = none)
    (c : Nat) (q : PRef) (hc : w.pkt? c = some q) (hs : reshapes c op = false) :
    (w.step chk op).1.serialize chk c = w.serialize chk c := by
  have hd : (w.step chk op).2 ≠ .error .deadlock := by
    intro hd
    obtain ⟨x, y, a, b, rfl, -⟩ := World.step_hang chk w op hw.free hd
    cases ht
  obtain ⟨m1, -, m3, -⟩ := World.step_mem chk w op hw.free hd
  refine World.serialize_congr hw.free m1 hc (World.step_pkt chk w op hs hc) fun a ha => ?_
  exact m3 _ (hw.pkt_lt hc a ha) (fun x h hx => by rw [ht] at hx; cases hx)

-- packet 1 is a clone of packet 0: same bytes; a write through the clone is seen through the original;
-- a push on the clone is not
example :
    let w := sampleWorld sampleOps
    w.serialize true 1 = w.serialize true 0 ∧
    (w.step true (.set (.inPkt 1 "Ether" Ether) Ether.etype 0x1234#64)).2 = .ok .unit ∧
    (((w.step true (.set (.inPkt 1 "Ether" Ether) Ether.etype 0x1234#64)).1).step true
      (.get (.inPkt 0 "Ether" Ether) Ether.etype)).2 = .ok (.word 0x1234#64) ∧
    ((w.step true (.push 1 2)).1).serialize true 0 = w.serialize true 0 ∧
    ((w.step true (.push 1 2)).1).serialize true 1 ≠ w.serialize true 1 := by decide +kernel

/-! ## C08 (rest): what a failing setter leaves behind -/

/-- **C08** (c): a setter that panics has not modified any byte of any buffer. -/
theorem C08_failed_set_keeps_bytes (chk : Bool) (w : World) (hw : w.Reachable chk) (x : Place) (f : Field) (v : U64)
    (e : Fault) (he : (w.step chk (.set x f v)).2 = .error e) (y : Nat) :
    ((w.step chk (.set x f v)).1.mem y).bytes = (w.mem y).bytes := by
  rcases World.step_target chk w (.set x f v) x rfl with ⟨e', h', -⟩ | ⟨a, o, -, -, h'⟩
  · rw [h']
  · rw [h'] at he ⊢
    have hf := hw.free
    simp only [World.prog, setP, run_bind] at he ⊢
    cases hp : (w.mem a.ref).poisoned with
    | true =>
      by_cases hle : f.lo ≤ f.hi
      · rw [run_setBitRangeP_poisoned hf hp hle]
      · have : run 0 (setBitRangeP a.ref f.hi f.lo v) w.mem = (.ok (), w.mem) := by
          have : f.hi + 1 - f.lo = 0 := by omega
          simp [setBitRangeP, inclRange_eq, this, bind_def, pure_def, run]
        rw [this]; rfl
    | false =>
      rw [run_setBitRangeP (t := 0) ⟨hf a.ref, hp⟩ (hf.idle 0)] at he ⊢
      cases e1 : setBitRange (w.mem a.ref).bytes f.hi f.lo v with
      | ok d => simp only [e1] at he; cases he
      | error g =>
        simp only [Store.poison]
        by_cases hy : y = a.ref
        · subst hy; simp
        · rw [put_ne _ _ hy]

/-- **C08** (d): a `set_bytes` that panics because the buffer is too short has by then written the first
whole octets that fit, and nothing else. -/
theorem C08_set_bytes_writes_prefix (chk : Bool) (w : World) (hw : w.Reachable chk) (x : Place) (a : HRef)
    (hx : w.resolve x = .ok a) (hp : (w.mem a.ref).poisoned = false) (lo : Nat) (v : Bytes) (hv : v ≠ [])
    (hs : 8 * v.length < 2 ^ 64) (hshort : 8 * (w.mem a.ref).bytes.length < lo + 8 * v.length) :
    let r := w.step chk (.setBytes x (lo + 8 * v.length - 1) lo v)
    r.2 = .error .index ∧ (r.1.mem a.ref).bytes.length = (w.mem a.ref).bytes.length ∧
    (∀ i, netBit (r.1.mem a.ref).bytes i =
      if lo ≤ i ∧ i < lo + 8 * ((8 * (w.mem a.ref).bytes.length - lo) / 8) then netBit v (i - lo)
      else netBit (w.mem a.ref).bytes i) ∧
    ∀ y, y ≠ a.ref → r.1.mem y = w.mem y := by
  intro r
  have hr : r = _ := World.step_ok chk w (.setBytes x (lo + 8 * v.length - 1) lo v) a rfl hx (fun y h => by cases h)
  obtain ⟨d, h1, h2, h3⟩ := run_setBytesP_short (t := 0) ⟨hw.free a.ref, hp⟩ (hw.free.idle 0) chk lo v hv hshort hs
  rw [hr]
  simp only [World.prog, run_bind, h1]
  exact ⟨trivial, by simpa using h2, by simpa using h3, fun y hy => put_ne _ _ hy⟩

-- a header of 2 bytes: setting bits 12..27 with `set_bytes` panics; a setter beyond the end too
example :
    let w := sampleWorld [.ofVec IPv4 [0x11#8, 0x22#8]]
    w.resolve (.var 0) = .ok ⟨IPv4, 0⟩ ∧ w.mem 0 = ⟨[0x11#8, 0x22#8], false, none⟩ ∧
    (w.step true (.set (.var 0) IPv4.ttl 3#64)).2 = .error .index ∧
    ((w.step true (.setBytes (.var 0) 19 4 [0xab#8, 0xcd#8])).2 = .error .index ∧
      ((w.step true (.setBytes (.var 0) 19 4 [0xab#8, 0xcd#8])).1.mem 0).bytes = [0x1a#8, 0xb2#8]) := by decide +kernel

/-! ## C53: poisoning -/

/-- **C53** (a): an accessor that panics because the buffer is too short poisons the storage it worked on.
(The hypothesis on `set_bytes` excludes only the range `0..=usize::MAX`.) -/
theorem C53_panic_poisons (chk : Bool) (w : World) (hw : w.Reachable chk) (op : Op) (x : Place) (a : HRef)
    (ht : target op = some x) (hx : w.resolve x = .ok a) (hp : (w.mem a.ref).poisoned = false)
    (hsb : ∀ y msb lsb v, op = .setBytes y msb lsb v → msb - lsb + 1 < 2 ^ 64)
    (he : (w.step chk op).2 = .error .index) : ((w.step chk op).1.mem a.ref).poisoned = true := by
  rcases World.step_target chk w op x ht with ⟨e, h', h1⟩ | ⟨a', o, ha, -, h'⟩
  · rw [h'] at he; cases he; rcases h1 with h1 | h1 <;> cases h1
  · rw [ha] at hx; cases hx
    rw [h'] at he ⊢
    have fin : ∀ {p : Prog Val}, World.prog chk a o op = p → Poisons a.ref p →
        ((run 0 (World.prog chk a o op) w.mem).2 a.ref).poisoned = true := by
      intro p hprog hP
      have := hP w.mem hw.free hp
      rw [← hprog] at this
      simp only at he
      rw [he] at this
      exact this.2 rfl
    cases op <;> simp only [target, Option.some.injEq, reduceCtorEq] at ht
    case get => exact fin rfl ((poisons_bitRangeP _ _ _ _).bind fun _ => Poisons.ret _ _)
    case set => exact fin rfl ((poisons_setBitRangeP _ _ _ _).bind fun _ => Poisons.ret _ _)
    case bytes => exact fin rfl ((poisons_bytesP _ _ _ _).bind fun _ => Poisons.ret _ _)
    case setBytes y msb lsb v =>
      exact fin rfl ((poisons_setBytesP _ _ _ _ _ (hsb _ _ _ _ rfl)).bind fun _ => Poisons.ret _ _)
    case toVec =>
      exfalso
      simp only [World.prog, run_bind, run_toVecP ⟨hw.free a.ref, hp⟩, run] at he
      cases he
    case replace y z =>
      exfalso
      simp only [World.prog, run_bind] at he
      by_cases hab : a.ref = o.ref
      · have := run_replaceP_alias (t := 0) hw.free hp
        rw [← hab] at he
        cases c : run 0 (replaceP a.ref a.ref) w.mem
        rw [c] at this he; cases this; cases he
      · cases hb : (w.mem o.ref).poisoned with
        | true => rw [run_replaceP_src hw.free hab hp hb] at he; cases he
        | false => rw [run_replaceP_ok hw.free hab hp hb] at he; cases he

/-- **C53** (b): poisoned storage stays poisoned, with the same bytes, over every later history, and
every handle to it panics in every accessor, `to_vec` and `replace` (on either side), as does `to_vec` of
every packet containing it and comparing anything with such a packet. -/
theorem C53_poison_is_permanent (chk : Bool) (w w' : World) (hw : w.Reachable chk) (n : Nat) (hn : n < w.next)
    (hp : (w.mem n).poisoned = true) (ops : List Op) (hr : w.runOps chk ops = some w') :
    w'.mem n = w.mem n ∧
    (∀ x a, w'.resolve x = .ok a → a.ref = n →
      (∀ f, f.lo ≤ f.hi → (w'.step chk (.get x f)).2 = .error .poisoned) ∧
      (∀ f v, f.lo ≤ f.hi → (w'.step chk (.set x f v)).2 = .error .poisoned) ∧
      (∀ msb lsb, lsb ≤ msb → ∃ e, (w'.step chk (.bytes x msb lsb)).2 = .error e) ∧
      (∀ msb lsb v, lsb ≤ msb → ∃ e, (w'.step chk (.setBytes x msb lsb v)).2 = .error e) ∧
      (w'.step chk (.toVec x)).2 = .error .poisoned ∧
      (∀ y b, w'.resolve y = .ok b → (w'.step chk (.replace x y)).2 = .error .poisoned ∧
        (w'.step chk (.replace y x)).2 = .error .poisoned)) ∧
    (∀ p q, w'.pkt? p = some q → (∃ h ∈ q.hdrs, h.ref = n) → w'.serialize chk p = .error .poisoned ∧
      ∀ p' q', w'.pkt? p' = some q' → (w'.step chk (.compare p' p)).2 = .error .poisoned) := by
  have hm := (World.runOps_mem chk ops hw.free hr).2 n hn hp
  have hp' : (w'.mem n).poisoned = true := by rw [hm]; exact hp
  have hf := (hw.runOps hr).free
  refine ⟨hm, ?_, ?_⟩
  · rintro x a hx rfl
    refine ⟨?_, ?_, ?_, ?_, ?_, ?_⟩
    · intro f hle
      rw [World.step_ok chk w' (.get x f) a rfl hx (fun y h => by cases h)]
      simp only [World.prog, getP, run_bind, run_bitRangeP_poisoned hf hp' chk hle]
    · intro f v hle
      rw [World.step_ok chk w' (.set x f v) a rfl hx (fun y h => by cases h)]
      simp only [World.prog, setP, run_bind, run_setBitRangeP_poisoned hf hp' hle]
    · intro msb lsb hle
      rw [World.step_ok chk w' (.bytes x msb lsb) a rfl hx (fun y h => by cases h)]
      obtain ⟨e, he⟩ := run_bytesP_poisoned hf hp' chk hle
      exact ⟨e, by simp only [World.prog, run_bind, he]⟩
    · intro msb lsb v hle
      rw [World.step_ok chk w' (.setBytes x msb lsb v) a rfl hx (fun y h => by cases h)]
      obtain ⟨e, he⟩ := run_setBytesP_poisoned hf hp' chk hle v
      exact ⟨e, by simp only [World.prog, run_bind, he]⟩
    · rw [World.step_ok chk w' (.toVec x) a rfl hx (fun y h => by cases h)]
      simp only [World.prog, run_bind, run_toVecP_poisoned hf hp']
    · intro y b hy
      constructor
      · rw [World.step_ok chk w' (.replace x y) b rfl hx (fun z h => by cases h; exact hy)]
        simp only [World.prog, run_bind, run_replaceP_self hf hp']
      · rw [World.step_ok chk w' (.replace y x) a rfl hy (fun z h => by cases h; exact hx)]
        simp only [World.prog, run_bind]
        cases hb : (w'.mem b.ref).poisoned with
        | true => rw [run_replaceP_self hf hb]
        | false =>
          have hne : b.ref ≠ a.ref := fun e => by rw [e, hp'] at hb; cases hb
          rw [run_replaceP_src hf hne hb hp']
  · rintro p q hq ⟨h, hh, rfl⟩
    have hany : (q.hdrs.any fun h => (w'.mem h.ref).poisoned) = true := List.any_eq_true.2 ⟨h, hh, hp'⟩
    constructor
    · rw [World.serialize_eq hf hq, if_pos hany]
    · intro p' q' hq'
      simp only [World.step, hq, hq', World.access, compareP, bind_def, run_bind, run_pktToVecP hf, if_pos hany]

/-- **C53** (c): nothing else is affected: after any call on one header, every call on a header with other
storage gives the result it would have given before. -/
theorem C53_others_unaffected (chk : Bool) (w : World) (hw : w.Reachable chk) (op : Op) (x : Place) (a : HRef)
    (ht : target op = some x) (hx : w.resolve x = .ok a) (hd : (w.step chk op).2 ≠ .error .deadlock)
    (op' : Op) (y : Place) (b : HRef) (ht' : target op' = some y) (hy : w.resolve y = .ok b) (hab : b.ref ≠ a.ref)
    (hsrc : ∀ z c, op' = .replace y z → w.resolve z = .ok c → c.ref ≠ a.ref) :
    ((w.step chk op).1.step chk op').2 = (w.step chk op').2 := by
  have hres : ∀ z, (w.step chk op).1.resolve z = w.resolve z := by
    intro z
    rcases World.step_target chk w op x ht with ⟨e, h', -⟩ | ⟨a', o, ha, -, h'⟩
    · rw [h']
    · rw [h']; cases z <;> rfl
  obtain ⟨m1, -, m3, -⟩ := World.step_mem chk w op hw.free hd
  have hm : ∀ z c, w.resolve z = .ok c → c.ref ≠ a.ref → (w.step chk op).1.mem c.ref = w.mem c.ref := by
    intro z c hz hc
    refine m3 _ (hw.hdr_lt hz) ?_
    intro z' c' hz' hc'
    rw [ht] at hz'; cases hz'
    rw [hx] at hc'; cases hc'
    exact Ne.symm hc
  by_cases hrep : ∃ z, op' = .replace y z
  · obtain ⟨z, rfl⟩ := hrep
    cases hz : w.resolve z with
    | error e =>
      have hz' : (w.step chk op).1.resolve z = .error e := by rw [hres]; exact hz
      have gen : ∀ u : World, u.resolve y = .ok b → u.resolve z = .error e → (u.step chk (.replace y z)).2 = .error e := by
        intro u hy hu; simp only [World.step, World.accessAt, hy, hu]
      rw [gen _ hy hz, gen _ (by rw [hres]; exact hy) hz']
    | ok c =>
      rw [World.step_ok chk w (.replace y z) c rfl hy (fun z' h => by cases h; exact hz),
        World.step_ok chk (w.step chk op).1 (.replace y z) c rfl (by rw [hres]; exact hy)
          (fun z' h => by cases h; rw [hres]; exact hz)]
      exact prog_congr chk b c _ m1 hw.free (hm y b hy hab) (fun _ => hm z c hz (hsrc z c rfl hz))
  · have hnr : ∀ z, op' = .replace y z → w.resolve z = .ok b := fun z h => absurd ⟨z, h⟩ hrep
    rw [World.step_ok chk w op' b ht' hy hnr,
      World.step_ok chk (w.step chk op).1 op' b ht' (by rw [hres]; exact hy) (fun z h => absurd ⟨z, h⟩ hrep)]
    refine prog_congr chk b b _ m1 hw.free (hm y b hy hab) ?_
    rintro ⟨x', z, rfl⟩
    simp only [target, Option.some.injEq] at ht'
    subst ht'
    exact absurd ⟨z, rfl⟩ hrep

-- reading the ttl of a 2-byte header poisons it, its clone in a packet, and the packet; a header with other
-- storage still works
example :
    let w := sampleWorld [.ofVec IPv4 [0x11#8, 0x22#8], .clone (.var 0), .pktNew, .push 0 1,
      .ofVec UDP [1#8, 2#8, 3#8, 4#8, 5#8, 6#8, 7#8, 8#8]]
    (w.step true (.get (.var 0) IPv4.ttl)).2 = .error .index ∧
    ((w.step true (.get (.var 0) IPv4.ttl)).1.step true (.get (.inPkt 0 "IPv4" IPv4) IPv4.version)).2
      = .error .poisoned ∧
    (w.step true (.get (.var 0) IPv4.ttl)).1.serialize true 0 = .error .poisoned ∧
    ((w.step true (.get (.var 0) IPv4.ttl)).1.step true (.get (.var 2) UDP.dst)).2 = .ok (.word 0x304#64) := by decide +kernel

/-! ## C54: `replace` -/

/-- **C54** (a): `x.replace(&y)` of unpoisoned headers that do not share storage makes the bytes of `x`
those of `y` and changes nothing else. -/
theorem C54_replace_copies (chk : Bool) (w : World) (hw : w.Reachable chk) (x y : Place) (a b : HRef)
    (hx : w.resolve x = .ok a) (hy : w.resolve y = .ok b) (hab : a.ref ≠ b.ref)
    (ha : (w.mem a.ref).poisoned = false) (hb : (w.mem b.ref).poisoned = false) :
    let r := w.step chk (.replace x y)
    r.2 = .ok .unit ∧ (r.1.mem a.ref).bytes = (w.mem b.ref).bytes ∧ (r.1.mem a.ref).poisoned = false ∧
    (∀ n, n ≠ a.ref → r.1.mem n = w.mem n) ∧ r.1.hs = w.hs ∧ r.1.ps = w.ps := by
  intro r
  have hr : r = _ := World.step_ok chk w (.replace x y) b rfl hx (fun z h => by cases h; exact hy)
  rw [hr]
  simp only [World.prog, run_bind, run_replaceP_ok hw.free hab ha hb, run]
  exact ⟨trivial, by simp, by simp, fun n hn => put_ne _ _ hn, trivial, trivial⟩

/-- **C54** (b): a call never returns iff it is `replace` with both headers on one unpoisoned storage. -/
theorem C54_hangs_iff (chk : Bool) (w : World) (hw : w.Reachable chk) (op : Op) :
    (w.step chk op).2 = .error .deadlock ↔
      ∃ x y a b, op = .replace x y ∧ w.resolve x = .ok a ∧ w.resolve y = .ok b ∧ a.ref = b.ref ∧
        (w.mem a.ref).poisoned = false := by
  refine ⟨World.step_hang chk w op hw.free, ?_⟩
  rintro ⟨x, y, a, b, rfl, hx, hy, hab, hp⟩
  rw [World.step_ok chk w (.replace x y) b rfl hx (fun z h => by cases h; exact hy)]
  simp only [World.prog, run_bind, ← hab]
  have := run_replaceP_alias (t := 0) hw.free hp
  cases c : run 0 (replaceP a.ref a.ref) w.mem
  rw [c] at this; cases this; rfl

/-- **C54** (c): if the source is poisoned the call panics and leaves the target empty and poisoned. -/
theorem C54_source_poisoned (chk : Bool) (w : World) (hw : w.Reachable chk) (x y : Place) (a b : HRef)
    (hx : w.resolve x = .ok a) (hy : w.resolve y = .ok b)
    (ha : (w.mem a.ref).poisoned = false) (hb : (w.mem b.ref).poisoned = true) :
    let r := w.step chk (.replace x y)
    r.2 = .error .poisoned ∧ r.1.mem a.ref = ⟨[], true, none⟩ ∧ ∀ n, n ≠ a.ref → r.1.mem n = w.mem n := by
  intro r
  have hab : a.ref ≠ b.ref := fun e => by rw [e, hb] at ha; cases ha
  have hr : r = _ := World.step_ok chk w (.replace x y) b rfl hx (fun z h => by cases h; exact hy)
  rw [hr]
  simp only [World.prog, run_bind, run_replaceP_src hw.free hab ha hb]
  exact ⟨trivial, by simp, fun n hn => put_ne _ _ hn⟩

-- replace by another header, by a clone of itself, and by a poisoned header
example :
    let w := sampleWorld [.ofVec UDP [1#8, 2#8, 3#8], .new UDP, .clone (.var 1)]
    (w.step true (.replace (.var 1) (.var 0))).2 = .ok .unit ∧
    ((w.step true (.replace (.var 1) (.var 0))).1.mem 1).bytes = [1#8, 2#8, 3#8] ∧
    (w.step true (.replace (.var 1) (.var 2))).2 = .error .deadlock ∧
    (let v := (w.step true (.get (.var 0) UDP.checksum)).1
     (v.step true (.replace (.var 1) (.var 0))).2 = .error .poisoned ∧
     (v.step true (.replace (.var 1) (.var 0))).1.mem 1 = ⟨[], true, none⟩) := by decide +kernel

/-! ## C56: the storage model refines the value model -/

/-- **C56** (a): on unpoisoned storage the accessors return exactly what the methods on byte lists
(`Hdr.get`, …) return, panics included, and leave the bytes those methods give. -/
theorem C56_accessors_refine (chk : Bool) (w : World) (hw : w.Reachable chk) (x : Place) (a : HRef)
    (hx : w.resolve x = .ok a) (hp : (w.mem a.ref).poisoned = false) :
    let v : Hdr := ⟨a.ty, (w.mem a.ref).bytes⟩
    (∀ f, (w.step chk (.get x f)).2 = (v.get chk f).map .word ∧
      ((w.step chk (.get x f)).1.mem a.ref).bytes = v.data) ∧
    (∀ f u, (w.step chk (.set x f u)).2 = (v.set f u).map (fun _ => .unit) ∧
      ∀ v', v.set f u = .ok v' → (w.step chk (.set x f u)).1.mem a.ref = ⟨v'.data, false, none⟩) ∧
    (∀ msb lsb, (w.step chk (.bytes x msb lsb)).2 = (v.bytes chk msb lsb).map .bytes ∧
      ((w.step chk (.bytes x msb lsb)).1.mem a.ref).bytes = v.data) ∧
    (∀ msb lsb u, (w.step chk (.setBytes x msb lsb u)).2 = (v.set_bytes chk msb lsb u).map (fun _ => .unit) ∧
      ∀ v', v.set_bytes chk msb lsb u = .ok v' →
        (w.step chk (.setBytes x msb lsb u)).1.mem a.ref = ⟨v'.data, false, none⟩) ∧
    (w.step chk (.toVec x)).2 = .ok (.bytes v.to_vec) := by
  intro v
  have hf := hw.free
  have hcl : (w.mem a.ref).Clean := ⟨hf a.ref, hp⟩
  have hrd : ∀ {α : Type} (r : R α), (afterRead w.mem a.ref r a.ref).bytes = (w.mem a.ref).bytes := by
    intro α r
    unfold afterRead
    split
    · simp [Store.poison]
    · rfl
  refine ⟨?_, ?_, ?_, ?_, ?_⟩
  · intro f
    rw [World.step_ok chk w (.get x f) a rfl hx (fun y h => by cases h)]
    simp only [World.prog, getP, run_bind, run_bitRangeP (t := 0) hcl (hf.idle 0), Hdr.get, v]
    have := hrd (bitRange chk (w.mem a.ref).bytes f.hi f.lo)
    cases e : bitRange chk (w.mem a.ref).bytes f.hi f.lo with
    | ok r => rw [e] at this; exact ⟨rfl, this⟩
    | error g => rw [e] at this; exact ⟨rfl, this⟩
  · intro f u
    rw [World.step_ok chk w (.set x f u) a rfl hx (fun y h => by cases h)]
    simp only [World.prog, setP, run_bind, run_setBitRangeP (t := 0) hcl (hf.idle 0), Hdr.set, v]
    cases e : setBitRange (w.mem a.ref).bytes f.hi f.lo u with
    | ok d =>
      refine ⟨rfl, ?_⟩
      intro v' hv'
      cases hv'
      simp [run, hp, hf a.ref]
    | error g => exact ⟨rfl, fun v' hv' => by cases hv'⟩
  · intro msb lsb
    rw [World.step_ok chk w (.bytes x msb lsb) a rfl hx (fun y h => by cases h)]
    simp only [World.prog, run_bind, run_bytesP (t := 0) hcl (hf.idle 0), Hdr.bytes, v]
    have := hrd (getBytes chk (w.mem a.ref).bytes msb lsb)
    cases e : getBytes chk (w.mem a.ref).bytes msb lsb with
    | ok r => rw [e] at this; exact ⟨rfl, this⟩
    | error g => rw [e] at this; exact ⟨rfl, this⟩
  · intro msb lsb u
    rw [World.step_ok chk w (.setBytes x msb lsb u) a rfl hx (fun y h => by cases h)]
    simp only [Hdr.set_bytes, v]
    cases e : setBytes chk (w.mem a.ref).bytes msb lsb u with
    | ok d =>
      simp only [World.prog, run_bind, run_setBytesP_ok (t := 0) hcl (hf.idle 0) chk msb lsb u d e, run]
      refine ⟨rfl, fun v' hv' => ?_⟩
      cases hv'
      simp [hp, hf a.ref]
    | error g =>
      refine ⟨?_, fun v' hv' => by cases hv'⟩
      have := run_setBytesP_error (t := 0) hcl (hf.idle 0) chk msb lsb u g e
      simp only [World.prog, run_bind]
      cases c : run 0 (setBytesP chk a.ref msb lsb u) w.mem with
      | mk r m => rw [c] at this; cases this; rfl
  · rw [World.step_ok chk w (.toVec x) a rfl hx (fun y h => by cases h)]
    simp only [World.prog, run_bind, run_toVecP hcl, run, Hdr.to_vec, v]

theorem pop_eq (p : Packet) : p.pop = .ok ⟨p.hdrs.dropLast, p.payload⟩ := by
  obtain ⟨hdrs, payload⟩ := p
  cases hdrs <;> rfl

theorem remove_eq (p : Packet) (i : Nat) : p.remove i = .ok ⟨p.hdrs.eraseIdx i, p.payload⟩ := by
  unfold Packet.remove Packet.vecRemove
  by_cases h : i < p.hdrs.length
  · rw [if_pos ⟨by omega, h⟩, if_pos h]; rfl
  · rw [if_neg (fun h' => h h'.2), List.eraseIdx_of_length_le (by omega)]; rfl

/-- **C56** (b): packets: construction, serialization and comparison do to the value a packet variable
denotes (`PRef.view`) exactly what the functions on packets as values (`Packet.push`, …) do. -/
theorem C56_packets_refine (chk : Bool) (w : World) (hw : w.Reachable chk) (p : Nat) (q : PRef)
    (hq : w.pkt? p = some q) :
    let val := fun (w : World) (p : Nat) => (w.pkt? p).map (PRef.view w.mem)
    let clean := fun (q : PRef) => ∀ h ∈ q.hdrs, (w.mem h.ref).poisoned = false
    (∀ h a, w.hdr? h = some a →
      val (w.step chk (.push p h)).1 p = some ((q.view w.mem).push ⟨a.ty, (w.mem a.ref).bytes⟩) ∧
      val (w.step chk (.insert p h)).1 p = some ((q.view w.mem).insert ⟨a.ty, (w.mem a.ref).bytes⟩)) ∧
    ((q.view w.mem).pop = .ok ((val (w.step chk (.pop p)).1 p).getD Packet.new)) ∧
    (∀ i, (q.view w.mem).remove i = .ok ((val (w.step chk (.remove p i)).1 p).getD Packet.new)) ∧
    (∀ b, val (w.step chk (.setPayload p b)).1 p = some ((q.view w.mem).set_payload b)) ∧
    (val (w.step chk (.pktClone p)).1 w.ps.length = some (q.view w.mem).clone_me) ∧
    (∀ p' q', p ≠ p' → w.pkt? p' = some q' →
      val (w.step chk (.add p p')).1 w.ps.length = some ((q.view w.mem).add (q'.view w.mem))) ∧
    (∀ pk, val (w.step chk (.adopt pk)).1 w.ps.length = some pk) ∧
    (clean q → w.serialize chk p = .ok (.bytes (q.view w.mem).to_vec)) ∧
    (∀ p' q', w.pkt? p' = some q' → clean q → clean q' →
      (w.step chk (.compare p p')).2 = .ok (.bool ((q.view w.mem).compare (q'.view w.mem)))) := by
  intro val clean
  have hlt : p < w.ps.length := by
    unfold World.pkt? at hq
    cases e : w.ps[p]? with
    | none => rw [e] at hq; cases hq
    | some y => rw [List.getElem?_eq_some_iff] at e; exact e.1
  have hset : ∀ r : PRef, (((w.ps.set p (some r)))[p]?).join = some r := by
    intro r; simp [hlt]
  have hnp : ∀ q : PRef, clean q → (q.hdrs.any fun h => (w.mem h.ref).poisoned) = false := by
    intro q hc
    rw [List.any_eq_false]
    intro h hh; simp [hc h hh]
  refine ⟨?_, ?_, ?_, ?_, ?_, ?_, ?_, ?_, ?_⟩
  · intro h a ha
    simp only [val, World.step, ha, hq]
    simp only [World.pkt?, hset]
    exact ⟨by simp [PRef.view, Packet.push], by simp [PRef.view, Packet.insert]⟩
  · simp only [val, World.step, World.updPkt, hq]
    simp only [World.pkt?, hset]
    rw [pop_eq]
    simp [PRef.view, List.map_dropLast]
  · intro i
    simp only [val, World.step, World.updPkt, hq]
    simp only [World.pkt?, hset]
    rw [remove_eq]
    simp only [PRef.view, Option.map_some, Option.getD_some, ← eraseIdx_map']
  · intro b
    simp only [val, World.step, World.updPkt, hq]
    simp only [World.pkt?, hset]
    simp [PRef.view, Packet.set_payload]
  · simp only [val, World.step, hq]
    simp [World.pkt?, PRef.view, Packet.clone_me]
  · intro p' q' hne hq'
    simp only [val, World.step, hq, hq', if_neg hne]
    simp [World.pkt?, PRef.view, Packet.add]
  · intro pk
    obtain ⟨-, -, e3, e4, -, -, e7⟩ := World.allocAll_props pk.hdrs w
    simp only [val, World.step, World.pkt?, e3]
    simp only [List.getElem?_append_right (Nat.le_refl _), Nat.sub_self, List.getElem?_cons_zero, Option.join_some,
      Option.map_some, PRef.view, e4, Option.some.injEq]
    cases pk with
    | mk hdrs payload =>
      simp only [Packet.mk.injEq, and_true]
      refine List.ext_getElem (by simp) fun j h1 h2 => ?_
      simp only [List.getElem_map, List.getElem_mapIdx]
      rw [e7 j h2]
  · intro hc
    rw [World.serialize_eq hw.free hq, hnp q hc]; simp
  · intro p' q' hq' hc hc'
    simp only [World.step, hq, hq', World.access, compareP, bind_def, run_bind, run_pktToVecP hw.free, hnp q' hc',
      Bool.false_eq_true, if_false, compareSliceP, Packet.compare, Packet.compare_with_slice]
    have hlen : q.len = (q.view w.mem).len := by simp [PRef.len, Packet.len, PRef.view, Hdr.len, Function.comp_def]
    rw [← hlen]
    by_cases h1 : q.len ≠ (q'.view w.mem).to_vec.length
    · simp only [if_pos h1, pure_def, run]
    · simp only [if_neg h1, run_bind, run_pktToVecP hw.free, hnp q hc, Bool.false_eq_true, if_false]
      by_cases h2 : q.len ≠ (((q.view w.mem).to_vec.zip (q'.view w.mem).to_vec).filter (fun x => x.1 == x.2)).length ∨
          (q'.view w.mem).to_vec.length ≠
            (((q.view w.mem).to_vec.zip (q'.view w.mem).to_vec).filter (fun x => x.1 == x.2)).length
      · simp only [if_pos h2, pure_def, run]
      · simp only [if_neg h2, pure_def, run]

/-- **C56** (c): the same for `p[name] = Box::new(h)`, `compare_with_slice` and `len`. -/
theorem C56_packets_refine_more (chk : Bool) (w : World) (hw : w.Reachable chk) (p : Nat) (q : PRef)
    (hq : w.pkt? p = some q) :
    let val := fun (w : World) (p : Nat) => (w.pkt? p).map (PRef.view w.mem)
    (∀ name h a, w.hdr? h = some a →
      match (q.view w.mem).assign name ⟨a.ty, (w.mem a.ref).bytes⟩ with
      | .ok v => (w.step chk (.assign p name h)).2 = .ok .unit ∧ val (w.step chk (.assign p name h)).1 p = some v
      | .error e => (w.step chk (.assign p name h)).2 = .error e ∧
          val (w.step chk (.assign p name h)).1 p = some (q.view w.mem)) ∧
    (∀ b, (∀ h ∈ q.hdrs, (w.mem h.ref).poisoned = false) →
      (w.step chk (.compareSlice p b)).2 = .ok (.bool ((q.view w.mem).compare_with_slice b))) ∧
    (w.step chk (.pktLen p)).2 = .ok (.num (q.view w.mem).len) := by
  intro val
  have hlt : p < w.ps.length := by
    unfold World.pkt? at hq
    cases e : w.ps[p]? with
    | none => rw [e] at hq; cases hq
    | some y => rw [List.getElem?_eq_some_iff] at e; exact e.1
  have hset : ∀ r : PRef, (((w.ps.set p (some r)))[p]?).join = some r := by
    intro r; simp [hlt]
  have hlen : q.len = (q.view w.mem).len := by simp [PRef.len, Packet.len, PRef.view, Hdr.len, Function.comp_def]
  refine ⟨?_, ?_, ?_⟩
  · intro name h a ha
    have key : ∀ l : List HRef,
        Packet.modifyFirst name (fun _ => .ok ⟨a.ty, (w.mem a.ref).bytes⟩) (l.map fun h => ⟨h.ty, (w.mem h.ref).bytes⟩) =
          if l.any (fun g => g.ty.name = name) then
            .ok ((World.assignFirst name a l).map fun h => ⟨h.ty, (w.mem h.ref).bytes⟩)
          else .error .unwrapNone := by
      intro l
      induction l with
      | nil => rfl
      | cons c l ih =>
        by_cases hc : c.ty.name = name
        · simp [Packet.modifyFirst, Hdr.name, hc, World.assignFirst, bind, Except.bind, pure, Except.pure]
        · simp only [List.map_cons, Packet.modifyFirst, Hdr.name, World.assignFirst, List.any_cons, hc,
            decide_false, Bool.false_or, ih]
          by_cases hl : (l.any fun g => decide (g.ty.name = name)) = true
          · simp only [hl, if_true, if_false]; rfl
          · simp only [hl, Bool.false_eq_true, if_false]; rfl
    simp only [Packet.assign, PRef.view, key]
    by_cases hany : (q.hdrs.any fun g => decide (g.ty.name = name)) = true
    · simp only [hany, if_true, bind, Except.bind, pure, Except.pure, World.step, ha, hq]
      refine ⟨trivial, ?_⟩
      simp only [val, World.pkt?, hset]
      rfl
    · simp only [hany, Bool.false_eq_true, if_false, bind, Except.bind, World.step, ha, hq]
      refine ⟨trivial, ?_⟩
      simp only [val]
      rw [show World.pkt? { w with hs := w.hs.set h none } p = some q from hq]
      rfl
  · intro b hc
    have hnp : (q.hdrs.any fun h => (w.mem h.ref).poisoned) = false := by
      rw [List.any_eq_false]
      intro h hh; simp [hc h hh]
    simp only [World.step, hq, World.access, run_bind, compareSliceP, Packet.compare_with_slice]
    rw [← hlen]
    by_cases h1 : q.len ≠ b.length
    · simp only [if_pos h1, pure_def, run]
    · simp only [if_neg h1, bind_def, run_bind, run_pktToVecP hw.free, hnp, Bool.false_eq_true, if_false]
      by_cases h2 : q.len ≠ (((q.view w.mem).to_vec.zip b).filter (fun x => x.1 == x.2)).length ∨
          b.length ≠ (((q.view w.mem).to_vec.zip b).filter (fun x => x.1 == x.2)).length
      · simp only [if_pos h2, pure_def, run]
      · simp only [if_neg h2, pure_def, run]
  · simp only [World.step, hq, hlen]

-- a header put in the place of the IPv4 header of a clone: the original keeps its own
example :
    let w := sampleWorld sampleOps
    let w' := (w.step true (.assign 1 "IPv4" 2)).1
    (w.step true (.assign 1 "IPv4" 2)).2 = .ok .unit ∧ w'.serialize true 0 = w.serialize true 0 ∧
    (w'.pkt? 1).map (fun q => q.hdrs.map (·.ty.name)) = some ["Ether", "Ether"] ∧
    (w.step true (.assign 1 "UDP" 2)).2 = .error .unwrapNone ∧
    (w.step true (.pktLen 0)).2 = .ok (.num (14 + 20 + ((w.pkt? 0).map (·.payload.length)).getD 0)) ∧
    (w.step true (.compareSlice 1 ((((w.pkt? 0).map (PRef.view w.mem)).map Packet.to_vec).getD []))).2 = .ok (.bool true) ∧
    (w.step true (.compareSlice 1 [1#8])).2 = .ok (.bool false) := by
  decide +kernel

theorem modifyFirst_none (name : String) (f : Hdr → R Hdr) (l : List Hdr) (h : l.find? (fun h => h.name = name) = none) :
    Packet.modifyFirst name f l = .error .unwrapNone := by
  induction l with
  | nil => rfl
  | cons a l ih =>
    rw [List.find?_cons] at h
    split at h
    · cases h
    · next hn =>
      simp only [decide_eq_false_iff_not] at hn
      simp only [Packet.modifyFirst, if_neg hn, ih h]; rfl

theorem modifyFirst_view (name : String) (f : Hdr → R Hdr) (m : Store) (l : List HRef) (a : HRef)
    (hn : (l.map HRef.ref).Nodup) (h : l.find? (fun h => h.ty.name = name) = some a) :
    (∀ d, f ⟨a.ty, (m a.ref).bytes⟩ = .ok ⟨a.ty, d⟩ → ∀ c : Cell, c.bytes = d →
      Packet.modifyFirst name f (l.map fun h => ⟨h.ty, (m h.ref).bytes⟩) =
        .ok (l.map fun h => ⟨h.ty, ((m.put a.ref c) h.ref).bytes⟩)) ∧
    (∀ e, f ⟨a.ty, (m a.ref).bytes⟩ = .error e →
      Packet.modifyFirst name f (l.map fun h => ⟨h.ty, (m h.ref).bytes⟩) = .error e) := by
  induction l with
  | nil => cases h
  | cons b l ih =>
    simp only [List.map_cons, List.nodup_cons, List.mem_map, not_exists, not_and] at hn
    rw [List.find?_cons] at h
    split at h
    · next hb =>
      cases h
      have hb : (⟨a.ty, (m a.ref).bytes⟩ : Hdr).name = name := of_decide_eq_true hb
      simp only [List.map_cons, Packet.modifyFirst, if_pos hb]
      refine ⟨?_, fun e he => by rw [he]; rfl⟩
      rintro d hd c rfl
      rw [hd]
      simp only [bind, Except.bind, pure, Except.pure, put_same, Except.ok.injEq, List.cons.injEq, true_and]
      refine List.map_congr_left fun x hx => ?_
      rw [put_ne _ _ (hn.1 x hx)]
    · next hb =>
      have hb : ¬ (⟨b.ty, (m b.ref).bytes⟩ : Hdr).name = name := of_decide_eq_false hb
      have hba : b.ref ≠ a.ref := fun e => hn.1 a (List.mem_of_find?_eq_some h) e.symm
      obtain ⟨i1, i2⟩ := ih hn.2 h
      simp only [List.map_cons, Packet.modifyFirst, if_neg hb]
      refine ⟨?_, fun e he => by rw [i2 e he]; rfl⟩
      rintro d hd c hc
      rw [i1 d hd c hc, put_ne _ _ hba]; rfl

/-- **C56** (c): in a packet no two of whose headers share storage, setting a field of a header looked up by
name has exactly the value-level effect: the same panics, and otherwise the first header of that name is
changed by `Hdr.set` and nothing else. -/
theorem C56_set_in_packet (chk : Bool) (w : World) (hw : w.Reachable chk) (p : Nat) (q : PRef)
    (hq : w.pkt? p = some q) (hn : (q.hdrs.map HRef.ref).Nodup)
    (hp : ∀ h ∈ q.hdrs, (w.mem h.ref).poisoned = false) (name : String) (T : HeaderDef) (f : Field) (v : U64) :
    let r := w.step chk (.set (.inPkt p name T) f v)
    let val := (q.view w.mem).withHeaderMut T name (fun h => h.set f v)
    r.2 = val.map (fun _ => .unit) ∧ ∀ pk, val = .ok pk → (r.1.pkt? p).map (PRef.view r.1.mem) = some pk := by
  intro r val
  cases hfind : q.hdrs.find? (fun h => h.ty.name = name) with
  | none =>
    have hres : w.resolve (.inPkt p name T) = .error .unwrapNone := by simp only [World.resolve, hq, hfind]
    have hr : r = (w, .error .unwrapNone) := by simp only [r, World.step, World.accessAt, hres]
    have hv : val = .error .unwrapNone := by
      simp only [val, Packet.withHeaderMut]
      rw [modifyFirst_none]
      · rfl
      · simp only [PRef.view, List.find?_map, Function.comp_def, Hdr.name]
        exact congrArg _ hfind
    rw [hr, hv]
    exact ⟨rfl, fun pk h => by cases h⟩
  | some a =>
    have hmem := List.mem_of_find?_eq_some hfind
    obtain ⟨v1, v2⟩ := modifyFirst_view name (fun h => if h.ty = T then h.set f v else .error .downcast) w.mem q.hdrs a hn hfind
    by_cases hT : a.ty = T
    · have hres : w.resolve (.inPkt p name T) = .ok a := by simp only [World.resolve, hq, hfind, if_pos hT]
      have hr : r = _ := World.step_ok chk w (.set (.inPkt p name T) f v) a rfl hres (fun y h => by cases h)
      rw [hr]
      simp only [World.prog, setP, run_bind, run_setBitRangeP (t := 0) ⟨hw.free a.ref, hp a hmem⟩ (hw.free.idle 0)]
      simp only [if_pos hT, Hdr.set] at v1 v2
      cases e : setBitRange (w.mem a.ref).bytes f.hi f.lo v with
      | ok d =>
        have := v1 d (by rw [e]; rfl) { w.mem a.ref with bytes := d } rfl
        have hv : val = .ok ⟨q.hdrs.map fun h => ⟨h.ty, ((w.mem.put a.ref { w.mem a.ref with bytes := d }) h.ref).bytes⟩,
            q.payload⟩ := by
          simp only [val, Packet.withHeaderMut, PRef.view, Hdr.set, this]; rfl
        rw [hv]
        refine ⟨rfl, fun pk hpk => ?_⟩
        cases hpk
        simp only [run, World.pkt?] at hq ⊢
        rw [hq]; rfl
      | error g =>
        have := v2 g (by rw [e]; rfl)
        have hv : val = .error g := by
          simp only [val, Packet.withHeaderMut, PRef.view, Hdr.set, this]; rfl
        rw [hv]
        exact ⟨rfl, fun pk h => by cases h⟩
    · have hres : w.resolve (.inPkt p name T) = .error .downcast := by simp only [World.resolve, hq, hfind, if_neg hT]
      have hr : r = (w, .error .downcast) := by simp only [r, World.step, World.accessAt, hres]
      have hv : val = .error .downcast := by
        have := v2 .downcast (by simp only [if_neg hT])
        simp only [val, Packet.withHeaderMut, PRef.view, this]; rfl
      rw [hr, hv]
      exact ⟨rfl, fun pk h => by cases h⟩

-- packet 0 of the sample world meets the hypotheses
example :
    let w := sampleWorld sampleOps
    w.pkt? 0 = some ⟨[⟨Ether, 0⟩, ⟨IPv4, 1⟩], [0xaa#8]⟩ ∧ (w.mem 0).poisoned = false ∧ (w.mem 1).poisoned = false ∧
    (w.step true (.set (.inPkt 0 "IPv4" IPv4) IPv4.ttl 9#64)).2 = .ok .unit := by decide +kernel

end PacketRs
