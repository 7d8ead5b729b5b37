import Verif.Lemmas.Snapshot
/-!
# C64: what `to_vec` can see while another thread sets fields

`Packet::to_vec` locks one header after the other (/repo/src/packet.rs:385-392, /repo/src/headers.rs:429-432);
a setter takes the lock once per bit (/repo/src/headers.rs:315-324).
-/
namespace PacketRs
open Spec
open Prog hiding bind

variable {L : Nat → Nat}

/-- C64.  Thread 0 serialises a packet while thread 1 makes any list of setter calls.  The byte strings
thread 0 can return are exactly those in which each header is shown as it was at one moment between two
single-bit writes, the moments being in header order; the payload follows. -/
theorem C64_to_vec (chk : Bool) (m : Store) (hm : Fresh L m) (p : PRef) (calls : List SetCall)
    (hc : ∀ c ∈ calls, c.Ok L) (v : Bytes) :
    (∃ s, Sys.Reach (readWrite chk m p calls) s ∧ s.th 0 = .ret v) ↔
    ∃ w, Snapshots m (calls.flatMap SetCall.writes) 0 (p.hdrs.map HRef.ref) w ∧ v = w ++ p.payload := by
  have e : pktToVecP p = (pktRest p.hdrs [] p.payload).bind .ret := by rw [bind_ret_right]; exact pktToVecP_rest p
  have h0 : RW L m (calls.flatMap SetCall.writes) 0 (lookHdrs p.hdrs [] fun d => .done (d ++ p.payload)) (readWrite chk m p calls) := by
    refine ⟨hm, Nat.zero_le _, writer_setAll chk [] calls hc, fun r i => rfl, ?_, ?_⟩
    · show Looks L (pktToVecP p) _
      rw [e]
      exact reads_pkt p.hdrs [] p.payload _ _ fun d _ => .done _
    · intro t h0 h1
      match t, h0, h1 with
      | t + 2, _, _ => exact ⟨_, rfl⟩
  have hacc : ∀ t, Acc (fun _ => True) ((readWrite chk m p calls).th t) := by
    intro t
    simp only [readWrite]
    split
    · exact acc_pktRest p.hdrs [] p.payload
    · exact acc_client chk _ (noReplace_setAll [] calls)
    · exact .ret _
  rw [answers_iff hm hacc h0 rfl, answers_lookHdrs _ _ _ _ (Nat.zero_le _)]
  constructor
  · rintro ⟨q', w, hq', hs, ha⟩
    cases ha
    exact ⟨w, (snapshotsTo_iff (Nat.zero_le _)).1 ⟨q', hq', hs⟩, rfl⟩
  · rintro ⟨w, hw, rfl⟩
    obtain ⟨q', hq', hs⟩ := (snapshotsTo_iff (Nat.zero_le _)).2 hw
    exact ⟨q', w, hq', hs, .done _ _⟩

theorem width_eq {f : Field} (h : f.lo ≤ f.hi) : f.width = f.hi + 1 - f.lo := by unfold Field.width; omega

/-- A header while a setter is at work: the lowest `k` bits of the field are new. -/
def Partly (m : Store) (c : SetCall) (k : Nat) (d : Bytes) : Prop :=
  d.length = (m c.ref).bytes.length ∧ ∀ i, i < 8 * d.length →
    netBit d i = if c.field.hi < i + k ∧ c.field.lo ≤ i ∧ i ≤ c.field.hi then c.val.getLsbD (c.field.hi - i)
      else netBit (m c.ref).bytes i

theorem bitAfter_writes (m : Store) {c : SetCall} (hc : c.field.lo ≤ c.field.hi) (k r i : Nat) :
    bitAfter m (c.writes.take k) r i =
      if c.ref = r ∧ c.field.hi < i + k ∧ c.field.lo ≤ i ∧ i ≤ c.field.hi then c.val.getLsbD (c.field.hi - i)
      else netBit (m r).bytes i := by
  induction k with
  | zero =>
    rw [if_neg (by omega)]; rfl
  | succ k ih =>
    by_cases hk : k < c.field.hi + 1 - c.field.lo
    · have hd : c.writes.drop k = ⟨c.ref, c.field.hi - k, c.val.getLsbD k⟩ :: c.writes.drop (k + 1) := by
        have hlt : k < c.writes.length := by simp [SetCall.writes]; omega
        rw [List.drop_eq_getElem_cons hlt]
        simp [SetCall.writes]
      rw [bitAfter_take_succ m _ hd, ih]
      by_cases h : c.ref = r ∧ c.field.hi - k = i
      · obtain ⟨rfl, rfl⟩ := h
        rw [if_pos ⟨rfl, rfl⟩, if_pos ⟨rfl, by omega, by omega, by omega⟩]
        have e : c.field.hi - (c.field.hi - k) = k := by omega
        rw [e]
      · rw [if_neg h]
        by_cases h2 : c.ref = r ∧ c.field.hi < i + k ∧ c.field.lo ≤ i ∧ i ≤ c.field.hi
        · rw [if_pos h2, if_pos (by omega)]
        · rw [if_neg h2, if_neg]
          rintro ⟨h3, h4, h5, h6⟩
          exact h ⟨h3, by by_cases hh : c.field.hi < i + k
                          · exact absurd ⟨h3, hh, h5, h6⟩ h2
                          · omega⟩
    · have e : c.writes.take (k + 1) = c.writes.take k := by
        rw [List.take_of_length_le (by simp [SetCall.writes]; omega), List.take_of_length_le (by simp [SetCall.writes]; omega)]
      rw [e, ih]
      by_cases h : c.ref = r ∧ c.field.hi < i + k ∧ c.field.lo ≤ i ∧ i ≤ c.field.hi
      · rw [if_pos h, if_pos (by omega)]
      · rw [if_neg h, if_neg]
        rintro ⟨h3, h4, h5, h6⟩
        exact h ⟨h3, by omega, h5, h6⟩

theorem holds_partly {m : Store} {c : SetCall} (hc : c.field.lo ≤ c.field.hi) (k : Nat) (d : Bytes) :
    Holds m (c.writes.take k) c.ref d ↔ Partly m c k d := by
  unfold Holds Partly
  simp only [bitAfter_writes m hc, true_and]

theorem length_writes (c : SetCall) : c.writes.length = c.field.hi + 1 - c.field.lo := by
  simp [SetCall.writes]

/-- C64, one header, one setter: `to_vec` returns the old contents with the `k` least significant bits of
the field replaced, for some `k` from none to all; every `k` can happen. -/
theorem C64_one_header (chk : Bool) (m : Store) (hm : Fresh L m) (T : HeaderDef) (c : SetCall) (hc : c.Ok L) (pl v : Bytes) :
    (∃ s, Sys.Reach (readWrite chk m ⟨[⟨T, c.ref⟩], pl⟩ [c]) s ∧ s.th 0 = .ret v) ↔
    ∃ k d, k ≤ c.field.width ∧ Partly m c k d ∧ v = d ++ pl := by
  have hw : c.field.width = c.field.hi + 1 - c.field.lo := width_eq hc.1
  rw [C64_to_vec chk m hm _ [c] (by simpa using hc)]
  simp only [List.flatMap_cons, List.flatMap_nil, List.append_nil, List.map_cons, List.map_nil]
  constructor
  · rintro ⟨w, hs, rfl⟩
    cases hs with
    | @cons _ q _ _ d v h1 h2 h3 h4 =>
      cases h4
      exact ⟨q, d, by rw [length_writes] at h2; omega, (holds_partly hc.1 q d).1 h3, by simp⟩
  · rintro ⟨k, d, hk, hp, rfl⟩
    exact ⟨d ++ [], .cons (Nat.zero_le _) (by rw [length_writes]; omega) ((holds_partly hc.1 k d).2 hp) (.nil _), by simp⟩

theorem bitAfter_append (m : Store) (ws ws' : List BitWrite) (r i : Nat) (h : ∀ w ∈ ws', w.ref ≠ r) :
    bitAfter m (ws ++ ws') r i = bitAfter m ws r i := by
  unfold bitAfter
  rw [List.foldl_append]
  generalize List.foldl _ _ ws = b
  induction ws' generalizing b with
  | nil => rfl
  | cons w ws' ih =>
    rw [List.foldl_cons, if_neg (fun e => h w (by simp) e.1)]
    exact ih (fun w hw => h w (by simp [hw])) b

theorem bitAfter_skip (m : Store) (ws ws' : List BitWrite) (r i : Nat) (h : ∀ w ∈ ws, w.ref ≠ r) :
    bitAfter m (ws ++ ws') r i = bitAfter m ws' r i := by
  have := bitAfter_append m [] ws r i h
  unfold bitAfter at this ⊢
  rw [List.foldl_append]
  rw [List.nil_append] at this
  rw [this]; rfl

theorem writes_ref {c : SetCall} {w : BitWrite} (h : w ∈ c.writes) : w.ref = c.ref := by
  simp only [SetCall.writes, List.mem_map] at h
  obtain ⟨j, -, rfl⟩ := h
  rfl

/-- After `q` single-bit writes of two calls on different headers. -/
theorem holds_two {m : Store} {c c' : SetCall} (hc : c.field.lo ≤ c.field.hi) (hc' : c'.field.lo ≤ c'.field.hi) (hne : c.ref ≠ c'.ref)
    (q : Nat) (d : Bytes) :
    (Holds m ((c.writes ++ c'.writes).take q) c.ref d ↔ Partly m c q d) ∧
    (Holds m ((c.writes ++ c'.writes).take q) c'.ref d ↔ Partly m c' (q - c.field.width) d) := by
  have hw : c.field.width = c.field.hi + 1 - c.field.lo := width_eq hc
  rw [List.take_append, length_writes, ← hw, ← holds_partly hc, ← holds_partly hc']
  constructor
  · unfold Holds
    refine and_congr Iff.rfl (forall_congr' fun i => imp_congr_right fun _ => ?_)
    rw [bitAfter_append]
    intro w hw'
    rw [writes_ref (List.mem_of_mem_take hw')]; exact hne.symm
  · unfold Holds
    refine and_congr Iff.rfl (forall_congr' fun i => imp_congr_right fun _ => ?_)
    rw [bitAfter_skip]
    intro w hw'
    rw [writes_ref (List.mem_of_mem_take hw')]; exact hne

theorem partly_more {m : Store} {c : SetCall} {k : Nat} (hk : c.field.width ≤ k) (d : Bytes) :
    Partly m c k d ↔ Partly m c c.field.width d := by
  have hw : c.field.width = c.field.hi - c.field.lo + 1 := rfl
  unfold Partly
  refine and_congr Iff.rfl (forall_congr' fun i => imp_congr_right fun _ => ?_)
  by_cases h : c.field.lo ≤ i ∧ i ≤ c.field.hi
  · rw [if_pos (by omega), if_pos (by omega)]
  · rw [if_neg (fun e => h e.2), if_neg (fun e => h e.2)]

/-- C64, a packet is not a snapshot: while a thread sets a field of the first header and then one of the
second, `to_vec` can show any stage of the first together with any stage of the second, in particular
the old first header with the new second one, a state the packet never was in. -/
theorem C64_two_headers (chk : Bool) (m : Store) (hm : Fresh L m) (T T' : HeaderDef) (c c' : SetCall) (hc : c.Ok L)
    (hc' : c'.Ok L) (hne : c.ref ≠ c'.ref) (pl v : Bytes) :
    (∃ s, Sys.Reach (readWrite chk m ⟨[⟨T, c.ref⟩, ⟨T', c'.ref⟩], pl⟩ [c, c']) s ∧ s.th 0 = .ret v) ↔
    ∃ k d k' d', k ≤ c.field.width ∧ k' ≤ c'.field.width ∧ Partly m c k d ∧ Partly m c' k' d' ∧ v = d ++ d' ++ pl := by
  have hw : c.field.width = c.field.hi + 1 - c.field.lo := width_eq hc.1
  have hw' : c'.field.width = c'.field.hi + 1 - c'.field.lo := width_eq hc'.1
  rw [C64_to_vec chk m hm _ [c, c'] (by simpa using ⟨hc, hc'⟩)]
  simp only [List.flatMap_cons, List.flatMap_nil, List.append_nil, List.map_cons, List.map_nil]
  have hlen : (c.writes ++ c'.writes).length = c.field.width + c'.field.width := by
    rw [List.length_append, length_writes, length_writes]; omega
  constructor
  · rintro ⟨w, hs, rfl⟩
    cases hs with
    | @cons _ q _ _ d v h1 h2 h3 h4 =>
      cases h4 with
      | @cons _ q' _ _ d' v g1 g2 g3 g4 =>
        cases g4
        rw [hlen] at h2 g2
        have e1 := ((holds_two hc.1 hc'.1 hne q d).1).1 h3
        have e2 := ((holds_two hc.1 hc'.1 hne q' d').2).1 g3
        by_cases hq : q ≤ c.field.width
        · exact ⟨q, d, _, d', hq, by omega, e1, e2, by simp⟩
        · exact ⟨c.field.width, d, _, d', Nat.le_refl _, by omega, (partly_more (by omega) d).1 e1, e2, by simp⟩
  · rintro ⟨k, d, k', d', hk, hk', hp, hp', rfl⟩
    refine ⟨d ++ (d' ++ []), .cons (q := k) (Nat.zero_le _) (by omega) ((holds_two hc.1 hc'.1 hne k d).1.2 hp)
      (.cons (q := c.field.width + k') (by omega) (by omega) ((holds_two hc.1 hc'.1 hne _ d').2.2 ?_) (.nil _)), by simp⟩
    rw [Nat.add_sub_cancel_left]; exact hp'

/-- C64, the other order: if the writer works against the order of the headers, a change seen in the first
header means that the second one is seen completely changed; nothing else is excluded. -/
theorem C64_two_headers_backwards (chk : Bool) (m : Store) (hm : Fresh L m) (T T' : HeaderDef) (c c' : SetCall) (hc : c.Ok L)
    (hc' : c'.Ok L) (hne : c.ref ≠ c'.ref) (pl v : Bytes) :
    (∃ s, Sys.Reach (readWrite chk m ⟨[⟨T, c.ref⟩, ⟨T', c'.ref⟩], pl⟩ [c', c]) s ∧ s.th 0 = .ret v) ↔
    ∃ k d k' d', k ≤ c.field.width ∧ k' ≤ c'.field.width ∧ (k ≠ 0 → k' = c'.field.width) ∧
      Partly m c k d ∧ Partly m c' k' d' ∧ v = d ++ d' ++ pl := by
  have hw : c.field.width = c.field.hi + 1 - c.field.lo := width_eq hc.1
  have hw' : c'.field.width = c'.field.hi + 1 - c'.field.lo := width_eq hc'.1
  rw [C64_to_vec chk m hm _ [c', c] (by simpa using ⟨hc', hc⟩)]
  simp only [List.flatMap_cons, List.flatMap_nil, List.append_nil, List.map_cons, List.map_nil]
  have hlen : (c'.writes ++ c.writes).length = c'.field.width + c.field.width := by
    rw [List.length_append, length_writes, length_writes]; omega
  constructor
  · rintro ⟨w, hs, rfl⟩
    cases hs with
    | @cons _ q _ _ d v h1 h2 h3 h4 =>
      cases h4 with
      | @cons _ q' _ _ d' v g1 g2 g3 g4 =>
        cases g4
        rw [hlen] at h2 g2
        have e1 := ((holds_two hc'.1 hc.1 hne.symm q d).2).1 h3
        have e2 := ((holds_two hc'.1 hc.1 hne.symm q' d').1).1 g3
        by_cases hq : q' ≤ c'.field.width
        · exact ⟨_, d, q', d', by omega, hq, by omega, e1, e2, by simp⟩
        · exact ⟨_, d, c'.field.width, d', by omega, Nat.le_refl _, fun _ => rfl, e1, (partly_more (by omega) d').1 e2, by simp⟩
  · rintro ⟨k, d, k', d', hk, hk', hkk, hp, hp', rfl⟩
    by_cases h0 : k = 0
    · subst h0
      refine ⟨d ++ (d' ++ []), .cons (q := 0) (Nat.zero_le _) (by omega) ((holds_two hc'.1 hc.1 hne.symm 0 d).2.2 (by simpa using hp))
        (.cons (q := k') (by omega) (by omega) ((holds_two hc'.1 hc.1 hne.symm _ d').1.2 hp') (.nil _)), by simp⟩
    · have := hkk h0
      subst this
      refine ⟨d ++ (d' ++ []), .cons (q := c'.field.width + k) (Nat.zero_le _) (by omega)
        ((holds_two hc'.1 hc.1 hne.symm _ d).2.2 (by rw [Nat.add_sub_cancel_left]; exact hp))
        (.cons (q := c'.field.width + k) (by omega) (by omega) ((holds_two hc'.1 hc.1 hne.symm _ d').1.2 ?_) (.nil _)), by simp⟩
      exact (partly_more (by omega) d').2 hp'

/-! ## Non-vacuity -/

/-- Storage full of zeroed UDP headers. -/
def zeroUdp : Store := fun _ => ⟨List.replicate 8 0#8, false, none⟩

theorem zeroUdp_fresh : Fresh (fun _ => 8) zeroUdp := fun _ => ⟨rfl, rfl, rfl⟩

instance (m : Store) (c : SetCall) (k : Nat) (d : Bytes) : Decidable (Partly m c k d) := by
  unfold Partly; infer_instance

/-- One thread sets the destination port to 0xFFFF: `to_vec` may show 0x00FF, and does not show 0xFF00. -/
example :
    (∃ s, Sys.Reach (readWrite true zeroUdp ⟨[⟨UDP, 0⟩], [9#8]⟩ [⟨0, UDP.dst, 0xFFFF#64⟩]) s ∧
      s.th 0 = .ret [0, 0, 0, 0xFF, 0, 0, 0, 0, 9]) ∧
    ¬ ∃ s, Sys.Reach (readWrite true zeroUdp ⟨[⟨UDP, 0⟩], [9#8]⟩ [⟨0, UDP.dst, 0xFFFF#64⟩]) s ∧
      s.th 0 = .ret [0, 0, 0xFF, 0, 0, 0, 0, 0, 9] := by
  have hok : (⟨0, UDP.dst, 0xFFFF#64⟩ : SetCall).Ok (fun _ => 8) := ⟨by decide, by decide⟩
  rw [C64_one_header true zeroUdp zeroUdp_fresh UDP _ hok, C64_one_header true zeroUdp zeroUdp_fresh UDP _ hok]
  refine ⟨⟨8, [0, 0, 0, 0xFF, 0, 0, 0, 0], by decide, by decide +kernel, rfl⟩, ?_⟩
  rintro ⟨k, d, hk, hp, e⟩
  obtain rfl : [0, 0, 0xFF, 0, 0, 0, 0, 0] = d := by
    rw [show ([0, 0, 0xFF, 0, 0, 0, 0, 0, 9] : Bytes) = [0, 0, 0xFF, 0, 0, 0, 0, 0] ++ [9#8] from rfl] at e
    exact List.append_cancel_right e
  have hk : k < 17 := Nat.lt_succ_of_le hk
  revert hp
  have : ∀ k : Nat, k < 17 → ¬ Partly zeroUdp ⟨0, UDP.dst, 0xFFFF#64⟩ k [0, 0, 0xFF, 0, 0, 0, 0, 0] := by decide +kernel
  exact this k hk

/-- A thread sets the source port of the first header and then that of the second; `to_vec` may show the
second changed and the first not.  Against the order of the headers this cannot happen the other way
round: the first changed and the second not. -/
example :
    (∃ s, Sys.Reach (readWrite false zeroUdp ⟨[⟨UDP, 0⟩, ⟨UDP, 1⟩], []⟩ [⟨0, UDP.src, 0xFFFF#64⟩, ⟨1, UDP.src, 0xFFFF#64⟩]) s ∧
      s.th 0 = .ret [0, 0, 0, 0, 0, 0, 0, 0, 0xFF, 0xFF, 0, 0, 0, 0, 0, 0]) ∧
    ¬ ∃ s, Sys.Reach (readWrite false zeroUdp ⟨[⟨UDP, 0⟩, ⟨UDP, 1⟩], []⟩ [⟨1, UDP.src, 0xFFFF#64⟩, ⟨0, UDP.src, 0xFFFF#64⟩]) s ∧
      s.th 0 = .ret [0xFF, 0xFF, 0, 0, 0, 0, 0, 0, 0, 0, 0, 0, 0, 0, 0, 0] := by
  have hok : (⟨0, UDP.src, 0xFFFF#64⟩ : SetCall).Ok (fun _ => 8) := ⟨by decide, by decide⟩
  have hok' : (⟨1, UDP.src, 0xFFFF#64⟩ : SetCall).Ok (fun _ => 8) := ⟨by decide, by decide⟩
  constructor
  · refine (C64_two_headers false zeroUdp zeroUdp_fresh UDP UDP ⟨0, UDP.src, 0xFFFF#64⟩ ⟨1, UDP.src, 0xFFFF#64⟩ hok hok'
      (by decide) [] _).2 ⟨0, [0, 0, 0, 0, 0, 0, 0, 0], 16, [0xFF, 0xFF, 0, 0, 0, 0, 0, 0], by decide, by decide,
      by decide +kernel, by decide +kernel, rfl⟩
  · intro h
    obtain ⟨k, d, k', d', hk, hk', hkk, hp, hp', e⟩ := (C64_two_headers_backwards false zeroUdp zeroUdp_fresh UDP UDP
      ⟨0, UDP.src, 0xFFFF#64⟩ ⟨1, UDP.src, 0xFFFF#64⟩ hok hok' (by decide) [] _).1 h
    rw [List.append_nil, show ([0xFF, 0xFF, 0, 0, 0, 0, 0, 0, 0, 0, 0, 0, 0, 0, 0, 0] : Bytes) =
      [0xFF, 0xFF, 0, 0, 0, 0, 0, 0] ++ [0, 0, 0, 0, 0, 0, 0, 0] from rfl] at e
    obtain ⟨rfl, rfl⟩ := List.append_inj e (by rw [hp.1]; rfl)
    have h1 : ¬ Partly zeroUdp ⟨0, UDP.src, 0xFFFF#64⟩ 0 [0xFF, 0xFF, 0, 0, 0, 0, 0, 0] := by decide +kernel
    have h2 : ¬ Partly zeroUdp ⟨1, UDP.src, 0xFFFF#64⟩ 16 [0, 0, 0, 0, 0, 0, 0, 0] := by decide +kernel
    by_cases hk0 : k = 0
    · subst hk0; exact h1 hp
    · have := hkk hk0
      subst this
      exact h2 hp'

end PacketRs
