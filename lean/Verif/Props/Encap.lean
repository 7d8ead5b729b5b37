import Verif.Encap
import Verif.Lemmas.Alone
import Verif.Props.Heap
import Verif.Props.BuildersShape
import Verif.Samples
/-!
# C69: what an encapsulating builder shares with its inner packet
-/
namespace PacketRs
open Spec Utils
open Prog hiding bind

theorem Encap.bare_to_vec (v : Bytes) (n : Nat) : (Encap.bare v n).to_vec = v := by
  simp [Encap.bare, Packet.to_vec, Hdr.to_vec]

theorem Encap.bare_len (v : Bytes) (n : Nat) : (Encap.bare v n).len = n := by
  simp [Encap.bare, Packet.len, Hdr.len]

/-! ## The builders of `Verif.Encap` are those of `Verif.Utils` -/
section
variable (chk : Bool) (p6 : Ipv6FromStr) (eth_dst eth_src : Str) (ve : Bool) (vid : U16) (pcp ihl : Byte) (src dst : Str)
  (tos ttl : Byte) (id frag : U16) (opts : Bytes) (tc : Byte) (flow : U32) (hl : Byte) (inner : Packet)

/-- **C69** (a): the builders that take an inner packet read only its bytes and its length; on values they are the
functions of `Verif.Utils`. -/
theorem C69_vxlan_value (udst usrc : U16) (ck : Bool) (vni : U32) :
    (Encap.vxlan chk eth_dst eth_src ve vid pcp ihl src dst tos ttl id frag opts udst usrc ck vni).value inner =
      create_vxlan_packet chk eth_dst eth_src ve vid pcp ihl src dst tos ttl id frag opts udst usrc ck vni inner := by
  simp only [Encap.value, Encap.vxlan, create_vxlan_packet, Encap.bare_to_vec, Bool.false_eq_true, if_false, bind_pure]

theorem C69_ipv4ip_value :
    (Encap.ipv4ip chk eth_dst eth_src ve vid pcp ihl src dst tos ttl id frag opts).value inner =
      create_ipv4ip_packet chk eth_dst eth_src ve vid pcp ihl src dst tos ttl id frag opts inner := by
  simp only [Encap.value, Encap.ipv4ip, create_ipv4ip_packet, Encap.bare_to_vec, Bool.false_eq_true, if_false, bind_pure]

theorem C69_ipv6ip_value :
    (Encap.ipv6ip p6 eth_dst eth_src ve vid pcp tc flow hl src dst).value inner =
      create_ipv6ip_packet p6 eth_dst eth_src ve vid pcp tc flow hl src dst inner := by
  simp only [Encap.value, Encap.ipv6ip, create_ipv6ip_packet, Encap.bare_to_vec, Bool.false_eq_true, if_false, bind_pure]

theorem C69_gre_value (c r k q s : Bool) (flags ver : Byte) (gck goff : U16) (key seq : U32) (routing : Bytes) :
    (Encap.gre chk eth_dst eth_src ve vid pcp ihl src dst tos ttl id frag opts c r k q s flags ver gck goff key seq
      routing).value inner =
      create_gre_packet chk eth_dst eth_src ve vid pcp ihl src dst tos ttl id frag opts c r k q s flags ver gck goff key seq
        routing (some inner) := by
  simp only [Encap.value, Encap.gre, create_gre_packet, greInner, Encap.bare_to_vec,
    Bool.false_eq_true, if_false, bind_pure]

theorem C69_erspan2_value (seq : U32) (vlan : U16) (cos en t : Byte) (sid : U16) (idx : U32) :
    (Encap.erspan2 chk eth_dst eth_src ve vid pcp ihl src dst tos ttl id frag opts seq vlan cos en t sid idx).value inner =
      create_erspan_2_packet chk eth_dst eth_src ve vid pcp ihl src dst tos ttl id frag opts seq vlan cos en t sid idx
        (some inner) := by
  simp only [Encap.value, Encap.erspan2, create_erspan_2_packet, innerVec, innerLen, Encap.bare_to_vec, Encap.bare_len,
    Bool.false_eq_true, if_false, bind_pure]

theorem C69_vxlanv6_value (udst usrc : U16) (ck : Bool) (vni : U32) :
    (Encap.vxlanv6 chk p6 eth_dst eth_src ve vid pcp tc flow hl src dst udst usrc ck vni).value inner =
      create_vxlanv6_packet chk p6 eth_dst eth_src ve vid pcp tc flow hl src dst udst usrc ck vni inner := by
  simp only [Encap.value, Encap.vxlanv6, create_vxlanv6_packet, bind_assoc, pure_bind, if_true]

theorem C69_erspan3_value (seq : U32) (vlan : U16) (cos en t : Byte) (sid : U16) (ts : U32) (sgt ft : U16) (pid : Byte)
    (info : U64) :
    (Encap.erspan3 chk eth_dst eth_src ve vid pcp ihl src dst tos ttl id frag opts seq vlan cos en t sid ts sgt ft pid
      info).value inner =
      create_erspan_3_packet chk eth_dst eth_src ve vid pcp ihl src dst tos ttl id frag opts seq vlan cos en t sid ts sgt ft
        pid info (some inner) := by
  simp only [Encap.value, Encap.erspan3, create_erspan_3_packet, innerVec, innerLen, bind_assoc, pure_bind, if_true]

end

/-! ## On shared storage -/

theorem World.build_run (chk : Bool) (w : World) (hw : w.Reachable chk) (p : Nat) (q : PRef) (hq : w.pkt? p = some q)
    (hc : ∀ h ∈ q.hdrs, (w.mem h.ref).poisoned = false) (e : Encap) :
    w.build chk p e = match e.outer (q.view w.mem).to_vec (q.view w.mem).len with
      | .error f => (w, .error f)
      | .ok o => if e.keeps then (w.step chk (.adopt o)).1.step chk (.add w.ps.length p)
        else ((w.step chk (.adopt o)).1, .ok .unit) := by
  have hnp : (q.hdrs.any fun h => (w.mem h.ref).poisoned) = false := by
    rw [List.any_eq_false]
    intro h hh; simp [hc h hh]
  have hlen : q.len = (q.view w.mem).len := by simp [PRef.len, Packet.len, PRef.view, Hdr.len, Function.comp_def]
  have hs : w.step chk (.pktToVec p) = (w, .ok (.bytes (q.view w.mem).to_vec)) := by
    simp only [World.step, hq, World.access, run_bind, run_pktToVecP hw.free, hnp, Bool.false_eq_true, if_false, run]
  unfold World.build
  rw [hq]
  simp only [hs, hlen]
  rfl

/-- What `build` leaves: the outer headers in new cells, and for a builder that keeps them the inner packet's own. -/
theorem World.build_ok (chk : Bool) (w : World) (hw : w.Reachable chk) (p : Nat) (q : PRef) (hq : w.pkt? p = some q)
    (hc : ∀ h ∈ q.hdrs, (w.mem h.ref).poisoned = false) (e : Encap) (o : Packet)
    (ho : e.outer (q.view w.mem).to_vec (q.view w.mem).len = .ok o) :
    let w' := (w.build chk p e).1
    let new := o.hdrs.mapIdx (fun i h => (⟨h.ty, w.next + i⟩ : HRef))
    (w.build chk p e).2 = .ok .unit ∧ w'.Reachable chk ∧
    w'.pkt? (e.slot w) = some ⟨new ++ (if e.keeps then q.hdrs else []), o.payload⟩ ∧
    (∀ x, x < w.next → w'.mem x = w.mem x) ∧ w'.next = w.next + o.hdrs.length ∧ w'.hs = w.hs ∧
    (∀ i (hi : i < o.hdrs.length), w'.mem (w.next + i) = ⟨o.hdrs[i].data, false, none⟩) ∧
    (∀ i s, i ≠ e.slot w → w'.pkt? i = some s → w.pkt? i = some s) := by
  obtain ⟨e1, e2, e3, e4, e5, -, e7⟩ := World.allocAll_props o.hdrs w
  have hlt : p < w.ps.length := by
    unfold World.pkt? at hq
    cases e : w.ps[p]? with
    | none => rw [e] at hq; cases hq
    | some y => rw [List.getElem?_eq_some_iff] at e; exact e.1
  have hr1 : (w.step chk (.adopt o)).1.Reachable chk := hw.step (by simp [World.step])
  have hps : (w.step chk (.adopt o)).1.ps =
      w.ps ++ [some ⟨o.hdrs.mapIdx (fun i h => (⟨h.ty, w.next + i⟩ : HRef)), o.payload⟩] := by
    simp only [World.step, e3, e4]
  rw [World.build_run chk w hw p q hq hc e, ho]
  cases hk : e.keeps with
  | false =>
    simp only [Encap.slot, hk, Bool.false_eq_true, if_false, List.append_nil]
    refine ⟨trivial, hr1, by simp [World.pkt?, hps], e5, e1, e2, e7, ?_⟩
    intro i s hi hs
    simp only [World.pkt?, hps] at hs
    by_cases h : i < w.ps.length
    · rw [List.getElem?_append_left h] at hs; exact hs
    · rw [List.getElem?_eq_none (by simp; omega)] at hs; simp at hs
  | true =>
    have hn : (w.step chk (.adopt o)).1.pkt? w.ps.length =
        some ⟨o.hdrs.mapIdx (fun i h => (⟨h.ty, w.next + i⟩ : HRef)), o.payload⟩ := by simp [World.pkt?, hps]
    have hp : (w.step chk (.adopt o)).1.pkt? p = some q := World.step_pkt chk w _ rfl hq
    have hst : (w.step chk (.adopt o)).1.step chk (.add w.ps.length p) =
        ({ (w.step chk (.adopt o)).1 with ps := (((w.step chk (.adopt o)).1.ps.set w.ps.length none).set p none) ++
          [some ⟨o.hdrs.mapIdx (fun i h => (⟨h.ty, w.next + i⟩ : HRef)) ++ q.hdrs, o.payload⟩] }, .ok .unit) := by
      generalize (w.step chk (.adopt o)).1 = w1 at hn hp
      simp only [World.step, if_neg (by omega : ¬ w.ps.length = p), hn, hp]
    have hr2 := hr1.step (op := .add w.ps.length p) (by rw [hst]; simp)
    simp only [Encap.slot, hk, if_true]
    refine ⟨by rw [hst], hr2, ?_, ?_, ?_, ?_, ?_, ?_⟩
    · rw [hst]; simp [World.pkt?, hps]
    · rw [hst]; exact e5
    · rw [hst]; exact e1
    · rw [hst]; exact e2
    · rw [hst]; exact e7
    · rw [hst]
      intro i s hi hs
      simp only [World.pkt?] at hs
      by_cases h : i < w.ps.length + 1
      · rw [List.getElem?_append_left (by simp [hps]; omega)] at hs
        by_cases h' : i = w.ps.length
        · subst h'
          rw [List.getElem?_set_ne (by omega), List.getElem?_set_self (by simp [hps])] at hs
          simp at hs
        · rcases World.join_set hs with hs | ⟨-, hs⟩
          · rw [List.getElem?_set_ne (by omega), hps, List.getElem?_append_left (by omega)] at hs
            exact hs
          · cases hs
      · rw [List.getElem?_eq_none (by simp [hps]; omega)] at hs; simp at hs

/-- **C69** (b): on unpoisoned storage a builder does to the value of the inner packet what the function on values does:
the same panics, and otherwise the same packet. -/
theorem C69_refines (chk : Bool) (w : World) (hw : w.Reachable chk) (p : Nat) (q : PRef) (hq : w.pkt? p = some q)
    (hc : ∀ h ∈ q.hdrs, (w.mem h.ref).poisoned = false) (e : Encap) :
    (w.build chk p e).2 = (e.value (q.view w.mem)).map (fun _ => .unit) ∧
    ∀ r, e.value (q.view w.mem) = .ok r →
      ((w.build chk p e).1.pkt? (e.slot w)).map (PRef.view (w.build chk p e).1.mem) = some r := by
  cases ho : e.outer (q.view w.mem).to_vec (q.view w.mem).len with
  | error f =>
    have hv : e.value (q.view w.mem) = .error f := by unfold Encap.value; rw [ho]; rfl
    rw [World.build_run chk w hw p q hq hc e, ho, hv]
    exact ⟨rfl, fun r h => by cases h⟩
  | ok o =>
    have hv : e.value (q.view w.mem) = .ok (if e.keeps then o.add (q.view w.mem) else o) := by
      unfold Encap.value; rw [ho]; rfl
    obtain ⟨h1, -, h3, h4, -, -, h7, -⟩ := World.build_ok chk w hw p q hq hc e o ho
    rw [h1, hv]
    refine ⟨rfl, fun r hr => ?_⟩
    cases hr
    rw [h3]
    have hnew : (o.hdrs.mapIdx (fun i h => (⟨h.ty, w.next + i⟩ : HRef))).map
        (fun h => (⟨h.ty, ((w.build chk p e).1.mem h.ref).bytes⟩ : Hdr)) = o.hdrs := by
      refine List.ext_getElem (by simp) fun j i1 i2 => ?_
      simp only [List.getElem_map, List.getElem_mapIdx]
      rw [h7 j i2]
    have hold : q.hdrs.map (fun h => (⟨h.ty, ((w.build chk p e).1.mem h.ref).bytes⟩ : Hdr)) = (q.view w.mem).hdrs :=
      List.map_congr_left fun a ha => by rw [h4 _ (hw.pkt_lt hq a ha)]
    cases hk : e.keeps with
    | false => simp [PRef.view, hnew]
    | true =>
      simp only [if_true, Option.map_some, PRef.view, List.map_append, hnew, Packet.add, Option.some.injEq,
        Packet.mk.injEq, and_true]
      rw [hold]; rfl

/-- **C69** (c): with a poisoned header in the inner packet every builder panics. -/
theorem C69_poisoned (chk : Bool) (w : World) (hw : w.Reachable chk) (p : Nat) (q : PRef) (hq : w.pkt? p = some q)
    (h : HRef) (hh : h ∈ q.hdrs) (hp : (w.mem h.ref).poisoned = true) (e : Encap) :
    w.build chk p e = (w, .error .poisoned) := by
  have hs : w.step chk (.pktToVec p) = (w, .error .poisoned) := by
    simp only [World.step, hq, World.access, run_bind, run_pktToVecP hw.free]
    rw [if_pos (List.any_eq_true.2 ⟨h, hh, hp⟩)]
  unfold World.build
  rw [hq]
  simp only [hs]

/-- The bytes of a list of headers in storage `m`. -/
def bytesOf (m : Store) (l : List HRef) : Bytes := (l.map fun h => (m h.ref).bytes).flatten

theorem view_to_vec (m : Store) (q : PRef) : (q.view m).to_vec = bytesOf m q.hdrs ++ q.payload := by
  simp [PRef.view, Packet.to_vec, Hdr.to_vec, bytesOf, Function.comp_def]

/-- **C69** (d): the general law.  Over every later history that does not name the built packet, it serializes to the
outer headers as built, then (for a builder that keeps them) the inner headers *as they are now*, then the payload as
built. -/
theorem C69_later (chk : Bool) (w w' : World) (hw : w.Reachable chk) (p : Nat) (q : PRef) (hq : w.pkt? p = some q)
    (hc : ∀ h ∈ q.hdrs, (w.mem h.ref).poisoned = false) (e : Encap) (o : Packet)
    (ho : e.outer (q.view w.mem).to_vec (q.view w.mem).len = .ok o) (ops : List Op)
    (hn : ∀ op ∈ ops, names (e.slot w) op = false) (hr : (w.build chk p e).1.runOps chk ops = some w') :
    w'.serialize chk (e.slot w) =
      if e.keeps = true ∧ (q.hdrs.any fun h => (w'.mem h.ref).poisoned) = true then .error .poisoned
      else .ok (.bytes ((o.hdrs.map Hdr.data).flatten ++ (if e.keeps then bytesOf w'.mem q.hdrs else []) ++ o.payload)) := by
  obtain ⟨-, h2, h3, h4, h5, h6, h7, h8⟩ := World.build_ok chk w hw p q hq hc e o ho
  have al : World.Alone (w.build chk p e).1 (e.slot w) (fun n => w.next ≤ n ∧ n < w.next + o.hdrs.length) := by
    refine ⟨?_, ?_, ?_⟩
    · intro i h hi
      have : w.hdr? i = some h := by simpa only [World.hdr?, h6] using hi
      have := hw.hdr_lt (x := .var i) (a := h) (by simp only [World.resolve, this])
      omega
    · intro i s hi hs a ha
      have := hw.pkt_lt (h8 i s hi hs) a ha
      omega
    · intro n hn'; rw [h5]; exact hn'.2
  have hm := al.runOps ops h2.free hn hr
  have hp := World.runOps_pkt chk ops (fun op hop => World.names_reshapes (hn op hop)) h3 hr
  have hcell : ∀ i (hi : i < o.hdrs.length), w'.mem (w.next + i) = ⟨o.hdrs[i].data, false, none⟩ := fun i hi => by
    rw [hm _ ⟨Nat.le_add_right _ _, by omega⟩, h7 i hi]
  have hnew : ((o.hdrs.mapIdx (fun i h => (⟨h.ty, w.next + i⟩ : HRef))).any fun h => (w'.mem h.ref).poisoned) = false := by
    rw [List.any_eq_false]
    intro h hh
    obtain ⟨i, hi, rfl⟩ := List.mem_mapIdx.1 hh
    simp [hcell i hi]
  have hb : bytesOf w'.mem (o.hdrs.mapIdx (fun i h => (⟨h.ty, w.next + i⟩ : HRef))) = (o.hdrs.map Hdr.data).flatten := by
    unfold bytesOf
    congr 1
    refine List.ext_getElem (by simp) fun j i1 i2 => ?_
    simp only [List.getElem_map, List.getElem_mapIdx]
    rw [hcell j (by simpa using i2)]
  rw [World.serialize_eq (h2.runOps hr).free hp, view_to_vec]
  cases hk : e.keeps with
  | false => simp [hnew, hb]
  | true =>
    simp only [if_true, List.any_append, hnew, Bool.false_or, true_and, bytesOf, List.map_append, List.flatten_append]
    simp only [bytesOf] at hb
    rw [hb]

/-- **C69** (e): the packet made by a builder that forgets its inner packet is independent of it: whatever is done
afterwards without naming the result, it serializes to what the builder on values returns. -/
theorem C69_copied (chk : Bool) (w w' : World) (hw : w.Reachable chk) (p : Nat) (q : PRef) (hq : w.pkt? p = some q)
    (hc : ∀ h ∈ q.hdrs, (w.mem h.ref).poisoned = false) (e : Encap) (hk : e.keeps = false) (r : Packet)
    (hv : e.value (q.view w.mem) = .ok r) (ops : List Op)
    (hn : ∀ op ∈ ops, names (e.slot w) op = false) (hr : (w.build chk p e).1.runOps chk ops = some w') :
    w'.serialize chk (e.slot w) = .ok (.bytes r.to_vec) := by
  have ho : e.outer (q.view w.mem).to_vec (q.view w.mem).len = .ok r := by
    unfold Encap.value at hv
    simpa [hk] using hv
  rw [C69_later chk w w' hw p q hq hc e r ho ops hn hr]
  simp [hk, Packet.to_vec, Hdr.to_vec]

/-- **C69** (f): the packet made by `create_vxlanv6_packet` holds the inner packet twice, and the two drift apart: later
writes to the inner headers, through any clone of the inner packet, show in the first copy and not in the second. -/
theorem C69_vxlanv6 (chk : Bool) (p6 : Ipv6FromStr) (eth_dst eth_src : Str) (ve : Bool) (vid : U16) (pcp tc : Byte)
    (flow : U32) (hl : Byte) (src dst : Str) (udst usrc : U16) (ck : Bool) (vni : U32)
    (w w' : World) (hw : w.Reachable chk) (p : Nat) (q : PRef) (hq : w.pkt? p = some q)
    (hc : ∀ h ∈ q.hdrs, (w.mem h.ref).poisoned = false) (r : Packet)
    (hv : create_vxlanv6_packet chk p6 eth_dst eth_src ve vid pcp tc flow hl src dst udst usrc ck vni (q.view w.mem) = .ok r)
    (ops : List Op) (hn : ∀ op ∈ ops, names (w.ps.length + 1) op = false)
    (hr : (w.build chk p (Encap.vxlanv6 chk p6 eth_dst eth_src ve vid pcp tc flow hl src dst udst usrc ck vni)).1.runOps chk
      ops = some w')
    (hc' : ∀ h ∈ q.hdrs, (w'.mem h.ref).poisoned = false) :
    ∃ outer, r.to_vec = outer ++ bytesOf w.mem q.hdrs ++ (q.view w.mem).to_vec ∧
      w'.serialize chk (w.ps.length + 1) = .ok (.bytes (outer ++ bytesOf w'.mem q.hdrs ++ (q.view w.mem).to_vec)) := by
  obtain ⟨d, s, -, -, hp⟩ := vxlanv6_shape (h := hv)
  have hpl : r.payload = (q.view w.mem).to_vec := by rw [hp]
  rw [← C69_vxlanv6_value] at hv
  generalize he : Encap.vxlanv6 chk p6 eth_dst eth_src ve vid pcp tc flow hl src dst udst usrc ck vni = e at hv hr
  have hk : e.keeps = true := by rw [← he]; rfl
  cases ho : e.outer (q.view w.mem).to_vec (q.view w.mem).len with
  | error f => simp only [Encap.value, ho] at hv; cases hv
  | ok o =>
    have hro : r = o.add (q.view w.mem) := by
      simp only [Encap.value, ho, hk, if_true] at hv
      exact (Except.ok.inj hv).symm
    have hs : e.slot w = w.ps.length + 1 := by simp [Encap.slot, hk]
    have := C69_later chk w w' hw p q hq hc e o ho ops (by rw [hs]; exact hn) hr
    have hop : o.payload = (q.view w.mem).to_vec := by rw [← hpl, hro]; rfl
    have hnp : (q.hdrs.any fun h => (w'.mem h.ref).poisoned) = false := by
      rw [List.any_eq_false]; intro h hh; simp [hc' h hh]
    rw [hs] at this
    refine ⟨(o.hdrs.map Hdr.data).flatten, ?_, by rw [this]; simp [hk, hnp, hop]⟩
    rw [hro, ← hop]
    simp [Packet.add, Packet.to_vec, Hdr.to_vec, Function.comp_def, PRef.view, bytesOf]

/-- **C69** (g): the same of `create_erspan_3_packet`. -/
theorem C69_erspan3 (chk : Bool) (eth_dst eth_src : Str) (ve : Bool) (vid : U16) (pcp ihl : Byte) (src dst : Str)
    (tos ttl : Byte) (id frag : U16) (opts : Bytes) (seq : U32) (vlan : U16) (cos en t : Byte) (sid : U16) (ts : U32)
    (sgt ft : U16) (pid : Byte) (info : U64)
    (w w' : World) (hw : w.Reachable chk) (p : Nat) (q : PRef) (hq : w.pkt? p = some q)
    (hc : ∀ h ∈ q.hdrs, (w.mem h.ref).poisoned = false) (r : Packet)
    (hv : create_erspan_3_packet chk eth_dst eth_src ve vid pcp ihl src dst tos ttl id frag opts seq vlan cos en t sid ts sgt
      ft pid info (some (q.view w.mem)) = .ok r)
    (ops : List Op) (hn : ∀ op ∈ ops, names (w.ps.length + 1) op = false)
    (hr : (w.build chk p (Encap.erspan3 chk eth_dst eth_src ve vid pcp ihl src dst tos ttl id frag opts seq vlan cos en t sid
      ts sgt ft pid info)).1.runOps chk ops = some w')
    (hc' : ∀ h ∈ q.hdrs, (w'.mem h.ref).poisoned = false) :
    ∃ outer, r.to_vec = outer ++ bytesOf w.mem q.hdrs ++ (q.view w.mem).to_vec ∧
      w'.serialize chk (w.ps.length + 1) = .ok (.bytes (outer ++ bytesOf w'.mem q.hdrs ++ (q.view w.mem).to_vec)) := by
  obtain ⟨d, s, a, -, -, -, -, hp⟩ := erspan3_shape (h := hv)
  have hpl : r.payload = (q.view w.mem).to_vec := by rw [hp]; rfl
  rw [← C69_erspan3_value] at hv
  generalize he : Encap.erspan3 chk eth_dst eth_src ve vid pcp ihl src dst tos ttl id frag opts seq vlan cos en t sid
      ts sgt ft pid info = e at hv hr
  have hk : e.keeps = true := by rw [← he]; rfl
  cases ho : e.outer (q.view w.mem).to_vec (q.view w.mem).len with
  | error f => simp only [Encap.value, ho] at hv; cases hv
  | ok o =>
    have hro : r = o.add (q.view w.mem) := by
      simp only [Encap.value, ho, hk, if_true] at hv
      exact (Except.ok.inj hv).symm
    have hs : e.slot w = w.ps.length + 1 := by simp [Encap.slot, hk]
    have := C69_later chk w w' hw p q hq hc e o ho ops (by rw [hs]; exact hn) hr
    have hop : o.payload = (q.view w.mem).to_vec := by rw [← hpl, hro]; rfl
    have hnp : (q.hdrs.any fun h => (w'.mem h.ref).poisoned) = false := by
      rw [List.any_eq_false]; intro h hh; simp [hc' h hh]
    rw [hs] at this
    refine ⟨(o.hdrs.map Hdr.data).flatten, ?_, by rw [this]; simp [hk, hnp, hop]⟩
    rw [hro, ← hop]
    simp [Packet.add, Packet.to_vec, Hdr.to_vec, Function.comp_def, PRef.view, bytesOf]

/-! ## Concrete calls -/

/-- A frame in packet 0 and a clone of it in packet 1. -/
def encapOps : List Op := [.adopt Sample.innerFrame, .pktClone 0]
def encapWorld : World := sampleWorld encapOps
def exVxlan : Encap :=
  Encap.vxlan true Sample.mac1 Sample.mac2 true 10 3 5 Sample.ip1 Sample.ip2 1 64 0x1234 0 [] 4789 1234 true 0xabcd
def exVxlanv6 : Encap :=
  Encap.vxlanv6 true Sample.p6 Sample.mac1 Sample.mac2 true 10 3 7 0x12345 64 Sample.ip6a Sample.ip6b 4789 1234 true 0xabcd
/-- A write through the clone. -/
def encapEdit : Op := .set (.inPkt 1 "Ether" Ether) Ether.etype 0x1234#64

-- the hypotheses of the theorems hold here: packet 0 is live and unpoisoned, the builders return, the write does not name
-- the result and succeeds
example : (World.init.runOps true encapOps).isSome = true ∧ (encapWorld.pkt? 0).isSome = true ∧
    (∀ h ∈ ((encapWorld.pkt? 0).getD ⟨[], []⟩).hdrs, (encapWorld.mem h.ref).poisoned = false) ∧
    exVxlan.value Sample.innerFrame = Sample.vxlan ∧ exVxlanv6.value Sample.innerFrame = Sample.vxlanv6 ∧
    exVxlan.slot encapWorld = 2 ∧ exVxlanv6.slot encapWorld = 3 ∧ names 2 encapEdit = false ∧ names 3 encapEdit = false ∧
    ((encapWorld.build true 0 exVxlan).1.step true encapEdit).2 = .ok .unit := by decide +kernel

-- `C69_copied`: the VXLAN packet is what it was
example : (((encapWorld.build true 0 exVxlan).1.step true encapEdit).1.serialize true 2) =
    .ok (.bytes (Sample.get Sample.vxlan).to_vec) := by decide +kernel

/-- **C69** (h): `C69_copied` is false of the builders that keep the inner headers: here a write through a clone of the
inner packet changes a packet built by `create_vxlanv6_packet`, in the headers (octet 86 is the first of the inner
EtherType) and not in the payload. -/
theorem C69_not_copied : ∃ (w w' : World) (r : Packet) (b : Bytes), w.Reachable true ∧
    exVxlanv6.value Sample.innerFrame = .ok r ∧ (w.build true 0 exVxlanv6).1.runOps true [encapEdit] = some w' ∧
    names (exVxlanv6.slot w) encapEdit = false ∧ w'.serialize true (exVxlanv6.slot w) = .ok (.bytes b) ∧
    b ≠ r.to_vec ∧ b.length = r.to_vec.length ∧ b.drop (b.length - 51) = r.payload ∧
    (b.drop 86).take 2 = [0x12#8, 0x34#8] := by
  refine ⟨encapWorld, ((encapWorld.build true 0 exVxlanv6).1.step true encapEdit).1, Sample.get Sample.vxlanv6,
    match ((encapWorld.build true 0 exVxlanv6).1.step true encapEdit).1.serialize true 3 with
    | .ok (.bytes b) => b
    | _ => [], ⟨encapOps, rfl⟩, by decide +kernel, rfl, by decide +kernel, by decide +kernel, by decide +kernel,
    by decide +kernel, by decide +kernel, by decide +kernel⟩

-- a poisoned inner header (a getter beyond the end of a short buffer): the builder panics
example : let w := sampleWorld [.ofVec UDP [1#8], .clone (.var 0), .pktNew, .push 0 0, .get (.var 1) UDP.checksum]
    (w.pkt? 0).isSome = true ∧ (w.mem 0).poisoned = true ∧ (w.build true 0 exVxlan).2 = .error .poisoned := by decide +kernel

end PacketRs
