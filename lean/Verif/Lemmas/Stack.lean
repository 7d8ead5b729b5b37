import Verif.Stack
import Verif.Spec.Stack
import Verif.Lemmas.SlowStep
import Verif.Lemmas.FastStep
/-!
# The parsers on a finite stack agree with the parsers on an infinite one
-/
namespace PacketRs
open Spec

/-- `x` is what a parser returns with room for `d` calls, `y` what it returns with room for any number. -/
structure Agree {α : Type} (need : α → Nat) (d k : Nat) (x y : R α) : Prop where
  ok : ∀ p, y = .ok p → x = if need p ≤ d then .ok p else .error .stack
  err : ∀ e, y = .error e → x = .error e ∨ x = .error .stack
  enough : k ≤ d → x = y

namespace Agree
variable {α β : Type} {need : α → Nat} {d k : Nat}

theorem zero {y : R α} (h1 : ∀ p, 1 ≤ need p) (hk : 1 ≤ k) : Agree need 0 k (.error .stack) y where
  ok p _ := by rw [if_neg (by have := h1 p; omega)]
  err _ _ := .inr rfl
  enough h := by omega

theorem fail (e : Fault) : Agree need d k (.error e) (.error e : R α) where
  ok _ h := nomatch h
  err _ h := by injection h with h; subst h; exact .inl rfl
  enough _ := rfl

theorem done (p : α) (h : need p ≤ d) : Agree need d k (.ok p) (.ok p : R α) where
  ok q hq := by injection hq with hq; subst hq; rw [if_pos h]
  err _ h := nomatch h
  enough _ := rfl

theorem mono {x y : R α} {k' : Nat} (h : Agree need d k x y) (hk : k ≤ k') : Agree need d k' x y :=
  ⟨h.ok, h.err, fun h' => h.enough (by omega)⟩

theorem next {x y : R α} (h : Agree need d k x y) (f : α → α) (hf : ∀ p, need (f p) = need p + 1) :
    Agree need (d + 1) (k + 1) (x >>= fun p => pure (f p)) (y >>= fun p => pure (f p)) where
  ok q hq := by
    cases y with
    | error e => exact nomatch hq
    | ok p =>
      have : f p = q := by injection hq
      subst this
      rw [h.ok p rfl, hf]
      by_cases hd : need p ≤ d
      · rw [if_pos hd, if_pos (by omega)]; rfl
      · rw [if_neg hd, if_neg (by omega)]; rfl
  err e he := by
    cases y with
    | ok p => exact nomatch he
    | error e' =>
      have : e' = e := by injection he
      subst this
      rcases h.err _ rfl with h | h
      · rw [h]; exact .inl rfl
      · rw [h]; exact .inr rfl
  enough hk := by rw [h.enough (by omega)]

theorem bind {m : R β} {f g : β → R α} (h : ∀ a, m = .ok a → Agree need d k (f a) (g a)) :
    Agree need d k (m >>= f) (m >>= g) := by
  cases m with
  | error e => exact fail e
  | ok a => exact h a rfl

end Agree

/-- Room for this many calls is enough for any slice of `n` bytes. -/
def room (n : Nat) : Nat := (n + 1) / 4 + 1

theorem room_next {n m : Nat} (h : m + 4 ≤ n) : room m + 1 ≤ room n := by unfold room; omega

theorem one_le_room (n : Nat) : 1 ≤ room n := by unfold room; omega

namespace Stack.Slow
open PacketRs.Slow (parseL insertOpt optHdr optOffset le_optOffset)

/-- Calls made for a packet that was parsed: one per layer and one for `accept`. -/
def need (p : Packet) : Nat := layers (p.hdrs.map (·.ty)) + 1

theorem need_pos (p : Packet) : 1 ≤ need p := by unfold need; omega

theorem need_insert (p : Packet) (h : Hdr) (hh : ¬ Optional h.ty) : need (p.insert h) = need p + 1 := by
  simp [need, layers, Packet.insert, hh]

theorem need_insertOpt (p : Packet) (o : Option Hdr) (ho : ∀ h, o = some h → Optional h.ty) :
    need (insertOpt p o) = need p := by
  cases o with
  | none => rfl
  | some h => simp [insertOpt, need, layers, Packet.insert, ho h rfl]

theorem optHdr_ty {T : HeaderDef} {v : U64} {b : Bytes} {n : Nat} {o : Option Hdr} (h : optHdr T v b n = .ok o) :
    ∀ g, o = some g → g.ty = T := by
  intro g hg
  subst hg
  unfold optHdr at h
  split at h
  · cases hs : slice b n (n + T.size) with
    | error e => rw [hs] at h; exact nomatch h
    | ok c => rw [hs] at h; injection h with h; injection h with h; subst h; rfl
  · exact nomatch h

/-- The parser of a layer on a finite stack. -/
def parseLS (chk : Bool) (d : Nat) : Layer → Bytes → R Packet
  | .payload => accept d
  | .ether => parse_ethernet chk d
  | .vlan => parse_vlan chk d
  | .mpls => parse_mpls chk d
  | .mplsBos => parse_mpls_bos chk d
  | .ipv4 => parse_ipv4 chk d
  | .ipv6 => parse_ipv6 chk d
  | .gre => parse_gre chk d
  | .erspan2 => parse_erspan2 chk d
  | .erspan3 => parse_erspan3 chk d
  | .arp => parse_arp d
  | .icmp => parse_icmp d
  | .tcp => parse_tcp d
  | .udp => parse_udp chk d
  | .vxlan => parse_vxlan chk d
  | .dot3 => parse_dot3 d
  | .llc => parse_llc d
  | .snap => parse_snap d

theorem accept_agree (d : Nat) (b : Bytes) : Agree need d 1 (accept d b) (.ok (PacketRs.Slow.accept b)) := by
  cases d with
  | zero => exact .zero need_pos (by omega)
  | succ d => exact .done _ (by simp [need, layers, Packet.new, Packet.set_payload])

theorem layer_agree {d : Nat} {x y : R Packet} {b c : Bytes} (h : Agree need d (room c.length) x y) {g : Hdr}
    (hg : ¬ Optional g.ty) (hc : c.length + 4 ≤ b.length) :
    Agree need (d + 1) (room b.length) (x >>= fun p => pure (p.insert g)) (y >>= fun p => pure (p.insert g)) :=
  (h.next _ fun p => need_insert p g hg).mono (room_next hc)

theorem rest_length {b : Bytes} {n : Nat} (r : {r : Bytes // r = b.drop n ∧ n ≤ b.length}) (h : 4 ≤ n) :
    r.1.length + 4 ≤ b.length := by
  have := r.2
  rw [this.1, List.length_drop]; omega

section
variable {chk : Bool} {d : Nat} (ih : ∀ l b, Agree need d (room b.length) (parseLS chk d l b) (parseL chk l b))
include ih

theorem ethernet_agree (b : Bytes) : Agree need (d + 1) (room b.length) (parse_ethernet chk (d + 1) b)
    (PacketRs.Slow.parse_ethernet chk b) := by
  rw [parse_ethernet, PacketRs.Slow.parse_ethernet]
  refine .bind fun c _ => .bind fun _ _ => .bind fun rest _ => ?_
  have key : ∀ l, Agree need (d + 1) (room b.length) (parseLS chk d l rest.1 >>= fun p => pure (p.insert (Ether.ofVec c)))
      (parseL chk l rest.1 >>= fun p => pure (p.insert (Ether.ofVec c))) :=
    fun l => layer_agree (c := rest.1) (ih l _) (show ¬ Optional Ether by decide) (rest_length rest (by decide))
  generalize EtherType.try_from _ = e
  rcases e with _ | e
  · exact key .payload
  · cases e <;> first | exact key .vlan | exact key .arp | exact key .ipv4 | exact key .ipv6 | exact key .mpls | exact key .payload

theorem vlan_agree (b : Bytes) : Agree need (d + 1) (room b.length) (parse_vlan chk (d + 1) b)
    (PacketRs.Slow.parse_vlan chk b) := by
  rw [parse_vlan, PacketRs.Slow.parse_vlan]
  refine .bind fun c _ => .bind fun _ _ => .bind fun rest _ => ?_
  have key : ∀ l, Agree need (d + 1) (room b.length) (parseLS chk d l rest.1 >>= fun p => pure (p.insert (Vlan.ofVec c)))
      (parseL chk l rest.1 >>= fun p => pure (p.insert (Vlan.ofVec c))) :=
    fun l => layer_agree (c := rest.1) (ih l _) (show ¬ Optional Vlan by decide) (rest_length rest (by decide))
  generalize EtherType.try_from _ = e
  rcases e with _ | e
  · exact key .payload
  · cases e <;> first | exact key .vlan | exact key .arp | exact key .ipv4 | exact key .ipv6 | exact key .mpls | exact key .payload

theorem mpls_agree (b : Bytes) : Agree need (d + 1) (room b.length) (parse_mpls chk (d + 1) b)
    (PacketRs.Slow.parse_mpls chk b) := by
  rw [parse_mpls, PacketRs.Slow.parse_mpls]
  refine .bind fun c _ => .bind fun _ _ => .bind fun rest _ => ?_
  dsimp only
  split
  · exact layer_agree (c := rest.1) (ih .mplsBos _) (show ¬ Optional MPLS by decide) (rest_length rest (by decide))
  · exact layer_agree (c := rest.1) (ih .mpls _) (show ¬ Optional MPLS by decide) (rest_length rest (by decide))

theorem mpls_bos_agree (b : Bytes) : Agree need (d + 1) (room b.length) (parse_mpls_bos chk (d + 1) b)
    (PacketRs.Slow.parse_mpls_bos chk b) := by
  rw [parse_mpls_bos, PacketRs.Slow.parse_mpls_bos]
  refine .bind fun c _ => .bind fun _ _ => .bind fun rest _ => ?_
  have key : ∀ l, Agree need (d + 1) (room b.length) (parseLS chk d l rest.1 >>= fun p => pure (p.insert (MPLS.ofVec c)))
      (parseL chk l rest.1 >>= fun p => pure (p.insert (MPLS.ofVec c))) :=
    fun l => layer_agree (c := rest.1) (ih l _) (show ¬ Optional MPLS by decide) (rest_length rest (by decide))
  generalize IpType.try_from _ = e
  rcases e with _ | e
  · exact key .ether
  · cases e <;> first | exact key .ipv4 | exact key .ipv6 | exact key .ether

theorem ipv4_agree (b : Bytes) : Agree need (d + 1) (room b.length) (parse_ipv4 chk (d + 1) b)
    (PacketRs.Slow.parse_ipv4 chk b) := by
  rw [parse_ipv4, PacketRs.Slow.parse_ipv4]
  refine .bind fun c _ => .bind fun _ _ => .bind fun rest _ => ?_
  have key : ∀ l, Agree need (d + 1) (room b.length) (parseLS chk d l rest.1 >>= fun p => pure (p.insert (IPv4.ofVec c)))
      (parseL chk l rest.1 >>= fun p => pure (p.insert (IPv4.ofVec c))) :=
    fun l => layer_agree (c := rest.1) (ih l _) (show ¬ Optional IPv4 by decide) (rest_length rest (by decide))
  generalize IpProtocol.try_from _ = e
  rcases e with _ | e
  · exact key .payload
  · cases e <;> first | exact key .icmp | exact key .ipv4 | exact key .tcp | exact key .udp | exact key .ipv6 | exact key .gre | exact key .payload

theorem ipv6_agree (b : Bytes) : Agree need (d + 1) (room b.length) (parse_ipv6 chk (d + 1) b)
    (PacketRs.Slow.parse_ipv6 chk b) := by
  rw [parse_ipv6, PacketRs.Slow.parse_ipv6]
  refine .bind fun c _ => .bind fun _ _ => .bind fun rest _ => ?_
  have key : ∀ l, Agree need (d + 1) (room b.length) (parseLS chk d l rest.1 >>= fun p => pure (p.insert (IPv6.ofVec c)))
      (parseL chk l rest.1 >>= fun p => pure (p.insert (IPv6.ofVec c))) :=
    fun l => layer_agree (c := rest.1) (ih l _) (show ¬ Optional IPv6 by decide) (rest_length rest (by decide))
  generalize IpProtocol.try_from _ = e
  rcases e with _ | e
  · exact key .payload
  · cases e <;> first | exact key .icmp | exact key .ipv4 | exact key .tcp | exact key .udp | exact key .ipv6 | exact key .gre | exact key .payload

theorem udp_agree (b : Bytes) : Agree need (d + 1) (room b.length) (parse_udp chk (d + 1) b)
    (PacketRs.Slow.parse_udp chk b) := by
  rw [parse_udp, PacketRs.Slow.parse_udp]
  refine .bind fun c _ => .bind fun _ _ => .bind fun rest _ => ?_
  dsimp only
  split
  · exact layer_agree (c := rest.1) (ih .vxlan _) (show ¬ Optional UDP by decide) (rest_length rest (by decide))
  · exact layer_agree (c := rest.1) (ih .payload _) (show ¬ Optional UDP by decide) (rest_length rest (by decide))

theorem erspan2_agree (b : Bytes) : Agree need (d + 1) (room b.length) (parse_erspan2 chk (d + 1) b)
    (PacketRs.Slow.parse_erspan2 chk b) := by
  rw [parse_erspan2, PacketRs.Slow.parse_erspan2]
  refine .bind fun c _ => .bind fun rest _ => ?_
  exact layer_agree (c := rest.1) (ih .ether _) (show ¬ Optional ERSPAN2 by decide) (rest_length rest (by decide))

theorem vxlan_agree (b : Bytes) : Agree need (d + 1) (room b.length) (parse_vxlan chk (d + 1) b)
    (PacketRs.Slow.parse_vxlan chk b) := by
  rw [parse_vxlan, PacketRs.Slow.parse_vxlan]
  refine .bind fun rest _ => ?_
  rw [slice0_ok _ _ rest.2.2]
  exact layer_agree (c := rest.1) (ih .ether _) (show ¬ Optional Vxlan by decide) (rest_length rest (by decide))

theorem erspan3_agree (b : Bytes) : Agree need (d + 1) (room b.length) (parse_erspan3 chk (d + 1) b)
    (PacketRs.Slow.parse_erspan3 chk b) := by
  rw [parse_erspan3, PacketRs.Slow.parse_erspan3]
  refine .bind fun _ _ => .bind fun o _ => .bind fun pl hpl => .bind fun rest _ => ?_
  have h1 := le_optOffset ERSPANPLATFORM o ERSPAN3.size
  have h2 : ERSPAN3.size = 12 := rfl
  refine (Agree.next (ih .ether _) (fun p => (insertOpt p pl).insert _) fun p => ?_).mono
    (room_next (rest_length rest (by omega)))
  rw [need_insert _ _ (show ¬ Optional ERSPAN3 by decide), need_insertOpt]
  intro g hg
  rw [optHdr_ty hpl g hg]; decide

theorem gre_agree (b : Bytes) : Agree need (d + 1) (room b.length) (parse_gre chk (d + 1) b)
    (PacketRs.Slow.parse_gre chk b) := by
  rw [parse_gre, PacketRs.Slow.parse_gre]
  refine   .bind fun c _ => .bind fun _ _ => .bind fun cp _ => .bind fun sp _ => .bind fun kp _ =>
    .bind fun gco h1 => .bind fun gk h2 => .bind fun gsn h3 => .bind fun rest _ => ?_
  have o1 := le_optOffset GREChksumOffset cp GRE.size
  have o2 := le_optOffset GREKey kp (optOffset GREChksumOffset cp GRE.size)
  have o3 := le_optOffset GRESequenceNum sp (optOffset GREKey kp (optOffset GREChksumOffset cp GRE.size))
  have o4 : GRE.size = 4 := rfl
  have key : ∀ l, Agree need (d + 1) (room b.length)
      (parseLS chk d l rest.1 >>= fun p => pure ((insertOpt (insertOpt (insertOpt p gco) gk) gsn).insert (GRE.ofVec c)))
      (parseL chk l rest.1 >>= fun p => pure ((insertOpt (insertOpt (insertOpt p gco) gk) gsn).insert (GRE.ofVec c))) := by
    intro l
    refine (Agree.next (ih l _) (fun p => (insertOpt (insertOpt (insertOpt p gco) gk) gsn).insert _)
      fun p => ?_).mono (room_next (rest_length rest (by omega)))
    rw [need_insert _ _ (show ¬ Optional GRE by decide), need_insertOpt, need_insertOpt, need_insertOpt]
    · intro g hg; rw [optHdr_ty h1 g hg]; decide
    · intro g hg; rw [optHdr_ty h2 g hg]; decide
    · intro g hg; rw [optHdr_ty h3 g hg]; decide
  generalize EtherType.try_from _ = e
  rcases e with _ | e
  · exact key .payload
  · cases e <;> first | exact key .ipv4 | exact key .ipv6 | exact key .erspan2 | exact key .erspan3 | exact key .payload

theorem dot3_agree (b : Bytes) : Agree need (d + 1) (room b.length) (parse_dot3 (d + 1) b)
    (PacketRs.Slow.parse_dot3 b) := by
  rw [parse_dot3, PacketRs.Slow.parse_dot3]
  refine .bind fun _ _ => .bind fun rest _ => layer_agree (c := rest.1) ?_ (show ¬ Optional Dot3 by decide)
    (rest_length rest (by decide))
  exact ih .llc _

omit ih

theorem arp_agree (b : Bytes) : Agree need (d + 1) (room b.length) (parse_arp (d + 1) b)
    (PacketRs.Slow.parse_arp b) := by
  rw [parse_arp, PacketRs.Slow.parse_arp]
  refine .bind fun rest _ => ?_
  rw [slice0_ok _ _ rest.2.2]
  exact layer_agree (c := rest.1) ((accept_agree d _).mono (one_le_room _)) (show ¬ Optional ARP by decide)
    (rest_length rest (by decide))

theorem icmp_agree (b : Bytes) : Agree need (d + 1) (room b.length) (parse_icmp (d + 1) b)
    (PacketRs.Slow.parse_icmp b) := by
  rw [parse_icmp, PacketRs.Slow.parse_icmp]
  refine .bind fun rest _ => ?_
  rw [slice0_ok _ _ rest.2.2]
  exact layer_agree (c := rest.1) ((accept_agree d _).mono (one_le_room _)) (show ¬ Optional ICMP by decide)
    (rest_length rest (by decide))

theorem tcp_agree (b : Bytes) : Agree need (d + 1) (room b.length) (parse_tcp (d + 1) b)
    (PacketRs.Slow.parse_tcp b) := by
  rw [parse_tcp, PacketRs.Slow.parse_tcp]
  refine .bind fun rest _ => ?_
  rw [slice0_ok _ _ rest.2.2]
  exact layer_agree (c := rest.1) ((accept_agree d _).mono (one_le_room _)) (show ¬ Optional TCP by decide)
    (rest_length rest (by decide))

theorem snap_agree (b : Bytes) : Agree need (d + 1) (if b.length < 5 then 1 else 2) (parse_snap (d + 1) b)
    (PacketRs.Slow.parse_snap b) := by
  rw [parse_snap, PacketRs.Slow.parse_snap]
  refine .bind fun _ _ => .bind fun rest _ => ?_
  have : 5 ≤ b.length := rest.2.2
  rw [if_neg (by omega)]
  exact (accept_agree d _).next _ fun p => need_insert p _ (show ¬ Optional SNAP by decide)

theorem llc_agree (b : Bytes) : Agree need (d + 1) (room b.length) (parse_llc (d + 1) b)
    (PacketRs.Slow.parse_llc b) := by
  rw [parse_llc, PacketRs.Slow.parse_llc]
  have key : ∀ (c : Bytes) (s : Bool), Agree need (d + 1) (room b.length)
      (sliceFrom b LLC.size >>= fun rest => if s = true then parse_snap d rest.1 >>= fun p => pure (p.insert (LLC.ofVec c))
        else accept d rest.1 >>= fun p => pure (p.insert (LLC.ofVec c)))
      (sliceFrom b LLC.size >>= fun rest => if s = true then PacketRs.Slow.parse_snap rest.1 >>= fun p => pure (p.insert (LLC.ofVec c))
        else pure (PacketRs.Slow.accept rest.1) >>= fun p => pure (p.insert (LLC.ofVec c))) := by
    intro c s
    refine .bind fun rest _ => ?_
    have hl : 3 ≤ b.length := rest.2.2
    have hr : rest.1.length = b.length - 3 := by rw [rest.2.1, List.length_drop]; rfl
    have hn := fun p => need_insert p (LLC.ofVec c) (show ¬ Optional LLC by decide)
    cases s with
    | false =>
      refine ((accept_agree d _).next _ hn).mono ?_
      unfold room; omega
    | true =>
      cases d with
      | zero =>
        refine (Agree.next (k := 1) (.zero need_pos (by omega)) _ hn).mono ?_
        unfold room; omega
      | succ d =>
        refine ((snap_agree rest.1).next _ hn).mono ?_
        unfold room; split <;> omega
  refine .bind fun c _ => .bind fun x _ => ?_
  dsimp only
  split
  · exact key c false
  · refine .bind fun y _ => ?_
    split
    · exact key c false
    · exact .bind fun z _ => key c _
end

theorem parseLS_agree (chk : Bool) (d : Nat) : ∀ l b,
    Agree need d (room b.length) (parseLS chk d l b) (parseL chk l b) := by
  induction d with
  | zero =>
    intro l b
    have : parseLS chk 0 l b = .error .stack := by
      cases l <;> simp only [parseLS] <;> first | rfl | (unfold parse_ethernet; rfl) | (unfold parse_vlan; rfl) | (unfold parse_mpls; rfl) | (unfold parse_mpls_bos; rfl) | (unfold parse_ipv4; rfl) | (unfold parse_ipv6; rfl) | (unfold parse_gre; rfl) | (unfold parse_erspan2; rfl) | (unfold parse_erspan3; rfl) | (unfold parse_udp; rfl) | (unfold parse_vxlan; rfl)
    rw [this]
    exact .zero need_pos (one_le_room _)
  | succ d ih =>
    intro l b
    cases l with
    | payload => exact (accept_agree _ b).mono (one_le_room _)
    | ether => exact ethernet_agree ih b
    | vlan => exact vlan_agree ih b
    | mpls => exact mpls_agree ih b
    | mplsBos => exact mpls_bos_agree ih b
    | ipv4 => exact ipv4_agree ih b
    | ipv6 => exact ipv6_agree ih b
    | gre => exact gre_agree ih b
    | erspan2 => exact erspan2_agree ih b
    | erspan3 => exact erspan3_agree ih b
    | arp => exact arp_agree b
    | icmp => exact icmp_agree b
    | tcp => exact tcp_agree b
    | udp => exact udp_agree ih b
    | vxlan => exact vxlan_agree ih b
    | dot3 => exact dot3_agree ih b
    | llc => exact llc_agree b
    | snap =>
      refine (snap_agree b).mono ?_
      unfold room; split <;> omega

theorem layer_tight {d k : Nat} {x y : R Packet} (h : Agree need d k x y) {g : Hdr} (hg : ¬ Optional g.ty) :
    Agree need (d + 1) (k + 1) (x >>= fun p => pure (p.insert g)) (y >>= fun p => pure (p.insert g)) :=
  h.next _ fun p => need_insert p g hg

theorem rest_tight {b : Bytes} {n : Nat} (r : {r : Bytes // r = b.drop n ∧ n ≤ b.length}) :
    r.1.length = b.length - n := by
  rw [r.2.1, List.length_drop]

theorem ethernet_tight (chk : Bool) (d : Nat) (b : Bytes) :
    Agree need (d + 1) (room (b.length - 14) + 1) (parse_ethernet chk (d + 1) b) (PacketRs.Slow.parse_ethernet chk b) := by
  rw [parse_ethernet, PacketRs.Slow.parse_ethernet]
  refine .bind fun c _ => .bind fun _ _ => .bind fun rest _ => ?_
  have hr : rest.1.length = b.length - 14 := rest_tight rest
  rw [← hr]
  have key : ∀ l, Agree need (d + 1) (room rest.1.length + 1) (parseLS chk d l rest.1 >>= fun p => pure (p.insert (Ether.ofVec c)))
      (parseL chk l rest.1 >>= fun p => pure (p.insert (Ether.ofVec c))) :=
    fun l => layer_tight (parseLS_agree chk d l _) (show ¬ Optional Ether by decide)
  generalize EtherType.try_from _ = e
  rcases e with _ | e
  · exact key .payload
  · cases e <;> first | exact key .vlan | exact key .arp | exact key .ipv4 | exact key .ipv6 | exact key .mpls | exact key .payload

theorem dot3_tight (chk : Bool) (d : Nat) (b : Bytes) :
    Agree need (d + 1) (room (b.length - 14) + 1) (parse_dot3 (d + 1) b) (PacketRs.Slow.parse_dot3 b) := by
  rw [parse_dot3, PacketRs.Slow.parse_dot3]
  refine .bind fun c _ => .bind fun rest _ => ?_
  have hr : rest.1.length = b.length - 14 := rest_tight rest
  rw [← hr]
  exact layer_tight (parseLS_agree chk d .llc _) (show ¬ Optional Dot3 by decide)

end Stack.Slow
end PacketRs
