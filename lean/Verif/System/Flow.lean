import Verif.System.Rest
import Verif.System.Trace

/-!
# Weighing everything in a system
-/

namespace Verif.System

open Verif.Wire Verif.Sched Verif.Spec
open Verif.Client (Pickle)

variable {F V X : Type} {p : Pickle} {rt : Proc.Runtime F V X} {cfg : Config} {s s' : Sys F}

/-- what a peer sent to the scheduler -/
def Peer.puts : Peer F → List Message
  | .absent => []
  | .client c => clientPut c.log
  | .worker a _ _ left => sentBy a.log ++ (left.map Message.disconnectRequest).toList

/-- what a peer received from the scheduler -/
def Peer.gots : Peer F → List Message
  | .absent => []
  | .client c => clientGot c.log
  | .worker a _ _ _ => gotBy a.log

theorem Peer.puts_count (P : Peer F) (m : Message) : P.puts.count m = P.sent m := by
  cases P with
  | absent => rfl
  | client c => exact clientPut_count _ _
  | worker a ret qs left =>
    simp only [Peer.puts, Peer.sent, List.count_append, sentBy_count]
    congr 1
    cases left with
    | none => simp
    | some i => simp [List.count_cons]

theorem Peer.gots_count (P : Peer F) (m : Message) : P.gots.count m = P.got m := by
  cases P with
  | absent => rfl
  | client c => exact clientGot_count _ _
  | worker a ret qs left => exact gotBy_count _ _

/-- How much a peer contributes: what is inside it, and what it sent, without what it received. -/
def value (loc : Peer F → Int) (up dn : Message → Nat) (P : Peer F) : Int :=
  loc P + (weigh up P.puts : Nat) - (weigh dn P.gots : Nat)

/-- How much the scheduler contributes on the link to a peer. -/
def linkValue (up dn : Message → Nat) (s : Sys F) (x : Bytes) : Int :=
  (weigh dn (withPeer x s.sched.out) : Nat) - (weigh up (withPeer x s.received) : Nat)

/-- Sums. -/
def total (f : Bytes → Int) : List Bytes → Int
  | [] => 0
  | x :: xs => f x + total f xs

theorem total_congr {f g : Bytes → Int} : ∀ {xs : List Bytes}, (∀ x ∈ xs, f x = g x) → total f xs = total g xs
  | [], _ => rfl
  | x :: xs, h => by
    rw [total, total, h x List.mem_cons_self, total_congr fun y hy => h y (List.mem_cons_of_mem _ hy)]

theorem total_le {f g : Bytes → Int} : ∀ {xs : List Bytes}, (∀ x ∈ xs, f x ≤ g x) → total f xs ≤ total g xs
  | [], _ => Int.le_refl _
  | x :: xs, h => by
    have h1 := h x List.mem_cons_self
    have h2 := total_le fun y hy => h y (List.mem_cons_of_mem _ hy)
    simp only [total]
    omega

theorem total_nonneg {f : Bytes → Int} {xs : List Bytes} (h : ∀ x ∈ xs, 0 ≤ f x) : 0 ≤ total f xs := by
  have := total_le (f := fun _ => 0) h
  have h0 : ∀ xs : List Bytes, total (fun _ => 0) xs = 0 := by
    intro xs; induction xs with
    | nil => rfl
    | cons x xs ih => simp [total, ih]
  rw [h0] at this
  exact this

theorem total_add (f g : Bytes → Int) : ∀ xs : List Bytes, total (fun x => f x + g x) xs = total f xs + total g xs
  | [] => rfl
  | x :: xs => by
    simp only [total, total_add f g xs]
    omega

/-- One summand changes. -/
theorem total_set {f g : Bytes → Int} {x : Bytes} : ∀ {xs : List Bytes}, xs.Nodup → x ∈ xs → (∀ y, y ≠ x → g y = f y) →
    total g xs = total f xs + (g x - f x)
  | [], _, hx, _ => by cases hx
  | y :: ys, hn, hx, h => by
    obtain ⟨hy, hn⟩ := List.nodup_cons.1 hn
    simp only [total]
    by_cases e : y = x
    · subst e
      have : total g ys = total f ys := total_congr fun z hz => h z fun e => hy (e ▸ hz)
      omega
    · have hx : x ∈ ys := (List.mem_cons.1 hx).resolve_left (Ne.symm e)
      have h1 := total_set hn hx h
      have h2 := h y e
      omega

/-- Messages to different peers weigh no more than all messages. -/
theorem total_withPeer (f : Message → Nat) : ∀ (l : Log) {xs : List Bytes}, xs.Nodup →
    total (fun x => ((weigh f (withPeer x l) : Nat) : Int)) xs ≤ (weigh (fun y => f y.2) l : Nat)
  | [], xs, _ => by
    have h := total_le (f := fun x => ((weigh f (withPeer x []) : Nat) : Int)) (g := fun _ => 0) (xs := xs) fun x _ => by
      simp [withPeer, weigh]
    have h0 : total (fun _ => 0) xs = 0 := by
      clear h; induction xs with
      | nil => rfl
      | cons x xs ih => simp [total]; exact ih (by simp_all)
    rw [h0] at h
    exact h
  | (y, m) :: l, xs, hn => by
    have ih := total_withPeer f l hn
    rw [weigh_cons]
    have e : ∀ x, ((weigh f (withPeer x ((y, m) :: l)) : Nat) : Int) =
        ((weigh f (withPeer x [(y, m)]) : Nat) : Int) + ((weigh f (withPeer x l) : Nat) : Int) := by
      intro x
      rw [← List.singleton_append, withPeer_append, weigh_append]
      omega
    have e1 : total (fun x => ((weigh f (withPeer x ((y, m) :: l)) : Nat) : Int)) xs =
        total (fun x => ((weigh f (withPeer x [(y, m)]) : Nat) : Int)) xs + total (fun x => ((weigh f (withPeer x l) : Nat) : Int)) xs := by
      rw [← total_add]
      exact total_congr fun x _ => e x
    have e2 : total (fun x => ((weigh f (withPeer x [(y, m)]) : Nat) : Int)) xs ≤ (f m : Nat) := by
      have hz : ∀ x, x ≠ y → ((weigh f (withPeer x [(y, m)]) : Nat) : Int) = 0 := by
        intro x hx
        rw [withPeer_single, if_neg (Ne.symm hx)]; rfl
      have h0 : ∀ xs : List Bytes, total (fun _ => 0) xs = 0 := by
        intro xs; induction xs with
        | nil => rfl
        | cons x xs ih => simp [total, ih]
      by_cases hy : y ∈ xs
      · rw [total_set (f := fun _ => 0) hn hy (fun x hx => hz x hx), h0, withPeer_single, if_pos rfl]
        simp [weigh]
      · rw [total_congr (g := fun _ => 0) fun x hx => hz x fun e => hy (e ▸ hx), h0]
        omega
    rw [e1]
    simp only
    omega

/-- A weight of everything: inside the peers and under way. -/
def flow (loc : Peer F → Int) (up dn : Message → Nat) (xs : List Bytes) (s : Sys F) : Int :=
  total (fun x => value loc up dn (s.peers x) + linkValue up dn s x) xs

variable {loc : Peer F → Int} {up dn : Message → Nat} {xs : List Bytes}

theorem flow_nonneg (h : Inv p rt cfg s) (hl : ∀ x, 0 ≤ loc (s.peers x)) : 0 ≤ flow loc up dn xs s := by
  refine total_nonneg fun x _ => ?_
  have h1 : weigh up (withPeer x s.received) ≤ weigh up (s.peers x).puts := weigh_le fun m _ => by
    rw [withPeer_count, Peer.puts_count]; exact h.heard x m
  have h2 : weigh dn (s.peers x).gots ≤ weigh dn (withPeer x s.sched.out) := weigh_le fun m _ => by
    rw [withPeer_count, Peer.gots_count]; exact h.got x m
  have h3 := hl x
  unfold value linkValue
  omega

/-- A step of a peer. -/
theorem flow_peer (hn : xs.Nodup) {x : Bytes} (hx : x ∈ xs) (hs : s'.sched = s.sched) (hr : s'.received = s.received)
    (hp : ∀ y, y ≠ x → s'.peers y = s.peers y) :
    flow loc up dn xs s' = flow loc up dn xs s + (value loc up dn (s'.peers x) - value loc up dn (s.peers x)) := by
  unfold flow
  rw [total_set (f := fun y => value loc up dn (s.peers y) + linkValue up dn s y) hn hx fun y hy => by rw [hp y hy]; unfold linkValue; rw [hs, hr]]
  unfold linkValue
  rw [hs, hr]
  omega

/-- A step of the scheduler. -/
theorem flow_sched (hn : xs.Nodup) (hp : s'.peers = s.peers) {l' : Log} {inp : Log} (ho : s'.sched.out = s.sched.out ++ l')
    (hr : s'.received = s.received ++ inp) :
    flow loc up dn xs s' ≤ flow loc up dn xs s + (weigh (fun y => dn y.2) l' : Nat) - total (fun x => ((weigh up (withPeer x inp) : Nat) : Int)) xs := by
  have h1 := total_withPeer dn l' hn
  have e : flow loc up dn xs s' + total (fun x => ((weigh up (withPeer x inp) : Nat) : Int)) xs =
      flow loc up dn xs s + total (fun x => ((weigh dn (withPeer x l') : Nat) : Int)) xs := by
    unfold flow
    rw [← total_add, ← total_add]
    refine total_congr fun x _ => ?_
    simp only [linkValue, hp, ho, hr, withPeer_append, weigh_append]
    omega
  omega

/-- A message arrives at the scheduler. -/
theorem flow_recv (hn : xs.Nodup) {x : Bytes} (hx : x ∈ xs) {m : Message} (hp : s'.peers = s.peers) {l' : Log} (ho : s'.sched.out = s.sched.out ++ l')
    (hr : s'.received = s.received ++ [(x, m)]) :
    flow loc up dn xs s' ≤ flow loc up dn xs s + (weigh (fun y => dn y.2) l' : Nat) - (up m : Nat) := by
  have h := flow_sched (loc := loc) (up := up) (dn := dn) hn hp ho hr
  have h2 : weigh up (withPeer x [(x, m)]) = up m := by rw [withPeer_single, if_pos rfl]; simp [weigh]
  have h3 : ∀ ys : List Bytes, x ∈ ys → ((up m : Nat) : Int) ≤ total (fun x' => ((weigh up (withPeer x' [(x, m)]) : Nat) : Int)) ys := by
    intro ys
    induction ys with
    | nil => intro h; cases h
    | cons y ys ih =>
      intro hy
      simp only [total]
      have h0 : 0 ≤ total (fun x' => ((weigh up (withPeer x' [(x, m)]) : Nat) : Int)) ys := total_nonneg fun _ _ => by omega
      rcases List.mem_cons.1 hy with e | hy
      · rw [← e, h2]; omega
      · have := ih hy; omega
  have := h3 xs hx
  omega

/-- Smaller weights. -/
theorem flow_mono (h : Inv p rt cfg s) {loc' : Peer F → Int} {up' dn' : Message → Nat} (hl : ∀ P, loc' P ≤ loc P) (hu : ∀ m, up' m ≤ up m) (hd : ∀ m, dn' m ≤ dn m) :
    flow loc' up' dn' xs s ≤ flow loc up dn xs s := by
  refine total_le fun x _ => ?_
  have key : ∀ (f g : Message → Nat) (l l' : List Message), (∀ m, f m ≤ g m) → (∀ m, l.count m ≤ l'.count m) →
      weigh f l' + weigh g l ≤ weigh g l' + weigh f l := by
    intro f g l l' hfg hl
    have h1 := weigh_le (f := fun m => g m - f m) (l := l) (l' := l') fun m _ => hl m
    have h2 : ∀ l : List Message, weigh (fun m => g m - f m) l + weigh f l = weigh g l := by
      intro l
      induction l with
      | nil => rfl
      | cons m l ih => simp only [weigh_cons]; have := hfg m; omega
    have h3 := h2 l
    have h4 := h2 l'
    omega
  have h1 := key up' up (withPeer x s.received) (s.peers x).puts hu fun m => by
    rw [withPeer_count, Peer.puts_count]; exact h.heard x m
  have h2 := key dn' dn (s.peers x).gots (withPeer x s.sched.out) hd fun m => by
    rw [withPeer_count, Peer.gots_count]; exact h.got x m
  have h3 := hl (s.peers x)
  unfold value linkValue
  omega

end Verif.System
