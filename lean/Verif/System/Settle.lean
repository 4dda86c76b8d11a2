import Verif.System.WeightsWorker
import Verif.System.Questions
import Verif.Sched.Gain
import Verif.Spec.Settle

/-!
# Every event that does something makes the system smaller
-/

namespace Verif.System

open Verif.Wire Verif.Sched Verif.Spec
open Verif.Client (Pickle)
open Verif.Worker (Agent)
open Verif.Spec.Worker (Hist)

variable {F V X : Type} {p : Pickle} {rt : Proc.Runtime F V X} {cfg : Config} {s s' : Sys F}

/-! ### What is inside a peer -/

/-- The work inside processors. -/
def procsValue : List (Proc.Proc F) → Int
  | [] => 0
  | q :: qs => procValue q + procsValue qs

theorem procsValue_append : ∀ qs rs : List (Proc.Proc F), procsValue (qs ++ rs) = procsValue qs + procsValue rs
  | [], rs => by simp [procsValue]
  | q :: qs, rs => by
    simp only [List.cons_append, procsValue, procsValue_append qs rs]
    omega

theorem procsValue_set {q q' : Proc.Proc F} : ∀ {qs : List (Proc.Proc F)} {n : Nat}, qs[n]? = some q →
    procsValue (qs.set n q') = procsValue qs + (procValue q' - procValue q)
  | [], n, h => by simp at h
  | q₀ :: qs, 0, h => by
    simp only [List.getElem?_cons_zero, Option.some.injEq] at h
    subst h
    simp only [List.set_cons_zero, procsValue]
    omega
  | q₀ :: qs, n + 1, h => by
    simp only [List.getElem?_cons_succ] at h
    simp only [List.set_cons_succ, procsValue, procsValue_set h]
    omega

theorem procValue_init (ret now : Int) : procValue (Proc.Proc.init (F := F) ret now) = 12 := rfl

theorem procsValue_replicate (ret now : Int) : ∀ n : Nat, procsValue (List.replicate n (Proc.Proc.init (F := F) ret now)) = 12 * n
  | 0 => rfl
  | n + 1 => by
    rw [List.replicate_succ, procsValue, procsValue_replicate ret now n, procValue_init]
    omega

/-- Rare messages inside a peer. -/
def rareLoc : Peer F → Int
  | .client c => (weigh rareUp c.outbox : Nat)
  | _ => 0

/-- Work inside a peer. -/
def workLoc (has : Bytes → Bool) : Peer F → Int
  | .absent => 0
  | .client c => (clientWork has c : Nat)
  | .worker a _ qs _ => (14 * a.tasks.size + posWork a.pos + weigh toldWork (allTold a.log) : Nat) -
      (weigh heardWork (heardList a.log) : Nat) + procsValue qs

theorem toldList_sum (f : Message → Nat) : ∀ (ns : List Nat) (l : Hist), ns.Nodup →
    (ns.map fun n => weigh f (toldList n l)).sum ≤ weigh f (allTold l)
  | [], l, _ => by simp
  | n :: ns, l, hn => by
    obtain ⟨hn, hns⟩ := List.nodup_cons.1 hn
    have ih := toldList_sum f ns (l.filter fun x => match x.2 with | .told j _ => decide (j ≠ n) | _ => true) hns
    have h1 : ∀ j, j ≠ n → ∀ l : Hist, toldList j (l.filter fun x => match x.2 with | .told j _ => decide (j ≠ n) | _ => true) = toldList j l := by
      intro j hj l
      induction l with
      | nil => rfl
      | cons x l ih =>
        obtain ⟨now, x⟩ := x
        rw [toldList_cons j (now, x) l, ← ih]
        cases x with
        | told i m =>
          by_cases e : i = n
          · have : ¬ i = j := fun e' => hj (e'.symm.trans e)
            simp [toldList, e]
            intro e'; exact absurd (e.symm ▸ e') (by simpa using this)
          · by_cases e' : i = j <;> simp [toldList, e, e', List.filter_cons]
            all_goals subst e'; simp [e]
        | _ => simp [toldList]
    have h2 : ∀ l : Hist, weigh f (allTold l) =
        weigh f (toldList n l) + weigh f (allTold (l.filter fun x => match x.2 with | .told j _ => decide (j ≠ n) | _ => true)) := by
      intro l
      induction l with
      | nil => rfl
      | cons x l ih =>
        obtain ⟨now, x⟩ := x
        have e1 : allTold ((now, x) :: l) = allTold [(now, x)] ++ allTold l := by simp only [allTold, ← List.filterMap_append, List.singleton_append]
        have e3 : ∀ g : Int × Worker.Act → Bool, ((now, x) :: l).filter g = [(now, x)].filter g ++ l.filter g := fun g => by
          rw [← List.filter_append]; rfl
        rw [toldList_cons n (now, x) l, e1, e3, weigh_append, weigh_append, ih]
        have e2 : ∀ l l' : Hist, allTold (l ++ l') = allTold l ++ allTold l' := by intro l l'; simp [allTold]
        rw [e2, weigh_append]
        have key : weigh f (allTold [(now, x)]) = weigh f (toldList n [(now, x)]) +
            weigh f (allTold ([(now, x)].filter fun x => match x.2 with | .told j _ => decide (j ≠ n) | _ => true)) := by
          cases x with
          | told i m => by_cases e : i = n <;> simp [allTold, toldList, e, weigh]
          | _ => simp [allTold, toldList, weigh]
        omega
    rw [List.map_cons, List.sum_cons, h2 l]
    have h3 : (ns.map fun j => weigh f (toldList j l)) =
        ns.map fun j => weigh f (toldList j (l.filter fun x => match x.2 with | .told j _ => decide (j ≠ n) | _ => true)) := by
      refine List.map_congr_left fun j hj => ?_
      rw [h1 j fun e => hn (e ▸ hj)]
    rw [h3]
    omega

theorem procsValue_eq : ∀ qs : List (Proc.Proc F), ∃ w : Nat, procsValue qs =
    (w + weigh heardWork (qs.flatMap sentList) : Nat) - ((qs.map fun q => weigh toldWork (takenList q)).sum : Nat)
  | [] => ⟨0, rfl⟩
  | q :: qs => by
    obtain ⟨w, e⟩ := procsValue_eq qs
    refine ⟨w + mainWork q.main, ?_⟩
    simp only [procsValue, e, procValue, List.flatMap_cons, weigh_append, List.map_cons, List.sum_cons]
    omega

theorem flat_count (m : Message) : ∀ qs : List (Proc.Proc F), (qs.flatMap sentList).count m = procsSent m qs
  | [] => rfl
  | q :: qs => by
    rw [List.flatMap_cons, List.count_append, flat_count m qs, sentList_count]
    simp [procsSent]

theorem taken_sum (l : Hist) : ∀ (qs : List (Proc.Proc F)) (k : Nat), (∀ (n : Nat) q, qs[n]? = some q → ∀ m, taken m q ≤ toldTo (k + n) m l) →
    (qs.map fun q => weigh toldWork (takenList q)).sum ≤ ((List.range' k qs.length).map fun n => weigh toldWork (toldList n l)).sum
  | [], k, _ => by simp
  | q :: qs, k, h => by
    have ih := taken_sum l qs (k + 1) fun n q' hq m => by
      have := h (n + 1) q' (by simpa using hq) m
      rw [show k + 1 + n = k + (n + 1) by omega]
      exact this
    have h0 : weigh toldWork (takenList q) ≤ weigh toldWork (toldList k l) := weigh_le fun m _ => by
      rw [takenList_count, toldList_count]
      exact h 0 q rfl m
    simp only [List.map_cons, List.sum_cons, List.length_cons, List.range'_succ]
    omega

theorem workLoc_nonneg (has : Bytes → Bool) {P : Peer F} (h : PeerOk p rt P) : 0 ≤ workLoc has P := by
  cases P with
  | absent => exact Int.le_refl _
  | client c => simp only [workLoc]; omega
  | worker a ret qs left =>
    obtain ⟨_, _, hq, hh⟩ := h
    obtain ⟨w, e⟩ := procsValue_eq qs
    have h1 : weigh heardWork (heardList a.log) ≤ weigh heardWork (qs.flatMap sentList) := weigh_le fun m _ => by
      rw [heardList_count, flat_count]; exact hh m
    have h2 := taken_sum a.log qs 0 fun n q hn m => by rw [Nat.zero_add]; exact (hq n q hn).2 m
    have h3 := toldList_sum toldWork (List.range' 0 qs.length) a.log List.nodup_range'
    simp only [workLoc, e]
    omega

theorem rareLoc_nonneg (P : Peer F) : 0 ≤ rareLoc P := by
  cases P <;> simp only [rareLoc] <;> omega

/-! ### The size of a system -/

/-- The functions the scheduler has. -/
def hasOf (s : Sys F) (f : Bytes) : Bool := s.sched.fm.funcs.has f

/-- What only users, clocks and balancing cause. -/
def rareSize (xs : List Bytes) (s : Sys F) : Int := flow rareLoc rareUp rareDn xs s + (s.sched.gm.queue.length : Nat)

/-- How often tasks can still be accepted and ended. -/
def lifeSize (s : Sys F) : Int := 2 * (s.used.length : Nat) - s.sched.abs.gain

/-- Clients that will hear of functions that are not there. -/
def staleSize (xs : List Bytes) (s : Sys F) : Int := flow (fun _ => 0) (fun _ => 0) (staleDn (hasOf s)) xs s

/-- Tasks that wait for a worker. -/
def lineSize (a : Abs) : Nat := a.waiting.length + a.pending.toList.length

/-- All other work. -/
def workSize (xs : List Bytes) (s : Sys F) : Int :=
  flow (workLoc (hasOf s)) (workUp (hasOf s)) workDn xs s + 16 * (lineSize s.sched.abs : Nat)

/-- Smaller. -/
def Down (xs : List Bytes) (s s' : Sys F) : Prop :=
  rareSize xs s' < rareSize xs s ∨ rareSize xs s' ≤ rareSize xs s ∧
    (lifeSize s' < lifeSize s ∨ lifeSize s' ≤ lifeSize s ∧
      (staleSize xs s' < staleSize xs s ∨ staleSize xs s' ≤ staleSize xs s ∧ workSize xs s' < workSize xs s))

/-- Not larger. -/
def Level (xs : List Bytes) (s s' : Sys F) : Prop :=
  rareSize xs s' ≤ rareSize xs s ∧ lifeSize s' ≤ lifeSize s ∧ staleSize xs s' ≤ staleSize xs s ∧ workSize xs s' ≤ workSize xs s

theorem Level.refl (xs : List Bytes) (s : Sys F) : Level xs s s := ⟨Int.le_refl _, Int.le_refl _, Int.le_refl _, Int.le_refl _⟩

variable {xs : List Bytes}

theorem rareSize_nonneg (h : Inv p rt cfg s) : 0 ≤ rareSize xs s := by
  have := flow_nonneg (xs := xs) (loc := rareLoc) (up := rareUp) (dn := rareDn) h fun _ => rareLoc_nonneg _
  unfold rareSize
  omega

theorem staleSize_nonneg (h : Inv p rt cfg s) : 0 ≤ staleSize xs s := flow_nonneg h fun _ => Int.le_refl _

theorem workSize_nonneg (h : Inv p rt cfg s) : 0 ≤ workSize xs s := by
  have := flow_nonneg (xs := xs) (loc := workLoc (hasOf s)) (up := workUp (hasOf s)) (dn := workDn) h fun x => workLoc_nonneg _ (h.peer x)
  unfold workSize
  omega

theorem sum_le_length {l : List Bytes} {f : Bytes → Nat} (h : ∀ t ∈ l, f t ≤ 1) : (l.map f).sum ≤ l.length := by
  induction l with
  | nil => exact Nat.le_refl _
  | cons t l ih =>
    have h1 := h t List.mem_cons_self
    have h2 := ih fun t ht => h t (List.mem_cons_of_mem _ ht)
    simp only [List.map_cons, List.sum_cons, List.length_cons]
    omega

theorem lifeSize_nonneg (h : Inv p rt cfg s) : 0 ≤ lifeSize s := by
  have h1 := allAcks_le_sum s.used s.sched.out fun x t hm => by
    obtain ⟨c, hx, ho⟩ := h.echo_used hm
    refine (h.ids x t ?_).1
    rcases ho with ⟨k, hk, rfl⟩ | ⟨g, hg, ht⟩
    · obtain ⟨c', nm, b, hx', hk', -⟩ := h.taskSent (x := x) (k := k) (by
        rw [hx]; exact List.countP_pos_iff.2 ⟨_, hk, decide_eq_true rfl⟩)
      exact Inv.submitted_id hx' hk'
    · exact Inv.graph_id hx hg ht
  have h2 := sum_le_length (l := s.used) (f := fun t => acks anyone t s.sched.out) fun t _ => h.acks_le t
  have h3 : (0 : Int) ≤ s.sched.abs.held := Int.natCast_nonneg s.sched.tm.tasks.size
  have h4 : allAcks s.sched.abs.out = allAcks s.sched.out := rfl
  unfold lifeSize Abs.gain
  omega

/-! ### Steps of peers -/

theorem stale_value (dn : Message → Nat) (P : Peer F) : value (fun _ => 0) (fun _ => 0) dn P = - (weigh dn P.gots : Nat) := by
  unfold value
  rw [weigh_eq_zero (g := fun _ : Message => 0) fun _ _ => rfl]
  show 0 + ((0 : Nat) : Int) - _ = _
  omega

theorem setPeer_self {x : Bytes} {P : Peer F} (h : s.peers x = P) : s.setPeer x P = s := by
  unfold Sys.setPeer
  have : (fun y => if y = x then P else s.peers y) = s.peers := by
    funext y
    split
    · next e => rw [e, h]
    · rfl
  rw [this]

theorem setPeer_sizes (hn : xs.Nodup) {x : Bytes} (hx : x ∈ xs) {P P' : Peer F} (hP : s.peers x = P) :
    rareSize xs (s.setPeer x P') = rareSize xs s + (value rareLoc rareUp rareDn P' - value rareLoc rareUp rareDn P) ∧
    lifeSize (s.setPeer x P') = lifeSize s ∧
    staleSize xs (s.setPeer x P') = staleSize xs s + ((weigh (staleDn (hasOf s)) P.gots : Nat) - (weigh (staleDn (hasOf s)) P'.gots : Nat)) ∧
    workSize xs (s.setPeer x P') = workSize xs s +
      (value (workLoc (hasOf s)) (workUp (hasOf s)) workDn P' - value (workLoc (hasOf s)) (workUp (hasOf s)) workDn P) := by
  have hx' : (s.setPeer x P').peers x = P' := by simp [Sys.setPeer]
  have hy : ∀ y, y ≠ x → (s.setPeer x P').peers y = s.peers y := fun y hy => by simp [Sys.setPeer, hy]
  have key : ∀ (loc : Peer F → Int) (up dn : Message → Nat), flow loc up dn xs (s.setPeer x P') =
      flow loc up dn xs s + (value loc up dn P' - value loc up dn P) := by
    intro loc up dn
    have := flow_peer (loc := loc) (up := up) (dn := dn) hn hx (s := s) (s' := s.setPeer x P') rfl rfl hy
    rw [hx', hP] at this
    exact this
  refine ⟨?_, rfl, ?_, ?_⟩
  · unfold rareSize
    rw [key]
    have : (s.setPeer x P').sched = s.sched := rfl
    rw [this]
    omega
  · unfold staleSize
    have : hasOf (s.setPeer x P') = hasOf s := rfl
    rw [this, key, stale_value, stale_value]
    omega
  · unfold workSize
    have : hasOf (s.setPeer x P') = hasOf s := rfl
    rw [this, key]
    have : (s.setPeer x P').sched = s.sched := rfl
    rw [this]
    omega

theorem clientStep_down (h : Inv p rt cfg s) (hn : xs.Nodup) {x : Bytes} (hx : x ∈ xs) {c : Client.Client} (hc : s.peers x = .client c) {o : Client.Op}
    (ho : innerClient o = true) (hs : s.clientStep p x c o = some s') : s' = s ∨ Down xs s s' := by
  unfold Sys.clientStep at hs
  split at hs
  case h_2 => cases hs
  next c' hc' =>
  cases hs
  obtain ⟨h1, h2, h3, h4⟩ := setPeer_sizes hn hx hc (P' := .client c')
  obtain ⟨ys, hlog, -⟩ := Client.step_log hc'
  have hg : ∀ f : Message → Nat, weigh f (clientGot c.log) ≤ weigh f (clientGot c'.log) := by
    intro f
    rw [hlog, clientGot_append, weigh_append]
    omega
  have hr := client_rare (p := p) ho hc'
  have e1 : value rareLoc rareUp rareDn (.client c' : Peer F) ≤ value rareLoc rareUp rareDn (.client c : Peer F) := by
    have := hg rareDn
    unfold clientRare at hr
    simp only [value, rareLoc, Peer.puts, Peer.gots]
    omega
  have e2 : ∀ c : Client.Client, value (workLoc (hasOf s)) (workUp (hasOf s)) workDn (.client c : Peer F) = clientValue (hasOf s) c := by
    intro c
    simp only [value, workLoc, Peer.puts, Peer.gots, clientValue]
    omega
  have e3 := hg (staleDn (hasOf s))
  have e4 : ∀ c : Client.Client, (Peer.client c : Peer F).gots = clientGot c.log := fun _ => rfl
  rw [e4, e4] at h3
  rw [e2, e2] at h4
  rcases client_value (has := hasOf s) (h.client hc).task ho hc' with e | e | e
  · subst e
    exact .inl (setPeer_self hc)
  · exact .inr (.inr ⟨by omega, .inr ⟨by omega, .inr ⟨by omega, by omega⟩⟩⟩)
  · exact .inr (.inr ⟨by omega, .inr ⟨by omega, .inl (by omega)⟩⟩)

theorem extend_value (ret now : Int) (qs : List (Proc.Proc F)) (n : Nat) (h : qs.length ≤ n) :
    procsValue (extend ret now qs n) = procsValue qs + (12 * (n : Int) - 12 * (qs.length : Int)) := by
  unfold extend
  rw [procsValue_append, procsValue_replicate]
  omega

theorem agentStep_down (h : Inv p rt cfg s) (hn : xs.Nodup) {x : Bytes} (hx : x ∈ xs) {a : Agent} {ret : Int} {qs : List (Proc.Proc F)}
    (hc : s.peers x = .worker a ret qs none) {e : Agent.Event} (ho : innerAgent e.op = true) (hs : s.agentStep x a ret qs e = some s') :
    s' = s ∨ Down xs s s' := by
  unfold Sys.agentStep at hs
  split at hs
  case h_2 => cases hs
  next a' ha' =>
  cases hs
  have hP := h.peer x
  rw [hc] at hP
  obtain ⟨⟨d, start, hr⟩, hlen, -, -⟩ := hP
  obtain ⟨-, hprocs, ys, hlog, -, -⟩ := Worker.step_flows hr.flow ha'
  obtain ⟨h1, h2, h3, h4⟩ := setPeer_sizes hn hx hc (P' := .worker a' ret (extend ret e.now qs a'.procs) none)
  have hg : ∀ f : Message → Nat, weigh f (gotBy a.log) ≤ weigh f (gotBy a'.log) := by
    intro f
    have : gotBy a'.log = gotBy a.log ++ gotBy (e.input ++ ys) := by rw [hlog, List.append_assoc]; simp [gotBy]
    rw [this, weigh_append]
    omega
  have e1 : ∀ (a : Agent) (qs : List (Proc.Proc F)), value rareLoc rareUp rareDn (.worker a ret qs none : Peer F) = agentRare a := by
    intro a qs
    simp only [value, rareLoc, Peer.puts, Peer.gots, agentRare, Option.map_none, Option.toList_none, List.append_nil]
    omega
  have e2 : ∀ (a : Agent) (qs : List (Proc.Proc F)), value (workLoc (hasOf s)) (workUp (hasOf s)) workDn (.worker a ret qs none : Peer F) =
      agentValue (hasOf s) a - 12 * (a.procs : Int) + procsValue qs := by
    intro a qs
    simp only [value, workLoc, Peer.puts, Peer.gots, agentValue, histWork, Option.map_none, Option.toList_none, List.append_nil]
    omega
  have e3 := hg (staleDn (hasOf s))
  have e4 : ∀ (a : Agent) (qs : List (Proc.Proc F)), (Peer.worker a ret qs none : Peer F).gots = gotBy a.log := fun _ _ => rfl
  have e5 := extend_value ret e.now qs a'.procs (by omega)
  rw [e4, e4] at h3
  rw [e2, e2] at h4
  rw [e1, e1] at h1
  rcases agent_value (has := hasOf s) ho ha' with g | ⟨g, g' | g'⟩
  · exact .inr (.inl (by omega))
  · subst g'
    left
    have : extend ret e.now qs a'.procs = qs := by
      unfold extend
      rw [show a'.procs - qs.length = 0 by omega]
      simp
    rw [this]
    exact setPeer_self hc
  · exact .inr (.inr ⟨by omega, .inr ⟨by omega, .inr ⟨by omega, by omega⟩⟩⟩)

theorem procStep_down (h : Inv p rt cfg s) (hn : xs.Nodup) {x : Bytes} (hx : x ∈ xs) {a : Agent} {ret : Int} {qs : List (Proc.Proc F)}
    (hc : s.peers x = .worker a ret qs none) {n : Nat} {q : Proc.Proc F} (hq : qs[n]? = some q) {e : Proc.Event} (ho : innerProc e.op = true)
    (hs : s.procStep rt x a ret qs n q e = some s') : s' = s ∨ Down xs s s' := by
  unfold Sys.procStep at hs
  split at hs
  case h_2 => cases hs
  next q' hq' =>
  cases hs
  obtain ⟨h1, h2, h3, h4⟩ := setPeer_sizes hn hx hc (P' := .worker a ret (qs.set n q') none)
  have hw := h.wired hc
  have hid : ∀ k f, q.main = .call k f → k.taskId ≠ [] := by
    intro k f hm
    obtain ⟨r, hi⟩ := hw.inv n q hq
    obtain ⟨now, hk⟩ := hi.mainRecv k (by rw [hm]; rfl)
    have h1 := taken_mem hk
    have h2 := hw.got n q hq (.task k)
    exact hw.ne (n := n) (by omega)
  have e1 : value rareLoc rareUp rareDn (.worker a ret (qs.set n q') none : Peer F) = value rareLoc rareUp rareDn (.worker a ret qs none : Peer F) := rfl
  have e2 : value (workLoc (hasOf s)) (workUp (hasOf s)) workDn (.worker a ret (qs.set n q') none : Peer F) -
      value (workLoc (hasOf s)) (workUp (hasOf s)) workDn (.worker a ret qs none : Peer F) = procsValue (qs.set n q') - procsValue qs := by
    simp only [value, workLoc, Peer.puts, Peer.gots]
    omega
  have e3 : (Peer.worker a ret (qs.set n q') none : Peer F).gots = (Peer.worker a ret qs none : Peer F).gots := rfl
  have e5 := procsValue_set (q' := q') hq
  rw [e3] at h3
  rw [e2] at h4
  rw [e1] at h1
  rcases proc_value ho hid hq' with g | g
  · subst g
    left
    obtain ⟨hlt, e⟩ := List.getElem?_eq_some_iff.1 hq
    have : qs.set n q' = qs := by rw [← e]; exact List.set_getElem_self hlt
    rw [this]
    exact setPeer_self hc
  · exact .inr (.inr ⟨by omega, .inr ⟨by omega, .inr ⟨by omega, by omega⟩⟩⟩)

/-! ### Steps of the scheduler -/

theorem workUp_mono {has has' : Bytes → Bool} (hh : ∀ f, has f = true → has' f = true) (m : Message) : workUp has' m ≤ workUp has m := by
  cases m with
  | task k =>
    simp only [workUp]
    cases h1 : has k.functionId with
    | false => split <;> simp
    | true => rw [hh _ h1]; simp
  | _ => exact Nat.le_refl _

theorem staleDn_mono {has has' : Bytes → Bool} (hh : ∀ f, has f = true → has' f = true) (m : Message) : staleDn has' m ≤ staleDn has m := by
  have key : ∀ f, (if has' f then 0 else 1) ≤ if has f then 0 else 1 := by
    intro f
    cases h1 : has f with
    | false => split <;> simp
    | true => rw [hh _ h1]; simp
  cases m with
  | functionResponse st f nm b => cases st <;> first | exact key f | exact Nat.le_refl _
  | _ => exact Nat.le_refl _

theorem workLoc_mono {has has' : Bytes → Bool} (hh : ∀ f, has f = true → has' f = true) (P : Peer F) : workLoc has' P ≤ workLoc has P := by
  cases P with
  | absent => exact Int.le_refl _
  | worker => exact Int.le_refl _
  | client c =>
    have := weigh_le_weigh c.outbox fun m => Nat.add_le_add_right (workUp_mono hh m) 1
    simp only [workLoc, clientWork]
    omega

/-- A message arrives and functions only appear. -/
theorem recv_sizes (h : Inv p rt cfg s) (h' : Inv p rt cfg s') (hn : xs.Nodup) {x : Bytes} (hx : x ∈ xs) {m : Message} (hp : s'.peers = s.peers) {l' : Log}
    (ho : s'.sched.out = s.sched.out ++ l') (hr : s'.received = s.received ++ [(x, m)]) (hh : ∀ f, hasOf s f = true → hasOf s' f = true) :
    staleSize xs s' ≤ staleSize xs s + (weigh (fun y => staleDn (hasOf s') y.2) l' : Nat) ∧
    workSize xs s' ≤ workSize xs s + (weigh (fun y => workDn y.2) l' : Nat) - (workUp (hasOf s) m : Nat) +
      16 * ((lineSize s'.sched.abs : Int) - (lineSize s.sched.abs : Int)) := by
  constructor
  · have h1 := flow_recv (loc := fun _ => 0) (up := fun _ => 0) (dn := staleDn (hasOf s')) hn hx hp ho hr
    have h2 := flow_mono (xs := xs) (loc := fun _ => 0) (up := fun _ => 0) (dn := staleDn (hasOf s)) h (loc' := fun _ => 0) (up' := fun _ => 0)
      (dn' := staleDn (hasOf s')) (fun _ => Int.le_refl _) (fun _ => Nat.le_refl _) (staleDn_mono hh)
    unfold staleSize
    omega
  · have h1 := flow_recv (loc := workLoc (hasOf s)) (up := workUp (hasOf s)) (dn := workDn) hn hx hp ho hr
    have h2 := flow_mono (xs := xs) (loc := workLoc (hasOf s)) (up := workUp (hasOf s)) (dn := workDn) h' (loc' := workLoc (hasOf s'))
      (up' := workUp (hasOf s')) (dn' := workDn) (workLoc_mono hh) (workUp_mono hh) (fun _ => Nat.le_refl _)
    unfold workSize
    omega

theorem emitted_rare {sc sc' : Sched.Sched} {e : Sched.Event} (he : e.op ≠ .workerRoutine) (hs : sc.step e = .ok sc') :
    ∃ l, sc'.out = sc.out ++ l ∧ weigh (fun y => rareDn y.2) l = 0 := by
  obtain ⟨l, e1, hl⟩ := Py.Post.ok (step_emits sc e) hs
  refine ⟨l, e1, weigh_eq_zero fun y hy => ?_⟩
  obtain ⟨x, m⟩ := y
  have := hl _ hy
  cases m with
  | balanceRequest n => exact absurd this he
  | _ => rfl

theorem hasOf_abs {a b : Sys F} (h : b.sched.abs.funcs = a.sched.abs.funcs) : hasOf b = hasOf a := by
  funext f
  have h1 : ∀ s : Sys F, hasOf s f = (s.sched.abs.funcs f).isSome := fun _ => rfl
  rw [h1, h1, h]

theorem recv_down (h : Inv p rt cfg s) (h' : Inv p rt cfg s') (hn : xs.Nodup) {x : Bytes} (hx : x ∈ xs) {m : Message} {now : Int} {o : Order}
    (ha : Allowed s.received s.sched.out (x, m)) (hs : s.sched.step ⟨.recv x m, now, o⟩ = .ok s'.sched) (hp : s'.peers = s.peers)
    (hr : s'.received = s.received ++ [(x, m)]) (hu : s'.used = s.used) : Down xs s s' := by
  have hg := h.sched.good
  have hA := (step_post hg ⟨.recv x m, now, o⟩ (fun m' hm => by rw [List.mem_singleton.1 hm]; exact ha)).ok hs
  obtain ⟨l', ho, hl'⟩ := emitted_rare (by simp) hs
  have hlife : lifeSize s' ≤ lifeSize s := by
    have := hA.steps.gain_le
    unfold lifeSize
    rw [hu]
    omega
  have hrare := flow_recv (loc := rareLoc) (up := rareUp) (dn := rareDn) hn hx hp ho hr
  have hq : (∀ g, m ≠ .graphTask g) → s'.sched.gm.queue.length ≤ s.sched.gm.queue.length := fun hm =>
    hA.steps.queue_le fun y g e => by
      have e : some (x, m) = some (y, Message.graphTask g) := e
      cases e
      exact hm g rfl
  have hR : (∀ g, m ≠ .graphTask g) → rareSize xs s' ≤ rareSize xs s - (rareUp m : Nat) := by
    intro hm
    have := hq hm
    unfold rareSize
    omega
  have same : s'.sched = s.sched → 1 ≤ workUp (hasOf s) m → (∀ g, m ≠ .graphTask g) → Down xs s s' := by
    intro e hw hm
    have hR := hR hm
    obtain ⟨h1, h2⟩ := recv_sizes h h' hn hx hp (l' := []) (by rw [e, List.append_nil]) hr (fun f hf => by unfold hasOf; rw [e]; exact hf)
    have e2 : lineSize s'.sched.abs = lineSize s.sched.abs := by rw [e]
    rw [weigh_nil] at h1 h2
    exact .inr ⟨by omega, .inr ⟨hlife, .inr ⟨by omega, by omega⟩⟩⟩
  cases m with
  | graphTask g =>
    have e : s'.sched.gm.queue.length = s.sched.gm.queue.length + 1 := by
      have hs : s.sched.onGraphTask x g = s'.sched := Except.ok.inj hs
      rw [← hs]
      simp [Sched.onGraphTask]
    refine .inl ?_
    unfold rareSize
    simp only [rareUp] at hrare
    omega
  | graphTaskCancel t => refine .inl ?_; have := hR (by simp); simp only [rareUp] at this; omega
  | taskCancel t => refine .inl ?_; have := hR (by simp); simp only [rareUp] at this; omega
  | heartbeat b => refine .inl ?_; have := hR (by simp); simp only [rareUp] at this; omega
  | balanceResponse ids => refine .inl ?_; have := hR (by simp); simp only [rareUp] at this; omega
  | disconnectRequest w => refine .inl ?_; have := hR (by simp); simp only [rareUp] at this; omega
  | functionRequest ty f nm b =>
    have hR0 := hR (by simp)
    have key : ∀ st nm' b', s'.sched.out = s.sched.out ++ [(x, .functionResponse st f nm' b')] → (∀ g, hasOf s g = true → hasOf s' g = true) →
        lineSize s'.sched.abs = lineSize s.sched.abs → (st = .ok ∨ st = .duplicated → hasOf s' f = true) → Down xs s s' := by
      intro st nm' b' e1 e2 e3 e4
      obtain ⟨h1, h2⟩ := recv_sizes h h' hn hx hp e1 hr e2
      have h3 : staleDn (hasOf s') (.functionResponse st f nm' b') = 0 := by
        cases st <;> simp only [staleDn] <;> first | rfl | (rw [e4 (by simp)]; rfl)
      simp only [weigh_cons, weigh_nil, h3, workDn, workUp] at h1 h2
      exact .inr ⟨by omega, .inr ⟨hlife, .inr ⟨by omega, by omega⟩⟩⟩
    cases ty with
    | delete => refine .inl ?_; simp only [rareUp] at hR0; omega
    | check =>
      have e : s.sched.functionCheck x f = s'.sched := Except.ok.inj hs
      unfold Sched.functionCheck at e
      split at e
      · next hf =>
        refine key .ok [] [] (by rw [← e]; rfl) (fun g hg => by unfold hasOf; rw [← e]; exact hg) (by rw [← e]; rfl) fun _ => ?_
        unfold hasOf; rw [← e]; exact hf
      · exact key .notExists [] [] (by rw [← e]; rfl) (fun g hg => by unfold hasOf; rw [← e]; exact hg) (by rw [← e]; rfl) (by simp)
    | add =>
      have e : s.sched.functionAdd x f nm b now = s'.sched := Except.ok.inj hs
      have hset : ∀ (d : Dict Bytes FuncInfo) (i : FuncInfo) g, d.has g = true ∨ g = f → (d.set f i).has g = true := by
        intro d i g hg
        simp only [Dict.has, Dict.get?_set]
        split
        · rfl
        · rename_i hne
          rcases hg with hg | hg
          · exact hg
          · exact absurd hg.symm hne
      unfold Sched.functionAdd at e
      split at e
      · refine key .duplicated [] [] (by rw [← e]; rfl) (fun g hg => by unfold hasOf; rw [← e]; exact hset _ _ _ (.inl hg)) (by rw [← e]; rfl) fun _ => ?_
        unfold hasOf; rw [← e]; exact hset _ _ _ (.inr rfl)
      · refine key .ok [] [] (by rw [← e]; rfl) (fun g hg => by unfold hasOf; rw [← e]; exact hset _ _ _ (.inl hg)) (by rw [← e]; rfl) fun _ => ?_
        unfold hasOf; rw [← e]; exact hset _ _ _ (.inr rfl)
    | request =>
      have e : s.sched.functionRequest x f = s'.sched := Except.ok.inj hs
      unfold Sched.functionRequest at e
      split at e
      · exact key .notExists [] [] (by rw [← e]; rfl) (fun g hg => by unfold hasOf; rw [← e]; exact hg) (by rw [← e]; rfl) (by simp)
      · next i hi =>
        refine key .ok i.name i.content (by rw [← e]; rfl) (fun g hg => by unfold hasOf; rw [← e]; exact hg) (by rw [← e]; rfl) fun _ => ?_
        unfold hasOf; rw [← e]
        show (s.sched.fm.funcs.get? f).isSome = true
        rw [hi]; rfl
  | task k =>
    have hR0 := hR (by simp)
    have hf := Good.fresh_task hg ha
    have hi : Sched.Inv (Sched.Event.hist ⟨.recv x (.task k), now, o⟩ s.received) s.sched.abs := hg.inv.mono (Sched.Event.hist_mem _ _)
    have htn := hi.unused_tasks hf.1
    obtain ⟨s1, e, _, _, hcase⟩ := Sched.onTaskNew_spec (now := now) hg.conc (client := x) (k := k) htn hf.1.2.1 (Or.inl hf.1.1) (by
      intro hm
      have := (hi.place _).2 (Or.inl hm)
      rw [htn] at this; cases this)
    have hs : s.sched.onTaskNew x k now = .ok s'.sched := hs
    rw [hs] at e; cases e
    rcases hcase with ⟨hfn, e⟩ | ⟨i, hfn, _, e⟩ | ⟨i, hfn, _, e⟩
    · have hh : hasOf s' = hasOf s := hasOf_abs (by rw [e])
      obtain ⟨h1, h2⟩ := recv_sizes h h' hn hx hp (congrArg Abs.out e) hr (fun f hf => by rw [hh]; exact hf)
      have e3 : lineSize s'.sched.abs = lineSize s.sched.abs := by rw [e]; rfl
      have e4 : hasOf s k.functionId = false := by show (s.sched.fm.funcs.get? k.functionId).isSome = false; rw [hfn]; rfl
      simp only [weigh_cons, weigh_nil, staleDn, workDn, workUp, e4] at h1 h2
      exact .inr ⟨by omega, .inr ⟨hlife, .inr ⟨by omega, by simp only [Bool.false_eq_true, if_false] at h2; omega⟩⟩⟩
    · have hh : hasOf s' = hasOf s := hasOf_abs (by rw [e])
      obtain ⟨h1, h2⟩ := recv_sizes h h' hn hx hp (congrArg Abs.out e) hr (fun f hf => by rw [hh]; exact hf)
      have e3 : lineSize s'.sched.abs = lineSize s.sched.abs := by rw [e]; rfl
      have e4 : hasOf s k.functionId = true := by show (s.sched.fm.funcs.get? k.functionId).isSome = true; rw [hfn]; rfl
      simp only [weigh_cons, weigh_nil, staleDn, workDn, workUp, e4] at h1 h2
      exact .inr ⟨by omega, .inr ⟨hlife, .inr ⟨by omega, by simp only [if_true] at h2; omega⟩⟩⟩
    · refine .inr ⟨by omega, .inl ?_⟩
      have : s'.sched.abs.gain = s.sched.abs.gain + 1 := by
        rw [e]
        show 2 * (allAcks (s.sched.abs.out ++ [(x, .taskEcho k.taskId .submitOK)]) : Int) - (s.sched.abs.held + 1) = _
        rw [allAcks_append, show allAcks [(x, .taskEcho k.taskId .submitOK)] = 1 from rfl]
        unfold Abs.gain
        omega
      unfold lifeSize
      rw [hu]
      omega
  | taskResult t st d r =>
    have hR0 := hR (by simp)
    cases hw : s.sched.abs.worker t with
    | none =>
      have hi : Sched.Inv (Sched.Event.hist ⟨.recv x (.taskResult t st d r), now, o⟩ s.received) s.sched.abs := hg.inv.mono (Sched.Event.hist_mem _ _)
      exact same (((Sched.onTaskResult_spec hg.conc hi hg.settled o now (w0 := x) (r := ⟨t, st, d, r⟩)
        (List.mem_append_right _ (List.mem_singleton.2 rfl))).ok hs).2.1 hw) (by simp [workUp]) (by simp)
    | some w =>
      have := result_gain hg ha hs hw
      refine .inr ⟨by omega, .inl ?_⟩
      unfold lifeSize
      rw [hu]
      omega
  | _ => exact same (Except.ok.inj hs).symm (by simp [workUp]) (by simp)

theorem flow_own (hn : xs.Nodup) {loc : Peer F → Int} {up dn : Message → Nat} (hp : s'.peers = s.peers) {l' : Log} (ho : s'.sched.out = s.sched.out ++ l')
    (hr : s'.received = s.received) : flow loc up dn xs s' ≤ flow loc up dn xs s + (weigh (fun y => dn y.2) l' : Nat) := by
  have h1 := flow_sched (loc := loc) (up := up) (dn := dn) hn hp ho (inp := []) (by rw [hr, List.append_nil])
  have h2 : 0 ≤ total (fun x => ((weigh up (withPeer x []) : Nat) : Int)) xs := total_nonneg fun _ _ => by omega
  omega

theorem graphRoutine_down (hn : xs.Nodup) {now : Int} {o : Order} (hs : s.sched.step ⟨.graphRoutine, now, o⟩ = .ok s'.sched)
    (hp : s'.peers = s.peers) (hr : s'.received = s.received) : s'.sched = s.sched ∨ Down xs s s' := by
  cases hq : s.sched.gm.queue with
  | nil =>
    left
    have hs : s.sched.graphRoutine o now = .ok s'.sched := hs
    unfold Sched.graphRoutine at hs
    rw [hq] at hs
    exact (Except.ok.inj hs).symm
  | cons y rest =>
    obtain ⟨c, gt⟩ := y
    have e1 := graphRoutine_line hq hs
    obtain ⟨l', ho, hl'⟩ := emitted_rare (by simp) hs
    have := flow_own (loc := rareLoc) (up := rareUp) (dn := rareDn) hn hp ho hr
    refine .inr (.inl ?_)
    unfold rareSize
    rw [e1, hq]
    simp only [List.length_cons]
    omega

theorem taskRoutine_down (h : Inv p rt cfg s) (hn : xs.Nodup) {now : Int} {o : Order} (hs : s.sched.step ⟨.taskRoutine, now, o⟩ = .ok s'.sched)
    (hp : s'.peers = s.peers) (hr : s'.received = s.received) (hu : s'.used = s.used) : s'.sched.out = s.sched.out ∧ Level xs s s' ∨ Down xs s s' := by
  have hg := h.sched.good
  obtain ⟨s1, e, hA, hcase⟩ := Sched.taskRoutine_ok hg.conc hg.inv hg.settled
  have hs : s.sched.taskRoutine = .ok s'.sched := hs
  rw [hs] at e; cases e
  have hlife : lifeSize s' ≤ lifeSize s := by
    have := hA.steps.gain_le
    unfold lifeSize
    rw [hu]
    omega
  have hq := hA.steps.queue_le fun x g e => by cases e
  have hq : s'.sched.gm.queue.length ≤ s.sched.gm.queue.length := hq
  have key : ∀ l', s'.sched.out = s.sched.out ++ l' → s'.sched.abs.funcs = s.sched.abs.funcs → weigh (fun y => rareDn y.2) l' = 0 →
      weigh (fun y => staleDn (hasOf s) y.2) l' = 0 → rareSize xs s' ≤ rareSize xs s ∧ staleSize xs s' ≤ staleSize xs s ∧
      workSize xs s' ≤ workSize xs s + (weigh (fun y => workDn y.2) l' : Nat) + 16 * ((lineSize s'.sched.abs : Int) - (lineSize s.sched.abs : Int)) := by
    intro l' ho hf h1 h2
    have hh : hasOf s' = hasOf s := hasOf_abs hf
    have g1 := flow_own (loc := rareLoc) (up := rareUp) (dn := rareDn) hn hp ho hr
    have g2 := flow_own (loc := fun _ => 0) (up := fun _ => 0) (dn := staleDn (hasOf s)) hn hp ho hr
    have g3 := flow_own (loc := workLoc (hasOf s)) (up := workUp (hasOf s)) (dn := workDn) hn hp ho hr
    refine ⟨?_, ?_, ?_⟩
    · unfold rareSize; omega
    · unfold staleSize; rw [hh]; omega
    · unfold workSize; rw [hh]; omega
  rcases hcase with ⟨_, _, e⟩ | ⟨k, rest, hnext, hpl⟩
  · left
    obtain ⟨k1, k2, k3⟩ := key [] (by rw [e, List.append_nil]) (by rw [e]) rfl rfl
    rw [weigh_nil] at k3
    rw [e] at k3
    exact ⟨by rw [e], k1, hlife, k2, by omega⟩
  · have hline : lineSize s.sched.abs = rest.length + 1 := by
      unfold lineSize
      rcases hnext with ⟨e1, e2⟩ | ⟨e1, e2, _⟩ <;> rw [e1, e2] <;> simp
    cases hpl with
    | nobody hw hb =>
      left
      obtain ⟨k1, k2, k3⟩ := key [] (by rw [List.append_nil]; exact congrArg Abs.out hb) (by rw [hb]) rfl rfl
      have : lineSize s'.sched.abs = rest.length + 1 := by rw [hb]; simp [lineSize]
      rw [weigh_nil] at k3
      exact ⟨congrArg Abs.out hb, k1, hlife, k2, by omega⟩
    | full hw hf hsame hb =>
      left
      obtain ⟨k1, k2, k3⟩ := key [] (by rw [List.append_nil]; exact congrArg Abs.out hb) (by rw [hb]) rfl rfl
      have : lineSize s'.sched.abs = rest.length + 1 := by rw [hb]; simp [lineSize]
      rw [weigh_nil] at k3
      exact ⟨congrArg Abs.out hb, k1, hlife, k2, by omega⟩
    | sent w q hpr hne hl hb =>
      right
      obtain ⟨k1, k2, k3⟩ := key [(w, .task k)] (congrArg Abs.out hb) (by rw [hb]) rfl rfl
      have : lineSize s'.sched.abs = rest.length := by rw [hb]; simp [lineSize]
      simp only [weigh_cons, weigh_nil, workDn] at k3
      exact .inr ⟨k1, .inr ⟨hlife, .inr ⟨k2, by omega⟩⟩⟩

/-! ### All steps -/

/-- Everybody who is there is in the list. -/
def Listed (xs : List Bytes) (s : Sys F) : Prop := xs.Nodup ∧ ∀ x, s.peers x ≠ .absent → x ∈ xs

theorem step_down (hr : Reach p rt cfg s) (hl : Listed xs s) {o : Op} (ho : inner o = true) (hs : s.step p rt o = some s') :
    Idle s o s' ∧ Level xs s s' ∨ Down xs s s' := by
  have h := hr.inv
  have h' := (Reach.step o hr hs).inv
  obtain ⟨hn, hx⟩ := hl
  have key : s' = s ∨ Down xs s s' → Idle s o s' ∧ Level xs s s' ∨ Down xs s s' := by
    rintro (e | e)
    · subst e
      exact .inl ⟨.inl rfl, .refl _ _⟩
    · exact .inr e
  cases o with
  | joinClient => cases ho
  | joinWorker => cases ho
  | get => cases ho
  | leave => cases ho
  | client x o =>
    simp only [Sys.step] at hs
    split at hs
    case h_2 => cases hs
    next c hc =>
    have hm := hx x (by rw [hc]; simp)
    refine key ?_
    unfold Sys.clientOp at hs
    split at hs
    · cases ho
    · cases ho
    · split at hs
      · split at hs
        · cases hs
        · split at hs
          · exact clientStep_down h hn hm hc rfl hs
          · cases hs
      · cases hs
    · cases o with
      | advance => exact clientStep_down h hn hm hc rfl hs
      | flush => exact clientStep_down h hn hm hc rfl hs
      | recv m => exact clientStep_down h hn hm hc rfl hs
      | _ => cases ho
  | agent x e =>
    simp only [Sys.step] at hs
    split at hs
    case h_2 => cases hs
    next a ret qs hc =>
    have hm := hx x (by rw [hc]; simp)
    refine key ?_
    obtain ⟨op, now⟩ := e
    unfold Sys.agentOp at hs
    cases op with
    | recv m =>
      simp only at hs
      split at hs
      · split at hs
        · cases hs
        · split at hs
          · exact agentStep_down h hn hm hc rfl hs
          · cases hs
      · cases hs
    | heard m =>
      simp only at hs
      split at hs
      · split at hs
        · cases hs
        · exact agentStep_down h hn hm hc rfl hs
      · cases hs
    | turn => exact agentStep_down h hn hm hc rfl hs
    | _ => cases ho
  | proc x n e =>
    simp only [Sys.step] at hs
    split at hs
    case h_2 => cases hs
    next a ret qs hc =>
    have hm := hx x (by rw [hc]; simp)
    refine key ?_
    obtain ⟨op, now⟩ := e
    unfold Sys.procOp at hs
    split at hs
    case isFalse => cases hs
    split at hs
    · cases hs
    next q hq =>
    cases op with
    | recv m =>
      simp only at hs
      split at hs
      · split at hs
        · cases hs
        · exact procStep_down h hn hm hc hq rfl hs
      · cases hs
    | work c d => exact procStep_down h hn hm hc hq rfl hs
    | _ => cases ho
  | sched e =>
    obtain ⟨op, now, o⟩ := e
    simp only [Sys.step, Sys.schedStep] at hs
    cases op with
    | recv x m =>
      simp only at hs
      split at hs
      case isFalse => cases hs
      next hlt =>
      split at hs
      · cases hs
      next x' m' hc =>
      cases carryIn_eq hc
      split at hs
      case h_2 => cases hs
      next t ht =>
      cases hs
      refine .inr (recv_down h h' hn (hx x fun e => ?_) (h.allowed hlt) ht rfl rfl rfl)
      rw [e] at hlt
      exact absurd hlt (Nat.not_lt_zero _)
    | taskRoutine =>
      simp only at hs
      split at hs
      case h_2 => cases hs
      next t ht =>
      cases hs
      rcases taskRoutine_down (s' := { s with sched := t }) h hn ht rfl rfl rfl with ⟨e, hl⟩ | hd
      · exact .inl ⟨.inr ⟨_, rfl, rfl, e, rfl, rfl⟩, hl⟩
      · exact .inr hd
    | graphRoutine =>
      simp only at hs
      split at hs
      case h_2 => cases hs
      next t ht =>
      cases hs
      refine key ?_
      rcases graphRoutine_down (s' := { s with sched := t }) hn ht rfl rfl with e | hd
      · left
        have e : t = s.sched := e
        rw [e]
      · exact .inr hd
    | _ => cases ho

/-- Inner events bring nobody. -/
theorem step_listed (hl : Listed xs s) {o : Op} (ho : inner o = true) (hs : s.step p rt o = some s') : Listed xs s' := by
  have key : ∀ {x : Bytes} {P : Peer F}, s.peers x ≠ .absent → s' = s.setPeer x P → Listed xs s' := by
    intro x P hx e
    refine ⟨hl.1, fun y hy => hl.2 y ?_⟩
    rw [e] at hy
    simp only [Sys.setPeer] at hy
    split at hy
    · next e' => rw [e']; exact hx
    · exact hy
  have hcs : ∀ {x c o}, s.peers x = .client c → s.clientStep p x c o = some s' → Listed xs s' := by
    intro x c o hc hs
    unfold Sys.clientStep at hs
    split at hs <;> cases hs
    exact key (by rw [hc]; simp) rfl
  have has : ∀ {x a ret qs e}, s.peers x = .worker a ret qs none → s.agentStep x a ret qs e = some s' → Listed xs s' := by
    intro x a ret qs e hc hs
    unfold Sys.agentStep at hs
    split at hs <;> cases hs
    exact key (by rw [hc]; simp) rfl
  have hps : ∀ {x a ret qs n q e}, s.peers x = .worker a ret qs none → s.procStep rt x a ret qs n q e = some s' → Listed xs s' := by
    intro x a ret qs n q e hc hs
    unfold Sys.procStep at hs
    split at hs <;> cases hs
    exact key (by rw [hc]; simp) rfl
  cases o with
  | joinClient => cases ho
  | joinWorker => cases ho
  | get => cases ho
  | leave => cases ho
  | client x o =>
    simp only [Sys.step] at hs
    split at hs
    case h_2 => cases hs
    next c hc =>
    unfold Sys.clientOp at hs
    split at hs
    · cases ho
    · cases ho
    · split at hs
      · split at hs
        · cases hs
        · split at hs
          · exact hcs hc hs
          · cases hs
      · cases hs
    · exact hcs hc hs
  | agent x e =>
    simp only [Sys.step] at hs
    split at hs
    case h_2 => cases hs
    next a ret qs hc =>
    unfold Sys.agentOp at hs
    split at hs
    · split at hs
      · split at hs
        · cases hs
        · split at hs
          · exact has hc hs
          · cases hs
      · cases hs
    · split at hs
      · split at hs
        · cases hs
        · exact has hc hs
      · cases hs
    · exact has hc hs
  | proc x n e =>
    simp only [Sys.step] at hs
    split at hs
    case h_2 => cases hs
    next a ret qs hc =>
    unfold Sys.procOp at hs
    split at hs
    case isFalse => cases hs
    split at hs
    · cases hs
    split at hs
    · split at hs
      · split at hs
        · cases hs
        · exact hps hc hs
      · cases hs
    · exact hps hc hs
  | sched e =>
    have : s'.peers = s.peers := by
      simp only [Sys.step, Sys.schedStep] at hs
      split at hs
      · split at hs
        · split at hs
          · cases hs
          · split at hs <;> cases hs
            rfl
        · cases hs
      · split at hs <;> cases hs
        rfl
    exact ⟨hl.1, fun x hx => hl.2 x (by rw [← this]; exact hx)⟩

/-- An event changes at most one peer. -/
theorem step_peers {o : Op} (hs : s.step p rt o = some s') : s'.peers = s.peers ∨ ∃ x P, s'.peers = (s.setPeer x P).peers := by
  have hcs : ∀ {s₀ : Sys F} {x c o}, s₀.peers = s.peers → s₀.clientStep p x c o = some s' → ∃ x P, s'.peers = (s.setPeer x P).peers := by
    intro s₀ x c o he hs
    unfold Sys.clientStep at hs
    split at hs <;> cases hs
    exact ⟨x, _, by simp only [Sys.setPeer, he]; rfl⟩
  have has : ∀ {x a ret qs e}, s.agentStep x a ret qs e = some s' → ∃ x P, s'.peers = (s.setPeer x P).peers := by
    intro x a ret qs e hs
    unfold Sys.agentStep at hs
    split at hs <;> cases hs
    exact ⟨x, _, rfl⟩
  have hps : ∀ {x a ret qs n q e}, s.procStep rt x a ret qs n q e = some s' → ∃ x P, s'.peers = (s.setPeer x P).peers := by
    intro x a ret qs n q e hs
    unfold Sys.procStep at hs
    split at hs <;> cases hs
    exact ⟨x, _, rfl⟩
  cases o with
  | joinClient x =>
    simp only [Sys.step] at hs
    split at hs <;> cases hs
    exact .inr ⟨x, _, rfl⟩
  | joinWorker x d ret now =>
    simp only [Sys.step] at hs
    split at hs <;> cases hs
    exact .inr ⟨x, _, rfl⟩
  | leave x =>
    simp only [Sys.step] at hs
    split at hs <;> cases hs
    exact .inr ⟨x, _, rfl⟩
  | get x ids gid g keys =>
    simp only [Sys.step] at hs
    split at hs
    · unfold Sys.getOp at hs
      split at hs
      · split at hs <;> cases hs
        exact .inr ⟨x, _, rfl⟩
      · cases hs
    · cases hs
  | client x o =>
    simp only [Sys.step] at hs
    split at hs
    case h_2 => cases hs
    next c hc =>
    right
    unfold Sys.clientOp at hs
    split at hs
    · split at hs
      · cases hs
      · exact hcs (s₀ := { s with used := _ :: s.used }) rfl hs
    · cases hs
    · split at hs
      · split at hs
        · cases hs
        · split at hs
          · exact hcs rfl hs
          · cases hs
      · cases hs
    · exact hcs rfl hs
  | agent x e =>
    simp only [Sys.step] at hs
    split at hs
    case h_2 => cases hs
    right
    unfold Sys.agentOp at hs
    split at hs
    · split at hs
      · split at hs
        · cases hs
        · split at hs
          · exact has hs
          · cases hs
      · cases hs
    · split at hs
      · split at hs
        · cases hs
        · exact has hs
      · cases hs
    · exact has hs
  | proc x n e =>
    simp only [Sys.step] at hs
    split at hs
    case h_2 => cases hs
    right
    unfold Sys.procOp at hs
    split at hs
    case isFalse => cases hs
    split at hs
    · cases hs
    split at hs
    · split at hs
      · split at hs
        · cases hs
        · exact hps hs
      · cases hs
    · exact hps hs
  | sched e =>
    left
    simp only [Sys.step, Sys.schedStep] at hs
    split at hs
    · split at hs
      · split at hs
        · cases hs
        · split at hs <;> cases hs
          rfl
      · cases hs
    · split at hs <;> cases hs
      rfl

/-- Only finitely many peers are there. -/
theorem Reach.listed (hr : Reach p rt cfg s) : ∃ xs, Listed xs s := by
  have key : ∀ {s s' : Sys F} {x : Bytes} {P : Peer F}, s'.peers = (s.setPeer x P).peers → (∃ xs, Listed xs s) → ∃ xs, Listed xs s' := by
    rintro s s' x P e ⟨xs, hn, hx⟩
    by_cases hm : x ∈ xs
    · refine ⟨xs, hn, fun y hy => ?_⟩
      rw [e] at hy
      simp only [Sys.setPeer] at hy
      split at hy
      · next e' => rw [e']; exact hm
      · exact hx y hy
    · refine ⟨x :: xs, List.nodup_cons.2 ⟨hm, hn⟩, fun y hy => ?_⟩
      rw [e] at hy
      simp only [Sys.setPeer] at hy
      split at hy
      · next e' => rw [e']; exact List.mem_cons_self
      · exact List.mem_cons_of_mem _ (hx y hy)
  induction hr with
  | init => exact ⟨[], List.nodup_nil, fun x hx => absurd rfl hx⟩
  | @step s s' o hr hs ih =>
    rcases step_peers hs with e | ⟨x, P, e⟩
    · obtain ⟨xs, hn, hx⟩ := ih
      exact ⟨xs, hn, fun y hy => hx y (by rw [← e]; exact hy)⟩
    · exact key e ih

/-! ### Well-foundedness -/

/-- Sizes as natural numbers. -/
def size4 (xs : List Bytes) (s : Sys F) : Nat × Nat × Nat × Nat :=
  ((rareSize xs s).toNat, (lifeSize s).toNat, (staleSize xs s).toNat, (workSize xs s).toNat)

/-- The order of sizes. -/
def Less : Nat × Nat × Nat × Nat → Nat × Nat × Nat × Nat → Prop :=
  Prod.Lex (· < ·) (Prod.Lex (· < ·) (Prod.Lex (· < ·) (· < ·)))

theorem less_wf : WellFounded Less :=
  (Prod.lex ⟨_, Nat.lt_wfRel.wf⟩ (Prod.lex ⟨_, Nat.lt_wfRel.wf⟩ (Prod.lex ⟨_, Nat.lt_wfRel.wf⟩ ⟨_, Nat.lt_wfRel.wf⟩))).wf

theorem lex_of {α : Type} {r : α → α → Prop} {a a' : Nat} {b b' : α} (h : a' < a ∨ a' ≤ a ∧ r b' b) : Prod.Lex (· < ·) r (a', b') (a, b) := by
  rcases h with h | ⟨h, h'⟩
  · exact .left _ _ h
  · rcases Nat.lt_or_eq_of_le h with h | h
    · exact .left _ _ h
    · subst h; exact .right _ h'

theorem less_trans {a b c : Nat × Nat × Nat × Nat} (h1 : Less a b) (h2 : Less b c) : Less a c := by
  have tr : ∀ {α : Type} {r : α → α → Prop}, (∀ {x y z : α}, r x y → r y z → r x z) → ∀ {x y z : Nat × α}, Prod.Lex (· < ·) r x y →
      Prod.Lex (· < ·) r y z → Prod.Lex (· < ·) r x z := by
    intro α r hr x y z h1 h2
    cases h1 with
    | left _ _ h1 =>
      cases h2 with
      | left _ _ h2 => exact .left _ _ (Nat.lt_trans h1 h2)
      | right _ h2 => exact .left _ _ h1
    | right _ h1 =>
      cases h2 with
      | left _ _ h2 => exact .left _ _ h2
      | right _ h2 => exact .right _ (hr h1 h2)
  have t1 : ∀ {x y z : Nat × Nat}, Prod.Lex (· < ·) (· < ·) x y → Prod.Lex (· < ·) (· < ·) y z → Prod.Lex (· < ·) (· < ·) x z :=
    fun {x y z} => tr (r := (· < ·)) (fun {_ _ _} h h' => Nat.lt_trans h h') (x := x) (y := y) (z := z)
  have t2 : ∀ {x y z : Nat × Nat × Nat}, Prod.Lex (· < ·) (Prod.Lex (· < ·) (· < ·)) x y → Prod.Lex (· < ·) (Prod.Lex (· < ·) (· < ·)) y z →
      Prod.Lex (· < ·) (Prod.Lex (· < ·) (· < ·)) x z := fun {x y z} => tr (r := Prod.Lex (· < ·) (· < ·)) t1 (x := x) (y := y) (z := z)
  exact tr (r := Prod.Lex (· < ·) (Prod.Lex (· < ·) (· < ·))) t2 h1 h2

theorem Down.less (h' : Inv p rt cfg s') (hd : Down xs s s') : Less (size4 xs s') (size4 xs s) := by
  have h1 := rareSize_nonneg (xs := xs) h'
  have h2 := lifeSize_nonneg h'
  have h3 := staleSize_nonneg (xs := xs) h'
  have h4 := workSize_nonneg (xs := xs) h'
  refine lex_of ?_
  rcases hd with hd | ⟨hd1, hd⟩
  · exact .inl (by omega)
  refine .inr ⟨by omega, lex_of ?_⟩
  rcases hd with hd | ⟨hd2, hd⟩
  · exact .inl (by omega)
  refine .inr ⟨by omega, lex_of ?_⟩
  rcases hd with hd | ⟨hd3, hd⟩
  · exact .inl (by omega)
  exact .inr ⟨by omega, by omega⟩

theorem Level.less (hl : Level xs s s') : size4 xs s' = size4 xs s ∨ Less (size4 xs s') (size4 xs s) := by
  obtain ⟨h1, h2, h3, h4⟩ := hl
  have key : ∀ {a a' b b' c c' d d' : Nat}, a' ≤ a → b' ≤ b → c' ≤ c → d' ≤ d → (a', b', c', d') = (a, b, c, d) ∨ Less (a', b', c', d') (a, b, c, d) := by
    intro a a' b b' c c' d d' ha hb hc hd
    rcases Nat.lt_or_eq_of_le ha with h | rfl
    · exact .inr (lex_of (.inl h))
    rcases Nat.lt_or_eq_of_le hb with h | rfl
    · exact .inr (lex_of (.inr ⟨Nat.le_refl _, lex_of (.inl h)⟩))
    rcases Nat.lt_or_eq_of_le hc with h | rfl
    · exact .inr (lex_of (.inr ⟨Nat.le_refl _, lex_of (.inr ⟨Nat.le_refl _, lex_of (.inl h)⟩)⟩))
    rcases Nat.lt_or_eq_of_le hd with h | rfl
    · exact .inr (lex_of (.inr ⟨Nat.le_refl _, lex_of (.inr ⟨Nat.le_refl _, lex_of (.inr ⟨Nat.le_refl _, h⟩)⟩)⟩))
    exact .inl rfl
  exact key (by omega) (by omega) (by omega) (by omega)

/-- A run of inner events. -/
structure Run (p : Pickle) (rt : Proc.Runtime F V X) (cfg : Config) (xs : List Bytes) (run : Nat → Sys F) (ops : Nat → Op) : Prop where
  start : Reach p rt cfg (run 0)
  listed : Listed xs (run 0)
  inner : ∀ i, Spec.inner (ops i) = true
  step : ∀ i, (run i).step p rt (ops i) = some (run (i + 1))

theorem Run.at {run : Nat → Sys F} {ops : Nat → Op} (h : Run p rt cfg xs run ops) : ∀ i, Reach p rt cfg (run i) ∧ Listed xs (run i)
  | 0 => ⟨h.start, h.listed⟩
  | i + 1 => ⟨.step _ (h.at i).1 (h.step i), step_listed (h.at i).2 (h.inner i) (h.step i)⟩

theorem Run.tail {run : Nat → Sys F} {ops : Nat → Op} (h : Run p rt cfg xs run ops) (n : Nat) :
    Run p rt cfg xs (fun i => run (n + i)) (fun i => ops (n + i)) :=
  ⟨(h.at n).1, (h.at n).2, fun _ => h.inner _, fun _ => h.step _⟩

theorem Run.settles : ∀ (z : Nat × Nat × Nat × Nat) (run : Nat → Sys F) (ops : Nat → Op), Run p rt cfg xs run ops → size4 xs (run 0) = z →
    ∃ n, ∀ i, n ≤ i → Idle (run i) (ops i) (run (i + 1)) := by
  intro z
  induction z using less_wf.induction with
  | _ z ih =>
  intro run ops h e
  by_cases hall : ∀ i, Idle (run i) (ops i) (run (i + 1))
  · exact ⟨0, fun i _ => hall i⟩
  · obtain ⟨j, hj⟩ := Classical.not_forall.1 hall
    have hle : ∀ i, size4 xs (run i) = size4 xs (run 0) ∨ Less (size4 xs (run i)) (size4 xs (run 0)) := by
      intro i
      induction i with
      | zero => exact .inl rfl
      | succ i ihi =>
        have hst : size4 xs (run (i + 1)) = size4 xs (run i) ∨ Less (size4 xs (run (i + 1))) (size4 xs (run i)) := by
          rcases step_down (h.at i).1 (h.at i).2 (h.inner i) (h.step i) with ⟨_, hl⟩ | hd
          · exact hl.less
          · exact .inr (hd.less (h.at (i + 1)).1.inv)
        rcases hst with e1 | e1 <;> rcases ihi with e2 | e2
        · exact .inl (e1.trans e2)
        · exact .inr (by rw [e1]; exact e2)
        · exact .inr (by rw [← e2]; exact e1)
        · exact .inr (less_trans e1 e2)
    have hd : Less (size4 xs (run (j + 1))) (size4 xs (run j)) := by
      rcases step_down (h.at j).1 (h.at j).2 (h.inner j) (h.step j) with ⟨hi, _⟩ | hd
      · exact absurd hi hj
      · exact hd.less (h.at (j + 1)).1.inv
    have hz : Less (size4 xs (run (j + 1))) z := by
      rw [← e]
      rcases hle j with e2 | e2
      · rw [← e2]; exact hd
      · exact less_trans hd e2
    obtain ⟨n, hn⟩ := ih _ hz _ _ (h.tail (j + 1)) rfl
    refine ⟨j + 1 + n, fun i hi => ?_⟩
    have := hn (i - (j + 1)) (by omega)
    rw [show j + 1 + (i - (j + 1)) = i by omega, show j + 1 + (i - (j + 1) + 1) = i + 1 by omega] at this
    exact this

/-- Whatever is left can be done. -/
theorem Reach.still (hr : Reach p rt cfg s) : ∃ s', Inner p rt s s' ∧ Still p rt s' := by
  obtain ⟨xs, hl⟩ := hr.listed
  generalize e : size4 xs s = z
  induction z using less_wf.induction generalizing s with
  | _ z ih =>
  by_cases hs : Still p rt s
  · exact ⟨s, .refl s, hs⟩
  · unfold Still at hs
    simp only [Classical.not_forall] at hs
    obtain ⟨o, s', ho, hst, hi⟩ := hs
    rcases step_down hr hl ho hst with ⟨h1, _⟩ | hd
    · exact absurd h1 hi
    · obtain ⟨s'', h1, h2⟩ := ih _ (by rw [← e]; exact hd.less (Reach.step o hr hst).inv) (.step o hr hst) (step_listed hl ho hst) rfl
      exact ⟨s'', .step o ho hst h1, h2⟩

end Verif.System
