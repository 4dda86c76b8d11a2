import Verif.System.SystemInv
import Verif.Props.UserGraph

/-!
# Every step keeps what always holds
-/

namespace Verif.System

open Verif.Wire Verif.Sched Verif.Spec
open Verif.Client (Pickle Futures usedIds Enough)

variable {F V X : Type} {p : Pickle} {rt : Proc.Runtime F V X} {cfg : Config} {s s' : Sys F}

/-! ### The scheduler -/

theorem count_out {t t' : Sched.Sched} {e : Sched.Event} (h : t.step e = .ok t') (a : Bytes × Message) : t.out.count a ≤ t'.out.count a := by
  have := step_emits t e
  rw [h] at this
  obtain ⟨l, hl, -⟩ := this
  rw [hl, List.count_append]
  omega

theorem Inv.schedRecv (h : Inv p rt cfg s) {x : Bytes} {m : Message} {e : Sched.Event} (he : e.op = .recv x m)
    (hc : s.received.count (x, m) < (s.peers x).sent m) {t : Sched.Sched} (ht : s.sched.step e = .ok t) :
    Inv p rt cfg { s with sched := t, received := s.received ++ [(x, m)] } := by
  have hin : e.input = [(x, m)] := by simp [Event.input, he]
  exact {
    sched := by
      have := Sched.Reach.step e h.sched (by
        rw [hin]
        intro a ha
        obtain rfl := List.mem_singleton.1 ha
        exact h.allowed hc) ht
      rwa [hin] at this
    heard := fun y m' => by
      show List.count (y, m') (s.received ++ [(x, m)]) ≤ (s.peers y).sent m'
      rw [List.count_append]
      by_cases hy : (x, m) = (y, m')
      · cases hy
        rw [List.count_singleton_self]
        exact hc
      · rw [List.count_eq_zero (l := [(x, m)]).2 (fun hmem => hy (List.mem_singleton.1 hmem).symm)]
        exact h.heard y m'
    got := fun y m' => Nat.le_trans (h.got y m') (count_out ht _)
    peer := h.peer
    ids := h.ids
    apart := h.apart
    built := h.built
    calls := h.calls }

theorem Inv.schedRun (h : Inv p rt cfg s) {e : Sched.Event} (he : ∀ x m, e.op ≠ .recv x m) {t : Sched.Sched} (ht : s.sched.step e = .ok t) :
    Inv p rt cfg { s with sched := t } := by
  have hin : e.input = [] := by
    unfold Event.input
    split
    · next hx => exact absurd hx (he _ _)
    · rfl
  exact {
    sched := by
      have := Sched.Reach.step e h.sched (by rw [hin]; intro a ha; cases ha) ht
      rwa [hin, List.append_nil] at this
    heard := h.heard
    got := fun y m' => Nat.le_trans (h.got y m') (count_out ht _)
    peer := h.peer
    ids := h.ids
    apart := h.apart
    built := h.built
    calls := h.calls }

theorem Inv.schedStep (h : Inv p rt cfg s) {e : Sched.Event} (hs : s.schedStep e = some s') : Inv p rt cfg s' := by
  unfold Sys.schedStep at hs
  split at hs
  · next x m hop =>
    split at hs
    · next hc =>
      split at hs
      · cases hs
      · next x' m' hcar =>
        have := carryIn_eq hcar
        cases this
        split at hs
        · next t ht =>
          cases hs
          exact h.schedRecv (e := { e with op := .recv x m }) rfl hc ht
        · cases hs
    · cases hs
  · next hop =>
    split at hs
    · next t ht =>
      cases hs
      exact h.schedRun (fun x m => hop x m) ht
    · cases hs

/-! ### A client -/

theorem sent_mono {c c' : Client.Client} {o : Client.Op} (e : c.step p o = .ok c') (m : Message) :
    (Peer.client c : Peer F).sent m ≤ (Peer.client c' : Peer F).sent m := by
  obtain ⟨xs, h, -⟩ := Client.step_log e
  simp only [Peer.sent, h, List.countP_append]
  omega

/-- The client takes a step with the ids in `used`. -/
theorem Inv.clientStep (h : Inv p rt cfg s) {x : Bytes} {c c' : Client.Client} (hx : s.peers x = .client c) {o : Client.Op}
    (hf : Client.FreshOp c o) {used : List Bytes} (hu : ∀ t ∈ s.used, t ∈ used)
    (hsub : ∀ t nm b args, o = .submit t nm b args → t ∉ s.used ∧ t ∈ used ∧ t ≠ []) (hget : ∀ m, o ≠ .get m)
    (hgot : ∀ m, o = .recv m → (s.peers x).got m < s.sched.out.count (x, m)) (hs : c.step p o = .ok c') :
    Inv p rt cfg { (s.setPeer x (.client c')) with used := used } := by
  obtain ⟨xs, hlog, hxs⟩ := Client.step_log hs
  refine h.set (gets := s.gets) (show PeerOk p rt (.client c') from (h.client hx).step o hf hs) hu (by rw [hx]; exact sent_mono hs) ?_ ?_ ?_
    (fun _ h => h) ?_     (fun k hk => .inl hk)
  · intro m
    have h1 := Client.step_recv hs m
    have h2 := h.got x m
    rw [hx] at h2
    simp only [Peer.got] at h2 ⊢
    split at h1
    · next ho =>
      have h3 := hgot m ho
      rw [hx] at h3
      simp only [Peer.got] at h3
      omega
    · omega
  · intro t ht
    rw [hx]
    change t ∈ usedIds c'.log at ht
    change t ∈ usedIds c.log ∨ _
    rw [hlog, Client.usedIds_append] at ht
    rcases List.mem_append.1 ht with ht | ht
    · exact .inl ht
    · rcases hxs with hxs | ⟨k, nm, b, rfl, args, ho⟩ | ⟨g, rfl, ho⟩
      · rw [hxs] at ht; cases ht
      · simp only [usedIds, List.mem_singleton] at ht
        subst ht
        exact .inr (hsub _ _ _ _ ho)
      · exact absurd ho (hget g)
  · intro m hm
    rw [hx]
    change Client.Act.graph m ∈ c'.log at hm
    refine .inl (show Client.Act.graph m ∈ c.log from ?_)
    rw [hlog] at hm
    rcases List.mem_append.1 hm with hm | hm
    · exact hm
    · rcases hxs with hxs | ⟨k, nm, b, rfl, args, ho⟩ | ⟨g, rfl, ho⟩
      · have := Client.graph_used hm m.taskId (by simp [Client.graphIds])
        rw [hxs] at this; cases this
      · simp at hm
      · exact absurd ho (hget g)
  · intro k hk hok
    rw [hx] at hok
    obtain ⟨h1, base, h2, h3⟩ := hok
    exact ⟨h1, base, Client.step_futures h2 hs, h3⟩

theorem clientStep_some {x : Bytes} {c : Client.Client} {o : Client.Op} (hs : s.clientStep p x c o = some s') :
    ∃ c', c.step p o = .ok c' ∧ s' = s.setPeer x (.client c') := by
  unfold Sys.clientStep at hs
  split at hs
  · next c' hc => exact ⟨c', hc, (Option.some.inj hs).symm⟩
  · cases hs

theorem Inv.clientOp (h : Inv p rt cfg s) {x : Bytes} {c : Client.Client} (hx : s.peers x = .client c) {o : Client.Op}
    (hs : s.clientOp p x c o = some s') : Inv p rt cfg s' := by
  unfold Sys.clientOp at hs
  split at hs
  · next t nm b args =>
    split at hs
    · cases hs
    · next hfresh =>
      rw [not_or] at hfresh
      obtain ⟨c', hc, rfl⟩ := clientStep_some hs
      refine h.clientStep (used := t :: s.used) hx ?_ (fun u hu => List.mem_cons_of_mem _ hu) ?_ (fun _ e => by cases e) (fun _ e => by cases e) hc
      · intro ht
        exact hfresh.1 (h.ids x t (by rw [hx]; exact ht)).1
      · intro t' _ _ _ e
        cases e
        exact ⟨hfresh.1, List.mem_cons_self, hfresh.2⟩
  · cases hs
  · next m =>
    split at hs
    · next hgot =>
      split at hs
      · cases hs
      · next y m' hcar =>
        have := carryOut_eq hcar
        cases this
        rw [if_pos rfl] at hs
        obtain ⟨c', hc, rfl⟩ := clientStep_some hs
        exact h.clientStep (used := s.used) (o := .recv m) hx trivial (fun _ h => h) (fun _ _ _ _ e => by cases e) (fun _ e => by cases e)
          (fun m' hm => by cases hm; exact hgot) hc
    · cases hs
  · next o h1 h2 h3 =>
    obtain ⟨c', hc, rfl⟩ := clientStep_some hs
    refine h.clientStep (used := s.used) hx ?_ (fun _ h => h) (fun t nm b args e => absurd e (h1 t nm b args)) (fun m e => h2 m e)
      (fun m e => absurd e (h3 m)) hc
    unfold Client.FreshOp
    split
    · exact (h1 _ _ _ _ rfl).elim
    · exact (h2 _ rfl).elim
    · trivial

/-! ### `get` -/

theorem tasks_ids (p : Pickle) (g : Dict Bytes Client.UserNode) (id : Bytes → Bytes) (l : List (Bytes × Client.UserNode)) :
    ∀ t ∈ (l.filterMap (Props.task? p g id)).map (·.taskId), ∃ x nm b as, (x, Client.UserNode.call nm b as) ∈ l ∧ t = id x := by
  intro t ht
  obtain ⟨T, hT, rfl⟩ := List.mem_map.1 ht
  obtain ⟨⟨x, u⟩, hu, hT⟩ := List.mem_filterMap.1 hT
  cases u with
  | data b => cases hT
  | call nm b as => cases hT; exact ⟨x, nm, b, as, hu, rfl⟩

theorem tasks_nodup (p : Pickle) (g : Dict Bytes Client.UserNode) (id : Bytes → Bytes) (l : List (Bytes × Client.UserNode))
    (hl : ∀ e ∈ l, g.get? e.1 = some e.2) (hn : (l.map (·.1)).Nodup)
    (hid : ∀ x y, Spec.IsCall g x → Spec.IsCall g y → id x = id y → x = y) :
    ((l.filterMap (Props.task? p g id)).map (·.taskId)).Nodup := by
  induction l with
  | nil => exact List.nodup_nil
  | cons e l ih =>
    obtain ⟨x, u⟩ := e
    rw [List.map_cons, List.nodup_cons] at hn
    have ih := ih (fun e he => hl e (List.mem_cons_of_mem _ he)) hn.2
    cases u with
    | data b => exact ih
    | call nm b as =>
      refine List.nodup_cons.2 ⟨?_, ih⟩
      intro ht
      obtain ⟨y, nm', b', as', hy, e⟩ := tasks_ids p g id l _ ht
      have hy' := hl _ (List.mem_cons_of_mem _ hy)
      have hx' := hl _ List.mem_cons_self
      have := hid x y ⟨_, _, _, hx'⟩ ⟨_, _, _, hy'⟩ e
      subst this
      exact hn.1 (List.mem_map.2 ⟨_, hy, rfl⟩)

theorem built_ids {ids : List Bytes} {gid : Bytes} {g : Dict Bytes Client.UserNode} {keys : List Bytes} {m : GraphTask} (hl : Enough g ids)
    (hn : (gid :: ids).Nodup) (hm : Client.buildGraph p ids gid g keys = .ok m) :
    (Client.graphIds m).Nodup ∧ ∀ t ∈ Client.graphIds m, t ∈ gid :: ids := by
  obtain ⟨h1, id, h2, h3⟩ := Props.C44_same p g keys ids gid hl (List.nodup_cons.1 hn).2 m hm
  have hmem : ∀ t ∈ m.graph.map (·.taskId), t ∈ ids := by
    rw [h3.tasks]
    intro t ht
    obtain ⟨x, nm, b, as, hx, rfl⟩ := tasks_ids p g id _ t ht
    exact h2 x ⟨nm, b, as, Dict.mem_items.1 hx⟩
  constructor
  · refine List.nodup_cons.2 ⟨fun h => (List.nodup_cons.1 hn).1 (h1 ▸ hmem _ h), ?_⟩
    rw [h3.tasks]
    exact tasks_nodup p g id _ (fun e he => Dict.mem_items.1 he) g.nodup h3.inj
  · intro t ht
    rcases List.mem_cons.1 ht with rfl | ht
    · rw [h1]; exact List.mem_cons_self
    · exact List.mem_cons_of_mem _ (hmem t ht)

theorem Inv.getOp (h : Inv p rt cfg s) {x : Bytes} {c : Client.Client} (hx : s.peers x = .client c) {ids : List Bytes} {gid : Bytes}
    {g : Dict Bytes Client.UserNode} {keys : List Bytes} (hs : s.getOp p x c ids gid g keys = some s') : Inv p rt cfg s' := by
  unfold Sys.getOp at hs
  split at hs
  · next hc =>
    obtain ⟨hidle, hn, hfresh, hlen⟩ := hc
    split at hs
    · next m c' ret hm hcall =>
      cases hs
      have hl : Enough g ids := Nat.le_of_eq hlen
      simp only [Client.Client.callGet, Py.bind_ok] at hcall
      obtain ⟨m', hm', hcall⟩ := hcall
      rw [hm] at hm'; cases hm'
      cases hcall
      obtain ⟨hnd, hsub⟩ := built_ids hl hn hm
      have hf : Client.FreshOp c (.get m) := ⟨hnd, fun t ht hu => (hfresh t (hsub t ht)).1 (h.ids x t (by rw [hx]; exact hu)).1⟩
      have hstep : c.step p (.get m) = .ok (c.get m) := by
        simp [Client.Client.step, hidle]
      have hlog : (c.get m).log = c.log ++ [.graph m] := by simp [Client.Client.get, Client.Client.note, Client.Client.send]
      have hb : BuiltFrom p g keys m := ⟨ids, gid, hl, (List.nodup_cons.1 hn).2, hm⟩
      refine h.set (show PeerOk p rt (.client (c.get m)) from (h.client hx).step _ hf hstep)
        (fun t ht => List.mem_append_right _ ht) (by rw [hx]; exact sent_mono hstep) ?_ ?_ ?_
        (fun _ hk => List.mem_append_left _ hk) ?_ ?_
      · intro m'
        have h1 := Client.step_recv hstep m'
        have h2 := h.got x m'
        rw [hx] at h2
        simp only [Peer.got] at h2 ⊢
        simp only [reduceCtorEq, if_false] at h1
        omega
      · intro t ht
        rw [hx]
        change t ∈ usedIds (c.get m).log at ht
        rw [hlog, Client.usedIds_append] at ht
        rcases List.mem_append.1 ht with ht | ht
        · exact .inl ht
        · simp only [usedIds, List.append_nil] at ht
          have := hfresh t (hsub t ht)
          exact .inr ⟨this.1, List.mem_append_left _ (hsub t ht), this.2⟩
      · intro m' hm'
        rw [hx]
        change Client.Act.graph m' ∈ (c.get m).log at hm'
        rw [hlog] at hm'
        rcases List.mem_append.1 hm' with hm' | hm'
        · exact .inl hm'
        · cases List.mem_singleton.1 hm'
          exact .inr ⟨_, List.mem_append_right _ (List.mem_singleton.2 rfl), rfl, rfl⟩
      · intro k hk hok
        rw [hx] at hok
        obtain ⟨h1, base, h2, h3⟩ := hok
        exact ⟨h1, base, Client.step_futures h2 hstep, h3⟩
      · intro k hk
        rcases List.mem_append.1 hk with hk | hk
        · exact .inl hk
        · obtain rfl := List.mem_singleton.1 hk
          exact .inr ⟨rfl, hb, c.futures.length, Client.get_futures, rfl⟩
    · cases hs
  · cases hs

/-! ### A worker -/

theorem countP_none {α : Type} {P : α → Bool} {l : List α} (h : ∀ y ∈ l, P y = false) : l.countP P = 0 := by
  rw [List.countP_eq_zero]
  intro y hy
  simp [h y hy]

theorem procsSent_append (m : Message) (qs rs : List (Proc.Proc F)) : procsSent m (qs ++ rs) = procsSent m qs + procsSent m rs := by
  simp [procsSent]

/-- Replacing a processor by one that sent more. -/
theorem procsSent_set (m : Message) (qs : List (Proc.Proc F)) (n : Nat) (q q' : Proc.Proc F) (hq : qs[n]? = some q)
    (hle : (q.log.countP fun x => decide (x.2 = .sent m)) ≤ q'.log.countP fun x => decide (x.2 = .sent m)) :
    procsSent m qs ≤ procsSent m (qs.set n q') := by
  induction qs generalizing n with
  | nil => simp at hq
  | cons a qs ih =>
    cases n with
    | zero =>
      simp only [List.getElem?_cons_zero, Option.some.injEq] at hq
      subst hq
      simp only [procsSent, List.set_cons_zero, List.map_cons, List.sum_cons]
      omega
    | succ n =>
      have := ih n (by simpa using hq)
      simp only [procsSent, List.set_cons_succ, List.map_cons, List.sum_cons] at this ⊢
      omega

theorem Inv.agentStep (h : Inv p rt cfg s) {x : Bytes} {a : Worker.Agent} {ret : Int} {qs : List (Proc.Proc F)} (hx : s.peers x = .worker a ret qs none)
    {e : Worker.Agent.Event} (hgot : ∀ m, e.op = .recv m → (s.peers x).got m < s.sched.out.count (x, m))
    (hheard : ∀ m, e.op = .heard m → (a.log.countP fun y => decide (y.2 = .heard m)) < procsSent m qs)
    (hs : s.agentStep x a ret qs e = some s') : Inv p rt cfg s' := by
  unfold Sys.agentStep at hs
  split at hs
  · next a' ha =>
    cases hs
    have hP := h.peer x
    rw [hx] at hP
    obtain ⟨⟨d, st, hr⟩, hlen, hq, hh⟩ := hP
    obtain ⟨-, hprocs, ys, hlog, hys, -⟩ := Worker.step_flows hr.flow ha
    have hcount : ∀ P : Int × Worker.Act → Bool, a'.log.countP P = a.log.countP P + e.input.countP P + ys.countP P := by
      intro P
      rw [hlog, List.countP_append, List.countP_append]
    refine h.set (used := s.used) (gets := s.gets) (P := .worker a' ret (extend ret e.now qs a'.procs) none) ?_ (fun _ h => h) ?_ ?_ ?_ ?_ (fun _ h => h) ?_
      (fun k hk => .inl hk)
    · refine ⟨⟨d, st, hr.step e ha⟩, ?_, ?_, ?_⟩
      · simp only [extend, List.length_append, List.length_replicate]
        omega
      · intro n q hn
        unfold extend at hn
        rw [List.getElem?_append] at hn
        split at hn
        · obtain ⟨h1, h2⟩ := hq n q hn
          refine ⟨h1, fun m => Nat.le_trans (h2 m) ?_⟩
          rw [hcount]
          omega
        · have hmem := List.mem_of_getElem? hn
          rw [List.mem_replicate] at hmem
          obtain rfl := hmem.2
          refine ⟨⟨_, .init⟩, fun m => ?_⟩
          rw [countP_none]
          · exact Nat.zero_le _
          · intro y hy
            simp only [Proc.Proc.init, List.mem_singleton] at hy
            subst hy
            simp
      · intro m
        unfold extend
        rw [procsSent_append, hcount, countP_none (l := ys)]
        · by_cases hop : e.op = .heard m
          · have := hheard m hop
            simp only [Worker.Agent.Event.input, hop]
            simp
            omega
          · have : e.input.countP (fun y => decide (y.2 = Worker.Act.heard m)) = 0 := by
              apply countP_none
              intro y hy
              unfold Worker.Agent.Event.input at hy
              split at hy
              · obtain rfl := List.mem_singleton.1 hy; simp
              · next m' hm' =>
                obtain rfl := List.mem_singleton.1 hy
                simp only [decide_eq_false_iff_not, Worker.Act.heard.injEq]
                rintro rfl
                exact hop hm'
              · cases hy
            have := hh m
            omega
        · intro y hy
          simp [(hys y hy m).2]
    · intro m
      rw [hx]
      simp only [Peer.sent, hcount]
      omega
    · intro m
      have h2 := h.got x m
      rw [hx] at h2
      simp only [Peer.got] at h2 ⊢
      rw [hcount, countP_none (l := ys)]
      · by_cases hop : e.op = .recv m
        · have := hgot m hop
          rw [hx] at this
          simp only [Peer.got] at this
          simp only [Worker.Agent.Event.input, hop]
          simp
          omega
        · have : e.input.countP (fun y => decide (y.2 = Worker.Act.recv m)) = 0 := by
            apply countP_none
            intro y hy
            unfold Worker.Agent.Event.input at hy
            split at hy
            · next m' hm' =>
              obtain rfl := List.mem_singleton.1 hy
              simp only [decide_eq_false_iff_not, Worker.Act.recv.injEq]
              rintro rfl
              exact hop hm'
            · obtain rfl := List.mem_singleton.1 hy; simp
            · cases hy
          omega
      · intro y hy
        simp [(hys y hy m).1]
    · intro t ht; cases ht
    · intro m hm; exact hm.elim
    · intro k hk hok
      rw [hx] at hok
      exact hok.elim
  · cases hs

theorem Inv.agentOp (h : Inv p rt cfg s) {x : Bytes} {a : Worker.Agent} {ret : Int} {qs : List (Proc.Proc F)} (hx : s.peers x = .worker a ret qs none)
    {e : Worker.Agent.Event} (hs : s.agentOp x a ret qs e = some s') : Inv p rt cfg s' := by
  unfold Sys.agentOp at hs
  split at hs
  · next m hop =>
    split at hs
    · next hgot =>
      split at hs
      · cases hs
      · next y m' hcar =>
        have := carryOut_eq hcar
        cases this
        rw [if_pos rfl] at hs
        exact h.agentStep hx (fun m' hm => by cases hm; exact hgot) (fun _ hm => by cases hm) hs
    · cases hs
  · next m hop =>
    split at hs
    · next hheard =>
      split at hs
      · cases hs
      · next m' hcar =>
        obtain rfl := carry_eq hcar
        exact h.agentStep hx (fun _ hm => by cases hm) (fun m' hm => by cases hm; exact hheard) hs
    · cases hs
  · next h1 h2 =>
    exact h.agentStep hx (fun m hm => absurd hm (h1 m)) (fun m hm => absurd hm (h2 m)) hs

theorem Inv.procStep (h : Inv p rt cfg s) {x : Bytes} {a : Worker.Agent} {ret : Int} {qs : List (Proc.Proc F)} (hx : s.peers x = .worker a ret qs none)
    {n : Nat} {q : Proc.Proc F} (hq : qs[n]? = some q) {e : Proc.Event}
    (hrecv : ∀ m, e.op = .recv m → (q.log.countP fun y => decide (y.2 = .recv m)) < a.log.countP fun y => decide (y.2 = .told n m))
    (hs : s.procStep rt x a ret qs n q e = some s') : Inv p rt cfg s' := by
  unfold Sys.procStep at hs
  split at hs
  · next q' hq' =>
    cases hs
    have hP := h.peer x
    rw [hx] at hP
    obtain ⟨hr, hlen, hqs, hh⟩ := hP
    obtain ⟨xs, ys, hlog, hys, hxs⟩ := Proc.step_log hq'
    obtain ⟨⟨st, hqr⟩, hqc⟩ := hqs n q hq
    refine h.set (used := s.used) (gets := s.gets) (P := .worker a ret (qs.set n q') none) ?_ (fun _ h => h) ?_ ?_ ?_ ?_ (fun _ h => h) ?_
      (fun k hk => .inl hk)
    · refine ⟨hr, by simpa using hlen, ?_, ?_⟩
      · intro n' q'' hn'
        rw [List.getElem?_set] at hn'
        split at hn'
        · next hnn =>
          subst hnn
          split at hn'
          · cases hn'
            refine ⟨⟨st, hqr.step e hq'⟩, fun m => ?_⟩
            rw [hlog, List.countP_append, List.countP_append, countP_none (l := ys)]
            · have h1 := hqc m
              rcases hxs with rfl | ⟨m', hop, rfl⟩
              · simpa using h1
              · by_cases hm : m' = m
                · subst hm
                  have := hrecv _ hop
                  simp
                  omega
                · simp [hm]
                  omega
            · intro y hy
              simp [hys y hy m]
          · cases hn'
        · exact hqs n' q'' hn'
      · intro m
        refine Nat.le_trans (hh m) (procsSent_set m qs n q q' hq ?_)
        rw [hlog, List.countP_append, List.countP_append]
        omega
    · intro m
      rw [hx]
      exact Nat.le_refl _
    · intro m
      have := h.got x m
      rw [hx] at this
      exact this
    · intro t ht; cases ht
    · intro m hm; exact hm.elim
    · intro k hk hok
      rw [hx] at hok
      exact hok.elim
  · cases hs

theorem Inv.procOp (h : Inv p rt cfg s) {x : Bytes} {a : Worker.Agent} {ret : Int} {qs : List (Proc.Proc F)} (hx : s.peers x = .worker a ret qs none)
    {n : Nat} {e : Proc.Event} (hs : s.procOp rt x a ret qs n e = some s') : Inv p rt cfg s' := by
  unfold Sys.procOp at hs
  split at hs
  · split at hs
    · cases hs
    · next q hq =>
      split at hs
      · next m hop =>
        split at hs
        · next hc =>
          split at hs
          · cases hs
          · next m' hcar =>
            obtain rfl := carry_eq hcar
            exact h.procStep hx hq (fun m' hm => by cases hm; exact hc) hs
        · cases hs
      · next hop => exact h.procStep hx hq (fun m hm => absurd hm (hop m)) hs
  · cases hs

/-! ### Any step -/

theorem init_inv : Inv p rt cfg (Sys.init cfg : Sys F) where
  sched := .init
  heard x m := by simp [Sys.init]
  got x m := by simp [Sys.init, Peer.got]
  peer x := trivial
  ids x t ht := by cases ht
  apart x y _ t ht := by cases ht
  built x m hm := hm.elim
  calls k hk := by cases hk

theorem Inv.step (h : Inv p rt cfg s) {o : Op} (hs : s.step p rt o = some s') : Inv p rt cfg s' := by
  cases o with
  | joinClient x =>
    simp only [Sys.step] at hs
    split at hs
    · next hx =>
      cases hs
      refine h.set (used := s.used) (gets := s.gets) (P := .client .init) .init (fun _ h => h) (by rw [hx]; simp [Peer.sent]) ?_ ?_ ?_ (fun _ h => h) ?_
        (fun k hk => .inl hk)
      · intro m; simp [Peer.got, Client.Client.init]
      · intro t ht; simp [Peer.ids, Client.Client.init, usedIds] at ht
      · intro m hm; simp [Peer.Graph, Client.Client.init] at hm
      · intro k _ hok; rw [hx] at hok; exact hok.elim
    · cases hs
  | joinWorker x d ret now =>
    simp only [Sys.step] at hs
    split at hs
    · next hx =>
      cases hs
      refine h.set (used := s.used) (gets := s.gets) (P := .worker (.init d now) ret [Proc.Proc.init ret now] none) ?_ (fun _ h => h)
        (by rw [hx]; simp [Peer.sent]) ?_ ?_ ?_ (fun _ h => h) ?_ (fun k hk => .inl hk)
      · refine ⟨⟨d, now, .init⟩, rfl, ?_, ?_⟩
        · intro n q hn
          have := List.mem_of_getElem? hn
          obtain rfl := List.mem_singleton.1 this
          refine ⟨⟨_, .init⟩, fun m => ?_⟩
          rw [countP_none]
          · exact Nat.zero_le _
          · intro y hy
            simp only [Proc.Proc.init, List.mem_singleton] at hy
            subst hy
            simp
        · intro m
          rw [countP_none]
          · exact Nat.zero_le _
          · intro y hy
            simp only [Worker.Agent.init, Worker.Agent.startProcessor, Worker.Agent.note, Worker.Agent.blank, List.nil_append, List.mem_singleton] at hy
            subst hy
            simp
      · intro m
        simp only [Peer.got]
        rw [countP_none]
        · exact Nat.zero_le _
        · intro y hy
          simp only [Worker.Agent.init, Worker.Agent.startProcessor, Worker.Agent.note, Worker.Agent.blank, List.nil_append, List.mem_singleton] at hy
          subst hy
          simp
      · intro t ht; cases ht
      · intro m hm; exact hm.elim
      · intro k _ hok; rw [hx] at hok; exact hok.elim
    · cases hs
  | sched e => exact h.schedStep hs
  | client x o =>
    simp only [Sys.step] at hs
    split at hs
    · next hx => exact h.clientOp hx hs
    · cases hs
  | get x ids gid g keys =>
    simp only [Sys.step] at hs
    split at hs
    · next hx => exact h.getOp hx hs
    · cases hs
  | agent x e =>
    simp only [Sys.step] at hs
    split at hs
    · next hx => exact h.agentOp hx hs
    · cases hs
  | proc x n e =>
    simp only [Sys.step] at hs
    split at hs
    · next hx => exact h.procOp hx hs
    · cases hs
  | leave x =>
    simp only [Sys.step] at hs
    split at hs
    · next a ret qs hx =>
      cases hs
      have hok := h.peer x
      rw [hx] at hok
      refine h.set (used := s.used) (gets := s.gets) (P := .worker a ret qs (some x)) hok (fun _ h => h)
        (fun m => by rw [hx]; simp [Peer.sent]) ?_ ?_ ?_ (fun _ h => h) ?_ (fun k hk => .inl hk)
      · intro m; have := h.got x m; rw [hx] at this; exact this
      · intro t ht; cases ht
      · intro m hm; exact hm.elim
      · intro k _ hok; rw [hx] at hok; exact hok.elim
    · cases hs

theorem Reach.inv (h : Reach p rt cfg s) : Inv p rt cfg s := by
  induction h with
  | init => exact init_inv
  | step o _ hs ih => exact ih.step hs

end Verif.System
