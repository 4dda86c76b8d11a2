import Verif.Props.Graphs
import Verif.Props.Tasks
import Verif.Props.UserGraph
import Verif.Spec.Residue

/-!
# C101: nothing is kept for what is finished
-/

namespace Verif.Props

open Verif.Queue Verif.Util Verif.Wire Verif.Sched Verif.Spec

theorem keys_size {κ ν : Type} [DecidableEq κ] (d : Dict κ ν) : d.size = d.keys.length := (Dict.size_keys d).symm

/-- A table whose keys are all in a list is not longer than the list. -/
theorem size_le {κ ν : Type} [DecidableEq κ] {d : Dict κ ν} {l : List κ} (h : ∀ k v, d.get? k = some v → k ∈ l) : d.size ≤ l.length := by
  rw [keys_size]
  refine length_le_of_subset d.nodup_keys fun k hk => ?_
  obtain ⟨v, hv⟩ := Dict.mem_keys.1 hk
  exact h k v hv

/-- Tables with the same keys are equally long. -/
theorem size_eq {κ ν ν' : Type} [DecidableEq κ] {d : Dict κ ν} {d' : Dict κ ν'} (h : ∀ k, (d.get? k).isSome ↔ (d'.get? k).isSome) : d.size = d'.size := by
  refine Nat.le_antisymm ?_ ?_
  · rw [keys_size d']
    exact size_le fun k v hk => Dict.mem_keys_isSome.2 ((h k).1 (by rw [hk]; rfl))
  · rw [keys_size d]
    exact size_le fun k v hk => Dict.mem_keys_isSome.2 ((h k).2 (by rw [hk]; rfl))

/-- In a two-way index there are no more keys than values. -/
theorem oneToMany_size {κ ν : Type} [DecidableEq κ] [DecidableEq ν] {m : OneToMany κ ν} (h : m.WF) : m.k2v.size ≤ m.v2k.size := by
  have : m.k2v.size ≤ (m.v2k.items.map (·.2)).length := size_le fun k s hk => by
    obtain ⟨v, hv⟩ := h.nonempty k s hk
    exact List.mem_map.2 ⟨(v, k), Dict.mem_items.2 ((h.agree k v).2 ⟨s, hk, hv⟩), rfl⟩
  rwa [List.length_map] at this

/-- The nodes of the graphs that are under way. -/
def nodesUnderWay (s : Sched) : List Bytes := s.gm.graphs.items.flatMap fun p => p.2.tasks.keys

theorem nodesUnderWay_length (s : Sched) : (nodesUnderWay s).length = openNodes s := by
  unfold nodesUnderWay openNodes
  rw [List.length_flatMap]
  congr 1
  exact List.map_congr_left fun p _ => Dict.size_keys _

/-- The tasks that were refused for lack of workers. -/
def refusedIds (s : Sched) : List Bytes := s.out.filterMap fun p => match p.2 with | .taskEcho t .noWorker => some t | _ => none

theorem refusedIds_length (s : Sched) : (refusedIds s).length = refusedTimes s := by
  unfold refusedIds refusedTimes
  induction s.out with
  | nil => rfl
  | cons p l ih =>
    obtain ⟨c, m⟩ := p
    rw [List.filterMap_cons, List.countP_cons, ← ih]
    cases m <;> try rfl
    next t st => cases st <;> rfl

/-- **C101.** In every execution, all tables of the scheduler are bounded by what is open: the tasks it holds, the graphs under way and
their nodes, the connected workers, and for the claims on functions the number of refusals. -/
theorem C101_bounded_partial (cfg : Config) (l : Log) (s : Sched) (hr : Reach cfg l s) :
    Bounded s s.tm.tasks.size s.gm.graphs.size (openNodes s) s.wm.alive.size (refusedTimes s) := by
  have hG := hr.good
  have hc := hG.conc
  have hi := hG.inv
  have howners : s.clients.v2k.size ≤ s.tm.tasks.size + s.gm.graphs.size := by
    rw [keys_size s.tm.tasks, keys_size s.gm.graphs, ← List.length_append]
    refine size_le fun t c ht => ?_
    rcases hi.owner t (show (s.clients.v2k.get? t).isSome by rw [ht]; rfl) with h | h
    · exact List.mem_append_left _ (Dict.mem_keys_isSome.2 h)
    · exact List.mem_append_right _ (Dict.mem_keys_isSome.2 h)
  have hclaims : s.fm.uses.v2k.size ≤ s.tm.tasks.size + openNodes s + refusedTimes s := by
    rw [keys_size s.tm.tasks, ← nodesUnderWay_length, ← refusedIds_length, ← List.length_append, ← List.length_append]
    refine size_le fun t f ht => ?_
    rcases hG.pins.uses t (show (s.fm.uses.v2k.get? t).isSome by rw [ht]; rfl) with h | ⟨gid, g, i, h1, h2, _⟩ | ⟨_, _, c, h⟩
    · exact List.mem_append_left _ (List.mem_append_left _ (Dict.mem_keys_isSome.2 h))
    · exact List.mem_append_left _ (List.mem_append_right _ (List.mem_flatMap.2 ⟨(gid, g), Dict.mem_items.2 h1, Dict.mem_keys.2 ⟨i, h2⟩⟩))
    · exact List.mem_append_right _ (List.mem_filterMap.2 ⟨_, h, rfl⟩)
  have hpq := hc.alloc.pq
  have hdom : ∀ w, w ∈ s.wm.alloc.queue.entries.map (·.2) ↔ (s.wm.alloc.w2t.get? w).isSome := by
    intro w
    have h1 := hc.alloc.dom w
    rw [Option.isSome_iff_exists, ← h1, ← Classical.not_not (a := w ∈ _), ← PQueue.prio_none hpq, Option.eq_none_iff_forall_ne_some]
    simp
  have hlen : (s.wm.alloc.queue.entries.map (·.2)).length = s.wm.alloc.queue.heap.length := by
    unfold PQueue.entries; rw [List.length_map, List.length_map]
  have hheap : s.wm.alloc.queue.heap.length = s.wm.alloc.w2t.size := by
    rw [← hlen, keys_size]
    refine Nat.le_antisymm (length_le_of_subset hpq.nodup fun w hw => ?_) (length_le_of_subset (Dict.nodup_keys _) fun w hw => ?_)
    · exact Dict.mem_keys_isSome.2 ((hdom w).1 hw)
    · exact (hdom w).2 (Dict.mem_keys_isSome.1 hw)
  have hqueue : s.tm.unassigned.map.size = (waitingQueue s).length := by
    obtain ⟨q, hq⟩ := hc.queue
    have hcont : waitingQueue s = q.map (·.2) := IQueue.contents_eq hq
    have hn := hc.queue.nodup
    rw [hcont, keys_size]
    refine Nat.le_antisymm (length_le_of_subset (Dict.nodup_keys _) fun t ht => ?_) (length_le_of_subset (hcont ▸ hn) fun t ht => ?_)
    · obtain ⟨i, hi⟩ := Dict.mem_keys.1 ht
      obtain ⟨v, h1, h2⟩ := (hq.map t i).1 hi
      exact List.mem_map.2 ⟨_, h1, h2⟩
    · obtain ⟨⟨i, v⟩, h1, rfl⟩ := List.mem_map.1 ht
      exact Dict.mem_keys.2 ⟨i, (hq.map v i).2 ⟨v, h1, rfl⟩⟩
  have hw : s.wm.alloc.w2t.size = s.wm.alive.size := size_eq fun w => (hc.alive w).symm
  refine ⟨rfl, ?_, howners, Nat.le_trans (oneToMany_size hc.clients) howners, ?_, hw, hheap.trans hw, ?_, ?_, hclaims,
    Nat.le_trans (oneToMany_size hc.uses) hclaims⟩
  · have := (C29_statistics cfg l s hr).2.1
    rw [hqueue, this]
    unfold beingPlaced
    cases s.tm.pending <;> rfl
  · rw [keys_size s.tm.tasks]
    refine size_le fun t w ht => Dict.mem_keys_isSome.2 ?_
    exact (hi.place t).2 (.inr (.inr (by show (s.wm.alloc.t2w.get? t).isSome; rw [ht]; rfl)))
  · rw [← hw]
    refine size_eq fun w => ?_
    rw [← hdom, ← hpq.dom w, Option.isSome_iff_exists]
  · rw [← nodesUnderWay_length]
    refine size_le fun t gid ht => ?_
    obtain ⟨g, h1, h2⟩ := (hi.nodes t gid).1 ht
    exact List.mem_flatMap.2 ⟨(gid, g), Dict.mem_items.2 h1, Dict.mem_keys_isSome.2 h2⟩

/-- **C101.** When nothing is open, nothing is kept: no task, no owner, no client, no place, no node; and if no submission was refused for lack
of workers, no claim on a function.

Full statement: the last part without the condition.  This is false: see `C101_claim_kept`. -/
theorem C101_nothing_partial (cfg : Config) (l : Log) (s : Sched) (hr : Reach cfg l s) (ho : NothingOpen s) :
    NothingKept s ∧ ((∀ c t, (c, .taskEcho t .noWorker) ∉ s.out) → NoClaims s) := by
  have hb := C101_bounded_partial cfg l s hr
  have hc := hr.good.conc
  have hempty : ∀ {κ ν : Type} {d : Dict κ ν}, d.size ≤ 0 → d.items = [] := fun h => List.eq_nil_of_length_eq_zero (Nat.le_zero.1 h)
  have ht : s.tm.tasks.items = [] := Dict.items_eq_nil.2 ho.tasks
  have hg : s.gm.graphs.items = [] := Dict.items_eq_nil.2 ho.graphs
  have ht0 : s.tm.tasks.size = 0 := by unfold Dict.size; rw [ht]; rfl
  have hg0 : s.gm.graphs.size = 0 := by unfold Dict.size; rw [hg]; rfl
  have hn0 : openNodes s = 0 := by unfold openNodes; rw [hg]; rfl
  have h1 := hb.queue
  have h2 := hb.owners
  have h3 := hb.clients
  have h4 := hb.placed
  have h5 := hb.members
  have h6 := hb.claims
  have h7 := hb.functions
  rw [ht0] at h1 h2 h3 h4 h6 h7
  rw [hg0] at h2 h3
  rw [hn0] at h5 h6 h7
  refine ⟨⟨ht, hempty (by omega), ?_, ?_, hempty (by omega), hempty (by omega), hempty (by omega), ?_, hg, hempty (by omega)⟩, fun hnw => ?_⟩
  · exact List.eq_nil_of_length_eq_zero (show s.tm.running.size = 0 by omega)
  · cases hp : s.tm.pending with
    | none => rfl
    | some k => rw [hp] at h1; simp at h1
  · intro w ts hw
    cases hx : ts.items with
    | nil => rfl
    | cons t r =>
      have : t ∈ ts := by rw [← PySet.mem_items, hx]; simp
      have := (hc.alloc.agree t w).2 ⟨ts, hw, this⟩
      have hp := hempty (show s.wm.alloc.t2w.size ≤ 0 by omega)
      have := Dict.mem_items.2 this
      rw [hp] at this
      cases this
  · have hr0 : refusedTimes s = 0 := by
      unfold refusedTimes
      refine List.countP_eq_zero.2 fun x hx => ?_
      obtain ⟨c, m⟩ := x
      cases m <;> try exact Bool.false_ne_true
      next t st =>
        cases st <;> try exact Bool.false_ne_true
        exact absurd hx (hnw c t)
    rw [hr0] at h6 h7
    exact ⟨hempty (by omega), hempty (by omega)⟩

/-- **C101.** Nothing is open once every task that was accepted was answered, every graph was answered, and no node of a graph is held. -/
theorem C101_answered (cfg : Config) (l : Log) (s : Sched) (hr : Reach cfg l s)
    (ht : ∀ t, ¬ InGraph l t → acks anyone t s.out = results anyone t s.out)
    (hg : ∀ c g, (c, .graphTask g) ∈ l → ∃ c' st rs, (c', .graphTaskResult g.taskId st rs) ∈ s.out)
    (hn : ∀ t, InGraph l t → ¬ Holding s t) : NothingOpen s := by
  have hG := hr.good
  have hi := hG.inv
  refine ⟨fun t => ?_, ?_, fun gid => ?_⟩
  · by_cases h : InGraph l t
    · exact Option.not_isSome_iff_eq_none.1 (hn t h)
    · have := (C16_exactly_once cfg l s hr t h).2.1
      rw [ht t h] at this
      refine Option.not_isSome_iff_eq_none.1 fun hh => ?_
      rw [if_pos (show Holding s t from hh)] at this
      omega
  · cases hq : s.gm.queue with
    | nil => rfl
    | cons p r =>
      obtain ⟨c, g⟩ := p
      have hmem : (c, g) ∈ s.abs.queue := by show _ ∈ s.gm.queue; rw [hq]; simp
      obtain ⟨c', st, rs, hm⟩ := hg c g (hi.queue c g hmem).1
      exact absurd rfl (hG.once.silent g.taskId (.inl ⟨c, g, hmem, mem_allIds_gid g⟩) _ hm)
  · cases hx : s.gm.graphs.get? gid with
    | none => rfl
    | some gr =>
      obtain ⟨gt, hok⟩ := hi.graphs gid gr hx
      obtain ⟨c', st, rs, hm⟩ := hg _ gt hok.src
      rw [hok.id] at hm
      exact absurd rfl (hG.once.silent gid (.inr (.inl (by show (s.gm.graphs.get? gid).isSome; rw [hx]; rfl))) _ hm)

/-- Three tasks, one of them cancelled, and a graph that fails; then a worker leaves. -/
def residueStory : List Event :=
  [addFn, beat wk, submit [1], turn, submit [2], submit [3], turn, ev (.recv cl (.taskCancel [3])), done [1] [7], done [2] [8]] ++
  [sendGraph diamond, gturn, turn, done [51] [7], turn, turn, failed [52], ev (.recv wk (.taskResult [53] .canceled 0 []))]

example : ∃ l s, Reach cfg0 l s ∧ NothingOpen s ∧ 10 < s.out.length ∧ s.wm.alive.size = 1 ∧ s.fm.funcs.size = 1 := by
  have h : (runInit cfg0 residueStory).map (fun p => decide (p.2.tm.tasks.items = [] ∧ p.2.gm.queue = [] ∧ p.2.gm.graphs.items = [] ∧
      10 < p.2.out.length ∧ p.2.wm.alive.size = 1 ∧ p.2.fm.funcs.size = 1)) = some true := by decide +kernel
  obtain ⟨⟨l, s⟩, hp, h⟩ := Option.map_eq_some_iff.1 h
  obtain ⟨h1, h2, h3, h4⟩ := of_decide_eq_true h
  exact ⟨l, s, runInit_reach hp, ⟨Dict.items_eq_nil.1 h1, h2, Dict.items_eq_nil.1 h3⟩, h4⟩

/-- Half of it: two tasks are held, one waits. -/
example : (runInit cfg0 (residueStory.take 7)).map (fun p => [p.2.tm.tasks.size, p.2.clients.v2k.size, p.2.tm.unassigned.map.size, p.2.wm.alloc.t2w.size,
    p.2.wm.alloc.queue.heap.length, p.2.fm.uses.v2k.size]) = some [3, 3, 1, 2, 1, 3] := by decide +kernel

/-- **C101 is false of the code.** Nothing is open, but the claim of a refused node on its function is kept, and with it the function, for
ever: cleaning up does not remove it, however late. -/
theorem C101_claim_kept : ∃ l s, Reach cfgOne l s ∧ NothingOpen s ∧ ¬ NoClaims s ∧
    (s.step (evAt 100000000000000000000 .functionRoutine)).toOption.map (fun s' => s'.fm.funcs.size) = some 1 := by
  have h : (runInit cfgOne [sendGraph (graphMsg [50] [([51], []), ([52], [])] [[51], [52]]), gturn, beat wk, turn, failed [51]]).map
      (fun p => decide (p.2.tm.tasks.items = [] ∧ p.2.gm.queue = [] ∧ p.2.gm.graphs.items = [] ∧ p.2.fm.uses.v2k.items ≠ [] ∧
      (p.2.step (evAt 100000000000000000000 .functionRoutine)).toOption.map (fun s' => s'.fm.funcs.size) = some 1)) = some true := by decide +kernel
  obtain ⟨⟨l, s⟩, hp, h⟩ := Option.map_eq_some_iff.1 h
  obtain ⟨h1, h2, h3, h4, h5⟩ := of_decide_eq_true h
  exact ⟨l, s, runInit_reach hp, ⟨Dict.items_eq_nil.1 h1, h2, Dict.items_eq_nil.1 h3⟩, fun hn => h4 hn.tasks, h5⟩

end Verif.Props
