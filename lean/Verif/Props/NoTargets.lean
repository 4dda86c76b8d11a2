import Verif.Props.ClientMessages
import Verif.Props.FinishRuns

/-!
# A graph of which nothing is asked (C80)

`get(graph, [])` is accepted (client.py 314-316 looks only at the keys that are given), runs the whole graph and makes no future.  A failure is answered with one
result whatever was asked (graph_manager.py 125), and the client looks for a future for it (client.py 228-231).
-/

namespace Verif.Props

open Verif.Wire Verif.Client Verif.System Verif.Spec Verif.Spec.Client

/-- C80: the failure of a graph of which nothing was asked ends the connector's thread, whatever the failure is. -/
theorem C80_no_target {p : Pickle} {c : Client.Client} (hr : Client.Reach p c) (hc : c.closed = false) {g : Bytes}
    (ho : openGraph g c.log = some []) (rs : List Bytes) : ∃ e, c.step p (.recv (.graphTaskResult g .failed rs)) = .error e := by
  refine (C80_kills_partial hr hc _).2 ⟨[], ho, .inr ⟨rfl, ?_⟩⟩
  cases rs with
  | nil => exact .inl rfl
  | cons r rs => exact .inr (.inr (.inl (by simp)))

/-- A client that asks for nothing of a graph whose first function raises; 28 rounds later the user submits a task. -/
def nothingAsked : Sys Nat := ((submitAll [10]).map (System.Op.client [1])).foldl tryStep (systemRun (.get [1] [[20], [21]] [30] raisingGraph []) 28)

theorem nothingAsked_reach : System.Reach plainPickle toy wide nothingAsked := foldl_reach (systemRun_reach _ _) _

/-- **The claim is false**: the user calls `get(graph, [])`, which returns at once, a function of the graph raises, and the answer of the scheduler
ends the connector's thread: the task that was submitted meanwhile stays pending. -/
theorem C80_nothing_asked : ∃ s c, System.Reach plainPickle toy wide s ∧ s.peers [1] = .client c ∧ c.closed = false ∧ c.futures = [.pending] ∧
    Act.returned [10] 0 ∈ c.log ∧ (∃ k ∈ s.gets, k.client = [1] ∧ k.message.taskId = [30] ∧ k.keys = []) ∧
    (s.peers [1]).got (.graphTaskResult [30] .failed [[5]]) < s.sched.out.count ([1], .graphTaskResult [30] .failed [[5]]) ∧
    c.step plainPickle (.recv (.graphTaskResult [30] .failed [[5]])) = .error .indexError := by
  have h : (clientAt nothingAsked [1]).map (fun c => (decide (c.closed = false ∧ c.futures = [.pending] ∧ Act.returned [10] 0 ∈ c.log),
      nothingAsked.gets.any (fun k => decide (k.client = [1] ∧ k.message.taskId = [30] ∧ k.keys = [])),
      decide ((nothingAsked.peers [1]).got (.graphTaskResult [30] .failed [[5]]) < nothingAsked.sched.out.count ([1], .graphTaskResult [30] .failed [[5]])),
      match c.step plainPickle (.recv (.graphTaskResult [30] .failed [[5]])) with
        | .error e => some e
        | .ok _ => none)) = some (true, true, true, some .indexError) := by decide +kernel
  obtain ⟨c, hc, h⟩ := Option.map_eq_some_iff.1 h
  simp only [Prod.mk.injEq, decide_eq_true_eq, List.any_eq_true] at h
  obtain ⟨⟨h1, h2, h3⟩, ⟨k, hk, h4⟩, h5, h6⟩ := h
  refine ⟨nothingAsked, c, nothingAsked_reach, clientAt_eq hc, h1, h2, h3, ⟨k, hk, h4⟩, h5, ?_⟩
  split at h6
  · next he => cases h6; exact he
  · cases h6

/-- The hypotheses of `C80_no_target` can be met. -/
example : ∃ c, Client.Reach plainPickle c ∧ c.closed = false ∧ openGraph [30] c.log = some [] := by
  have h : clientWitness [.get ⟨[30], Dict.empty, [], []⟩, .advance] (fun c => decide (c.closed = false ∧ openGraph [30] c.log = some [])) = some true := by decide +kernel
  obtain ⟨c, hr, hc⟩ := clientWitness_sound h
  exact ⟨c, hr, of_decide_eq_true hc⟩

end Verif.Props
