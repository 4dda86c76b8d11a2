import Verif.System.Steady
import Verif.System.Asked

/-!
# A worker that keeps its tasks gets the functions it asks for

If no worker with a task is given up and no task is cancelled, the scheduler knows every task a worker has, and hence
its function: it never refuses a function to a worker.
-/

namespace Verif.System

open Verif.Wire Verif.Sched Verif.Spec
open Verif.Client (Pickle)

variable {F V X : Type} {p : Pickle} {rt : Proc.Runtime F V X} {cfg : Config} {s s' : Sys F} {P : Bytes → Prop} {t : Bytes}

theorem weigh_split (t : Bytes) (l : List Message) {st : TaskStatus} {d : UInt32} {r : Bytes} (h : Message.taskResult t st d r ∈ l) (hst : st ≠ .notFound) :
    weigh (backWeight t) l + 1 ≤ weigh (endWeight t) l := by
  induction l with
  | nil => cases h
  | cons m l ih =>
    rw [weigh_cons, weigh_cons]
    rcases List.mem_cons.1 h with rfl | h
    · have := back_le_end t l
      have : endWeight t (.taskResult t st d r) = 1 := by simp [endWeight, hst]
      have : backWeight t (.taskResult t st d r) = 0 := rfl
      omega
    · have := ih h
      have : backWeight t m ≤ endWeight t m := by cases m <;> simp [backWeight, endWeight]
      omega

/-- The copies of a task at a worker. -/
theorem Holds.pos {a : Worker.Agent} (h : Holds a t) : 1 ≤ a.pend t + a.runs t := by
  unfold Worker.Agent.pend Worker.Agent.runs
  rcases h with h | ⟨k, rfl, h⟩ | ⟨k, rfl, h⟩
  · have := List.count_pos_iff.2 h; omega
  · rcases h with h | ⟨b, h⟩ <;> (simp [h, Worker.Pos.count, Worker.Pos.task?]; omega)
  · simp [h]

/-- A result from a worker that ends no stay there answers a cancellation. -/
theorem Inv.notFound (h : Inv p rt cfg s) {x : Bytes} {d : UInt32} {r : Bytes} (hm : (x, Message.taskResult t .notFound d r) ∈ s.received) :
    (x, Message.taskCancel t) ∈ s.sched.out := by
  rcases Peer.sent_pos (h.received hm) with ⟨c, hx, hc⟩ | ⟨a, ret, qs, left, hx, hc⟩
  · obtain ⟨l, -, h3⟩ := h.clientSent hx hc
    exact h3.elim
  · rcases hc with ⟨now, hc⟩ | ⟨id, -, hc⟩
    · rcases h.workerSent hx hc with ⟨-, now, h1⟩ | ⟨now, h1⟩
      · have h2 := h.got x (.taskCancel t)
        rw [hx] at h2
        have : 0 < (Peer.worker a ret qs left : Peer F).got (.taskCancel t) := List.countP_pos_iff.2 ⟨_, h1, by simp⟩
        exact List.count_pos_iff.1 (by omega)
      · exact absurd (Props.agent_honest h hx _ h1 _ rfl) (by simp [Worker.FromProcessor])
    · cases hc

/-- The scheduler knows the tasks of a worker that was not given up. -/
theorem Steady.held (h : Steady p rt cfg P s) (ht : P t) (hc : ∀ x, (x, Message.taskCancel t) ∉ s.sched.out) {w : Bytes} {a : Worker.Agent} {ret : Int}
    {qs : List (Proc.Proc F)} {left : Option Bytes} (hx : s.peers w = .worker a ret qs left) (hh : Holds a t) :
    s.sched.abs.worker t = some w := by
  have hi := h.reach.inv
  have hs := h.single ht
  have h1 : weigh (endWeight t) (withPeer w s.received) ≤ weigh (endWeight t) (sentBy a.log) := by
    refine weigh_le fun m hm => ?_
    rw [withPeer_count, sentBy_count]
    have := hi.heard w m
    rw [hx] at this
    simp only [Peer.sent] at this
    split at this
    · next e =>
      cases left with
      | none => cases e
      | some id => cases e; exact absurd rfl hm
    · exact this
  have h2 : weigh (taskWeight t) (gotBy a.log) ≤ sentTo s t w := by
    refine weigh_le fun m _ => ?_
    rw [withPeer_count, gotBy_count]
    have := hi.got w m
    rw [hx] at this
    exact this
  have h3 := Props.agent_balance hi hx t
  have h4 := Holds.pos hh
  have h5 : backFrom s t w ≤ weigh (endWeight t) (withPeer w s.received) := back_le_end t _
  rcases hs.kept w (by omega) with h6 | ⟨x, st, d, r, h6⟩
  · exact hs.here w h6 (by omega)
  · by_cases hst : st = .notFound
    · subst hst
      exact absurd (hi.notFound h6) (hc x)
    · have h7 := weigh_split t (withPeer x s.received) (withPeer_mem h6) hst
      have h8 := Props.ends_le hi hi rfl t x
      have h9 := hs.once w
      have : x = w := by
        refine hs.one x w ?_ (by omega)
        unfold backFrom sentTo; omega
      subst this
      unfold backFrom at *
      omega

end Verif.System
