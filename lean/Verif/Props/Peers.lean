import Verif.Sched.Peers
import Verif.Props.Report
import Verif.Client.Client
import Verif.Worker.Agent

/-!
# C68: who the scheduler's messages are for
-/

namespace Verif.Props

open Verif.Queue Verif.Util Verif.Wire Verif.Sched Verif.Spec

/-- **C68.** In every execution, every message that the scheduler has sent went to a peer that prompted it: tasks, cancels,
echoes and balance requests to a peer that sent a heartbeat; the answers for a task or graph to the peer that
submitted it; answers to function requests and disconnects to the peer that asked. -/
theorem C68_prompted (cfg : Config) (l : Log) (s : Sched) (hr : Reach cfg l s) (c : Bytes) (m : Message)
    (hm : (c, m) ∈ s.out) : Prompted l c m := hr.peers.out c m hm

/-- **C68.** Hence a peer that behaves as a client gets only messages of the kinds that a client takes. -/
theorem C68_client (cfg : Config) (l : Log) (s : Sched) (hr : Reach cfg l s) (c : Bytes) (m : Message)
    (hm : (c, m) ∈ s.out) (hb : ¬ Beats l c) (hd : ∀ w, (c, .disconnectRequest w) ∉ l) : ForClient m := by
  have h := C68_prompted cfg l s hr c m hm
  cases m <;> simp only [Prompted] at h <;> first | trivial | exact absurd h hb | exact absurd h.2 hb | exact absurd h (hd _) | exact h.elim

/-- **C68.** And a peer that behaves as a worker gets only messages of the kinds that a worker takes. -/
theorem C68_worker (cfg : Config) (l : Log) (s : Sched) (hr : Reach cfg l s) (w : Bytes) (m : Message)
    (hm : (w, m) ∈ s.out) (ht : ∀ k, (w, .task k) ∉ l) (hg : ∀ g, (w, .graphTask g) ∉ l) (hd : ∀ w', (w, .disconnectRequest w') ∉ l) :
    ForWorker m := by
  have h := C68_prompted cfg l s hr w m hm
  have hno : ∀ t, ¬ Gave l w t := by
    rintro t (⟨k, h, -⟩ | ⟨g, h, -⟩)
    · exact ht k h
    · exact hg g h
  cases m <;> simp only [Prompted] at h <;>
    first | trivial | exact absurd h (hno _) | exact absurd h (hd _) | exact h.elim | exact (h.elim fun g hx => absurd hx.1 (hg g))

/-- **C68.** What these kinds are for: a client or worker that gets any other kind raises `TypeError`. -/
theorem C68_kinds (m : Message) :
    (¬ ForClient m → ∀ p c, Client.Client.receive p c m = .error .typeError) ∧
    (¬ ForWorker m → ∀ a now, Worker.Agent.receive a now m = .error .typeError) := by
  constructor <;> intro h <;> cases m <;> first | exact absurd trivial h | (intros; rfl)

/-- A run in which a client and a worker get most of these kinds. -/
def talkStory : List Event :=
  [ev (.recv wk (.heartbeat hb3)), addFn, submit [1], ev .taskRoutine, ev (.recv wk (.taskResult [1] .success 0 [7]))]

example : ((runInit cfg0 talkStory).map fun p => p.2.out.map fun x => (x.1, x.2.type)) =
    some [(wk, .heartbeatEcho), (cl, .functionResponse), (cl, .taskEcho), (wk, .task), (cl, .taskResult)] := by
  decide +kernel

end Verif.Props
