import Verif.System.Causal
import Verif.Sched.Limit
import Verif.Props.Peers
import Verif.Props.System
import Verif.Props.ClientMessages

/-!
# Which messages end a client of a system
-/

namespace Verif.Props

open Verif.Wire Verif.Sched Verif.Spec Verif.System
open Verif.Spec.Client
open Verif.Client (Pickle FState)

variable {F V X : Type} {p : Pickle} {rt : Proc.Runtime F V X} {cfg : Config} {s s' : Sys F}

/-- What can still end a client of this system: an echo that there is no worker, if tasks may be refused at all; an
echo for a task whose future is not in the table (yet or any more); an answer that cannot be loaded, or whose future
was cancelled, or that has more parts than futures. -/
def EndsClient (p : Pickle) (cfg : Config) (c : Client.Client) : Message → Prop
  | .taskEcho t st => (unechoed t c.log).isSome ∧
    ((st = .noWorker ∧ 0 ≤ cfg.maxWaiting) ∨ (st = .submitOK ∧ openFuture t c.log = none))
  | .taskResult t st _ r => ∃ n, openFuture t c.log = some n ∧ (st = .success ∨ st = .failed) ∧ (p.loads r = false ∨ Cancelled c n)
  | .graphTaskResult g st rs => ∃ ns, openGraph g c.log = some ns ∧
    ((st = .success ∧ Stuck p c rs ns) ∨ (st = .failed ∧ StuckFailure p c rs ns))
  | _ => False

theorem clientSent_of (h : Inv p rt cfg s) {x : Bytes} {c : Client.Client} (hx : s.peers x = .client c) {m : Message} (hm : (x, m) ∈ s.received) :
    ∃ l, (∀ y ∈ l, y ∈ c.log) ∧ Proper p l (.sent m) := by
  have h1 := h.received hm
  rw [hx] at h1
  obtain ⟨a, ha, e⟩ := List.countP_pos_iff.1 h1
  have e' := of_decide_eq_true e
  subst e'
  exact h.clientSent hx ha

/-- **C80** in a system of these schedulers, clients and workers.  No other message that is under way to a client ends it: not
the answers about functions, not the echo that a function is unknown, and nothing of another kind. -/
theorem C80_system (hr : System.Reach p rt cfg s) {x : Bytes} {c : Client.Client} (hx : s.peers x = .client c) (hc : c.closed = false)
    {m : Message} (hm : (s.peers x).got m < s.sched.out.count (x, m)) :
    (∃ e, c.step p (.recv m) = .error e) ↔ EndsClient p cfg c m := by
  have hi := hr.inv
  have hout : (x, m) ∈ s.sched.out := List.count_pos_iff.1 (by omega)
  rw [C80_kills_partial (hi.client hx) hc m]
  have hfor : ForClient m := by
    refine C68_client cfg s.received s.sched hi.sched x m hout ?_ ?_
    · rintro ⟨hb, h⟩
      obtain ⟨l, -, h⟩ := clientSent_of hi hx h
      exact h
    · intro w h
      obtain ⟨l, -, h⟩ := clientSent_of hi hx h
      exact h
  have hst := hi.sched.statuses hout
  cases m with
  | taskEcho t st =>
    simp only [KillsClient, EndsClient]
    have hhalf : ¬ Half c t := by
      rintro ⟨k, nm, b, hu, rfl⟩
      have hk : c.user.unsent? = some k := by rw [hu]; rfl
      exact hi.unsent_echo hx hk (hr.causal x c k hx hk) st hout
    have hid : ∀ k, unechoed t c.log = some k → k.taskId = t := fun k hk =>
      ((hi.client hx).task.task t k (by rw [(hi.client hx).echo.task]; exact hk)).1
    rcases hst.2 t st rfl with rfl | rfl | rfl
    · constructor
      · rintro ⟨k, hk, h | h⟩
        · rw [hid k hk] at h; exact absurd h hhalf
        · rw [hid k hk] at h
          exact ⟨by rw [hk]; rfl, .inr ⟨rfl, h⟩⟩
      · rintro ⟨hk, ⟨h, -⟩ | ⟨-, h⟩⟩
        · cases h
        · obtain ⟨k, hk⟩ := Option.isSome_iff_exists.1 hk
          exact ⟨k, hk, .inr (by rw [hid k hk]; exact h)⟩
    · constructor
      · rintro ⟨k, hk, h, -⟩
        rw [hid k hk] at h; exact absurd h hhalf
      · rintro ⟨-, ⟨h, -⟩ | ⟨h, -⟩⟩ <;> cases h
    · constructor
      · rintro ⟨k, hk, -⟩
        exact ⟨by rw [hk]; rfl, .inl ⟨rfl, hi.sched.noWorker hout⟩⟩
      · rintro ⟨hk, -⟩
        obtain ⟨k, hk⟩ := Option.isSome_iff_exists.1 hk
        exact ⟨k, hk, trivial⟩
  | functionResponse st f nm b =>
    simp only [KillsClient, EndsClient, iff_false]
    rintro ⟨h1, h2⟩
    rcases hst.1 st f nm b rfl with h | h | ⟨ty, nm', b', hty, hreq, -⟩
    · exact h1 h
    · exact h2 h
    · obtain ⟨l, -, h⟩ := clientSent_of hi hx hreq
      exact hty h.1
  | taskResult t st d r => exact Iff.rfl
  | graphTaskResult g st rs => exact Iff.rfl
  | _ => exact hfor.elim

/-- A scheduler that lets one task wait. -/
def oneWaits : Sched.Config := ⟨1, 1000, 100, 100, 1, 2⟩

def tryOp (s : Sys Nat) (o : System.Op) : Sys Nat := (s.step plainPickle toy o).getD s

theorem tryOp_reach {cfg : Config} {s : Sys Nat} (h : System.Reach plainPickle toy cfg s) (os : List System.Op) :
    System.Reach plainPickle toy cfg (os.foldl tryOp s) := by
  induction os generalizing s with
  | nil => exact h
  | cons o os ih =>
    refine ih (s := tryOp s o) ?_
    unfold tryOp
    cases he : s.step plainPickle toy o with
    | none => exact h
    | some s' => exact .step o h he

/-- One client submits two tasks with the same function; there is no worker. -/
def refusedRun : Sys Nat :=
  let get (m : Message) : System.Op := .sched ⟨.recv [1] m, 5, fun _ => []⟩
  let fnReq : Message := .functionRequest .add [9] [5] [9]
  let k (t : Bytes) : Message := .task ⟨t, [9], []⟩
  ((.joinClient [1] :: (submitAll [11]).map (System.Op.client [1]) ++ (submitAll [12]).map (System.Op.client [1])) ++
    [.client [1] .flush, get fnReq, .client [1] (.recv (.functionResponse .ok [9] [] [])), .client [1] .flush, .client [1] .flush,
      get (k [11]), get (k [12]), .client [1] (.recv (.taskEcho [11] .submitOK))]).foldl tryOp (Sys.init oneWaits)

/-- Two tasks, one place: the first is accepted, the echo of the second ends the client, and with it the future of the first
task, although that task runs when a worker comes. -/
theorem C80_refused : ∃ s : Sys Nat, System.Reach plainPickle toy oneWaits s ∧ ∃ c, s.peers [1] = .client c ∧ c.closed = false ∧
    c.futures = [.running, .pending] ∧ (s.peers [1]).got (.taskEcho [12] .noWorker) < s.sched.out.count ([1], .taskEcho [12] .noWorker) ∧
    EndsClient plainPickle oneWaits c (.taskEcho [12] .noWorker) := by
  refine ⟨refusedRun, tryOp_reach .init _, ?_⟩
  have h : (clientAt refusedRun [1]).map (fun c => decide (c.closed = false ∧ c.futures = [.running, .pending] ∧
      (refusedRun.peers [1]).got (.taskEcho [12] .noWorker) < refusedRun.sched.out.count ([1], .taskEcho [12] .noWorker) ∧
      (unechoed [12] c.log).isSome = true)) = some true := by decide +kernel
  obtain ⟨c, hc, hd⟩ := Option.map_eq_some_iff.1 h
  obtain ⟨h1, h2, h3, h4⟩ := of_decide_eq_true hd
  exact ⟨c, clientAt_eq hc, h1, h2, h3, h4, .inl ⟨rfl, by decide⟩⟩

end Verif.Props
