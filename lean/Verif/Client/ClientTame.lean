import Verif.Client.ClientAlone
import Verif.Client.ClientFutures
import Verif.Props.ClientMessages
import Verif.Props.Wire

/-!
# Clients whose users cancel nothing

Lemmas.  The user calls `submit` and `get`, cancels nothing and stays; messages are handled between the calls.
-/

namespace Verif.Client

open Verif.Wire Verif.Spec Verif.Spec.Client

/-- What happens to such a client. -/
def TameOp (c : Client) : Op → Prop
  | .submit t _ _ _ => t ∉ usedIds c.log
  | .get g => FreshOp c (.get g) ∧ sendable (.graphTask g)
  | .advance => True
  | .flush => True
  | .recv _ => c.user = .idle
  | _ => False

/-- The states of such a client. -/
inductive Tame (p : Pickle) : Client → Prop where
  | init : Tame p Client.init
  | step {c c' : Client} (o : Op) (h : Tame p c) (ho : TameOp c o) (e : c.step p o = .ok c') : Tame p c'

variable {p : Pickle} {c c' : Client}

theorem Tame.alone (h : Tame p c) : ReachAlone p c := by
  induction h with
  | init => exact .init
  | step o h ho e ih =>
    refine .step o ih ?_ ?_ e
    · cases o <;> first | exact ho.1 | exact ho | exact trivial | exact ho.elim
    · cases o <;> first | exact ho | exact trivial

/-- What is left alone. -/
structure TameInv (c : Client) : Prop where
  open' : c.closed = false
  graph : ∀ g, Act.graph g ∈ c.log → sendable (.graphTask g)
  futures : ∀ n, ¬ Cancelled c n
  fn : ∀ k, c.user = .check k ∨ c.user = .request k → (c.toFunction.get? k.taskId).isSome
  ret : ∀ k nm b, Act.submitted k nm b ∈ c.log → c.user.task? = some k ∨ ∃ n, Act.returned k.taskId n ∈ c.log

/-- Only futures and tables change; one message is noted. -/
structure Shifts (c c' : Client) : Prop where
  closed : c'.closed = c.closed
  user : c'.user = c.user
  log : ∀ x ∈ c'.log, x ∈ c.log ∨ ∃ m, x = .recv m
  log' : ∀ x ∈ c.log, x ∈ c'.log
  futures : (∀ n, ¬ Cancelled c n) → ∀ n, ¬ Cancelled c' n

theorem Shifts.rfl : Shifts c c := ⟨by rfl, by rfl, fun _ => .inl, fun _ => id, fun h => h⟩

theorem Shifts.trans {c'' : Client} (h : Shifts c c') (h' : Shifts c' c'') : Shifts c c'' :=
  ⟨h'.closed.trans h.closed, h'.user.trans h.user, fun x hx => (h'.log x hx).elim (h.log x) .inr, fun x hx => h'.log' x (h.log' x hx),
    fun hf => h'.futures (h.futures hf)⟩

theorem setFuture_moves {n : Nat} {f : FState → Py FState} (hf : ∀ s s', s ≠ .cancelled → f s = .ok s' → s' ≠ .cancelled ∧ s' ≠ .notified)
    (e : c.setFuture n f = .ok c') : Shifts c c' := by
  obtain ⟨s, s', h1, h2, rfl⟩ := setFuture_ok e
  refine ⟨rfl, rfl, fun _ => .inl, fun _ => id, fun h m hm => ?_⟩
  by_cases hnm : n = m
  · subst hnm
    have hs := hf s s' (fun e => h n (.inl (by rw [h1, e]))) h2
    have hlt := (List.getElem?_eq_some_iff.1 h1).1
    simp only [Cancelled, List.getElem?_set_self hlt, Option.some.injEq] at hm
    exact hm.elim hs.1 hs.2
  · simp only [Cancelled, List.getElem?_set_ne hnm] at hm
    exact h m hm

theorem finish_moves {x : FState} (hx : x ≠ .cancelled ∧ x ≠ .notified) (s s' : FState) (_ : s ≠ .cancelled) (e : FState.finish x s = .ok s') :
    s' ≠ .cancelled ∧ s' ≠ .notified := by
  cases s <;> cases e <;> exact hx

theorem bufferSend_moves {k : Task} (e : c.bufferSend k = .ok c') : Shifts c c' := by
  unfold Client.bufferSend at e
  split at e
  · cases e; exact ⟨rfl, rfl, fun _ => .inl, fun _ => id, fun h => h⟩
  · simp only [Py.bind_ok, Client.requestFunction] at e
    obtain ⟨_, ⟨_, -, e1⟩, e⟩ := e
    cases e1; cases e
    exact ⟨rfl, rfl, fun _ => .inl, fun _ => id, fun h => h⟩

theorem resolveAll_moves {f : Bytes → Py FState} (hf : ∀ r x, f r = .ok x → x ≠ .cancelled ∧ x ≠ .notified) :
    ∀ {rs : List Bytes} {ns : List Nat} {c c' : Client}, c.resolveAll f rs ns = .ok c' → Shifts c c'
  | [], _, c, c', e => by cases e; exact .rfl
  | _ :: _, [], c, c', e => by cases e
  | r :: rs, n :: ns, c, c', e => by
    simp only [Client.resolveAll, Py.bind_ok] at e
    obtain ⟨x, h1, c1, h2, e⟩ := e
    exact (setFuture_moves (finish_moves (hf r x h1)) h2).trans (resolveAll_moves hf e)

theorem receive_moves {m : Message} (e : c.receive p m = .ok c') : Shifts c c' := by
  have hn : Shifts c (c.note (.recv m)) := by
    refine ⟨rfl, rfl, fun x hx => ?_, fun x hx => List.mem_append_left _ hx, fun h => h⟩
    rcases List.mem_append.1 hx with hx | hx
    · exact .inl hx
    · exact .inr ⟨m, List.mem_singleton.1 hx⟩
  unfold Client.receive at e
  cases m with
  | taskEcho t st =>
    refine hn.trans ?_
    simp only at e
    generalize c.note (.recv (.taskEcho t st)) = c1 at e
    unfold Client.onTaskEcho at e
    split at e
    · cases e; exact .rfl
    · split at e
      · cases e; exact .rfl
      · exact bufferSend_moves e
      · cases e
      · simp only [Py.bind_ok] at e
        obtain ⟨⟨_, ts⟩, -, ⟨_, fs⟩, -, n, -, e⟩ := e
        have h1 : Shifts c1 { c1 with toTask := ts, toFunction := fs } := ⟨rfl, rfl, fun _ => .inl, fun _ => id, fun h => h⟩
        refine h1.trans (setFuture_moves (fun s s' hs e => ?_) e)
        cases s <;> cases e
        · exact ⟨nofun, nofun⟩
        · exact absurd rfl hs
      · cases e
      · cases e
  | functionResponse st fid nm b =>
    refine hn.trans ?_
    simp only [Client.onFunctionResponse, Py.bind_ok] at e
    obtain ⟨_, -, e⟩ := e
    split at e <;> cases e <;> exact ⟨rfl, rfl, fun _ => .inl, fun _ => id, fun h => h⟩
  | taskResult t st d r =>
    refine hn.trans ?_
    simp only at e
    generalize c.note (.recv (.taskResult t st d r)) = c1 at e
    unfold Client.onTaskResult at e
    split at e
    · cases e; exact .rfl
    · have h1 : Shifts c1 { c1 with toFuture := c1.toFuture.erase t } := ⟨rfl, rfl, fun _ => .inl, fun _ => id, fun h => h⟩
      refine h1.trans ?_
      simp only at e
      split at e
      · simp only [Py.bind_ok] at e
        obtain ⟨_, -, e⟩ := e
        refine setFuture_moves (finish_moves ?_) e; exact ⟨nofun, nofun⟩
      · simp only [Py.bind_ok] at e
        obtain ⟨_, -, e⟩ := e
        refine setFuture_moves (finish_moves ?_) e; exact ⟨nofun, nofun⟩
      · cases e; exact .rfl
  | graphTaskResult g st rs =>
    refine hn.trans ?_
    simp only at e
    generalize c.note (.recv (.graphTaskResult g st rs)) = c1 at e
    unfold Client.onGraphTaskResult at e
    split at e
    · cases e; exact .rfl
    · have h1 : Shifts c1 { c1 with graphs := c1.graphs.erase g } := ⟨rfl, rfl, fun _ => .inl, fun _ => id, fun h => h⟩
      refine h1.trans ?_
      simp only at e
      split at e
      · refine resolveAll_moves (fun r x hx => ?_) e
        split at hx <;> cases hx
        exact ⟨nofun, nofun⟩
      · simp only [Py.bind_ok] at e
        obtain ⟨_, -, _, -, e⟩ := e
        refine resolveAll_moves (fun r x hx => ?_) e
        cases hx
        exact ⟨nofun, nofun⟩
      · cases e; exact .rfl
  | _ => cases e

theorem Tame.calm (h : Tame p c) : TameInv c := by
  induction h with
  | init => exact ⟨rfl, nofun, fun n h => by simp [Cancelled, Client.init] at h, fun k hk => by simp [Client.init] at hk, nofun⟩
  | @step c c' o h ho e ih =>
    cases o with
    | submit t nm b args =>
      simp only [Client.step] at e
      split at e
      · next hu =>
        cases e
        refine ⟨ih.open', fun g hg => ?_, ih.futures, nofun, fun k nm' b' hk => ?_⟩
        · rcases List.mem_append.1 hg with hg | hg
          · exact ih.graph g hg
          · cases List.mem_singleton.1 hg
        · rcases List.mem_append.1 hk with hk | hk
          · rcases ih.ret k nm' b' hk with h1 | ⟨n, h1⟩
            · rw [hu] at h1; cases h1
            · exact .inr ⟨n, List.mem_append_left _ h1⟩
          · cases List.mem_singleton.1 hk
            exact .inl rfl
      · cases e; exact ih
    | get m =>
      simp only [Client.step] at e
      split at e
      · next hu =>
        cases e
        have hlog : (c.get m).log = c.log ++ [.graph m] := by simp [Client.get, Client.note, Client.send]
        refine ⟨ih.open', fun g hg => ?_, fun n hn => ?_, fun k hk => (by rcases hk with hk | hk <;> cases hk), fun k nm' b' hk => ?_⟩
        · rw [hlog] at hg
          rcases List.mem_append.1 hg with hg | hg
          · exact ih.graph g hg
          · cases List.mem_singleton.1 hg
            exact ho.2
        · simp only [Cancelled, Client.get, List.getElem?_append, List.getElem?_map] at hn
          split at hn
          · exact ih.futures n hn
          · rcases hn with hn | hn <;> rw [Option.map_eq_some_iff] at hn <;> obtain ⟨_, -, hn⟩ := hn <;> cases hn
        · rw [hlog] at hk
          rcases List.mem_append.1 hk with hk | hk
          · rcases ih.ret k nm' b' hk with h1 | ⟨n, h1⟩
            · rw [hu] at h1; cases h1
            · exact .inr ⟨n, by rw [hlog]; exact List.mem_append_left _ h1⟩
          · cases List.mem_singleton.1 hk
      · cases e; exact ih
    | advance =>
      simp only [Client.step, Client.advance] at e
      split at e
      · cases e; exact ih
      · next k nm b hu =>
        cases e
        refine ⟨ih.open', ih.graph, ih.futures, fun k' hk' => ?_, fun k' nm' b' hk' => ?_⟩
        · rcases hk' with hk' | hk' <;> cases hk'
          simp [Dict.get?_set]
        · rcases ih.ret k' nm' b' hk' with h1 | h1
          · rw [hu] at h1; cases h1; exact .inl rfl
          · exact .inr h1
      · next k hu =>
        cases e
        refine ⟨ih.open', ih.graph, ih.futures, fun k' hk' => ?_, fun k' nm' b' hk' => ?_⟩
        · refine ih.fn k' (.inl ?_)
          dsimp only at hk'
          split at hk' <;> rcases hk' with hk' | hk' <;> cases hk'
          exact hu
        · rcases ih.ret k' nm' b' hk' with h1 | h1
          · rw [hu] at h1; cases h1; left; dsimp only; split <;> rfl
          · exact .inr h1
      · next k hu =>
        simp only [Py.bind_ok, Client.requestFunction] at e
        obtain ⟨_, ⟨_, -, e1⟩, e⟩ := e
        cases e1; cases e
        refine ⟨ih.open', ih.graph, ih.futures, fun k' hk' => (by rcases hk' with hk' | hk' <;> cases hk'), fun k' nm' b' hk' => ?_⟩
        rcases ih.ret k' nm' b' hk' with h1 | h1
        · rw [hu] at h1; cases h1; exact .inl rfl
        · exact .inr h1
      · next k hu =>
        cases e
        refine ⟨ih.open', ih.graph, ih.futures, fun k' hk' => (by rcases hk' with hk' | hk' <;> cases hk'), fun k' nm' b' hk' => ?_⟩
        rcases ih.ret k' nm' b' hk' with h1 | h1
        · rw [hu] at h1; cases h1; exact .inl rfl
        · exact .inr h1
      · next k hu =>
        cases e
        refine ⟨ih.open', fun g hg => ?_, fun n hn => ?_, fun k' hk' => (by rcases hk' with hk' | hk' <;> cases hk'), fun k' nm' b' hk' => ?_⟩
        · rcases List.mem_append.1 hg with hg | hg
          · exact ih.graph g hg
          · cases List.mem_singleton.1 hg
        · simp only [Cancelled, List.getElem?_append] at hn
          split at hn
          · exact ih.futures n hn
          · rcases hn with hn | hn <;> rw [List.getElem?_singleton] at hn <;> split at hn <;> cases hn
        · rcases List.mem_append.1 hk' with hk' | hk'
          · rcases ih.ret k' nm' b' hk' with h1 | ⟨n, h1⟩
            · rw [hu] at h1; cases h1
              exact .inr ⟨_, List.mem_append_right _ List.mem_cons_self⟩
            · exact .inr ⟨n, List.mem_append_left _ h1⟩
          · cases List.mem_singleton.1 hk'
      · next g ns hu =>
        cases e
        refine ⟨ih.open', fun g' hg => ?_, ih.futures, fun k' hk' => (by rcases hk' with hk' | hk' <;> cases hk'), fun k' nm' b' hk' => ?_⟩
        · rcases List.mem_append.1 hg with hg | hg
          · exact ih.graph g' hg
          · cases List.mem_singleton.1 hg
        · rcases List.mem_append.1 hk' with hk' | hk'
          · rcases ih.ret k' nm' b' hk' with h1 | ⟨n, h1⟩
            · rw [hu] at h1; cases h1
            · exact .inr ⟨n, List.mem_append_left _ h1⟩
          · cases List.mem_singleton.1 hk'
    | flush =>
      simp only [Client.step, ih.open', Bool.false_eq_true, if_false, Client.flush] at e
      split at e
      · cases e; exact ih
      · simp only [Py.bind_ok] at e
        obtain ⟨_, -, e⟩ := e
        cases e
        refine ⟨ih.open', fun g hg => ?_, ih.futures, ih.fn, fun k nm' b' hk => ?_⟩
        · rcases List.mem_append.1 hg with hg | hg
          · exact ih.graph g hg
          · cases List.mem_singleton.1 hg
        · rcases List.mem_append.1 hk with hk | hk
          · rcases ih.ret k nm' b' hk with h1 | ⟨n, h1⟩
            · exact .inl h1
            · exact .inr ⟨n, List.mem_append_left _ h1⟩
          · cases List.mem_singleton.1 hk
    | recv m =>
      have hu : c.user = .idle := ho
      simp only [Client.step, ih.open', Bool.false_eq_true, if_false] at e
      have hm := receive_moves e
      refine ⟨hm.closed.trans ih.open', fun g hg => ?_, hm.futures ih.futures, fun k hk => ?_, fun k nm b hk => ?_⟩
      · rcases hm.log _ hg with hg | ⟨m', hg⟩
        · exact ih.graph g hg
        · cases hg
      · rw [hm.user, hu] at hk; rcases hk with hk | hk <;> cases hk
      · rcases hm.log _ hk with hk | ⟨m', hk⟩
        · rcases ih.ret k nm b hk with h1 | ⟨n, h1⟩
          · rw [hu] at h1; cases h1
          · exact .inr ⟨n, hm.log' _ h1⟩
        · cases hk
    | _ => exact ho.elim

/-- Everything such a client wants to send can be sent. -/
theorem Tame.outbox (h : Tame p c) {m : Message} (hm : m ∈ c.outbox) : sendable m := by
  have := h.alone.reach.task.out m hm
  cases m with
  | graphTask g => exact h.calm.graph g this
  | task | functionRequest => exact trivial
  | _ => exact this.elim

/-- The user's thread never fails. -/
theorem Tame.advance (h : Tame p c) : ∃ c', c.step p .advance = .ok c' := by
  simp only [Client.step, Client.advance]
  split
  · exact ⟨_, rfl⟩
  · exact ⟨_, rfl⟩
  · exact ⟨_, rfl⟩
  · next k hu =>
    obtain ⟨⟨nm, b⟩, hv⟩ := Option.isSome_iff_exists.1 (h.calm.fn k (.inr hu))
    simp only [Client.requestFunction, Dict.getPy, hv]
    exact ⟨_, rfl⟩
  all_goals exact ⟨_, rfl⟩

theorem Tame.flush (h : Tame p c) : ∃ c', c.step p .flush = .ok c' := by
  simp only [Client.step, h.calm.open', Bool.false_eq_true, if_false, Client.flush]
  split
  · exact ⟨_, rfl⟩
  · next m ms ho =>
    obtain ⟨fs, hf⟩ := (Props.C03_sendable m).2 (h.outbox (by rw [ho]; exact List.mem_cons_self))
    rw [hf]
    exact ⟨_, rfl⟩

theorem openFuture_or {t : Bytes} {n : Nat} : ∀ {l : Hist}, Act.returned t n ∈ l → (openFuture t l).isSome ∨ ∃ st d r, Act.recv (.taskResult t st d r) ∈ l := by
  have key : ∀ (l : Hist) (s : Option Nat), s.isSome → (l.foldl (fun s x => futureStep t x s) s).isSome ∨ ∃ st d r, Act.recv (.taskResult t st d r) ∈ l := by
    intro l
    induction l with
    | nil => exact fun s hs => .inl hs
    | cons x l ih =>
      intro s hs
      rw [List.foldl_cons]
      by_cases hx : ∃ st d r, x = Act.recv (.taskResult t st d r)
      · obtain ⟨st, d, r, rfl⟩ := hx
        exact .inr ⟨st, d, r, List.mem_cons_self⟩
      · have : (futureStep t x s).isSome := by
          unfold futureStep
          split
          · split
            · rfl
            · exact hs
          · split
            · next e => exact absurd ⟨_, _, _, by rw [e]⟩ hx
            · exact hs
          · exact hs
        rcases ih _ this with h | ⟨st, d, r, h⟩
        · exact .inl h
        · exact .inr ⟨st, d, r, List.mem_cons_of_mem _ h⟩
  intro l hl
  obtain ⟨l₁, l₂, rfl⟩ := List.append_of_mem hl
  unfold openFuture
  rw [List.foldl_append, List.foldl_cons]
  rcases key l₂ (futureStep t (.returned t n) (l₁.foldl (fun s x => futureStep t x s) none)) (by simp [futureStep]) with h | ⟨st, d, r, h⟩
  · exact .inl h
  · exact .inr ⟨st, d, r, List.mem_append_right _ (List.mem_cons_of_mem _ h)⟩

/-- A returned future is in the table until the result arrives. -/
theorem Tame.openFuture (h : Tame p c) (hu : c.user = .idle) {t : Bytes} {k : Task} (hk : unechoed t c.log = some k) (hn : openFuture t c.log = none) :
    ∃ st d r, Act.recv (.taskResult t st d r) ∈ c.log := by
  have hid := h.alone.reach.task.task t k (by rw [h.alone.reach.echo.task]; exact hk)
  obtain ⟨rfl, nm, b, hs, -⟩ := hid
  rcases h.calm.ret k nm b hs with h1 | ⟨n, h1⟩
  · rw [hu] at h1; cases h1
  · rcases openFuture_or h1 with h2 | h2
    · rw [hn] at h2; cases h2
    · exact h2

theorem TameOp.submits {o : Op} (ho : TameOp c o) (e : c.step p o = .ok c') {k : Task} {nm b : Bytes} (h : Act.submitted k nm b ∈ c'.log) :
    Act.submitted k nm b ∈ c.log ∨ ∃ t args, o = .submit t nm b args := by
  cases o with
  | submit t nm' b' args =>
    simp only [Client.step] at e
    split at e
    · cases e
      simp only [Client.submit, Client.note, List.mem_append, List.mem_singleton] at h
      rcases h with h | h
      · exact .inl h
      · cases h; exact .inr ⟨_, _, rfl⟩
    · cases e; exact .inl h
  | get m =>
    simp only [Client.step] at e
    split at e
    · cases e
      have hlog : (c.get m).log = c.log ++ [.graph m] := by simp [Client.get, Client.note, Client.send]
      rw [hlog] at h
      rcases List.mem_append.1 h with h | h
      · exact .inl h
      · cases List.mem_singleton.1 h
    · cases e; exact .inl h
  | recv m =>
    simp only [Client.step] at e
    split at e
    · cases e; exact .inl h
    · rw [receive_log e] at h
      simpa using h
  | advance =>
    left
    simp only [Client.step, Client.advance] at e
    split at e
    · cases e; exact h
    · cases e; exact h
    · cases e; exact h
    · simp only [Py.bind_ok, Py.pure_eq, Except.ok.injEq] at e
      obtain ⟨c1, h1, rfl⟩ := e
      unfold Client.requestFunction at h1
      simp only [Py.bind_ok, Py.pure_eq, Except.ok.injEq] at h1
      obtain ⟨_, -, rfl⟩ := h1
      exact h
    · cases e; exact h
    · cases e
      simpa [Client.note] using h
    · cases e
      simpa [Client.note] using h
  | flush =>
    left
    simp only [Client.step] at e
    split at e
    · cases e; exact h
    · simp only [Client.flush] at e
      split at e
      · cases e; exact h
      · simp only [Py.bind_ok, Py.pure_eq, Except.ok.injEq] at e
        obtain ⟨_, -, rfl⟩ := e
        simpa [Client.note] using h
  | _ => exact ho.elim

end Verif.Client
