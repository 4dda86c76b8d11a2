import Verif.Props.Client
import Verif.Spec.ClientMessages

/-!
# Which messages end a client, and answers that resolve nothing (C80)
-/

namespace Verif.Props

open Verif.Wire Verif.Client Verif.Spec.Client

theorem unechoed_snoc (t : Bytes) (l : Hist) (x : Act) : unechoed t (l ++ [x]) = echoStep t x (unechoed t l) := by
  simp [unechoed]

/-- What the tables of tasks and functions hold. -/
structure EchoInv (c : Client.Client) : Prop where
  task : ∀ t, c.toTask.get? t = unechoed t c.log
  fn : ∀ t, (c.toFunction.get? t).isSome ↔ (c.toTask.get? t).isSome ∧ ¬ Half c t
  half : ∀ t, Half c t → (c.toTask.get? t).isSome

theorem EchoInv.congr {c c' : Client.Client} (h : EchoInv c) (h1 : c'.toTask = c.toTask) (h2 : c'.toFunction = c.toFunction)
    (h3 : c'.user = c.user) (h4 : ∀ t, unechoed t c'.log = unechoed t c.log) : EchoInv c' := by
  have this : ∀ t, Half c' t ↔ Half c t := by intro t; unfold Half; rw [h3]
  refine ⟨fun t => by rw [h1, h4, h.task], fun t => ?_, fun t hh => ?_⟩
  · rw [h2, h1, this, h.fn]
  · rw [h1]; exact h.half t ((this t).mp hh)

theorem EchoInv.move {c c' : Client.Client} (h : EchoInv c) (h1 : c'.toTask = c.toTask) (h2 : c'.toFunction = c.toFunction)
    (h3 : ∀ t, ¬ Half c t) (h3' : ∀ t, ¬ Half c' t) (h4 : ∀ t, unechoed t c'.log = unechoed t c.log) : EchoInv c' := by
  refine ⟨fun t => by rw [h1, h4, h.task], fun t => ?_, fun t hh => absurd hh (h3' t)⟩
  rw [h2, h1, h.fn]; simp [h3, h3']

theorem bufferSend_same {c c' : Client.Client} {k : Task} (e : c.bufferSend k = .ok c') :
    c'.toTask = c.toTask ∧ c'.toFunction = c.toFunction ∧ c'.user = c.user ∧ c'.log = c.log := by
  unfold Client.Client.bufferSend at e
  split at e
  · cases e; exact ⟨rfl, rfl, rfl, rfl⟩
  · obtain ⟨c1, h1, h2⟩ := Py.bind_ok.mp e
    obtain ⟨nm, b, rfl⟩ := request_count h1
    cases h2; exact ⟨rfl, rfl, rfl, rfl⟩

theorem exitTasks_echo {l : List (Bytes × Nat)} {c c' : Client.Client} (h : EchoInv c) (e : c.exitTasks l = .ok c') : EchoInv c' := by
  induction l generalizing c with
  | nil => cases e; exact h
  | cons x l ih =>
    obtain ⟨t, n⟩ := x
    obtain ⟨c1, h1, h2⟩ := Py.bind_ok.mp e
    have ho := setFuture_only h1
    exact ih (h.congr ho.toTask ho.toFunction ho.user (fun t => by rw [ho.log]; simp [Client.Client.note, unechoed_snoc, echoStep])) h2

theorem exitGraphs_echo {l : List (Bytes × List Nat)} {c c' : Client.Client} (h : EchoInv c) (e : c.exitGraphs l = .ok c') : EchoInv c' := by
  induction l generalizing c with
  | nil => cases e; exact h
  | cons x l ih =>
    obtain ⟨t, n⟩ := x
    obtain ⟨c1, h1, h2⟩ := Py.bind_ok.mp e
    have ho := exitFutures_only h1
    exact ih (h.congr ho.toTask ho.toFunction ho.user (fun t => by rw [ho.log]; simp [Client.Client.note, unechoed_snoc, echoStep])) h2

theorem receive_echo {p : Pickle} {c c' : Client.Client} {m : Message} (h : EchoInv c) (e : c.receive p m = .ok c') : EchoInv c' := by
  have hl := receive_log e
  unfold Client.Client.receive at e
  cases m with
  | taskEcho t st =>
    simp only [Client.Client.onTaskEcho, Client.Client.note] at e
    split at e
    · rename_i hn
      cases e
      refine ⟨fun u => ?_, h.fn, h.half⟩
      show c.toTask.get? u = unechoed u (c.log ++ _)
      rw [unechoed_snoc, ← h.task]
      cases st <;> simp only [echoStep]
      split
      · subst_vars; exact hn
      · rfl
    · rename_i k hk
      cases st with
      | duplicated => cases e; exact h.congr rfl rfl rfl (fun u => by simp [unechoed_snoc, echoStep])
      | functionNotExists =>
        obtain ⟨h1, h2, h3, h4⟩ := bufferSend_same e
        exact h.congr h1 h2 h3 (fun u => by rw [h4]; simp [unechoed_snoc, echoStep])
      | noWorker => cases e
      | cancelOK => cases e
      | cancelFailed => cases e
      | submitOK =>
        obtain ⟨⟨_, ts⟩, h1, e⟩ := Py.bind_ok.mp e
        obtain ⟨⟨_, fs⟩, h2, e⟩ := Py.bind_ok.mp e
        obtain ⟨n, h3, e⟩ := Py.bind_ok.mp e
        have ho := setFuture_only e
        obtain ⟨k', hf, h2⟩ := Py.bind_ok.mp h2
        obtain ⟨_, _, h1⟩ := Py.bind_ok.mp h1
        cases h1; cases h2
        have hnot : ¬ Half c t := ((h.fn t).mp (by rw [Dict.getPy_ok.mp hf]; rfl)).2
        refine ⟨fun u => ?_, fun u => ?_, fun u hh => ?_⟩
        · rw [ho.toTask, ho.log, unechoed_snoc, ← h.task]
          simp only [echoStep, Dict.get?_erase]
        · have : Half c' u ↔ Half c u := by unfold Half; rw [ho.user]
          rw [ho.toTask, ho.toFunction, this]
          simp only [Dict.get?_erase]
          have := h.fn u
          by_cases hu : t = u
          · simp [hu]
          · simp [hu, this]
        · have hh' : Half c u := by unfold Half at hh ⊢; rw [ho.user] at hh; exact hh
          rw [ho.toTask]
          simp only [Dict.get?_erase]
          have := h.half u hh'
          by_cases hu : t = u
          · subst hu; exact absurd hh' hnot
          · simpa [hu] using this
  | functionResponse st fid a b =>
    simp only [Client.Client.onFunctionResponse] at e
    obtain ⟨_, _, e⟩ := Py.bind_ok.mp e
    split at e <;> cases e <;> exact h.congr rfl rfl rfl (fun u => by simp [Client.Client.note, unechoed_snoc, echoStep])
  | taskResult t st m r =>
    simp only [Client.Client.onTaskResult] at e
    have key : ∀ d : Client.Client, OnlyFutures { (c.note (.recv (.taskResult t st m r))) with toFuture := c.toFuture.erase t } d →
        EchoInv d := by
      intro d ho
      exact h.congr ho.toTask ho.toFunction ho.user (fun u => by rw [ho.log]; simp [Client.Client.note, unechoed_snoc, echoStep])
    split at e
    · cases e; exact h.congr rfl rfl rfl (fun u => by simp [Client.Client.note, unechoed_snoc, echoStep])
    · cases st with
      | success => obtain ⟨_, _, e⟩ := Py.bind_ok.mp e; exact key _ (setFuture_only e)
      | failed => obtain ⟨_, _, e⟩ := Py.bind_ok.mp e; exact key _ (setFuture_only e)
      | _ => cases e; exact key _ (OnlyFutures.refl _)
  | graphTaskResult g st rs =>
    simp only [Client.Client.onGraphTaskResult] at e
    have key : ∀ d : Client.Client, OnlyFutures { (c.note (.recv (.graphTaskResult g st rs))) with graphs := c.graphs.erase g } d →
        EchoInv d := by
      intro d ho
      exact h.congr ho.toTask ho.toFunction ho.user (fun u => by rw [ho.log]; simp [Client.Client.note, unechoed_snoc, echoStep])
    split at e
    · cases e; exact h.congr rfl rfl rfl (fun u => by simp [Client.Client.note, unechoed_snoc, echoStep])
    · cases st with
      | success => exact key _ (resolveAll_only e)
      | failed =>
        obtain ⟨_, _, e⟩ := Py.bind_ok.mp e
        obtain ⟨_, _, e⟩ := Py.bind_ok.mp e
        exact key _ (resolveAll_only e)
      | _ => cases e; exact key _ (OnlyFutures.refl _)
  | _ => cases e

theorem step_echo {p : Pickle} {c c' : Client.Client} {o : Client.Op} (ht : TaskInv p c) (h : EchoInv c) (hf : FreshOp c o)
    (e : c.step p o = .ok c') : EchoInv c' := by
  unfold Client.Client.step at e
  cases o with
  | submit t nm b args =>
    simp only at e
    split at e <;> cases e
    · rename_i hu
      simp only [FreshOp] at hf
      have hn : ∀ u, ¬ Half c u := by intro u ⟨k, nm, b, h, _⟩; rw [hu] at h; cases h
      have hnone : c.toTask.get? t = none := by
        rcases hk : c.toTask.get? t with _ | k
        · rfl
        · obtain ⟨rfl, nm, b, hm, _⟩ := ht.task t k hk
          exact absurd (ht.used _ _ _ hm) hf
      have hh : ∀ u, Half (c.submit p t nm b args) u ↔ u = t := by
        intro u
        constructor
        · rintro ⟨k, _, _, hs, rfl⟩; simp only [Client.Client.submit] at hs; cases hs; rfl
        · rintro rfl; exact ⟨_, _, _, rfl, rfl⟩
      refine ⟨fun u => ?_, fun u => ?_, fun u hu => ?_⟩
      · simp only [Client.Client.submit, Client.Client.note, unechoed_snoc, echoStep, Dict.get?_set, ← h.task]
      · rw [hh]
        simp only [Client.Client.submit, Client.Client.note, Dict.get?_set]
        have := h.fn u
        by_cases hut : t = u
        · subst hut
          simp [hnone] at this ⊢
          simpa using this
        · have hut' : u ≠ t := fun h => hut h.symm
          simp [hut, hut', this, hn]
      · rw [(hh u).mp hu]
        simp [Client.Client.submit, Client.Client.note, Dict.get?_set]
    · exact h
  | get g =>
    simp only at e
    split at e <;> cases e
    · rename_i hu
      exact h.move rfl rfl (by intro u ⟨k, nm, b, h, _⟩; rw [hu] at h; cases h)
        (by rintro u ⟨k, nm, b, h, _⟩; simp [Client.Client.get] at h)
        (fun u => by simp [Client.Client.get, Client.Client.send, Client.Client.note, unechoed_snoc, echoStep])
    · exact h
  | advance =>
    simp only [Client.Client.advance] at e
    have key : c.user.task? = c.user.task? := rfl
    split at e
    · cases e; exact h
    · rename_i k nm b hu
      cases e
      have hnot : ∀ x, ¬ Half { c with toFunction := c.toFunction.set k.taskId (nm, b), user := .check k } x := by
        rintro x ⟨_, _, _, h, _⟩; cases h
      refine ⟨h.task, fun u => ?_, fun u hh => absurd hh (hnot u)⟩
      have hh : Half c u ↔ k.taskId = u := by
        constructor
        · rintro ⟨k', _, _, hs, rfl⟩; rw [hu] at hs; cases hs; rfl
        · rintro rfl; exact ⟨_, _, _, hu, rfl⟩
      have h1 := h.fn u
      rw [hh] at h1
      simp only [Dict.get?_set, hnot]
      by_cases hk : k.taskId = u
      · subst hk
        simp [h.half _ ⟨_, _, _, hu, rfl⟩]
      · simp [hk, h1]
    · rename_i k hu
      cases e
      exact h.move rfl rfl (by intro u ⟨k, nm, b, h, _⟩; rw [hu] at h; cases h)
        (by rintro u ⟨_, _, _, h, _⟩; dsimp only at h; split at h <;> cases h) (fun _ => rfl)
    · rename_i k hu
      obtain ⟨c1, h1, h2⟩ := Py.bind_ok.mp e
      obtain ⟨nm, b, rfl⟩ := request_count h1
      cases h2
      exact h.move rfl rfl (by intro u ⟨k, nm, b, h, _⟩; rw [hu] at h; cases h)
        (by rintro u ⟨_, _, _, h, _⟩; cases h) (fun _ => rfl)
    · rename_i k hu
      cases e
      exact h.move rfl rfl (by intro u ⟨k, nm, b, h, _⟩; rw [hu] at h; cases h)
        (by rintro u ⟨_, _, _, h, _⟩; cases h) (fun _ => rfl)
    · rename_i k hu
      cases e
      exact h.move rfl rfl (by intro u ⟨k, nm, b, h, _⟩; rw [hu] at h; cases h)
        (by rintro u ⟨_, _, _, h, _⟩; cases h) (fun u => by simp [Client.Client.note, unechoed_snoc, echoStep])
    · rename_i g ns hu
      cases e
      exact h.move rfl rfl (by intro u ⟨k, nm, b, h, _⟩; rw [hu] at h; cases h)
        (by rintro u ⟨_, _, _, h, _⟩; cases h) (fun u => by simp [Client.Client.note, unechoed_snoc, echoStep])
  | cancel n => cases e; exact h.congr rfl rfl rfl (fun u => by simp [Client.Client.note, unechoed_snoc, echoStep])
  | disconnect => cases e; exact h.congr rfl rfl rfl (fun u => rfl)
  | recv m =>
    simp only at e
    split at e
    · cases e; exact h
    · exact receive_echo h e
  | flush =>
    simp only [Client.Client.flush] at e
    split at e
    · cases e; exact h
    · split at e
      · cases e; exact h
      · obtain ⟨_, _, e⟩ := Py.bind_ok.mp e
        cases e
        exact h.congr rfl rfl rfl (fun u => by simp [Client.Client.note, unechoed_snoc, echoStep])
  | exit =>
    simp only [Client.Client.exit] at e
    split at e
    · obtain ⟨c1, h1, e⟩ := Py.bind_ok.mp e
      obtain ⟨c2, h2, e⟩ := Py.bind_ok.mp e
      cases e
      exact (exitGraphs_echo (exitTasks_echo h h1) h2).congr rfl rfl rfl
        (fun u => by simp [Client.Client.note, unechoed_snoc, echoStep])
    · cases e; exact h

theorem _root_.Verif.Client.Reach.echo {p : Pickle} {c : Client.Client} (hr : Client.Reach p c) : EchoInv c := by
  induction hr with
  | init => exact ⟨fun t => rfl, fun t => ⟨fun h => by simp [Client.Client.init] at h, fun ⟨h, _⟩ => by simp [Client.Client.init] at h⟩,
      by rintro t ⟨_, _, _, h, _⟩; cases h⟩
  | step o hr hf e ih => exact step_echo hr.task ih hf e

/-! ### Futures that are still referred to -/

theorem mem_values {κ ν : Type} [DecidableEq κ] {d : Dict κ ν} {k : κ} {v : ν} (h : d.get? k = some v) : v ∈ d.values :=
  List.mem_map.2 ⟨(k, v), Dict.mem_items.2 h, rfl⟩

theorem graphs_nodup {c : Client.Client} (h : FutInv c) {g : Bytes} {ns : List Nat} (hg : c.graphs.get? g = some ns) : ns.Nodup := by
  have h1 := h.nodup
  simp only [Client.Client.refs, List.nodup_append] at h1
  exact (List.pairwise_flatten.1 h1.1.2.1).1 ns (mem_values hg)

theorem mem_values_iff {κ ν : Type} [DecidableEq κ] {d : Dict κ ν} {v : ν} : v ∈ d.values ↔ ∃ k, d.get? k = some v := by
  constructor
  · intro h
    obtain ⟨⟨k, w⟩, h1, rfl⟩ := List.mem_map.1 h
    exact ⟨k, Dict.mem_items.1 h1⟩
  · rintro ⟨k, h⟩; exact mem_values h

theorem mem_refs {c : Client.Client} {n : Nat} : n ∈ c.refs ↔
    (∃ t, c.toFuture.get? t = some n) ∨ (∃ g ns, c.graphs.get? g = some ns ∧ n ∈ ns) ∨ n ∈ c.user.refs := by
  unfold Client.Client.refs
  simp only [List.mem_append, List.mem_flatten, mem_values_iff, or_assoc]
  grind

theorem setFuture_other {c c' : Client.Client} {n i : Nat} {f : FState → Py FState} (h : c.setFuture i f = .ok c') (hn : i ≠ n) :
    c'.futures[n]? = c.futures[n]? := by
  obtain ⟨_, _, _, _, rfl⟩ := setFuture_ok h
  exact List.getElem?_set_ne hn

theorem resolveAll_other {f : Bytes → Py FState} {n : Nat} : ∀ {rs : List Bytes} {ns : List Nat} {c c' : Client.Client},
    c.resolveAll f rs ns = .ok c' → n ∉ ns → c'.futures[n]? = c.futures[n]?
  | [], _, c, c', h, _ => by cases h; rfl
  | r :: rs, [], c, c', h, _ => by cases h
  | r :: rs, m :: ns, c, c', h, hn => by
    unfold Client.Client.resolveAll at h
    obtain ⟨s, _, h⟩ := Py.bind_ok.mp h
    obtain ⟨c1, h2, h⟩ := Py.bind_ok.mp h
    simp only [List.mem_cons, not_or] at hn
    rw [resolveAll_other h hn.2, setFuture_other h2 (Ne.symm hn.1)]

theorem exitFutures_other {n : Nat} : ∀ {ns : List Nat} {c c' : Client.Client},
    c.exitFutures ns = .ok c' → n ∉ ns → c'.futures[n]? = c.futures[n]?
  | [], c, c', h, _ => by cases h; rfl
  | m :: ns, c, c', h, hn => by
    obtain ⟨c1, h2, h⟩ := Py.bind_ok.mp h
    simp only [List.mem_cons, not_or] at hn
    rw [exitFutures_other h hn.2, setFuture_other h2 (Ne.symm hn.1)]

theorem exitTasks_other {n : Nat} : ∀ {l : List (Bytes × Nat)} {c c' : Client.Client},
    c.exitTasks l = .ok c' → n ∉ l.map (·.2) → c'.futures[n]? = c.futures[n]?
  | [], c, c', h, _ => by cases h; rfl
  | (t, m) :: l, c, c', h, hn => by
    obtain ⟨c1, h2, h⟩ := Py.bind_ok.mp h
    simp only [List.map_cons, List.mem_cons, not_or] at hn
    rw [exitTasks_other h hn.2, setFuture_other h2 (Ne.symm hn.1)]
    rfl

theorem exitGraphs_other {n : Nat} : ∀ {l : List (Bytes × List Nat)} {c c' : Client.Client},
    c.exitGraphs l = .ok c' → n ∉ (l.map (·.2)).flatten → c'.futures[n]? = c.futures[n]?
  | [], c, c', h, _ => by cases h; rfl
  | (t, ms) :: l, c, c', h, hn => by
    obtain ⟨c1, h2, h⟩ := Py.bind_ok.mp h
    simp only [List.map_cons, List.flatten_cons, List.mem_append, not_or] at hn
    rw [exitGraphs_other h hn.2, exitFutures_other h2 hn.1]
    rfl


theorem nodup_map_inj {α β : Type} {f : α → β} : ∀ {l : List α}, (l.map f).Nodup → ∀ {a b : α}, a ∈ l → b ∈ l → f a = f b → a = b
  | [], _, _, _, ha, _, _ => by cases ha
  | x :: l, h, a, b, ha, hb, he => by
    rw [List.map_cons, List.nodup_cons] at h
    rcases List.mem_cons.mp ha with rfl | ha' <;> rcases List.mem_cons.mp hb with rfl | hb'
    · rfl
    · exact absurd (List.mem_map.mpr ⟨b, hb', he.symm⟩) h.1
    · exact absurd (List.mem_map.mpr ⟨a, ha', he⟩) h.1
    · exact nodup_map_inj h.2 ha' hb' he

theorem future_inj {c : Client.Client} (h : FutInv c) {t u : Bytes} {n : Nat} (h1 : c.toFuture.get? t = some n) (h2 : c.toFuture.get? u = some n) :
    t = u := by
  have hnd := h.nodup
  simp only [Client.Client.refs, List.nodup_append] at hnd
  have := nodup_map_inj hnd.1.1 (Dict.mem_items.2 h1) (Dict.mem_items.2 h2) rfl
  cases this
  rfl

theorem future_graph {c : Client.Client} (h : FutInv c) {t g : Bytes} {n : Nat} {ns : List Nat} (h1 : c.toFuture.get? t = some n)
    (h2 : c.graphs.get? g = some ns) : n ∉ ns := by
  intro hn
  have hnd := h.nodup
  simp only [Client.Client.refs, List.nodup_append] at hnd
  exact hnd.1.2.2 n (mem_values h1) n (List.mem_flatten.2 ⟨ns, mem_values h2, hn⟩) rfl

theorem future_user {c : Client.Client} (h : FutInv c) {t : Bytes} {n : Nat} (h1 : c.toFuture.get? t = some n) : n ∉ c.user.refs := by
  intro hn
  have hnd := h.nodup
  simp only [Client.Client.refs, List.nodup_append] at hnd
  exact hnd.2.2 n (List.mem_append_left _ (mem_values h1)) n hn rfl

theorem graph_user {c : Client.Client} (h : FutInv c) {g : Bytes} {ns : List Nat} {n : Nat} (h1 : c.graphs.get? g = some ns) (hn : n ∈ ns) :
    n ∉ c.user.refs := by
  intro hu
  have hnd := h.nodup
  simp only [Client.Client.refs, List.nodup_append] at hnd
  exact hnd.2.2 n (List.mem_append_right _ (List.mem_flatten.2 ⟨ns, mem_values h1, hn⟩)) n hu rfl

theorem graph_inj {c : Client.Client} (h : FutInv c) {g g' : Bytes} {ns ns' : List Nat} {n : Nat} (h1 : c.graphs.get? g = some ns)
    (h2 : c.graphs.get? g' = some ns') (hn : n ∈ ns) (hn' : n ∈ ns') : g = g' := by
  have hnd := h.nodup
  simp only [Client.Client.refs, List.nodup_append] at hnd
  have hp := (List.pairwise_flatten.1 hnd.1.2.1).2
  simp only [Dict.values, List.pairwise_map] at hp
  refine Classical.byContradiction fun hne => ?_
  have key : ∀ (l : List (Bytes × List Nat)), l.Pairwise (fun a b => ∀ x ∈ a.2, ∀ y ∈ b.2, x ≠ y) → (g, ns) ∈ l → (g', ns') ∈ l → False := by
    intro l
    induction l with
    | nil => intro _ h; cases h
    | cons a l ih =>
      intro hp ha hb
      obtain ⟨hp1, hp2⟩ := List.pairwise_cons.mp hp
      rcases List.mem_cons.mp ha with h | ha' <;> rcases List.mem_cons.mp hb with h' | hb'
      · rw [← h] at h'; cases h'; exact hne rfl
      · exact hp1 _ hb' n (h ▸ hn) n hn' rfl
      · exact hp1 _ ha' n (h' ▸ hn') n hn rfl
      · exact ih hp2 ha' hb'
  exact key _ hp (Dict.mem_items.2 h1) (Dict.mem_items.2 h2)

/-- Futures that are referred to are not over, and those of tasks whose echo is awaited are not running. -/
structure OpenInv (c : Client.Client) : Prop where
  live : c.closed = false → ∀ n ∈ c.refs, ∀ s, c.futures[n]? = some s → ¬ Final s
  await : c.closed = false → ∀ t n, (c.toTask.get? t).isSome → c.toFuture.get? t = some n →
    c.futures[n]? = some .pending ∨ c.futures[n]? = some .cancelled

theorem OpenInv.shrink {c c' : Client.Client} (h : OpenInv c) (h1 : c'.closed = false → c.closed = false)
    (h2 : ∀ t, (c'.toTask.get? t).isSome → (c.toTask.get? t).isSome) (h3 : ∀ t n, c'.toFuture.get? t = some n → c.toFuture.get? t = some n)
    (h4 : ∀ n ∈ c'.refs, n ∈ c.refs ∧ c'.futures[n]? = c.futures[n]?) : OpenInv c' := by
  refine ⟨fun hc n hn s hs => ?_, fun hc t n ht hn => ?_⟩
  · obtain ⟨h5, h6⟩ := h4 n hn
    exact h.live (h1 hc) n h5 s (h6 ▸ hs)
  · obtain ⟨h5, h6⟩ := h4 n (mem_refs.mpr (.inl ⟨t, hn⟩))
    rw [h6]
    exact h.await (h1 hc) t n (h2 t ht) (h3 t n hn)

theorem receive_open {p : Pickle} {c c' : Client.Client} {m : Message} (hf : FutInv c) (h : OpenInv c) (e : c.receive p m = .ok c') :
    OpenInv c' := by
  have hcl := receive_closed e
  unfold Client.Client.receive at e
  cases m with
  | taskEcho t st =>
    simp only [Client.Client.onTaskEcho, Client.Client.note] at e
    split at e
    · cases e; exact ⟨h.live, h.await⟩
    · rename_i k hk
      cases st with
      | duplicated => cases e; exact ⟨h.live, h.await⟩
      | functionNotExists =>
        dsimp only at e
        unfold Client.Client.bufferSend at e
        split at e
        · cases e; exact ⟨h.live, h.await⟩
        · obtain ⟨c1, h1, h2⟩ := Py.bind_ok.mp e
          obtain ⟨nm, b, rfl⟩ := request_count h1
          cases h2; exact ⟨h.live, h.await⟩
      | noWorker => cases e
      | cancelOK => cases e
      | cancelFailed => cases e
      | submitOK =>
        obtain ⟨⟨_, ts⟩, h1, e⟩ := Py.bind_ok.mp e
        obtain ⟨⟨_, fs⟩, h2, e⟩ := Py.bind_ok.mp e
        obtain ⟨i, h3, e⟩ := Py.bind_ok.mp e
        obtain ⟨_, _, h1⟩ := Py.bind_ok.mp h1
        cases h1
        have h3 := Dict.getPy_ok.mp h3
        obtain ⟨s, s', h4, h5, rfl⟩ := setFuture_ok e
        refine ⟨fun hc n hn x hx => ?_, fun hc u n hu hn => ?_⟩
        · by_cases hin : i = n
          · subst hin
            have hb := (List.getElem?_eq_some_iff.mp h4).1
            simp only [List.getElem?_set_self hb, Option.some.injEq] at hx
            subst hx
            rcases setRunning_ok h5 with ⟨_, rfl⟩ | ⟨_, rfl⟩ <;> exact fun h => h
          · simp only [List.getElem?_set_ne hin] at hx
            exact h.live hc n hn x hx
        · simp only [Dict.get?_erase] at hu
          by_cases htu : t = u
          · simp [htu] at hu
          · simp only [htu, if_false] at hu
            have hin : i ≠ n := fun hin => htu (future_inj hf h3 (hin ▸ hn))
            simp only [List.getElem?_set_ne hin]
            exact h.await hc u n hu hn
  | functionResponse st fid a b =>
    simp only [Client.Client.onFunctionResponse] at e
    obtain ⟨_, _, e⟩ := Py.bind_ok.mp e
    split at e <;> cases e <;> exact ⟨h.live, h.await⟩
  | taskResult t st mt r =>
    simp only [Client.Client.onTaskResult] at e
    split at e
    · cases e; exact ⟨h.live, h.await⟩
    · rename_i i hi
      have key : ∀ d : Client.Client, OnlyFutures { (c.note (.recv (.taskResult t st mt r))) with toFuture := c.toFuture.erase t } d →
          (∀ n, i ≠ n → d.futures[n]? = c.futures[n]?) → OpenInv d := by
        intro d ho hd
        refine h.shrink (fun hc => by rw [ho.closed] at hc; exact hc) (fun u hu => by rw [ho.toTask] at hu; exact hu) ?_ ?_
        · intro u n hu
          rw [ho.toFuture] at hu
          simp only [Dict.get?_erase] at hu
          split at hu
          · cases hu
          · exact hu
        · intro n hn
          rw [mem_refs, ho.toFuture, ho.graphs, ho.user] at hn
          rcases hn with ⟨u, hu⟩ | ⟨g, ns, hg, hn⟩ | hn
          · simp only [Dict.get?_erase] at hu
            split at hu
            · cases hu
            · rename_i htu
              exact ⟨mem_refs.mpr (.inl ⟨u, hu⟩), hd n fun hin => htu (future_inj hf hi (hin ▸ hu))⟩
          · exact ⟨mem_refs.mpr (.inr (.inl ⟨g, ns, hg, hn⟩)), hd n fun hin => future_graph hf hi hg (hin ▸ hn)⟩
          · exact ⟨mem_refs.mpr (.inr (.inr hn)), hd n fun hin => future_user hf hi (hin ▸ hn)⟩
      cases st with
      | success =>
        obtain ⟨_, _, e⟩ := Py.bind_ok.mp e
        exact key _ (setFuture_only e) fun n hn => by have := setFuture_other e hn; exact this
      | failed =>
        obtain ⟨_, _, e⟩ := Py.bind_ok.mp e
        exact key _ (setFuture_only e) fun n hn => by have := setFuture_other e hn; exact this
      | _ => cases e; exact key _ (OnlyFutures.refl _) fun n _ => rfl
  | graphTaskResult g st rs =>
    simp only [Client.Client.onGraphTaskResult] at e
    split at e
    · cases e; exact ⟨h.live, h.await⟩
    · rename_i is hi
      have key : ∀ d : Client.Client, OnlyFutures { (c.note (.recv (.graphTaskResult g st rs))) with graphs := c.graphs.erase g } d →
          (∀ n, n ∉ is → d.futures[n]? = c.futures[n]?) → OpenInv d := by
        intro d ho hd
        refine h.shrink (fun hc => by rw [ho.closed] at hc; exact hc) (fun u hu => by rw [ho.toTask] at hu; exact hu)
          (fun u n hu => by rw [ho.toFuture] at hu; exact hu) ?_
        intro n hn
        rw [mem_refs, ho.toFuture, ho.graphs, ho.user] at hn
        rcases hn with ⟨u, hu⟩ | ⟨g', ns, hg, hn⟩ | hn
        · exact ⟨mem_refs.mpr (.inl ⟨u, hu⟩), hd n (future_graph hf hu hi)⟩
        · simp only [Dict.get?_erase] at hg
          split at hg
          · cases hg
          · rename_i htu
            exact ⟨mem_refs.mpr (.inr (.inl ⟨g', ns, hg, hn⟩)), hd n fun hin => htu (graph_inj hf hi hg hin hn)⟩
        · exact ⟨mem_refs.mpr (.inr (.inr hn)), hd n fun hin => graph_user hf hi hin hn⟩
      cases st with
      | success => exact key _ (resolveAll_only e) fun n hn => by have := resolveAll_other e hn; exact this
      | failed =>
        obtain ⟨_, _, e⟩ := Py.bind_ok.mp e
        obtain ⟨_, _, e⟩ := Py.bind_ok.mp e
        exact key _ (resolveAll_only e) fun n hn => by have := resolveAll_other e hn; exact this
      | _ => cases e; exact key _ (OnlyFutures.refl _) fun n _ => rfl
  | _ => cases e

theorem step_open {p : Pickle} {c c' : Client.Client} {o : Client.Op} (hf : FutInv c) (h : OpenInv c) (hn : FreshOp c o)
    (e : c.step p o = .ok c') : OpenInv c' := by
  have happ : ∀ (l : List FState) n, n ∈ c.refs → (c.futures ++ l)[n]? = c.futures[n]? :=
    fun l n hn => List.getElem?_append_left (hf.bound n hn)
  unfold Client.Client.step at e
  cases o with
  | submit t nm b args =>
    simp only at e
    split at e <;> cases e
    · rename_i hu
      simp only [FreshOp] at hn
      refine ⟨fun hc n hn s hs => h.live hc n ?_ s hs, fun hc u n hu' hn' => ?_⟩
      · rw [mem_refs] at hn ⊢
        rcases hn with hn | hn | hn
        · exact .inl hn
        · exact .inr (.inl hn)
        · cases hn
      · simp only [Client.Client.submit, Dict.get?_set] at hu'
        split at hu'
        · subst_vars
          exact absurd (hf.used _ (by rw [show c.toFuture.get? _ = some n from hn']; rfl)) hn
        · exact h.await hc u n hu' hn'
    · exact h
  | get g =>
    simp only at e
    split at e <;> cases e
    · refine ⟨fun hc n hn s hs => ?_, fun hc u n hu' hn' => ?_⟩
      · have hs' : (c.futures ++ g.targets.map fun _ => FState.pending)[n]? = some s := hs
        by_cases hb : n < c.futures.length
        · rw [List.getElem?_append_left hb] at hs'
          refine h.live hc n ?_ s hs'
          rw [mem_refs] at hn ⊢
          rcases hn with hn | hn | hn
          · exact .inl hn
          · exact .inr (.inl hn)
          · simp only [Client.Client.get, User.refs, List.mem_range'_1] at hn
            omega
        · rw [List.getElem?_append_right (by omega)] at hs'
          simp only [List.getElem?_map, Option.map_eq_some_iff] at hs'
          obtain ⟨_, _, rfl⟩ := hs'
          exact fun h => h
      · have hm := mem_refs.mpr (.inl ⟨u, hn'⟩ : (∃ t, c.toFuture.get? t = some n) ∨ _ ∨ _)
        show (c.futures ++ _)[n]? = _ ∨ (c.futures ++ _)[n]? = _
        rw [happ _ n hm]
        exact h.await hc u n hu' hn'
    · exact h
  | advance =>
    simp only [Client.Client.advance] at e
    have key : ∀ d : Client.Client, d.toTask = c.toTask → d.toFuture = c.toFuture → d.graphs = c.graphs → d.futures = c.futures →
        d.closed = c.closed → d.user.refs = [] → OpenInv d := by
      intro d h1 h2 h3 h4 h5 h6
      refine h.shrink (fun hc => by rw [← h5]; exact hc) (fun t ht => by rw [← h1]; exact ht) (fun t n ht => by rw [← h2]; exact ht) ?_
      intro n hn
      rw [mem_refs, h2, h3, h6] at hn
      refine ⟨mem_refs.mpr ?_, by rw [h4]⟩
      rcases hn with hn | hn | hn
      · exact .inl hn
      · exact .inr (.inl hn)
      · cases hn
    split at e
    · cases e; exact h
    · cases e; exact key _ rfl rfl rfl rfl rfl rfl
    · cases e; exact key _ rfl rfl rfl rfl rfl (by dsimp only; split <;> rfl)
    · obtain ⟨c1, h1, h2⟩ := Py.bind_ok.mp e
      obtain ⟨nm, b, rfl⟩ := request_count h1
      cases h2
      exact key _ rfl rfl rfl rfl rfl rfl
    · cases e; exact key _ rfl rfl rfl rfl rfl rfl
    · rename_i k hu
      cases e
      have hself : (c.futures ++ [FState.pending])[c.futures.length]? = some .pending := by simp
      refine ⟨fun hc n hn s hs => ?_, fun hc u n hu' hn' => ?_⟩
      · rw [mem_refs] at hn
        rcases hn with ⟨t, ht⟩ | ⟨g, ns, hg, hn⟩ | hn
        · simp only [Dict.get?_set] at ht
          split at ht
          · cases ht
            rw [show _ = some s from hs] at hself
            cases hself
            exact fun h => h
          · have hm : n ∈ c.refs := mem_refs.mpr (.inl ⟨t, ht⟩)
            exact h.live hc n hm s (by rw [← happ _ n hm]; exact hs)
        · have hm : n ∈ c.refs := mem_refs.mpr (.inr (.inl ⟨g, ns, hg, hn⟩))
          exact h.live hc n hm s (by rw [← happ _ n hm]; exact hs)
        · cases hn
      · simp only [Dict.get?_set] at hn'
        split at hn'
        · cases hn'
          exact .inl hself
        · have hm : n ∈ c.refs := mem_refs.mpr (.inl ⟨u, hn'⟩)
          show (c.futures ++ _)[n]? = _ ∨ (c.futures ++ _)[n]? = _
          rw [happ _ n hm]
          exact h.await hc u n hu' hn'
    · rename_i g ns hu
      cases e
      refine h.shrink (fun hc => hc) (fun t ht => ht) (fun t n ht => ht) ?_
      intro n hn
      refine ⟨mem_refs.mpr ?_, rfl⟩
      rw [mem_refs] at hn
      rcases hn with hn | ⟨u, ms, hg, hn⟩ | hn
      · exact .inl hn
      · simp only [Dict.get?_set] at hg
        split at hg
        · cases hg; exact .inr (.inr (by rw [hu]; exact hn))
        · exact .inr (.inl ⟨u, ms, hg, hn⟩)
      · cases hn
  | cancel i =>
    cases e
    refine ⟨fun hc n hn s hs => ?_, fun hc u n hu' hn' => ?_⟩
    · rw [List.getElem?_modify] at hs
      obtain ⟨x, hx, hs⟩ := Option.map_eq_some_iff.mp hs
      have := h.live hc n hn x hx
      split at hs
      · subst hs; cases x <;> first | exact this | exact fun h => h
      · exact hs ▸ this
    · have := h.await hc u n hu' hn'
      simp only [List.getElem?_modify]
      rcases this with h | h <;> rw [h] <;> by_cases hi : i = n <;> simp [hi, FState.cancel]
  | disconnect => cases e; exact ⟨h.live, h.await⟩
  | recv m =>
    simp only at e
    split at e
    · cases e; exact h
    · exact receive_open hf h e
  | flush =>
    simp only [Client.Client.flush] at e
    split at e
    · cases e; exact h
    · split at e
      · cases e; exact h
      · obtain ⟨_, _, e⟩ := Py.bind_ok.mp e
        cases e
        exact ⟨h.live, h.await⟩
  | exit =>
    simp only [Client.Client.exit] at e
    split at e
    · obtain ⟨c1, h1, e⟩ := Py.bind_ok.mp e
      obtain ⟨c2, h2, e⟩ := Py.bind_ok.mp e
      cases e
      exact ⟨fun hc => absurd hc (by simp), fun hc => absurd hc (by simp)⟩
    · cases e; exact h

theorem _root_.Verif.Client.Reach.open {p : Pickle} {c : Client.Client} (hr : Client.Reach p c) : OpenInv c := by
  induction hr with
  | init => exact ⟨fun _ n hn => absurd hn (by intro h; cases h),
      fun _ t n ht => by simp [Client.Client.init] at ht⟩
  | step o hr hf e ih => exact step_open hr.fut ih hf e

/-- Of the futures that are referred to, those that cannot be resolved were cancelled. -/
theorem unresolved_iff {p : Pickle} {c : Client.Client} (hr : Client.Reach p c) (hc : c.closed = false) {n : Nat} (hn : n ∈ c.refs) :
    ¬ (c.futures[n]? = some .pending ∨ c.futures[n]? = some .running) ↔ Cancelled c n := by
  have hb := hr.fut.bound n hn
  have hl := hr.open.live hc n hn _ (List.getElem?_eq_getElem hb)
  rw [Cancelled, List.getElem?_eq_getElem hb]
  generalize c.futures[n] = s at hl
  cases s <;> simp [Final] at hl ⊢

/-! ### C80: exactly which messages end the client -/

theorem Py.ok_or {α : Type} (x : Py α) : (∃ e, x = .error e) ↔ ¬ ∃ a, x = .ok a := by
  cases x <;> simp

theorem setFuture_iff {c : Client.Client} {n : Nat} {f : FState → Py FState} :
    (∃ c', c.setFuture n f = .ok c') ↔ ∃ s s', c.futures[n]? = some s ∧ f s = .ok s' := by
  constructor
  · rintro ⟨c', h⟩; obtain ⟨s, s', h1, h2, _⟩ := setFuture_ok h; exact ⟨s, s', h1, h2⟩
  · rintro ⟨s, s', h1, h2⟩
    exact ⟨_, by unfold Client.Client.setFuture; rw [pyIndex_ok.mpr h1, Py.ok_bind, h2, Py.ok_bind]; rfl⟩

theorem finish_iff {c : Client.Client} {n : Nat} (s : FState) :
    (∃ c', c.setFuture n (FState.finish s) = .ok c') ↔ Ready c n := by
  rw [setFuture_iff]
  constructor
  · rintro ⟨x, y, h1, h2⟩
    obtain ⟨_, rfl | rfl⟩ := finish_ok h2
    · exact .inl h1
    · exact .inr h1
  · rintro (h | h)
    · exact ⟨_, _, h, rfl⟩
    · exact ⟨_, _, h, rfl⟩

theorem resolveAll_iff {f : Bytes → Py FState} : ∀ {rs : List Bytes} {ns : List Nat} {c : Client.Client}, ns.Nodup →
    ((∃ c', c.resolveAll f rs ns = .ok c') ↔
      ∀ (i : Nat) r, rs[i]? = some r → (∃ s, f r = .ok s) ∧ ∃ n, ns[i]? = some n ∧ Ready c n)
  | [], ns, c, _ => by simp [Client.Client.resolveAll]
  | r :: rs, [], c, _ => by
    simp only [Client.Client.resolveAll]
    constructor
    · rintro ⟨_, h⟩; cases h
    · intro h; obtain ⟨_, n, hn, _⟩ := h 0 r rfl; cases hn
  | r :: rs, n :: ns, c, hn => by
    obtain ⟨hn1, hn2⟩ := List.nodup_cons.mp hn
    constructor
    · rintro ⟨c', e⟩
      unfold Client.Client.resolveAll at e
      obtain ⟨s, h1, e⟩ := Py.bind_ok.mp e
      obtain ⟨c1, h2, e⟩ := Py.bind_ok.mp e
      have hu := (finish_iff s).mp ⟨c1, h2⟩
      rw [setFuture_finish s hu] at h2
      cases h2
      have ih := (resolveAll_iff hn2).mp ⟨c', e⟩
      intro i x hx
      cases i with
      | zero => cases hx; exact ⟨⟨s, h1⟩, n, rfl, hu⟩
      | succ i =>
        obtain ⟨h3, m, hm, hum⟩ := ih i x hx
        refine ⟨h3, m, hm, ?_⟩
        have hne : n ≠ m := fun h => hn1 (h ▸ List.mem_of_getElem? hm)
        unfold Ready at hum ⊢
        simpa [List.getElem?_set_ne hne] using hum
    · intro h
      obtain ⟨⟨s, h1⟩, m, hm, hu⟩ := h 0 r rfl
      cases hm
      unfold Client.Client.resolveAll
      rw [h1, Py.ok_bind, setFuture_finish s hu, Py.ok_bind]
      refine (resolveAll_iff hn2).mpr ?_
      intro i x hx
      obtain ⟨h3, m, hm, hum⟩ := h (i + 1) x hx
      refine ⟨h3, m, hm, ?_⟩
      have hne : n ≠ m := fun h => hn1 (h ▸ List.mem_of_getElem? hm)
      unfold Ready at hum ⊢
      simpa [List.getElem?_set_ne hne] using hum

theorem placed_iff {c : Client.Client} {rs : List Bytes} {ns : List Nat} (h : ∀ n ∈ ns, (Ready c n ↔ ¬ Cancelled c n)) :
    (∀ (i : Nat) r, rs[i]? = some r → ∃ n, ns[i]? = some n ∧ Ready c n) ↔
      rs.length ≤ ns.length ∧ ∀ n ∈ ns.take rs.length, ¬ Cancelled c n := by
  constructor
  · intro hp
    have hlen : rs.length ≤ ns.length := by
      refine Classical.byContradiction fun hlt => ?_
      have hi : ns.length < rs.length := by omega
      obtain ⟨n, hn, _⟩ := hp ns.length _ (List.getElem?_eq_getElem hi)
      simp at hn
    refine ⟨hlen, fun n hn => ?_⟩
    obtain ⟨i, hi, rfl⟩ := List.mem_take_iff_getElem.mp hn
    have hi' : i < rs.length := by omega
    obtain ⟨n, h1, h2⟩ := hp i _ (List.getElem?_eq_getElem hi')
    rw [List.getElem?_eq_getElem (by omega)] at h1
    cases h1
    exact (h _ (List.getElem_mem _)).mp h2
  · rintro ⟨hlen, hc⟩ i r hr
    have hi := (List.getElem?_eq_some_iff.mp hr).1
    have hn : i < ns.length := by omega
    exact ⟨ns[i], List.getElem?_eq_getElem hn, (h _ (List.getElem_mem _)).mpr (hc _ (List.mem_take_iff_getElem.mpr ⟨i, by omega, rfl⟩))⟩

/-- C80: exactly these messages end the connector's thread of a client. -/
theorem C80_kills_partial {p : Pickle} {c : Client.Client} (hr : Client.Reach p c) (hc : c.closed = false) (m : Message) :
    (∃ e, c.step p (.recv m) = .error e) ↔ KillsClient p c m := by
  have hst : c.step p (.recv m) = c.receive p m := by simp [Client.Client.step, hc]
  rw [hst]
  unfold Client.Client.receive
  cases m with
  | taskEcho t st =>
    simp only [Client.Client.onTaskEcho, KillsClient]
    have ht : (c.note (.recv (.taskEcho t st))).toTask = c.toTask := rfl
    rw [ht]
    rcases hk : c.toTask.get? t with _ | k
    · rw [← hr.echo.task, hk]; simp
    · have hkt : k.taskId = t := (hr.task.task t k hk).1
      have hu : unechoed t c.log = some k := by rw [← hr.echo.task, hk]
      have hfn := hr.echo.fn t
      simp only [hu, Option.some.injEq, exists_eq_left']
      cases st with
      | noWorker => simp [EchoKills]
      | cancelOK => simp [EchoKills]
      | cancelFailed => simp [EchoKills]
      | duplicated => simp [EchoKills]
      | functionNotExists =>
        simp only [EchoKills, hkt, Client.Client.bufferSend, Client.Client.requestFunction]
        have : (c.note (.recv (.taskEcho t .functionNotExists))).notReady = c.notReady := rfl
        rw [this]
        have : (c.note (.recv (.taskEcho t .functionNotExists))).toFunction = c.toFunction := rfl
        rw [this]
        by_cases hh : c.notReady.has k.functionId = true
        · have := Dict.has_iff.mp hh
          simp [hh, this]
        · have hm : k.functionId ∉ c.notReady.keys := fun h => hh (Dict.has_iff.mpr h)
          simp only [hh, hm, not_false_iff, and_true]
          rcases hf : c.toFunction.get? t with _ | ⟨nm, b⟩
          · have : Half c t := by
              refine Classical.byContradiction fun hn => ?_
              rw [hf, hk] at hfn; simp [hn] at hfn
            simp [Dict.getPy_none hf, this]
          · have : ¬ Half c t := by rw [hf, hk] at hfn; simpa using hfn
            simp [Dict.getPy_of_get? hf, this]
      | submitOK =>
        simp only [EchoKills, hkt]
        rw [Py.ok_or]
        have e1 : (c.note (.recv (.taskEcho t .submitOK))).toFunction = c.toFunction := rfl
        have e2 : (c.note (.recv (.taskEcho t .submitOK))).toFuture = c.toFuture := rfl
        have e3 : c.toTask.pop t = .ok (k, c.toTask.erase t) := Dict.pop_ok.mpr ⟨hk, rfl⟩
        rw [e1, e2, e3, Py.ok_bind]
        by_cases hh : Half c t
        · have hf : c.toFunction.get? t = none := by
            rcases hf : c.toFunction.get? t with _ | x
            · rfl
            · rw [hf] at hfn; exact absurd hh (hfn.mp rfl).2
          simp [Dict.pop, Dict.getPy_none hf, hh]
        · obtain ⟨x, hf⟩ := Option.isSome_iff_exists.mp (hfn.mpr ⟨by rw [hk]; rfl, hh⟩)
          have e4 : c.toFunction.pop t = .ok (x, c.toFunction.erase t) := Dict.pop_ok.mpr ⟨hf, rfl⟩
          rw [e4, Py.ok_bind, ← hr.fut.fut t]
          rcases hn : c.toFuture.get? t with _ | n
          · simp [Dict.getPy_none hn]
          · simp only [Dict.getPy_of_get? hn, Py.ok_bind, hh, false_or]
            rw [setFuture_iff]
            show (¬ ∃ s s', c.futures[n]? = some s ∧ FState.setRunning s = .ok s') ↔ _
            rcases hr.open.await hc t n (by rw [hk]; rfl) hn with h | h <;> rw [h] <;> simp [FState.setRunning]
  | functionResponse st fid nm b => 
    simp only [Client.Client.onFunctionResponse, KillsClient]
    rw [Py.ok_or]
    cases st <;> simp [pyAssert] <;> split <;> simp
  | taskResult t st mt r =>
    simp only [Client.Client.onTaskResult, KillsClient]
    rw [← hr.fut.fut t]
    have e1 : (c.note (.recv (.taskResult t st mt r))).toFuture = c.toFuture := rfl
    rw [e1]
    rcases hn : c.toFuture.get? t with _ | n
    · simp
    · simp only [Option.some.injEq, exists_eq_left']
      have key : ∀ s, (∃ c', ((raiseIf (!p.loads r) .valueError >>= fun _ =>
            Client.Client.setFuture { (c.note (.recv (.taskResult t st mt r))) with toFuture := c.toFuture.erase t } n (FState.finish s)) :
              Py Client.Client) = .ok c') ↔ p.loads r = true ∧ ¬ Cancelled c n := by
        intro s
        cases hl : p.loads r
        · simp [raiseIf]
        · simp only [raiseIf, Bool.not_true]
          have h1 := unresolved_iff hr hc (mem_refs.mpr (.inl ⟨t, hn⟩))
          refine (finish_iff s).trans ?_
          rw [← h1]
          exact ⟨fun h => ⟨trivial, fun hn => hn h⟩, fun h => Classical.not_not.mp h.2⟩
      rw [Py.ok_or]
      cases st with
      | success => rw [key]; simp; grind
      | failed => rw [key]; simp; grind
      | _ => simp
  | graphTaskResult g st rs =>
    simp only [Client.Client.onGraphTaskResult, KillsClient]
    rw [← hr.fut.gr g]
    have e1 : (c.note (.recv (.graphTaskResult g st rs))).graphs = c.graphs := rfl
    rw [e1]
    rcases hn : c.graphs.get? g with _ | ns
    · simp
    · have hnd := graphs_nodup hr.fut hn
      have hU : ∀ n, Ready { (c.note (.recv (.graphTaskResult g st rs))) with graphs := c.graphs.erase g } n ↔ Ready c n :=
        fun n => Iff.rfl
      have hready : ∀ n ∈ ns, (Ready c n ↔ ¬ Cancelled c n) := fun n hm => by
        rw [← unresolved_iff hr hc (mem_refs.mpr (.inr (.inl ⟨g, ns, hn, hm⟩)))]
        exact Classical.not_not.symm
      simp only [Option.some.injEq, exists_eq_left']
      rw [Py.ok_or]
      cases st with
      | success =>
        simp only [true_and, reduceCtorEq, false_and, or_false]
        rw [resolveAll_iff hnd, Stuck]
        simp only [hU]
        have h1 : (∀ (i : Nat) r, rs[i]? = some r → (∃ s, (if p.loads r = true then Except.ok (FState.result r) else Except.error PyErr.valueError) =
            Except.ok s) ∧ ∃ n, ns[i]? = some n ∧ Ready c n) ↔
            (∀ r ∈ rs, p.loads r = true) ∧ rs.length ≤ ns.length ∧ ∀ n ∈ ns.take rs.length, ¬ Cancelled c n := by
          rw [← placed_iff hready]
          constructor
          · intro h
            refine ⟨fun r hr => ?_, fun i r hr => (h i r hr).2⟩
            obtain ⟨i, hi⟩ := List.mem_iff_getElem?.mp hr
            obtain ⟨⟨s, hs⟩, _⟩ := h i r hi
            cases hl : p.loads r
            · simp [hl] at hs
            · rfl
          · intro h i r hr
            exact ⟨⟨.result r, by simp [h.1 r (List.mem_of_getElem? hr)]⟩, h.2 i r hr⟩
        rw [h1]
        constructor
        · intro h
          by_cases ha : ns.length < rs.length
          · exact .inl ha
          · by_cases hb : ∃ r ∈ rs, p.loads r = false
            · exact .inr (.inl hb)
            · refine .inr (.inr (Classical.byContradiction fun hn => h ⟨fun r hr => ?_, by omega, fun n hn' hc' => hn ⟨n, hn', hc'⟩⟩))
              cases hl : p.loads r
              · exact absurd ⟨r, hr, hl⟩ hb
              · rfl
        · rintro (h | ⟨r, hr, hl⟩ | ⟨n, hn, hc'⟩) ⟨h2, h3, h4⟩
          · omega
          · rw [h2 r hr] at hl; cases hl
          · exact h4 n hn hc'
      | failed =>
        simp only [true_and, reduceCtorEq, false_and, false_or, StuckFailure]
        cases rs with
        | nil => simp [pyIndex]
        | cons x rs =>
          cases hl : p.loads x
          · simp [pyIndex, raiseIf, hl]
          · simp only [pyIndex, List.getElem?_cons_zero, Py.ok_bind, raiseIf, hl, Bool.not_true, List.head?_cons, Option.some.injEq,
              exists_eq_left', reduceCtorEq, false_or]
            refine (not_congr (resolveAll_iff hnd)).trans ?_
            simp only [hU]
            have h1 : (∀ (i : Nat) r, (x :: rs)[i]? = some r → (∃ s, (Except.ok (FState.exception x) : Py FState) = Except.ok s) ∧
                ∃ n, ns[i]? = some n ∧ Ready c n) ↔ (x :: rs).length ≤ ns.length ∧ ∀ n ∈ ns.take (x :: rs).length, ¬ Cancelled c n := by
              rw [← placed_iff hready]
              exact ⟨fun h i r hr => (h i r hr).2, fun h i r hr => ⟨⟨_, rfl⟩, h i r hr⟩⟩
            rw [h1]
            constructor
            · intro h
              by_cases ha : ns.length < (x :: rs).length
              · exact .inl ha
              · exact .inr (Classical.byContradiction fun hn => h ⟨by omega, fun n hn' hc' => hn ⟨n, hn', hc'⟩⟩)
            · rintro (h | ⟨n, hn, hc'⟩) ⟨h3, h4⟩
              · omega
              · exact h4 n hn hc'
      | _ => simp
  | _ => simp [KillsClient]


example : ∃ c, Client.Reach plainPickle c ∧ c.closed = false ∧ KillsClient plainPickle c (.taskEcho [1] .noWorker) ∧
    ¬ KillsClient plainPickle c (.taskEcho [1] .submitOK) ∧ ¬ KillsClient plainPickle c (.taskEcho [1] .functionNotExists) ∧
    KillsClient plainPickle c (.functionResponse .notExists [9] [] []) ∧ ¬ KillsClient plainPickle c (.functionResponse .ok [9] [] []) ∧
    KillsClient plainPickle c .heartbeatEcho ∧ ¬ KillsClient plainPickle c (.taskResult [1] .success 0 [42]) := by
  obtain ⟨c, hr, he⟩ := clientWitness_sound (os := submitAll [1])
    (f := fun c => decide (c.closed = false ∧ unechoed [1] c.log = some ⟨[1], [9], []⟩ ∧ c.user = .idle ∧ openFuture [1] c.log = some 0 ∧
      c.futures = [.pending])) (x := true) (by decide +kernel)
  simp only [decide_eq_true_eq] at he
  obtain ⟨h1, h2, h3, h4, h5⟩ := he
  have hh : ¬ Half c [1] := by rintro ⟨_, _, _, h, _⟩; rw [h3] at h; cases h
  refine ⟨c, hr, h1, ?_⟩
  simp [KillsClient, h2, h4, EchoKills, hh, h5, plainPickle, Cancelled]

/-! ### C80: what is about nothing changes nothing -/

/-- The message is about nothing that the client awaits. -/
def AboutNothing (c : Client.Client) : Message → Prop
  | .taskEcho t st => unechoed t c.log = none ∨ st = .duplicated
  | .functionResponse st fid _ _ => (st = .ok ∨ st = .duplicated) ∧ fid ∉ c.notReady.keys
  | .taskResult t _ _ _ => openFuture t c.log = none
  | .graphTaskResult g _ _ => openGraph g c.log = none
  | _ => False

/-- C80: a message about nothing that the client awaits changes nothing. -/
theorem C80_nothing {p : Pickle} {c : Client.Client} (hr : Client.Reach p c) (hc : c.closed = false) {m : Message}
    (hm : AboutNothing c m) : c.step p (.recv m) = .ok { c with log := c.log ++ [.recv m] } := by
  have hst : c.step p (.recv m) = c.receive p m := by simp [Client.Client.step, hc]
  rw [hst]
  unfold Client.Client.receive
  cases m with
  | taskEcho t st =>
    simp only [AboutNothing] at hm
    rw [← hr.echo.task] at hm
    simp only [Client.Client.onTaskEcho]
    have ht : (c.note (.recv (.taskEcho t st))).toTask = c.toTask := rfl
    rw [ht]
    rcases hk : c.toTask.get? t with _ | k
    · rfl
    · rw [hk] at hm
      rcases hm with hm | rfl
      · cases hm
      · rfl
  | functionResponse st fid nm b =>
    obtain ⟨h1, h2⟩ := hm
    have h3 : c.notReady.get? fid = none := by
      rcases h : c.notReady.get? fid with _ | x
      · rfl
      · exact absurd (Dict.has_iff.mp (by rw [Dict.has_eq, h]; rfl)) h2
    have ht : (c.note (.recv (.functionResponse st fid nm b))).notReady = c.notReady := rfl
    simp only [Client.Client.onFunctionResponse, pyAssert, h1, decide_true, if_true, Py.ok_bind, ht, h3]
    rfl
  | taskResult t st mt r =>
    simp only [AboutNothing] at hm
    rw [← hr.fut.fut] at hm
    have ht : (c.note (.recv (.taskResult t st mt r))).toFuture = c.toFuture := rfl
    simp only [Client.Client.onTaskResult, ht, hm]
    rfl
  | graphTaskResult g st rs =>
    simp only [AboutNothing] at hm
    rw [← hr.fut.gr] at hm
    have ht : (c.note (.recv (.graphTaskResult g st rs))).graphs = c.graphs := rfl
    simp only [Client.Client.onGraphTaskResult, ht, hm]
    rfl
  | _ => cases hm

example : (clientWitness (submitAll [1]) fun c => (unechoed [2] c.log, openFuture [2] c.log, openGraph [2] c.log, c.notReady.has [8])) =
    some (none, none, none, false) := by decide +kernel

/-! ### C80: a cancelled task's future is never resolved -/

/-- No table refers to the future any more. -/
structure Forgotten (c : Client.Client) (n : Nat) : Prop where
  refs : n ∉ c.refs
  bound : n < c.futures.length

/-- One future is the same, or was cancelled by the user. -/
def Kept (s : Option FState) : Option FState → Prop := fun s' => s' = s ∨ s' = s.map FState.cancel

/-- The tables refer to no more futures than before. -/
theorem Forgotten.same {c c' : Client.Client} {n : Nat} (h : Forgotten c n)
    (h1 : ∀ t m, c'.toFuture.get? t = some m → m = n → ∃ t, c.toFuture.get? t = some n)
    (h2 : ∀ g ns, c'.graphs.get? g = some ns → n ∈ ns → ∃ g ns, c.graphs.get? g = some ns ∧ n ∈ ns)
    (h3 : n ∈ c'.user.refs → n ∈ c.user.refs) (h4 : c.futures.length ≤ c'.futures.length) : Forgotten c' n := by
  refine ⟨fun hm => h.refs ?_, Nat.lt_of_lt_of_le h.bound h4⟩
  rw [mem_refs] at hm ⊢
  rcases hm with ⟨t, ht⟩ | ⟨g, ns, hg, hn⟩ | hu
  · exact .inl (h1 t n ht rfl)
  · exact .inr (.inl (h2 g ns hg hn))
  · exact .inr (.inr (h3 hu))

theorem Forgotten.only {c c' : Client.Client} {n : Nat} (h : Forgotten c n) (ho : OnlyFutures c c') : Forgotten c' n :=
  h.same (fun t m ht hm => ⟨t, by rw [← ho.toFuture, ht, hm]⟩) (fun g ns hg hn => ⟨g, ns, by rw [← ho.graphs, hg], hn⟩)
    (fun h => by rwa [ho.user] at h) (Nat.le_of_eq ho.length)

theorem receive_forgotten {p : Pickle} {c c' : Client.Client} {m : Message} {n : Nat} (h : Forgotten c n) (e : c.receive p m = .ok c') :
    Forgotten c' n ∧ c'.futures[n]? = c.futures[n]? := by
  unfold Client.Client.receive at e
  have hno : ∀ t, c.toFuture.get? t ≠ some n := fun t ht => h.refs (mem_refs.mpr (.inl ⟨t, ht⟩))
  have hng : ∀ g ns, c.graphs.get? g = some ns → n ∉ ns := fun g ns hg hn => h.refs (mem_refs.mpr (.inr (.inl ⟨g, ns, hg, hn⟩)))
  cases m with
  | taskEcho t st =>
    simp only [Client.Client.onTaskEcho, Client.Client.note] at e
    split at e
    · cases e; exact ⟨⟨h.refs, h.bound⟩, rfl⟩
    · rename_i k hk
      cases st with
      | duplicated => cases e; exact ⟨⟨h.refs, h.bound⟩, rfl⟩
      | functionNotExists =>
        dsimp only at e
        unfold Client.Client.bufferSend at e
        split at e
        · cases e; exact ⟨⟨h.refs, h.bound⟩, rfl⟩
        · obtain ⟨c1, h1, h2⟩ := Py.bind_ok.mp e
          obtain ⟨nm, b, rfl⟩ := request_count h1
          cases h2; exact ⟨⟨h.refs, h.bound⟩, rfl⟩
      | noWorker => cases e
      | cancelOK => cases e
      | cancelFailed => cases e
      | submitOK =>
        obtain ⟨⟨_, ts⟩, h1, e⟩ := Py.bind_ok.mp e
        obtain ⟨⟨_, fs⟩, h2, e⟩ := Py.bind_ok.mp e
        obtain ⟨i, h3, e⟩ := Py.bind_ok.mp e
        have hne : i ≠ n := fun hi => hno t (hi ▸ Dict.getPy_ok.mp h3)
        refine ⟨Forgotten.only ?_ (setFuture_only e), by have := setFuture_other e hne; exact this⟩
        exact ⟨h.refs, h.bound⟩
  | functionResponse st fid a b =>
    simp only [Client.Client.onFunctionResponse] at e
    obtain ⟨_, _, e⟩ := Py.bind_ok.mp e
    split at e <;> cases e <;> exact ⟨⟨h.refs, h.bound⟩, rfl⟩
  | taskResult t st mt r =>
    simp only [Client.Client.onTaskResult] at e
    split at e
    · cases e; exact ⟨⟨h.refs, h.bound⟩, rfl⟩
    · rename_i i hi
      have hne : i ≠ n := fun h => hno t (h ▸ hi)
      have h0 : Forgotten { (c.note (.recv (.taskResult t st mt r))) with toFuture := c.toFuture.erase t } n := by
        refine h.same (fun u j hu hj => ?_) (fun g ns hg hn => ⟨g, ns, hg, hn⟩) id (Nat.le_refl _)
        simp only [Dict.get?_erase] at hu
        split at hu
        · cases hu
        · exact ⟨u, by rw [← hj]; exact hu⟩
      cases st with
      | success =>
        obtain ⟨_, _, e⟩ := Py.bind_ok.mp e
        exact ⟨h0.only (setFuture_only e), by have := setFuture_other e hne; exact this⟩
      | failed =>
        obtain ⟨_, _, e⟩ := Py.bind_ok.mp e
        exact ⟨h0.only (setFuture_only e), by have := setFuture_other e hne; exact this⟩
      | _ => cases e; exact ⟨h0, rfl⟩
  | graphTaskResult g st rs =>
    simp only [Client.Client.onGraphTaskResult] at e
    split at e
    · cases e; exact ⟨⟨h.refs, h.bound⟩, rfl⟩
    · rename_i ns hi
      have hne := hng g ns hi
      have h0 : Forgotten { (c.note (.recv (.graphTaskResult g st rs))) with graphs := c.graphs.erase g } n := by
        refine h.same (fun u j hu hj => ⟨u, by rw [← hj]; exact hu⟩) (fun u ms hu hn => ?_) id (Nat.le_refl _)
        simp only [Dict.get?_erase] at hu
        split at hu
        · cases hu
        · exact ⟨u, ms, hu, hn⟩
      cases st with
      | success => exact ⟨h0.only (resolveAll_only e), by have := resolveAll_other e hne; exact this⟩
      | failed =>
        obtain ⟨_, _, e⟩ := Py.bind_ok.mp e
        obtain ⟨_, _, e⟩ := Py.bind_ok.mp e
        exact ⟨h0.only (resolveAll_only e), by have := resolveAll_other e hne; exact this⟩
      | _ => cases e; exact ⟨h0, rfl⟩
  | _ => cases e

theorem step_forgotten {p : Pickle} {c c' : Client.Client} {o : Client.Op} {n : Nat} (h : Forgotten c n) (e : c.step p o = .ok c') :
    Forgotten c' n ∧ Kept c.futures[n]? c'.futures[n]? := by
  have happ : ∀ l : List FState, (c.futures ++ l)[n]? = c.futures[n]? := fun l => List.getElem?_append_left h.bound
  unfold Client.Client.step at e
  cases o with
  | submit t nm b args =>
    simp only at e
    split at e <;> cases e
    · rename_i hu
      exact ⟨h.same (fun t m ht hm => ⟨t, hm ▸ ht⟩) (fun g ns hg hn => ⟨g, ns, hg, hn⟩) (fun h => by cases h) (Nat.le_refl _), .inl rfl⟩
    · exact ⟨h, .inl rfl⟩
  | get g =>
    simp only at e
    split at e <;> cases e
    · refine ⟨h.same (fun t m ht hm => ⟨t, hm ▸ ht⟩) (fun g ns hg hn => ⟨g, ns, hg, hn⟩) (fun hm => ?_) (by simp [Client.Client.get]), .inl (happ _)⟩
      simp only [Client.Client.get, User.refs, List.mem_range'_1] at hm
      have := h.bound
      omega
    · exact ⟨h, .inl rfl⟩
  | advance =>
    simp only [Client.Client.advance] at e
    split at e
    · cases e; exact ⟨h, .inl rfl⟩
    · cases e
      exact ⟨h.same (fun t m ht hm => ⟨t, hm ▸ ht⟩) (fun g ns hg hn => ⟨g, ns, hg, hn⟩) (fun h => by cases h) (Nat.le_refl _), .inl rfl⟩
    · cases e
      refine ⟨h.same (fun t m ht hm => ⟨t, hm ▸ ht⟩) (fun g ns hg hn => ⟨g, ns, hg, hn⟩) (fun h => ?_) (Nat.le_refl _), .inl rfl⟩
      dsimp only at h
      split at h <;> cases h
    · obtain ⟨c1, h1, h2⟩ := Py.bind_ok.mp e
      obtain ⟨nm, b, rfl⟩ := request_count h1
      cases h2
      exact ⟨h.same (fun t m ht hm => ⟨t, hm ▸ ht⟩) (fun g ns hg hn => ⟨g, ns, hg, hn⟩) (fun h => by cases h) (Nat.le_refl _), .inl rfl⟩
    · cases e
      exact ⟨h.same (fun t m ht hm => ⟨t, hm ▸ ht⟩) (fun g ns hg hn => ⟨g, ns, hg, hn⟩) (fun h => by cases h) (Nat.le_refl _), .inl rfl⟩
    · rename_i k hu
      cases e
      refine ⟨h.same (fun t m ht hm => ?_) (fun g ns hg hn => ⟨g, ns, hg, hn⟩) (fun h => by cases h) (by simp), .inl (happ _)⟩
      simp only [Dict.get?_set] at ht
      split at ht
      · cases ht
        have := h.bound
        omega
      · exact ⟨t, hm ▸ ht⟩
    · rename_i g ns hu
      cases e
      refine ⟨h.same (fun t m ht hm => ⟨t, hm ▸ ht⟩) (fun u ms hg hn => ?_) (fun h => by cases h) (Nat.le_refl _), .inl rfl⟩
      simp only [Dict.get?_set] at hg
      split at hg
      · cases hg
        exact absurd (mem_refs.mpr (.inr (.inr (by rw [hu]; exact hn)))) h.refs
      · exact ⟨u, ms, hg, hn⟩
  | cancel i =>
    cases e
    refine ⟨⟨h.refs, by simpa using h.bound⟩, ?_⟩
    unfold Kept
    by_cases hi : i = n
    · subst hi; right; simp
    · left; simp [hi]
  | disconnect => cases e; exact ⟨⟨h.refs, h.bound⟩, .inl rfl⟩
  | recv m =>
    simp only at e
    split at e
    · cases e; exact ⟨h, .inl rfl⟩
    · obtain ⟨h1, h2⟩ := receive_forgotten h e
      exact ⟨h1, .inl h2⟩
  | flush =>
    simp only [Client.Client.flush] at e
    split at e
    · cases e; exact ⟨h, .inl rfl⟩
    · split at e
      · cases e; exact ⟨h, .inl rfl⟩
      · obtain ⟨_, _, e⟩ := Py.bind_ok.mp e
        cases e
        exact ⟨⟨h.refs, h.bound⟩, .inl rfl⟩
  | exit =>
    simp only [Client.Client.exit] at e
    split at e
    · obtain ⟨c1, h1, e⟩ := Py.bind_ok.mp e
      obtain ⟨c2, h2, e⟩ := Py.bind_ok.mp e
      cases e
      obtain ⟨a1, a2, a3, a4⟩ := exitTasks_same h1
      obtain ⟨b1, b2, b3, b4⟩ := exitGraphs_same h2
      have hv1 : n ∉ c.toFuture.items.map (·.2) := fun hm => h.refs (mem_refs.mpr (.inl (mem_values_iff.mp hm)))
      have hv2 : n ∉ (c1.graphs.items.map (·.2)).flatten := by
        intro hm
        obtain ⟨ns, h3, h4⟩ := List.mem_flatten.mp hm
        obtain ⟨g, hg⟩ := mem_values_iff.mp h3
        exact h.refs (mem_refs.mpr (.inr (.inl ⟨g, ns, by rw [← a1]; exact hg, h4⟩)))
      refine ⟨h.same (fun t m ht hm => ⟨t, ?_⟩) (fun g ns hg hn => ⟨g, ns, ?_, hn⟩) (fun hh => ?_) (by simp [Client.Client.note]; omega), .inl ?_⟩
      · rw [← a2, ← b2]; exact hm ▸ ht
      · rw [← a1, ← b1]; exact hg
      · rw [← a3, ← b3]; exact hh
      · show c2.futures[n]? = _
        rw [exitGraphs_other h2 hv2, exitTasks_other h1 hv1]
    · cases e; exact ⟨h, .inl rfl⟩

theorem run_forgotten {p : Pickle} {n : Nat} : ∀ (os : List Client.Op) {c c' : Client.Client}, Forgotten c n → c.run p os = .ok c' →
    Forgotten c' n ∧ Kept c.futures[n]? c'.futures[n]? := by
  intro os
  induction os with
  | nil => intro c c' h e; cases e; exact ⟨h, .inl rfl⟩
  | cons o os ih =>
    intro c c' h e
    obtain ⟨c1, h1, h2⟩ := Py.bind_ok.mp e
    obtain ⟨h3, h4⟩ := step_forgotten h h1
    obtain ⟨h5, h6⟩ := ih h3 h2
    refine ⟨h5, ?_⟩
    unfold Kept at *
    rcases h4 with h4 | h4 <;> rcases h6 with h6 | h6 <;> rw [h6, h4]
    · exact .inl rfl
    · exact .inr rfl
    · exact .inr rfl
    · right
      rcases c.futures[n]? with _ | s
      · rfl
      · cases s <;> rfl

/-- The answers that carry neither a result nor an exception. -/
def Empty (m : Message) (t : Bytes) : Prop := ∃ st mt r, m = .taskResult t st mt r ∧ st ≠ .success ∧ st ≠ .failed

/-- C80: after an answer that the task was cancelled, or is not known, the future keeps its state for ever (unless the user cancels
it): no later message resolves it, and neither does `disconnect`. -/
theorem C80_unresolved {p : Pickle} {c c' c'' : Client.Client} (hr : Client.Reach p c) (hc : c.closed = false) {m : Message}
    {t : Bytes} {n : Nat} (ho : openFuture t c.log = some n) (hm : Empty m t) (e : c.step p (.recv m) = .ok c') {os : List Client.Op}
    (e' : c'.run p os = .ok c'') :
    c''.futures[n]? = c.futures[n]? ∨ c''.futures[n]? = c.futures[n]?.map FState.cancel := by
  obtain ⟨st, mt, r, rfl, h1, h2⟩ := hm
  have hst : c.step p (.recv (.taskResult t st mt r)) = c.receive p (.taskResult t st mt r) := by simp [Client.Client.step, hc]
  rw [hst] at e
  have hn := ho
  rw [← hr.fut.fut] at hn
  have ht : (c.note (.recv (.taskResult t st mt r))).toFuture.get? t = some n := hn
  have hc' : c' = { (c.note (.recv (.taskResult t st mt r))) with toFuture := c.toFuture.erase t } := by
    simp only [Client.Client.receive, Client.Client.onTaskResult, ht] at e
    cases st with
    | success => exact absurd rfl h1
    | failed => exact absurd rfl h2
    | _ => cases e; rfl
  subst hc'
  have hin : n ∈ c.refs := mem_refs.mpr (.inl ⟨t, hn⟩)
  have hf : Forgotten { (c.note (.recv (.taskResult t st mt r))) with toFuture := c.toFuture.erase t } n := by
    refine ⟨fun hm => ?_, hr.fut.bound n hin⟩
    have hnd := hr.fut.nodup
    simp only [Client.Client.refs, List.nodup_append] at hnd
    rw [mem_refs] at hm
    rcases hm with ⟨u, hu⟩ | ⟨g, ns, hg, hns⟩ | hu
    · simp only [Dict.get?_erase] at hu
      split at hu
      · cases hu
      · rename_i hne
        have := nodup_map_inj hnd.1.1 (Dict.mem_items.2 hu) (Dict.mem_items.2 hn) rfl
        cases this
        exact hne rfl
    · exact hnd.1.2.2 n (mem_values hn) n (List.mem_flatten.2 ⟨ns, mem_values hg, hns⟩) rfl
    · exact hnd.2.2 n (List.mem_append_left _ (mem_values hn)) n hu rfl
  exact (run_forgotten os hf e').2


/-- **The claim is false**: the answer that a task was cancelled leaves the future pending, even after `disconnect`. -/
theorem C80_pending : ∃ c, Client.Reach plainPickle c ∧ c.closed = true ∧ Act.returned [1] 0 ∈ c.log ∧ Act.cancelled 0 ∉ c.log ∧
    Act.recv (.taskResult [1] .canceled 0 []) ∈ c.log ∧ c.futures = [.running] := by
  have h : clientWitness (submitAll [1] ++ [.flush, fnOk, .flush, .recv (.taskEcho [1] .submitOK), .recv (.taskResult [1] .canceled 0 []),
      .disconnect, .exit]) (fun c => decide (c.closed = true ∧ Act.returned [1] 0 ∈ c.log ∧ Act.cancelled 0 ∉ c.log ∧
        Act.recv (.taskResult [1] .canceled 0 []) ∈ c.log ∧ c.futures = [.running])) = some true := by decide +kernel
  obtain ⟨c, hr, hc⟩ := clientWitness_sound h
  exact ⟨c, hr, of_decide_eq_true hc⟩

/-- **The claim is false**: a task that the scheduler refuses for want of workers ends the thread, so that nothing else is resolved
either; here another task runs. -/
theorem C80_no_worker : ∃ c, Client.Reach plainPickle c ∧ c.closed = false ∧ c.futures = [.running, .pending] ∧
    lastCopy [2] c.log = .flying ∧ c.step plainPickle (.recv (.taskEcho [2] .noWorker)) = .error .notImplemented := by
  have h : clientWitness (submitAll [1] ++ [.flush, fnOk, .flush, .recv (.taskEcho [1] .submitOK)] ++ submitAll [2] ++ [.flush, fnOk, .flush])
      (fun c => (decide (c.closed = false ∧ c.futures = [.running, .pending] ∧ lastCopy [2] c.log = .flying),
        match c.step plainPickle (.recv (.taskEcho [2] .noWorker)) with
        | .error e => some e
        | .ok _ => none)) = some (true, some .notImplemented) := by decide +kernel
  obtain ⟨c, hr, hc⟩ := clientWitness_sound h
  simp only [Prod.mk.injEq, decide_eq_true_eq] at hc
  obtain ⟨⟨h1, h2, h3⟩, h4⟩ := hc
  refine ⟨c, hr, h1, h2, h3, ?_⟩
  split at h4
  · rename_i he
    cases h4
    exact he
  · cases h4

/-- A pickle that cannot load `[7]`. -/
def picky : Pickle := ⟨fun r => decide (r ≠ [7]), id⟩

/-- **The claim is false**: a result that cannot be unpickled ends the thread. -/
theorem C80_unloadable : ∃ c, Client.Reach picky c ∧ c.closed = false ∧ c.futures = [.running] ∧ openFuture [1] c.log = some 0 ∧
    c.step picky (.recv (.taskResult [1] .success 0 [7])) = .error .valueError := by
  let c := (clientRun picky Client.Client.init (submitAll [1] ++ [.flush, fnOk, .flush, .recv (.taskEcho [1] .submitOK)])).getD .init
  have h1 : (clientRun picky Client.Client.init (submitAll [1] ++ [.flush, fnOk, .flush, .recv (.taskEcho [1] .submitOK)])).isSome := by
    decide +kernel
  have h2 : clientRun picky Client.Client.init (submitAll [1] ++ [.flush, fnOk, .flush, .recv (.taskEcho [1] .submitOK)]) = some c := by
    obtain ⟨x, hx⟩ := Option.isSome_iff_exists.mp h1
    simp only [c, hx, Option.getD_some]
  refine ⟨c, clientRun_reach _ .init h2, by decide +kernel, by decide +kernel, by decide +kernel, rfl⟩

end Verif.Props
