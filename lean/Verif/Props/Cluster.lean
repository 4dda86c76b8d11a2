import Verif.Spec.Cluster

/-!
# C75: a signal to the cluster stops its workers
-/

namespace Verif.Props

open Verif.Cluster Verif.Spec

/-- A worker that can be interrupted. -/
def Alive (c : Child) : Prop := c = .running ∨ c = .ended

/-- What holds at all times. -/
def MasterInv (m : Master) : Prop :=
  match m.phase with
  | .begun => m.workers = [] ∧ m.log.filter (fun a => a matches .start _) = []
  | .starting i => m.n ≠ 1 ∧ m.workers.length = m.n.toNat ∧ i ≤ m.workers.length ∧ (∀ j w, m.workers[j]? = some w → j < i → Alive w) ∧
      (∀ j w, m.workers[j]? = some w → i ≤ j → w = .created) ∧ m.log.filter (fun a => a matches .start _) = (List.range i).map Act.start
  | .joining i => m.n ≠ 1 ∧ m.workers.length = m.n.toNat ∧ i ≤ m.workers.length ∧ (∀ j w, m.workers[j]? = some w → j < i → w = .joined) ∧
      (∀ j w, m.workers[j]? = some w → i ≤ j → Alive w) ∧ m.log.filter (fun a => a matches .start _) = (List.range m.n.toNat).map Act.start
  | .alone => m.n = 1 ∧ m.workers = [.created]
  | .aloneReady => m.n = 1 ∧ m.workers = [.created]
  | .ended => m.n = 1 ∨ m.workers = List.replicate m.n.toNat .joined ∧ m.log.filter (fun a => a matches .start _) = (List.range m.n.toNat).map Act.start
  | .raised _ => True

theorem destroy_alive (ws : List Child) (i : Nat) (h : ∀ w ∈ ws, Alive w) : destroy i ws = ((List.range' i ws.length).map Act.interrupt, none) := by
  induction ws generalizing i with
  | nil => rfl
  | cons w ws ih =>
    have hw := h w (by simp)
    have := ih (i + 1) fun w hw => h w (by simp [hw])
    rcases hw with rfl | rfl <;> simp [destroy, this, List.range'_succ]

theorem destroy_created (pre post : List Child) (i : Nat) (h : ∀ w ∈ pre, Alive w) :
    destroy i (pre ++ .created :: post) = ((List.range' i pre.length).map Act.interrupt, some .typeError) := by
  induction pre generalizing i with
  | nil => rfl
  | cons w ws ih =>
    have hw := h w (by simp)
    have := ih (i + 1) fun w hw => h w (by simp [hw])
    rcases hw with rfl | rfl <;> simp [destroy, this, List.range'_succ]

theorem signal_starts (m : Master) (s : Signal) : (m.signal s).log.filter (fun a => a matches .start _) = m.log.filter (fun a => a matches .start _) ∧
    (m.signal s).workers = m.workers ∧ (m.signal s).n = m.n ∧ ((m.signal s).phase = m.phase ∨ ∃ f, (m.signal s).phase = .raised f) := by
  have hd : ∀ (ws : List Child) (i : Nat), (destroy i ws).1.filter (fun a => a matches .start _) = [] := by
    intro ws
    induction ws with
    | nil => intro i; rfl
    | cons w ws ih => intro i; cases w <;> simp [destroy, ih]
  unfold Master.signal
  split
  · exact ⟨rfl, rfl, rfl, .inl rfl⟩
  · exact ⟨rfl, rfl, rfl, .inl rfl⟩
  · exact ⟨by simp, rfl, rfl, .inl rfl⟩
  · have hd' := hd m.workers 0
    cases he : destroy 0 m.workers with
    | mk acts fault =>
      rw [he] at hd'
      simp only at hd'
      cases fault with
      | none => exact ⟨by simp [hd'], rfl, rfl, .inl rfl⟩
      | some f => exact ⟨by simp [hd'], rfl, rfl, .inr ⟨f, rfl⟩⟩

theorem master_signal {m : Master} (h : MasterInv m) (s : Signal) : MasterInv (m.signal s) := by
  obtain ⟨h1, h2, h3, h4 | ⟨f, h4⟩⟩ := signal_starts m s
  · unfold MasterInv at h ⊢
    rw [h4, h2, h3, h1]
    exact h
  · unfold MasterInv; rw [h4]; trivial

theorem alive_set {l : List Child} {i : Nat} {c : Child} {j : Nat} {w : Child} (h : (l.set i c)[j]? = some w) :
    j = i ∧ w = c ∨ j ≠ i ∧ l[j]? = some w := by
  rw [List.getElem?_set] at h
  split at h
  · next hij => split at h <;> simp_all
  · next hij => exact .inr ⟨fun e => hij e.symm, h⟩

theorem master_step {m : Master} (h : MasterInv m) : MasterInv m.step := by
  unfold Master.step
  split
  · next hp =>
    simp only [MasterInv, hp] at h
    obtain ⟨h1, h2⟩ := h
    split
    · next h1 => simp [MasterInv, h1]
    · next hn =>
      refine ⟨hn, by simp, Nat.zero_le _, ?_, ?_, h2⟩
      · intro j w _ hj; omega
      · intro j w hw _
        exact (List.mem_replicate.1 (List.mem_of_getElem? hw)).2
  · next i hp =>
    simp only [MasterInv, hp] at h
    obtain ⟨h1, h2, h3, h4, h5, h6⟩ := h
    split
    · next hi =>
      refine ⟨h1, by simpa using h2, by simp only [List.length_set]; omega, ?_, ?_, ?_⟩
      · intro j w hw hj
        rcases alive_set hw with ⟨-, rfl⟩ | ⟨hne, hw⟩
        · exact .inl rfl
        · exact h4 j w hw (by omega)
      · intro j w hw hj
        rcases alive_set hw with ⟨rfl, rfl⟩ | ⟨hne, hw⟩
        · omega
        · exact h5 j w hw (by omega)
      · simp only [List.filter_append, h6, List.range_succ, List.map_append]
        rfl
    · next hi =>
      have hil : i = m.workers.length := by omega
      refine ⟨h1, h2, Nat.zero_le _, ?_, ?_, ?_⟩
      · intro j w _ hj; omega
      · intro j w hw _
        have : j < m.workers.length := (List.getElem?_eq_some_iff.1 hw).1
        exact h4 j w hw (by omega)
      · show m.log.filter _ = _
        rw [h6, hil, h2]
  · next i hp =>
    simp only [MasterInv, hp] at h
    obtain ⟨h1, h2, h3, h4, h5, h6⟩ := h
    split
    · next hw =>
      have hi : m.workers.length ≤ i := by simpa using hw
      refine .inr ⟨?_, h6⟩
      rw [List.eq_replicate_iff]
      refine ⟨h2, fun w hw => ?_⟩
      obtain ⟨j, hj⟩ := List.getElem?_of_mem hw
      have : j < m.workers.length := (List.getElem?_eq_some_iff.1 hj).1
      exact h4 j w hj (by omega)
    · next hw =>
      have hi : i < m.workers.length := (List.getElem?_eq_some_iff.1 hw).1
      refine ⟨h1, by simpa using h2, by simp only [List.length_set]; omega, ?_, ?_, h6⟩
      · intro j w hw hj
        rcases alive_set hw with ⟨-, rfl⟩ | ⟨hne, hw⟩
        · rfl
        · exact h4 j w hw (by omega)
      · intro j w hw hj
        rcases alive_set hw with ⟨rfl, rfl⟩ | ⟨hne, hw⟩
        · omega
        · exact h5 j w hw (by omega)
    · simp only [MasterInv, hp]; exact ⟨h1, h2, h3, h4, h5, h6⟩
  · next hp => simpa only [MasterInv, hp] using h
  · exact h

theorem master_ends {m : Master} (h : MasterInv m) (i : Nat) : MasterInv (m.workerEnds i) := by
  unfold Master.workerEnds
  split
  · next hp => simp only [MasterInv, hp] at h; exact .inl h.1
  · next hp =>
    split
    · next hw =>
      have key : ∀ (j : Nat) (w : Child), (m.workers.set i .ended)[j]? = some w → ∃ w0, m.workers[j]? = some w0 ∧
          (w = w0 ∨ w0 = .running ∧ w = .ended) := by
        intro j w h
        rcases alive_set h with ⟨rfl, rfl⟩ | ⟨-, h⟩
        · exact ⟨_, hw, .inr ⟨rfl, rfl⟩⟩
        · exact ⟨w, h, .inl rfl⟩
      unfold MasterInv at h ⊢
      simp only
      split at h
      · simp [h.1] at hw
      · obtain ⟨h1, h2, h3, h4, h5, h6⟩ := h
        refine ⟨h1, by simpa using h2, by simpa using h3, ?_, ?_, h6⟩
        · intro j w hj hlt
          obtain ⟨w0, e, rfl | ⟨rfl, rfl⟩⟩ := key j w hj
          · exact h4 j _ e hlt
          · exact .inr rfl
        · intro j w hj hlt
          obtain ⟨w0, e, rfl | ⟨rfl, rfl⟩⟩ := key j w hj
          · exact h5 j _ e hlt
          · cases h5 j _ e hlt
      · obtain ⟨h1, h2, h3, h4, h5, h6⟩ := h
        refine ⟨h1, by simpa using h2, by simpa using h3, ?_, ?_, h6⟩
        · intro j w hj hlt
          obtain ⟨w0, e, rfl | ⟨rfl, rfl⟩⟩ := key j w hj
          · exact h4 j _ e hlt
          · cases h4 j _ e hlt
        · intro j w hj hlt
          obtain ⟨w0, e, rfl | ⟨rfl, rfl⟩⟩ := key j w hj
          · exact h5 j _ e hlt
          · exact .inr rfl
      · obtain ⟨h1, h2⟩ := h
        rw [h2] at hw
        cases i <;> simp at hw
      · next hp' => exact absurd hp' hp
      · rcases h with h | ⟨h1, h2⟩
        · exact .inl h
        · rw [h1] at hw
          have := List.mem_replicate.1 (List.mem_of_getElem? hw)
          cases this.2
      · trivial
    · exact h

theorem master_inv (n : Int) (ops : List Op) : MasterInv ((Master.init n).run ops) := by
  suffices h : ∀ (m : Master), MasterInv m → MasterInv (m.run ops) from h _ ⟨rfl, rfl⟩
  induction ops with
  | nil => exact fun m h => h
  | cons op ops ih =>
    intro m h
    refine ih (m.apply op) ?_
    cases op with
    | step => exact master_step h
    | signal s => exact master_signal h s
    | workerEnds i => exact master_ends h i

theorem master_n (n : Int) (ops : List Op) : ((Master.init n).run ops).n = n := by
  suffices h : ∀ (m : Master), (m.run ops).n = m.n from h _
  induction ops with
  | nil => exact fun m => rfl
  | cons op ops ih =>
    intro m
    refine (ih (m.apply op)).trans ?_
    cases op with
    | step => simp only [Master.apply, Master.step]; repeat' split
              all_goals rfl
    | signal s => exact (signal_starts m s).2.2.1
    | workerEnds i => simp only [Master.apply, Master.workerEnds]; repeat' split
                      all_goals rfl

theorem count_acts {f : Nat → Act} (hf : ∀ a b, f a = f b → a = b) (i n : Nat) : ((List.range n).map f).count (f i) = if i < n then 1 else 0 := by
  induction n with
  | zero => rfl
  | succ n ih =>
    rw [List.range_succ, List.map_append, List.count_append, ih]
    by_cases hi : i = n
    · subst hi; simp
    · have : f n ≠ f i := fun e => hi (hf _ _ e).symm
      have h1 : ([n].map f).count (f i) = 0 := by simp [this]
      rw [h1]
      by_cases hlt : i < n
      · rw [if_pos hlt, if_pos (by omega)]
      · rw [if_neg hlt, if_neg (by omega)]

/-- **C75, what a signal does, in full.** -/
theorem C75_signal_exact (n : Int) (ops : List Op) (m : Master) (h : (Master.init n).run ops = m) (s : Signal) :
    match m.phase with
    | .begun => m.signal s = m
    | .starting i => (m.signal s).log = m.log ++ interrupts i ∧ (m.signal s).phase = if i < n.toNat then .raised .typeError else m.phase
    | .joining 0 => (m.signal s).log = m.log ++ interrupts n.toNat ∧ (m.signal s).phase = m.phase
    | .joining (_ + 1) => (m.signal s).log = m.log ∧ (m.signal s).phase = .raised .processLookupError
    | .alone => (m.signal s).log = m.log ∧ (m.signal s).phase = .raised .typeError
    | .aloneReady => match s with
      | .int => (m.signal s).log = m.log ++ [.cancel] ∧ (m.signal s).phase = m.phase
      | .term => (m.signal s).log = m.log ∧ (m.signal s).phase = .raised .typeError
    | _ => m.signal s = m := by
  have hi := master_inv n ops
  have hn := master_n n ops
  rw [h] at hi hn
  split
  · next hp =>
    simp only [MasterInv, hp] at hi
    obtain ⟨n', ph, ws, lg⟩ := m
    simp_all [Master.signal, destroy]
  · next i hp =>
    simp only [MasterInv, hp] at hi
    obtain ⟨h1, h2, h3, h4, h5, h6⟩ := hi
    rw [hn] at h2
    by_cases hlt : i < n.toNat
    · have hs : m.workers = m.workers.take i ++ .created :: m.workers.drop (i + 1) := by
        have hlt' : i < m.workers.length := by omega
        have := h5 i m.workers[i] (List.getElem?_eq_getElem hlt') (Nat.le_refl _)
        rw [← this, ← List.drop_eq_getElem_cons hlt', List.take_append_drop]
      have hd := destroy_created (m.workers.take i) (m.workers.drop (i + 1)) 0 fun w hw => by
        obtain ⟨j, hj⟩ := List.getElem?_of_mem hw
        rw [List.getElem?_take] at hj
        split at hj
        · next hji => exact h4 j w hj hji
        · cases hj
      rw [← hs] at hd
      have hl : (m.workers.take i).length = i := by rw [List.length_take]; omega
      simp only [Master.signal, hp, hd, hl, hlt, if_true, interrupts, List.range_eq_range', and_self]
    · have hd := destroy_alive m.workers 0 fun w hw => by
        obtain ⟨j, hj⟩ := List.getElem?_of_mem hw
        have := (List.getElem?_eq_some_iff.1 hj).1
        exact h4 j w hj (by omega)
      have hl : m.workers.length = i := by omega
      simp only [Master.signal, hp, hd, hl, hlt, if_false, interrupts, List.range_eq_range', and_self]
  · next hp =>
    simp only [MasterInv, hp] at hi
    obtain ⟨h1, h2, h3, h4, h5, h6⟩ := hi
    have hd := destroy_alive m.workers 0 fun w hw => by
      obtain ⟨j, hj⟩ := List.getElem?_of_mem hw
      exact h5 j w hj (Nat.zero_le _)
    simp only [Master.signal, hp, hd, h2, hn, interrupts, List.range_eq_range', and_self]
  · next i hp =>
    simp only [MasterInv, hp] at hi
    obtain ⟨h1, h2, h3, h4, h5, h6⟩ := hi
    match hw : m.workers with
    | [] => rw [hw] at h3; simp at h3
    | w :: ws =>
      have := h4 0 w (by rw [hw]; rfl) (by omega)
      subst this
      simp [Master.signal, hp, hw, destroy]
  · next hp =>
    simp only [MasterInv, hp] at hi
    simp [Master.signal, hp, hi.2, destroy]
  · next hp =>
    simp only [MasterInv, hp] at hi
    cases s <;> simp [Master.signal, hp, hi.2, destroy]
  · next hp1 hp2 hp3 hp4 hp5 hp6 =>
    unfold Master.signal
    split
    · rfl
    · rfl
    · next hp => exact absurd hp hp6
    · next h1 h2 h3 =>
      match hp : m.phase with
      | .begun => exact absurd hp hp1
      | .starting i => exact absurd hp (hp2 i)
      | .joining 0 => exact absurd hp hp3
      | .joining (i + 1) => exact absurd hp (hp4 i)
      | .alone => exact absurd hp hp5
      | .aloneReady => exact absurd hp hp6
      | .ended => exact absurd hp h1
      | .raised f => exact absurd hp (h2 f)

/-- **C75, when all workers were started and nobody was waited for.** A signal interrupts each worker once.

Full statement: every signal is obeyed, whenever it comes, as long as the master runs.  Missing: signals during
start-up, after the end of a worker, and clusters of one worker; there it is false (`C75_lost`, `C75_start_raises`,
`C75_survivor`, `C75_one_worker`). -/
theorem C75_obeyed_partial (n : Int) (ops : List Op) (m : Master) (h : (Master.init n).run ops = m) (hu : Up m) (s : Signal) :
    Obeyed m (m.signal s) := by
  have hx := C75_signal_exact n ops m h s
  have hi := master_inv n ops
  have hn := master_n n ops
  rw [h] at hi hn
  have count : ∀ i, m.workers[i]? = some .running → (m.log ++ interrupts m.workers.length).count (.interrupt i) = m.log.count (.interrupt i) + 1 := by
    intro i hi
    have hl := (List.getElem?_eq_some_iff.1 hi).1
    rw [List.count_append]
    congr 1
    unfold interrupts
    rw [count_acts (fun a b e => by cases e; rfl), if_pos hl]
  rcases hu with hp | hp
  · simp only [MasterInv, hp] at hi
    have : ¬ m.workers.length < n.toNat := by have := hi.2.1; omega
    simp only [hp, this, if_false] at hx
    refine ⟨fun f hf => ?_, fun i hi => ?_⟩
    · rw [hx.2] at hf; cases hf
    · rw [hx.1]; exact count i hi
  · simp only [MasterInv, hp] at hi
    simp only [hp] at hx
    refine ⟨fun f hf => ?_, fun i hi' => ?_⟩
    · rw [hx.2] at hf; cases hf
    · rw [hx.1, ← hn, ← hi.2.1]; exact count i hi'

/-- **C75, the end.** A master that has ended has waited for all its workers, and each was started exactly once. -/
theorem C75_ended (n : Int) (ops : List Op) (m : Master) (h : (Master.init n).run ops = m) (hn : n ≠ 1) (he : m.phase = .ended) :
    m.workers = List.replicate n.toNat .joined ∧ ∀ i, m.log.count (.start i) = if i < n.toNat then 1 else 0 := by
  have hi := master_inv n ops
  have hn' := master_n n ops
  rw [h] at hi hn'
  simp only [MasterInv, he, hn', hn, false_or] at hi
  refine ⟨hi.1, fun i => ?_⟩
  have : m.log.count (.start i) = (m.log.filter (fun a => a matches .start _)).count (.start i) := by
    rw [List.count_filter rfl]
  rw [this, hi.2]
  exact count_acts (fun a b e => by cases e; rfl) i _

/-- **C75, the end comes.** When all workers have ended, the master gets through its loop and ends. -/
theorem C75_ends (m : Master) (hp : m.phase = .joining 0) (hw : ∀ w ∈ m.workers, w = .ended) :
    (m.run (List.replicate (m.workers.length + 1) .step)).phase = .ended := by
  suffices hg : ∀ (k i : Nat) (m : Master), m.phase = .joining i → m.workers.length = i + k → (∀ j w, m.workers[j]? = some w → i ≤ j → w = .ended) →
      (m.run (List.replicate (k + 1) .step)).phase = .ended from
    hg m.workers.length 0 m hp (by omega) fun j w h _ => hw w (List.mem_of_getElem? h)
  intro k
  induction k with
  | zero =>
    intro i m hp hl hw
    have : m.workers[i]? = none := by rw [List.getElem?_eq_none_iff]; omega
    simp [Master.run, Master.apply, Master.step, hp, this]
  | succ k ih =>
    intro i m hp hl hw
    have hi : i < m.workers.length := by omega
    have he := hw i _ (List.getElem?_eq_getElem hi) (Nat.le_refl _)
    have hg : m.workers[i]? = some .ended := by rw [List.getElem?_eq_getElem hi, he]
    have h1 : m.step = { m with workers := m.workers.set i .joined, phase := .joining (i + 1) } := by
      simp [Master.step, hp, hg]
    rw [List.replicate_succ]
    show ((m.step).run _).phase = _
    rw [h1]
    refine ih (i + 1) _ rfl (by simpa using (by omega : m.workers.length = i + 1 + k)) ?_
    intro j w hj hlt
    rcases alive_set hj with ⟨rfl, -⟩ | ⟨-, hj⟩
    · omega
    · exact hw j w hj (by omega)

/-- All are up, are interrupted, end, and the master ends. -/
def clusterStory : List Op := [.step, .step, .step, .step, .signal .int, .workerEnds 1, .workerEnds 0, .step, .step, .step]

example : ((Master.init 2).run clusterStory).phase = .ended ∧ ((Master.init 2).run clusterStory).log = [.start 0, .start 1, .interrupt 0, .interrupt 1] ∧
    Up ((Master.init 2).run (clusterStory.take 4)) := by
  refine ⟨by decide, by decide, .inr (by decide)⟩

/-- **C75 is false: a signal that comes too early is lost.** The workers are started and nobody interrupts them. -/
theorem C75_lost : ((Master.init 2).run [.signal .term, .step, .step, .step, .step]).phase = .joining 0 ∧
    ((Master.init 2).run [.signal .term, .step, .step, .step, .step]).workers = [.running, .running] ∧
    ((Master.init 2).run [.signal .term, .step, .step, .step, .step]).log = [.start 0, .start 1] := by decide

/-- **C75 is false: during start-up the handler raises** (`os.kill(None, ...)`). -/
theorem C75_start_raises : ((Master.init 2).run [.step, .step, .signal .int]).phase = .raised .typeError := by decide

/-- **C75 is false: after the end of the first worker the handler raises** before it has interrupted anybody, and the
other workers run on. -/
theorem C75_survivor : ((Master.init 2).run [.step, .step, .step, .step, .workerEnds 0, .step, .signal .term]).phase = .raised .processLookupError ∧
    ((Master.init 2).run [.step, .step, .step, .step, .workerEnds 0, .step, .signal .term]).workers = [.joined, .running] ∧
    Act.interrupt 1 ∉ ((Master.init 2).run [.step, .step, .step, .step, .workerEnds 0, .step, .signal .term]).log := by decide

/-- **C75 is false: a cluster of one worker fails on `SIGTERM`,** the signal that `SchedulerClusterCombo.shutdown` sends. -/
theorem C75_one_worker : ((Master.init 1).run [.step, .step, .signal .term]).phase = .raised .typeError ∧
    Act.cancel ∉ ((Master.init 1).run [.step, .step, .signal .term]).log := by decide

end Verif.Props
