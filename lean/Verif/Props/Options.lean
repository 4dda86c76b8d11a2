import Verif.Cluster.OptionsInv

/-!
# Claims about the commands and their options (C78)
-/

namespace Verif.Props

open Verif.Util Verif.Cluster Verif.Spec Verif.Spec.Command

theorem except_bind_ok {ε α β : Type} (x : Except ε α) (f : α → Except ε β) (b : β) :
    (x >>= f) = .ok b ↔ ∃ a, x = .ok a ∧ f a = .ok b := by
  cases x <;> simp [bind, Except.bind]

theorem eq_of_pairwise {α : Type} {l : List α} {Q : α → α → Prop} (hs : ∀ a b, Q a b → Q b a)
    (h : l.Pairwise fun a b => ¬ Q a b) : ∀ a ∈ l, ∀ b ∈ l, Q a b → a = b := by
  induction l with
  | nil => simp
  | cons c cs ih =>
    rw [List.pairwise_cons] at h
    intro a ha b hb hq
    rcases List.mem_cons.1 ha with h1 | h1 <;> rcases List.mem_cons.1 hb with h2 | h2
    · rw [h1, h2]
    · subst h1; exact absurd hq (h.1 b h2)
    · subst h2; exact absurd (hs _ _ hq) (h.1 a h1)
    · exact ih h.2 a h1 b h2 hq

/-- `dest` in terms of the names. -/
def destOf (names : List Tok) : Tok := Arg.dest ⟨names, .text, none⟩

/-- `Distinct` in terms of the names. -/
def DistinctNames (ns : List (List Tok)) (p : List Tok) : Prop :=
  (∀ a ∈ ns, destOf a ≠ destOf p) ∧ ns.Pairwise (fun a b => ¬ destOf a = destOf b) ∧
  ns.Pairwise (fun a b => ¬ ∃ n ∈ a, n ∈ b) ∧
  (∀ a ∈ ns, ∀ n ∈ a, n ≠ ['-', 'h'] ∧ n ≠ ['-', '-', 'h', 'e', 'l', 'p'] ∧ isValue n = false)

instance (ns : List (List Tok)) (p : List Tok) : Decidable (DistinctNames ns p) := by unfold DistinctNames; infer_instance

theorem distinct_of_names {opts : List Arg} {pos : Arg} (h : DistinctNames (opts.map (·.names)) pos.names) : Distinct opts pos := by
  obtain ⟨h1, h2, h3, h4⟩ := h
  refine ⟨fun a ha => h1 a.names (List.mem_map_of_mem ha), ?_, ?_, fun a ha => h4 a.names (List.mem_map_of_mem ha)⟩
  · exact eq_of_pairwise (Q := fun (a b : Arg) => a.dest = b.dest) (fun _ _ h => h.symm) (List.pairwise_map.1 h2)
  · intro a ha b hb n hna hnb
    exact eq_of_pairwise (Q := fun (a b : Arg) => ∃ n ∈ a.names, n ∈ b.names) (fun _ _ ⟨n, h, h'⟩ => ⟨n, h', h⟩) (List.pairwise_map.1 h3)
      a ha b hb ⟨n, hna, hnb⟩

theorem scheduler_distinct : Distinct schedulerOptions addressArg := distinct_of_names (by decide +kernel)

theorem cluster_distinct (cpus : Int) : Distinct (clusterOptions cpus) addressArg := by
  refine distinct_of_names ?_
  have h : (clusterOptions cpus).map (·.names) = (clusterOptions 0).map (·.names) := rfl
  rw [h]
  decide +kernel

theorem top_distinct : Distinct topOptions ⟨["address".toList], .text, none⟩ := distinct_of_names (by decide +kernel)

/-- The options of a command: numbers, and the event loop under `loops`. -/
def Sorted (opts : List Arg) (numbers loops : List Word) : Prop :=
  (∀ n, n ∈ numbers ↔ ∃ a ∈ opts, a.kind = .int ∧ n ∈ a.names) ∧
  (∀ n, n ∈ loops ↔ ∃ a ∈ opts, a.kind = .choice loopTypes ∧ n ∈ a.names) ∧
  (∀ a ∈ opts, a.kind = .int ∨ a.kind = .choice loopTypes)

theorem mem_loopTypes (v : Tok) : v ∈ loopTypes ↔ v = "builtin".toList ∨ v = "uvloop".toList := by
  have h1 : "builtin".toList = ['b', 'u', 'i', 'l', 't', 'i', 'n'] := by decide
  have h2 : "uvloop".toList = ['u', 'v', 'l', 'o', 'o', 'p'] := by decide
  simp [loopTypes, h1, h2]

theorem form_iff {opts : List Arg} {numbers loops : List Word} (h : Sorted opts numbers loops) (ps : List Part) :
    ((∀ n v, .given n v ∈ ps → isValue v = true ∧ ∃ a ∈ opts, n ∈ a.names ∧ ∃ x, a.kind.read v = .ok x) ∧
     (∀ w, .plain w ∈ ps → isValue w = true)) ↔ WellFormed numbers loops ps := by
  unfold WellFormed
  simp only [bare_iff]
  refine and_congr (forall_congr' fun n => forall_congr' fun v => imp_congr_right fun _ => and_congr_right fun _ => ?_) Iff.rfl
  rw [h.1, h.2.1, ← mem_loopTypes]
  constructor
  · rintro ⟨a, ha, hn, x, hx⟩
    rcases h.2.2 a ha with hk | hk
    · rw [hk, read_int] at hx
      obtain ⟨i, _, hi⟩ := hx
      exact .inl ⟨⟨a, ha, hk, hn⟩, i, hi⟩
    · rw [hk, read_choice] at hx
      exact .inr ⟨⟨a, ha, hk, hn⟩, hx.2⟩
  · rintro (⟨⟨a, ha, hk, hn⟩, i, hi⟩ | ⟨⟨a, ha, hk, hn⟩, hv⟩)
    · exact ⟨a, ha, hn, .int i, by rw [hk, read_int]; exact ⟨i, rfl, hi⟩⟩
    · exact ⟨a, ha, hn, .text v, by rw [hk, read_choice]; exact ⟨rfl, hv⟩⟩

theorem scheduler_sorted : Sorted schedulerOptions schedulerNumbers ["--event-loop".toList, "-e".toList] := by
  refine ⟨fun n => ?_, fun n => ?_, ?_⟩
  · simp [schedulerNumbers, schedulerOptions, or_assoc]
  · simp [schedulerOptions]
  · decide +kernel

theorem cluster_sorted (cpus : Int) : Sorted (clusterOptions cpus) clusterNumbers ["--event-loop".toList, "-el".toList] := by
  refine ⟨fun n => ?_, fun n => ?_, ?_⟩
  · simp [clusterNumbers, clusterOptions, or_assoc]
  · simp [clusterOptions]
  · simp [clusterOptions]

theorem top_sorted : Sorted topOptions ["--timeout".toList] [] := by
  refine ⟨fun n => ?_, fun n => ?_, ?_⟩
  · simp [topOptions]
  · simp [topOptions]
  · simp [topOptions]

/-- The address read by the parser. -/
theorem address_iff {opts : List Arg} (hd : Distinct opts addressArg) {ps : List Part} {d d' : Dict Tok Val}
    (h : Parse opts addressArg ps d d') (hn : d.get? "address".toList = none)
    (hs : d'.has "address".toList = true) (a : ZmqConfig) :
    readAddress d' "address".toList = .ok a ↔ ∃ w, plains ps = [w] ∧ Denotes w a := by
  have hdest : addressArg.dest = "address".toList := by decide
  obtain ⟨w, x, hp, hx, hg⟩ := h.position_some hd (hdest ▸ hn) (hdest ▸ hs)
  rw [hdest] at hg
  rw [readAddress_ok, hg]
  obtain ⟨b, rfl, hb⟩ := read_address.1 hx
  constructor
  · rintro hab; cases hab; exact ⟨w, hp, hb⟩
  · rintro ⟨w', hp', ha⟩
    rw [hp] at hp'; cases hp'
    rw [← fromString_denotes] at ha hb
    rw [ha] at hb; cases hb; rfl

theorem lastGiven_mem {names : List Word} {ps : List Part} {v : Word} (h : LastGiven names ps v) : ∃ n ∈ names, .given n v ∈ ps := by
  obtain ⟨b, n, c, rfl, hn, _⟩ := h
  exact ⟨n, hn, by simp⟩

theorem bad_disjoint {numbers loops : List Word} {opts : List Arg} {pos : Arg} (hd : Distinct opts pos) (hs : Sorted opts numbers loops) :
    ∀ n ∈ loops, n ∉ numbers := by
  intro n hl hn
  obtain ⟨a, ha, hk, hna⟩ := (hs.2.1 n).1 hl
  obtain ⟨b, hb, hk', hnb⟩ := (hs.1 n).1 hn
  cases hd.2.2.1 a ha b hb n hna hnb
  rw [hk] at hk'; cases hk'

/-- `scaled_scheduler` starts with exactly the settings its command line asks for, the last value of an option counting;
nothing else lets it start. -/
theorem C78_scheduler (uvloop : Bool) (toks : List Tok) (s : SchedulerSettings) :
    schedulerCommand uvloop toks = .ok s ↔ ∃ ps, toks = written ps ∧ SchedulerLine uvloop ps s := by
  have hd := scheduler_distinct
  have key : ∀ ps d', Parse schedulerOptions addressArg ps (defaults schedulerOptions) d' → d'.has "address".toList = true →
      (SchedulerLine uvloop ps s ↔
        (∃ l, readText d' "event_loop".toList = .ok l ∧ registerEventLoop uvloop l = .ok ()) ∧
        readAddress d' "address".toList = .ok s.address ∧
        readInt d' "io_threads".toList = .ok s.ioThreads ∧
        readInt d' "max_number_of_tasks_waiting".toList = .ok s.maxWaiting ∧
        readInt d' "per_worker_queue_size".toList = .ok s.queueSize ∧
        readInt d' "worker_timeout_seconds".toList = .ok s.workerTimeout ∧
        readInt d' "function_retention_seconds".toList = .ok s.functionRetention ∧
        readInt d' "load_balance_seconds".toList = .ok s.balanceSeconds ∧
        readInt d' "load_balance_trigger_times".toList = .ok s.balanceTriggers ∧ s.address.type = .tcp) := by
    intro ps d' hp hs
    have hform := (form_iff scheduler_sorted ps).1 hp.parts
    rw [address_iff hd hp (defaults_pos hd) hs]
    rw [hp.number hd (names := ["--io-threads".toList]) (dflt := 1) (by simp [schedulerOptions, defaultIoThreads, defaultMaxWaiting, defaultWorkerTimeout, defaultBalanceSeconds, defaultBalanceTriggers, defaultQueueSize,
      defaultFunctionRetention]) (by decide)]
    rw [hp.number hd (names := ["--max-number-of-tasks-waiting".toList, "-mt".toList]) (dflt := -1) (by simp [schedulerOptions, defaultIoThreads, defaultMaxWaiting, defaultWorkerTimeout, defaultBalanceSeconds, defaultBalanceTriggers, defaultQueueSize,
      defaultFunctionRetention]) (by decide)]
    rw [hp.number hd (names := ["--per-worker-queue-size".toList, "-qs".toList]) (dflt := 1000) (by simp [schedulerOptions, defaultIoThreads, defaultMaxWaiting, defaultWorkerTimeout, defaultBalanceSeconds, defaultBalanceTriggers, defaultQueueSize,
      defaultFunctionRetention]) (by decide)]
    rw [hp.number hd (names := ["--worker-timeout-seconds".toList, "-wt".toList]) (dflt := 60) (by simp [schedulerOptions, defaultIoThreads, defaultMaxWaiting, defaultWorkerTimeout, defaultBalanceSeconds, defaultBalanceTriggers, defaultQueueSize,
      defaultFunctionRetention]) (by decide)]
    rw [hp.number hd (names := ["--function-retention-seconds".toList, "-ft".toList]) (dflt := 20) (by simp [schedulerOptions, defaultIoThreads, defaultMaxWaiting, defaultWorkerTimeout, defaultBalanceSeconds, defaultBalanceTriggers, defaultQueueSize,
      defaultFunctionRetention]) (by decide)]
    rw [hp.number hd (names := ["--load-balance-seconds".toList, "-ls".toList]) (dflt := 1) (by simp [schedulerOptions, defaultIoThreads, defaultMaxWaiting, defaultWorkerTimeout, defaultBalanceSeconds, defaultBalanceTriggers, defaultQueueSize,
      defaultFunctionRetention]) (by decide)]
    rw [hp.number hd (names := ["--load-balance-trigger-times".toList, "-lbt".toList]) (dflt := 2) (by simp [schedulerOptions, defaultIoThreads, defaultMaxWaiting, defaultWorkerTimeout, defaultBalanceSeconds, defaultBalanceTriggers, defaultQueueSize,
      defaultFunctionRetention]) (by decide)]
    have hl : ∀ l, readText d' "event_loop".toList = .ok l ↔ Choice ["--event-loop".toList, "-e".toList] ps "builtin".toList l :=
      hp.choice hd (allowed := loopTypes) (by simp [schedulerOptions]) (by decide) (fun v hv => by
        obtain ⟨n, hn, hm⟩ := lastGiven_mem hv
        rcases (hform.1 n v hm).2 with ⟨hbad, _⟩ | ⟨_, hv⟩
        · exact absurd hbad (bad_disjoint hd scheduler_sorted n hn)
        · exact (mem_loopTypes v).2 hv)
    simp only [hl, registerEventLoop_ok]
    constructor
    · intro h
      exact ⟨h.loop, h.address, h.ioThreads, h.maxWaiting, h.queueSize, h.workerTimeout, h.functionRetention, h.balanceSeconds,
        h.balanceTriggers, h.tcp⟩
    · rintro ⟨h1, h2, h3, h4, h5, h6, h7, h8, h9, h10⟩
      exact ⟨hform, h2, h10, h1, h3, h4, h5, h6, h7, h8, h9⟩
  unfold schedulerCommand parseArgs
  simp only [except_bind_ok, newScheduler]
  constructor
  · rintro ⟨d', hpt, l, hl, _, hr, a, ha, i1, h1, i2, h2, i3, h3, i4, h4, i5, h5, i6, h6, i7, h7, hs⟩
    obtain ⟨ps, rfl, hp, hd'⟩ := parseToks_ok hpt
    split at hs
    · cases hs
    · rename_i ht
      cases hs
      exact ⟨ps, rfl, (key ps d' hp hd').2 ⟨⟨l, hl, hr⟩, ha, h1, h2, h3, h4, h5, h6, h7, by simpa using ht⟩⟩
  · rintro ⟨ps, rfl, hl⟩
    obtain ⟨w, hw, hden⟩ := hl.address
    have hf := (form_iff scheduler_sorted ps).2 hl.form
    obtain ⟨d', hp, hd'⟩ := parse_full hd ps hf.1 hf.2 (defaults schedulerOptions)
      ⟨defaults_pos hd, w, .address s.address, hw, read_address.2 ⟨_, rfl, hden⟩⟩
    obtain ⟨⟨l, hl, hr⟩, ha, h1, h2, h3, h4, h5, h6, h7, ht⟩ := (key ps d' hp hd').1 hl
    exact ⟨d', hp.finish hd', l, hl, (), hr, _, ha, _, h1, _, h2, _, h3, _, h4, _, h5, _, h6, _, h7, by simp [ht]⟩

/-- `scaled_cluster` starts with exactly the settings its command line asks for. -/
theorem C78_cluster (uvloop : Bool) (cpus : Int) (toks : List Tok) (s : ClusterSettings) :
    clusterCommand uvloop cpus toks = .ok s ↔ ∃ ps, toks = written ps ∧ ClusterLine uvloop cpus ps s := by
  have hd := cluster_distinct cpus
  have key : ∀ ps d', Parse (clusterOptions cpus) addressArg ps (defaults (clusterOptions cpus)) d' → d'.has "address".toList = true →
      (ClusterLine uvloop cpus ps s ↔
        readText d' "event_loop".toList = .ok s.eventLoop ∧ registerEventLoop uvloop s.eventLoop = .ok () ∧
        readAddress d' "address".toList = .ok s.address ∧
        readInt d' "num_of_workers".toList = .ok s.workers ∧
        readInt d' "heartbeat_interval".toList = .ok s.heartbeatInterval ∧
        readInt d' "function_retention_seconds".toList = .ok s.functionRetention ∧
        readInt d' "death_timeout_seconds".toList = .ok s.deathTimeout ∧
        readInt d' "garbage_collect_interval_seconds".toList = .ok s.gcInterval ∧
        readInt d' "trim_memory_threshold_bytes".toList = .ok s.trimThreshold) := by
    intro ps d' hp hs
    have hform := (form_iff (cluster_sorted cpus) ps).1 hp.parts
    rw [address_iff hd hp (defaults_pos hd) hs]
    rw [hp.number hd (names := ["--num-of-workers".toList, "-n".toList]) (dflt := cpus - 1) (by simp [clusterOptions, defaultWorkers, defaultHeartbeatInterval,
      defaultDeathTimeout, defaultGcInterval, defaultTrimThreshold, defaultWorkerFunctionRetention]) (show destOf ["--num-of-workers".toList, "-n".toList] = _ by decide)]
    rw [hp.number hd (names := ["--heartbeat-interval".toList, "-hi".toList]) (dflt := 2) (by simp [clusterOptions, defaultWorkers, defaultHeartbeatInterval,
      defaultDeathTimeout, defaultGcInterval, defaultTrimThreshold, defaultWorkerFunctionRetention]) (by decide)]
    rw [hp.number hd (names := ["--function-retention-seconds".toList, "-ft".toList]) (dflt := 20) (by simp [clusterOptions, defaultWorkers, defaultHeartbeatInterval,
      defaultDeathTimeout, defaultGcInterval, defaultTrimThreshold, defaultWorkerFunctionRetention]) (by decide)]
    rw [hp.number hd (names := ["--death-timeout-seconds".toList, "-dt".toList]) (dflt := 10) (by simp [clusterOptions, defaultWorkers, defaultHeartbeatInterval,
      defaultDeathTimeout, defaultGcInterval, defaultTrimThreshold, defaultWorkerFunctionRetention]) (by decide)]
    rw [hp.number hd (names := ["--garbage-collect-interval-seconds".toList, "-gc".toList]) (dflt := 30) (by simp [clusterOptions, defaultWorkers, defaultHeartbeatInterval,
      defaultDeathTimeout, defaultGcInterval, defaultTrimThreshold, defaultWorkerFunctionRetention]) (by decide)]
    rw [hp.number hd (names := ["--trim-memory-threshold-bytes".toList, "-tm".toList]) (dflt := 1073741824) (by simp [clusterOptions, defaultWorkers, defaultHeartbeatInterval,
      defaultDeathTimeout, defaultGcInterval, defaultTrimThreshold, defaultWorkerFunctionRetention]) (by decide)]
    have hl : ∀ l, readText d' "event_loop".toList = .ok l ↔ Choice ["--event-loop".toList, "-el".toList] ps "builtin".toList l :=
      hp.choice hd (allowed := loopTypes) (by simp [clusterOptions]) (by decide) (fun v hv => by
        obtain ⟨n, hn, hm⟩ := lastGiven_mem hv
        rcases (hform.1 n v hm).2 with ⟨hbad, _⟩ | ⟨_, hv⟩
        · exact absurd hbad (bad_disjoint hd (cluster_sorted cpus) n hn)
        · exact (mem_loopTypes v).2 hv)
    simp only [hl, registerEventLoop_ok]
    constructor
    · intro h
      exact ⟨h.loop.1, h.loop.2, h.address, h.workers, h.heartbeatInterval, h.functionRetention, h.deathTimeout, h.gcInterval,
        h.trimThreshold⟩
    · rintro ⟨h1, h1', h2, h3, h4, h5, h6, h7, h8⟩
      exact ⟨hform, h2, ⟨h1, h1'⟩, h3, h4, h5, h6, h7, h8⟩
  unfold clusterCommand parseArgs
  simp only [except_bind_ok]
  constructor
  · rintro ⟨d', hpt, l, hl, _, hr, a, ha, i1, h1, i2, h2, i3, h3, i4, h4, i5, h5, i6, h6, l', hl', hs⟩
    obtain ⟨ps, rfl, hp, hd'⟩ := parseToks_ok hpt
    rw [hl] at hl'; cases hl'
    cases hs
    exact ⟨ps, rfl, (key ps d' hp hd').2 ⟨hl, hr, ha, h1, h2, h3, h4, h5, h6⟩⟩
  · rintro ⟨ps, rfl, hl⟩
    obtain ⟨w, hw, hden⟩ := hl.address
    have hf := (form_iff (cluster_sorted cpus) ps).2 hl.form
    obtain ⟨d', hp, hd'⟩ := parse_full hd ps hf.1 hf.2 (defaults (clusterOptions cpus))
      ⟨defaults_pos hd, w, .address s.address, hw, read_address.2 ⟨_, rfl, hden⟩⟩
    obtain ⟨hl, hr, ha, h1, h2, h3, h4, h5, h6⟩ := (key ps d' hp hd').1 hl
    exact ⟨d', hp.finish hd', _, hl, (), hr, _, ha, _, h1, _, h2, _, h3, _, h4, _, h5, _, h6, _, hl, rfl⟩

theorem addressOf_ok {w : Tok} {a : ZmqConfig} : addressOf w = .ok a ↔ Denotes w a := by
  rw [← fromString_denotes]
  unfold addressOf
  cases ZmqConfig.fromString w <;> simp

/-- `scaled_top` asks the address it is given, as long as it is told. -/
theorem C78_top (toks : List Tok) (a : ZmqConfig) (n : Int) :
    topCommand toks = .ok (a, n) ↔ ∃ ps, toks = written ps ∧ TopLine ps a n := by
  have hd := top_distinct
  have hdest : (⟨["address".toList], .text, none⟩ : Arg).dest = "address".toList := by decide
  have key : ∀ ps d', Parse topOptions ⟨["address".toList], .text, none⟩ ps (defaults topOptions) d' → d'.has "address".toList = true →
      (TopLine ps a n ↔
        (∃ w, readText d' "address".toList = .ok w ∧ addressOf w = .ok a) ∧ readInt d' "timeout".toList = .ok n) := by
    intro ps d' hp hs
    have hform := (form_iff top_sorted ps).1 hp.parts
    rw [hp.number hd (names := ["--timeout".toList]) (dflt := 5) (by simp [topOptions]) (by decide)]
    obtain ⟨w, x, hw, hx, hg⟩ := hp.position_some hd (defaults_pos hd) hs
    rw [read_text] at hx
    subst hx
    rw [hdest] at hg
    simp only [readText_ok, hg, addressOf_ok, Option.some.injEq, Val.text.injEq, exists_eq_left']
    constructor
    · intro h
      obtain ⟨w', hw', ha⟩ := h.address
      rw [hw] at hw'; cases hw'
      exact ⟨ha, h.seconds⟩
    · rintro ⟨h1, h2⟩
      exact ⟨hform, ⟨w, hw, h1⟩, h2⟩
  unfold topCommand parseArgs
  simp only [except_bind_ok]
  constructor
  · rintro ⟨d', hpt, w, hw, b, hb, m, hm, hs⟩
    obtain ⟨ps, rfl, hp, hd'⟩ := parseToks_ok hpt
    cases hs
    exact ⟨ps, rfl, (key ps d' hp hd').2 ⟨⟨w, hw, hb⟩, hm⟩⟩
  · rintro ⟨ps, rfl, hl⟩
    obtain ⟨w, hw, hden⟩ := hl.address
    have hf := (form_iff top_sorted ps).2 hl.form
    obtain ⟨d', hp, hd'⟩ := parse_full hd ps hf.1 hf.2 (defaults topOptions)
      ⟨defaults_pos hd, w, .text w, hw, read_text.2 rfl⟩
    obtain ⟨⟨w, hw, ha⟩, hn⟩ := (key ps d' hp hd').1 hl
    exact ⟨d', hp.finish hd', w, hw, a, ha, n, hn, rfl⟩

theorem except_bind_error {ε α β : Type} (x : Except ε α) (f : α → Except ε β) (e : ε) :
    (x >>= f) = .error e ↔ x = .error e ∨ ∃ a, x = .ok a ∧ f a = .error e := by
  cases x <;> simp [bind, Except.bind]

/-- A parser whose numbers and choices are `Sorted` prints its help exactly when it is asked. -/
theorem help_iff {opts : List Arg} {pos : Arg} {numbers loops : List Word} (hd : Distinct opts pos) (hs : Sorted opts numbers loops)
    (toks : List Tok) : parseArgs opts pos toks = .error .help ↔
      AsksHelp numbers loops (fun w => ∃ x, pos.kind.read w = .ok x) toks := by
  unfold parseArgs
  constructor
  · intro h
    rcases parseToks_error h fun _ _ _ => read_error with h' | ⟨_, ps, d', t, rest, ht, hp, hh⟩
    · cases h'
    · refine ⟨ps, t, rest, ht, hh, (form_iff hs ps).1 hp.parts, ?_⟩
      rcases (hp.position hd).1 (defaults_pos hd) with ⟨h', _⟩ | ⟨w, x, hw, hx, _⟩
      · exact .inl h'
      · exact .inr ⟨w, hw, x, hx⟩
  · rintro ⟨ps, t, rest, rfl, hh, hf, hw⟩
    have hf := (form_iff hs ps).2 hf
    obtain ⟨d', hp⟩ := parse_exists hd ps hf.1 hf.2 (defaults opts)
      (hw.imp id fun ⟨w, hw, x, hx⟩ => ⟨defaults_pos hd, w, x, hw, hx⟩)
    rw [hp.toks, parseToks]
    exact if_pos hh

theorem parseArgs_stops {opts : List Arg} {pos : Arg} {toks : List Tok} {e : Stop} (h : parseArgs opts pos toks = .error e) :
    e = .usage ∨ e = .help := by
  rcases parseToks_error h fun _ _ _ => read_error with h | ⟨h, _⟩
  · exact .inl h
  · exact .inr h

theorem registerEventLoop_stops {uvloop : Bool} {l : Tok} {e : Stop} (hl : l ∈ loopTypes) (h : registerEventLoop uvloop l = .error e) :
    e = .importError ∧ uvloop = false ∧ l = "uvloop".toList := by
  have h2 : "uvloop".toList = ['u', 'v', 'l', 'o', 'o', 'p'] := by decide
  unfold registerEventLoop at h
  rw [if_neg (by simpa using hl)] at h
  split at h
  · rename_i hc; cases h; exact ⟨rfl, hc.2, h2 ▸ hc.1⟩
  · cases h

theorem scheduler_stops {uvloop : Bool} {toks : List Tok} {e : Stop} (h : schedulerCommand uvloop toks = .error e) :
    parseArgs schedulerOptions addressArg toks = .error e ∨ (e = .importError ∧ uvloop = false) ∨
    (e = .raised .typeError ∧ ∃ ps w a, toks = written ps ∧ plains ps = [w] ∧ Denotes w a ∧ a.type ≠ .tcp) := by
  have hd := scheduler_distinct
  unfold schedulerCommand at h
  rcases (except_bind_error _ _ _).1 h with h | ⟨d', hpt, hrest⟩
  · exact .inl h
  clear h
  right
  obtain ⟨ps, rfl, hp, hs⟩ := parseToks_ok hpt
  obtain ⟨l, hl, hl'⟩ := hp.choice_total hd (names := ["--event-loop".toList, "-e".toList]) (allowed := loopTypes)
    (dflt := "builtin".toList) (dest := "event_loop".toList) (by simp [schedulerOptions]) (by decide) (by decide)
  obtain ⟨w, x, hw, hx, hg⟩ := hp.position_some hd (defaults_pos hd) hs
  obtain ⟨a, rfl, ha⟩ := read_address.1 hx
  have ha' : readAddress d' "address".toList = .ok a := readAddress_ok.2 hg
  obtain ⟨i1, h1⟩ := hp.number_total hd (names := ["--io-threads".toList]) (dflt := 1) (dest := "io_threads".toList) (by simp [schedulerOptions, defaultIoThreads,
      defaultMaxWaiting, defaultWorkerTimeout, defaultBalanceSeconds, defaultBalanceTriggers, defaultQueueSize,
      defaultFunctionRetention]) (by decide)
  obtain ⟨i2, h2⟩ := hp.number_total hd (names := ["--max-number-of-tasks-waiting".toList, "-mt".toList]) (dflt := -1)
    (dest := "max_number_of_tasks_waiting".toList) (by simp [schedulerOptions, defaultIoThreads,
      defaultMaxWaiting, defaultWorkerTimeout, defaultBalanceSeconds, defaultBalanceTriggers, defaultQueueSize,
      defaultFunctionRetention]) (by decide)
  obtain ⟨i3, h3⟩ := hp.number_total hd (names := ["--per-worker-queue-size".toList, "-qs".toList]) (dflt := 1000)
    (dest := "per_worker_queue_size".toList) (by simp [schedulerOptions, defaultIoThreads,
      defaultMaxWaiting, defaultWorkerTimeout, defaultBalanceSeconds, defaultBalanceTriggers, defaultQueueSize,
      defaultFunctionRetention]) (by decide)
  obtain ⟨i4, h4⟩ := hp.number_total hd (names := ["--worker-timeout-seconds".toList, "-wt".toList]) (dflt := 60)
    (dest := "worker_timeout_seconds".toList) (by simp [schedulerOptions, defaultIoThreads,
      defaultMaxWaiting, defaultWorkerTimeout, defaultBalanceSeconds, defaultBalanceTriggers, defaultQueueSize,
      defaultFunctionRetention]) (by decide)
  obtain ⟨i5, h5⟩ := hp.number_total hd (names := ["--function-retention-seconds".toList, "-ft".toList]) (dflt := 20)
    (dest := "function_retention_seconds".toList) (by simp [schedulerOptions, defaultIoThreads,
      defaultMaxWaiting, defaultWorkerTimeout, defaultBalanceSeconds, defaultBalanceTriggers, defaultQueueSize,
      defaultFunctionRetention]) (by decide)
  obtain ⟨i6, h6⟩ := hp.number_total hd (names := ["--load-balance-seconds".toList, "-ls".toList]) (dflt := 1)
    (dest := "load_balance_seconds".toList) (by simp [schedulerOptions, defaultIoThreads,
      defaultMaxWaiting, defaultWorkerTimeout, defaultBalanceSeconds, defaultBalanceTriggers, defaultQueueSize,
      defaultFunctionRetention]) (by decide)
  obtain ⟨i7, h7⟩ := hp.number_total hd (names := ["--load-balance-trigger-times".toList, "-lbt".toList]) (dflt := 2)
    (dest := "load_balance_trigger_times".toList) (by simp [schedulerOptions, defaultIoThreads,
      defaultMaxWaiting, defaultWorkerTimeout, defaultBalanceSeconds, defaultBalanceTriggers, defaultQueueSize,
      defaultFunctionRetention]) (by decide)
  rw [hl', ha', h1, h2, h3, h4, h5, h6, h7] at hrest
  rcases (except_bind_error _ _ _).1 hrest with h | ⟨l', hl'', hrest'⟩
  · cases h
  cases hl''
  rcases (except_bind_error _ _ _).1 hrest' with h | ⟨_, _, h⟩
  · have := registerEventLoop_stops hl h
    exact .inl ⟨this.1, this.2.1⟩
  · right
    change newScheduler _ = _ at h
    unfold newScheduler at h
    split at h
    · rename_i ht
      cases h
      exact ⟨rfl, ps, w, a, rfl, hw, ha, ht⟩
    · cases h

/-- The help of `scaled_scheduler` is printed exactly when it is asked for. -/
theorem C78_scheduler_help (uvloop : Bool) (toks : List Tok) : schedulerCommand uvloop toks = .error .help ↔
    AsksHelp schedulerNumbers ["--event-loop".toList, "-e".toList] (fun w => ∃ a, Denotes w a) toks := by
  have := help_iff scheduler_distinct scheduler_sorted toks
  simp only [show addressArg.kind = .address from rfl, read_address] at this
  rw [show (fun w => ∃ x a, x = Val.address a ∧ Denotes w a) = fun w => ∃ a, Denotes w a from
    funext fun w => propext ⟨fun ⟨_, a, _, h⟩ => ⟨a, h⟩, fun ⟨a, h⟩ => ⟨_, a, rfl, h⟩⟩] at this
  rw [← this]
  constructor
  · intro h
    rcases scheduler_stops h with h | ⟨h, _⟩ | ⟨h, _⟩
    · exact h
    · cases h
    · cases h
  · intro h
    unfold schedulerCommand
    rw [h]; rfl

/-- What can keep `scaled_scheduler` from starting: a wrong command line, a missing `uvloop`, an address that is not tcp. -/
theorem C78_scheduler_stops (uvloop : Bool) (toks : List Tok) (e : Stop) (h : schedulerCommand uvloop toks = .error e) :
    e = .usage ∨ e = .help ∨ (e = .importError ∧ uvloop = false) ∨
    (e = .raised .typeError ∧ ∃ ps w a, toks = written ps ∧ plains ps = [w] ∧ Denotes w a ∧ a.type ≠ .tcp) := by
  rcases scheduler_stops h with h | h | h
  · rcases parseArgs_stops h with h | h
    · exact .inl h
    · exact .inr (.inl h)
  · exact .inr (.inr (.inl h))
  · exact .inr (.inr (.inr h))

theorem cluster_stops {uvloop : Bool} {cpus : Int} {toks : List Tok} {e : Stop} (h : clusterCommand uvloop cpus toks = .error e) :
    parseArgs (clusterOptions cpus) addressArg toks = .error e ∨ (e = .importError ∧ uvloop = false) := by
  have hd := cluster_distinct cpus
  unfold clusterCommand at h
  rcases (except_bind_error _ _ _).1 h with h | ⟨d', hpt, hrest⟩
  · exact .inl h
  clear h
  right
  obtain ⟨ps, rfl, hp, hs⟩ := parseToks_ok hpt
  obtain ⟨l, hl, hl'⟩ := hp.choice_total hd (names := ["--event-loop".toList, "-el".toList]) (allowed := loopTypes)
    (dflt := "builtin".toList) (dest := "event_loop".toList) (by simp [clusterOptions]) (by decide) (by decide)
  obtain ⟨w, x, hw, hx, hg⟩ := hp.position_some hd (defaults_pos hd) hs
  obtain ⟨a, rfl, ha⟩ := read_address.1 hx
  have ha' : readAddress d' "address".toList = .ok a := readAddress_ok.2 hg
  obtain ⟨i1, h1⟩ := hp.number_total hd (names := ["--num-of-workers".toList, "-n".toList]) (dflt := cpus - 1)
    (dest := "num_of_workers".toList) (by simp [clusterOptions, defaultWorkers, defaultHeartbeatInterval,
      defaultDeathTimeout, defaultGcInterval, defaultTrimThreshold, defaultWorkerFunctionRetention]) (show destOf ["--num-of-workers".toList, "-n".toList] = _ by decide)
  obtain ⟨i2, h2⟩ := hp.number_total hd (names := ["--heartbeat-interval".toList, "-hi".toList]) (dflt := 2)
    (dest := "heartbeat_interval".toList) (by simp [clusterOptions, defaultWorkers, defaultHeartbeatInterval,
      defaultDeathTimeout, defaultGcInterval, defaultTrimThreshold, defaultWorkerFunctionRetention]) (by decide)
  obtain ⟨i3, h3⟩ := hp.number_total hd (names := ["--function-retention-seconds".toList, "-ft".toList]) (dflt := 20)
    (dest := "function_retention_seconds".toList) (by simp [clusterOptions, defaultWorkers, defaultHeartbeatInterval,
      defaultDeathTimeout, defaultGcInterval, defaultTrimThreshold, defaultWorkerFunctionRetention]) (by decide)
  obtain ⟨i4, h4⟩ := hp.number_total hd (names := ["--death-timeout-seconds".toList, "-dt".toList]) (dflt := 10)
    (dest := "death_timeout_seconds".toList) (by simp [clusterOptions, defaultWorkers, defaultHeartbeatInterval,
      defaultDeathTimeout, defaultGcInterval, defaultTrimThreshold, defaultWorkerFunctionRetention]) (by decide)
  obtain ⟨i5, h5⟩ := hp.number_total hd (names := ["--garbage-collect-interval-seconds".toList, "-gc".toList]) (dflt := 30)
    (dest := "garbage_collect_interval_seconds".toList) (by simp [clusterOptions, defaultWorkers, defaultHeartbeatInterval,
      defaultDeathTimeout, defaultGcInterval, defaultTrimThreshold, defaultWorkerFunctionRetention]) (by decide)
  obtain ⟨i6, h6⟩ := hp.number_total hd (names := ["--trim-memory-threshold-bytes".toList, "-tm".toList]) (dflt := 1073741824)
    (dest := "trim_memory_threshold_bytes".toList) (by simp [clusterOptions, defaultWorkers, defaultHeartbeatInterval,
      defaultDeathTimeout, defaultGcInterval, defaultTrimThreshold, defaultWorkerFunctionRetention]) (by decide)
  rw [hl', ha', h1, h2, h3, h4, h5, h6] at hrest
  rcases (except_bind_error _ _ _).1 hrest with h | ⟨l', hl'', hrest'⟩
  · cases h
  cases hl''
  rcases (except_bind_error _ _ _).1 hrest' with h | ⟨_, _, h⟩
  · have := registerEventLoop_stops hl h
    exact ⟨this.1, this.2.1⟩
  · cases h

/-- What can keep `scaled_cluster` from starting: a wrong command line or a missing `uvloop`.  The help is printed exactly
when it is asked for. -/
theorem C78_cluster_stops (uvloop : Bool) (cpus : Int) (toks : List Tok) :
    (∀ e, clusterCommand uvloop cpus toks = .error e → e = .usage ∨ e = .help ∨ (e = .importError ∧ uvloop = false)) ∧
    (clusterCommand uvloop cpus toks = .error .help ↔
      AsksHelp clusterNumbers ["--event-loop".toList, "-el".toList] (fun w => ∃ a, Denotes w a) toks) := by
  refine ⟨fun e h => ?_, ?_⟩
  · rcases cluster_stops h with h | h
    · rcases parseArgs_stops h with h | h
      · exact .inl h
      · exact .inr (.inl h)
    · exact .inr (.inr h)
  · have := help_iff (cluster_distinct cpus) (cluster_sorted cpus) toks
    simp only [show addressArg.kind = .address from rfl, read_address] at this
    rw [show (fun w => ∃ x a, x = Val.address a ∧ Denotes w a) = fun w => ∃ a, Denotes w a from
      funext fun w => propext ⟨fun ⟨_, a, _, h⟩ => ⟨a, h⟩, fun ⟨a, h⟩ => ⟨_, a, rfl, h⟩⟩] at this
    rw [← this]
    constructor
    · intro h
      rcases cluster_stops h with h | ⟨h, _⟩
      · exact h
      · cases h
    · intro h
      unfold clusterCommand
      rw [h]; rfl

/-- The workers of a cluster: as many as asked for (none if the number is negative), all with the settings of the cluster;
they can start as soon as their event loop can be used. -/
theorem C78_workers (c : ClusterSettings) :
    (c.newWorkers.length : Int) = max c.workers 0 ∧
    (∀ w ∈ c.newWorkers, w = ⟨c.eventLoop, c.address, c.heartbeatInterval, c.gcInterval, c.trimThreshold, c.functionRetention,
      c.deathTimeout⟩) ∧
    (∀ w ∈ c.newWorkers, ∀ uvloop, w.begin uvloop = .ok () ↔ Usable uvloop c.eventLoop) := by
  refine ⟨?_, fun w hw => ?_, fun w hw uvloop => ?_⟩
  · simp only [ClusterSettings.newWorkers, List.length_replicate]
    omega
  · exact List.eq_of_mem_replicate hw
  · rw [List.eq_of_mem_replicate hw]
    exact registerEventLoop_ok

/-- Workers started by `scaled_cluster` find their event loop. -/
theorem C78_workers_begin (uvloop : Bool) (cpus : Int) (toks : List Tok) (c : ClusterSettings)
    (h : clusterCommand uvloop cpus toks = .ok c) : ∀ w ∈ c.newWorkers, w.begin uvloop = .ok () := by
  obtain ⟨ps, _, hl⟩ := (C78_cluster uvloop cpus toks c).1 h
  exact fun w hw => ((C78_workers c).2.2 w hw uvloop).2 hl.loop.2

/-- The settings of the scheduler are those of its managers. -/
theorem C78_config (s : SchedulerSettings) : s.config =
    ⟨s.maxWaiting, s.queueSize, s.workerTimeout, s.functionRetention, s.balanceSeconds, s.balanceTriggers⟩ := rfl

/-- The combination: both parts get the address and the settings that concern them. -/
theorem C78_combo_partial (c : ComboSettings) (cl : ClusterSettings) (p : SchedulerProcess) : newCombo c = .ok (cl, p) ↔
    ∃ a, Denotes c.address a ∧
      cl = ⟨a, c.workers, c.heartbeatInterval, c.functionRetention, c.deathTimeout, c.gcInterval, c.trimThreshold, c.eventLoop⟩ ∧
      p.settings = ⟨a, c.ioThreads, c.maxWaiting, c.queueSize, c.workerTimeout, c.functionRetention, c.balanceSeconds,
        c.balanceTriggers⟩ ∧
      p.eventLoop = "builtin".toList := by
  unfold newCombo
  simp only [except_bind_ok, addressOf_ok]
  constructor
  · rintro ⟨a, ha, h⟩
    cases h
    exact ⟨a, ha, rfl, rfl, rfl⟩
  · rintro ⟨a, ha, rfl, h1, h2⟩
    refine ⟨a, ha, ?_⟩
    cases p
    simp only at h1 h2
    subst h1 h2
    rfl

/-- The full statement: the scheduler of a combination uses the event loop that was asked for.  It is false. -/
theorem C78_combo_loop : ¬ ∀ (c : ComboSettings) cl p, newCombo c = .ok (cl, p) → p.eventLoop = c.eventLoop := by
  intro h
  have := h { ComboSettings.make "tcp://h:1".toList 1 with eventLoop := "uvloop".toList }
    ⟨⟨.tcp, ['h'], some 1⟩, 1, 2, 20, 10, 30, 1073741824, "uvloop".toList⟩
    ⟨⟨⟨.tcp, ['h'], some 1⟩, 1, -1, 1000, 60, 20, 1, 2⟩, "builtin".toList⟩ (by
      rw [C78_combo_partial]
      exact ⟨⟨.tcp, ['h'], some 1⟩, fromString_denotes.1 (by decide), rfl, rfl, rfl⟩)
  revert this
  decide

/-- The scheduler process of a combination starts exactly when the address is tcp. -/
theorem C78_combo_run (c : ComboSettings) (cl : ClusterSettings) (p : SchedulerProcess) (uvloop : Bool)
    (h : newCombo c = .ok (cl, p)) : p.run uvloop = if cl.address.type = .tcp then .ok p.settings else .error (.raised .typeError) := by
  obtain ⟨a, ha, rfl, h1, h2⟩ := (C78_combo_partial c cl p).1 h
  unfold SchedulerProcess.run
  rw [h2, registerEventLoop_ok.2 (.inl rfl)]
  change newScheduler _ = _
  unfold newScheduler
  rw [h1]
  by_cases ht : a.type = .tcp <;> simp [ht]

/-- What a combination is made of when nothing but address and number of workers is said: the same as on the command lines. -/
theorem C78_combo_defaults (w : Word) (a : ZmqConfig) (n : Int) (ht : a.type = .tcp) (hb : Bare w) (hw : Denotes w a) :
    ∃ cl p, newCombo (.make w n) = .ok (cl, p) ∧ (∀ uvloop, schedulerCommand uvloop [w] = .ok p.settings) ∧
      ∀ uvloop, clusterCommand uvloop (n + 1) [w] = .ok cl := by
  refine ⟨_, _, (C78_combo_partial _ _ ⟨_, _⟩).2 ⟨a, hw, rfl, rfl, rfl⟩, fun uvloop => ?_, fun uvloop => ?_⟩
  · rw [C78_scheduler]
    have hn : ∀ names, NotGiven names [.plain w] := fun names => by simp [NotGiven]
    refine ⟨[.plain w], rfl, ⟨by simp, by simpa using hb⟩, ⟨w, rfl, hw⟩, ht, ⟨_, .inr ⟨hn _, rfl⟩, .inl rfl⟩, ?_, ?_, ?_, ?_, ?_, ?_, ?_⟩ <;>
      exact .inr ⟨hn _, rfl⟩
  · rw [C78_cluster]
    have hn : ∀ names, NotGiven names [.plain w] := fun names => by simp [NotGiven]
    refine ⟨[.plain w], rfl, ⟨by simp, by simpa using hb⟩, ⟨w, rfl, hw⟩, ⟨.inr ⟨hn _, rfl⟩, .inl rfl⟩, .inr ⟨hn _, ?_⟩, ?_, ?_, ?_, ?_, ?_⟩
    · simp [ComboSettings.make]
    all_goals exact .inr ⟨hn _, rfl⟩

/-- The constructor refuses only a wrong address, with `ValueError`. -/
theorem C78_combo_error (c : ComboSettings) (e : Stop) : newCombo c = .error e ↔ e = .raised .valueError ∧ ∀ a, ¬ Denotes c.address a := by
  simp only [← fromString_denotes]
  unfold newCombo addressOf
  cases hf : ZmqConfig.fromString c.address with
  | ok a => simp [bind, Except.bind, pure, Except.pure]
  | error e' =>
    rw [C58_rejects _ _ hf]
    simp [bind, Except.bind, eq_comm]

theorem no_underscore (i : Int) : '_' ∉ decInt i := by
  cases i with
  | ofNat n =>
    intro h
    have := dec_digits n _ h
    revert this; decide
  | negSucc n =>
    intro h
    rcases List.mem_cons.1 h with h | h
    · revert h; decide
    · have := dec_digits (n + 1) _ h
      revert this; decide

theorem append_sep {α : Type} {a b c d : List α} {x : α} (hb : x ∉ b) (hd : x ∉ d) (h : a ++ x :: b = c ++ x :: d) : a = c ∧ b = d := by
  induction a generalizing c with
  | nil =>
    cases c with
    | nil => simpa using h
    | cons y c => simp at h; exact absurd (h.2 ▸ by simp) hb
  | cons y a ih =>
    cases c with
    | nil => simp at h; exact absurd (h.2 ▸ by simp) hd
    | cons z c =>
      simp only [List.cons_append, List.cons.injEq] at h
      obtain ⟨h1, h2⟩ := ih h.2
      exact ⟨by rw [h.1, h1], h2⟩

/-- The monitor of a scheduler is at `ipc:///tmp/<host>_<port>_monitor`; `scaled_top` can be pointed there, and two schedulers
share a monitor only if they share host and port. -/
theorem C78_monitor (host : List Char) (port : Int) :
    monitorAddress ⟨.tcp, host, some port⟩ = "ipc:///tmp/".toList ++ host ++ '_' :: decInt port ++ "_monitor".toList ∧
    topCommand [monitorAddress ⟨.tcp, host, some port⟩] =
      .ok (⟨.ipc, "/tmp/".toList ++ host ++ '_' :: decInt port ++ "_monitor".toList, none⟩, 5) ∧
    ∀ host' port', monitorAddress ⟨.tcp, host, some port⟩ = monitorAddress ⟨.tcp, host', some port'⟩ → host = host' ∧ port = port' := by
  have h1 : ∀ host port, monitorAddress ⟨.tcp, host, some port⟩ =
      "ipc:///tmp/".toList ++ host ++ '_' :: decInt port ++ "_monitor".toList := by
    intro host port
    simp [monitorAddress, ZmqConfig.toAddress, ZmqType.value, showPort]
  refine ⟨h1 _ _, ?_, fun host' port' h => ?_⟩
  · rw [C78_top]
    refine ⟨[.plain (monitorAddress ⟨.tcp, host, some port⟩)], rfl, ?_, ⟨_, rfl, .inl ⟨(by decide : ZmqType.ipc ≠ .tcp), rfl, ?_⟩⟩, ?_⟩
    · refine ⟨by simp, fun w hw ds hd => ?_⟩
      simp at hw
      subst hw
      rw [h1] at hd
      simp at hd
    · rw [h1]
      simp [ZmqType.value]
    · exact .inr ⟨by simp [NotGiven], rfl⟩
  · rw [h1, h1, List.append_left_inj, List.append_assoc, List.append_assoc, List.append_right_inj] at h
    obtain ⟨h2, h3⟩ := append_sep (no_underscore _) (no_underscore _) h
    refine ⟨h2, ?_⟩
    have := parseInt_decInt port
    rw [h3, parseInt_decInt] at this
    exact (Option.some.inj this).symm

/-! ### Examples -/

local instance {α : Type} [DecidableEq α] : DecidableEq (Except Stop α)
  | .ok a, .ok b => decidable_of_iff (a = b) (by simp)
  | .error a, .error b => decidable_of_iff (a = b) (by simp)
  | .ok _, .error _ => isFalse (by simp)
  | .error _, .ok _ => isFalse (by simp)

/-- The shortest command line: all defaults. -/
example : schedulerCommand false ["tcp://h:1".toList] = .ok ⟨⟨.tcp, ['h'], some 1⟩, 1, -1, 1000, 60, 20, 1, 2⟩ := by decide +kernel

/-- Options in any order, the last one counts, negative numbers are values. -/
example : schedulerCommand false ["-qs".toList, "7".toList, "tcp://h:1".toList, "--per-worker-queue-size".toList, "9".toList, "-mt".toList,
    "-5".toList, "-wt".toList, "61".toList, "-ft".toList, "21".toList, "-ls".toList, "0".toList, "-lbt".toList, "3".toList, "--io-threads".toList, "4".toList] =
    .ok ⟨⟨.tcp, ['h'], some 1⟩, 4, -5, 9, 61, 21, 0, 3⟩ := by decide +kernel

/-- Two addresses, an address that is not tcp, no address, a missing value, a missing `uvloop`, help. -/
example : schedulerCommand false ["tcp://h:1".toList, "tcp://h:2".toList] = .error .usage := by decide +kernel
example : schedulerCommand false ["ipc://h".toList] = .error (.raised .typeError) := by decide +kernel
example : schedulerCommand false ["-qs".toList, "7".toList] = .error .usage := by decide +kernel
example : schedulerCommand false ["tcp://h:1".toList, "-qs".toList] = .error .usage := by decide +kernel
example : schedulerCommand false ["tcp://h:1".toList, "-qs".toList, "-mt".toList, "3".toList] = .error .usage := by decide +kernel
example : schedulerCommand false ["tcp://h:1".toList, "-e".toList, "uvloop".toList] = .error .importError := by decide +kernel
example : schedulerCommand true ["tcp://h:1".toList, "-e".toList, "other".toList] = .error .usage := by decide +kernel
example : schedulerCommand false ["-qs".toList, "7".toList, "-h".toList, "?".toList] = .error .help := by decide +kernel

/-- A cluster with three workers. -/
example : clusterCommand true 8 ["-n".toList, "3".toList, "tcp://h:1".toList, "-el".toList, "uvloop".toList, "-hi".toList, "1".toList, "-dt".toList, "11".toList] =
    .ok ⟨⟨.tcp, ['h'], some 1⟩, 3, 1, 20, 11, 30, 1073741824, "uvloop".toList⟩ := by decide +kernel
example : (ClusterSettings.newWorkers ⟨⟨.tcp, ['h'], some 1⟩, 3, 1, 20, 11, 30, 1073741824, "uvloop".toList⟩).length = 3 := by decide +kernel
example : clusterCommand true 8 ["tcp://h:1".toList] =
    .ok ⟨⟨.tcp, ['h'], some 1⟩, 7, 2, 20, 10, 30, 1073741824, "builtin".toList⟩ := by decide +kernel

/-- A combination at an address that is not tcp is made, but its scheduler does not start. -/
example : ∃ cl p, newCombo (.make "ipc://h".toList 2) = .ok (cl, p) ∧ p.run false = .error (.raised .typeError) ∧ cl.newWorkers.length = 2 := by
  refine ⟨_, _, rfl, ?_, ?_⟩ <;> decide +kernel

/-- A combination with an event loop that is not installed is made; its scheduler starts and its workers do not. -/
example : ∃ cl p, newCombo { ComboSettings.make "tcp://h:1".toList 2 with eventLoop := "uvloop".toList } = .ok (cl, p) ∧
    p.run false = .ok p.settings ∧ ∀ w ∈ cl.newWorkers, w.begin false = .error .importError := by
  refine ⟨_, _, rfl, ?_, ?_⟩ <;> decide +kernel

/-- **C78.** Under which name the value of an argument is kept: the first of its names that begins with two dashes, or
the first name if none does; leading dashes are dropped and the others become `_`. -/
theorem C78_name (short : List Tok) (long : Tok) (rest : List Tok) (k : Kind) (d : Option Val) :
    ((∀ n ∈ short, ∀ w, n ≠ '-' :: '-' :: w) → long.head? ≠ some '-' →
      Arg.dest ⟨short ++ ('-' :: '-' :: long) :: rest, k, d⟩ = long.map fun c => if c = '-' then '_' else c) ∧
    ((∀ n ∈ long :: rest, ∀ w, n ≠ '-' :: '-' :: w) → long.head? ≠ some '-' →
      Arg.dest ⟨long :: rest, k, d⟩ = long.map (fun c => if c = '-' then '_' else c)) ∧
    ((∀ n ∈ ('-' :: long) :: rest, ∀ w, n ≠ '-' :: '-' :: w) →
      Arg.dest ⟨('-' :: long) :: rest, k, d⟩ = long.map fun c => if c = '-' then '_' else c) := by
  have h2 : ∀ n : Tok, (∀ w, n ≠ '-' :: '-' :: w) → decide (n.take 2 = ['-', '-']) = false := by
    intro n hn
    match n with
    | [] => rfl
    | [a] => simp
    | a :: b :: w =>
      have := hn w
      simp only [List.take_succ_cons, List.take_zero]
      refine decide_eq_false fun he => ?_
      simp only [List.cons.injEq, and_true] at he
      exact this (by rw [he.1, he.2])
  have hdrop : ∀ l : Tok, l.head? ≠ some '-' → l.dropWhile (· = '-') = l := by
    intro l hl
    cases l with
    | nil => rfl
    | cons a l => rw [List.dropWhile_cons_of_neg]; simpa using hl
  have hnone : ∀ l : List Tok, (∀ n ∈ l, ∀ w, n ≠ '-' :: '-' :: w) → (l.find? fun n => decide (n.take 2 = ['-', '-'])) = none := by
    intro l hl
    rw [List.find?_eq_none]
    intro n hn; rw [h2 n (hl n hn)]; simp
  refine ⟨fun hs hl => ?_, fun hs hl => ?_, fun hs => ?_⟩
  · simp only [Arg.dest, List.find?_append, hnone short hs, Option.none_or, List.find?_cons]
    simp [hdrop long hl]
  · simp only [Arg.dest, hnone _ hs, Option.getD_none, List.headD_cons, hdrop long hl]
  · simp only [Arg.dest, hnone _ hs, Option.getD_none, List.headD_cons]
    have hl : long.head? ≠ some '-' := by
      cases long with
      | nil => simp
      | cons a l =>
        intro he
        have : a = '-' := by simpa using he
        exact hs ('-' :: a :: l) (by simp) l (by rw [this])
    simp [hdrop long hl]

example : Arg.dest ⟨["-qs".toList, "--per-worker-queue-size".toList], .int, none⟩ = "per_worker_queue_size".toList := by decide

end Verif.Props
