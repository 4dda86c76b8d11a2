import Verif.Spec.Logging
import Verif.Util.FloatLemmas

/-!
# Claims about the log (C79)
-/

namespace Verif.Props

open Verif.Util Verif.Spec

theorem detect_screen (name : Path) : detectLogType name = .screen ↔ NamesScreen name := by
  unfold detectLogType NamesScreen
  have h1 : "-".toList = ['-'] := by decide
  rw [h1]
  split
  · simp_all
  · rename_i h
    split <;> simp only [h, reduceCtorEq]

theorem take_prefix {α : Type} {l p : List α} : l.take p.length = p ↔ ∃ r, l = p ++ r := by
  constructor
  · intro h
    exact ⟨l.drop p.length, by rw [← List.take_append_drop p.length l, h]; simp⟩
  · rintro ⟨r, rfl⟩; simp

theorem detect_zmq (name : Path) : detectLogType name = .zmq ↔ NamesSocket name := by
  have hp : name.take 6 = "tcp://".toList ↔ NamesSocket name := take_prefix (p := "tcp://".toList)
  unfold detectLogType
  split
  · rename_i h
    simp only [reduceCtorEq, false_iff]
    rintro ⟨r, rfl⟩
    rcases h with h | h <;> simp at h
  · split <;> rename_i h <;> rw [hp] at h <;> simp [h]

/-- The name of the handler for this name. -/
def handlerName (name : Path) : List Char := if detectLogType name = .screen then "console".toList else name

/-- The handler for this name. -/
def handlerOf (expand : Path → Path) (level : List Char) (name : Path) : LogHandler :=
  if detectLogType name = .screen then ⟨.screen, level, .standard⟩ else ⟨.file (expand name), level, .verbose⟩

theorem addLogPath_ok {expand : Path → Path} {level : List Char} {c : LogConfig} {name : Path} (h : ¬ NamesSocket name) :
    addLogPath expand level c name =
      .ok ⟨c.handlers.set (handlerName name) (handlerOf expand level name), c.root ++ [handlerName name]⟩ := by
  rw [← detect_zmq] at h
  unfold addLogPath handlerName handlerOf
  cases hd : detectLogType name <;> simp_all

/-- Handlers are found under the names that need them. -/
def Serves (expand : Path → Path) (level : List Char) (names : List Path) (c : LogConfig) : Prop :=
  c.root = names.map handlerName ∧ ∀ name ∈ names, c.handlers.get? (handlerName name) = some (handlerOf expand level name)

/-- No file is called like the handler of the screen. -/
def NoClash (names : List Path) : Prop := ∀ name ∈ names, NamesScreen name → "console".toList ∉ names

theorem handlerName_inj {names : List Path} (hc : NoClash names) {expand : Path → Path} {level : List Char} {a b : Path}
    (ha : a ∈ names) (hb : b ∈ names) (h : handlerName a = handlerName b) : handlerOf expand level a = handlerOf expand level b := by
  unfold handlerName at h
  unfold handlerOf
  by_cases h1 : detectLogType a = .screen <;> by_cases h2 : detectLogType b = .screen <;> simp only [h1, h2, if_true, if_false] at h ⊢
  · exact absurd (h ▸ hb) (hc a ha ((detect_screen a).1 h1))
  · exact absurd (h ▸ ha) (hc b hb ((detect_screen b).1 h2))
  · rw [h]

theorem addLogPaths_serves {expand : Path → Path} {level : List Char} (names done : List Path) (c : LogConfig)
    (hs : ∀ name ∈ names, ¬ NamesSocket name) (hc : NoClash (done ++ names)) (h : Serves expand level done c) :
    ∃ c', addLogPaths expand level names c = .ok c' ∧ Serves expand level (done ++ names) c' := by
  induction names generalizing done c with
  | nil => exact ⟨c, rfl, by simpa using h⟩
  | cons name names ih =>
    have := ih (done ++ [name]) ⟨c.handlers.set (handlerName name) (handlerOf expand level name), c.root ++ [handlerName name]⟩
      (fun n hn => hs n (by simp [hn])) (by simpa using hc) ⟨by simp [h.1], fun n hn => ?_⟩
    · obtain ⟨c', h1, h2⟩ := this
      refine ⟨c', ?_, by simpa using h2⟩
      rw [addLogPaths, addLogPath_ok (hs name (by simp)), Py.ok_bind]
      exact h1
    · rw [Dict.get?_set]
      split
      · rename_i he
        rw [handlerName_inj hc (by simp) (by rcases List.mem_append.1 hn with h | h <;> simp_all) he]
      · rename_i he
        rcases List.mem_append.1 hn with hn | hn
        · exact h.2 n hn
        · simp at hn; subst hn; exact absurd rfl he

theorem installHandlers_ok {expand : Path → Path} {level : List Char} {names : List Path} {c : LogConfig} {n : Nat}
    (hn : logLevel level = some n) (hsv : ∀ name ∈ names, c.handlers.get? (handlerName name) = some (handlerOf expand level name))
    (seen : List (List Char)) :
    ∃ chosen : List Path, installHandlers c.handlers (names.map handlerName) seen = .ok (chosen.map fun name => (n, handlerOf expand level name)) ∧
      (chosen.map handlerName).Nodup ∧ (∀ name ∈ chosen, name ∈ names ∧ handlerName name ∉ seen) ∧
      (∀ name ∈ names, handlerName name ∈ seen ∨ handlerName name ∈ chosen.map handlerName) := by
  induction names generalizing seen with
  | nil => exact ⟨[], rfl, by simp, by simp, by simp⟩
  | cons name names ih =>
    have ih := ih (fun m hm => hsv m (by simp [hm]))
    by_cases hk : handlerName name ∈ seen
    · obtain ⟨chosen, h1, h2, h3, h4⟩ := ih seen
      refine ⟨chosen, ?_, h2, fun m hm => ⟨by simp [(h3 m hm).1], (h3 m hm).2⟩, fun m hm => ?_⟩
      · rw [List.map_cons, installHandlers, if_pos hk]; exact h1
      · rcases List.mem_cons.1 hm with rfl | hm
        · exact .inl hk
        · exact h4 m hm
    · obtain ⟨chosen, h1, h2, h3, h4⟩ := ih (handlerName name :: seen)
      have hl : (handlerOf expand level name).level = level := by unfold handlerOf; split <;> rfl
      refine ⟨name :: chosen, ?_, ?_, ?_, ?_⟩
      · rw [List.map_cons, installHandlers, if_neg hk, hsv name (by simp)]
        simp only [orRaise, Py.ok_bind, hl, hn, h1]
        rfl
      · rw [List.map_cons, List.nodup_cons]
        refine ⟨fun hm => ?_, h2⟩
        obtain ⟨m, hm, he⟩ := List.mem_map.1 hm
        exact (h3 m hm).2 (by simp [he])
      · intro m hm
        rcases List.mem_cons.1 hm with rfl | hm
        · exact ⟨by simp, hk⟩
        · refine ⟨by simp [(h3 m hm).1], fun h => (h3 m hm).2 (by simp [h])⟩
      · intro m hm
        rcases List.mem_cons.1 hm with rfl | hm
        · exact .inr (by simp)
        · rcases h4 m hm with h | h
          · rcases List.mem_cons.1 h with h | h
            · exact .inr (by simp [h])
            · exact .inl h
          · exact .inr (by rw [List.map_cons]; exact List.mem_cons_of_mem _ h)

theorem level_known {name : List Char} {n : Nat} (h : Level name n) : logLevel name = some n := by
  cases h <;> decide

theorem level_of_known {name : List Char} {n : Nat} (h : logLevel name = some n) : Level name n := by
  unfold logLevel at h
  repeat' split at h
  all_goals first
    | (cases h; done)
    | (rename_i hh; cases h; rcases hh with rfl | rfl | rfl <;> constructor)
    | (rename_i hh; cases h; rcases hh with rfl | rfl <;> constructor)
    | (rename_i hh; cases h; subst hh; constructor)

/-- Without sockets and without a file called `console` beside the screen, the handlers are one per name. -/
theorem setup_ok {expand : Path → Path} {names : List Path} {level : List Char} {n : Nat} (hs : ∀ name ∈ names, ¬ NamesSocket name)
    (hc : NoClash names) (hn : logLevel level = some n) :
    ∃ chosen : List Path, setupLogger expand names level = .ok (chosen.map fun name => (n, handlerOf expand level name)) ∧
      (chosen.map handlerName).Nodup ∧ (∀ name ∈ chosen, name ∈ names) ∧
      (∀ name ∈ names, handlerName name ∈ chosen.map handlerName) := by
  obtain ⟨c, h1, h2⟩ := addLogPaths_serves (expand := expand) (level := level) names [] ⟨Dict.empty, []⟩ hs hc ⟨rfl, by simp⟩
  obtain ⟨chosen, h3, h4, h5, h6⟩ := installHandlers_ok hn h2.2 []
  refine ⟨chosen, ?_, h4, fun m hm => by simpa using (h5 m hm).1, fun m hm => ?_⟩
  · unfold setupLogger
    rw [h1, Py.ok_bind, h2.1]
    exact h3
  · simpa using h6 m hm

theorem sink_goes (expand : Path → Path) (level : List Char) (name : Path) (s : Sink) :
    (handlerOf expand level name).sink = s ↔ Goes expand name s := by
  unfold handlerOf Goes
  rw [← detect_screen]
  by_cases h : detectLogType name = .screen <;> simp [h, eq_comm]

/-- A line of level `m` (at least `DEBUG`) is written exactly where the names say, if its level is that of the log or higher.
Missing for the full statement: a file called `console` beside the screen (`C79_clash`). -/
theorem C79_lines_partial (expand : Path → Path) (names : List Path) (level : List Char) (n : Nat) (hl : Level level n)
    (hs : ∀ name ∈ names, ¬ NamesSocket name) (hc : (∃ name ∈ names, NamesScreen name) → "console".toList ∉ names) :
    ∃ handlers, setupLogger expand names level = .ok handlers ∧
      ∀ m s, (∃ h ∈ logged handlers m, h.sink = s) ↔ (m ≥ 10 ∧ m ≥ n ∧ ∃ name ∈ names, Goes expand name s) := by
  have hc : NoClash names := fun name hm h => hc ⟨name, hm, h⟩
  obtain ⟨chosen, h1, h2, h3, h4⟩ := setup_ok (expand := expand) hs hc (level_known hl)
  refine ⟨_, h1, fun m s => ?_⟩
  unfold logged
  by_cases h10 : m ≥ 10
  · rw [if_pos h10]
    simp only [List.mem_map, List.mem_filter, h10, true_and, ← sink_goes expand level]
    constructor
    · rintro ⟨h, ⟨p, ⟨⟨name, hname, rfl⟩, hp⟩, rfl⟩, rfl⟩
      exact ⟨by simpa using hp, name, h3 name hname, rfl⟩
    · rintro ⟨hm, name, hname, rfl⟩
      obtain ⟨b, hb, he⟩ := List.mem_map.1 (h4 name hname)
      refine ⟨_, ⟨(n, handlerOf expand level b), ⟨⟨b, hb, rfl⟩, by simpa using hm⟩, rfl⟩, ?_⟩
      simp only [handlerName_inj (expand := expand) (level := level) hc (h3 b hb) hname he]
  · rw [if_neg h10]
    simp [h10]

/-- No line is written twice to the same place, if different names are different files. -/
theorem C79_once (expand : Path → Path) (hinj : ∀ a b, expand a = expand b → a = b) (names : List Path) (level : List Char) (n : Nat)
    (hl : Level level n) (hs : ∀ name ∈ names, ¬ NamesSocket name)
    (hc : (∃ name ∈ names, NamesScreen name) → "console".toList ∉ names) (handlers : List (Nat × LogHandler))
    (h : setupLogger expand names level = .ok handlers) (m : Nat) : ((logged handlers m).map (·.sink)).Nodup := by
  have hc : NoClash names := fun name hm h => hc ⟨name, hm, h⟩
  obtain ⟨chosen, h1, h2, h3, h4⟩ := setup_ok (expand := expand) hs hc (level_known hl)
  rw [h1] at h
  cases h
  have hsub : ((logged (chosen.map fun name => (n, handlerOf expand level name)) m).map (·.sink)).Sublist
      (chosen.map fun name => (handlerOf expand level name).sink) := by
    unfold logged
    split
    · have := (List.filter_sublist (p := fun p => decide (m ≥ p.1)) (l := chosen.map fun name => (n, handlerOf expand level name))).map
        fun p => p.2.sink
      simpa [List.map_map, Function.comp_def] using this
    · simp
  refine hsub.nodup ?_
  clear hsub h1 h4
  induction chosen with
  | nil => simp
  | cons a as ih =>
    rw [List.map_cons, List.nodup_cons] at h2 ⊢
    refine ⟨fun hm => ?_, ih h2.2 fun b hb => h3 b (by simp [hb])⟩
    obtain ⟨b, hb, he⟩ := List.mem_map.1 hm
    refine h2.1 (List.mem_map.2 ⟨b, hb, ?_⟩)
    unfold handlerOf at he
    unfold handlerName
    by_cases h5 : detectLogType a = .screen <;> by_cases h6 : detectLogType b = .screen <;> simp_all
    exact hinj _ _ he

/-- A socket among the names: `NotImplementedError`. -/
theorem C79_socket (expand : Path → Path) (names : List Path) (level : List Char) (h : ∃ name ∈ names, NamesSocket name) :
    setupLogger expand names level = .error .notImplemented := by
  have : ∀ c, addLogPaths expand level names c = .error .notImplemented := by
    induction names with
    | nil => simp at h
    | cons a as ih =>
      intro c
      rw [addLogPaths]
      by_cases ha : NamesSocket a
      · have := (detect_zmq a).2 ha
        unfold addLogPath
        rw [this]; rfl
      · rw [addLogPath_ok ha, Py.ok_bind]
        exact ih (by obtain ⟨b, hb, hb'⟩ := h; rcases List.mem_cons.1 hb with rfl | hb; exact absurd hb' ha; exact ⟨b, hb, hb'⟩) _
  unfold setupLogger
  rw [this]
  rfl

/-- The full statement is false: with the screen and a file called `console`, one of the two is lost; which one depends on
the order. -/
theorem C79_clash (expand : Path → Path) :
    setupLogger expand ["-".toList, "console".toList] "INFO".toList = .ok [(20, ⟨.file (expand "console".toList), "INFO".toList, .verbose⟩)] ∧
    setupLogger expand ["console".toList, "-".toList] "INFO".toList = .ok [(20, ⟨.screen, "INFO".toList, .standard⟩)] := by
  constructor <;> rfl

/-- A level that is not known is refused, if anything is logged at all. -/
theorem C79_level (expand : Path → Path) (names : List Path) (level : List Char) (hne : names ≠ []) (hl : ∀ n, ¬ Level level n)
    (hs : ∀ name ∈ names, ¬ NamesSocket name) : setupLogger expand names level = .error .valueError := by
  have hl : logLevel level = none := by
    cases h : logLevel level with
    | none => rfl
    | some n => exact absurd (level_of_known h) (hl n)
  cases names with
  | nil => exact absurd rfl hne
  | cons a as =>
    have key : ∀ (names : List Path) (c : LogConfig), (∀ name ∈ names, ¬ NamesSocket name) → (∀ k h, c.handlers.get? k = some h → h.level = level) →
        ∃ c', addLogPaths expand level names c = .ok c' ∧ (∀ k h, c'.handlers.get? k = some h → h.level = level) ∧
          c'.root = c.root ++ names.map handlerName := by
      intro names
      induction names with
      | nil => exact fun c _ h => ⟨c, rfl, h, by simp⟩
      | cons b bs ih =>
        intro c hs h
        obtain ⟨c', h1, h2, h3⟩ := ih ⟨c.handlers.set (handlerName b) (handlerOf expand level b), c.root ++ [handlerName b]⟩
          (fun n hn => hs n (by simp [hn])) (fun k g hg => by
            rw [Dict.get?_set] at hg
            split at hg
            · cases hg; unfold handlerOf; split <;> rfl
            · exact h k g hg)
        refine ⟨c', ?_, h2, by simp [h3]⟩
        rw [addLogPaths, addLogPath_ok (hs b (by simp)), Py.ok_bind]
        exact h1
    obtain ⟨c, h1, h2, h3⟩ := key (a :: as) ⟨Dict.empty, []⟩ hs (by simp)
    unfold setupLogger
    rw [h1, Py.ok_bind, h3, List.nil_append, List.map_cons, installHandlers, if_neg (by simp)]
    cases hg : c.handlers.get? (handlerName a) with
    | none => rfl
    | some g =>
      have := h2 _ _ hg
      simp only [orRaise, Py.ok_bind, this, hl]
      rfl

/-- `int(n / d)` with the division of floats is the exact quotient below `2 ^ 53`: what is missing to the next whole number is
more than rounding can add. -/
theorem toFloat_int {n d : Nat} (hd : 0 < d) (hs : n < 2 ^ 53) : (toFloat n d).int = n / d := by
  by_cases hn : n = 0
  · subst hn
    simp [toFloat, Float64.int]
  have hf : 2 ^ 52 * d ≤ n * 2 ^ (0 + (52 + d)) := by
    rw [Nat.zero_add, Nat.pow_add]
    calc 2 ^ 52 * d ≤ 2 ^ 52 * 2 ^ d := Nat.mul_le_mul_left _ (Nat.le_of_lt Nat.lt_two_pow_self)
      _ ≤ n * (2 ^ 52 * 2 ^ d) := Nat.le_mul_of_pos_left _ (by omega)
  have hs' : n * 2 ^ 0 < 2 ^ 53 * d := by
    have := Nat.mul_le_mul_left (2 ^ 53) hd
    omega
  obtain ⟨h1, _⟩ := scale_spec (52 + d) 0 hf hs'
  unfold toFloat Float64.int
  rw [if_neg hn]
  dsimp only
  generalize scale n d (52 + d) 0 = k at *
  obtain ⟨h3, h4⟩ := halfEven_near (n * 2 ^ k) hd
  generalize halfEven (n * 2 ^ k) d = m at *
  have hE : 0 < 2 ^ k := Nat.two_pow_pos k
  generalize 2 ^ k = e at *
  have h5 : d < 2 * e := by
    have := Nat.mul_lt_mul_of_pos_right hs hE
    omega
  have hq := Nat.div_add_mod n d
  have hr := Nat.mod_lt n hd
  generalize n / d = q at *
  generalize n % d = r at *
  subst hq
  refine Nat.div_eq_of_lt_le ?_ ?_
  · refine Nat.le_of_not_lt fun h => ?_
    have a := Nat.mul_le_mul_right d (Nat.succ_le_of_lt h)
    have b : q * e * d ≤ (d * q + r) * e := by
      calc q * e * d = d * q * e := by rw [Nat.mul_comm (q * e), Nat.mul_assoc]
        _ ≤ (d * q + r) * e := Nat.mul_le_mul_right _ (Nat.le_add_right ..)
    rw [Nat.succ_mul] at a
    omega
  · refine Nat.lt_of_not_le fun h => ?_
    have a := Nat.mul_le_mul_right d h
    have b : (d * q + r) * e + e ≤ (q + 1) * e * d := by
      calc (d * q + r) * e + e = (d * q + r + 1) * e := by rw [Nat.succ_mul]
        _ ≤ (d * q + d) * e := Nat.mul_le_mul_right _ (by omega)
        _ = (q + 1) * e * d := by rw [← Nat.mul_succ, Nat.mul_comm ((q + 1) * e), Nat.mul_assoc]
    omega

/-- A `TimedLogger` shows the whole time in microseconds, in parts that are not too large, although it divides floats: for
every time below `2 ^ 53` nanoseconds. -/
theorem C79_elapsed (t : TimedLogger) (start stop : Nat) (hs : stop - start < 2 ^ 53) :
    ∃ d, (t.begin start).finish stop = .ok d ∧ d.milliseconds < 1000 ∧ d.microseconds < 1000 ∧
      d.seconds * 1000000 + d.milliseconds * 1000 + d.microseconds = (stop - start) / 1000 := by
  have h1 := toFloat_int (n := stop - start) (d := 1000000000) (by decide) hs
  have h2 := toFloat_int (n := (stop - start) % 1000000000) (d := 1000000) (by decide) (by omega)
  have h3 := toFloat_int (n := (stop - start) % 1000000) (d := 1000) (by decide) (by omega)
  refine ⟨_, rfl, ?_, ?_, ?_⟩ <;> simp only [h1, h2, h3] <;> omega

/-- Without `begin`, `end` raises `TypeError`. -/
theorem C79_not_begun (now : Nat) : TimedLogger.finish ⟨none⟩ now = .error .typeError := rfl

/-- A scope writes two lines, whether or not the body raises, and changes nothing about what the body does. -/
theorem C79_scope {α : Type} (start stop : Nat) (f : Py α) :
    (withScope start stop f).2 = f ∧ ∃ d, (withScope start stop f).1 = [.beginning, .completed d] ∧
      (TimedLogger.begin ⟨none⟩ start).finish stop = .ok d := ⟨rfl, _, rfl, rfl⟩

/-- Two files and the screen, named twice. -/
example : (setupLogger id ["-".toList, "a".toList, "/dev/stdout".toList, "b".toList] "WARNING".toList).map (fun hs => (logged hs 30).map (·.sink)) =
    .ok [.screen, .file "a".toList, .file "b".toList] := by decide +kernel

example : (setupLogger id ["-".toList, "a".toList] "WARNING".toList).map (fun hs => (logged hs 20).map (·.sink)) = .ok [] := by decide +kernel

example : (TimedLogger.begin ⟨none⟩ 5).finish 3004005006 = .ok ⟨3, 4, 5⟩ := by decide +kernel

/-- One nanosecond less than a million seconds, about the largest number of digits that a float has. -/
example : 1000000000000000 - 1 < 2 ^ 53 ∧ (TimedLogger.begin ⟨none⟩ 0).finish (1000000000000000 - 1) = .ok ⟨999999, 999, 999⟩ := by decide +kernel

end Verif.Props
