import Verif.Spec.Options
import Verif.Props.Address
import Verif.Props.Numbers

/-!
# How `parseToks` goes through a command line
-/

namespace Verif.Cluster

open Verif.Util Verif.Spec Verif.Spec.Command

/-- The steps of `parseToks` over a part of the command line. -/
inductive Parse (opts : List Arg) (pos : Arg) : List Part → Dict Tok Val → Dict Tok Val → Prop where
  | nil {d} : Parse opts pos [] d d
  | given {n v a x ps d d'} : n ≠ ['-', 'h'] → n ≠ ['-', '-', 'h', 'e', 'l', 'p'] →
      (opts.find? fun a => decide (n ∈ a.names)) = some a → isValue v = true → a.kind.read v = .ok x →
      Parse opts pos ps (d.set a.dest x) d' → Parse opts pos (.given n v :: ps) d d'
  | plain {w x ps d d'} : w ≠ ['-', 'h'] → w ≠ ['-', '-', 'h', 'e', 'l', 'p'] →
      (opts.find? fun a => decide (w ∈ a.names)) = none → isValue w = true → d.has pos.dest = false →
      pos.kind.read w = .ok x → Parse opts pos ps (d.set pos.dest x) d' → Parse opts pos (.plain w :: ps) d d'

theorem parseToks_ok {opts : List Arg} {pos : Arg} {toks : List Tok} {d d' : Dict Tok Val}
    (h : parseToks opts pos toks d = .ok d') : ∃ ps, toks = written ps ∧ Parse opts pos ps d d' ∧ d'.has pos.dest = true := by
  fun_induction parseToks opts pos toks d
  case case1 d hp =>
    cases h; exact ⟨[], rfl, .nil, hp⟩
  case case5 t d hh a ha v ts hv x hx ih =>
    obtain ⟨ps, hps, hp, hd'⟩ := ih h
    exact ⟨.given t v :: ps, by simp [written, hps], .given (by grind) (by grind) ha hv hx hp, hd'⟩
  case case9 t ts d hh ha hv hd x hx ih =>
    obtain ⟨ps, hps, hp, hd'⟩ := ih h
    exact ⟨.plain t :: ps, by simp [written, hps], .plain (by grind) (by grind) ha hv (Bool.eq_false_iff.2 hd) hx hp, hd'⟩
  all_goals cases h

theorem Parse.toks {opts : List Arg} {pos : Arg} {ps : List Part} {d d' : Dict Tok Val} (h : Parse opts pos ps d d')
    (rest : List Tok) : parseToks opts pos (written ps ++ rest) d = parseToks opts pos rest d' := by
  induction h with
  | nil => rfl
  | given h1 h2 h3 h4 h5 _ ih => simp [written, parseToks, h1, h2, h3, h4, h5, ih]
  | plain h1 h2 h3 h4 h5 h6 _ ih => simp [written, parseToks, h1, h2, h3, h4, h5, h6, ih]

theorem Parse.finish {opts : List Arg} {pos : Arg} {ps : List Part} {d d' : Dict Tok Val} (h : Parse opts pos ps d d')
    (hd : d'.has pos.dest = true) : parseToks opts pos (written ps) d = .ok d' := by
  have := h.toks []
  rw [List.append_nil] at this
  rw [this, parseToks, if_pos hd]

/-- Only a bad word or a question for help stops the parser. -/
theorem parseToks_error {opts : List Arg} {pos : Arg} {toks : List Tok} {d : Dict Tok Val} {e : Stop}
    (h : parseToks opts pos toks d = .error e)
    (hr : ∀ (k : Kind) s e, k.read s = .error e → e = .usage) : e = .usage ∨
    (e = .help ∧ ∃ ps d' t rest, toks = written ps ++ t :: rest ∧ Parse opts pos ps d d' ∧ (t = "-h".toList ∨ t = "--help".toList)) := by
  fun_induction parseToks opts pos toks d
  case case1 => cases h
  case case3 t ts d hh =>
    cases h
    exact .inr ⟨rfl, [], d, t, ts, rfl, .nil, hh⟩
  case case5 t d hh a ha v ts hv x hx ih =>
    rcases ih h with rfl | ⟨rfl, ps, d', u, rest, hps, hp, hu⟩
    · exact .inl rfl
    · exact .inr ⟨rfl, .given t v :: ps, d', u, rest, by simp [written, hps], .given (by grind) (by grind) ha hv hx hp, hu⟩
  case case9 t ts d hh ha hv hd x hx ih =>
    rcases ih h with rfl | ⟨rfl, ps, d', u, rest, hps, hp, hu⟩
    · exact .inl rfl
    · exact .inr ⟨rfl, .plain t :: ps, d', u, rest, by simp [written, hps],
        .plain (by grind) (by grind) ha hv (Bool.eq_false_iff.2 hd) hx hp, hu⟩
  all_goals first
    | (cases h; exact .inl rfl)
    | (cases h; rename_i hx; exact .inl (hr _ _ _ hx))

theorem bare_iff (w : Tok) : isValue w = true ↔ Bare w := by
  unfold Bare
  fun_cases isValue w
  · simp
  · simp
  · rename_i cs _
    constructor
    · intro h ds hd; cases hd
      simpa [isDigit] using h
    · intro h; simpa [isDigit] using h cs rfl
  · constructor
    · intro _ ds hd; subst hd; rename_i h1 h2 h3; exact (h3 _ rfl).elim
    · simp

/-- The options can be told apart, and none looks like a value. -/
def Distinct (opts : List Arg) (pos : Arg) : Prop :=
  (∀ a ∈ opts, a.dest ≠ pos.dest) ∧
  (∀ a ∈ opts, ∀ b ∈ opts, a.dest = b.dest → a = b) ∧
  (∀ a ∈ opts, ∀ b ∈ opts, ∀ n ∈ a.names, n ∈ b.names → a = b) ∧
  (∀ a ∈ opts, ∀ n ∈ a.names, n ≠ ['-', 'h'] ∧ n ≠ ['-', '-', 'h', 'e', 'l', 'p'] ∧ isValue n = false)

instance (opts : List Arg) (pos : Arg) : Decidable (Distinct opts pos) := by unfold Distinct; infer_instance

theorem find_name {opts : List Arg} {pos : Arg} (hd : Distinct opts pos) {a : Arg} (ha : a ∈ opts) {n : Tok} (hn : n ∈ a.names) :
    (opts.find? fun a => decide (n ∈ a.names)) = some a := by
  cases hf : opts.find? fun a => decide (n ∈ a.names) with
  | none => simp at hf; exact absurd hn (hf a ha)
  | some b =>
    have h1 := List.find?_some hf
    have h2 := List.mem_of_find?_eq_some hf
    rw [hd.2.2.1 a ha b h2 n hn (by simpa using h1)]

theorem find_value {opts : List Arg} {pos : Arg} (hd : Distinct opts pos) {w : Tok} (hw : isValue w = true) :
    (opts.find? fun a => decide (w ∈ a.names)) = none := by
  simp only [List.find?_eq_none, decide_eq_true_eq]
  intro a ha hn
  have := (hd.2.2.2 a ha w hn).2.2
  simp [hw] at this

theorem lastGiven_cons {names : List Word} {n v w : Word} {ps : List Part} :
    LastGiven names (.given n v :: ps) w ↔ LastGiven names ps w ∨ (NotGiven names ps ∧ n ∈ names ∧ w = v) := by
  constructor
  · rintro ⟨before, n', after, he, hn, hafter⟩
    cases before with
    | nil => simp at he; obtain ⟨⟨rfl, rfl⟩, rfl⟩ := he; exact .inr ⟨hafter, hn, rfl⟩
    | cons b bs =>
      simp at he
      exact .inl ⟨bs, n', after, he.2, hn, hafter⟩
  · rintro (⟨before, n', after, he, hn, hafter⟩ | ⟨h1, h2, rfl⟩)
    · exact ⟨.given n v :: before, n', after, by simp [he], hn, hafter⟩
    · exact ⟨[], n, ps, rfl, h2, h1⟩

theorem lastGiven_plain {names : List Word} {u w : Word} {ps : List Part} :
    LastGiven names (.plain u :: ps) w ↔ LastGiven names ps w := by
  constructor
  · rintro ⟨before, n', after, he, hn, hafter⟩
    cases before with
    | nil => simp at he
    | cons b bs =>
      simp at he
      exact ⟨bs, n', after, he.2, hn, hafter⟩
  · rintro ⟨before, n', after, he, hn, hafter⟩
    exact ⟨.plain u :: before, n', after, by simp [he], hn, hafter⟩

theorem notGiven_cons {names : List Word} {n v : Word} {ps : List Part} :
    NotGiven names (.given n v :: ps) ↔ n ∉ names ∧ NotGiven names ps := by
  unfold NotGiven; grind

theorem notGiven_plain {names : List Word} {u : Word} {ps : List Part} :
    NotGiven names (.plain u :: ps) ↔ NotGiven names ps := by
  unfold NotGiven; grind

/-- What an option holds in the end. -/
theorem Parse.option {opts : List Arg} {pos : Arg} (hd : Distinct opts pos) {ps : List Part} {d d' : Dict Tok Val}
    (h : Parse opts pos ps d d') {a : Arg} (ha : a ∈ opts) (x : Val) :
    d'.get? a.dest = some x ↔
      (∃ v, LastGiven a.names ps v ∧ a.kind.read v = .ok x) ∨ (NotGiven a.names ps ∧ d.get? a.dest = some x) := by
  induction h with
  | nil => simp [LastGiven, NotGiven]
  | @given n v b y ps d d' h1 h2 h3 h4 h5 _ ih =>
    rw [ih]
    have hb := List.mem_of_find?_eq_some h3
    have hn : n ∈ b.names := by simpa using List.find?_some h3
    simp only [lastGiven_cons, notGiven_cons, Dict.get?_set]
    by_cases hab : a = b
    · subst hab
      simp only [if_true, Option.some.injEq]
      constructor
      · rintro (⟨v, hv, hx⟩ | ⟨hng, rfl⟩)
        · exact .inl ⟨v, .inl hv, hx⟩
        · exact .inl ⟨v, .inr ⟨hng, hn, rfl⟩, h5⟩
      · rintro (⟨v, hv | ⟨hng, _, rfl⟩, hx⟩ | ⟨⟨hng, _⟩, _⟩)
        · exact .inl ⟨v, hv, hx⟩
        · rw [h5] at hx; cases hx; exact .inr ⟨hng, rfl⟩
        · exact absurd hn hng
    · have hne : n ∉ a.names := fun h => hab (hd.2.2.1 a ha b hb n h hn)
      have hde : a.dest ≠ b.dest := fun h => hab (hd.2.1 a ha b hb h)
      simp [hne, Ne.symm hde]
  | plain h1 h2 h3 h4 h5 h6 _ ih =>
    rw [ih]
    have hde : a.dest ≠ pos.dest := hd.1 a ha
    simp [lastGiven_plain, notGiven_plain, Ne.symm hde]

/-- What the positional argument holds in the end. -/
theorem Parse.position {opts : List Arg} {pos : Arg} (hd : Distinct opts pos) {ps : List Part} {d d' : Dict Tok Val}
    (h : Parse opts pos ps d d') :
    (d.get? pos.dest = none → (plains ps = [] ∧ d'.get? pos.dest = none) ∨
      ∃ w x, plains ps = [w] ∧ pos.kind.read w = .ok x ∧ d'.get? pos.dest = some x) ∧
    (∀ x, d.get? pos.dest = some x → plains ps = [] ∧ d'.get? pos.dest = some x) := by
  induction h with
  | nil => exact ⟨fun hn => .inl ⟨rfl, hn⟩, fun x hx => ⟨rfl, hx⟩⟩
  | @given n v b y ps d d' h1 h2 h3 h4 h5 _ ih =>
    have hb := List.mem_of_find?_eq_some h3
    have hde : b.dest ≠ pos.dest := hd.1 b hb
    simp only [Dict.get?_set, hde, if_false] at ih
    simpa [plains] using ih
  | @plain w y ps d d' h1 h2 h3 h4 h5 h6 _ ih =>
    rw [Dict.has_eq] at h5
    refine ⟨fun _ => .inr ?_, fun x hx => by simp [hx] at h5⟩
    obtain ⟨hp, hx⟩ := ih.2 y (by simp)
    exact ⟨w, y, by simp [plains, hp], h6, hx⟩

theorem Parse.position_some {opts : List Arg} {pos : Arg} (hd : Distinct opts pos) {ps : List Part} {d d' : Dict Tok Val}
    (h : Parse opts pos ps d d') (hn : d.get? pos.dest = none) (hs : d'.has pos.dest = true) :
    ∃ w x, plains ps = [w] ∧ pos.kind.read w = .ok x ∧ d'.get? pos.dest = some x := by
  rcases (h.position hd).1 hn with ⟨_, h'⟩ | h'
  · rw [Dict.has_eq, h'] at hs; cases hs
  · exact h'

/-- Every part was understood. -/
theorem Parse.parts {opts : List Arg} {pos : Arg} {ps : List Part} {d d' : Dict Tok Val} (h : Parse opts pos ps d d') :
    (∀ n v, .given n v ∈ ps → isValue v = true ∧ ∃ a ∈ opts, n ∈ a.names ∧ ∃ x, a.kind.read v = .ok x) ∧
    (∀ w, .plain w ∈ ps → isValue w = true) := by
  induction h with
  | nil => simp
  | @given n v b y ps d d' h1 h2 h3 h4 h5 _ ih =>
    have hb := List.mem_of_find?_eq_some h3
    have hn : n ∈ b.names := by simpa using List.find?_some h3
    refine ⟨fun n' v' hm => ?_, fun w hm => ih.2 w (by simpa using hm)⟩
    rcases List.mem_cons.1 hm with he | hm
    · cases he; exact ⟨h4, b, hb, hn, y, h5⟩
    · exact ih.1 n' v' hm
  | @plain w y ps d d' h1 h2 h3 h4 h5 h6 _ ih =>
    refine ⟨fun n' v' hm => ih.1 n' v' (by simpa using hm), fun u hm => ?_⟩
    rcases List.mem_cons.1 hm with he | hm
    · cases he; exact h4
    · exact ih.2 u hm

/-- Parts that can be understood are parsed. -/
theorem parse_exists {opts : List Arg} {pos : Arg} (hd : Distinct opts pos) (ps : List Part)
    (hg : ∀ n v, .given n v ∈ ps → isValue v = true ∧ ∃ a ∈ opts, n ∈ a.names ∧ ∃ x, a.kind.read v = .ok x)
    (hp : ∀ w, .plain w ∈ ps → isValue w = true) (d : Dict Tok Val)
    (hw : plains ps = [] ∨ (d.get? pos.dest = none ∧ ∃ w x, plains ps = [w] ∧ pos.kind.read w = .ok x)) :
    ∃ d', Parse opts pos ps d d' := by
  induction ps generalizing d with
  | nil => exact ⟨d, .nil⟩
  | cons p ps ih =>
    have ih := ih (fun n v hm => hg n v (List.mem_cons_of_mem _ hm)) (fun w hm => hp w (List.mem_cons_of_mem _ hm))
    cases p with
    | given n v =>
      obtain ⟨hv, a, ha, hn, x, hx⟩ := hg n v (by simp)
      have hde : a.dest ≠ pos.dest := hd.1 a ha
      obtain ⟨d', h'⟩ := ih (d.set a.dest x) (by simpa [plains, hde] using hw)
      have := hd.2.2.2 a ha n hn
      exact ⟨d', .given this.1 this.2.1 (find_name hd ha hn) hv hx h'⟩
    | plain w =>
      have hv := hp w (by simp)
      rcases hw with hw | ⟨hn, w', x, hw, hx⟩
      · simp [plains] at hw
      · simp only [plains, List.cons.injEq] at hw
        obtain ⟨rfl, hw⟩ := hw
        obtain ⟨d', h'⟩ := ih (d.set pos.dest x) (.inl hw)
        refine ⟨d', .plain ?_ ?_ (find_value hd hv) hv ?_ hx h'⟩
        · rintro rfl; exact absurd hv (by decide)
        · rintro rfl; exact absurd hv (by decide)
        · rw [Dict.has_eq, hn]; rfl

/-- With a word for the positional argument. -/
theorem parse_full {opts : List Arg} {pos : Arg} (hd : Distinct opts pos) (ps : List Part)
    (hg : ∀ n v, .given n v ∈ ps → isValue v = true ∧ ∃ a ∈ opts, n ∈ a.names ∧ ∃ x, a.kind.read v = .ok x)
    (hp : ∀ w, .plain w ∈ ps → isValue w = true) (d : Dict Tok Val)
    (hw : d.get? pos.dest = none ∧ ∃ w x, plains ps = [w] ∧ pos.kind.read w = .ok x) :
    ∃ d', Parse opts pos ps d d' ∧ d'.has pos.dest = true := by
  obtain ⟨d', h⟩ := parse_exists hd ps hg hp d (.inr hw)
  obtain ⟨hn, w, x, hw, hx⟩ := hw
  refine ⟨d', h, ?_⟩
  rcases (h.position hd).1 hn with ⟨h', _⟩ | ⟨_, y, _, _, h'⟩
  · rw [hw] at h'; cases h'
  · rw [Dict.has_eq, h']; rfl

theorem readInt_ok {d : Dict Tok Val} {name : Tok} {n : Int} : readInt d name = .ok n ↔ d.get? name = some (.int n) := by
  unfold readInt; split <;> simp_all

theorem readText_ok {d : Dict Tok Val} {name : Tok} {s : Tok} : readText d name = .ok s ↔ d.get? name = some (.text s) := by
  unfold readText; split <;> simp_all

theorem readAddress_ok {d : Dict Tok Val} {name : Tok} {a : ZmqConfig} :
    readAddress d name = .ok a ↔ d.get? name = some (.address a) := by
  unfold readAddress; split <;> simp_all

theorem read_int {s : Tok} {x : Val} : Kind.int.read s = .ok x ↔ ∃ n, x = .int n ∧ Written s n := by
  simp only [← Props.C58_number]
  unfold Kind.read
  cases parseInt s <;> simp [eq_comm]

theorem read_choice {allowed : List Tok} {s : Tok} {x : Val} :
    (Kind.choice allowed).read s = .ok x ↔ x = .text s ∧ s ∈ allowed := by
  unfold Kind.read
  by_cases h : s ∈ allowed <;> simp [h, eq_comm]

theorem fromString_denotes {s : Tok} {a : ZmqConfig} : ZmqConfig.fromString s = .ok a ↔ Denotes s a := by
  rw [Props.C58_accepts]
  simp only [Denotes, Props.C58_number]

theorem read_address {s : Tok} {x : Val} : Kind.address.read s = .ok x ↔ ∃ a, x = .address a ∧ Denotes s a := by
  simp only [← fromString_denotes]
  unfold Kind.read
  cases h : ZmqConfig.fromString s with
  | ok a => simp [eq_comm]
  | error e =>
    rw [Props.C58_rejects s e h]
    simp

theorem read_text {s : Tok} {x : Val} : Kind.text.read s = .ok x ↔ x = .text s := by
  simp [Kind.read, eq_comm]

theorem registerEventLoop_ok {uvloop : Bool} {name : Tok} : registerEventLoop uvloop name = .ok () ↔ Usable uvloop name := by
  unfold registerEventLoop Usable loopTypes
  have h1 : "builtin".toList = ['b', 'u', 'i', 'l', 't', 'i', 'n'] := by decide
  have h2 : "uvloop".toList = ['u', 'v', 'l', 'o', 'o', 'p'] := by decide
  rw [h1, h2]
  cases uvloop <;> grind

theorem defaults_keep (opts : List Arg) (d : Dict Tok Val) (k : Tok) (hk : ∀ a ∈ opts, a.dest ≠ k) :
    (opts.foldl setDefault d).get? k = d.get? k := by
  induction opts generalizing d with
  | nil => rfl
  | cons b bs ih =>
    rw [List.foldl_cons, ih _ fun a ha => hk a (List.mem_cons_of_mem _ ha)]
    have := hk b (by simp)
    unfold setDefault; cases b.default <;> simp [this]

theorem defaults_get {opts : List Arg} {pos : Arg} (hd : Distinct opts pos) {a : Arg} (ha : a ∈ opts) {v : Val}
    (hv : a.default = some v) : (defaults opts).get? a.dest = some v := by
  have hinj := hd.2.1
  unfold defaults
  generalize Dict.empty = d
  clear hd
  induction opts generalizing d with
  | nil => cases ha
  | cons b bs ih =>
    rw [List.foldl_cons]
    by_cases hm : a ∈ bs
    · exact ih hm (fun x hx y hy => hinj x (List.mem_cons_of_mem _ hx) y (List.mem_cons_of_mem _ hy)) _
    · rcases List.mem_cons.1 ha with rfl | h
      · rw [defaults_keep]
        · simp [setDefault, hv]
        · intro c hc he
          exact hm (hinj c (List.mem_cons_of_mem _ hc) a (by simp) he ▸ hc)
      · exact absurd h hm

theorem defaults_pos {opts : List Arg} {pos : Arg} (hd : Distinct opts pos) : (defaults opts).get? pos.dest = none := by
  unfold defaults
  rw [defaults_keep _ _ _ hd.1]
  rfl

theorem read_error {k : Kind} {s : Tok} {e : Stop} (h : k.read s = .error e) : e = .usage := by
  unfold Kind.read at h
  cases k with
  | int => revert h; simp only; split <;> simp [eq_comm]
  | choice al => revert h; simp only; split <;> simp [eq_comm]
  | address =>
    revert h; simp only
    cases hf : ZmqConfig.fromString s with
    | ok a => simp
    | error e' => rw [Props.C58_rejects s e' hf]; simp [eq_comm]
  | text => cases h

/-- An option always has a value. -/
theorem Parse.total {opts : List Arg} {pos : Arg} {ps : List Part} {d d' : Dict Tok Val}
    (h : Parse opts pos ps d d') {a : Arg} (hdef : (d.get? a.dest).isSome = true) : (d'.get? a.dest).isSome = true := by
  induction h with
  | nil => exact hdef
  | @given n v b y ps d d' h1 h2 h3 h4 h5 _ ih =>
    apply ih
    rw [Dict.get?_set]
    split <;> simp [hdef]
  | @plain w y ps d d' h1 h2 h3 h4 h5 h6 _ ih =>
    apply ih
    rw [Dict.get?_set]
    split <;> simp [hdef]

theorem Parse.number_total {opts : List Arg} {pos : Arg} (hd : Distinct opts pos) {ps : List Part} {d' : Dict Tok Val}
    (h : Parse opts pos ps (defaults opts) d') {names : List Tok} {dflt : Int} {dest : Tok}
    (ha : (⟨names, .int, some (.int dflt)⟩ : Arg) ∈ opts)
    (hdest : (⟨names, .int, some (.int dflt)⟩ : Arg).dest = dest) : ∃ n, readInt d' dest = .ok n := by
  subst hdest
  have hdef := defaults_get hd ha rfl
  have ht := h.total (by rw [hdef]; rfl)
  obtain ⟨x, hx⟩ := Option.isSome_iff_exists.1 ht
  rcases (h.option hd ha x).1 hx with ⟨v, _, hr⟩ | ⟨_, hr⟩
  · obtain ⟨n, rfl, _⟩ := read_int.1 hr
    exact ⟨n, readInt_ok.2 hx⟩
  · rw [defaults_get hd ha rfl] at hr; cases hr
    exact ⟨dflt, readInt_ok.2 hx⟩

theorem Parse.choice_total {opts : List Arg} {pos : Arg} (hd : Distinct opts pos) {ps : List Part} {d' : Dict Tok Val}
    (h : Parse opts pos ps (defaults opts) d') {names allowed : List Tok} {dflt dest : Tok}
    (ha : (⟨names, .choice allowed, some (.text dflt)⟩ : Arg) ∈ opts)
    (hdest : (⟨names, .choice allowed, some (.text dflt)⟩ : Arg).dest = dest) (hall : dflt ∈ allowed) :
    ∃ w ∈ allowed, readText d' dest = .ok w := by
  subst hdest
  have hdef := defaults_get hd ha rfl
  have ht := h.total (by rw [hdef]; rfl)
  obtain ⟨x, hx⟩ := Option.isSome_iff_exists.1 ht
  rcases (h.option hd ha x).1 hx with ⟨v, _, hr⟩ | ⟨_, hr⟩
  · obtain ⟨rfl, hv⟩ := read_choice.1 hr
    exact ⟨v, hv, readText_ok.2 hx⟩
  · rw [defaults_get hd ha rfl] at hr; cases hr
    exact ⟨dflt, hall, readText_ok.2 hx⟩

/-- A number among the options. -/
theorem Parse.number {opts : List Arg} {pos : Arg} (hd : Distinct opts pos) {ps : List Part} {d' : Dict Tok Val}
    (h : Parse opts pos ps (defaults opts) d') {names : List Tok} {dflt : Int} {dest : Tok} (ha : (⟨names, .int, some (.int dflt)⟩ : Arg) ∈ opts)
    (hdest : (⟨names, .int, some (.int dflt)⟩ : Arg).dest = dest) (n : Int) :
    readInt d' dest = .ok n ↔ Number names ps dflt n := by
  subst hdest
  rw [readInt_ok, h.option hd ha, defaults_get hd ha rfl]
  simp only [read_int, Number, Option.some.injEq, Val.int.injEq]
  constructor
  · rintro (⟨v, hv, m, hm, hw⟩ | ⟨hn, rfl⟩)
    · cases hm; exact .inl ⟨v, hv, hw⟩
    · exact .inr ⟨hn, rfl⟩
  · rintro (⟨v, hv, hw⟩ | ⟨hn, rfl⟩)
    · exact .inl ⟨v, hv, n, rfl, hw⟩
    · exact .inr ⟨hn, rfl⟩

/-- A choice among the options. -/
theorem Parse.choice {opts : List Arg} {pos : Arg} (hd : Distinct opts pos) {ps : List Part} {d' : Dict Tok Val}
    (h : Parse opts pos ps (defaults opts) d') {names allowed : List Tok} {dflt dest : Tok}
    (ha : (⟨names, .choice allowed, some (.text dflt)⟩ : Arg) ∈ opts)
    (hdest : (⟨names, .choice allowed, some (.text dflt)⟩ : Arg).dest = dest)
    (hall : ∀ v, LastGiven names ps v → v ∈ allowed) (w : Tok) :
    readText d' dest = .ok w ↔ Choice names ps dflt w := by
  subst hdest
  rw [readText_ok, h.option hd ha, defaults_get hd ha rfl]
  simp only [read_choice, Choice, Option.some.injEq, Val.text.injEq]
  constructor
  · rintro (⟨v, hv, hm, hw⟩ | ⟨hn, rfl⟩)
    · cases hm; exact .inl hv
    · exact .inr ⟨hn, rfl⟩
  · rintro (hv | ⟨hn, rfl⟩)
    · exact .inl ⟨w, hv, rfl, hall w hv⟩
    · exact .inr ⟨hn, rfl⟩

end Verif.Cluster
