import Verif.Client.GraphLemmas
import Verif.Props.Client

/-!
# Claims about `map` and `get` (C42, C43, C44)
-/

namespace Verif.Props

open Verif.Wire Verif.Client Verif.Spec Verif.Sched Verif.Spec.Client

/-! ### C44 -/

/-- `get` raises `KeyError` iff a key is not the name of a call or an argument is not defined, and otherwise
`CycleError` iff the graph is cyclic; it raises nothing else. -/
theorem C44_rejected (p : Pickle) (g : Dict Bytes UserNode) (keys ids : List Bytes) (gid : Bytes) (hl : Enough g ids) (e : PyErr) :
    buildGraph p ids gid g keys = .error e ↔
      (e = .keyError ∧ ((∃ k ∈ keys, ¬ IsCall g k) ∨ ∃ x a, Needs g x a ∧ g.get? a = none)) ∨
      (e = .cycleError ∧ (∀ k ∈ keys, IsCall g k) ∧ (∀ x a, Needs g x a → g.get? a ≠ none) ∧ Cyclic g) := by
  obtain ⟨h1, h2⟩ := buildGraph_eq p hl gid keys
  by_cases hb : (∃ k ∈ keys, ¬ IsCall g k) ∨ ∃ x a, Needs g x a ∧ g.get? a = none
  · rw [h1 hb]
    constructor
    · intro h; cases h; exact .inl ⟨rfl, hb⟩
    · rintro (⟨rfl, _⟩ | ⟨_, hk, ha, _⟩)
      · rfl
      · rcases hb with ⟨k, hk', hn⟩ | ⟨x, a, hx, hn⟩
        · exact absurd (hk k hk') hn
        · exact absurd hn (ha x a hx)
  · have hk : ∀ k ∈ keys, IsCall g k := fun k hk => Classical.byContradiction fun hn => hb (.inl ⟨k, hk, hn⟩)
    have ha : ∀ x a, Needs g x a → g.get? a ≠ none := fun x a hx hn => hb (.inr ⟨x, a, hx, hn⟩)
    obtain ⟨h3, h4⟩ := h2 hk (fun x a hx => Option.isSome_iff_ne_none.2 (ha x a hx))
    by_cases hc : Cyclic g
    · rw [h3 hc]
      constructor
      · intro h; cases h; exact .inr ⟨rfl, hk, ha, hc⟩
      · rintro (⟨_, h⟩ | ⟨rfl, _⟩)
        · exact absurd h hb
        · rfl
    · rw [h4 hc]
      constructor
      · intro h; cases h
      · rintro (⟨_, h⟩ | ⟨_, _, _, h⟩)
        · exact absurd h hb
        · exact absurd h hc

/-- The argument of a task that stands for node `a`: its data, or a reference to its task. -/
def argument (g : Dict Bytes UserNode) (id : Bytes → Bytes) (a : Bytes) : Argument :=
  match g.get? a with
  | some (.data b) => ⟨.data, b⟩
  | _ => ⟨.task, id a⟩

/-- The task for a node, if it is a call. -/
def task? (p : Pickle) (g : Dict Bytes UserNode) (id : Bytes → Bytes) : Bytes × UserNode → Option Task
  | (_, .data _) => none
  | (x, .call _ c as) => some ⟨id x, p.hash c, as.map (argument g id)⟩

/-- The message `m` is the user's graph `g`, where `id x` is the task id of the call `x`. -/
structure SameGraph (p : Pickle) (g : Dict Bytes UserNode) (keys : List Bytes) (id : Bytes → Bytes) (m : GraphTask) : Prop where
  /-- one task for each call, in order, with the same function and arguments -/
  tasks : m.graph = g.items.filterMap (task? p g id)
  /-- different calls are different tasks -/
  inj : ∀ x y, IsCall g x → IsCall g y → id x = id y → x = y
  /-- the functions are those of the graph -/
  functions : ∀ fid nm c, m.functions.get? fid = some (nm, c) → fid = p.hash c ∧ ∃ x as, g.get? x = some (.call nm c as)
  /-- and there are no others -/
  all : ∀ x nm c as, g.get? x = some (.call nm c as) → (m.functions.get? (p.hash c)).isSome = true
  /-- the targets are the tasks of the keys, once each -/
  targets : ∀ t, t ∈ m.targets ↔ ∃ k ∈ keys, t = id k
  once : m.targets.Nodup
  /-- in the order of the keys, as long as these are different -/
  order : ∀ K, K <+: keys → K.Nodup → K.map id <+: m.targets
  /-- each key at its first place -/
  listed : m.targets = (differentKeys keys).map id

theorem lget_zip_inj {xs ys : List Bytes} (hy : ys.Nodup) {x x' t : Bytes} (h : Dict.lget (xs.zip ys) x = some t)
    (h' : Dict.lget (xs.zip ys) x' = some t) : x = x' := by
  induction xs generalizing ys with
  | nil => simp [Dict.lget] at h
  | cons a xs ih =>
    cases ys with
    | nil => simp [Dict.lget] at h
    | cons b ys =>
      rw [List.nodup_cons] at hy
      have hmem : ∀ z, Dict.lget (xs.zip ys) z = some b → False := by
        intro z hz
        exact hy.1 (List.of_mem_zip (Dict.lget_mem hz)).2
      simp only [List.zip_cons_cons, Dict.lget] at h h'
      split at h <;> split at h'
      · rename_i e e'; exact e.symm.trans e'
      · cases h; exact absurd h' (fun h => hmem _ h)
      · cases h'; exact absurd h (fun h => hmem _ h)
      · exact ih hy.2 h h'

theorem foldl_addFunction (p : Pickle) (l : List (Bytes × UserNode)) (fs : Dict Bytes (Bytes × Bytes)) :
    (∀ fid nm c, (l.foldl (addFunction p) fs).get? fid = some (nm, c) →
      fs.get? fid = some (nm, c) ∨ (fid = p.hash c ∧ ∃ x as, (x, UserNode.call nm c as) ∈ l)) ∧
    (∀ fid, (fs.get? fid).isSome = true → ((l.foldl (addFunction p) fs).get? fid).isSome = true) ∧
    (∀ x nm c as, (x, UserNode.call nm c as) ∈ l → ((l.foldl (addFunction p) fs).get? (p.hash c)).isSome = true) := by
  induction l generalizing fs with
  | nil => exact ⟨fun _ _ _ h => .inl h, fun _ h => h, fun _ _ _ _ h => by simp at h⟩
  | cons y l ih =>
    obtain ⟨n, u⟩ := y
    obtain ⟨i1, i2, i3⟩ := ih (addFunction p fs (n, u))
    simp only [List.foldl_cons]
    cases u with
    | data b =>
      refine ⟨fun fid nm c h => ?_, i2, fun x nm c as h => i3 x nm c as (by simpa using h)⟩
      rcases i1 fid nm c h with h | ⟨h1, x, as, h2⟩
      · exact .inl h
      · exact .inr ⟨h1, x, as, by simp [h2]⟩
    | call nm0 c0 as0 =>
      simp only [addFunction] at i1 i2 i3 ⊢
      refine ⟨fun fid nm c h => ?_, fun fid h => i2 fid ?_, fun x nm c as h => ?_⟩
      · rcases i1 fid nm c h with h | ⟨h1, x, as, h2⟩
        · rw [Dict.get?_set] at h
          split at h
          · rename_i e; cases h; exact .inr ⟨e.symm, n, as0, by simp⟩
          · exact .inl h
        · exact .inr ⟨h1, x, as, by simp [h2]⟩
      · rw [Dict.get?_set]; split <;> simp [h]
      · rcases List.mem_cons.1 h with h | h
        · cases h
          exact i2 _ (by simp)
        · exact i3 x nm c as h

theorem foldl_add_prefix {α : Type} [DecidableEq α] (l : List α) (s : PySet α) : ∃ r, (l.foldl PySet.add s).items = s.items ++ r := by
  induction l generalizing s with
  | nil => exact ⟨[], by simp⟩
  | cons a l ih =>
    obtain ⟨r, hr⟩ := ih (s.add a)
    simp only [List.foldl_cons]
    rw [hr]
    simp only [PySet.add]
    split
    · exact ⟨r, rfl⟩
    · exact ⟨a :: r, by simp⟩

theorem nodup_map_on {α β : Type} {f : α → β} {l : List α} (hn : l.Nodup) (hf : ∀ x ∈ l, ∀ y ∈ l, f x = f y → x = y) : (l.map f).Nodup := by
  induction l with
  | nil => simp
  | cons a l ih =>
    rw [List.nodup_cons] at hn
    rw [List.map_cons, List.nodup_cons]
    refine ⟨?_, ih hn.2 fun x hx y hy => hf x (by simp [hx]) y (by simp [hy])⟩
    intro h
    obtain ⟨b, hb, e⟩ := List.mem_map.1 h
    have := hf b (by simp [hb]) a (by simp) e
    exact hn.1 (this ▸ hb)

theorem nodup_of_map {α β : Type} {f : α → β} {l : List α} (hn : (l.map f).Nodup) : l.Nodup := by
  induction l with
  | nil => simp
  | cons a l ih =>
    rw [List.map_cons, List.nodup_cons] at hn
    exact List.nodup_cons.2 ⟨fun h => hn.1 (List.mem_map.2 ⟨a, h, rfl⟩), ih hn.2⟩

theorem foldl_differentKeys (f : Bytes → Bytes) : ∀ (keys l : List Bytes) (S : PySet Bytes), (∀ x ∈ l ++ keys, ∀ y ∈ l ++ keys, f x = f y → x = y) →
    S.items = l.map f → ((keys.map f).foldl PySet.add S).items = (keys.foldl (fun l k => if k ∈ l then l else l ++ [k]) l).map f
  | [], l, S, _, hS => hS
  | k :: keys, l, S, hi, hS => by
    simp only [List.map_cons, List.foldl_cons]
    by_cases hk : k ∈ l
    · have : f k ∈ S.items := by rw [hS]; exact List.mem_map.2 ⟨k, hk, rfl⟩
      rw [if_pos hk]
      refine foldl_differentKeys f keys l _ (fun x hx y hy => hi x ?_ y ?_) ?_
      · simp only [List.mem_append, List.mem_cons] at hx ⊢; rcases hx with h | h <;> simp [h]
      · simp only [List.mem_append, List.mem_cons] at hy ⊢; rcases hy with h | h <;> simp [h]
      · unfold PySet.add; rw [dif_pos this]; exact hS
    · have : f k ∉ S.items := by
        rw [hS]
        intro h
        obtain ⟨x, hx, e⟩ := List.mem_map.1 h
        have := hi x (by simp [hx]) k (by simp) e
        exact hk (this ▸ hx)
      rw [if_neg hk]
      refine foldl_differentKeys f keys (l ++ [k]) _ (fun x hx y hy => hi x ?_ y ?_) ?_
      · simpa [or_assoc] using hx
      · simpa [or_assoc] using hy
      · unfold PySet.add; rw [dif_neg this]; simp [hS]

/-- An accepted graph is sent as given. -/
theorem C44_same (p : Pickle) (g : Dict Bytes UserNode) (keys ids : List Bytes) (gid : Bytes) (hl : Enough g ids) (hn : ids.Nodup)
    (m : GraphTask) (hm : buildGraph p ids gid g keys = .ok m) :
    m.taskId = gid ∧ ∃ id : Bytes → Bytes, (∀ x, IsCall g x → id x ∈ ids) ∧ SameGraph p g keys id m := by
  obtain ⟨h1, h2⟩ := buildGraph_eq p hl gid keys
  have hb : ¬ ((∃ k ∈ keys, ¬ IsCall g k) ∨ ∃ x a, Needs g x a ∧ g.get? a = none) := fun hb => by rw [h1 hb] at hm; cases hm
  have hk : ∀ k ∈ keys, IsCall g k := fun k hk => Classical.byContradiction fun hn => hb (.inl ⟨k, hk, hn⟩)
  have ha : ∀ x a, Needs g x a → (g.get? a).isSome = true :=
    fun x a hx => Option.isSome_iff_ne_none.2 fun hn => hb (.inr ⟨x, a, hx, hn⟩)
  obtain ⟨h3, h4⟩ := h2 hk ha
  have hc : ¬ Cyclic g := fun hc => by rw [h3 hc] at hm; cases hm
  rw [h4 hc] at hm
  cases hm
  have hid : ∀ x, IsCall g x → idOf g ids x = some ((idOf g ids x).getD []) := by
    intro x hx
    obtain ⟨t, ht⟩ := Option.isSome_iff_exists.1 ((idOf_isSome hl x).2 hx)
    simp [ht]
  have hinj : ∀ x y, IsCall g x → IsCall g y → (idOf g ids x).getD [] = (idOf g ids y).getD [] → x = y := by
    intro x y hx hy e
    have e1 := hid x hx
    have e2 := hid y hy
    rw [e] at e1
    exact lget_zip_inj hn e1 e2
  refine ⟨rfl, fun x => (idOf g ids x).getD [], fun x hx => ?_, ?_, hinj, ?_, ?_, ?_, ?_, ?_, ?_⟩
  · exact (List.of_mem_zip (Dict.lget_mem (hid x hx))).2
  · simp only [messageFor]
    rw [← List.filterMap_eq_map, List.filterMap_filter]
    congr 1
    funext y
    obtain ⟨n, u⟩ := y
    cases u with
    | data => rfl
    | call nm c as => rfl
  · intro fid nm c h
    rcases (foldl_addFunction p (g.items.filter (·.2.isCall)) .empty).1 fid nm c h with h | ⟨h5, x, as, h6⟩
    · simp at h
    · exact ⟨h5, x, as, Dict.mem_items.1 (List.mem_filter.1 h6).1⟩
  · intro x nm c as h
    exact (foldl_addFunction p (g.items.filter (·.2.isCall)) .empty).2.2 x nm c as (List.mem_filter.2 ⟨Dict.mem_items.2 h, rfl⟩)
  · intro t
    simp only [messageFor, PySet.mem_items, PySet.mem_ofList, List.mem_map]
    constructor
    · rintro ⟨k, hk, rfl⟩; exact ⟨k, hk, rfl⟩
    · rintro ⟨k, hk, rfl⟩; exact ⟨k, hk, rfl⟩
  · exact (PySet.ofList _).nodup
  · rintro K ⟨K', rfl⟩ hK
    have hnd : (K.map fun x => (idOf g ids x).getD []).Nodup :=
      nodup_map_on hK fun x hx y hy e => hinj x y (hk x (by simp [hx])) (hk y (by simp [hy])) e
    simp only [messageFor, PySet.ofList, List.map_append, List.foldl_append]
    obtain ⟨r, hr⟩ := foldl_add_prefix (K'.map fun x => (idOf g ids x).getD [])
      ((K.map fun x => (idOf g ids x).getD []).foldl PySet.add .empty)
    refine ⟨r, ?_⟩
    rw [hr, PySet.items_foldl_add _ _ (by simpa [PySet.empty] using hnd)]
    simp [PySet.empty]
  · exact foldl_differentKeys (fun x => (idOf g ids x).getD []) keys [] .empty
      (fun x hx y hy e => hinj x y (hk x (by simpa using hx)) (hk y (by simpa using hy)) e) rfl

theorem find_task {p : Pickle} {g : Dict Bytes UserNode} {keys : List Bytes} {id : Bytes → Bytes} {m : GraphTask}
    (h : SameGraph p g keys id m) {x nm c : Bytes} {as : List Bytes} (hx : g.get? x = some (.call nm c as)) :
    (m.graph.find? fun T => T.taskId = id x) = some ⟨id x, p.hash c, as.map (argument g id)⟩ := by
  have hmem : (⟨id x, p.hash c, as.map (argument g id)⟩ : Task) ∈ m.graph := by
    rw [h.tasks, List.mem_filterMap]
    exact ⟨_, Dict.mem_items.2 hx, rfl⟩
  cases e : m.graph.find? fun T => decide (T.taskId = id x) with
  | none =>
    have := List.find?_eq_none.1 e _ hmem
    simp at this
  | some T =>
    have h1 := List.find?_some e
    have h2 := List.mem_of_find?_eq_some e
    simp only [decide_eq_true_eq] at h1
    rw [h.tasks, List.mem_filterMap] at h2
    obtain ⟨⟨y, u⟩, hy, hT⟩ := h2
    have hy := Dict.mem_items.1 hy
    cases u with
    | data => simp [task?] at hT
    | call nm' c' as' =>
      simp only [task?, Option.some.injEq] at hT
      subst hT
      have : y = x := h.inj y x ⟨_, _, _, hy⟩ ⟨_, _, _, hx⟩ h1
      subst this
      rw [hx] at hy
      cases hy
      rfl

/-- The tasks in the message have the values of the user's nodes, whatever functions compute. -/
theorem C44_value {p : Pickle} {g : Dict Bytes UserNode} {keys : List Bytes} {id : Bytes → Bytes} {m : GraphTask}
    (h : SameGraph p g keys id m) (hdef : ∀ x a, Needs g x a → g.get? a ≠ none) (F F' : Bytes → List Bytes → Bytes)
    (hF : ∀ x nm c as, g.get? x = some (.call nm c as) → F' (p.hash c) = F c) (n : Nat) (x : Bytes) (hx : IsCall g x) :
    evalNode m F' n (id x) = userEval g F n x := by
  induction n generalizing x with
  | zero =>
    obtain ⟨nm, c, as, hx⟩ := hx
    simp [evalNode, userEval, hx]
  | succ n ih =>
    obtain ⟨nm, c, as, hx⟩ := hx
    simp only [evalNode, userEval, find_task h hx, hx, hF x nm c as hx]
    congr 1
    rw [List.mapM_map]
    have : ∀ a ∈ as, argValue (evalNode m F' n) (argument g id a) = userEval g F n a := by
      intro a ha
      have hdefa := hdef x a ⟨nm, c, as, hx, ha⟩
      unfold argument
      cases hga : g.get? a with
      | none => exact absurd hga hdefa
      | some u =>
        cases u with
        | data b => cases n <;> simp [argValue, userEval, hga]
        | call nm' c' as' => simp only [argValue]; exact ih a ⟨nm', c', as', hga⟩
    clear hx
    induction as with
    | nil => rfl
    | cons a as iha =>
      simp only [List.mapM_cons, Function.comp_apply]
      rw [this a (by simp), iha fun b hb => this b (by simp [hb])]

/-- `{"a": 7, "b": (f, "a"), "c": (g, "b", "a", "b")}` -/
def sampleUserGraph : Dict Bytes UserNode :=
  ((Dict.empty.set [1] (.data [7])).set [2] (.call [5] [9] [[1]])).set [3] (.call [6] [8] [[2], [1], [2]])

example : buildGraph plainPickle [[20], [21]] [30] sampleUserGraph [[3], [2]] = .ok
    ⟨[30], (Dict.empty.set [9] ([5], [9])).set [8] ([6], [8]), [[21], [20]],
      [⟨[20], [9], [⟨.data, [7]⟩]⟩, ⟨[21], [8], [⟨.task, [20]⟩, ⟨.data, [7]⟩, ⟨.task, [20]⟩]⟩]⟩ ∧ Enough sampleUserGraph [[20], [21]] := by
  refine ⟨by decide +kernel, ?_⟩
  unfold Enough
  decide +kernel

example : userEval sampleUserGraph (fun _ xs => xs.flatten) 2 [3] = some [7, 7, 7] := by decide +kernel

/-- A cycle, an undefined argument, and a key that names data. -/
example : buildGraph plainPickle [[20], [21]] [30] ((Dict.empty.set [1] (.call [5] [9] [[2]])).set [2] (.call [5] [9] [[1]])) [[1]] = .error .cycleError ∧
    buildGraph plainPickle [[20]] [30] (Dict.empty.set [1] (.call [5] [9] [[2]])) [[1]] = .error .keyError ∧
    buildGraph plainPickle [[20], [21]] [30] sampleUserGraph [[1]] = .error .keyError := by decide +kernel

/-! ### C43 -/

/-- Key `k` is returned with the future of its own task. -/
def RightFuture (m : GraphTask) (id : Bytes → Bytes) (base : Nat) (ret : Dict Bytes Nat) (k : Bytes) : Prop :=
  ∃ i, ret.get? k = some (base + i) ∧ m.targets[i]? = some (id k)

theorem targets_eq (p : Pickle) {g : Dict Bytes UserNode} {keys ids : List Bytes} {gid : Bytes} (hl : Enough g ids) {m : GraphTask}
    (hm : buildGraph p ids gid g keys = .ok m) :
    m = messageFor p g ids gid keys ∧ ∀ k ∈ keys, IsCall g k := by
  obtain ⟨h1, h2⟩ := buildGraph_eq p hl gid keys
  have hb : ¬ ((∃ k ∈ keys, ¬ IsCall g k) ∨ ∃ x a, Needs g x a ∧ g.get? a = none) := fun hb => by rw [h1 hb] at hm; cases hm
  have hk : ∀ k ∈ keys, IsCall g k := fun k hk => Classical.byContradiction fun hn => hb (.inl ⟨k, hk, hn⟩)
  have ha : ∀ x a, Needs g x a → (g.get? a).isSome = true :=
    fun x a hx => Option.isSome_iff_ne_none.2 fun hn => hb (.inr ⟨x, a, hx, hn⟩)
  obtain ⟨h3, h4⟩ := h2 hk ha
  have hc : ¬ Cyclic g := fun hc => by rw [h3 hc] at hm; cases hm
  rw [h4 hc] at hm
  cases hm
  exact ⟨rfl, hk⟩

theorem length_le_of_subset {α : Type} [DecidableEq α] {T L : List α} (hn : T.Nodup) (hs : ∀ t ∈ T, t ∈ L) : T.length ≤ L.length := by
  induction T generalizing L with
  | nil => simp
  | cons t T ih =>
    rw [List.nodup_cons] at hn
    have ht := hs t (by simp)
    have := ih hn.2 (L := L.erase t) (fun x hx => (List.mem_erase_of_ne (by rintro rfl; exact hn.1 hx)).2 (hs x (by simp [hx])))
    rw [List.length_erase_of_mem ht] at this
    have := List.length_pos_of_mem ht
    simp only [List.length_cons]
    omega

theorem nodup_of_subset {α : Type} [DecidableEq α] {T L : List α} (hn : T.Nodup) (hs : ∀ t ∈ T, t ∈ L) (hl : L.length ≤ T.length) : L.Nodup := by
  induction L generalizing T with
  | nil => simp
  | cons a L ih =>
    have hle : ∀ {T' : List α}, T'.Nodup → (∀ t ∈ T', t ∈ L) → T'.length ≤ L.length := fun h1 h2 => length_le_of_subset h1 h2
    have ha : a ∉ L := by
      intro ha
      have := hle hn (fun t ht => by
        rcases List.mem_cons.1 (hs t ht) with rfl | h
        · exact ha
        · exact h)
      simp at hl
      omega
    have hT : (T.erase a).Nodup := hn.erase a
    have hsub : ∀ t ∈ T.erase a, t ∈ L := by
      intro t ht
      have h1 := (hn.mem_erase_iff.1 ht)
      rcases List.mem_cons.1 (hs t h1.2) with h | h
      · exact absurd h h1.1
      · exact h
    have hlen : L.length ≤ (T.erase a).length := by
      rw [List.length_erase]
      simp at hl
      split <;> omega
    exact List.nodup_cons.2 ⟨ha, ih hT hsub hlen⟩

theorem lget_zip_range {K : List Bytes} (hn : K.Nodup) {i : Nat} {k : Bytes} (hi : K[i]? = some k) (base q : Nat) (hq : K.length ≤ q) :
    Dict.lget (K.zip (List.range' base q)) k = some (base + i) := by
  induction K generalizing i base q with
  | nil => simp at hi
  | cons a K ih =>
    rw [List.nodup_cons] at hn
    obtain ⟨q, rfl⟩ : ∃ q', q = q' + 1 := ⟨q - 1, by simp at hq; omega⟩
    simp only [List.range'_succ, List.zip_cons_cons, Dict.lget]
    cases i with
    | zero => simp at hi; simp [hi]
    | succ i =>
      simp at hi
      rw [if_neg (by rintro rfl; exact hn.1 (List.mem_of_getElem? hi)), ih hn.2 hi (base + 1) q (by simpa using hq)]
      congr 1; omega

theorem zip_take {α β : Type} (xs : List α) (ys : List β) : xs.zip ys = (xs.take ys.length).zip ys := by
  induction xs generalizing ys with
  | nil => simp
  | cons x xs ih =>
    cases ys with
    | nil => simp
    | cons y ys => simp only [List.length_cons, List.take_succ_cons, List.zip_cons_cons, ← ih]

theorem mem_ofList_zip {K : List Bytes} {ns : List Nat} {k : Bytes} (h : ((Dict.ofList (K.zip ns)).get? k).isSome = true) : k ∈ K := by
  have key : ∀ (l : List (Bytes × Nat)) (d : Dict Bytes Nat), ((l.foldl (fun d p => d.set p.1 p.2) d).get? k).isSome = true →
      (d.get? k).isSome = true ∨ k ∈ l.map (·.1) := by
    intro l
    induction l with
    | nil => intro d h; exact .inl h
    | cons x l ih =>
      intro d h
      rcases ih _ h with h | h
      · rw [Dict.get?_set] at h
        split at h
        · rename_i e; exact .inr (by simp [e])
        · exact .inl h
      · exact .inr (by simp at h ⊢; exact .inr h)
  rcases key _ _ h with h | h
  · simp at h
  · obtain ⟨x, hx, rfl⟩ := List.mem_map.1 h
    exact (List.of_mem_zip hx).1

theorem get?_foldl_last {κ ν : Type} [DecidableEq κ] {k : κ} {v : ν} : ∀ (l : List (κ × ν)) (d : Dict κ ν),
    (l.foldl (fun d p => d.set p.1 p.2) d).get? k = some v →
    (∃ i : Nat, l[i]? = some (k, v) ∧ ∀ (j : Nat) w, i < j → l[j]? ≠ some (k, w)) ∨ (d.get? k = some v ∧ ∀ (j : Nat) w, l[j]? ≠ some (k, w))
  | [], d, h => .inr ⟨h, fun j w => by simp⟩
  | (a, b) :: l, d, h => by
    rcases get?_foldl_last l (d.set a b) h with ⟨i, h1, h2⟩ | ⟨h1, h2⟩
    · refine .inl ⟨i + 1, h1, fun j w hj => ?_⟩
      obtain ⟨j, rfl⟩ : ∃ j', j = j' + 1 := ⟨j - 1, by omega⟩
      exact h2 j w (by omega)
    · rw [Dict.get?_set] at h1
      split at h1
      · next e =>
        subst e
        cases h1
        refine .inl ⟨0, rfl, fun j w hj => ?_⟩
        obtain ⟨j, rfl⟩ : ∃ j', j = j' + 1 := ⟨j - 1, by omega⟩
        exact h2 j w
      · next e =>
        refine .inr ⟨h1, fun j w => ?_⟩
        cases j with
        | zero => intro hh; cases hh; exact e rfl
        | succ j => exact h2 j w

theorem isSome_foldl_set {κ ν : Type} [DecidableEq κ] {k : κ} : ∀ (l : List (κ × ν)) (d : Dict κ ν),
    (d.get? k).isSome = true ∨ k ∈ l.map (·.1) → ((l.foldl (fun d p => d.set p.1 p.2) d).get? k).isSome = true
  | [], d, h => h.elim id (fun h => nomatch h)
  | (a, b) :: l, d, h => by
    refine isSome_foldl_set l (d.set a b) ?_
    rw [Dict.get?_set]
    by_cases e : a = k
    · left; rw [if_pos e]; rfl
    · rw [if_neg e]
      rcases h with h | h
      · exact .inl h
      · rcases List.mem_cons.1 h with h | h
        · exact absurd h.symm e
        · exact .inr h

/-- For all keys, repeated or not: what is returned for a key is the future of the key that stands for it. -/
theorem C43_stands (p : Pickle) (g : Dict Bytes UserNode) (keys ids : List Bytes) (gid : Bytes) (hl : Enough g ids)
    (hn : ids.Nodup) (m : GraphTask) (hm : buildGraph p ids gid g keys = .ok m) (base : Nat) (ret : Dict Bytes Nat)
    (hret : ret = returnFutures keys (List.range' base m.targets.length)) :
    ∃ id, SameGraph p g keys id m ∧ (∀ k, (ret.get? k).isSome = true ↔ k ∈ keys.take (differentKeys keys).length) ∧
      ∀ k n, ret.get? k = some n → ∃ (i : Nat) (k' : Bytes), n = base + i ∧ Stands keys k k' ∧ m.targets[i]? = some (id k') := by
  subst hret
  obtain ⟨-, id, -, hs⟩ := C44_same p g keys ids gid hl hn m hm
  have hlen : m.targets.length = (differentKeys keys).length := by rw [hs.listed, List.length_map]
  refine ⟨id, hs, fun k => ?_, fun k n hk => ?_⟩
  · rw [returnFutures, zip_take, List.length_range', hlen]
    refine ⟨mem_ofList_zip, fun hk => isSome_foldl_set _ _ (.inr ?_)⟩
    rwa [map_fst_zip_of_le _ _ (by rw [List.length_range']; exact List.length_take_le _ _)]
  · rcases get?_foldl_last _ _ hk with ⟨i, h1, h2⟩ | ⟨h1, _⟩
    · have hz := List.getElem?_zip_eq_some.1 h1
      have hi : i < m.targets.length := by
        have := (List.getElem?_eq_some_iff.1 hz.2).1
        rwa [List.length_range'] at this
      have hn : n = base + i := by
        have := hz.2
        rw [List.getElem?_range' hi, Nat.one_mul] at this
        exact (Option.some.inj this).symm
      have hi' : i < (differentKeys keys).length := hlen ▸ hi
      refine ⟨i, (differentKeys keys)[i], hn, ⟨i, hz.1, fun j hj hj' hk => ?_, List.getElem?_eq_getElem hi'⟩, ?_⟩
      · exact h2 j (base + 1 * j) hj (List.getElem?_zip_eq_some.2 ⟨hk, List.getElem?_range' (hlen ▸ hj')⟩)
      · rw [hs.listed, List.getElem?_map, List.getElem?_eq_getElem hi']
        rfl
    · simp at h1

/-- The same for a call of `get`. -/
theorem C43_any (p : Pickle) (c : Client.Client) (g : Dict Bytes UserNode) (keys ids : List Bytes) (gid : Bytes) (hl : Enough g ids)
    (hn : ids.Nodup) (c' : Client.Client) (ret : Dict Bytes Nat) (h : c.callGet p ids gid g keys = .ok (c', ret)) :
    ∃ m id, c' = c.get m ∧ SameGraph p g keys id m ∧ (∀ k, (ret.get? k).isSome = true ↔ k ∈ keys.take (differentKeys keys).length) ∧
      ∀ k n, ret.get? k = some n → ∃ (i : Nat) (k' : Bytes), n = c.futures.length + i ∧ Stands keys k k' ∧ m.targets[i]? = some (id k') := by
  simp only [Client.Client.callGet, Py.bind_ok] at h
  obtain ⟨m, hm, h⟩ := h
  cases h
  obtain ⟨id, h1, h2, h3⟩ := C43_stands p g keys ids gid hl hn m hm _ _ rfl
  exact ⟨m, id, rfl, h1, h2, h3⟩

/-- Every key is returned with its own future iff the first keys, as many as there are different keys, are
different. -/
theorem C43_exact (p : Pickle) (g : Dict Bytes UserNode) (keys ids : List Bytes) (gid : Bytes) (hl : Enough g ids) (hn : ids.Nodup)
    (m : GraphTask) (hm : buildGraph p ids gid g keys = .ok m) (base : Nat) (ret : Dict Bytes Nat)
    (hret : ret = returnFutures keys (List.range' base m.targets.length)) :
    ∃ id, SameGraph p g keys id m ∧ (∀ k, (ret.get? k).isSome = true → k ∈ keys) ∧
      ((∀ k ∈ keys, RightFuture m id base ret k) ↔ (keys.take m.targets.length).Nodup) := by
  obtain ⟨-, id, -, hs⟩ := C44_same p g keys ids gid hl hn m hm
  refine ⟨id, hs, fun k hk => mem_ofList_zip (hret ▸ hk), ?_⟩
  have hzip : ret = Dict.ofList ((keys.take m.targets.length).zip (List.range' base m.targets.length)) := by
    rw [hret, returnFutures, zip_take]
    simp
  have hid : ∀ t ∈ m.targets, ∃ k ∈ keys, t = id k := fun t ht => (hs.targets t).1 ht
  constructor
  · intro h
    have hmem : ∀ k ∈ keys, k ∈ keys.take m.targets.length := by
      intro k hk
      obtain ⟨i, hi, -⟩ := h k hk
      rw [hzip] at hi
      exact mem_ofList_zip (by rw [hi]; rfl)
    have : ((keys.take m.targets.length).map id).Nodup := by
      refine nodup_of_subset hs.once (fun t ht => ?_) (by simp; omega)
      obtain ⟨k, hk, rfl⟩ := hid t ht
      exact List.mem_map.2 ⟨k, hmem k hk, rfl⟩
    exact nodup_of_map this
  · intro hnd k hk
    have hle : m.targets.length ≤ keys.length := by
      have := length_le_of_subset (L := keys.map id) hs.once (fun t ht => by
        obtain ⟨k, hk, rfl⟩ := hid t ht
        exact List.mem_map.2 ⟨k, hk, rfl⟩)
      simpa using this
    have hT : (keys.take m.targets.length).map id = m.targets :=
      (hs.order _ (List.take_prefix _ _) hnd).eq_of_length (by simp; omega)
    have hkm : id k ∈ m.targets := (hs.targets _).2 ⟨k, hk, rfl⟩
    rw [← hT] at hkm
    obtain ⟨k', hk', e⟩ := List.mem_map.1 hkm
    have hcall := (targets_eq p hl hm).2
    have : k' = k := hs.inj k' k (hcall k' (List.mem_of_mem_take hk')) (hcall k hk) e
    subst this
    obtain ⟨i, hi⟩ := List.getElem?_of_mem hk'
    refine ⟨i, ?_, ?_⟩
    · rw [hzip]
      unfold Dict.get?
      rw [Dict.ofList_items (by rw [map_fst_zip_of_le _ _ (by simp; omega)]; exact hnd)]
      exact lget_zip_range hnd hi base _ (by simp; omega)
    · rw [← hT, List.getElem?_map, hi]
      rfl

theorem differentKeys_foldl : ∀ (keys l : List Bytes), (l ++ keys).Nodup → keys.foldl (fun l k => if k ∈ l then l else l ++ [k]) l = l ++ keys
  | [], l, _ => by simp
  | k :: keys, l, h => by
    have hk : k ∉ l := fun hk => (List.nodup_append.1 h).2.2 k hk k (by simp) rfl
    simp only [List.foldl_cons]
    rw [if_neg hk, differentKeys_foldl keys (l ++ [k]) (by simpa using h)]
    simp

theorem differentKeys_nodup {keys : List Bytes} (h : keys.Nodup) : differentKeys keys = keys := by
  exact differentKeys_foldl keys [] h

/-- Among different keys, each stands for itself. -/
theorem stands_nodup {keys : List Bytes} (h : keys.Nodup) {k k' : Bytes} : Stands keys k k' ↔ k ∈ keys ∧ k' = k := by
  unfold Stands
  rw [differentKeys_nodup h]
  constructor
  · rintro ⟨i, h1, _, h3⟩
    rw [h1] at h3
    cases h3
    exact ⟨List.mem_of_getElem? h1, rfl⟩
  · rintro ⟨hm, rfl⟩
    obtain ⟨i, hi⟩ := List.getElem?_of_mem hm
    refine ⟨i, hi, fun j hj hj' he => ?_, hi⟩
    have h1 := (List.getElem?_eq_some_iff.1 hi)
    have h2 := (List.getElem?_eq_some_iff.1 he)
    exact List.pairwise_iff_getElem.1 h i j h1.1 h2.1 hj (h1.2.trans h2.2.symm)

example : Stands [[3], [3], [2]] [3] [2] ∧ ¬ ∃ k', Stands [[3], [3], [2]] [2] k' := by
  refine ⟨⟨1, rfl, fun j hj hj' => ?_, rfl⟩, ?_⟩
  · have : (differentKeys [[3], [3], [2]]).length = 2 := rfl
    omega
  · rintro ⟨k', i, h1, _, h3⟩
    match i, h1, h3 with
    | 0, h1, _ => cases h1
    | 1, h1, _ => cases h1
    | 2, _, h3 => cases h3

/-- If the keys are different, `get` returns exactly these keys, each with the future of its own task.
Missing: repeated keys (`C43_repeated_key`). -/
theorem C43_partial (p : Pickle) (c : Client.Client) (g : Dict Bytes UserNode) (keys ids : List Bytes) (gid : Bytes) (hl : Enough g ids)
    (hn : ids.Nodup) (hk : keys.Nodup) (c' : Client.Client) (ret : Dict Bytes Nat) (h : c.callGet p ids gid g keys = .ok (c', ret)) :
    ∃ m id, c' = c.get m ∧ SameGraph p g keys id m ∧ ret.keys = keys ∧ ∀ k ∈ keys, RightFuture m id c.futures.length ret k := by
  simp only [Client.Client.callGet, Py.bind_ok] at h
  obtain ⟨m, hm, h⟩ := h
  cases h
  obtain ⟨id, hs, -, h2⟩ := C43_exact p g keys ids gid hl hn m hm c.futures.length _ rfl
  refine ⟨m, id, rfl, hs, ?_, h2.2 (hk.sublist (List.take_sublist _ _))⟩
  have hcall := (targets_eq p hl hm).2
  have hlen : keys.length ≤ m.targets.length := by
    have := length_le_of_subset (T := keys.map id) (L := m.targets)
      (nodup_map_on hk fun x hx y hy e => hs.inj x y (hcall x hx) (hcall y hy) e) (fun t ht => by
        obtain ⟨k, hk, rfl⟩ := List.mem_map.1 ht
        exact (hs.targets _).2 ⟨k, hk, rfl⟩)
    simpa using this
  have h3 := map_fst_zip_of_le keys (List.range' c.futures.length m.targets.length) (by simpa using hlen)
  rw [returnFutures, Dict.keys, Dict.ofList_items (by rw [h3]; exact hk), h3]

example : (Client.Client.init.callGet plainPickle [[20], [21]] [30] sampleUserGraph [[3], [2]]).map (·.2.items) = .ok [([3], 0), ([2], 1)] := by
  decide +kernel

/-- **The claim is false for repeated keys**: `get(graph, ["c", "c", "b"])` returns the future of `"b"` as that of
`"c"`, and nothing for `"b"`. -/
theorem C43_repeated_key :
    (buildGraph plainPickle [[20], [21]] [30] sampleUserGraph [[3], [3], [2]]).map (·.targets) = .ok [[21], [20]] ∧
    (Client.Client.init.callGet plainPickle [[20], [21]] [30] sampleUserGraph [[3], [3], [2]]).map (·.2.items) = .ok [([3], 1)] := by
  decide +kernel

/-! ### C42 -/

theorem all_args {l : List Item} : ((Item.all l).1 = true ↔ ∀ x ∈ l, x ≠ .other) ∧ ((Item.all l).1 = true → (Item.all l).2 = []) := by
  induction l with
  | nil => simp [Item.all]
  | cons x l ih => cases x <;> simp_all [Item.all]

theorem calls_eq {l : List Item} (h : ∀ x ∈ l, x ≠ .other) : ∃ cs, Item.calls l = .ok cs ∧ l = cs.map .args := by
  induction l with
  | nil => exact ⟨[], rfl, rfl⟩
  | cons x l ih =>
    obtain ⟨cs, h1, h2⟩ := ih fun x hx => h x (by simp [hx])
    cases x with
    | other => exact absurd rfl (h _ (by simp))
    | args a => exact ⟨a :: cs, by simp [Item.calls, h1], by simp [h2]⟩

/-- For a list of argument tuples, `map` calls `submit` once for each, in order; for an iterable with another element
it raises `TypeError` and submits nothing.  Missing: iterators (`C42_iterator`). -/
theorem C42_calls_partial (it : Iter) (h : it.oneShot = false) :
    (∀ e, mapCalls it = .error e ↔ e = .typeError ∧ .other ∈ it.items) ∧
    (∀ cs, mapCalls it = .ok cs ↔ it.items = cs.map .args) := by
  have hall := all_args (l := it.items)
  by_cases hb : (Item.all it.items).1 = true
  · have hno := hall.1.1 hb
    obtain ⟨cs, h1, h2⟩ := calls_eq hno
    have hm : mapCalls it = .ok cs := by
      unfold mapCalls
      simp only [hb, Bool.not_true, raiseIf, Bool.false_eq_true, if_false, Py.ok_bind, h]
      exact h1
    refine ⟨fun e => ⟨(fun h => by rw [hm] at h; cases h), fun ⟨_, h⟩ => absurd rfl (hno _ h)⟩, fun cs' => ?_⟩
    rw [hm]
    constructor
    · intro h; cases h; exact h2
    · intro h
      rw [h2] at h
      have : cs = cs' := by
        clear h2 h1 hm
        induction cs generalizing cs' with
        | nil => cases cs' <;> simp_all
        | cons a cs ih =>
          cases cs' with
          | nil => simp at h
          | cons b cs' => simp at h; rw [h.1, ih cs' h.2]
      rw [this]
  · have hm : mapCalls it = .error .typeError := by
      unfold mapCalls
      simp only [Bool.not_eq_true] at hb
      simp only [hb, Bool.not_false, raiseIf, if_true, Py.error_bind]
    have hother : .other ∈ it.items := Classical.byContradiction fun hno => hb (hall.1.2 fun x hx e => hno (e ▸ hx))
    refine ⟨fun e => ⟨(fun h => by rw [hm] at h; cases h; exact ⟨rfl, hother⟩), fun ⟨h, _⟩ => by rw [hm, h]⟩, fun cs => ?_⟩
    rw [hm]
    constructor
    · intro h; cases h
    · intro h; rw [h] at hother; simp at hother

/-- `fut.result() for fut in futures`: all results in order, or what the first future without a result raises. -/
theorem C42_results {α : Type} (final : Nat → FState) (l : List (α × Nat)) :
    (∀ rs, collect final l = .ok rs ↔ rs.map (·.1) = l.map (·.1) ∧ rs.map (fun r => FState.result r.2) = l.map fun x => final x.2) ∧
    (∀ s, collect final l = .error s ↔ ∃ l1 x l2, l = l1 ++ x :: l2 ∧ final x.2 = s ∧ (∀ r, s ≠ .result r) ∧
      ∀ y ∈ l1, ∃ r, final y.2 = .result r) := by
  induction l with
  | nil =>
    refine ⟨fun rs => ?_, fun s => ?_⟩
    · cases rs <;> simp [collect]
    · simp [collect]
  | cons x l ih =>
    obtain ⟨k, n⟩ := x
    cases hf : final n with
    | result r =>
      have hc : collect final ((k, n) :: l) = (collect final l >>= fun rs => .ok ((k, r) :: rs)) := by simp only [collect, hf]; rfl
      refine ⟨fun rs => ?_, fun s => ?_⟩
      · rw [hc]
        cases rs with
        | nil =>
          simp only [List.map_nil, List.map_cons]
          constructor
          · intro h; cases e : collect final l with
            | ok a => rw [e] at h; cases h
            | error a => rw [e] at h; cases h
          · rintro ⟨h, _⟩; cases h
        | cons y rs =>
          obtain ⟨k', r'⟩ := y
          simp only [List.map_cons, hf, List.cons.injEq, FState.result.injEq]
          cases e : collect final l with
          | ok a =>
            have := (ih.1 rs)
            rw [e] at this
            constructor
            · intro h
              cases h
              obtain ⟨h1, h2⟩ := this.1 rfl
              exact ⟨⟨rfl, h1⟩, rfl, h2⟩
            · rintro ⟨⟨rfl, h1⟩, rfl, h2⟩
              have := this.2 ⟨h1, h2⟩
              cases this
              rfl
          | error a =>
            have := (ih.1 rs)
            rw [e] at this
            constructor
            · intro h; cases h
            · rintro ⟨⟨_, h1⟩, _, h2⟩; have := this.2 ⟨h1, h2⟩; cases this
      · rw [hc]
        have : (collect final l >>= fun rs => .ok ((k, r) :: rs)) = .error s ↔ collect final l = .error s := by
          cases e : collect final l with
          | ok a => constructor <;> intro h <;> cases h
          | error a => constructor <;> intro h <;> cases h <;> rfl
        rw [this, ih.2 s]
        constructor
        · rintro ⟨l1, y, l2, rfl, h1, h2, h3⟩
          refine ⟨(k, n) :: l1, y, l2, rfl, h1, h2, ?_⟩
          intro z hz
          rcases List.mem_cons.1 hz with rfl | hz
          · exact ⟨r, hf⟩
          · exact h3 z hz
        · rintro ⟨l1, y, l2, h0, h1, h2, h3⟩
          cases l1 with
          | nil =>
            simp only [List.nil_append, List.cons.injEq] at h0
            rw [← h0.1, hf] at h1
            exact absurd h1.symm (h2 r)
          | cons z l1 =>
            simp only [List.cons_append, List.cons.injEq] at h0
            exact ⟨l1, y, l2, h0.2, h1, h2, fun w hw => h3 w (by simp [hw])⟩
    | _ =>
      have hc : collect final ((k, n) :: l) = .error (final n) := by simp only [collect, hf]
      refine ⟨fun rs => ?_, fun s => ?_⟩
      · rw [hc]
        constructor
        · intro h; cases h
        · rintro ⟨_, h⟩
          cases rs <;> simp [hf] at h
      · rw [hc]
        constructor
        · intro h
          cases h
          exact ⟨[], (k, n), l, rfl, rfl, by simp [hf], by simp⟩
        · rintro ⟨l1, y, l2, h0, h1, h2, h3⟩
          cases l1 with
          | nil =>
            simp only [List.nil_append, List.cons.injEq] at h0
            rw [← h0.1] at h1
            rw [h1]
          | cons z l1 =>
            simp only [List.cons_append, List.cons.injEq] at h0
            obtain ⟨r, hr⟩ := h3 z (by simp)
            rw [← h0.1, hf] at hr
            cases hr

/-- What `map` returns: the `i`-th value is a received result of the task that the `i`-th call of `submit` created. -/
theorem C42_own {p : Pickle} {c : Client.Client} (hr : Client.Reach p c) (calls : List (Task × Nat))
    (hc : ∀ x ∈ calls, Act.returned x.1.taskId x.2 ∈ c.log) (final : Nat → FState) (hf : ∀ n s, c.futures[n]? = some s → final n = s)
    (hb : ∀ x ∈ calls, x.2 < c.futures.length) (rs : List (Task × Bytes)) (h : collect final calls = .ok rs) :
    rs.map (·.1) = calls.map (·.1) ∧ ∀ x ∈ rs, ∃ d, Act.recv (.taskResult x.1.taskId .success d x.2) ∈ c.log := by
  obtain ⟨h1, h2⟩ := ((C42_results final calls).1 rs).1 h
  refine ⟨h1, fun x hx => ?_⟩
  obtain ⟨i, hi⟩ := List.getElem?_of_mem hx
  have e1 := congrArg (·[i]?) h1
  have e2 := congrArg (·[i]?) h2
  simp only [List.getElem?_map, hi, Option.map_some] at e1 e2
  cases e : calls[i]? with
  | none => rw [e] at e1; cases e1
  | some y =>
    rw [e] at e1 e2
    simp only [Option.map_some, Option.some.injEq] at e1 e2
    have hy := List.mem_of_getElem? e
    have hlt := hb y hy
    have hfs : c.futures[y.2]? = some (.result x.2) := by
      rw [List.getElem?_eq_getElem hlt, ← hf y.2 _ (List.getElem?_eq_getElem hlt), e2]
    rw [e1]
    exact (C45_own hr (hc y hy)).1 _ hfs

example : mapCalls ⟨false, [.args [[1]], .args [[2], [3]]]⟩ = .ok [[[1]], [[2], [3]]] ∧ mapCalls ⟨false, [.args [[1]], .other]⟩ = .error .typeError := by
  decide

/-- **The claim is false for iterators**: `map(fn, iter([(1,), (2,)]))` submits nothing and returns `[]`. -/
theorem C42_iterator : mapCalls ⟨true, [.args [[1]], .args [[2]]]⟩ = .ok [] := by decide

end Verif.Props
