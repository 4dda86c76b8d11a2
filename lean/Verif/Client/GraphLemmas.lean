import Verif.Spec.UserGraph
import Verif.Sched.SorterCycle

/-!
# What `get` builds
-/

namespace Verif.Client

open Verif.Wire Verif.Sched Verif.Spec

/-! ### Splitting -/

/-- data of a node, as an argument -/
def argOf : Option UserNode → Option Argument
  | some (.data b) => some ⟨.data, b⟩
  | _ => none

theorem dataArguments_get (l : List (Bytes × UserNode)) (hn : (l.map (·.1)).Nodup) (d : Dict Bytes Argument)
    (hd : ∀ x ∈ l.map (·.1), d.get? x = none) (x : Bytes) :
    (dataArguments l d).get? x = (argOf (Dict.lget l x)).or (d.get? x) := by
  induction l generalizing d with
  | nil => simp [dataArguments, Dict.lget, argOf]
  | cons y l ih =>
    obtain ⟨n, u⟩ := y
    simp only [List.map_cons, List.nodup_cons] at hn
    have hln : ∀ x, n = x → Dict.lget l x = none := by
      rintro x rfl
      cases e : Dict.lget l n with
      | none => rfl
      | some v => exact absurd (List.mem_map.2 ⟨_, Dict.lget_mem e, rfl⟩) hn.1
    cases u with
    | call nm c as =>
      simp only [dataArguments]
      rw [ih hn.2 _ (fun x hx => hd x (by simp [hx]))]
      simp only [Dict.lget]
      by_cases h : n = x
      · simp [h, hln x h, argOf]
      · simp [h]
    | data b =>
      simp only [dataArguments]
      rw [ih hn.2]
      · simp only [Dict.lget, Dict.get?_set]
        by_cases h : n = x
        · subst h
          simp [hln n rfl, argOf]
        · simp [h]
      · intro x hx
        rw [Dict.get?_set, if_neg]
        · exact hd x (by simp [hx])
        · rintro rfl; exact hn.1 hx

theorem popAll_ok (ns : List Bytes) (hn : ns.Nodup) (g : Dict Bytes UserNode) (h : ∀ n ∈ ns, (g.get? n).isSome) :
    ∃ g', popAll ns g = .ok g' ∧ g'.items = g.items.filter (fun p => !decide (p.1 ∈ ns)) := by
  induction ns generalizing g with
  | nil =>
    refine ⟨g, rfl, ?_⟩
    rw [List.filter_eq_self.2 (by simp)]
  | cons n ns ih =>
    rw [List.nodup_cons] at hn
    obtain ⟨v, hv⟩ := Option.isSome_iff_exists.1 (h n (by simp))
    obtain ⟨g', h1, h2⟩ := ih hn.2 (g.erase n) (fun m hm => by
      rw [Dict.get?_erase, if_neg (by rintro rfl; exact hn.1 hm)]
      exact h m (by simp [hm]))
    refine ⟨g', ?_, ?_⟩
    · simp only [popAll, Py.bind_ok]
      exact ⟨(v, g.erase n), Dict.pop_ok.2 ⟨hv, rfl⟩, h1⟩
    · rw [h2]
      simp only [Dict.erase, Dict.lerase, List.filter_filter]
      refine List.filter_congr fun p _ => ?_
      by_cases e : p.1 = n <;> simp [e]

/-- The split of the user's graph. -/
structure Split (g : Dict Bytes UserNode) (d : Dict Bytes Argument) (g' : Dict Bytes UserNode) : Prop where
  data : ∀ x, d.get? x = argOf (g.get? x)
  items : g'.items = g.items.filter (·.2.isCall)

theorem splitGraph_ok (g : Dict Bytes UserNode) : ∃ d g', splitGraph g = .ok (d, g') ∧ Split g d g' := by
  have hd : ∀ x, (dataArguments g.items .empty).get? x = argOf (g.get? x) := by
    intro x
    rw [dataArguments_get _ g.nodup _ (fun _ _ => rfl)]
    simp [Dict.get?, Dict.empty, Dict.lget]
  obtain ⟨g', h1, h2⟩ := popAll_ok (dataArguments g.items .empty).keys (Dict.nodup_keys _) g (fun n hn => by
    rw [Dict.mem_keys_isSome, hd] at hn
    cases e : g.get? n with
    | none => simp [e, argOf] at hn
    | some v => rfl)
  refine ⟨_, g', ?_, hd, ?_⟩
  · simp only [splitGraph, h1, Py.ok_bind, Py.pure_eq]
  · rw [h2]
    refine List.filter_congr fun p hp => ?_
    have hg : g.get? p.1 = some p.2 := Dict.mem_items.1 hp
    have : p.1 ∈ (dataArguments g.items .empty).keys ↔ p.2.isCall = false := by
      rw [Dict.mem_keys_isSome, hd, hg]
      cases p.2 <;> simp [argOf, UserNode.isCall]
    cases hc : p.2.isCall <;> simp [this, hc]

section
variable {g : Dict Bytes UserNode} {d : Dict Bytes Argument} {g' : Dict Bytes UserNode}

theorem Split.get (h : Split g d g') (x : Bytes) (u : UserNode) : g'.get? x = some u ↔ g.get? x = some u ∧ u.isCall = true := by
  rw [← Dict.mem_items, h.items, List.mem_filter, Dict.mem_items]

theorem Split.has (h : Split g d g') (x : Bytes) : x ∈ g'.keys ↔ IsCall g x := by
  rw [Dict.mem_keys]
  constructor
  · rintro ⟨u, hu⟩
    obtain ⟨h1, h2⟩ := (h.get x u).1 hu
    cases u with
    | data => cases h2
    | call nm c as => exact ⟨nm, c, as, h1⟩
  · rintro ⟨nm, c, as, h1⟩
    exact ⟨_, (h.get x _).2 ⟨h1, rfl⟩⟩

theorem Split.hasData (h : Split g d g') (x : Bytes) : x ∈ d.keys ↔ ∃ b, g.get? x = some (.data b) := by
  rw [Dict.mem_keys_isSome, h.data]
  cases e : g.get? x with
  | none => simp [argOf]
  | some u => cases u <;> simp [argOf]

theorem Split.defined (h : Split g d g') (x : Bytes) : (x ∈ d.keys ∨ x ∈ g'.keys) ↔ (g.get? x).isSome = true := by
  rw [h.hasData, h.has]
  cases e : g.get? x with
  | none => simp [IsCall, e]
  | some u => cases u <;> simp [IsCall, e]

theorem Split.call (h : Split g d g') {p : Bytes × UserNode} (hp : p ∈ g'.items) : ∃ nm c as, p.2 = .call nm c as ∧ g.get? p.1 = some p.2 := by
  rw [h.items, List.mem_filter] at hp
  obtain ⟨h1, h2⟩ := hp
  have h3 : g.get? p.1 = some p.2 := Dict.mem_items.1 h1
  cases e : p.2 with
  | data => rw [e] at h2; cases h2
  | call nm c as => exact ⟨nm, c, as, rfl, by rw [h3, e]⟩

end

/-! ### Checks -/

theorem checkKeys_eq (g : Dict Bytes UserNode) (ks : List Bytes) :
    ((∀ k ∈ ks, k ∈ g.keys) → checkKeys g ks = .ok ()) ∧ ((∃ k ∈ ks, k ∉ g.keys) → checkKeys g ks = .error .keyError) := by
  induction ks with
  | nil => exact ⟨fun _ => rfl, fun ⟨_, h, _⟩ => by simp at h⟩
  | cons k ks ih =>
    by_cases hk : k ∈ g.keys
    · have : g.has k = true := Dict.has_iff.2 hk
      simp only [checkKeys, this, raiseIf, Bool.not_true, Bool.false_eq_true, if_false, Py.ok_bind]
      refine ⟨fun h => ih.1 fun x hx => h x (by simp [hx]), ?_⟩
      rintro ⟨x, hx, hn⟩
      rcases List.mem_cons.1 hx with rfl | hx
      · exact absurd hk hn
      · exact ih.2 ⟨x, hx, hn⟩
    · have : g.has k = false := by
        cases e : g.has k with
        | false => rfl
        | true => exact absurd (Dict.has_iff.1 e) hk
      simp only [checkKeys, this, raiseIf, Bool.not_false, if_true, Py.error_bind]
      exact ⟨fun h => absurd (h k (by simp)) hk, fun _ => trivial⟩

theorem checkArgs_eq (d : Dict Bytes Argument) (g : Dict Bytes UserNode) (as : List Bytes) :
    ((∀ a ∈ as, a ∈ d.keys ∨ a ∈ g.keys) → checkArgs d g as = .ok ()) ∧
    ((∃ a ∈ as, ¬ (a ∈ d.keys ∨ a ∈ g.keys)) → checkArgs d g as = .error .keyError) := by
  induction as with
  | nil => exact ⟨fun _ => rfl, fun ⟨_, h, _⟩ => by simp at h⟩
  | cons a as ih =>
    have hb : (!d.has a && !g.has a) = false ↔ (a ∈ d.keys ∨ a ∈ g.keys) := by
      rw [← Dict.has_iff, ← Dict.has_iff]
      cases d.has a <;> cases g.has a <;> simp
    by_cases hk : a ∈ d.keys ∨ a ∈ g.keys
    · simp only [checkArgs, hb.2 hk, raiseIf, Bool.false_eq_true, if_false, Py.ok_bind]
      refine ⟨fun h => ih.1 fun x hx => h x (by simp [hx]), ?_⟩
      rintro ⟨x, hx, hn⟩
      rcases List.mem_cons.1 hx with rfl | hx
      · exact absurd hk hn
      · exact ih.2 ⟨x, hx, hn⟩
    · have : (!d.has a && !g.has a) = true := by
        cases e : (!d.has a && !g.has a) with
        | true => rfl
        | false => exact absurd (hb.1 e) hk
      simp only [checkArgs, this, raiseIf, if_true, Py.error_bind]
      exact ⟨fun h => absurd (h a (by simp)) hk, fun _ => trivial⟩

/-- a node with what it needs -/
def link : Bytes × UserNode → Bytes × List Bytes
  | (n, .data _) => (n, [])
  | (n, .call _ _ as) => (n, as)

theorem checkNodes_eq (d : Dict Bytes Argument) (g : Dict Bytes UserNode) (l : List (Bytes × UserNode)) (hl : ∀ p ∈ l, p.2.isCall = true)
    (l0 : List (Bytes × List Bytes)) (s : Sorter) (hs : Sorter.Links l0 s) :
    ((∀ p ∈ l, ∀ a ∈ (link p).2, a ∈ d.keys ∨ a ∈ g.keys) → ∃ s', checkNodes d g l s = .ok s' ∧ Sorter.Links (l0 ++ l.map link) s') ∧
    ((∃ p ∈ l, ∃ a ∈ (link p).2, ¬ (a ∈ d.keys ∨ a ∈ g.keys)) → checkNodes d g l s = .error .keyError) := by
  induction l generalizing l0 s with
  | nil => exact ⟨fun _ => ⟨s, rfl, by simpa using hs⟩, fun ⟨_, h, _⟩ => by simp at h⟩
  | cons p l ih =>
    obtain ⟨n, u⟩ := p
    cases u with
    | data => have := hl _ (List.mem_cons_self ..); cases this
    | call nm c as =>
      have ih := ih (fun p hp => hl p (by simp [hp])) _ _ (Sorter.links_add hs n as)
      by_cases hk : ∀ a ∈ as, a ∈ d.keys ∨ a ∈ g.keys
      · simp only [checkNodes, (checkArgs_eq d g as).1 hk, Py.ok_bind]
        refine ⟨fun h => ?_, ?_⟩
        · obtain ⟨s', h1, h2⟩ := ih.1 fun p hp => h p (by simp [hp])
          exact ⟨s', h1, by simpa [link] using h2⟩
        · rintro ⟨p, hp, a, ha, hn⟩
          rcases List.mem_cons.1 hp with rfl | hp
          · exact absurd (hk a ha) hn
          · exact ih.2 ⟨p, hp, a, ha, hn⟩
      · have hk' : ∃ a ∈ as, ¬ (a ∈ d.keys ∨ a ∈ g.keys) := by
          refine Classical.byContradiction fun hno => hk fun a ha => Classical.byContradiction fun hn => hno ⟨a, ha, hn⟩
        simp only [checkNodes, (checkArgs_eq d g as).2 hk', Py.error_bind]
        exact ⟨fun h => absurd (fun a ha => h _ (List.mem_cons_self ..) a ha) hk, fun _ => trivial⟩

theorem chain_trail {g : Dict Bytes UserNode} {l : List (Bytes × List Bytes)} {s : Sorter} (hs : Sorter.Links l s)
    (hl : ∀ x a, (∃ p ∈ l, p.1 = x ∧ a ∈ p.2) ↔ Needs g x a) (x y : Bytes) : Sorter.Chain s.info x y ↔ Trail g y x := by
  constructor
  · intro h
    induction h with
    | one h => exact .one ((hl _ _).1 ((hs.succ _ _).1 h))
    | more _ h ih => exact .more ((hl _ _).1 ((hs.succ _ _).1 h)) ih
  · intro h
    induction h with
    | one h => exact .one ((hs.succ _ _).2 ((hl _ _).2 h))
    | more h _ ih => exact .more ih ((hs.succ _ _).2 ((hl _ _).2 h))

/-- The outcome of the checks. -/
theorem checkGraph_eq {g : Dict Bytes UserNode} {d : Dict Bytes Argument} {g' : Dict Bytes UserNode} (h : Split g d g') (keys : List Bytes) :
    ((∃ k ∈ keys, ¬ IsCall g k) → checkGraph d g' keys = .error .keyError) ∧
    ((∃ x a, Needs g x a ∧ g.get? a = none) → checkGraph d g' keys = .error .keyError) ∧
    ((∀ k ∈ keys, IsCall g k) → (∀ x a, Needs g x a → (g.get? a).isSome = true) →
      (Cyclic g → checkGraph d g' keys = .error .cycleError) ∧ (¬ Cyclic g → checkGraph d g' keys = .ok ())) := by
  have hk := checkKeys_eq g' keys
  simp only [h.has] at hk
  have hcall : ∀ p ∈ g'.items, p.2.isCall = true := by
    intro p hp
    rw [h.items, List.mem_filter] at hp
    exact hp.2
  have hn := checkNodes_eq d g' g'.items hcall [] .empty ⟨by simp [Sorter.empty, Sorter.succs], by simp⟩
  simp only [h.defined, List.nil_append] at hn
  have hneeds : ∀ x a, (∃ p ∈ g'.items.map link, p.1 = x ∧ a ∈ p.2) ↔ Needs g x a := by
    intro x a
    constructor
    · rintro ⟨_, hp0, rfl, ha⟩
      obtain ⟨p, hp, rfl⟩ := List.mem_map.1 hp0
      obtain ⟨nm, c, as, h1, h2⟩ := h.call hp
      obtain ⟨n, u⟩ := p
      simp only at h1 h2
      subst h1
      exact ⟨nm, c, as, h2, ha⟩
    · rintro ⟨nm, c, as, h1, ha⟩
      have : (x, UserNode.call nm c as) ∈ g'.items := Dict.mem_items.2 ((h.get x _).2 ⟨h1, rfl⟩)
      exact ⟨_, List.mem_map.2 ⟨_, this, rfl⟩, rfl, ha⟩
  have harg : (∀ p ∈ g'.items, ∀ a ∈ (link p).2, (g.get? a).isSome = true) ↔ ∀ x a, Needs g x a → (g.get? a).isSome = true := by
    constructor
    · intro hh x a hx
      obtain ⟨_, hp0, rfl, ha⟩ := (hneeds x a).2 hx
      obtain ⟨p, hp, rfl⟩ := List.mem_map.1 hp0
      exact hh p hp a ha
    · intro hh p hp a ha
      exact hh _ a ((hneeds _ a).1 ⟨link p, List.mem_map.2 ⟨p, hp, rfl⟩, rfl, ha⟩)
  refine ⟨fun hbad => ?_, fun hbad => ?_, fun h1 h2 => ?_⟩
  · simp only [checkGraph, hk.2 hbad, Py.error_bind]
  · by_cases h1 : ∀ k ∈ keys, IsCall g k
    · simp only [checkGraph, hk.1 h1, Py.ok_bind]
      obtain ⟨x, a, hx, ha⟩ := hbad
      obtain ⟨_, hp0, rfl, ha'⟩ := (hneeds x a).2 hx
      obtain ⟨p, hp, rfl⟩ := List.mem_map.1 hp0
      rw [hn.2 ⟨p, hp, a, ha', by simp [ha]⟩]
      rfl
    · have h1' : ∃ k ∈ keys, ¬ IsCall g k :=
        Classical.byContradiction fun hno => h1 fun k hk => Classical.byContradiction fun hn => hno ⟨k, hk, hn⟩
      simp only [checkGraph, hk.2 h1', Py.error_bind]
  · obtain ⟨s, hs1, hs2⟩ := hn.1 (harg.2 h2)
    have hp := Sorter.prepare_links hs2
    have hcyc : (∃ x, Sorter.Chain s.info x x) ↔ Cyclic g := by
      constructor
      · rintro ⟨x, hx⟩; exact ⟨x, (chain_trail hs2 hneeds x x).1 hx⟩
      · rintro ⟨x, hx⟩; exact ⟨x, (chain_trail hs2 hneeds x x).2 hx⟩
    rw [hcyc] at hp
    simp only [checkGraph, hk.1 h1, hs1, Py.ok_bind]
    refine ⟨fun hc => by rw [hp.1 hc]; rfl, fun hc => ?_⟩
    obtain ⟨s', hs'⟩ := hp.2 hc
    rw [hs']; rfl

/-! ### Construction -/

/-- The `i`-th call is task `ids[i]`. -/
def idOf (g : Dict Bytes UserNode) (ids : List Bytes) (x : Bytes) : Option Bytes :=
  Dict.lget (((g.items.filter (·.2.isCall)).map (·.1)).zip ids) x

theorem map_fst_zip_of_le {α β : Type} (xs : List α) (ys : List β) (h : xs.length ≤ ys.length) : (xs.zip ys).map (·.1) = xs := by
  induction xs generalizing ys with
  | nil => simp
  | cons x xs ih =>
    cases ys with
    | nil => simp at h
    | cons y ys => simp at h ⊢; exact ih ys h

section
variable {g : Dict Bytes UserNode} {d : Dict Bytes Argument} {g' : Dict Bytes UserNode} {ids : List Bytes}

theorem Split.keys (h : Split g d g') : g'.keys = (g.items.filter (·.2.isCall)).map (·.1) := by
  rw [Dict.keys, h.items]

theorem Split.toId (h : Split g d g') (hl : g'.keys.length ≤ ids.length) (x : Bytes) :
    (Dict.ofList (g'.keys.zip ids)).get? x = idOf g ids x := by
  unfold Dict.get? idOf
  rw [Dict.ofList_items (by rw [map_fst_zip_of_le _ _ hl]; exact g'.nodup), h.keys]

theorem lget_zip_isSome {xs ys : List Bytes} (hl : xs.length ≤ ys.length) (x : Bytes) :
    (Dict.lget (xs.zip ys) x).isSome = true ↔ x ∈ xs := by
  induction xs generalizing ys with
  | nil => simp [Dict.lget]
  | cons a xs ih =>
    cases ys with
    | nil => simp at hl
    | cons b ys =>
      simp only [List.zip_cons_cons, Dict.lget, List.mem_cons]
      split
      · rename_i e; simp [e]
      · rename_i e
        rw [ih (by simpa using hl)]
        have : ¬ x = a := fun h => e h.symm
        simp [this]

/-- enough ids -/
def Enough (g : Dict Bytes UserNode) (ids : List Bytes) : Prop := (g.items.filter (·.2.isCall)).length ≤ ids.length

theorem idOf_isSome (hl : Enough g ids) (x : Bytes) : (idOf g ids x).isSome = true ↔ IsCall g x := by
  unfold idOf
  rw [lget_zip_isSome (by simpa [Enough] using hl)]
  constructor
  · intro h
    obtain ⟨p, hp, rfl⟩ := List.mem_map.1 h
    obtain ⟨h1, h2⟩ := List.mem_filter.1 hp
    obtain ⟨n, u⟩ := p
    cases u with
    | data => cases h2
    | call nm c as => exact ⟨nm, c, as, Dict.mem_items.1 h1⟩
  · rintro ⟨nm, c, as, h⟩
    exact List.mem_map.2 ⟨(x, .call nm c as), List.mem_filter.2 ⟨Dict.mem_items.2 h, rfl⟩, rfl⟩

/-- The argument of a task for a node of the graph. -/
def argFor (g : Dict Bytes UserNode) (ids : List Bytes) (a : Bytes) : Argument :=
  match g.get? a with
  | some (.data b) => ⟨.data, b⟩
  | _ => ⟨.task, (idOf g ids a).getD []⟩

theorem buildArg_ok (h : Split g d g') (hl : Enough g ids) {a : Bytes} (ha : (g.get? a).isSome = true) :
    buildArg d g' (Dict.ofList (g'.keys.zip ids)) a = .ok (argFor g ids a) := by
  have hl' : g'.keys.length ≤ ids.length := by rw [h.keys]; simpa [Enough] using hl
  unfold buildArg
  by_cases hc : a ∈ g'.keys
  · have h1 : g'.has a = true := Dict.has_iff.2 hc
    obtain ⟨nm, c, as, hg⟩ := (h.has a).1 hc
    obtain ⟨t, ht⟩ := Option.isSome_iff_exists.1 ((idOf_isSome hl a).2 ⟨nm, c, as, hg⟩)
    have h2 : (Dict.ofList (g'.keys.zip ids)).getPy a = .ok t := Dict.getPy_ok.2 (by rw [h.toId hl', ht])
    simp [h1, pyAssert, h2, argFor, hg, ht]
  · have h1 : g'.has a = false := by
      cases e : g'.has a with
      | false => rfl
      | true => exact absurd (Dict.has_iff.1 e) hc
    have hd : a ∈ d.keys := by
      rcases (h.defined a).2 ha with h2 | h2
      · exact h2
      · exact absurd h2 hc
    obtain ⟨b, hb⟩ := (h.hasData a).1 hd
    have h2 : d.has a = true := Dict.has_iff.2 hd
    have h3 : d.getPy a = .ok ⟨.data, b⟩ := Dict.getPy_ok.2 (by rw [h.data, hb]; rfl)
    simp [h1, h2, pyAssert, h3, argFor, hb]

theorem buildArgs_ok (h : Split g d g') (hl : Enough g ids) {as : List Bytes} (ha : ∀ a ∈ as, (g.get? a).isSome = true) :
    buildArgs d g' (Dict.ofList (g'.keys.zip ids)) as = .ok (as.map (argFor g ids)) := by
  induction as with
  | nil => rfl
  | cons a as ih =>
    simp only [buildArgs, buildArg_ok h hl (ha a (by simp)), ih fun x hx => ha x (by simp [hx]), Py.ok_bind, Py.pure_eq, List.map_cons]

/-- The task for a call. -/
def taskFor (p : Pickle) (g : Dict Bytes UserNode) (ids : List Bytes) : Bytes × UserNode → Task
  | (n, .data _) => ⟨n, [], []⟩
  | (n, .call _ c as) => ⟨(idOf g ids n).getD [], p.hash c, as.map (argFor g ids)⟩

/-- The entry in the function table for a call. -/
def addFunction (p : Pickle) (fs : Dict Bytes (Bytes × Bytes)) : Bytes × UserNode → Dict Bytes (Bytes × Bytes)
  | (_, .data _) => fs
  | (_, .call nm c _) => fs.set (p.hash c) (nm, c)

theorem buildTasks_ok (p : Pickle) (h : Split g d g') (hl : Enough g ids) (l : List (Bytes × UserNode)) (hs : ∀ x ∈ l, x ∈ g'.items)
    (ha : ∀ x a, Needs g x a → (g.get? a).isSome = true) (fs : Dict Bytes (Bytes × Bytes)) (ks : List Task) :
    buildTasks p d g' (Dict.ofList (g'.keys.zip ids)) l fs ks =
      .ok (l.foldl (addFunction p) fs, ks ++ l.map (taskFor p g ids)) := by
  have hl' : g'.keys.length ≤ ids.length := by rw [h.keys]; simpa [Enough] using hl
  induction l generalizing fs ks with
  | nil => simp [buildTasks]
  | cons x l ih =>
    obtain ⟨n, u⟩ := x
    obtain ⟨nm, c, as, h1, h2⟩ := h.call (hs _ (List.mem_cons_self ..))
    simp only at h1 h2
    subst h1
    obtain ⟨t, ht⟩ := Option.isSome_iff_exists.1 ((idOf_isSome hl n).2 ⟨nm, c, as, h2⟩)
    have h3 : (Dict.ofList (g'.keys.zip ids)).getPy n = .ok t := Dict.getPy_ok.2 (by rw [h.toId hl', ht])
    simp only [buildTasks, h3, buildArgs_ok h hl fun a haa => ha n a ⟨nm, c, as, h2, haa⟩, Py.ok_bind]
    rw [ih fun x hx => hs x (by simp [hx])]
    simp [taskFor, addFunction, ht]

theorem targetIds_ok (toId : Dict Bytes Bytes) (ks : List Bytes) (h : ∀ k ∈ ks, (toId.get? k).isSome = true) (s : PySet Bytes) :
    targetIds toId ks s = .ok ((ks.map fun k => (toId.get? k).getD []).foldl PySet.add s) := by
  induction ks generalizing s with
  | nil => rfl
  | cons k ks ih =>
    obtain ⟨t, ht⟩ := Option.isSome_iff_exists.1 (h k (by simp))
    simp only [targetIds, Dict.getPy_ok.2 ht, Py.ok_bind, ih fun x hx => h x (by simp [hx]), List.map_cons, List.foldl_cons, ht, Option.getD_some]

/-- The message for a graph that passes the checks. -/
def messageFor (p : Pickle) (g : Dict Bytes UserNode) (ids : List Bytes) (gid : Bytes) (keys : List Bytes) : GraphTask :=
  ⟨gid, (g.items.filter (·.2.isCall)).foldl (addFunction p) .empty, (PySet.ofList (keys.map fun k => (idOf g ids k).getD [])).items,
    (g.items.filter (·.2.isCall)).map (taskFor p g ids)⟩

theorem constructGraph_ok (p : Pickle) (h : Split g d g') (hl : Enough g ids) (gid : Bytes) {keys : List Bytes}
    (hk : ∀ k ∈ keys, IsCall g k) (ha : ∀ x a, Needs g x a → (g.get? a).isSome = true) :
    constructGraph p ids gid d g' keys = .ok (messageFor p g ids gid keys) := by
  have hl' : g'.keys.length ≤ ids.length := by rw [h.keys]; simpa [Enough] using hl
  unfold constructGraph
  dsimp only
  rw [targetIds_ok _ _ (fun k hk' => by rw [h.toId hl', idOf_isSome hl]; exact hk k hk')]
  simp only [Py.ok_bind]
  rw [buildTasks_ok p h hl g'.items (fun _ hx => hx) ha]
  simp only [Py.ok_bind, Py.pure_eq, messageFor, h.items, List.nil_append, PySet.ofList]
  congr 3
  congr 1
  exact List.map_congr_left fun k _ => by rw [h.toId hl']

end

/-- The outcome of `get`. -/
theorem buildGraph_eq (p : Pickle) {g : Dict Bytes UserNode} {ids : List Bytes} (hl : Enough g ids) (gid : Bytes) (keys : List Bytes) :
    ((∃ k ∈ keys, ¬ IsCall g k) ∨ (∃ x a, Needs g x a ∧ g.get? a = none) → buildGraph p ids gid g keys = .error .keyError) ∧
    ((∀ k ∈ keys, IsCall g k) → (∀ x a, Needs g x a → (g.get? a).isSome = true) →
      (Cyclic g → buildGraph p ids gid g keys = .error .cycleError) ∧
      (¬ Cyclic g → buildGraph p ids gid g keys = .ok (messageFor p g ids gid keys))) := by
  obtain ⟨d, g', h1, h⟩ := splitGraph_ok g
  obtain ⟨c1, c2, c3⟩ := checkGraph_eq h keys
  unfold buildGraph
  rw [h1]
  simp only [Py.ok_bind]
  refine ⟨?_, fun hk ha => ⟨fun hc => ?_, fun hc => ?_⟩⟩
  · rintro (hb | hb)
    · rw [c1 hb]; rfl
    · rw [c2 hb]; rfl
  · rw [(c3 hk ha).1 hc]; rfl
  · rw [(c3 hk ha).2 hc, Py.ok_bind]
    exact constructGraph_ok p h hl gid hk ha

end Verif.Client
