import Verif.Spec.Orderly
import Verif.Spec.Wire
import Verif.System.SystemInv
import Verif.Props.UserGraph

/-!
# The messages of graphs as they should be

Lemmas.
-/

namespace Verif.System

open Verif.Wire Verif.Spec Verif.Props
open Verif.Client (Pickle)

variable {F V X : Type} {p : Pickle} {rt : Proc.Runtime F V X}

theorem length_le_image {α β : Type} [DecidableEq β] (f : α → β) : ∀ {l : List β} {l' : List α}, l.Nodup → (∀ x ∈ l, ∃ y ∈ l', x = f y) → l.length ≤ l'.length
  | [], _, _, _ => Nat.zero_le _
  | x :: l, l', hn, h => by
    rw [List.nodup_cons] at hn
    obtain ⟨y, hy, rfl⟩ := h x List.mem_cons_self
    obtain ⟨u, v, rfl⟩ := List.append_of_mem hy
    have := length_le_image f (l := l) (l' := u ++ v) hn.2 fun z hz => by
      obtain ⟨w, hw, rfl⟩ := h z (List.mem_cons_of_mem _ hz)
      refine ⟨w, ?_, rfl⟩
      rcases List.mem_append.1 hw with hw | hw
      · exact List.mem_append_left _ hw
      · rcases List.mem_cons.1 hw with rfl | hw
        · exact absurd hz hn.1
        · exact List.mem_append_right _ hw
    simp only [List.length_cons, List.length_append] at this ⊢
    omega

/-- The message of such a graph can be sent, its nodes name no input twice, and its functions can be loaded. -/
theorem built_mild {g : Dict Bytes Client.UserNode} {keys : List Bytes} {m : GraphTask} (hb : BuiltFrom p g keys m) (hM : MildGraph rt g keys) :
    sendable (.graphTask m) ∧ (∀ T ∈ m.graph, ((T.args.filter fun a => a.type = .task).map (·.data)).Nodup) ∧
      ∀ fid nm b, m.functions.get? fid = some (nm, b) → ∃ f, rt.loadFn b = .ok f := by
  obtain ⟨ids, gid, hl, hn, hm⟩ := hb
  obtain ⟨-, id, -, hs⟩ := C44_same p g keys ids gid hl hn m hm
  have hno : ∀ e, Client.buildGraph p ids gid g keys ≠ .error e := fun e he => by rw [hm] at he; cases he
  have hdef : ∀ x a, Needs g x a → g.get? a ≠ none := fun x a h1 h2 =>
    hno .keyError ((C44_rejected p g keys ids gid hl _).2 (.inl ⟨rfl, .inr ⟨x, a, h1, h2⟩⟩))
  have htask : ∀ T ∈ m.graph, ∃ x nm c as, g.get? x = some (.call nm c as) ∧ T = ⟨id x, p.hash c, as.map (argument g id)⟩ := by
    intro T hT
    rw [hs.tasks, List.mem_filterMap] at hT
    obtain ⟨⟨x, n⟩, h1, h2⟩ := hT
    cases n with
    | data b => cases h2
    | call nm c as =>
      cases h2
      exact ⟨x, nm, c, as, Dict.mem_items.1 h1, rfl⟩
  refine ⟨⟨?_, ?_, ?_, ?_⟩, ?_, ?_⟩
  · obtain ⟨x, nm, c, as, hx⟩ := hM.call
    obtain ⟨v, hv⟩ := Option.isSome_iff_exists.1 (hs.all x nm c as hx)
    exact List.ne_nil_of_mem (Dict.mem_items.2 hv)
  · refine Nat.lt_of_le_of_lt ?_ hM.size.1
    have := length_le_image (fun e : Bytes × Client.UserNode => match e.2 with | .call _ c _ => p.hash c | .data _ => []) (l := m.functions.keys) (l' := g.items) m.functions.nodup
      fun fid hf => by
        obtain ⟨⟨nm, c⟩, hv⟩ := Dict.mem_keys.1 hf
        obtain ⟨h1, x, as, hx⟩ := hs.functions fid nm c hv
        exact ⟨(x, .call nm c as), Dict.mem_items.2 hx, h1⟩
    rwa [Dict.size_keys] at this
  · exact Nat.lt_of_le_of_lt (length_le_image id hs.once fun t ht => (hs.targets t).1 ht) hM.size.2
  · intro T hT
    obtain ⟨x, nm, c, as, hx, rfl⟩ := htask T hT
    simpa using (hM.node x nm c as hx).1
  · intro T hT
    obtain ⟨x, nm, c, as, hx, rfl⟩ := htask T hT
    have h1 := (hM.node x nm c as hx).2.2
    have h2 : ∀ a ∈ as, g.get? a ≠ none := fun a ha => hdef x a ⟨nm, c, as, hx, ha⟩
    clear hx hT
    dsimp only
    induction as with
    | nil => exact List.nodup_nil
    | cons a as ih =>
      have ih := ih (fun y hy => by have := h1 y hy; rw [List.count_cons] at this; omega) fun y hy => h2 y (List.mem_cons_of_mem _ hy)
      rw [List.map_cons, List.filter_cons]
      split
      · next ht =>
        rw [List.map_cons, List.nodup_cons]
        refine ⟨fun hm => ?_, ih⟩
        have isc : ∀ {y}, g.get? y ≠ none → (argument g id y).type = .task → IsCall g y ∧ (argument g id y).data = id y := by
          intro y hy hty
          unfold argument at hty ⊢
          cases hg : g.get? y with
          | none => exact absurd hg hy
          | some n =>
            cases n with
            | data b => rw [hg] at hty; cases hty
            | call nm' c' as' => exact ⟨⟨nm', c', as', hg⟩, rfl⟩
        obtain ⟨b, hb, he⟩ := List.mem_map.1 hm
        obtain ⟨hb, hbt⟩ := List.mem_filter.1 hb
        obtain ⟨y, hy, rfl⟩ := List.mem_map.1 hb
        obtain ⟨c1, e1⟩ := isc (h2 a List.mem_cons_self) (by simpa using ht)
        obtain ⟨c2, e2⟩ := isc (h2 y (List.mem_cons_of_mem _ hy)) (by simpa using hbt)
        rw [e1, e2] at he
        have := hs.inj y a c2 c1 he
        subst this
        have h3 := h1 y c1
        rw [List.count_cons_self] at h3
        have := List.count_pos_iff.2 hy
        omega
      · exact ih
  · intro fid nm b hf
    obtain ⟨-, x, as, hx⟩ := hs.functions fid nm b hf
    exact (hM.node x nm b as hx).2.1

/-- Where the tasks of such a message come from. -/
theorem built_task {g : Dict Bytes Client.UserNode} {keys : List Bytes} {m : GraphTask} (hb : BuiltFrom p g keys m) {T : Task} (hT : T ∈ m.graph) :
    ∃ x nm c as, g.get? x = some (.call nm c as) ∧ T.functionId = p.hash c ∧ ∀ a ∈ T.args,
      (a.type = .data → ∃ y, g.get? y = some (.data a.data)) ∧ (a.type = .task → a.data ∈ m.graph.map (·.taskId)) := by
  obtain ⟨ids, gid, hl, hn, hm⟩ := hb
  obtain ⟨-, id, -, hs⟩ := C44_same p g keys ids gid hl hn m hm
  have hdef : ∀ x a, Needs g x a → g.get? a ≠ none := fun x a h1 h2 => by
    have := (C44_rejected p g keys ids gid hl .keyError).2 (.inl ⟨rfl, .inr ⟨x, a, h1, h2⟩⟩)
    rw [hm] at this; cases this
  have htasks := hs.tasks
  rw [hs.tasks, List.mem_filterMap] at hT
  obtain ⟨⟨x, n⟩, h1, h2⟩ := hT
  cases n with
  | data b => cases h2
  | call nm c as =>
    cases h2
    refine ⟨x, nm, c, as, Dict.mem_items.1 h1, rfl, fun a ha => ?_⟩
    obtain ⟨y, hy, rfl⟩ := List.mem_map.1 ha
    have hne := hdef x y ⟨nm, c, as, Dict.mem_items.1 h1, hy⟩
    unfold argument
    split
    · next b hb => exact ⟨fun _ => ⟨y, hb⟩, nofun⟩
    · next hno =>
      refine ⟨nofun, fun _ => ?_⟩
      cases hg : g.get? y with
      | none => exact absurd hg hne
      | some u =>
        cases u with
        | data b => exact absurd hg (hno b)
        | call nm' c' as' =>
          rw [htasks]
          exact List.mem_map.2 ⟨⟨id y, p.hash c', as'.map (argument g id)⟩, List.mem_filterMap.2 ⟨(y, .call nm' c' as'), Dict.mem_items.2 hg, rfl⟩, rfl⟩

end Verif.System
