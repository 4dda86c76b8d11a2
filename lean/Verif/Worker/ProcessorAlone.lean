import Verif.Worker.ProcessorInv

/-!
# Invariants of the processor if its threads do not meet
-/

namespace Verif.Proc

open Verif.Wire Verif.Spec.Processor Proc

variable {F V X : Type}

theorem _root_.Verif.Spec.Processor.ReachAlone.reach {rt : Runtime F V X} {r start : Int} {p : Proc F} (h : ReachAlone rt r start p) : Reach rt r start p := by
  induction h with
  | init => exact .init
  | step e _ _ h ih => exact .step e ih h

/-- The function whose use is being recorded. -/
def Main.using? : Main F → Option Bytes
  | .stamp k => some k.functionId
  | .stamp2 k _ => some k.functionId
  | _ => none

/-- The function the main thread relies on. -/
def Main.needs : Main F → Option Bytes
  | .stamp k => some k.functionId
  | .fetch k => some k.functionId
  | .stamp2 k _ => some k.functionId
  | .added fid => some fid
  | _ => none

/-- Every reading of a function is followed at once by the recording of its use, except for the one that is
being recorded. -/
def PairedBut (u : Option Bytes) (fid : Bytes) (l : Hist) : Prop :=
  ∀ a t b, l = a ++ (t, .used fid) :: b → (∃ v b', b = (v, .stamped fid) :: b') ∨ (b = [] ∧ u = some fid)

theorem pairedBut_snoc {u u' : Option Bytes} {fid : Bytes} {l : Hist} (h : PairedBut u fid l) {now : Int} {x : Act}
    (hu : u = none ∨ u = some fid ∧ x = .stamped fid ∨ ∃ i, u = some i ∧ i ≠ fid)
    (hx : x = .used fid → u' = some fid) : PairedBut u' fid (l ++ [(now, x)]) := by
  intro a t b e
  rcases List.eq_nil_or_concat b with rfl | ⟨b', z, rfl⟩
  · obtain ⟨e1, e2⟩ := List.append_inj' e rfl
    cases e2
    exact Or.inr ⟨rfl, hx rfl⟩
  · rw [List.concat_eq_append, ← List.cons_append, ← List.append_assoc] at e
    obtain ⟨e1, e2⟩ := List.append_inj' e rfl
    cases e2
    rcases h a t b' e1 with ⟨v, c, rfl⟩ | ⟨rfl, hc⟩
    · exact Or.inl ⟨v, c ++ [(now, x)], by simp⟩
    · rcases hu with h | ⟨_, rfl⟩ | ⟨i, h, hne⟩
      · rw [h] at hc; cases hc
      · exact Or.inl ⟨now, [], rfl⟩
      · rw [h] at hc; cases hc; exact (hne rfl).elim

/-- `fid` was idle at the latest scan and nothing but evictions happened since. -/
def Idle (retention : Int) (fid : Bytes) (l : Hist) : Prop :=
  ∃ l₁ s l₂ t, l = l₁ ++ (s, .scan) :: l₂ ∧ (∀ x ∈ l₂, ∃ i, x.2 = .evicted i) ∧
    Paired fid l₁ ∧ lastStamp fid l₁ = some t ∧ s - t > retention

/-- What holds in every state if the threads do not meet. -/
structure Quiet (rt : Runtime F V X) (r : Int) (p : Proc F) : Prop where
  inv : Inv rt r p
  apart : p.main = .idle ∨ p.cleaner = .asleep
  step : ∀ fid, p.main.pending ≠ some fid → p.cleaner.pending ≠ some fid →
    ((p.functions.get? fid).isSome ↔ (p.alive.get? fid).isSome)
  needs : ∀ fid, p.main.needs = some fid → (p.functions.get? fid).isSome
  added : ∀ fid, p.main = .added fid → ∃ k, p.task = some k ∧ k.functionId = fid
  gone : ∀ fid, p.main = .del2 fid ∨ p.cleaner.pending = some fid → p.alive.get? fid = none
  called : ∀ k, p.main ≠ .call k none
  pair : ∀ fid, PairedBut p.main.using? fid p.log
  idle : ∀ fid ∈ p.cleaner.ids, Idle r fid p.log
  ok : Always (ProperExactly rt) p.log
  ev : Always (EvictUnused r) p.log

theorem init_quiet (rt : Runtime F V X) (r start : Int) : Quiet rt r (Proc.init r start : Proc F) := by
  refine ⟨init_inv rt r start, Or.inl rfl, ?_, ?_, ?_, ?_, ?_, ?_, ?_, ?_, ?_⟩
  · intro fid _ _; simp [Proc.init]
  · intro fid h; cases h
  · intro fid h; cases h
  · intro fid h; rcases h with h | h <;> cases h
  · intro k h; cases h
  · intro fid a t b e
    have : a = [] ∨ ∃ x a', a = x :: a' := by cases a <;> simp
    rcases this with rfl | ⟨x, a', rfl⟩
    · simp [Proc.init] at e
    · simp [Proc.init] at e
  · intro fid h; cases h
  · have : Always (ProperExactly rt) ([] : Hist) := fun l₁ x l₂ e => by simp at e
    exact always_snoc (l := []) (now := start) this (Or.inl ⟨rfl, rfl, rfl, rfl⟩)
  · have : Always (EvictUnused r) ([] : Hist) := fun l₁ x l₂ e => by simp at e
    exact always_snoc (l := []) (now := start) this trivial

theorem work_quiet {rt : Runtime F V X} {r : Int} {p p' : Proc F} (g : Quiet rt r p) {now : Int} {c : Nat} {dur : UInt32}
    (h : work rt p now c dur = .ok p') : Quiet rt r p' := by
  have gi := work_inv g.inv h
  have hgone0 : p.cleaner = .asleep → ∀ m : Main F, (∀ i, m ≠ .del2 i) → ∀ (al : Dict Bytes Int) fid,
      m = .del2 fid ∨ p.cleaner.pending = some fid → al.get? fid = none := by
    intro hc m hm al fid h
    rcases h with h | h
    · exact (hm fid h).elim
    · rw [hc] at h; cases h
  unfold work at h
  split at h
  · cases h; exact g
  · next k hm =>
    have hc : p.cleaner = .asleep := by rcases g.apart with h | h; · rw [hm] at h; cases h
                                        · exact h
    have hn := g.needs k.functionId (by rw [hm]; rfl)
    cases h
    refine ⟨gi, Or.inr hc, ?_, ?_, (fun _ h => by cases h), (hgone0 hc _ (by intro i e; cases e) _), (fun _ h => by cases h), ?_, ?_, always_snoc g.ok trivial, always_snoc g.ev trivial⟩
    · intro fid _ _
      simp only [Proc.stamp, Dict.get?_set]
      split
      · next e => subst e; simp [hn]
      · next e => exact g.step fid (by rw [hm]; simpa [Main.pending] using e) (by rw [hc]; simp [Cleaner.pending])
    · intro fid h; cases h; exact hn
    · intro fid
      refine pairedBut_snoc (g.pair fid) ?_ (by intro h; cases h)
      rw [hm]
      by_cases e : k.functionId = fid
      · subst e; exact Or.inr (Or.inl ⟨rfl, rfl⟩)
      · exact Or.inr (Or.inr ⟨k.functionId, rfl, e⟩)
    · intro fid h
      have : p.cleaner.ids = [] := by rw [hc]; rfl
      rw [show ({ (p.stamp now k.functionId) with main := Main.fetch k } : Proc F).cleaner.ids = p.cleaner.ids from rfl, this] at h
      cases h
  · next k hm =>
    have hc : p.cleaner = .asleep := by rcases g.apart with h | h; · rw [hm] at h; cases h
                                        · exact h
    have hn := g.needs k.functionId (by rw [hm]; rfl)
    have hids : p.cleaner.ids = [] := by rw [hc]; rfl
    split at h
    · next f hf =>
      cases h
      refine ⟨gi, Or.inr hc, ?_, ?_, (fun _ h => by cases h), (hgone0 hc _ (by intro i e; cases e) _), (fun _ h => by cases h), ?_, ?_, always_snoc g.ok trivial, always_snoc g.ev trivial⟩
      · intro fid h1 h2
        exact g.step fid (by rw [hm]; simp [Main.pending]) h2
      · intro fid h; cases h; exact hn
      · intro fid
        refine pairedBut_snoc (g.pair fid) ?_ (by intro h; cases h; rfl)
        rw [hm]; exact Or.inl rfl
      · intro fid h
        rw [show ({ (p.note now (.used k.functionId)) with main := Main.stamp2 k f } : Proc F).cleaner.ids = p.cleaner.ids from rfl, hids] at h
        cases h
    · next hf => rw [hf] at hn; cases hn
  · next k f hm =>
    have hc : p.cleaner = .asleep := by rcases g.apart with h | h; · rw [hm] at h; cases h
                                        · exact h
    have hn := g.needs k.functionId (by rw [hm]; rfl)
    cases h
    refine ⟨gi, Or.inr hc, ?_, (fun _ h => by cases h), (fun _ h => by cases h), (hgone0 hc _ (by intro i e; cases e) _), (fun _ h => by cases h), ?_, ?_, always_snoc g.ok trivial, always_snoc g.ev trivial⟩
    · intro fid _ _
      simp only [Proc.stamp, Dict.get?_set]
      split
      · next e => subst e; simp [hn]
      · next e => exact g.step fid (by rw [hm]; simpa [Main.pending] using e) (by rw [hc]; simp [Cleaner.pending])
    · intro fid
      refine pairedBut_snoc (g.pair fid) ?_ (by intro h; cases h)
      rw [hm]
      by_cases e : k.functionId = fid
      · subst e; exact Or.inr (Or.inl ⟨rfl, rfl⟩)
      · exact Or.inr (Or.inr ⟨k.functionId, rfl, e⟩)
    · intro fid h
      have : p.cleaner.ids = [] := by rw [hc]; rfl
      rw [show ({ (p.stamp now k.functionId) with main := Main.call k (some f) } : Proc F).cleaner.ids = p.cleaner.ids from rfl, this] at h
      cases h
  · next k fo hm =>
    have hc : p.cleaner = .asleep := by rcases g.apart with h | h; · rw [hm] at h; cases h
                                        · exact h
    have hids : p.cleaner.ids = [] := by rw [hc]; rfl
    obtain ⟨n0, hn0⟩ := g.inv.mainRecv k (by rw [hm]; rfl)
    have key : ∀ st b, AnswersExactly rt p.log k st b → Inv rt r { (p.note now (.sent (.taskResult k.taskId st dur b))) with main := .idle } →
        Quiet rt r { (p.note now (.sent (.taskResult k.taskId st dur b))) with main := .idle } := by
      intro st b ha gi
      refine ⟨gi, Or.inl rfl, ?_, (fun _ h => by cases h), (fun _ h => by cases h), (hgone0 hc _ (by intro i e; cases e) _), (fun _ h => by cases h), ?_, ?_,
        always_snoc g.ok (Or.inr ⟨n0, k, hn0, rfl, ha⟩), always_snoc g.ev trivial⟩
      · intro fid _ h2
        exact g.step fid (by rw [hm]; simp [Main.pending]) h2
      · intro fid
        refine pairedBut_snoc (g.pair fid) ?_ (by intro h; cases h)
        rw [hm]; exact Or.inl rfl
      · intro fid h
        rw [show ({ (p.note now (.sent (.taskResult k.taskId st dur b))) with main := Main.idle } : Proc F).cleaner.ids = p.cleaner.ids from rfl, hids] at h
        cases h
    cases fo with
    | none => exact (g.called k hm).elim
    | some f =>
      have hf := g.inv.held k f (by rw [hm]; rfl)
      unfold answer at h
      split at h
      · next b hb => cases h; exact key .success b ⟨f, hf, evaluate_returns hb⟩ gi
      · next x hx =>
        split at h
        · next b hb => cases h; exact key .failed b ⟨f, x, hf, evaluate_raises hx, hb⟩ gi
        · cases h
  · next fid hm =>
    have hc : p.cleaner = .asleep := by rcases g.apart with h | h; · rw [hm] at h; cases h
                                        · exact h
    have hids : p.cleaner.ids = [] := by rw [hc]; rfl
    have hn := g.needs fid (by rw [hm]; rfl)
    obtain ⟨k0, hk0, rfl⟩ := g.added fid hm
    split at h
    · next k hk =>
      rw [hk0] at hk; cases hk
      cases h
      refine ⟨gi, Or.inr hc, ?_, ?_, (fun _ h => by cases h), (hgone0 hc _ (by intro i e; cases e) _), (fun _ h => by cases h), ?_, ?_, always_snoc g.ok trivial, always_snoc g.ev trivial⟩
      · intro fid _ _
        simp only [Proc.stamp, Dict.get?_set]
        split
        · next e => subst e; simp [hn]
        · next e => exact g.step fid (by rw [hm]; simpa [Main.pending] using e) (by rw [hc]; simp [Cleaner.pending])
      · intro fid h; cases h; exact hn
      · intro fid
        refine pairedBut_snoc (g.pair fid) ?_ (by intro h; cases h)
        rw [hm]; exact Or.inl rfl
      · intro fid h
        rw [show ({ (p.stamp now k0.functionId) with task := none, main := Main.fetch k0 } : Proc F).cleaner.ids = p.cleaner.ids from rfl, hids] at h
        cases h
    · cases h
  · next fid hm =>
    have hc : p.cleaner = .asleep := by rcases g.apart with h | h; · rw [hm] at h; cases h
                                        · exact h
    have hids : p.cleaner.ids = [] := by rw [hc]; rfl
    cases h
    refine ⟨gi, Or.inl rfl, ?_, (fun _ h => by cases h), (fun _ h => by cases h), (hgone0 hc _ (by intro i e; cases e) _), (fun _ h => by cases h), ?_, ?_, g.ok, g.ev⟩
    · intro i _ h2
      simp only [Dict.get?_erase]
      split
      · next e =>
        subst e
        simp [g.gone fid (Or.inl hm)]
      · next e => exact g.step i (by rw [hm]; simpa [Main.pending] using e) h2
    · intro i a t b e
      have := g.pair i a t b e
      rw [hm] at this
      exact this
    · intro i h
      rw [show ({ p with functions := p.functions.erase fid, main := Main.idle } : Proc F).cleaner.ids = p.cleaner.ids from rfl, hids] at h
      cases h


theorem onTask_quiet {rt : Runtime F V X} {r : Int} {p : Proc F} (g : Quiet rt r p) {now : Int} {k : Task}
    (hm : p.main = .idle) (hc : p.cleaner = .asleep) (gi : Inv rt r ((p.note now (.recv (.task k))).onTask now k)) :
    Quiet rt r ((p.note now (.recv (.task k))).onTask now k) := by
  have hids : p.cleaner.ids = [] := by rw [hc]; rfl
  have hu : p.main.using? = none := by rw [hm]; rfl
  have h0 : ∀ fid, PairedBut none fid (p.log ++ [(now, .recv (.task k))]) := fun fid =>
    pairedBut_snoc (g.pair fid) (by rw [hu]; exact Or.inl rfl) (by intro h; cases h)
  unfold onTask at gi ⊢
  have hp : p.cleaner.pending = none := by rw [hc]; rfl
  have hstep : ∀ fid, (p.functions.get? fid).isSome ↔ (p.alive.get? fid).isSome := fun fid =>
    g.step fid (by rw [hm]; simp [Main.pending]) (by rw [hp]; simp)
  split
  · next f hf =>
    rw [hf] at gi
    refine ⟨gi, Or.inr hc, fun fid _ _ => hstep fid, ?_, (fun _ h => by cases h), ?_, (fun _ h => by cases h), ?_, ?_,
      always_snoc (always_snoc g.ok trivial) trivial, always_snoc (always_snoc g.ev trivial) trivial⟩
    · intro fid h
      cases h
      rw [show ({ ((p.note now (.recv (.task k))).note now (.used k.functionId)) with main := Main.stamp k } : Proc F).functions.get? k.functionId = some f from hf]
      rfl
    · intro fid h
      rcases h with h | h
      · cases h
      · have h : p.cleaner.pending = some fid := h
        rw [hp] at h; cases h
    · intro fid
      exact pairedBut_snoc (h0 fid) (Or.inl rfl) (by intro h; cases h; rfl)
    · intro fid h
      have h : fid ∈ p.cleaner.ids := h
      rw [hids] at h; cases h
  · next hf =>
    rw [hf] at gi
    refine ⟨gi, Or.inr hc, fun fid _ _ => hstep fid, ?_, ?_, ?_, ?_, ?_, ?_,
      always_snoc (always_snoc g.ok trivial) trivial, always_snoc (always_snoc g.ev trivial) trivial⟩
    · intro fid h
      have h : p.main.needs = some fid := h
      rw [hm] at h; cases h
    · intro fid h
      have h : p.main = .added fid := h
      rw [hm] at h; cases h
    · intro fid h
      rcases h with h | h
      · have h : p.main = .del2 fid := h
        rw [hm] at h; cases h
      · have h : p.cleaner.pending = some fid := h
        rw [hp] at h; cases h
    · intro k' h
      have h : p.main = .call k' none := h
      rw [hm] at h; cases h
    · intro fid
      exact pairedBut_snoc (h0 fid) (Or.inl rfl) (by intro h; cases h)
    · intro fid h
      have h : fid ∈ p.cleaner.ids := h
      rw [hids] at h; cases h

theorem note_quiet {rt : Runtime F V X} {r : Int} {p : Proc F} (g : Quiet rt r p) {now : Int} {m : Message}
    (hm : p.main = .idle) (hc : p.cleaner = .asleep) (gi : Inv rt r (p.note now (.recv m))) :
    Quiet rt r (p.note now (.recv m)) := by
  have hids : p.cleaner.ids = [] := by rw [hc]; rfl
  refine ⟨gi, g.apart, g.step, g.needs, g.added, g.gone, g.called, ?_, ?_, always_snoc g.ok trivial, always_snoc g.ev trivial⟩
  · intro fid
    refine pairedBut_snoc (g.pair fid) ?_ (by intro h; cases h)
    rw [hm]; exact Or.inl rfl
  · intro fid h
    have h : fid ∈ p.cleaner.ids := h
    rw [hids] at h; cases h

theorem receive_quiet {rt : Runtime F V X} {r : Int} {p p' : Proc F} (g : Quiet rt r p) {now : Int} {m : Message}
    (hm : p.main = .idle) (hc : p.cleaner = .asleep)
    (ha : ∀ st fid nm c, m = .functionResponse st fid nm c → ∃ k, p.task = some k ∧ k.functionId = fid)
    (h : receive rt p now m = .ok p') : Quiet rt r p' := by
  have gi := receive_inv g.inv hm h
  have hids : p.cleaner.ids = [] := by rw [hc]; rfl
  have hp : p.cleaner.pending = none := by rw [hc]; rfl
  have hstep : ∀ fid, (p.functions.get? fid).isSome ↔ (p.alive.get? fid).isSome := fun fid =>
    g.step fid (by rw [hm]; simp [Main.pending]) (by rw [hp]; simp)
  cases m with
  | task k =>
    simp only [receive] at h
    cases h
    exact onTask_quiet g hm hc gi
  | functionResponse st fid nm c =>
    simp only [receive, onFunctionResponse] at h
    split at h
    · next q hq =>
      cases h
      split at hq
      · next f hf =>
        cases hq
        refine ⟨gi, Or.inr hc, ?_, ?_, ?_, ?_, (fun _ h => by cases h), ?_, ?_, always_snoc g.ok trivial, always_snoc g.ev trivial⟩
        · intro i h1 _
          have : ¬ fid = i := by simpa [Main.pending] using h1
          simp only [Dict.get?_set, this, if_false]
          exact hstep i
        · intro i h; cases h; simp
        · intro i h; cases h; exact ha st fid nm c rfl
        · intro i h
          rcases h with h | h
          · cases h
          · have h : p.cleaner.pending = some i := h
            rw [hp] at h; cases h
        · intro i
          refine pairedBut_snoc (g.pair i) ?_ (by intro h; cases h)
          rw [hm]; exact Or.inl rfl
        · intro i h
          have h : i ∈ p.cleaner.ids := h
          rw [hids] at h; cases h
      · cases hq
    · cases h
  | functionRequest ty fid nm c =>
    simp only [receive, onFunctionRequest] at h
    cases h
    split
    · next e =>
      subst e
      rw [if_pos rfl] at gi
      refine ⟨gi, Or.inr hc, ?_, (fun _ h => by cases h), (fun _ h => by cases h), ?_, (fun _ h => by cases h), ?_, ?_, always_snoc g.ok trivial, always_snoc g.ev trivial⟩
      · intro i h1 _
        have : ¬ fid = i := by simpa [Main.pending] using h1
        simp only [Proc.note, Dict.get?_erase, this, if_false]
        exact hstep i
      · intro i h
        rcases h with h | h
        · cases h; simp
        · have h : p.cleaner.pending = some i := h
          rw [hp] at h; cases h
      · intro i
        refine pairedBut_snoc (g.pair i) ?_ (by intro h; cases h)
        rw [hm]; exact Or.inl rfl
      · intro i h
        have h : i ∈ p.cleaner.ids := h
        rw [hids] at h; cases h
    · next e =>
      rw [if_neg e] at gi
      exact note_quiet g hm hc gi
  | _ => simp only [receive] at h; cases h; exact note_quiet g hm hc gi

theorem pairedBut_none {fid : Bytes} {l : Hist} (h : PairedBut none fid l) : Paired fid l := by
  intro a t b e
  rcases h a t b e with h | ⟨_, h⟩
  · exact h
  · cases h

theorem Idle.snoc {r : Int} {fid : Bytes} {l : Hist} (h : Idle r fid l) (now : Int) (i : Bytes) :
    Idle r fid (l ++ [(now, .evicted i)]) := by
  obtain ⟨l₁, s, l₂, t, e, h1, h2, h3, h4⟩ := h
  refine ⟨l₁, s, l₂ ++ [(now, .evicted i)], t, by simp [e], ?_, h2, h3, h4⟩
  intro y hy
  rcases List.mem_append.1 hy with hy | hy
  · exact h1 y hy
  · simp only [List.mem_singleton] at hy; subst hy; exact ⟨i, rfl⟩

theorem clean_quiet {rt : Runtime F V X} {r : Int} {p : Proc F} (g : Quiet rt r p) (now : Int) (hm : p.main = .idle) :
    Quiet rt r (p.clean now) := by
  have gi := clean_inv g.inv now
  have hu : p.main.using? = none := by rw [hm]; rfl
  have hpend : p.main.pending = none := by rw [hm]; rfl
  unfold clean at gi ⊢
  split
  · next hc =>
    rw [hc] at gi
    refine ⟨gi, Or.inl hm, ?_, g.needs, g.added, ?_, g.called, ?_, ?_, always_snoc g.ok trivial, always_snoc g.ev trivial⟩
    · intro fid h1 _
      exact g.step fid h1 (by rw [hc]; simp [Cleaner.pending])
    · intro fid h
      rcases h with h | h
      · exact g.gone fid (Or.inl h)
      · cases h
    · intro fid
      exact pairedBut_snoc (g.pair fid) (by rw [hu]; exact Or.inl rfl) (by intro h; cases h)
    · intro fid h
      obtain ⟨t, h1, h2⟩ := idle_mem (p := p) h
      rw [g.inv.ret] at h2
      have := g.pair fid
      rw [hu] at this
      exact ⟨p.log, now, [], t, rfl, by simp, pairedBut_none this, g.inv.stamp fid t h1, h2⟩
  · next hc =>
    rw [hc] at gi
    refine ⟨gi, Or.inl hm, ?_, g.needs, g.added, ?_, g.called, g.pair, (fun _ h => by cases h), g.ok, g.ev⟩
    · intro fid h1 _
      exact g.step fid h1 (by rw [hc]; simp [Cleaner.pending])
    · intro fid h
      rcases h with h | h
      · exact g.gone fid (Or.inl h)
      · cases h
  · next fid ids hc =>
    rw [hc] at gi
    refine ⟨gi, Or.inl hm, ?_, g.needs, g.added, ?_, g.called, g.pair, ?_, g.ok, g.ev⟩
    · intro i h1 h2
      have : ¬ fid = i := by simpa [Cleaner.pending] using h2
      simp only [Dict.get?_erase, this, if_false]
      exact g.step i h1 (by rw [hc]; simp [Cleaner.pending])
    · intro i h
      rcases h with h | h
      · rw [hm] at h; cases h
      · cases h; simp
    · intro i h
      exact g.idle i (by rw [hc]; exact h)
  · next fid ids hc =>
    rw [hc] at gi
    have hg := g.gone fid (Or.inr (by rw [hc]; rfl))
    have hstep : ∀ i, ((p.functions.erase fid).get? i).isSome ↔ (p.alive.get? i).isSome := by
      intro i
      simp only [Dict.get?_erase]
      split
      · next e => subst e; simp [hg]
      · next e => exact g.step i (by rw [hpend]; simp) (by rw [hc]; simpa [Cleaner.pending] using e)
    have hids : ∀ i ∈ ids, Idle r i p.log := fun i h => g.idle i (by rw [hc]; exact List.mem_cons_of_mem _ h)
    have hgone : ∀ i, p.main = .del2 i → p.alive.get? i = none := fun i h => g.gone i (Or.inl h)
    have hmain : ∀ i, (p.main.needs = some i → False) := fun i h => by rw [hm] at h; cases h
    simp only at gi ⊢
    split
    · next hh =>
      rw [if_pos hh] at gi
      refine ⟨gi, Or.inl hm, fun i _ _ => hstep i, fun i h => (hmain i h).elim, g.added, ?_, g.called, ?_, ?_, always_snoc g.ok trivial,
        always_snoc g.ev (g.idle fid (by rw [hc]; exact List.mem_cons_self))⟩
      · intro i h
        rcases h with h | h
        · exact hgone i h
        · cases h
      · intro i
        exact pairedBut_snoc (g.pair i) (by rw [hu]; exact Or.inl rfl) (by intro h; cases h)
      · intro i h
        exact (hids i h).snoc now fid
    · next hh =>
      rw [if_neg hh] at gi
      refine ⟨gi, Or.inl hm, fun i _ _ => hstep i, fun i h => (hmain i h).elim, g.added, ?_, g.called, g.pair, hids, g.ok, g.ev⟩
      intro i h
      rcases h with h | h
      · exact hgone i h
      · cases h

theorem _root_.Verif.Spec.Processor.ReachAlone.quiet {rt : Runtime F V X} {r start : Int} {p : Proc F} (hr : ReachAlone rt r start p) :
    Quiet rt r p := by
  induction hr with
  | init => exact init_quiet rt r start
  | @step p p' e _ ha h ih =>
    unfold Proc.step at h
    unfold Alone at ha
    split at h
    · next m he =>
      rw [he] at ha
      split at h
      · next hm =>
        refine receive_quiet ih hm ha.1 ?_ h
        intro st fid nm c em
        subst em
        exact ha.2
      · cases h; exact ih
    · exact work_quiet ih h
    · next he =>
      rw [he] at ha
      cases h; exact clean_quiet ih e.now ha

end Verif.Proc
