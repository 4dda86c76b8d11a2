import Verif.Queue.Heap

/-!
# Correctness of the heap operations

Helper lemmas: permutation and heap order, for any strict weak order.
-/

namespace Verif.Queue

variable {α : Type}

/-- `lt` is a strict weak order. -/
structure IsOrder (lt : α → α → Bool) : Prop where
  asymm : ∀ a b, lt a b = true → lt b a = false
  trans : ∀ a b c, lt b a = false → lt c b = false → lt c a = false

/-- Every entry is not smaller than its parent. -/
def HeapInv (lt : α → α → Bool) (h : List α) : Prop :=
  ∀ i a b, 0 < i → h[(i - 1) / 2]? = some a → h[i]? = some b → lt b a = false

/-- Heap order except possibly between `pos` and its parent; the children of `pos` are not
smaller than the parent of `pos`. -/
def DownInv (lt : α → α → Bool) (h : List α) (pos : Nat) : Prop :=
  (∀ i a b, 0 < i → i ≠ pos → h[(i - 1) / 2]? = some a → h[i]? = some b → lt b a = false) ∧
  (∀ c a b, 0 < pos → 0 < c → (c - 1) / 2 = pos → h[(pos - 1) / 2]? = some a → h[c]? = some b →
    lt b a = false)

/-- Heap order except around `pos`; the children of `pos` are not smaller than its parent. -/
def UpInv (lt : α → α → Bool) (h : List α) (pos : Nat) : Prop :=
  (∀ i a b, 0 < i → i ≠ pos → (i - 1) / 2 ≠ pos → h[(i - 1) / 2]? = some a → h[i]? = some b →
    lt b a = false) ∧
  (∀ c a b, 0 < pos → 0 < c → (c - 1) / 2 = pos → h[(pos - 1) / 2]? = some a → h[c]? = some b →
    lt b a = false)

theorem perm_swap (l : List α) (i j : Nat) (a b : α) (hij : i ≠ j) (hi : i < l.length)
    (hb : l[j]? = some b) : ((l.set i b).set j a).Perm (l.set i a) := by
  have hj : j < l.length := (List.getElem?_eq_some_iff.1 hb).1
  have hb' : l[j] = b := (List.getElem?_eq_some_iff.1 hb).2
  have h := List.set_set_perm (as := l.set i a) (i := i) (j := j) (by simpa using hi) (by simpa using hj)
  simp only [List.set_set, List.getElem_set_self] at h
  rw [List.getElem_set_ne hij, hb'] at h
  exact h

theorem siftdownLoop_spec {lt : α → α → Bool} (ho : IsOrder lt) (x : α) (fuel : Nat) (h : List α)
    (pos : Nat) (hp : pos < h.length) (hf : pos ≤ fuel) (hd : DownInv lt (h.set pos x) pos) :
    HeapInv lt (siftdownLoop lt x fuel h pos) ∧
      (siftdownLoop lt x fuel h pos).Perm (h.set pos x) := by
  induction fuel generalizing h pos with
  | zero =>
    have : pos = 0 := by omega
    subst this
    refine ⟨?_, List.Perm.refl _⟩
    intro i a b hi ha hb
    exact hd.1 i a b hi (by omega) ha hb
  | succ fuel ih =>
    simp only [siftdownLoop]
    split
    · next h0 =>
      subst h0
      refine ⟨?_, List.Perm.refl _⟩
      intro i a b hi ha hb
      exact hd.1 i a b hi (by omega) ha hb
    · next h0 =>
      have hpar : (pos - 1) / 2 < pos := by omega
      generalize hpp : (pos - 1) / 2 = par at *
      have hpl : par < h.length := by omega
      have he : h[par]? = some h[par] := List.getElem?_eq_getElem hpl
      rw [he]
      simp only
      generalize hv : h[par] = parent at *
      have hpar' : (h.set pos x)[par]? = some parent := by
        rw [List.getElem?_set_ne (by omega), he]
      have hpos' : (h.set pos x)[pos]? = some x := by simp [hp]
      split
      · next hlt =>
        have hsw := perm_swap h pos par x parent (by omega) hp he
        have key : ∀ i, ((h.set pos parent).set par x)[i]? =
            if i = par then some x else if i = pos then some parent else (h.set pos x)[i]? := by
          intro i
          simp only [List.getElem?_set, List.length_set]
          grind
        have hdi : DownInv lt ((h.set pos parent).set par x) par := by
          obtain ⟨hA, hB⟩ := hd
          constructor
          · intro i a b hi hne ha hb
            rw [key] at ha hb
            rw [if_neg hne] at hb
            by_cases hip : i = pos
            · subst hip
              rw [if_pos rfl] at hb
              rw [if_pos hpp] at ha
              cases ha; cases hb
              exact ho.asymm _ _ hlt
            · rw [if_neg hip] at hb
              by_cases h1 : (i - 1) / 2 = par
              · rw [if_pos h1] at ha
                cases ha
                have := hA i parent b hi hip (by rw [h1]; exact hpar') hb
                exact ho.trans _ _ _ (ho.asymm _ _ hlt) this
              · rw [if_neg h1] at ha
                by_cases h2 : (i - 1) / 2 = pos
                · rw [if_pos h2] at ha
                  cases ha
                  exact hB i parent b (by omega) hi h2 (by rw [hpp]; exact hpar') hb
                · rw [if_neg h2] at ha
                  exact hA i a b hi hip ha hb
          · intro c a b h0' hc hcp ha hb
            rw [key] at ha hb
            rw [if_neg (by omega), if_neg (by omega)] at ha
            rw [if_neg (by omega)] at hb
            have hpa := hA par a parent h0' (by omega) ha hpar'
            by_cases hcp' : c = pos
            · rw [if_pos hcp'] at hb
              cases hb; exact hpa
            · rw [if_neg hcp'] at hb
              have := hA c parent b hc hcp' (by rw [hcp]; exact hpar') hb
              exact ho.trans _ _ _ hpa this
        obtain ⟨r1, r2⟩ := ih (h.set pos parent) par (by simpa using hpl) (by omega) hdi
        exact ⟨r1, r2.trans hsw⟩
      · next hlt =>
        refine ⟨?_, List.Perm.refl _⟩
        intro i a b hi ha hb
        by_cases hip : i = pos
        · subst hip
          rw [hpp, hpar'] at ha
          rw [hpos'] at hb
          cases ha; cases hb
          simpa using hlt
        · exact hd.1 i a b hi hip ha hb

theorem siftdown_spec {lt : α → α → Bool} (ho : IsOrder lt) (h : List α) (pos : Nat)
    (hp : pos < h.length) (hd : DownInv lt h pos) :
    HeapInv lt (siftdown lt h pos) ∧ (siftdown lt h pos).Perm h := by
  have he : h[pos]? = some h[pos] := List.getElem?_eq_getElem hp
  have hs : h.set pos h[pos] = h := List.set_getElem_self hp
  simp only [siftdown, he]
  have := siftdownLoop_spec ho h[pos] pos h pos hp (Nat.le_refl _) (by rw [hs]; exact hd)
  rw [hs] at this
  exact this

theorem siftdown_perm (lt : α → α → Bool) (h : List α) (pos : Nat) : (siftdown lt h pos).Perm h := by
  have loop : ∀ (x : α) (fuel : Nat) (h : List α) (pos : Nat), pos < h.length →
      (siftdownLoop lt x fuel h pos).Perm (h.set pos x) := by
    intro x fuel
    induction fuel with
    | zero => intro h pos _; exact List.Perm.refl _
    | succ fuel ih =>
      intro h pos hp
      simp only [siftdownLoop]
      split
      · exact List.Perm.refl _
      · split
        · exact List.Perm.refl _
        · next parent he =>
          split
          · have := ih (h.set pos parent) ((pos - 1) / 2) (by simp; omega)
            exact this.trans (perm_swap h pos _ x parent (by omega) hp he)
          · exact List.Perm.refl _
  unfold siftdown
  split
  · exact List.Perm.refl _
  · next x he =>
    obtain ⟨hp, hx⟩ := List.getElem?_eq_some_iff.1 he
    have := loop x pos h pos hp
    rw [← hx] at this ⊢
    rwa [List.set_getElem_self hp] at this

theorem siftupLoop_spec {lt : α → α → Bool} (ho : IsOrder lt) (x : α) (fuel : Nat) (h : List α)
    (pos : Nat) (hp : pos < h.length) (hf : h.length ≤ fuel + pos) (hu : UpInv lt (h.set pos x) pos) :
    (siftupLoop lt fuel h pos).2 < (siftupLoop lt fuel h pos).1.length ∧
    DownInv lt ((siftupLoop lt fuel h pos).1.set (siftupLoop lt fuel h pos).2 x)
      (siftupLoop lt fuel h pos).2 ∧
    ((siftupLoop lt fuel h pos).1.set (siftupLoop lt fuel h pos).2 x).Perm (h.set pos x) := by
  induction fuel generalizing h pos with
  | zero => omega
  | succ fuel ih =>
    -- one turn with child `c` of value `v`
    have turn : ∀ (c : Nat) (v : α), h[c]? = some v → (c = 2 * pos + 1 ∨ c = 2 * pos + 2) →
        (∀ s w, 0 < s → (s - 1) / 2 = pos → h[s]? = some w → lt w v = false) →
        (siftupLoop lt fuel (h.set pos v) c).2 < (siftupLoop lt fuel (h.set pos v) c).1.length ∧
        DownInv lt ((siftupLoop lt fuel (h.set pos v) c).1.set (siftupLoop lt fuel (h.set pos v) c).2 x)
          (siftupLoop lt fuel (h.set pos v) c).2 ∧
        ((siftupLoop lt fuel (h.set pos v) c).1.set (siftupLoop lt fuel (h.set pos v) c).2 x).Perm
          (h.set pos x) := by
      intro c v hv hc hmin
      have hcl : c < h.length := (List.getElem?_eq_some_iff.1 hv).1
      have hsw := perm_swap h pos c x v (by omega) hp hv
      have key : ∀ i, ((h.set pos v).set c x)[i]? =
          if i = c then some x else if i = pos then some v else (h.set pos x)[i]? := by
        intro i
        simp only [List.getElem?_set, List.length_set]
        grind
      have hne : ∀ i, i ≠ pos → (h.set pos x)[i]? = h[i]? := fun i hi =>
        List.getElem?_set_ne (by omega)
      obtain ⟨hA, hB⟩ := hu
      have hui : UpInv lt ((h.set pos v).set c x) c := by
        constructor
        · intro i a b hi hic hpc ha hb
          rw [key, if_neg hpc] at ha
          rw [key, if_neg hic] at hb
          by_cases hip : i = pos
          · rw [if_pos hip] at hb
            cases hb
            rw [if_neg (by omega), hip] at ha
            refine hB c a v (by omega) (by omega) (by omega) ha ?_
            rw [hne c (by omega)]; exact hv
          · rw [if_neg hip] at hb
            by_cases hpp : (i - 1) / 2 = pos
            · rw [if_pos hpp] at ha
              cases ha
              rw [hne i hip] at hb
              exact hmin i b hi hpp hb
            · rw [if_neg hpp] at ha
              exact hA i a b hi hip hpp ha hb
        · intro d a b _ hd hdc ha hb
          rw [key, if_neg (by omega), if_pos (by omega)] at ha
          cases ha
          rw [key, if_neg (by omega), if_neg (by omega)] at hb
          refine hA d v b hd (by omega) (by omega) ?_ hb
          rw [hdc, hne c (by omega)]; exact hv
      obtain ⟨r0, r1, r2⟩ := ih (h.set pos v) c (by simpa using hcl) (by simp; omega) hui
      exact ⟨r0, r1, r2.trans hsw⟩
    simp only [siftupLoop]
    split
    · next hn =>
      have hl : h.length ≤ 2 * pos + 1 := List.getElem?_eq_none_iff.1 hn
      refine ⟨hp, ⟨?_, hu.2⟩, List.Perm.refl _⟩
      intro i a b hi hne ha hb
      have hil := (List.getElem?_eq_some_iff.1 hb).1
      simp only [List.length_set] at hil
      exact hu.1 i a b hi hne (by omega) ha hb
    · next child hc =>
      split
      · next hn =>
        have hl : h.length ≤ 2 * pos + 2 := List.getElem?_eq_none_iff.1 hn
        apply turn _ _ hc (.inl rfl)
        intro s w hs hsp hw
        have hsl := (List.getElem?_eq_some_iff.1 hw).1
        have : s = 2 * pos + 1 := by omega
        subst this
        rw [hc] at hw; cases hw
        cases hlt : lt child child with
        | false => rfl
        | true => have := ho.asymm _ _ hlt; rw [hlt] at this; exact this
      · next right hr =>
        have irr : ∀ a, lt a a = false := by
          intro a
          cases hlt : lt a a with
          | false => rfl
          | true => have := ho.asymm _ _ hlt; rw [hlt] at this; exact this
        split
        · next hlt =>
          apply turn _ _ hc (.inl rfl)
          intro s w hs hsp hw
          rcases (by omega : s = 2 * pos + 1 ∨ s = 2 * pos + 2) with rfl | rfl
          · rw [hc] at hw; cases hw; exact irr _
          · rw [hr] at hw; cases hw; exact ho.asymm _ _ hlt
        · next hlt =>
          apply turn _ _ hr (.inr rfl)
          intro s w hs hsp hw
          rcases (by omega : s = 2 * pos + 1 ∨ s = 2 * pos + 2) with rfl | rfl
          · rw [hc] at hw; cases hw; simpa using hlt
          · rw [hr] at hw; cases hw; exact irr _

theorem heappush_spec {lt : α → α → Bool} (ho : IsOrder lt) (h : List α) (x : α) (hh : HeapInv lt h) :
    HeapInv lt (heappush lt h x) ∧ (heappush lt h x).Perm (x :: h) := by
  have hd : DownInv lt (h ++ [x]) h.length := by
    constructor
    · intro i a b hi hne ha hb
      have hil := (List.getElem?_eq_some_iff.1 hb).1
      simp at hil
      rw [List.getElem?_append_left (by omega)] at ha hb
      exact hh i a b hi ha hb
    · intro c a b _ hc hcp ha hb
      have hil := (List.getElem?_eq_some_iff.1 hb).1
      simp at hil
      omega
  obtain ⟨h1, h2⟩ := siftdown_spec ho (h ++ [x]) h.length (by simp) hd
  exact ⟨h1, h2.trans (List.perm_append_singleton x h)⟩

theorem HeapInv.min {lt : α → α → Bool} (ho : IsOrder lt) {h : List α} {a : α} (hh : HeapInv lt h)
    (ha : h[0]? = some a) : ∀ b ∈ h, lt b a = false := by
  have : ∀ (i : Nat) b, h[i]? = some b → lt b a = false := by
    intro i
    induction i using Nat.strongRecOn with
    | ind i ih =>
      intro b hb
      by_cases h0 : i = 0
      · subst h0
        rw [ha] at hb; cases hb
        cases hlt : lt a a with
        | false => rfl
        | true => have := ho.asymm _ _ hlt; rw [hlt] at this; exact this
      · have hil := (List.getElem?_eq_some_iff.1 hb).1
        have hp : h[(i - 1) / 2]? = some h[(i - 1) / 2] := List.getElem?_eq_getElem (by omega)
        exact ho.trans _ _ _ (ih _ (by omega) _ hp) (hh i _ _ (by omega) hp hb)
  intro b hb
  obtain ⟨i, hi⟩ := List.getElem?_of_mem hb
  exact this i b hi

theorem heappop_spec {lt : α → α → Bool} (ho : IsOrder lt) (h : List α) (hh : HeapInv lt h)
    (hne : h ≠ []) :
    ∃ a h', heappop lt h = .ok (a, h') ∧ h[0]? = some a ∧ HeapInv lt h' ∧ (a :: h').Perm h ∧
      ∀ b ∈ h, lt b a = false := by
  rcases List.eq_nil_or_concat h with rfl | ⟨l, last, rfl⟩
  · exact absurd rfl hne
  · simp only [List.concat_eq_append] at *
    cases l with
    | nil =>
      refine ⟨last, [], by simp [heappop], rfl, ?_, List.Perm.refl _, ?_⟩
      · intro i a b _ ha; simp at ha
      · exact hh.min ho rfl
    | cons a rest =>
      have hpop : heappop lt (a :: rest ++ [last]) = .ok (a, siftup lt (last :: rest)) := by
        have h1 : (a :: rest ++ [last]).getLast? = some last := List.getLast?_concat
        have h2 : (a :: rest ++ [last]).dropLast = a :: rest := List.dropLast_concat
        simp only [heappop, h1, h2]
      have hu : UpInv lt ((last :: rest).set 0 last) 0 := by
        constructor
        · intro i x y hi _ hp hx hy
          have hil := (List.getElem?_eq_some_iff.1 hy).1
          simp at hil
          simp only [List.set_cons_zero] at hx hy
          have e : ∀ j, 0 < j → j < rest.length + 1 → (last :: rest)[j]? = (a :: rest ++ [last])[j]? := by
            intro j hj hjl
            cases j with
            | zero => omega
            | succ j => simp [List.getElem?_append_left (show j < rest.length by omega)]
          rw [e _ (by omega) (by omega)] at hx
          rw [e _ (by omega) (by omega)] at hy
          exact hh i x y hi hx hy
        · intro c x y h0; omega
      obtain ⟨r0, r1, r2⟩ := siftupLoop_spec ho last (last :: rest).length (last :: rest) 0 (by simp)
        (by simp) hu
      have hs : siftup lt (last :: rest) = siftdown lt
          ((siftupLoop lt (last :: rest).length (last :: rest) 0).1.set
            (siftupLoop lt (last :: rest).length (last :: rest) 0).2 last)
          (siftupLoop lt (last :: rest).length (last :: rest) 0).2 := rfl
      obtain ⟨s1, s2⟩ := siftdown_spec ho _ _ (by simpa using r0) r1
      refine ⟨a, _, hpop, by simp, by rw [hs]; exact s1, ?_, hh.min ho (by simp)⟩
      rw [hs]
      have h3 := s2.trans r2
      simp only [List.set_cons_zero] at h3
      refine (h3.cons a).trans ?_
      simpa using (List.perm_append_singleton last rest).symm.cons a

/-- Raising or keeping an element in place needs no repair: `_siftdown` on a heap changes
nothing. -/
theorem siftdown_heap {lt : α → α → Bool} (h : List α) (hh : HeapInv lt h) (pos : Nat) :
    siftdown lt h pos = h := by
  unfold siftdown
  split
  · rfl
  · next x he =>
    obtain ⟨hp, hx⟩ := List.getElem?_eq_some_iff.1 he
    have hs : h.set pos x = h := by rw [← hx]; exact List.set_getElem_self hp
    cases pos with
    | zero => exact hs
    | succ p =>
      simp only [siftdownLoop]
      rw [if_neg (by omega)]
      split
      · exact hs
      · next a ha =>
        rw [if_neg, hs]
        have := hh (p + 1) a x (by omega) ha he
        simp [this]

end Verif.Queue
