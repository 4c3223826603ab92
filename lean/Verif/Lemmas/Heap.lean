import Verif.Heap

/-!
# `heapq` keeps a heap and loses nothing
-/

namespace Verif

section
variable {α : Type} (lt : α → α → Bool)

/-- `lt` is a strict weak order: comparison by some key in a total order, ties allowed. -/
structure WeakOrder : Prop where
  asymm : ∀ a b, lt a b = true → lt b a = false
  negtrans : ∀ a b c, lt a b = false → lt b c = false → lt a c = false

/-- Each element is not smaller than its parent. -/
def IsHeap (h : List α) : Prop :=
  ∀ (i : Nat) (a b : α), 0 < i → h[(i - 1) / 2]? = some a → h[i]? = some b → lt b a = false

variable {lt}

theorem WeakOrder.irrefl (hw : WeakOrder lt) (a : α) : lt a a = false := by
  cases h : lt a a with
  | false => rfl
  | true => have := hw.asymm a a h; rw [h] at this; cases this

/-- The top of a heap is a least element. -/
theorem IsHeap.min (hw : WeakOrder lt) {h : List α} (hh : IsHeap lt h) {a b : α}
    (ha : h[0]? = some a) (hb : b ∈ h) : lt b a = false := by
  obtain ⟨i, hi⟩ := List.getElem?_of_mem hb
  clear hb
  induction i using Nat.strongRecOn generalizing b with
  | ind i ih =>
    by_cases h0 : i = 0
    · subst h0; rw [ha] at hi; injection hi with hi; subst hi; exact hw.irrefl a
    · have hlt : i < h.length := (List.getElem?_eq_some_iff.mp hi).1
      have hp : (i - 1) / 2 < h.length := by omega
      have hpe := List.getElem?_eq_getElem hp
      exact hw.negtrans _ _ _ (hh i _ _ (by omega) hpe hi) (ih _ (by omega) hpe)

theorem set_swap_perm {l : List α} {i j : Nat} {x y : α} (hij : i ≠ j)
    (hi : i < l.length) (hj : l[j]? = some y) :
    ((l.set i y).set j x).Perm (l.set i x) := by
  have hjl : j < l.length := (List.getElem?_eq_some_iff.mp hj).1
  have hjv : l[j] = y := (List.getElem?_eq_some_iff.mp hj).2
  have h1 : i < (l.set i x).length := by simpa using hi
  have h2 : j < (l.set i x).length := by simpa using hjl
  have := List.set_set_perm h1 h2
  have e1 : (l.set i x)[i]'h1 = x := by simp
  have e2 : (l.set i x)[j]'h2 = y := by rw [List.getElem_set_ne hij]; exact hjv
  rw [e1, e2, List.set_set] at this
  exact this

theorem siftdown_length (fuel : Nat) (h : List α) (x : α) (pos : Nat) :
    (siftdown lt fuel h x pos).length = h.length := by
  induction fuel generalizing h pos with
  | zero => simp [siftdown]
  | succ fuel ih =>
    simp only [siftdown]
    split
    · split
      · split
        · rw [ih]; simp
        · simp
      · simp
    · simp

theorem siftdown_perm (fuel : Nat) (h : List α) (x : α) (pos : Nat) (hp : pos < h.length) :
    (siftdown lt fuel h x pos).Perm (h.set pos x) := by
  induction fuel generalizing h pos with
  | zero => exact List.Perm.refl _
  | succ fuel ih =>
    simp only [siftdown]
    split
    · split
      · rename_i parent hpar
        split
        · refine (ih _ _ (by simp; omega)).trans ?_
          exact set_swap_perm (by omega) hp hpar
        · exact List.Perm.refl _
      · exact List.Perm.refl _
    · exact List.Perm.refl _

/-- All edges of the heap are in order but perhaps the one from `pos` to its parent, and the
children of `pos` are not smaller than the parent of `pos`. -/
structure DownInv (v : List α) (pos : Nat) : Prop where
  edges : ∀ (i : Nat) (a b : α), 0 < i → i ≠ pos → v[(i - 1) / 2]? = some a → v[i]? = some b →
    lt b a = false
  grand : ∀ (i : Nat) (a b : α), 0 < i → (i - 1) / 2 = pos → 0 < pos →
    v[(pos - 1) / 2]? = some a → v[i]? = some b → lt b a = false

theorem siftdown_heap (hw : WeakOrder lt) (fuel : Nat) (h : List α) (x : α) (pos : Nat)
    (hp : pos < h.length) (hf : pos ≤ fuel) (hinv : DownInv (lt := lt) (h.set pos x) pos) :
    IsHeap lt (siftdown lt fuel h x pos) := by
  induction fuel generalizing h pos with
  | zero =>
    intro i a b hi ha hb
    exact hinv.edges i a b hi (by omega) ha hb
  | succ fuel ih =>
    simp only [siftdown]
    split
    · rename_i h0
      split
      · rename_i parent hpar
        have hne : pos ≠ (pos - 1) / 2 := by omega
        split
        · rename_i hlt
          apply ih _ _ (by simp; omega) (by omega)
          have hpl : (pos - 1) / 2 < h.length := by omega
          constructor
          · intro i a b hi hne' ha hb
            rw [List.getElem?_set_ne (by omega)] at hb
            by_cases h1 : i = pos
            · subst h1
              rw [List.getElem?_set_self (by simpa using hp)] at hb
              rw [List.getElem?_set_self (by simpa using hpl)] at ha
              injection hb with hb; injection ha with ha; subst ha; subst hb
              exact hw.asymm _ _ hlt
            · rw [List.getElem?_set_ne (Ne.symm h1)] at hb
              by_cases h2 : (i - 1) / 2 = (pos - 1) / 2
              · rw [h2, List.getElem?_set_self (by simpa using hpl)] at ha
                injection ha with ha; subst ha
                have e := hinv.edges i parent b hi h1
                  (by rw [h2, List.getElem?_set_ne hne]; exact hpar)
                  (by rw [List.getElem?_set_ne (Ne.symm h1)]; exact hb)
                exact hw.negtrans _ _ _ e (hw.asymm _ _ hlt)
              · rw [List.getElem?_set_ne (Ne.symm h2)] at ha
                by_cases h3 : (i - 1) / 2 = pos
                · rw [h3, List.getElem?_set_self hp] at ha
                  injection ha with ha; subst ha
                  exact hinv.grand i parent b hi h3 h0 (by rw [List.getElem?_set_ne hne]; exact hpar)
                    (by rw [List.getElem?_set_ne (Ne.symm h1)]; exact hb)
                · rw [List.getElem?_set_ne (Ne.symm h3)] at ha
                  exact hinv.edges i a b hi h1 (by rw [List.getElem?_set_ne (Ne.symm h3)]; exact ha)
                    (by rw [List.getElem?_set_ne (Ne.symm h1)]; exact hb)
          · intro i a b hi hpi h0' ha hb
            rw [List.getElem?_set_ne (by omega), List.getElem?_set_ne (by omega)] at ha
            rw [List.getElem?_set_ne (by omega)] at hb
            have hgp : lt parent a = false := hinv.edges _ a parent h0' (by omega)
              (by rw [List.getElem?_set_ne (by omega)]; exact ha)
              (by rw [List.getElem?_set_ne hne]; exact hpar)
            by_cases h1 : i = pos
            · subst h1
              rw [List.getElem?_set_self hp] at hb
              injection hb with hb; subst hb
              exact hgp
            · rw [List.getElem?_set_ne (Ne.symm h1)] at hb
              have e := hinv.edges i parent b hi h1
                (by rw [hpi, List.getElem?_set_ne hne]; exact hpar)
                (by rw [List.getElem?_set_ne (Ne.symm h1)]; exact hb)
              exact hw.negtrans _ _ _ e hgp
        · rename_i hlt
          intro i a b hi ha hb
          by_cases h1 : i = pos
          · subst h1
            rw [List.getElem?_set_self hp] at hb
            rw [List.getElem?_set_ne hne, hpar] at ha
            injection hb with hb; injection ha with ha; subst ha; subst hb
            simpa using hlt
          · exact hinv.edges i a b hi h1 ha hb
      · rename_i hnone
        exact absurd (List.getElem?_eq_none_iff.mp hnone) (by omega)
    · rename_i h0
      intro i a b hi ha hb
      exact hinv.edges i a b hi (by omega) ha hb

/-- All edges that do not touch `pos` are in order, and the children of `pos` are not smaller than
the parent of `pos`. -/
structure UpInv (v : List α) (pos : Nat) : Prop where
  edges : ∀ (i : Nat) (a b : α), 0 < i → i ≠ pos → (i - 1) / 2 ≠ pos →
    v[(i - 1) / 2]? = some a → v[i]? = some b → lt b a = false
  grand : ∀ (i : Nat) (a b : α), 0 < i → (i - 1) / 2 = pos → 0 < pos →
    v[(pos - 1) / 2]? = some a → v[i]? = some b → lt b a = false

theorem smallerChild_or (h : List α) (c : Nat) :
    smallerChild lt h c = c ∨ smallerChild lt h c = c + 1 := by
  simp only [smallerChild]
  split
  · split <;> simp
  · simp

theorem smallerChild_none (h : List α) (c : Nat) (hn : h[smallerChild lt h c]? = none) :
    h.length ≤ c := by
  simp only [smallerChild] at hn
  split at hn
  · rename_i l r hl hr
    split at hn
    · rw [hl] at hn; cases hn
    · rw [hr] at hn; cases hn
  · exact List.getElem?_eq_none_iff.mp hn

theorem smallerChild_le (hw : WeakOrder lt) (h : List α) (c : Nat) (a b : α) (i : Nat)
    (hi : i = c ∨ i = c + 1) (ha : h[smallerChild lt h c]? = some a) (hb : h[i]? = some b) :
    lt b a = false := by
  simp only [smallerChild] at ha
  split at ha
  · rename_i l r hl hr
    split at ha
    · rename_i hlt
      rw [hl] at ha; injection ha with ha; subst ha
      rcases hi with rfl | rfl
      · rw [hl] at hb; injection hb with hb; subst hb; exact hw.irrefl _
      · rw [hr] at hb; injection hb with hb; subst hb; exact hw.asymm _ _ hlt
    · rename_i hlt
      rw [hr] at ha; injection ha with ha; subst ha
      rcases hi with rfl | rfl
      · rw [hl] at hb; injection hb with hb; subst hb; simpa using hlt
      · rw [hr] at hb; injection hb with hb; subst hb; exact hw.irrefl _
  · rename_i hnot
    rcases hi with rfl | rfl
    · rw [ha] at hb; injection hb with hb; subst hb; exact hw.irrefl _
    · exact absurd hb (hnot a b ha)

theorem siftup_length (fuel : Nat) (h : List α) (x : α) (pos : Nat) :
    (siftup lt fuel h x pos).length = h.length := by
  induction fuel generalizing h pos with
  | zero => simp [siftup, siftdown_length]
  | succ fuel ih =>
    simp only [siftup]
    split
    · rw [ih]; simp
    · rw [siftdown_length]

theorem siftup_perm (fuel : Nat) (h : List α) (x : α) (pos : Nat) (hp : pos < h.length) :
    (siftup lt fuel h x pos).Perm (h.set pos x) := by
  induction fuel generalizing h pos with
  | zero => exact siftdown_perm _ _ _ _ hp
  | succ fuel ih =>
    simp only [siftup]
    split
    · rename_i c hc
      have hcl := (List.getElem?_eq_some_iff.mp hc).1
      refine (ih _ _ (by simpa using hcl)).trans ?_
      have := smallerChild_or (lt := lt) h (2 * pos + 1)
      exact set_swap_perm (by omega) hp hc
    · exact siftdown_perm _ _ _ _ hp

theorem siftup_heap (hw : WeakOrder lt) (fuel : Nat) (h : List α) (x : α) (pos : Nat)
    (hp : pos < h.length) (hf : h.length ≤ pos + fuel)
    (hinv : UpInv (lt := lt) (h.set pos x) pos) :
    IsHeap lt (siftup lt fuel h x pos) := by
  induction fuel generalizing h pos with
  | zero => omega
  | succ fuel ih =>
    simp only [siftup]
    split
    · rename_i c hc
      have hor := smallerChild_or (lt := lt) h (2 * pos + 1)
      have hmin := smallerChild_le hw h (2 * pos + 1) c
      generalize smallerChild lt h (2 * pos + 1) = cp at *
      have hcl := (List.getElem?_eq_some_iff.mp hc).1
      have hpar : (cp - 1) / 2 = pos := by omega
      apply ih _ _ (by simpa using hcl) (by simp; omega)
      constructor
      · intro i a b hi h1 h2 ha hb
        rw [List.getElem?_set_ne (by omega)] at hb
        rw [List.getElem?_set_ne (by omega)] at ha
        by_cases h3 : i = pos
        · subst h3
          rw [List.getElem?_set_self hp] at hb
          injection hb with hb; subst hb
          rw [List.getElem?_set_ne (by omega)] at ha
          exact hinv.grand cp a c (by omega) hpar hi
            (by rw [List.getElem?_set_ne (by omega)]; exact ha)
            (by rw [List.getElem?_set_ne (by omega)]; exact hc)
        · rw [List.getElem?_set_ne (Ne.symm h3)] at hb
          by_cases h4 : (i - 1) / 2 = pos
          · rw [h4, List.getElem?_set_self hp] at ha
            injection ha with ha; subst ha
            exact hmin b i (by omega) hc hb
          · rw [List.getElem?_set_ne (Ne.symm h4)] at ha
            exact hinv.edges i a b hi h3 h4 (by rw [List.getElem?_set_ne (Ne.symm h4)]; exact ha)
              (by rw [List.getElem?_set_ne (Ne.symm h3)]; exact hb)
      · intro i a b hi h1 h0 ha hb
        rw [hpar, List.getElem?_set_ne (by omega), List.getElem?_set_self hp] at ha
        injection ha with ha; subst ha
        rw [List.getElem?_set_ne (by omega), List.getElem?_set_ne (by omega)] at hb
        exact hinv.edges i c b hi (by omega) (by omega)
          (by rw [h1, List.getElem?_set_ne (by omega)]; exact hc)
          (by rw [List.getElem?_set_ne (by omega)]; exact hb)
    · rename_i hn
      have hlen := smallerChild_none h _ hn
      apply siftdown_heap hw _ _ _ _ hp (Nat.le_refl _)
      constructor
      · intro i a b hi h1 ha hb
        by_cases h2 : (i - 1) / 2 = pos
        · have := (List.getElem?_eq_some_iff.mp hb).1
          simp at this; omega
        · exact hinv.edges i a b hi h1 h2 ha hb
      · intro i a b hi h1 _ _ hb
        have := (List.getElem?_eq_some_iff.mp hb).1
        simp at this; omega

theorem heappush_perm (h : List α) (x : α) : (heappush lt h x).Perm (x :: h) := by
  unfold heappush
  refine (siftdown_perm _ _ _ _ (by simp)).trans ?_
  have : (h ++ [x]).set h.length x = h ++ [x] := by simp
  rw [this]
  exact List.perm_append_singleton x h

theorem heappush_heap (hw : WeakOrder lt) (h : List α) (x : α) (hh : IsHeap lt h) :
    IsHeap lt (heappush lt h x) := by
  unfold heappush
  apply siftdown_heap hw _ _ _ _ (by simp) (Nat.le_refl _)
  have e : (h ++ [x]).set h.length x = h ++ [x] := by simp
  rw [e]
  constructor
  · intro i a b hi h1 ha hb
    have hbl := (List.getElem?_eq_some_iff.mp hb).1
    simp at hbl
    rw [List.getElem?_append_left (by omega)] at ha hb
    exact hh i a b hi ha hb
  · intro i a b hi h1 _ _ hb
    have hbl := (List.getElem?_eq_some_iff.mp hb).1
    simp at hbl; omega

theorem siftup_root_heap (hw : WeakOrder lt) (rest : List α) (first x : α)
    (hh : IsHeap lt (first :: rest)) : IsHeap lt (siftup lt (rest.length + 1) (x :: rest) x 0) := by
  apply siftup_heap hw _ _ _ _ (by simp) (by simp)
  have e : (x :: rest).set 0 x = x :: rest := rfl
  rw [e]
  constructor
  · intro i a b hi h1 h2 ha hb
    apply hh i a b hi
    · obtain ⟨k, hk⟩ := Nat.exists_eq_succ_of_ne_zero h2
      rw [hk] at ha ⊢; exact ha
    · obtain ⟨k, hk⟩ := Nat.exists_eq_succ_of_ne_zero h1
      rw [hk] at hb ⊢; exact hb
  · intro i a b hi h1 h0; omega

theorem siftup_root_perm (fuel : Nat) (rest : List α) (x : α) :
    (siftup lt fuel (x :: rest) x 0).Perm (x :: rest) :=
  siftup_perm _ _ _ _ (by simp)

theorem IsHeap.dropLast {h : List α} (hh : IsHeap lt h) : IsHeap lt h.dropLast := by
  intro i a b hi ha hb
  have hbl := (List.getElem?_eq_some_iff.mp hb).1
  simp at hbl
  simp only [List.getElem?_dropLast] at ha hb
  rw [if_pos (by omega)] at ha hb
  exact hh i a b hi ha hb

/-- `heappop` removes the top and keeps a heap. -/
theorem heappop_spec (hw : WeakOrder lt) (first : α) (rest : List α)
    (hh : IsHeap lt (first :: rest)) :
    ∃ h', heappop lt (first :: rest) = some (first, h') ∧ h'.Perm rest ∧ IsHeap lt h' := by
  cases hr : rest.reverse with
  | nil =>
    have : rest = [] := by simpa using hr
    subst this
    exact ⟨[], rfl, List.Perm.refl _, by intro i a b _ _ hb; simp at hb⟩
  | cons last init =>
    have hrest : rest = init.reverse ++ [last] := by
      have := congrArg List.reverse hr; simpa using this
    have h1 : (first :: rest).getLast? = some last := by
      rw [hrest, ← List.cons_append, List.getLast?_concat]
    have h2 : (first :: rest).dropLast = first :: init.reverse := by
      rw [hrest, ← List.cons_append, List.dropLast_concat]
    refine ⟨siftup lt (init.reverse.length + 1) (last :: init.reverse) last 0, ?_, ?_, ?_⟩
    · simp only [heappop, h1, h2]
    · refine (siftup_root_perm _ _ _).trans ?_
      rw [hrest]
      exact (List.perm_append_singleton last init.reverse).symm
    · apply siftup_root_heap hw _ first
      rw [← h2]; exact hh.dropLast

theorem heappop_nil : heappop lt ([] : List α) = none := rfl

/-- `heappushpop` when the top is smaller than the new item. -/
theorem heappushpop_spec (hw : WeakOrder lt) (first : α) (rest : List α) (x : α)
    (hh : IsHeap lt (first :: rest)) (hlt : lt first x = true) :
    ∃ h', heappushpop lt (first :: rest) x = (first, h') ∧ h'.Perm (x :: rest) ∧ IsHeap lt h' :=
  ⟨_, by simp only [heappushpop, hlt, if_true], siftup_root_perm _ _ _,
    siftup_root_heap hw _ first _ hh⟩

theorem siftdown_head (fuel : Nat) (h : List α) (x : α) (pos : Nat) :
    (siftdown lt fuel h x pos)[0]? = some x ∨ (siftdown lt fuel h x pos)[0]? = h[0]? := by
  have hset : ∀ (l : List α) (p : Nat), (l.set p x)[0]? = some x ∨ (l.set p x)[0]? = l[0]? := by
    intro l p
    cases l with
    | nil => right; rfl
    | cons a l => cases p with
      | zero => left; rfl
      | succ p => right; rfl
  induction fuel generalizing h pos with
  | zero => exact hset h pos
  | succ fuel ih =>
    simp only [siftdown]
    split
    · rename_i h0
      split
      · rename_i parent _
        split
        · have := ih (h.set pos parent) ((pos - 1) / 2)
          rw [List.getElem?_set_ne (show pos ≠ 0 by omega)] at this
          exact this
        · exact hset h pos
      · exact hset h pos
    · exact hset h pos

/-- The top of the heap after a push is the new item or the old top. -/
theorem heappush_head (h : List α) (x : α) :
    (heappush lt h x)[0]? = some x ∨ (heappush lt h x)[0]? = h[0]? := by
  have := siftdown_head (lt := lt) h.length (h ++ [x]) x h.length
  unfold heappush
  cases h with
  | nil => left; rfl
  | cons a h => exact this

theorem isHeap_nil : IsHeap lt ([] : List α) := by intro i a b _ _ hb; simp at hb

end

end Verif
