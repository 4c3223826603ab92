import Verif.Props.Ranges
import Verif.Props.Search

/-!
# C140: a piece with a forced chord and a forced key on every note

`get_chord_ranges` (joint_model.py:669-791) and `beam_search` (joint_model.py:839-1103) together: the
search gets the ranges that `get_chord_ranges` has found with the same forced ids.
-/

namespace Verif.LabelledThroughout

open Verif State SearchData RangeInput

/-! ## What a range with forced ids holds -/

section
variable {π κ δ : Type} [LinearOrder π] [AddCommGroup κ] [AddCommMonoid δ] [LinearOrder δ]

/-- The least position after `j` that satisfies `p`. -/
theorem exists_next (p : Nat → Prop) [DecidablePred p] (j : Nat) :
    ∀ e, (∃ v, j < v ∧ v ≤ e ∧ p v ∧ ∀ u, j < u → u < v → ¬ p u) ∨ (∀ u, j < u → u ≤ e → ¬ p u) := by
  intro e
  induction e with
  | zero => exact .inr (fun u h1 h2 => by omega)
  | succ e ih =>
    rcases ih with ⟨v, h1, h2, h3, h4⟩ | h
    · exact .inl ⟨v, h1, by omega, h3, h4⟩
    · by_cases hp : p (e + 1) ∧ j < e + 1
      · exact .inl ⟨e + 1, hp.2, Nat.le_refl _, hp.1, fun u h1 h2 => h u h1 (by omega)⟩
      · refine .inr (fun u h1 h2 hu => ?_)
        rcases Nat.lt_or_eq_of_le h2 with h3 | rfl
        · exact h u h1 (by omega) hu
        · exact hp ⟨hu, h1⟩

omit [LinearOrder π] [AddCommGroup κ] [LinearOrder δ] in
theorem const_on_onset (A : RangeInput π κ δ) (f : Nat → Int)
    (hs : ∀ i, i + 1 < A.n → A.dur i = 0 → f (i + 1) = f i) (a b : Nat) (hab : a ≤ b) (hb : b < A.n)
    (hz : ∀ u, a ≤ u → u < b → A.dur u = 0) : f b = f a := by
  induction b with
  | zero => rw [Nat.le_zero.mp hab]
  | succ b ih =>
    rcases Nat.lt_or_eq_of_le hab with h | rfl
    · rw [hs b hb (hz b (by omega) (by omega))]
      exact ih (by omega) (by omega) (fun u h1 h2 => hz u h1 (by omega))
    · rfl

omit [AddCommGroup κ] in
/-- Neighbouring notes of a range have the same label, if labels are the same on simultaneous notes, are
on every note, and do not change at the last onset unless the chord must change there. -/
theorem seg_step (A : RangeInput π κ δ) (f : Nat → Int) (s e : Nat) (g : A.Seg s e) (ha : A.Agree f s e)
    (hn : ∀ i, i < A.n → f i ≠ -1)
    (hs : ∀ i, i + 1 < A.n → A.dur i = 0 → f (i + 1) = f i)
    (hl : ∀ i, i + 1 < A.n → A.dur i ≠ 0 → (∀ j, i < j → j + 1 < A.n → A.dur j = 0) →
      f (i + 1) = f i ∨ A.maxNoChange < A.changeProb (i + 1))
    (j : Nat) (h1 : s ≤ j) (h2 : j + 1 < e) : f (j + 1) = f j := by
  have hle := g.le
  by_cases hd : A.dur j = 0
  · exact hs j (by omega) hd
  · have hv : A.Valid (j + 1) := ⟨by omega, hd⟩
    rcases exists_next (fun v => A.Valid v ∧ v < A.n) (j + 1) e with ⟨v, v1, v2, ⟨v3, v4⟩, v5⟩ | hno
    · have hz : ∀ u, j + 1 ≤ u → u < v - 1 → A.dur u = 0 := by
        intro u u1 u2
        apply Classical.byContradiction
        intro hne
        exact v5 (u + 1) (by omega) (by omega) ⟨⟨by omega, hne⟩, by omega⟩
      have e1 := const_on_onset A f hs (j + 1) (v - 1) (by omega) (by omega) hz
      have e2 := ha (j + 1) v (by omega) (by omega) (by omega) hv (by omega) v2 v4 v3
        (hn _ (by omega)) (hn _ (by omega))
      rw [← e1, ← e2]; rfl
    · have hen : e = A.n := by
        rcases Nat.lt_or_eq_of_le hle with h | h
        · exact absurd ⟨(g.stop h).1, h⟩ (hno e (by omega) (Nat.le_refl _))
        · exact h
      rcases hl j (by omega) hd (by
        intro i i1 i2
        apply Classical.byContradiction
        intro hne
        exact hno (i + 1) (by omega) (by omega) ⟨⟨by omega, hne⟩, i2⟩) with h | h
      · exact h
      · exact absurd (g.inside (j + 1) (by omega) h2 hv) (not_le.mpr h)

theorem const_of_step (f : Nat → Int) (s e : Nat) (h : ∀ j, s ≤ j → j + 1 < e → f (j + 1) = f j) :
    ∀ j, s ≤ j → j < e → f j = f s := by
  intro j
  induction j with
  | zero => intro h1 _; rw [Nat.le_zero.mp h1]
  | succ j ih =>
    intro h1 h2
    rcases Nat.lt_or_eq_of_le h1 with h3 | rfl
    · rw [h j (by omega) h2]; exact ih (by omega) (by omega)
    · rfl

end

/-! ## Runs -/

/-- Runs that hold the values of a function spell out the function. -/
theorem expandRuns_eq {β : Type} (f : Nat → β) (xs : List β) (a : Nat) (cs : List Nat) (n : Nat)
    (hlen : cs.length = xs.length) (hpw : (a :: cs).Pairwise (· < ·))
    (hlast : (a :: cs).getLast? = some n)
    (h : ∀ (i : Nat) x p q, xs[i]? = some x → (a :: cs)[i]? = some p → (a :: cs)[i + 1]? = some q →
      ∀ j, p ≤ j → j < q → f j = x) :
    expandRuns xs (a :: cs) = (List.range' a (n - a)).map f := by
  induction cs generalizing a xs with
  | nil =>
    simp only [List.getLast?_singleton, Option.some.injEq] at hlast
    subst hlast
    cases xs with
    | nil => simp [expandRuns]
    | cons x xs => simp at hlen
  | cons b cs ih =>
    cases xs with
    | nil => simp at hlen
    | cons x xs =>
      rw [List.getLast?_cons_cons] at hlast
      obtain ⟨hp1, hp2⟩ := List.pairwise_cons.mp hpw
      have hab : a < b := hp1 b (by simp)
      have hbn : b ≤ n := by
        have hm : n ∈ b :: cs := List.mem_of_getLast? hlast
        rcases List.mem_cons.mp hm with rfl | hm
        · exact Nat.le_refl _
        · exact Nat.le_of_lt ((List.pairwise_cons.mp hp2).1 n hm)
      have ih' := ih xs b (by simpa using hlen) hp2 hlast (by
        intro i x' p q e1 e2 e3
        exact h (i + 1) x' p q (by simpa using e1) (by simpa using e2) (by simpa using e3))
      simp only [expandRuns]
      rw [ih']
      have hsplit : List.range' a (n - a) = List.range' a (b - a) ++ List.range' b (n - b) := by
        have e1 : n - a = (b - a) + (n - b) := by omega
        have e2 : b = a + (b - a) := by omega
        rw [e1, ← List.range'_append_1]
        congr 2
        omega
      rw [hsplit, List.map_append]
      congr 1
      symm
      rw [List.eq_replicate_iff]
      refine ⟨by simp, ?_⟩
      intro y hy
      obtain ⟨j, hj, rfl⟩ := List.mem_map.mp hy
      rw [List.mem_range'_1] at hj
      exact h 0 x a b rfl rfl rfl j hj.1 (by omega)

theorem map_range'_list {β : Type} (l : List β) (f : Nat → β) (h : ∀ (i : Nat) x, l[i]? = some x → f i = x) :
    (List.range' 0 l.length).map f = l := by
  apply List.ext_getElem?
  intro i
  by_cases hi : i < l.length
  · rw [List.getElem?_map, List.getElem?_range' hi]
    have hx : l[i]? = some l[i] := List.getElem?_eq_getElem hi
    rw [hx]
    simp [h i _ hx]
  · rw [List.getElem?_eq_none (by simpa using hi), List.getElem?_eq_none (by omega)]

/-! ## C140 -/

section
variable {π τ δ κ ρ H P : Type} [LinearOrder π] [AddCommGroup τ] [AddCommMonoid δ] [LinearOrder δ]
  [Add κ] [Sub κ] [Zero κ] {d : SearchData κ ρ H P}

omit [Add κ] [Sub κ] [Zero κ] in
theorem covered_label (f : Nat → Int) (hlen : ∀ e ∈ d.ranges, e.1 < e.2.stop ∧ e.2.stop ≤ d.numInputs)
    (hf : ∀ i, i < d.numInputs → d.forcedChords[i]? = some (f i)) (hn : ∀ i, i < d.numInputs → f i ≠ -1)
    (hu : ∀ e ∈ d.ranges, ∀ j, e.1 ≤ j → j < e.2.stop → f j = f e.1) {c : Int} {a b : Nat}
    (h : Covered d c a b) : a < b ∧ b ≤ d.numInputs ∧ ∀ j, a ≤ j → j < b → f j = c := by
  have fits : ∀ (a : Nat) (r : RangeData κ), (a, r) ∈ d.ranges → FitsRange d c a r →
      ∀ j, a ≤ j → j < r.stop → f j = c := by
    intro a r hr hfit j h1 h2
    obtain ⟨l1, l2⟩ := hlen _ hr
    simp only at l1 l2
    obtain ⟨k, k1, k2, k3, k4⟩ := hfit.1 ⟨a, f a, Nat.le_refl _, l1, hf a (by omega), hn a (by omega)⟩
    have e1 := hu _ hr j h1 h2
    have e2 := hu _ hr k k1 k2
    rw [hf k (by omega)] at k3
    injection k3 with k3
    rw [e1, ← e2, k3]
  induction h with
  | one hr hfit =>
    obtain ⟨l1, l2⟩ := hlen _ hr
    exact ⟨l1, l2, fits _ _ hr hfit⟩
  | more hc hr hfit ih =>
    obtain ⟨l1, l2⟩ := hlen _ hr
    simp only at l1 l2
    obtain ⟨i1, i2, i3⟩ := ih
    refine ⟨by omega, l2, fun j h1 h2 => ?_⟩
    rename_i b r
    by_cases hj : j < b
    · exact i3 j h1 hj
    · exact fits _ _ hr hfit j (by omega) h2

variable [DecidableEq κ] [DecidableEq H] [DecidableEq P]

/-- C140 (partial): if every note has a forced chord and a forced key, then a state returned by the
search has exactly these chords and keys, note by note. Assumed of the labels: simultaneous notes have
the same labels, the key changes only together with the chord, and the labels do not change at the last
onset of the piece unless a chord change is certain there. Without the last two of these conditions this
is false, see `C140_key_fails` and `C140_last_fails`. -/
theorem C140_labels_partial (A : RangeInput π τ δ) (hmm : A.minChange ≤ A.maxNoChange)
    (rs : List (Nat × Nat × τ)) (rj : List τ) (hA : getChordRanges A = .ok (rs, rj)) (hd : OK d)
    (hn : A.n = d.numInputs) (hr : ∀ e ∈ d.ranges, ∃ lp, (e.1, e.2.stop, lp) ∈ rs)
    (hfc : d.forcedChords = (List.range d.numInputs).map A.forcedChord)
    (hfk : d.forcedKeys = (List.range d.numInputs).map A.forcedKey)
    (hall : ∀ i, i < A.n → A.forcedChord i ≠ -1 ∧ A.forcedKey i ≠ -1)
    (hsim : ∀ i, i + 1 < A.n → A.dur i = 0 →
      A.forcedChord (i + 1) = A.forcedChord i ∧ A.forcedKey (i + 1) = A.forcedKey i)
    (hkey : ∀ i, i + 1 < A.n → A.forcedChord (i + 1) = A.forcedChord i →
      A.forcedKey (i + 1) = A.forcedKey i)
    (hlast : ∀ i, i + 1 < A.n → A.dur i ≠ 0 → (∀ j, i < j → j + 1 < A.n → A.dur j = 0) →
      A.forcedChord (i + 1) = A.forcedChord i ∨ A.maxNoChange < A.changeProb (i + 1))
    (s : State κ H P) (h : d.search = .ok (some s)) :
    expandRuns (getChords s).1 (getChords s).2 = d.forcedChords.map some ∧
    expandRuns (getKeys s).1 (getKeys s).2 = d.forcedKeys := by
  have gC : ∀ i, i < d.numInputs → d.forcedChords[i]? = some (A.forcedChord i) := by
    intro i hi; rw [hfc, List.getElem?_map, List.getElem?_range hi]; rfl
  have gK : ∀ i, i < d.numInputs → d.forcedKeys[i]? = some (A.forcedKey i) := by
    intro i hi; rw [hfk, List.getElem?_map, List.getElem?_range hi]; rfl
  have hlen : ∀ e ∈ d.ranges, e.1 < e.2.stop ∧ e.2.stop ≤ d.numInputs := by
    intro e he
    obtain ⟨lp, hm⟩ := hr e he
    obtain ⟨_, g, _⟩ := (C26_exact A hmm rs rj hA _ _ lp).1 hm
    exact ⟨g.lt, hn ▸ g.le⟩
  have hu : ∀ e ∈ d.ranges, ∀ j, e.1 ≤ j → j < e.2.stop → A.forcedChord j = A.forcedChord e.1 := by
    intro e he
    obtain ⟨lp, hm⟩ := hr e he
    obtain ⟨_, g, _⟩ := (C26_exact A hmm rs rj hA _ _ lp).1 hm
    exact const_of_step _ _ _ (seg_step A A.forcedChord _ _ g g.chords (fun i hi => (hall i hi).1)
      (fun i h1 h2 => (hsim i h1 h2).1) hlast)
  obtain ⟨t1, t2, t3, t4, t5⟩ := C47_tiles hd s h
  obtain ⟨k1, k2, k3, k4, k5⟩ := C47_keys hd s h
  -- every segment has its labels on all its notes
  have hseg : ∀ (i : Nat) (a b : Nat), (getChords s).2[i]? = some a → (getChords s).2[i + 1]? = some b →
      ∀ ch, (getChords s).1[i]? = some ch → ∀ k, (chordKeys s)[i]? = some k → ∀ j, a ≤ j → j < b →
        ch = some (A.forcedChord j) ∧ k = A.forcedKey j := by
    intro i a b h2 h3 ch h1 k h4
    obtain ⟨⟨-, hsegs⟩, -⟩ := search_ok hd h
    obtain ⟨c, e1, e2, e3, e4, -, -⟩ := segs_index s.node s.prev hsegs i ch a b k h1 h2 h3 h4
    obtain ⟨c1, c2, c3⟩ := covered_label A.forcedChord hlen gC
      (fun i hi => (hall i (by omega)).1) hu e3
    have hconst := const_of_step A.forcedKey a b (fun j j1 j2 => hkey j (by omega)
      (by rw [c3 j j1 (by omega), c3 (j + 1) (by omega) j2]))
    obtain ⟨m, m1, m2, m3, m4⟩ := e4 ⟨a, A.forcedKey a, Nat.le_refl _, c1, gK a (by omega),
      (hall a (by omega)).2⟩
    rw [gK m (by omega)] at m3
    injection m3 with m3
    intro j j1 j2
    refine ⟨by rw [e1, c3 j j1 j2], ?_⟩
    rw [hconst j j1 j2, ← m3, hconst m m1 m2]
  obtain ⟨cs, hcs⟩ : ∃ cs, (getChords s).2 = 0 :: cs := by
    cases hc : (getChords s).2 with
    | nil => rw [hc] at t2; cases t2
    | cons x cs =>
      rw [hc] at t2
      simp only [List.head?_cons, Option.some.injEq] at t2
      exact ⟨cs, by rw [t2]⟩
  have hcl : cs.length = (getChords s).1.length := by
    rw [hcs] at t1; simpa using t1
  rw [hcs] at t3 t4 hseg
  have fC : d.forcedChords.length = d.numInputs := by rw [hfc]; simp
  have fK : d.forcedKeys.length = d.numInputs := by rw [hfk]; simp
  have getSome : ∀ {γ : Type} (l : List γ) (i m : Nat), l.length = m → i < m → ∃ x, l[i]? = some x := by
    intro γ l i m hm hi
    exact ⟨_, List.getElem?_eq_getElem (by omega)⟩
  constructor
  · rw [hcs, expandRuns_eq (fun j => some (A.forcedChord j)) _ 0 cs d.numInputs hcl t3 t4]
    · rw [Nat.sub_zero]
      have := map_range'_list (d.forcedChords.map some) (fun j => some (A.forcedChord j)) (by
        intro i x hx
        rw [List.getElem?_map] at hx
        have hi : i < d.numInputs := by
          apply Classical.byContradiction
          intro hge
          rw [List.getElem?_eq_none (by omega)] at hx
          cases hx
        rw [gC i hi] at hx
        simpa using hx)
      rw [List.length_map, fC] at this
      exact this
    · intro i x p q e1 e2 e3 j j1 j2
      have hi : i < (getChords s).1.length := (List.getElem?_eq_some_iff.mp e1).1
      obtain ⟨k, hk⟩ := getSome (chordKeys s) i _ k1 hi
      exact (hseg i p q e2 e3 x e1 k hk j j1 j2).1.symm
  · rw [k5, hcs, expandRuns_eq A.forcedKey _ 0 cs d.numInputs (hcl.trans k1.symm) t3 t4]
    · rw [Nat.sub_zero]
      have := map_range'_list d.forcedKeys A.forcedKey (by
        intro i x hx
        have hi : i < d.numInputs := by
          apply Classical.byContradiction
          intro hge
          rw [List.getElem?_eq_none (by omega)] at hx
          cases hx
        rw [gK i hi] at hx
        simpa using hx)
      rw [fK] at this
      exact this
    · intro i x p q e1 e2 e3 j j1 j2
      have hi : i < (chordKeys s).length := (List.getElem?_eq_some_iff.mp e1).1
      obtain ⟨ch, hch⟩ := getSome (getChords s).1 i _ k1.symm hi
      exact (hseg i p q e2 e3 ch hch x e1 j j1 j2).2.symm

end

/-! ## Concrete cases -/

/-- Notes of length one, probabilities in hundredths, changes allowed from 20 and certain over 80. -/
def small (n : Nat) (probs : Nat → Nat) (fc fk : Nat → Int) : RangeInput Nat Int Nat :=
  { n := n, changeProb := probs, changeLog := fun _ => -1, noChangeLog := fun _ => -1,
    dur := fun _ => 1, forcedChord := fc, forcedKey := fk, minChange := 20, maxNoChange := 80,
    maxLen := 100 }

theorem of_result {d : SearchData Int Int Unit Unit} {x : (List (Option Int) × List Nat) × List Int × List Nat}
    (h : (d.search.toOption.bind id).map (fun s => (getChords s, getKeys s)) = some x) :
    ∃ s, d.search = .ok (some s) ∧ getChords s = x.1 ∧ getKeys s = x.2 := by
  cases hs : d.search with
  | error e => rw [hs] at h; cases h
  | ok o =>
    cases o with
    | none => rw [hs] at h; cases h
    | some s =>
      rw [hs] at h
      simp only [Except.toOption, Option.bind_some, id_eq, Option.map_some, Option.some.injEq] at h
      exact ⟨s, rfl, by rw [← h], by rw [← h]⟩

/-- Four notes with three chords and two keys come back as they are labelled; the change at the last note
is certain. -/
example : getChordRanges (small 4 (fun i => if i = 3 then 90 else 50) (fun i => [0, 0, 1, 2].getD i (-1))
      (fun i => [3, 3, 4, 4].getD i (-1))) =
      .ok ([(0, 1, -1), (0, 2, -2), (1, 2, -1), (2, 3, -1), (3, 4, 0)], [0, 0, 0, 0, 0]) ∧
    ((demo none 4 [(0, demoRange 1 [1, 0, 2]), (0, demoRange 2 [1, 0, 2]), (1, demoRange 2 [2, 0, 1]),
      (2, demoRange 3 [2, 0, 1]), (3, demoRange 4 [0, 1, 2])] [0, 0, 1, 2] [3, 3, 4, 4]).search.toOption.bind
      id).map (fun s => (expandRuns (getChords s).1 (getChords s).2, expandRuns (getKeys s).1 (getKeys s).2)) =
      some ([some 0, some 0, some 1, some 2], [3, 3, 4, 4]) := by decide +kernel

/-- C140 fails at the last onset: the forced labels of the last note are not looked at by
`get_chord_ranges`, so that one range holds two forced chords, and the second is not in the result. -/
theorem C140_last_fails : ∃ (A : RangeInput Nat Int Nat) (d : SearchData Int Int Unit Unit) (rs : List (Nat × Nat × Int))
    (rj : List Int) (s : State Int Unit Unit),
    A.minChange ≤ A.maxNoChange ∧ getChordRanges A = .ok (rs, rj) ∧ OK d ∧ A.n = d.numInputs ∧
    d.ranges.map (fun e => (e.1, e.2.stop)) = rs.map (fun r => (r.1, r.2.1)) ∧
    d.forcedChords = (List.range d.numInputs).map A.forcedChord ∧
    d.forcedKeys = (List.range d.numInputs).map A.forcedKey ∧
    (∀ i, i < A.n → A.forcedChord i ≠ -1 ∧ A.forcedKey i ≠ -1) ∧ (∀ i, A.dur i ≠ 0) ∧
    (∀ i, i + 1 < A.n → A.forcedChord (i + 1) = A.forcedChord i → A.forcedKey (i + 1) = A.forcedKey i) ∧
    d.search = .ok (some s) ∧
    expandRuns (getChords s).1 (getChords s).2 ≠ d.forcedChords.map some := by
  obtain ⟨s, h1, h2, h3⟩ := of_result (d := demo none 2 [(0, demoRange 2 [1, 0, 2])] [0, 1] [3, 3])
    (x := (([some 0], [0, 2]), ([3], [0, 2]))) (by decide +kernel)
  refine ⟨small 2 (fun _ => 10) (fun i => [0, 1].getD i (-1)) (fun i => [3, 3].getD i (-1)), _,
    [(0, 2, -1)], [0], s, by decide, by decide +kernel, demo_ok none (by simp) 2 _ _ _ (by simp [demoRange]),
    rfl, rfl, rfl, rfl, ?_, fun i => Nat.one_ne_zero, ?_, h1, ?_⟩
  · intro i hi
    have : i = 0 ∨ i = 1 := by simp only [small] at hi; omega
    rcases this with rfl | rfl <;> decide
  · intro i hi
    have : i = 0 := by simp only [small] at hi; omega
    subst this; decide
  · rw [h2]; decide

/-- C140 fails where the key changes under one chord: the two ranges are rejoined, and the whole chord gets
one of the two keys. -/
theorem C140_key_fails : ∃ (A : RangeInput Nat Int Nat) (d : SearchData Int Int Unit Unit) (rs : List (Nat × Nat × Int))
    (rj : List Int) (s : State Int Unit Unit),
    A.minChange ≤ A.maxNoChange ∧ getChordRanges A = .ok (rs, rj) ∧ OK d ∧ A.n = d.numInputs ∧
    d.ranges.map (fun e => (e.1, e.2.stop)) = rs.map (fun r => (r.1, r.2.1)) ∧
    d.forcedChords = (List.range d.numInputs).map A.forcedChord ∧
    d.forcedKeys = (List.range d.numInputs).map A.forcedKey ∧
    (∀ i, i < A.n → A.forcedChord i ≠ -1 ∧ A.forcedKey i ≠ -1) ∧ (∀ i, A.dur i ≠ 0) ∧
    (∀ i, i + 1 < A.n → (∀ j, i < j → j + 1 < A.n → A.dur j = 0) →
      A.forcedChord (i + 1) = A.forcedChord i ∧ A.forcedKey (i + 1) = A.forcedKey i) ∧
    d.search = .ok (some s) ∧
    expandRuns (getKeys s).1 (getKeys s).2 ≠ d.forcedKeys := by
  obtain ⟨s, h1, h2, h3⟩ := of_result (d := demo none 3 [(0, demoRange 1 [1, 0, 2]), (1, demoRange 2 [1, 0, 2]),
    (1, demoRange 3 [1, 0, 2]), (2, demoRange 3 [1, 0, 2])] [1, 1, 1] [5, 3, 3])
    (x := (([some 1], [0, 3]), ([3], [0, 3]))) (by decide +kernel)
  refine ⟨small 3 (fun _ => 50) (fun i => [1, 1, 1].getD i (-1)) (fun i => [5, 3, 3].getD i (-1)), _,
    [(0, 1, -1), (1, 2, -1), (1, 3, -1), (2, 3, 0)], [0, 0, 0, 0], s, by decide, by decide +kernel,
    demo_ok none (by simp) 3 _ _ _ (by simp [demoRange]),
    rfl, rfl, rfl, rfl, ?_, fun i => Nat.one_ne_zero, ?_, h1, ?_⟩
  · intro i hi
    have : i = 0 ∨ i = 1 ∨ i = 2 := by simp only [small] at hi; omega
    rcases this with rfl | rfl | rfl <;> decide
  · intro i hi hz
    have : i = 0 ∨ i = 1 := by simp only [small] at hi; omega
    rcases this with rfl | rfl
    · exact absurd (hz 1 (by decide) (by decide)) (by decide)
    · decide
  · rw [h3]; decide

end Verif.LabelledThroughout
