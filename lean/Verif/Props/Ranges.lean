import Verif.Lemmas.Ranges
import Mathlib.Tactic.Abel
import Mathlib.Algebra.Order.Monoid.Defs
import Mathlib.Data.Int.Order.Basic
import Mathlib.Data.Nat.Basic
import Mathlib.Algebra.Order.Ring.Rat

/-!
# C25 - C29, C50: possible chord ranges

The spec (`Valid`, `span`, `Agree`, `Seg`, `Start`, `insideLog`, `segLog`) is at the top of
`Verif/Lemmas/Ranges.lean`; it does not refer to the code's loops.
-/

set_option linter.unusedSectionVars false

namespace Verif
namespace RangeInput

variable {π κ δ : Type} [LinearOrder π] [AddCommGroup κ] [AddCommMonoid δ] [LinearOrder δ]

theorem getChordRanges_eq (A : RangeInput π κ δ) (hmm : A.minChange ≤ A.maxNoChange)
    (rs : List (Nat × Nat × κ)) (rj : List κ) (h : getChordRanges A = .ok (rs, rj)) :
    ∃ all : List Nat, all.Pairwise (· < ·) ∧ (∀ s, s ∈ all ↔ A.Start s) ∧ (∀ s ∈ all, s < A.n) ∧
      rs = all.flatMap (fun s => (A.segs s).map (fun p => (s, p.1, p.2))) ∧
      rj = rs.map (fun r => A.noChangeLog r.1 - A.changeLog r.1) := by
  simp only [getChordRanges] at h
  split at h
  · cases h
  · rename_i hn
    simp only [Except.ok.injEq, Prod.mk.injEq] at h
    obtain ⟨h1, h2⟩ := h
    obtain ⟨all, a1, a2, a3, a4⟩ := loop_result A hmm hn
    exact ⟨all, a1, a2, a3, by rw [← h1, a4], by rw [← h2, h1]⟩

/-- C26: exactly the segments from reachable starts are returned, with the value of C27. -/
theorem C26_exact (A : RangeInput π κ δ) (hmm : A.minChange ≤ A.maxNoChange)
    (rs : List (Nat × Nat × κ)) (rj : List κ) (h : getChordRanges A = .ok (rs, rj)) (s e : Nat) (lp : κ) :
    (s, e, lp) ∈ rs ↔ A.Start s ∧ A.Seg s e ∧ lp = A.segLog s e := by
  obtain ⟨all, a1, a2, a3, rfl, _⟩ := getChordRanges_eq A hmm rs rj h
  simp only [List.mem_flatMap, List.mem_map, Prod.mk.injEq]
  constructor
  · rintro ⟨s', hs', p, hp, rfl, rfl, rfl⟩
    have := ((segs_spec A hmm s' (a3 s' hs')).1 p).1 hp
    exact ⟨(a2 s').1 hs', this⟩
  · rintro ⟨hs, hseg, rfl⟩
    have hm := (a2 s).2 hs
    exact ⟨s, hm, (e, A.segLog s e), ((segs_spec A hmm s (a3 s hm)).1 _).2 ⟨hseg, rfl⟩, rfl, rfl, rfl⟩

/-- C26: the ranges are in strictly increasing order (by start, then end), so none is repeated. -/
theorem C26_ordered (A : RangeInput π κ δ) (hmm : A.minChange ≤ A.maxNoChange)
    (rs : List (Nat × Nat × κ)) (rj : List κ) (h : getChordRanges A = .ok (rs, rj)) :
    rs.Pairwise (fun a b => a.1 < b.1 ∨ (a.1 = b.1 ∧ a.2.1 < b.2.1)) := by
  obtain ⟨all, a1, a2, a3, rfl, _⟩ := getChordRanges_eq A hmm rs rj h
  rw [List.pairwise_flatMap]
  constructor
  · intro s hs
    rw [List.pairwise_map]
    exact (segs_spec A hmm s (a3 s hs)).2.imp (fun h => .inr ⟨rfl, h⟩)
  · apply a1.imp
    intro s t hst x hx y hy
    simp only [List.mem_map] at hx hy
    obtain ⟨p, _, rfl⟩ := hx
    obtain ⟨q, _, rfl⟩ := hy
    exact .inl hst

/-- C26: the code gives a result for every nonempty piece, and raises `IndexError` for an empty one. -/
theorem C26_defined (A : RangeInput π κ δ) :
    (A.n = 0 → getChordRanges A = .error .indexError) ∧
    (A.n ≠ 0 → ∃ rs rj, getChordRanges A = .ok (rs, rj)) := by
  constructor
  · intro h; simp [getChordRanges, h]
  · intro h; simp only [getChordRanges, if_neg h]; exact ⟨_, _, rfl⟩

/-- C25: what holds of every returned range. -/
theorem C25_sound (A : RangeInput π κ δ) (hmm : A.minChange ≤ A.maxNoChange)
    (rs : List (Nat × Nat × κ)) (rj : List κ) (h : getChordRanges A = .ok (rs, rj)) (s e : Nat) (lp : κ)
    (hr : (s, e, lp) ∈ rs) :
    s < e ∧ e ≤ A.n ∧
    -- it starts at the beginning or at the end of another range
    (s = 0 ∨ ∃ s' lp', (s', s, lp') ∈ rs) ∧
    -- it ends at the end of the piece or at the first note of an onset with a likely change
    (e = A.n ∨ (A.dur (e - 1) ≠ 0 ∧ A.minChange ≤ A.changeProb e)) ∧
    -- it crosses no place where a change must occur
    (∀ i, s < i → i < e → A.dur (i - 1) ≠ 0 → A.changeProb i ≤ A.maxNoChange) ∧
    -- forced chords, and forced keys, at the last notes of its onsets agree
    (∀ i j, s ≤ i → i < e → s ≤ j → j < e → i + 1 < A.n → j + 1 < A.n → A.dur i ≠ 0 → A.dur j ≠ 0 →
      (A.forcedChord i ≠ -1 → A.forcedChord j ≠ -1 → A.forcedChord i = A.forcedChord j) ∧
      (A.forcedKey i ≠ -1 → A.forcedKey j ≠ -1 → A.forcedKey i = A.forcedKey j)) := by
  obtain ⟨hs, hseg, rfl⟩ := (C26_exact A hmm rs rj h s e lp).1 hr
  refine ⟨hseg.lt, hseg.le, ?_, ?_, ?_, ?_⟩
  · cases hs with
    | zero => exact .inl rfl
    | next s' _ h1 h2 h3 =>
      exact .inr ⟨s', _, (C26_exact A hmm rs rj h s' s _).2 ⟨h1, h2, rfl⟩⟩
  · rcases Nat.lt_or_eq_of_le hseg.le with hlt | rfl
    · exact .inr ⟨(hseg.stop hlt).1.2, (hseg.stop hlt).2⟩
    · exact .inl rfl
  · intro i h1 h2 h3
    exact hseg.inside i h1 h2 ⟨by omega, h3⟩
  · intro i j h1 h2 h3 h4 h5 h6 h7 h8
    have hi : A.Valid (i + 1) := ⟨by omega, h7⟩
    have hj : A.Valid (j + 1) := ⟨by omega, h8⟩
    have hc := hseg.chords (i + 1) (j + 1) (by omega) (by omega) h5 hi (by omega) (by omega) h6 hj
    have hk := hseg.keys (i + 1) (j + 1) (by omega) (by omega) h5 hi (by omega) (by omega) h6 hj
    exact ⟨hc, hk⟩

/-! ## C27 -/

/-- C27: the value of a range is the sum of the no-change terms of the valid positions strictly inside
it, plus the change term of its end unless that is the end of the piece; the rejoin term belongs to its
start. -/
theorem C27_value (A : RangeInput π κ δ) (hmm : A.minChange ≤ A.maxNoChange)
    (rs : List (Nat × Nat × κ)) (rj : List κ) (h : getChordRanges A = .ok (rs, rj)) (k s e : Nat) (lp : κ)
    (hr : rs[k]? = some (s, e, lp)) :
    lp = (((List.range' (s + 1) (e - (s + 1))).filter
        (fun i => decide (A.dur (i - 1) ≠ 0))).map A.noChangeLog).sum +
      (if e < A.n then A.changeLog e else 0) ∧
    rj[k]? = some (A.noChangeLog s - A.changeLog s) := by
  obtain ⟨_, hseg, hlp⟩ := (C26_exact A hmm rs rj h s e lp).1 (List.mem_of_getElem? hr)
  obtain ⟨_, _, _, _, _, hrj⟩ := getChordRanges_eq A hmm rs rj h
  constructor
  · rw [hlp, segLog, insideLog]
    congr 3
    apply List.filter_congr
    intro i hi
    rw [List.mem_range'_1] at hi
    rw [decide_eq_decide]
    exact ⟨fun h => h.2, fun h => ⟨by omega, h⟩⟩
  · rw [hrj, List.getElem?_map, hr]; rfl

theorem insideLog_split (A : RangeInput π κ δ) (s m e : Nat) (h1 : s < m) (h2 : m < e)
    (hv : A.Valid m) : A.insideLog s e = A.insideLog s m + A.noChangeLog m + A.insideLog m e := by
  induction e with
  | zero => omega
  | succ e ih =>
    rcases Nat.lt_succ_iff_lt_or_eq.mp h2 with h | rfl
    · rw [insideLog_succ A s e (by omega), insideLog_succ A m e h, ih h]; abel
    · rw [insideLog_succ A s m h1, if_pos hv]
      have : A.insideLog m (m + 1) = 0 := by simp [insideLog]
      rw [this, add_zero]

/-- C27: for adjacent returned ranges `(s, m)` and `(m, e)`, the two values and the rejoin term of the
second add up to the value that the merged range `(s, e)` has if it is returned. -/
theorem C27_merge (A : RangeInput π κ δ) (hmm : A.minChange ≤ A.maxNoChange)
    (rs : List (Nat × Nat × κ)) (rj : List κ) (h : getChordRanges A = .ok (rs, rj)) (s m e k l o : Nat)
    (x y z r : κ) (h1 : rs[k]? = some (s, m, x)) (h2 : rs[l]? = some (m, e, y))
    (h3 : rs[o]? = some (s, e, z)) (hr : rj[l]? = some r) : x + y + r = z := by
  obtain ⟨_, g1, e1⟩ := (C26_exact A hmm rs rj h s m x).1 (List.mem_of_getElem? h1)
  obtain ⟨_, g2, e2⟩ := (C26_exact A hmm rs rj h m e y).1 (List.mem_of_getElem? h2)
  obtain ⟨_, g3, e3⟩ := (C26_exact A hmm rs rj h s e z).1 (List.mem_of_getElem? h3)
  rw [(C27_value A hmm rs rj h l m e y h2).2] at hr
  injection hr with hr
  have hmn : m < A.n := Nat.lt_of_lt_of_le g2.lt g2.le
  rw [e1, e2, e3, ← hr, segLog, segLog, segLog, if_pos hmn,
    insideLog_split A s m e g1.lt g2.lt (g1.stop hmn).1]
  abel

/-! ## C28 -/

/-- C28, the part that holds: every range that does not begin at the beginning and does not end at the
end of the piece spans at most the maximum length. Missing: the first and the last range of a path,
see `C28_first_range_fails` and `C28_last_range_fails`. -/
theorem C28_max_length_partial (A : RangeInput π κ δ) (hmm : A.minChange ≤ A.maxNoChange)
    (rs : List (Nat × Nat × κ)) (rj : List κ) (h : getChordRanges A = .ok (rs, rj)) (s e : Nat) (lp : κ)
    (hr : (s, e, lp) ∈ rs) (hs : 0 < s) (he : e < A.n) :
    ((List.range' s (e - s)).map A.dur).sum ≤ A.maxLen := by
  obtain ⟨_, g, _⟩ := (C26_exact A hmm rs rj h s e lp).1 hr
  have := g.long e g.lt (Nat.le_refl _) he (g.stop he).1
  rw [charged, if_neg (by omega), zero_add] at this
  exact this

/-- C28: a last range may be longer, but only by the notes at its last onset: without the last note of
the piece it is within the maximum, if it holds more than one onset. -/
theorem C28_last_range_partial (A : RangeInput π κ δ) (hmm : A.minChange ≤ A.maxNoChange)
    (rs : List (Nat × Nat × κ)) (rj : List κ) (h : getChordRanges A = .ok (rs, rj)) (s : Nat) (lp : κ)
    (hr : (s, A.n, lp) ∈ rs) (hs : 0 < s) (i : Nat) (h1 : s < i) (h2 : i < A.n) (hd : A.dur (i - 1) ≠ 0) :
    ((List.range' s (i - s)).map A.dur).sum ≤ A.maxLen := by
  obtain ⟨_, g, _⟩ := (C26_exact A hmm rs rj h s A.n lp).1 hr
  have := g.long i h1 (Nat.le_of_lt h2) h2 ⟨by omega, hd⟩
  rw [charged, if_neg (by omega), zero_add] at this
  exact this

theorem span_mono [IsOrderedAddMonoid δ] (A : RangeInput π κ δ) (hd : ∀ i, 0 ≤ A.dur i) (s i e : Nat)
    (h1 : s ≤ i) (h2 : i ≤ e) : A.span s i ≤ A.span s e := by
  induction e with
  | zero => rw [Nat.le_zero.mp h2]
  | succ e ih =>
    rcases Nat.lt_succ_iff_lt_or_eq.mp (Nat.lt_succ_of_le h2) with h | rfl
    · rw [span_succ A s e (by omega)]
      exact le_trans (ih (by omega)) (le_add_of_nonneg_right (hd e))
    · exact le_refl _

/-- C28: no range inside the piece is left out because of its length: a segment from a reachable start
other than 0 that is within the maximum and meets the other conditions is returned. -/
theorem C28_not_excluded_partial [IsOrderedAddMonoid δ] (A : RangeInput π κ δ)
    (hmm : A.minChange ≤ A.maxNoChange) (hd : ∀ i, 0 ≤ A.dur i)
    (rs : List (Nat × Nat × κ)) (rj : List κ) (h : getChordRanges A = .ok (rs, rj)) (s e : Nat)
    (hs : A.Start s) (h0 : 0 < s) (hlt : s < e) (he : e ≤ A.n)
    (hlen : ((List.range' s (e - s)).map A.dur).sum ≤ A.maxLen)
    (hstop : e < A.n → A.dur (e - 1) ≠ 0 ∧ A.minChange ≤ A.changeProb e)
    (hin : ∀ i, s < i → i < e → A.dur (i - 1) ≠ 0 → A.changeProb i ≤ A.maxNoChange)
    (hfc : A.Agree A.forcedChord s e) (hfk : A.Agree A.forcedKey s e) :
    ∃ lp, (s, e, lp) ∈ rs := by
  refine ⟨_, (C26_exact A hmm rs rj h s e _).2 ⟨hs, ⟨hlt, he, ?_, hfc, hfk, ?_, ?_⟩, rfl⟩⟩
  · intro i h1 h2 _ _
    rw [charged, if_neg (by omega), zero_add]
    exact le_trans (span_mono A hd s i e (by omega) h2) hlen
  · intro i h1 h2 h3; exact hin i h1 h2 h3.2
  · intro hlt'; exact ⟨⟨by omega, (hstop hlt').1⟩, (hstop hlt').2⟩

/-- Four notes; probabilities in hundredths. -/
def exInput (dur : Nat → Nat) (maxLen : Nat) (probs : Nat → Nat) : RangeInput Nat Int Nat :=
  { n := 4, changeProb := probs, changeLog := fun i => -(i : Int), noChangeLog := fun _ => -100,
    dur := dur, forcedChord := fun _ => -1, forcedKey := fun _ => -1, minChange := 20,
    maxNoChange := 80, maxLen := maxLen }

/-- C28 fails for the first range: the first note has length 2 and the maximum is 3, but the range of
just that note is left out, because its duration is counted twice. No range is found at all. -/
theorem C28_first_range_fails :
    ∃ A : RangeInput Nat Int Nat, A.minChange ≤ A.maxNoChange ∧ A.span 0 1 ≤ A.maxLen ∧
      A.minChange ≤ A.changeProb 1 ∧ A.dur 0 ≠ 0 ∧ getChordRanges A = .ok ([], []) :=
  ⟨exInput (fun _ => 2) 3 (fun _ => 50), by decide, by decide, by decide, by decide, by decide⟩

/-- C28 fails for the last range: the last note is never counted. -/
theorem C28_last_range_fails :
    ∃ A : RangeInput Nat Int Nat, A.minChange ≤ A.maxNoChange ∧ ∃ rs rj, getChordRanges A = .ok (rs, rj) ∧
      (1, 4, -200) ∈ rs ∧ A.maxLen < A.span 1 4 :=
  ⟨exInput (fun i => if i = 3 then 10 else 1) 3 (fun _ => 50), by decide, _, _, rfl, by decide, by decide⟩

/-! ## C29 -/

/-- The boundaries of a way through the piece along returned ranges. -/
inductive Path (rs : List (Nat × Nat × κ)) (n : Nat) : Nat → List Nat → Prop
  | done : Path rs n n []
  | step (s e : Nat) (lp : κ) (bs : List Nat) : (s, e, lp) ∈ rs → Path rs n e bs → Path rs n s (e :: bs)

theorem path_boundary (rs : List (Nat × Nat × κ)) (n i : Nat)
    (hc : ∀ s e lp, (s, e, lp) ∈ rs → s < e ∧ ¬ (s < i ∧ i < e)) (s : Nat) (bs : List Nat)
    (hp : Path rs n s bs) (hs : s < i) (hi : i < n) : i ∈ bs := by
  induction hp with
  | done => omega
  | step s e lp bs hm hp ih =>
    obtain ⟨h1, h2⟩ := hc s e lp hm
    by_cases he : e = i
    · subst he; simp
    · exact List.mem_cons_of_mem _ (ih (by omega))

/-- C29: a forced change at a position that is not inside a group of simultaneous notes is a boundary
of every way through the piece. -/
theorem C29_forced_change [Zero π] [One π] (A : RangeInput π κ δ) (changes nonChanges : List Nat)
    (probs : Nat → π) (hA : A.changeProb = applyForced changes nonChanges probs)
    (hmm : A.minChange ≤ A.maxNoChange) (hmax : A.maxNoChange < 1)
    (rs : List (Nat × Nat × κ)) (rj : List κ) (h : getChordRanges A = .ok (rs, rj)) (i : Nat)
    (hi : i ∈ changes) (hni : i ∉ nonChanges) (hin : i < A.n) (h0 : 0 < i) (hd : A.dur (i - 1) ≠ 0)
    (bs : List Nat) (hp : Path rs A.n 0 bs) : i ∈ bs := by
  apply path_boundary rs A.n i _ 0 bs hp h0 hin
  intro s e lp hm
  obtain ⟨_, g, _⟩ := (C26_exact A hmm rs rj h s e lp).1 hm
  refine ⟨g.lt, fun ⟨h1, h2⟩ => ?_⟩
  have := g.inside i h1 h2 ⟨h0, hd⟩
  rw [hA, applyForced, if_neg hni, if_pos hi] at this
  exact absurd hmax (not_lt.mpr this)

/-- C29: no range begins or ends at a forced non-change (the beginning and the end of the piece
aside). -/
theorem C29_forced_non_change [Zero π] [One π] (A : RangeInput π κ δ) (changes nonChanges : List Nat)
    (probs : Nat → π) (hA : A.changeProb = applyForced changes nonChanges probs)
    (hmm : A.minChange ≤ A.maxNoChange) (hmin : 0 < A.minChange)
    (rs : List (Nat × Nat × κ)) (rj : List κ) (h : getChordRanges A = .ok (rs, rj)) (i : Nat)
    (hi : i ∈ nonChanges) (hin : i < A.n) :
    (∀ s lp, (s, i, lp) ∉ rs) ∧ (0 < i → ∀ e lp, (i, e, lp) ∉ rs) := by
  have h1 : ∀ s lp, (s, i, lp) ∉ rs := by
    intro s lp hm
    obtain ⟨_, g, _⟩ := (C26_exact A hmm rs rj h s i lp).1 hm
    have := (g.stop hin).2
    rw [hA, applyForced, if_pos hi] at this
    exact absurd hmin (not_lt.mpr this)
  refine ⟨h1, fun h0 e lp hm => ?_⟩
  rcases (C25_sound A hmm rs rj h i e lp hm).2.2.1 with h2 | ⟨s', lp', h2⟩
  · omega
  · exact h1 s' lp' h2

/-- C29: the limit of the claim. Note 2 sounds together with note 1; a forced change there is ignored,
and there is a way through the piece that does not change at 2. -/
theorem C29_ignored_inside_onset :
    ∃ (A : RangeInput ℚ Int Nat) (rs : List (Nat × Nat × Int)) (rj : List Int),
      A.changeProb = applyForced [2] [] (fun _ => 1 / 2) ∧ A.minChange ≤ A.maxNoChange ∧
      0 < A.minChange ∧ A.maxNoChange < 1 ∧ getChordRanges A = .ok (rs, rj) ∧ Path rs A.n 0 [1, 4] := by
  refine ⟨{ n := 4, changeProb := applyForced [2] [] (fun _ => 1 / 2), changeLog := fun _ => -1,
            noChangeLog := fun _ => -1, dur := fun i => if i = 1 then 0 else 1,
            forcedChord := fun _ => -1, forcedKey := fun _ => -1, minChange := 1 / 4,
            maxNoChange := 3 / 4, maxLen := 100 },
    [(0, 1, -1), (0, 3, -2), (0, 4, -2), (1, 3, -1), (1, 4, -1), (3, 4, 0)], [0, 0, 0, 0, 0, 0],
    rfl, by decide +kernel, by decide +kernel, by decide +kernel, by decide +kernel, ?_⟩
  exact .step 0 1 (-1) _ (by decide) (.step 1 4 (-1) _ (by decide) .done)

/-! ## C50 -/

theorem exists_least {p : Nat → Prop} (h : ∃ i, p i) : ∃ i, p i ∧ ∀ j, j < i → ¬ p j := by
  obtain ⟨i, hi⟩ := h
  induction i using Nat.strongRecOn with
  | ind i ih =>
    by_cases hj : ∃ j, j < i ∧ p j
    · obtain ⟨j, h1, h2⟩ := hj; exact ih j h1 h2
    · exact ⟨i, hi, fun j h1 h2 => hj ⟨j, h1, h2⟩⟩

/-- C50: without forced labels, and if no length goes over the maximum, every start leads to a complete
way through the piece. -/
theorem C50_complete_path (A : RangeInput π κ δ) (hmm : A.minChange ≤ A.maxNoChange)
    (hfc : ∀ i, A.forcedChord i = -1) (hfk : ∀ i, A.forcedKey i = -1)
    (hlen : ∀ s i, s < i → i < A.n → A.charged s i ≤ A.maxLen)
    (rs : List (Nat × Nat × κ)) (rj : List κ) (h : getChordRanges A = .ok (rs, rj)) (s : Nat)
    (hs : A.Start s) (hsn : s < A.n) : ∃ bs, Path rs A.n s bs := by
  have key : ∀ d s, A.n - s ≤ d → A.Start s → s < A.n → ∃ bs, Path rs A.n s bs := by
    intro d
    induction d with
    | zero => intro s h1 _ h2; omega
    | succ d ih =>
      intro s hd hs hsn
      have hex : ∃ e, s < e ∧ (e = A.n ∨ (e < A.n ∧ A.Valid e ∧ A.maxNoChange < A.changeProb e)) :=
        ⟨A.n, hsn, .inl rfl⟩
      obtain ⟨e, ⟨h1, h2⟩, h3⟩ := exists_least hex
      have hen : e ≤ A.n := by rcases h2 with h2 | h2 <;> omega
      have hseg : A.Seg s e := by
        refine ⟨h1, hen, fun i g1 _ g2 _ => hlen s i g1 g2, ?_, ?_, ?_, ?_⟩
        · intro i j _ _ _ _ _ _ _ _ hne; exact absurd (hfc _) hne
        · intro i j _ _ _ _ _ _ _ _ hne; exact absurd (hfk _) hne
        · intro i g1 g2 g3
          apply Classical.byContradiction
          intro hn
          exact h3 i g2 ⟨g1, .inr ⟨by omega, g3, not_le.mp hn⟩⟩
        · intro hlt
          rcases h2 with h2 | ⟨_, h4, h5⟩
          · omega
          · exact ⟨h4, le_trans hmm (le_of_lt h5)⟩
      have hm := (C26_exact A hmm rs rj h s e _).2 ⟨hs, hseg, rfl⟩
      rcases Nat.lt_or_eq_of_le hen with hlt | rfl
      · obtain ⟨bs, hb⟩ := ih e (by omega) (.next s e hs hseg hlt) hlt
        exact ⟨_, .step s e _ bs hm hb⟩
      · exact ⟨_, .step s A.n _ [] hm .done⟩
  exact key _ s (Nat.le_refl _) hs hsn

/-- C50: the assumptions matter. Two different forced chords at notes with no allowed change between
them leave no way through the piece. -/
theorem C50_dead_end :
    ∃ (A : RangeInput Nat Int Nat) (rs : List (Nat × Nat × Int)) (rj : List Int),
      A.minChange ≤ A.maxNoChange ∧ getChordRanges A = .ok (rs, rj) ∧ ∀ bs, ¬ Path rs A.n 0 bs := by
  refine ⟨{ exInput (fun _ => 1) 100 (fun _ => 0) with forcedChord := fun i => if i = 0 then 5 else 6 },
    [], [], by decide, by decide, ?_⟩
  intro bs hp
  cases hp with
  | step s e lp bs hm => simp at hm

/-! ## Concrete cases -/

/-- Changes may occur at 1 and 3, must occur at 2. -/
example : getChordRanges (exInput (fun _ => 1) 100 (fun i => if i = 2 then 90 else 50)) =
    .ok ([(0, 1, -1), (0, 2, -102), (1, 2, -2), (2, 3, -3), (2, 4, -100), (3, 4, 0)],
      [-100, -100, -99, -98, -98, -97]) := by decide

/-- Merging (2,3) and (3,4) gives (2,4): -3 + 0 + -97 = -100, as in C27. -/
example : Path (κ := Int) [(0, 2, -102), (2, 3, -3), (3, 4, 0)] 4 0 [2, 3, 4] :=
  .step 0 2 (-102) _ (by decide) (.step 2 3 (-3) _ (by decide) (.step 3 4 0 _ (by decide) .done))

/-- C28: a start other than 0 and the limit 2. -/
example : getChordRanges (exInput (fun _ => 1) 2 (fun _ => 50)) =
    .ok ([(0, 1, -1), (1, 2, -2), (1, 3, -103), (1, 4, -200), (2, 3, -3), (2, 4, -100), (3, 4, 0)],
      [-100, -99, -99, -99, -98, -98, -97]) := by decide

/-- The ranges of the first piece above. -/
def exRanges : List (Nat × Nat × Int) :=
  [(0, 1, -1), (0, 2, -102), (1, 2, -2), (2, 3, -3), (2, 4, -100), (3, 4, 0)]

/-- C25 to C27 apply to it. -/
example : ((2, 4, -100) : Nat × Nat × Int) ∈ exRanges ∧
    (exInput (fun _ => 1) 100 (fun i => if i = 2 then 90 else 50)).Start 2 ∧ (-3 : Int) + 0 + -97 = -100 :=
  ⟨by decide,
    ((C26_exact (exInput (fun _ => 1) 100 (fun i => if i = 2 then 90 else 50)) (by decide) exRanges
      [-100, -100, -99, -98, -98, -97] (by decide) 2 4 (-100)).mp (by decide)).1,
    C27_merge (exInput (fun _ => 1) 100 (fun i => if i = 2 then 90 else 50)) (by decide) exRanges
      [-100, -100, -99, -98, -98, -97] (by decide) 2 3 4 3 5 4 _ _ _ _ rfl rfl rfl rfl⟩

/-- C28: the range (1, 3) is within the limit 2, as it must be. -/
example : ((List.range' 1 (3 - 1)).map fun _ => 1).sum ≤ 2 :=
  C28_max_length_partial (exInput (fun _ => 1) 2 (fun _ => 50)) (by decide) _
    [-100, -99, -99, -99, -98, -98, -97] (by decide) 1 3 (-103)
    (by decide : (1, 3, -103) ∈ [((0, 1, -1) : Nat × Nat × Int), (1, 2, -2), (1, 3, -103), (1, 4, -200), (2, 3, -3),
      (2, 4, -100), (3, 4, 0)]) (by decide) (by decide)

/-- Four notes with a change forced at note 2 and none allowed at note 3. -/
def exForcedRat : RangeInput ℚ Int Nat :=
  { n := 4, changeProb := applyForced [2] [3] (fun _ => 1 / 2), changeLog := fun i => -(i : Int),
    noChangeLog := fun _ => -100, dur := fun _ => 1, forcedChord := fun _ => -1, forcedKey := fun _ => -1,
    minChange := 1 / 5, maxNoChange := 4 / 5, maxLen := 100 }

/-- C29: changes may occur at 1, must at 2 and must not at 3. -/
theorem exForcedRat_ranges : getChordRanges exForcedRat =
    .ok ([(0, 1, -1), (0, 2, -102), (1, 2, -2), (2, 4, -100)], [-100, -100, -99, -98]) := by
  decide +kernel

example (bs : List Nat) (hp : Path (κ := Int) [(0, 1, -1), (0, 2, -102), (1, 2, -2), (2, 4, -100)] 4 0 bs) : 2 ∈ bs :=
  C29_forced_change exForcedRat [2] [3] (fun _ => 1 / 2) rfl (by decide +kernel) (by decide +kernel) _ _
    exForcedRat_ranges 2 (by decide) (by decide) (by decide) (by decide) (by decide) bs hp

example : ∀ s lp, (s, 3, lp) ∉ [((0, 1, -1) : Nat × Nat × Int), (0, 2, -102), (1, 2, -2), (2, 4, -100)] :=
  (C29_forced_non_change exForcedRat [2] [3] (fun _ => 1 / 2) rfl (by decide +kernel) (by decide +kernel) _ _
    exForcedRat_ranges 3 (by decide) (by decide)).1

/-- C50 applies to the first piece above, from its start and from note 2. -/
example : (∃ bs, Path exRanges 4 0 bs) ∧ ∃ bs, Path exRanges 4 2 bs := by
  have hlen : ∀ s i, s < i → i < 4 →
      (exInput (fun _ => 1) 100 (fun i => if i = 2 then 90 else 50)).charged s i ≤ 100 := by
    intro s i h1 h2
    have : ∀ i < 4, ∀ s < i,
        (exInput (fun _ => 1) 100 (fun i => if i = 2 then 90 else 50)).charged s i ≤ 100 := by decide
    exact this i h2 s h1
  have key := fun s => C50_complete_path (exInput (fun _ => 1) 100 (fun i => if i = 2 then 90 else 50))
    (by decide) (fun _ => rfl) (fun _ => rfl) hlen exRanges [-100, -100, -99, -98, -98, -97] (by decide) s
  exact ⟨key 0 .zero (by decide), key 2 (.next 0 2 .zero ((C26_exact _ (by decide) exRanges
    [-100, -100, -99, -98, -98, -97] (by decide) 0 2 (-102)).mp (by decide)).2.1 (by decide)) (by decide)⟩

end RangeInput
end Verif
