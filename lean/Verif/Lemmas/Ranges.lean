import Verif.Ranges
import Verif.Lemmas.Heap
import Mathlib.Algebra.BigOperators.Group.List.Basic
import Mathlib.Logic.Basic
import Mathlib.Order.Defs.LinearOrder

/-!
# The loops of `get_chord_ranges`
-/

set_option linter.unusedSectionVars false

namespace Verif
namespace RangeInput

variable {π κ δ : Type} [LinearOrder π] [AddCommGroup κ] [AddCommMonoid δ] [LinearOrder δ]

/-! ## Specification -/

/-- The positions where a chord may begin: not the first note, and not at the same time as the note
before. -/
def Valid (A : RangeInput π κ δ) (i : Nat) : Prop := 0 < i ∧ A.dur (i - 1) ≠ 0

instance (A : RangeInput π κ δ) (i : Nat) : Decidable (A.Valid i) :=
  inferInstanceAs (Decidable (_ ∧ _))

/-- Sum of the durations of the notes `s ≤ j < i`. -/
def span (A : RangeInput π κ δ) (s i : Nat) : δ := ((List.range' s (i - s)).map A.dur).sum

/-- The duration that the code compares to the maximum: the first note of the piece is counted twice. -/
def charged (A : RangeInput π κ δ) (s i : Nat) : δ := (if s = 0 then A.dur 0 else 0) + A.span s i

/-- No two different forced labels at the notes before valid positions in `s < i ≤ e`. -/
def Agree (A : RangeInput π κ δ) (forced : Nat → Int) (s e : Nat) : Prop :=
  ∀ i j, s < i → i ≤ e → i < A.n → A.Valid i → s < j → j ≤ e → j < A.n → A.Valid j →
    forced (i - 1) ≠ -1 → forced (j - 1) ≠ -1 → forced (i - 1) = forced (j - 1)

/-- The conditions for `(s, e)` to be a range once `s` is a start. -/
structure Seg (A : RangeInput π κ δ) (s e : Nat) : Prop where
  lt : s < e
  le : e ≤ A.n
  long : ∀ i, s < i → i ≤ e → i < A.n → A.Valid i → A.charged s i ≤ A.maxLen
  chords : A.Agree A.forcedChord s e
  keys : A.Agree A.forcedKey s e
  inside : ∀ i, s < i → i < e → A.Valid i → A.changeProb i ≤ A.maxNoChange
  stop : e < A.n → A.Valid e ∧ A.minChange ≤ A.changeProb e

/-- The starts: the beginning of the piece, and the ends of ranges. -/
inductive Start (A : RangeInput π κ δ) : Nat → Prop
  | zero : Start A 0
  | next (s e : Nat) : Start A s → A.Seg s e → e < A.n → Start A e

/-- Sum of the no-change log probabilities of the valid positions strictly between `s` and `e`. -/
def insideLog (A : RangeInput π κ δ) (s e : Nat) : κ :=
  (((List.range' (s + 1) (e - (s + 1))).filter (fun i => A.Valid i)).map A.noChangeLog).sum

/-- The log probability of a range. -/
def segLog (A : RangeInput π κ δ) (s e : Nat) : κ :=
  A.insideLog s e + if e < A.n then A.changeLog e else 0

/-! ## The inner loop -/

/-- The ranges recorded by the inner loop, as a list. -/
def ends (A : RangeInput π κ δ) : Nat → Nat → κ → δ → List Int → List Int → List (Nat × κ)
  | 0, _, running, _, _, _ => [(A.n, running)]
  | fuel + 1, index, running, rdur, fc, fk =>
    if A.invalid index then ends A fuel (index + 1) running rdur fc fk
    else
      let fc' := addForced fc (A.forcedChord (index - 1))
      if A.forcedChord (index - 1) ≠ -1 ∧ fc'.length > 1 then []
      else
        let fk' := addForced fk (A.forcedKey (index - 1))
        if A.forcedKey (index - 1) ≠ -1 ∧ fk'.length > 1 then []
        else
          let rdur' := rdur + A.dur (index - 1)
          if rdur' > A.maxLen then []
          else if A.changeProb index ≥ A.minChange then
            (index, running + A.changeLog index) ::
            if A.changeProb index > A.maxNoChange then []
            else ends A fuel (index + 1) (running + A.noChangeLog index) rdur' fc' fk'
          else ends A fuel (index + 1) (running + A.noChangeLog index) rdur' fc' fk'

theorem scan_eq (A : RangeInput π κ δ) (start : Nat) (fuel index : Nat) (running : κ) (rdur : δ)
    (fc fk : List Int) (st : RState κ) :
    scan A start fuel index running rdur fc fk st =
      (ends A fuel index running rdur fc fk).foldl (emit start A.n) st := by
  induction fuel generalizing index running rdur fc fk st with
  | zero => rfl
  | succ fuel ih =>
    simp only [scan, ends]
    split
    · exact ih ..
    · split
      · rfl
      · split
        · rfl
        · split
          · rfl
          · split
            · split
              · rfl
              · rw [ih]; rfl
            · exact ih ..

theorem invalid_iff (A : RangeInput π κ δ) (i : Nat) : A.invalid i = true ↔ ¬ A.Valid i := by
  simp only [invalid, Valid, Bool.or_eq_true, decide_eq_true_eq]
  constructor
  · rintro (h | h) ⟨h1, h2⟩
    · omega
    · exact h2 h
  · intro h
    by_cases h0 : i = 0
    · exact .inl h0
    · right
      apply Classical.byContradiction
      intro hn
      exact h ⟨by omega, hn⟩

/-- The set of forced labels seen before `index`. -/
def Seen (A : RangeInput π κ δ) (forced : Nat → Int) (s index : Nat) (fs : List Int) : Prop :=
  fs.length ≤ 1 ∧ ∀ x, x ∈ fs ↔ x ≠ -1 ∧ ∃ i, s < i ∧ i < index ∧ A.Valid i ∧ forced (i - 1) = x

theorem Seen.skip {A : RangeInput π κ δ} {forced : Nat → Int} {s index : Nat} {fs : List Int}
    (h : A.Seen forced s index fs) (hv : ¬ A.Valid index) : A.Seen forced s (index + 1) fs := by
  refine ⟨h.1, fun x => ?_⟩
  rw [h.2 x]
  constructor
  · rintro ⟨h1, i, h2, h3, h4⟩; exact ⟨h1, i, h2, by omega, h4⟩
  · rintro ⟨h1, i, h2, h3, h4, h5⟩
    refine ⟨h1, i, h2, ?_, h4, h5⟩
    rcases Nat.lt_succ_iff_lt_or_eq.mp h3 with h | rfl
    · exact h
    · exact absurd h4 hv

theorem mem_addForced (fs : List Int) (x y : Int) : y ∈ addForced fs x ↔ y ∈ fs ∨ (y = x ∧ x ≠ -1) := by
  simp only [addForced]
  split
  · split
    · constructor
      · exact .inl
      · rintro (h | ⟨rfl, _⟩)
        · exact h
        · assumption
    · rename_i h _
      simp [h]
  · rename_i h
    simp only [ne_eq, not_not] at h
    simp [h]

/-- A new label that differs from one seen. -/
theorem Seen.conflict {A : RangeInput π κ δ} {forced : Nat → Int} {s index : Nat} {fs : List Int}
    (h : A.Seen forced s index fs) (hn : index < A.n) (hs : s < index) (hv : A.Valid index)
    (hc : forced (index - 1) ≠ -1 ∧ (addForced fs (forced (index - 1))).length > 1) (e : Nat)
    (he : index ≤ e) : ¬ A.Agree forced s e := by
  intro ha
  have hne := hc.1
  simp only [addForced, ne_eq, hne, not_false_eq_true, if_true] at hc
  split at hc
  · have := h.1; omega
  · rename_i hni
    match fs, h, hc, hni with
    | [], _, hc, _ => simp at hc
    | y :: _, h, _, hni =>
      obtain ⟨h1, i, h2, h3, h4, h5⟩ := (h.2 y).1 (by simp)
      have := ha i index h2 (by omega) (by omega) h4 hs he hn hv (by rw [h5]; exact h1) hne
      rw [h5] at this
      exact hni (by rw [← this]; simp)

/-- No conflict: the label is added. -/
theorem Seen.add {A : RangeInput π κ δ} {forced : Nat → Int} {s index : Nat} {fs : List Int}
    (h : A.Seen forced s index fs) (hs : s < index) (hv : A.Valid index)
    (hc : ¬ (forced (index - 1) ≠ -1 ∧ (addForced fs (forced (index - 1))).length > 1)) :
    A.Seen forced s (index + 1) (addForced fs (forced (index - 1))) := by
  refine ⟨?_, fun x => ?_⟩
  · by_cases h1 : forced (index - 1) = -1
    · simp only [addForced, h1, ne_eq, not_true_eq_false, if_false]; exact h.1
    · have : ¬ (addForced fs (forced (index - 1))).length > 1 := fun h2 => hc ⟨h1, h2⟩
      omega
  · rw [mem_addForced, h.2 x]
    constructor
    · rintro (⟨h1, i, h2, h3, h4⟩ | ⟨rfl, h1⟩)
      · exact ⟨h1, i, h2, by omega, h4⟩
      · exact ⟨h1, index, hs, by omega, hv, rfl⟩
    · rintro ⟨h1, i, h2, h3, h4, h5⟩
      rcases Nat.lt_succ_iff_lt_or_eq.mp h3 with h | rfl
      · exact .inl ⟨h1, i, h2, h, h4, h5⟩
      · exact .inr ⟨h5.symm, by rw [h5]; exact h1⟩

/-- Labels seen in a set with at most one element agree. -/
theorem Seen.agree {A : RangeInput π κ δ} {forced : Nat → Int} {s index : Nat} {fs : List Int}
    (h : A.Seen forced s index fs) (e : Nat) (he : e < index ∨ (A.n ≤ index)) :
    A.Agree forced s e := by
  intro i j h1 h2 h3 h4 h5 h6 h7 h8 h9 h10
  have hi : forced (i - 1) ∈ fs := (h.2 _).2 ⟨h9, i, h1, by omega, h4, rfl⟩
  have hj : forced (j - 1) ∈ fs := (h.2 _).2 ⟨h10, j, h5, by omega, h8, rfl⟩
  match fs, h.1, hi, hj with
  | [y], _, hi, hj => simp only [List.mem_singleton] at hi hj; rw [hi, hj]

theorem span_succ (A : RangeInput π κ δ) (s i : Nat) (h : s ≤ i) :
    A.span s (i + 1) = A.span s i + A.dur i := by
  simp only [span]
  have : i + 1 - s = (i - s) + 1 := by omega
  rw [this, List.range'_concat]
  simp only [List.map_append, List.map_cons, List.map_nil, Nat.one_mul]
  rw [List.sum_append]
  have : s + (i - s) = i := by omega
  simp [this]

theorem charged_step (A : RangeInput π κ δ) (s i : Nat) (h : s < i) :
    A.charged s i = A.charged s (i - 1) + A.dur (i - 1) := by
  obtain ⟨j, rfl⟩ : ∃ j, i = j + 1 := ⟨i - 1, by omega⟩
  simp only [charged, Nat.add_sub_cancel]
  rw [span_succ A s j (by omega), add_assoc]

theorem insideLog_succ (A : RangeInput π κ δ) (s i : Nat) (h : s < i) :
    A.insideLog s (i + 1) = A.insideLog s i + if A.Valid i then A.noChangeLog i else 0 := by
  simp only [insideLog]
  have : i + 1 - (s + 1) = (i - (s + 1)) + 1 := by omega
  rw [this, List.range'_concat, List.filter_append, List.map_append, List.sum_append]
  have : s + 1 + 1 * (i - (s + 1)) = i := by omega
  rw [this]
  congr 1
  by_cases hv : A.Valid i <;> simp [hv]

/-- What is known before position `index` is looked at. -/
structure Before (A : RangeInput π κ δ) (s index : Nat) (running : κ) (rdur : δ) (fc fk : List Int) :
    Prop where
  lt : s < index
  run : running = A.insideLog s index
  dur : rdur = A.charged s (index - 1)
  fc : A.Seen A.forcedChord s index fc
  fk : A.Seen A.forcedKey s index fk
  long : ∀ i, s < i → i < index → A.Valid i → A.charged s i ≤ A.maxLen
  inside : ∀ i, s < i → i < index → A.Valid i → A.changeProb i ≤ A.maxNoChange

theorem ends_spec (A : RangeInput π κ δ) (hmm : A.minChange ≤ A.maxNoChange) (s : Nat)
    (fuel index : Nat) (running : κ) (rdur : δ) (fc fk : List Int) (hf : index + fuel = A.n)
    (hb : A.Before s index running rdur fc fk) :
    (∀ p, p ∈ ends A fuel index running rdur fc fk ↔
      index ≤ p.1 ∧ A.Seg s p.1 ∧ p.2 = A.segLog s p.1) ∧
    (ends A fuel index running rdur fc fk).Pairwise (fun p q => p.1 < q.1) := by
  induction fuel generalizing index running rdur fc fk with
  | zero =>
    have hn : index = A.n := by omega
    simp only [ends]
    refine ⟨fun p => ?_, by simp⟩
    rw [List.mem_singleton]
    constructor
    · rintro rfl
      refine ⟨by simp [hn], ⟨by simp; rw [← hn]; exact hb.lt, by simp, ?_, hb.fc.agree _ (.inr (by omega)),
        hb.fk.agree _ (.inr (by omega)), ?_, by simp⟩, ?_⟩
      · intro i h1 h2 h3; exact hb.long i h1 (by omega)
      · intro i h1 h2; exact hb.inside i h1 (by simp only at h2; omega)
      · simp only [segLog, Nat.lt_irrefl, if_false, add_zero]
        rw [hb.run, hn]
    · rintro ⟨h1, h2, h3⟩
      have := h2.le
      have he : p.1 = A.n := by omega
      apply Prod.ext
      · exact he
      · rw [h3, he]
        simp only [segLog, Nat.lt_irrefl, if_false, add_zero]
        rw [hb.run, hn]
  | succ fuel ih =>
    have hin : index < A.n := by omega
    simp only [ends]
    by_cases hinv : A.invalid index = true
    · rw [if_pos hinv]
      rw [invalid_iff] at hinv
      have hd : A.dur (index - 1) = 0 := by
        apply Classical.byContradiction
        intro hd
        exact hinv ⟨by have := hb.lt; omega, hd⟩
      obtain ⟨ih1, ih2⟩ := ih (index + 1) running rdur fc fk (by omega)
        ⟨by have := hb.lt; omega, by rw [insideLog_succ A s index hb.lt, if_neg hinv, add_zero]; exact hb.run,
         by rw [Nat.add_sub_cancel, charged_step A s index hb.lt, hd, add_zero]; exact hb.dur,
         hb.fc.skip hinv, hb.fk.skip hinv,
         fun i h1 h2 h3 => hb.long i h1 (by
          rcases Nat.lt_succ_iff_lt_or_eq.mp h2 with h | rfl
          · exact h
          · exact absurd h3 hinv) h3,
         fun i h1 h2 h3 => hb.inside i h1 (by
          rcases Nat.lt_succ_iff_lt_or_eq.mp h2 with h | rfl
          · exact h
          · exact absurd h3 hinv) h3⟩
      refine ⟨fun p => ?_, ih2⟩
      rw [ih1 p]
      constructor
      · rintro ⟨h1, h2⟩; exact ⟨by omega, h2⟩
      · rintro ⟨h1, h2, h3⟩
        refine ⟨?_, h2, h3⟩
        rcases Nat.lt_or_eq_of_le h1 with h | h
        · omega
        · exact absurd (h2.stop (by omega)).1 (by rw [← h]; exact hinv)
    · rw [if_neg hinv]
      rw [invalid_iff, not_not] at hinv
      have hdur : rdur + A.dur (index - 1) = A.charged s index := by
        rw [charged_step A s index hb.lt, hb.dur]
      by_cases hfc : A.forcedChord (index - 1) ≠ -1 ∧
          (addForced fc (A.forcedChord (index - 1))).length > 1
      · rw [if_pos hfc]
        refine ⟨fun p => ?_, by simp⟩
        simp only [List.not_mem_nil, false_iff]
        rintro ⟨h1, h2, h3⟩
        exact hb.fc.conflict hin hb.lt hinv hfc p.1 h1 h2.chords
      · rw [if_neg hfc]
        by_cases hfk : A.forcedKey (index - 1) ≠ -1 ∧
            (addForced fk (A.forcedKey (index - 1))).length > 1
        · rw [if_pos hfk]
          refine ⟨fun p => ?_, by simp⟩
          simp only [List.not_mem_nil, false_iff]
          rintro ⟨h1, h2, h3⟩
          exact hb.fk.conflict hin hb.lt hinv hfk p.1 h1 h2.keys
        · rw [if_neg hfk, hdur]
          have hSc := hb.fc.add hb.lt hinv hfc
          have hSk := hb.fk.add hb.lt hinv hfk
          by_cases hlong : A.charged s index > A.maxLen
          · rw [if_pos hlong]
            refine ⟨fun p => ?_, by simp⟩
            simp only [List.not_mem_nil, false_iff]
            rintro ⟨h1, h2, h3⟩
            exact absurd (h2.long index hb.lt h1 hin hinv) (not_le.mpr hlong)
          · rw [if_neg hlong]
            have hlongAll : ∀ i, s < i → i < index + 1 → A.Valid i → A.charged s i ≤ A.maxLen := by
              intro i h1 h2 h3
              rcases Nat.lt_succ_iff_lt_or_eq.mp h2 with h | rfl
              · exact hb.long i h1 h h3
              · exact not_lt.mp hlong
            have hrec : A.changeProb index ≤ A.maxNoChange →
                A.Before s (index + 1) (running + A.noChangeLog index) (A.charged s index)
                  (addForced fc (A.forcedChord (index - 1)))
                  (addForced fk (A.forcedKey (index - 1))) := by
              intro hle
              refine ⟨by have := hb.lt; omega, ?_, by rw [Nat.add_sub_cancel], hSc, hSk, hlongAll, ?_⟩
              · rw [insideLog_succ A s index hb.lt, if_pos hinv, hb.run]
              · intro i h1 h2 h3
                rcases Nat.lt_succ_iff_lt_or_eq.mp h2 with h | rfl
                · exact hb.inside i h1 h h3
                · exact hle
            by_cases hmin : A.changeProb index ≥ A.minChange
            · rw [if_pos hmin]
              have hseg : A.Seg s index := by
                refine ⟨hb.lt, Nat.le_of_lt hin, ?_, hSc.agree _ (.inl (by omega)),
                  hSk.agree _ (.inl (by omega)), hb.inside, fun _ => ⟨hinv, hmin⟩⟩
                intro i h1 h2 h3; exact hlongAll i h1 (by omega)
              have hlp : running + A.changeLog index = A.segLog s index := by
                simp only [segLog, if_pos hin]; rw [hb.run]
              by_cases hmax : A.changeProb index > A.maxNoChange
              · rw [if_pos hmax]
                refine ⟨fun p => ?_, by simp⟩
                rw [List.mem_singleton]
                constructor
                · rintro rfl; exact ⟨Nat.le_refl _, hseg, hlp⟩
                · rintro ⟨h1, h2, h3⟩
                  have he : p.1 = index := by
                    rcases Nat.lt_or_eq_of_le h1 with h | h
                    · exact absurd (h2.inside index hb.lt h hinv) (not_le.mpr hmax)
                    · exact h.symm
                  exact Prod.ext he (by rw [h3, he, hlp])
              · rw [if_neg hmax]
                obtain ⟨ih1, ih2⟩ := ih _ _ _ _ _ (by omega) (hrec (not_lt.mp hmax))
                constructor
                · intro p
                  rw [List.mem_cons, ih1 p]
                  constructor
                  · rintro (rfl | ⟨h1, h2⟩)
                    · exact ⟨Nat.le_refl _, hseg, hlp⟩
                    · exact ⟨by omega, h2⟩
                  · rintro ⟨h1, h2, h3⟩
                    rcases Nat.lt_or_eq_of_le h1 with h | h
                    · exact .inr ⟨h, h2, h3⟩
                    · exact .inl (Prod.ext h.symm (by rw [h3, ← h, hlp]))
                · rw [List.pairwise_cons]
                  refine ⟨fun q hq => ?_, ih2⟩
                  have := ((ih1 q).1 hq).1
                  exact this
            · rw [if_neg hmin]
              obtain ⟨ih1, ih2⟩ := ih _ _ _ _ _ (by omega)
                (hrec (le_trans (le_of_lt (not_le.mp hmin)) hmm))
              refine ⟨fun p => ?_, ih2⟩
              rw [ih1 p]
              constructor
              · rintro ⟨h1, h2⟩; exact ⟨by omega, h2⟩
              · rintro ⟨h1, h2, h3⟩
                refine ⟨?_, h2, h3⟩
                rcases Nat.lt_or_eq_of_le h1 with h | h
                · exact h
                · exact absurd (h2.stop (by omega)).2 (by rw [← h]; exact hmin)

/-- The ranges from one start. -/
def segs (A : RangeInput π κ δ) (s : Nat) : List (Nat × κ) :=
  ends A (A.n - (s + 1)) (s + 1) 0 (if s = 0 then A.dur 0 else 0) [] []

theorem scanStart_eq (A : RangeInput π κ δ) (s : Nat) (st : RState κ) :
    scanStart A s st = (A.segs s).foldl (emit s A.n) st := scan_eq ..

theorem segs_spec (A : RangeInput π κ δ) (hmm : A.minChange ≤ A.maxNoChange) (s : Nat) (hs : s < A.n) :
    (∀ p, p ∈ A.segs s ↔ A.Seg s p.1 ∧ p.2 = A.segLog s p.1) ∧
    (A.segs s).Pairwise (fun p q => p.1 < q.1) := by
  have hb : A.Before s (s + 1) 0 (if s = 0 then A.dur 0 else 0) [] [] := by
    refine ⟨Nat.lt_succ_self s, ?_, ?_, ⟨by simp, fun x => ?_⟩, ⟨by simp, fun x => ?_⟩, ?_, ?_⟩
    · simp [insideLog]
    · simp [charged, span]
    · simp only [List.not_mem_nil, false_iff]; rintro ⟨_, i, h1, h2, _⟩; omega
    · simp only [List.not_mem_nil, false_iff]; rintro ⟨_, i, h1, h2, _⟩; omega
    · intro i h1 h2; omega
    · intro i h1 h2; omega
  obtain ⟨h1, h2⟩ := ends_spec A hmm s (A.n - (s + 1)) (s + 1) 0 _ [] [] (by omega) hb
  refine ⟨fun p => ?_, h2⟩
  rw [segs, h1 p]
  constructor
  · exact fun h => h.2
  · exact fun h => ⟨h.1.lt, h⟩

/-! ## The outer loop -/

theorem natOrder : WeakOrder (fun a b : Nat => decide (a < b)) := by
  constructor
  · intro a b h; simp only [decide_eq_true_eq, decide_eq_false_iff_not] at *; omega
  · intro a b c h1 h2; simp only [decide_eq_false_iff_not] at *; omega

/-- The queue while the ends of the ranges from `x` are pushed. -/
structure Queue (A : RangeInput π κ δ) (done : List Nat) (x : Nat) (st : RState κ) : Prop where
  heap : IsHeap (fun a b : Nat => decide (a < b)) st.heap
  nodup : st.heap.Nodup
  bounds : ∀ h ∈ st.heap, x < h ∧ h < A.n ∧ A.Start h
  mem : ∀ i, st.inStarts i = true ↔ i ∈ done ∨ i ∈ st.heap

theorem foldl_emit (A : RangeInput π κ δ) (done : List Nat) (x : Nat) (ps : List (Nat × κ))
    (hps : ∀ p ∈ ps, x < p.1 ∧ (p.1 < A.n → A.Start p.1)) (st : RState κ) (hq : A.Queue done x st) :
    A.Queue done x (ps.foldl (emit x A.n) st) ∧
    (ps.foldl (emit x A.n) st).ranges = st.ranges ++ ps.map (fun p => (x, p.1, p.2)) ∧
    (∀ i, (ps.foldl (emit x A.n) st).inStarts i = true ↔
      st.inStarts i = true ∨ ∃ p ∈ ps, p.1 = i ∧ i < A.n) := by
  induction ps generalizing st with
  | nil => exact ⟨hq, by simp, by simp⟩
  | cons p ps ih =>
    have hp := hps p (by simp)
    have hstep : A.Queue done x (emit x A.n st p) ∧
        (emit x A.n st p).ranges = st.ranges ++ [(x, p.1, p.2)] ∧
        (∀ i, (emit x A.n st p).inStarts i = true ↔ st.inStarts i = true ∨ (p.1 = i ∧ i < A.n)) := by
      simp only [emit]
      split
      · rename_i hlt
        split
        · rename_i hin
          refine ⟨⟨hq.heap, hq.nodup, hq.bounds, hq.mem⟩, rfl, fun i => ⟨.inl, ?_⟩⟩
          rintro (h | ⟨rfl, _⟩)
          · exact h
          · exact hin
        · rename_i hin
          have hperm := heappush_perm (lt := fun a b : Nat => decide (a < b)) st.heap p.1
          have hnin : p.1 ∉ st.heap := fun hm => hin ((hq.mem p.1).2 (.inr hm))
          refine ⟨⟨heappush_heap natOrder _ _ hq.heap, ?_, ?_, ?_⟩, rfl, fun i => ?_⟩
          · rw [hperm.nodup_iff, List.nodup_cons]; exact ⟨hnin, hq.nodup⟩
          · intro h hm
            rw [hperm.mem_iff, List.mem_cons] at hm
            rcases hm with rfl | hm
            · exact ⟨hp.1, hlt, hp.2 hlt⟩
            · exact hq.bounds h hm
          · intro i
            simp only [hperm.mem_iff, List.mem_cons]
            by_cases hi : i = p.1
            · simp [hi]
            · simp only [hi, if_false, false_or]; exact hq.mem i
          · by_cases hi : i = p.1
            · simp [hi, hlt]
            · simp only [hi, if_false]
              constructor
              · exact .inl
              · rintro (h | ⟨h, _⟩)
                · exact h
                · exact absurd h.symm hi
      · rename_i hlt
        refine ⟨⟨hq.heap, hq.nodup, hq.bounds, hq.mem⟩, rfl, fun i => ⟨.inl, ?_⟩⟩
        rintro (h | ⟨rfl, h⟩)
        · exact h
        · exact absurd h hlt
    obtain ⟨s1, s2, s3⟩ := hstep
    obtain ⟨i1, i2, i3⟩ := ih (fun q hq => hps q (by simp [hq])) _ s1
    refine ⟨i1, ?_, fun i => ?_⟩
    · rw [List.foldl_cons, i2, s2]; simp
    · rw [List.foldl_cons, i3, s3]
      simp only [List.mem_cons, exists_eq_or_imp]
      rw [or_assoc]

/-- The state of the outer loop after the starts `done`. -/
structure Loop (A : RangeInput π κ δ) (done : List Nat) (st : RState κ) : Prop where
  ranges : st.ranges = done.flatMap (fun s => (A.segs s).map (fun p => (s, p.1, p.2)))
  sorted : done.Pairwise (· < ·)
  heap : IsHeap (fun a b : Nat => decide (a < b)) st.heap
  nodup : st.heap.Nodup
  above : ∀ h ∈ st.heap, ∀ d ∈ done, d < h
  bounds : ∀ h, h ∈ done ∨ h ∈ st.heap → h < A.n ∧ A.Start h
  mem : ∀ i, st.inStarts i = true ↔ i ∈ done ∨ i ∈ st.heap
  closed : ∀ d ∈ done, ∀ p ∈ A.segs d, p.1 < A.n → st.inStarts p.1 = true
  zero : 0 ∈ done ∨ 0 ∈ st.heap

theorem loop_step (A : RangeInput π κ δ) (hmm : A.minChange ≤ A.maxNoChange) (done : List Nat)
    (st : RState κ) (hl : A.Loop done st) (x : Nat) (heap : List Nat)
    (hp : heappop (fun a b => decide (a < b)) st.heap = some (x, heap)) :
    A.Loop (done ++ [x]) (scanStart A x { st with heap := heap }) := by
  cases hh : st.heap with
  | nil => rw [hh] at hp; simp [heappop] at hp
  | cons first rest =>
    have hheap := hl.heap
    rw [hh] at hheap
    obtain ⟨h', e1, hperm, hh'⟩ := heappop_spec natOrder first rest hheap
    rw [hh, e1] at hp
    simp only [Option.some.injEq, Prod.mk.injEq] at hp
    obtain ⟨rfl, rfl⟩ := hp
    have hnd := hl.nodup
    rw [hh, List.nodup_cons] at hnd
    have hx : first < A.n ∧ A.Start first := hl.bounds first (.inr (by rw [hh]; simp))
    have hmin : ∀ h ∈ rest, first < h := by
      intro h hm
      have := IsHeap.min natOrder hheap (a := first) (b := h) rfl (List.mem_cons_of_mem _ hm)
      simp only [decide_eq_false_iff_not] at this
      have hne : h ≠ first := fun he => hnd.1 (he ▸ hm)
      omega
    have hq : A.Queue (done ++ [first]) first { st with heap := h' } := by
      refine ⟨hh', hperm.nodup_iff.2 hnd.2, ?_, ?_⟩
      · intro h hm
        have hm := hperm.mem_iff.1 hm
        have := hl.bounds h (.inr (by rw [hh]; simp [hm]))
        exact ⟨hmin h hm, this⟩
      · intro i
        simp only [List.mem_append, List.mem_singleton, hperm.mem_iff]
        rw [hl.mem i, hh, List.mem_cons, or_assoc]
    obtain ⟨sp1, sp2⟩ := segs_spec A hmm first hx.1
    have hps : ∀ p ∈ A.segs first, first < p.1 ∧ (p.1 < A.n → A.Start p.1) := by
      intro p hp
      have hseg := ((sp1 p).1 hp).1
      exact ⟨hseg.lt, fun hlt => .next first p.1 hx.2 hseg hlt⟩
    obtain ⟨q, r, m⟩ := foldl_emit A (done ++ [first]) first (A.segs first) hps _ hq
    rw [← scanStart_eq] at q r m
    refine ⟨?_, ?_, q.heap, q.nodup, ?_, ?_, q.mem, ?_, ?_⟩
    · rw [r, hl.ranges, List.flatMap_append]; simp
    · rw [List.pairwise_append]
      refine ⟨hl.sorted, by simp, ?_⟩
      intro a ha b hb
      simp only [List.mem_singleton] at hb
      subst hb
      exact hl.above b (by rw [hh]; simp) a ha
    · intro h hm d hd
      rw [List.mem_append, List.mem_singleton] at hd
      have := (q.bounds h hm).1
      rcases hd with hd | rfl
      · exact Nat.lt_trans (hl.above first (by rw [hh]; simp) d hd) this
      · exact this
    · rintro h (hm | hm)
      · rw [List.mem_append, List.mem_singleton] at hm
        rcases hm with hm | rfl
        · exact hl.bounds h (.inl hm)
        · exact hx
      · exact (q.bounds h hm).2
    · intro d hd p hp hlt
      rw [m]
      rw [List.mem_append, List.mem_singleton] at hd
      rcases hd with hd | rfl
      · exact .inl (hl.closed d hd p hp hlt)
      · exact .inr ⟨p, hp, rfl, hlt⟩
    · have h0 : (scanStart A first { st with heap := h' }).inStarts 0 = true := by
        rw [m]; left
        rw [hl.mem]; exact hl.zero
      exact (q.mem 0).1 h0

theorem loop_done (A : RangeInput π κ δ) (hmm : A.minChange ≤ A.maxNoChange) (fuel : Nat)
    (done : List Nat) (st : RState κ) (hl : A.Loop done st) (hf : A.n ≤ done.length + fuel) :
    ∃ all, A.Loop all (loop A fuel st) ∧ (loop A fuel st).heap = [] := by
  induction fuel generalizing done st with
  | zero =>
    refine ⟨done, hl, ?_⟩
    cases hh : st.heap with
    | nil => exact hh
    | cons h rest =>
      exfalso
      have hnd : (h :: done).Nodup := by
        rw [List.nodup_cons]
        refine ⟨fun hm => ?_, hl.sorted.imp (fun h => Nat.ne_of_lt h)⟩
        exact Nat.lt_irrefl _ (hl.above h (by rw [hh]; simp) h hm)
      have hsub : ∀ x ∈ h :: done, x ∈ List.range A.n := by
        intro x hx
        rw [List.mem_range]
        rw [List.mem_cons] at hx
        rcases hx with rfl | hx
        · exact (hl.bounds x (.inr (by rw [hh]; simp))).1
        · exact (hl.bounds x (.inl hx)).1
      have := List.subperm_of_subset hnd hsub
      have := this.length_le
      simp at this
      omega
  | succ fuel ih =>
    simp only [loop]
    cases hp : heappop (fun a b => decide (a < b)) st.heap with
    | none =>
      refine ⟨done, hl, ?_⟩
      cases hh : st.heap with
      | nil => rfl
      | cons first rest =>
        have hheap := hl.heap
        rw [hh] at hheap
        obtain ⟨h', e1, _, _⟩ := heappop_spec natOrder first rest hheap
        rw [hh, e1] at hp; cases hp
    | some r =>
      obtain ⟨x, heap⟩ := r
      exact ih _ _ (loop_step A hmm done st hl x heap hp) (by simp; omega)

/-- The starts in order, and the result of the loop. -/
theorem loop_result (A : RangeInput π κ δ) (hmm : A.minChange ≤ A.maxNoChange) (hn : A.n ≠ 0) :
    ∃ all : List Nat, all.Pairwise (· < ·) ∧ (∀ s, s ∈ all ↔ A.Start s) ∧ (∀ s ∈ all, s < A.n) ∧
      (loop A A.n ⟨[], [0], fun i => decide (i = 0)⟩).ranges =
        all.flatMap (fun s => (A.segs s).map (fun p => (s, p.1, p.2))) := by
  have hinit : A.Loop [] (⟨[], [0], fun i => decide (i = 0)⟩ : RState κ) := by
    refine ⟨rfl, by simp, ?_, by simp, by simp, ?_, ?_, by simp, .inr (by simp)⟩
    · intro i a b hi ha hb
      have := (List.getElem?_eq_some_iff.mp hb).1
      simp at this; omega
    · rintro h (hm | hm)
      · simp at hm
      · simp only [List.mem_singleton] at hm
        subst hm
        exact ⟨by omega, .zero⟩
    · intro i; simp
  obtain ⟨all, hl, hh⟩ := loop_done A hmm A.n [] _ hinit (by simp)
  refine ⟨all, hl.sorted, fun s => ⟨fun hs => (hl.bounds s (.inl hs)).2, fun hs => ?_⟩,
    fun s hs => (hl.bounds s (.inl hs)).1, hl.ranges⟩
  induction hs with
  | zero =>
    rcases hl.zero with h | h
    · exact h
    · rw [hh] at h; simp at h
  | next s e hs hseg hlt ih =>
    have hsn := (hl.bounds s (.inl ih)).1
    have := hl.closed s ih (e, A.segLog s e) (((segs_spec A hmm s hsn).1 _).2 ⟨hseg, rfl⟩) hlt
    rw [hl.mem, hh] at this
    simpa using this

end RangeInput
end Verif
