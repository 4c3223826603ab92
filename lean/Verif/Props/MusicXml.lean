import Verif.MusicXml
import Verif.Props.Rhythm
import Mathlib.Tactic.Ring
import Mathlib.Tactic.Linarith
import Mathlib.Tactic.LinearCombination
import Mathlib.Tactic.Positivity

/-!
# C80, C81, C82: measures, labels and notes of a MusicXML score
-/

namespace Verif.MusicXml

/-! ## Measures -/

/-- A time signature of positive numbers, and its length. -/
def PosSig (s : Int × Int) : Prop := 1 ≤ s.1 ∧ 1 ≤ s.2

/-- The length of a measure of a time signature. -/
def sigLength (s : Int × Int) : ℚ := (s.1 : ℚ) / (s.2 : ℚ)

theorem sigLength_pos {s : Int × Int} (h : PosSig s) : 0 < sigLength s := by
  unfold sigLength
  have h1 : (0 : ℚ) < s.1 := by exact_mod_cast (by have := h.1; omega : 0 < s.1)
  have h2 : (0 : ℚ) < s.2 := by exact_mod_cast (by have := h.2; omega : 0 < s.2)
  exact div_pos h1 h2

theorem sigDuration_ok {s : Int × Int} (h : PosSig s) : sigDuration s = .ok (sigLength s) := by
  rw [sigDuration, if_neg (by have := h.2; omega)]; rfl

theorem fracMod_spec (a b : ℚ) (hb : 0 < b) :
    ∃ r, fracMod a b = .ok r ∧ 0 ≤ r ∧ r < b ∧ ∃ k : ℤ, a = r + k * b := by
  refine ⟨a - b * ⌊a / b⌋, by rw [fracMod, if_neg hb.ne'], ?_, ?_, ⌊a / b⌋, by ring⟩
  · have h := Int.floor_le (a / b)
    rw [le_div_iff₀ hb] at h
    linarith
  · have h := Int.lt_floor_add_one (a / b)
    rw [div_lt_iff₀ hb] at h
    linarith

/-- One row after another: it begins where the other ends; in the same time signature the metrical position
goes on, and a new time signature begins on a downbeat. -/
structure Follows (r r' : XmlRow) : Prop where
  start : r'.start = r.start + r.actDur
  same : r.timeSig = r'.timeSig → ∃ k : ℤ, r.offset + r.actDur = r'.offset + k * sigLength r.timeSig
  change : r.timeSig ≠ r'.timeSig → r'.offset = 0

/-- The offset of a row is a position in its measure. -/
def OffsetIn (r : XmlRow) : Prop := PosSig r.timeSig ∧ 0 ≤ r.offset ∧ r.offset < sigLength r.timeSig

/-- The invariant of the loop for the rows so far, in reverse order. -/
structure Inv (s : XmlState) : Prop where
  sig : PosSig s.timeSig
  rows : s.rows.IsChain (fun r' r => Follows r r')
  offsets : ∀ r ∈ s.rows, OffsetIn r
  head : ∀ r, s.rows[0]? = some r → r.timeSig = s.timeSig ∧
    ∃ k : ℤ, r.start - s.epoch = r.offset + k * sigLength s.timeSig

theorem newSig_pos {s : XmlState} {m : XmlMeasure} (hs : PosSig s.timeSig)
    (hm : ∀ t, m.timeSig = some t → PosSig t) (mc : Nat) (x : ℚ) : PosSig (newSig s mc x m).1 := by
  unfold newSig
  cases h : m.timeSig with
  | none => exact hs
  | some t =>
    simp only
    split
    · exact hm t h
    · exact hs

theorem newSig_cases (s : XmlState) (m : XmlMeasure) (mc : Nat) (x : ℚ) (hmc : mc ≠ 0) :
    (newSig s mc x m = (s.timeSig, s.epoch)) ∨
      ((newSig s mc x m).1 ≠ s.timeSig ∧ (newSig s mc x m).2 = x) := by
  unfold newSig
  cases h : m.timeSig with
  | none => exact .inl rfl
  | some t =>
    simp only
    by_cases ht : t ≠ s.timeSig
    · rw [if_pos ht, if_pos hmc]; exact .inr ⟨ht, rfl⟩
    · rw [if_neg ht]; exact .inl rfl

theorem close_chain (x : ℚ) (rows : List XmlRow) (h : rows.IsChain (fun r' r => Follows r r')) :
    (closeLast x rows).IsChain (fun r' r => Follows r r') := by
  cases rows with
  | nil => simp [closeLast]
  | cons r rows =>
    rw [closeLast]
    cases rows with
    | nil => simp
    | cons r2 rows =>
      rw [List.isChain_cons_cons] at h ⊢
      exact ⟨⟨h.1.start, h.1.same, h.1.change⟩, h.2⟩

theorem close_map (x : ℚ) (rows : List XmlRow) : (closeLast x rows).map (·.mn) = rows.map (·.mn) := by
  cases rows <;> rfl

theorem close_nil (x : ℚ) (rows : List XmlRow) : closeLast x rows = [] ↔ rows = [] := by
  cases rows <;> simp [closeLast]

/-- One round. -/
theorem step_spec (first : List (Int × Int)) (mc : Nat) (m : XmlMeasure) (s : XmlState) (h : Inv s)
    (hm : ∀ t, m.timeSig = some t → PosSig t) (hmc : s.rows ≠ [] → mc ≠ 0) :
    ∃ s', xmlStep first mc m s = .ok s' ∧ Inv s' ∧
      s'.rows.map (·.mn) = (if inFirstEnding first m.number = true then [] else [m.number]) ++ s.rows.map (·.mn) := by
  unfold xmlStep
  by_cases hf : inFirstEnding first m.number = true
  · rw [if_pos hf, if_pos hf]
    exact ⟨_, rfl, ⟨h.sig, h.rows, h.offsets, h.head⟩, by simp⟩
  · rw [if_neg hf, if_neg hf]
    have hpos := newSig_pos h.sig hm mc (m.offset / 4 - s.skipped)
    obtain ⟨off, ho1, ho2, ho3, ko, ho4⟩ := fracMod_spec
      (m.offset / 4 - s.skipped - (newSig s mc (m.offset / 4 - s.skipped) m).2) _ (sigLength_pos hpos)
    simp only [Bind.bind, Except.bind, sigDuration_ok hpos, ho1]
    refine ⟨_, rfl, ⟨hpos, ?_, ?_, ?_⟩, ?_⟩
    · simp only
      cases hr : s.rows with
      | nil => simp [closeLast]
      | cons r rows =>
        have hc := close_chain (m.offset / 4 - s.skipped) s.rows h.rows
        rw [hr, closeLast] at hc
        rw [closeLast, List.isChain_cons_cons]
        refine ⟨?_, hc⟩
        obtain ⟨hsig, k, hk⟩ := h.head r (by rw [hr]; rfl)
        have hmc' := hmc (by rw [hr]; simp)
        refine ⟨by simp only; ring, ?_, ?_⟩
        · simp only
          intro hsame
          rcases newSig_cases s m mc (m.offset / 4 - s.skipped) hmc' with e | ⟨e, _⟩
          · rw [e] at ho4
            simp only at ho4
            rw [hsig]
            refine ⟨ko - k, ?_⟩
            push_cast
            linear_combination ho4 - hk
          · exact absurd (hsame.symm.trans hsig) e
        · simp only
          intro hdiff
          rcases newSig_cases s m mc (m.offset / 4 - s.skipped) hmc' with e | ⟨_, e⟩
          · rw [e] at hdiff; exact absurd hsig hdiff
          · rw [e, sub_self] at ho1
            have : fracMod 0 (sigLength (newSig s mc (m.offset / 4 - s.skipped) m).1) = .ok 0 := by
              rw [fracMod, if_neg (sigLength_pos hpos).ne']; simp
            rw [this] at ho1
            injection ho1 with ho1
            exact ho1.symm
    · intro r hr
      rcases List.mem_cons.1 hr with rfl | hr
      · exact ⟨hpos, ho2, ho3⟩
      · cases hs : s.rows with
        | nil => rw [hs] at hr; simp [closeLast] at hr
        | cons r0 rows =>
          rw [hs, closeLast] at hr
          rcases List.mem_cons.1 hr with rfl | hr
          · exact h.offsets r0 (by rw [hs]; simp)
          · exact h.offsets r (by rw [hs]; simp [hr])
    · intro r hr
      simp only [List.getElem?_cons_zero, Option.some.injEq] at hr
      subst hr
      exact ⟨rfl, ko, ho4⟩
    · simp only [List.map_cons, close_map]; rfl

theorem loop_spec (first : List (Int × Int)) (ms : List XmlMeasure)
    (hms : ∀ m ∈ ms, ∀ t, m.timeSig = some t → PosSig t) :
    ∀ (mc : Nat) (s : XmlState), Inv s → (s.rows ≠ [] → mc ≠ 0) →
      ∃ s', xmlLoop first mc ms s = .ok s' ∧ Inv s' ∧
        s'.rows.map (·.mn) =
          ((ms.filter (fun m => !inFirstEnding first m.number)).map (·.number)).reverse ++ s.rows.map (·.mn) := by
  induction ms with
  | nil => intro mc s h _; exact ⟨s, rfl, h, by simp⟩
  | cons m ms ih =>
    intro mc s h hmc
    obtain ⟨s1, h1, h2, h3⟩ := step_spec first mc m s h (hms m (by simp)) hmc
    obtain ⟨s2, h4, h5, h6⟩ := ih (fun m hm => hms m (by simp [hm])) (mc + 1) s1 h2 (fun _ => by omega)
    refine ⟨s2, by simp only [xmlLoop, Bind.bind, Except.bind, h1, h4], h5, ?_⟩
    rw [h6, h3, List.filter_cons]
    by_cases hf : inFirstEnding first m.number = true
    · simp [hf]
    · simp [hf]

/-- A measure in a first ending. -/
def Skipped (first : List (Int × Int)) (m : XmlMeasure) : Prop := ∃ e ∈ first, e.1 ≤ m.number ∧ m.number ≤ e.2

theorem skipped_iff (first : List (Int × Int)) (m : XmlMeasure) :
    inFirstEnding first m.number = true ↔ Skipped first m := by
  unfold inFirstEnding Skipped
  simp only [List.any_eq_true, Bool.and_eq_true, decide_eq_true_eq]
  constructor
  · rintro ⟨e, he, h1, h2⟩; exact ⟨e, he, h1, by omega⟩
  · rintro ⟨e, he, h1, h2⟩; exact ⟨e, he, h1, by omega⟩

instance (first : List (Int × Int)) (m : XmlMeasure) : Decidable (Skipped first m) :=
  decidable_of_iff _ (skipped_iff first m)

theorem filter_skipped (first : List (Int × Int)) (ms : List XmlMeasure) :
    ms.filter (fun m => !inFirstEnding first m.number) = ms.filter (fun m => decide (¬ Skipped first m)) := by
  apply List.filter_congr
  intro m _
  rw [Bool.eq_iff_iff]
  simp [← skipped_iff]

/-- C80: a score of two or more measures, not all in first endings, has a table of its measures that are not
in first endings, in order. Each begins where the one before it ends, the metrical positions go on from one to
the next, a new time signature begins on a downbeat, and all offsets are positions in a measure. -/
theorem C80_measures_partial (first : List (Int × Int)) (ms : List XmlMeasure) (h2 : 2 ≤ ms.length)
    (hms : ∀ m ∈ ms, ∀ t, m.timeSig = some t → PosSig t) (hkeep : ∃ m ∈ ms, ¬ Skipped first m) :
    ∃ rows, xmlMeasures first ms = .ok rows ∧
      rows.map (·.mn) = (ms.filter (fun m => decide (¬ Skipped first m))).map (·.number) ∧
      rows.IsChain Follows ∧ ∀ r ∈ rows, OffsetIn r := by
  obtain ⟨m0, m1, rest, rfl⟩ : ∃ m0 m1 rest, ms = m0 :: m1 :: rest := by
    match ms with
    | [] => simp at h2
    | [_] => simp at h2
    | m0 :: m1 :: rest => exact ⟨m0, m1, rest, rfl⟩
  obtain ⟨s, hs1, hs2, hs3⟩ := loop_spec first (m0 :: m1 :: rest) hms 0 ⟨(4, 4), m1.offset / 4, 0, []⟩
    ⟨⟨by simp, by simp⟩, by simp, by simp, by simp⟩ (by simp)
  have hget : pyGet (m0 :: m1 :: rest) 1 = .ok m1 := rfl
  have hne : s.rows ≠ [] := by
    intro e
    rw [e, filter_skipped] at hs3
    simp only [List.map_nil, List.append_nil] at hs3
    have := List.reverse_eq_nil_iff.1 hs3.symm
    rw [List.map_eq_nil_iff, List.filter_eq_nil_iff] at this
    obtain ⟨m, hm, hm'⟩ := hkeep
    exact this m hm (by simpa using hm')
  refine ⟨s.rows.reverse, ?_, ?_, ?_, ?_⟩
  · simp only [xmlMeasures, Bind.bind, Except.bind, hget, hs1, if_neg hne]
  · rw [List.map_reverse, hs3, filter_skipped]; simp
  · rw [List.isChain_reverse]; exact hs2.rows
  · intro r hr
    exact hs2.offsets r (List.mem_reverse.1 hr)

/-- C80: a score of one measure raises an `IndexError`. -/
theorem C80_fails_one (first : List (Int × Int)) (m : XmlMeasure) :
    xmlMeasures first [m] = .error .indexError := rfl

/-! ### Scores without gaps -/

/-- Each measure begins where the one before it ends. -/
def Contiguous (ms : List XmlMeasure) : Prop := ms.IsChain (fun m m' => m'.offset = m.offset + m.quarters)

/-- Where the next row begins. -/
def nextStart (base : ℚ) (s : XmlState) : ℚ :=
  match s.rows with
  | [] => base
  | r :: _ => r.start + r.actDur

theorem step_contiguous (first : List (Int × Int)) (base : ℚ) (mc : Nat) (m : XmlMeasure) (s s' : XmlState)
    (hstep : xmlStep first mc m s = .ok s') (hm : m.offset / 4 - s.skipped = nextStart base s) :
    (m.offset + m.quarters) / 4 - s'.skipped = nextStart base s' ∧
    ((s.rows = [] ∨ ∀ r, s.rows.getLast? = some r → r.start = base) →
      (s'.rows = [] ∨ ∀ r, s'.rows.getLast? = some r → r.start = base)) ∧
    s'.rows.map (·.actDur) = (if inFirstEnding first m.number = true then [] else [m.quarters / 4]) ++
      s.rows.map (·.actDur) := by
  unfold xmlStep at hstep
  by_cases hf : inFirstEnding first m.number = true
  · rw [if_pos hf] at hstep ⊢
    injection hstep with e
    subst e
    refine ⟨?_, fun h => h, by simp⟩
    have : nextStart base { s with skipped := s.skipped + m.quarters / 4 } = nextStart base s := rfl
    rw [this, ← hm]
    simp only
    ring
  · rw [if_neg hf] at hstep ⊢
    simp only [Bind.bind, Except.bind] at hstep
    cases h1 : sigDuration (newSig s mc (m.offset / 4 - s.skipped) m).1 with
    | error e => rw [h1] at hstep; cases hstep
    | ok d =>
      rw [h1] at hstep
      simp only at hstep
      cases h2 : fracMod (m.offset / 4 - s.skipped - (newSig s mc (m.offset / 4 - s.skipped) m).2) d with
      | error e => rw [h2] at hstep; cases hstep
      | ok off =>
        rw [h2] at hstep
        injection hstep with e
        subst e
        refine ⟨by simp only [nextStart]; ring, ?_, ?_⟩
        · intro h
          right
          cases hr : s.rows with
          | nil =>
            intro r hlast
            simp only [closeLast, List.getLast?_singleton, Option.some.injEq] at hlast
            subst hlast
            simp only
            rw [hm, nextStart, hr]
          | cons r0 rows =>
            intro r hlast
            rcases h with h | h
            · rw [h] at hr; cases hr
            · rw [hr] at h
              simp only [closeLast, List.getLast?_cons_cons] at hlast
              cases rows with
              | nil =>
                simp only [List.getLast?_singleton, Option.some.injEq] at hlast
                subst hlast
                exact h r0 rfl
              | cons r1 rows => exact h r (by simpa using hlast)
        · have hc : closeLast (m.offset / 4 - s.skipped) s.rows = s.rows := by
            rw [hm, nextStart]
            cases s.rows with
            | nil => rfl
            | cons r rows => simp [closeLast]
          simp only [hc, List.map_cons]
          rfl

theorem loop_contiguous (first : List (Int × Int)) (base : ℚ) (ms : List XmlMeasure) (hc : Contiguous ms) :
    ∀ (mc : Nat) (s s' : XmlState), xmlLoop first mc ms s = .ok s' →
      (∀ m, ms[0]? = some m → m.offset / 4 - s.skipped = nextStart base s) →
      (s.rows = [] ∨ ∀ r, s.rows.getLast? = some r → r.start = base) →
      (s'.rows = [] ∨ ∀ r, s'.rows.getLast? = some r → r.start = base) ∧
      s'.rows.map (·.actDur) =
        ((ms.filter (fun m => !inFirstEnding first m.number)).map (fun m => m.quarters / 4)).reverse ++
          s.rows.map (·.actDur) := by
  induction ms with
  | nil =>
    intro mc s s' h _ hb
    simp only [xmlLoop, Except.ok.injEq] at h
    subst h
    exact ⟨hb, by simp⟩
  | cons m ms ih =>
    intro mc s s' h hm hb
    simp only [xmlLoop, Bind.bind, Except.bind] at h
    cases h1 : xmlStep first mc m s with
    | error e => rw [h1] at h; cases h
    | ok s1 =>
      rw [h1] at h
      obtain ⟨a, b, c⟩ := step_contiguous first base mc m s s1 h1 (hm m rfl)
      obtain ⟨d, e⟩ := ih (by
          cases ms with
          | nil => simp [Contiguous]
          | cons m' ms => exact (List.isChain_cons_cons.1 hc).2) (mc + 1) s1 s' h (by
          intro m' hm'
          cases ms with
          | nil => simp at hm'
          | cons m'' ms =>
            simp only [List.getElem?_cons_zero, Option.some.injEq] at hm'
            subst hm'
            rw [(List.isChain_cons_cons.1 hc).1, a]) (b hb)
      refine ⟨d, ?_⟩
      rw [e, c, List.filter_cons]
      by_cases hf : inFirstEnding first m.number = true
      · simp [hf]
      · simp [hf]

/-- C80: if the score has no gaps, each row has the length of its measure, and the first one begins where the
score begins (so the first endings leave no gaps either). -/
theorem C80_lengths (first : List (Int × Int)) (m0 : XmlMeasure) (ms : List XmlMeasure)
    (hc : Contiguous (m0 :: ms)) (rows : List XmlRow) (h : xmlMeasures first (m0 :: ms) = .ok rows) :
    rows.map (·.actDur) =
      ((m0 :: ms).filter (fun m => decide (¬ Skipped first m))).map (fun m => m.quarters / 4) ∧
    ∀ r, rows[0]? = some r → r.start = m0.offset / 4 := by
  unfold xmlMeasures at h
  simp only [Bind.bind, Except.bind] at h
  cases h1 : pyGet (m0 :: ms) 1 with
  | error e => rw [h1] at h; cases h
  | ok m1 =>
    rw [h1] at h
    simp only at h
    cases h2 : xmlLoop first 0 (m0 :: ms) ⟨(4, 4), m1.offset / 4, 0, []⟩ with
    | error e => rw [h2] at h; cases h
    | ok s =>
      rw [h2] at h
      simp only at h
      split at h
      · cases h
      · rename_i hne
        injection h with h
        subst h
        obtain ⟨a, b⟩ := loop_contiguous first (m0.offset / 4) (m0 :: ms) hc 0 _ s h2
          (by
            intro m hm
            simp only [List.getElem?_cons_zero, Option.some.injEq] at hm
            subst hm
            simp [nextStart]) (.inl rfl)
        refine ⟨by rw [List.map_reverse, b, filter_skipped]; simp, ?_⟩
        intro r hr
        rcases a with a | a
        · exact absurd a hne
        · refine a r ?_
          rw [List.getLast?_eq_head?_reverse, List.head?_eq_getElem?]
          exact hr

/-! ### The first measure -/

theorem step_suffix (first : List (Int × Int)) (mc : Nat) (m : XmlMeasure) (s s' : XmlState)
    (h : xmlStep first mc m s = .ok s') (r : XmlRow) (tl : List XmlRow) (hr : s.rows = r :: tl) :
    ∃ r' xs, s'.rows = r' :: (xs ++ tl) := by
  unfold xmlStep at h
  by_cases hf : inFirstEnding first m.number = true
  · rw [if_pos hf] at h
    injection h with e
    subst e
    exact ⟨r, [], hr⟩
  · rw [if_neg hf] at h
    simp only [Bind.bind, Except.bind] at h
    cases h1 : sigDuration (newSig s mc (m.offset / 4 - s.skipped) m).1 with
    | error e => rw [h1] at h; cases h
    | ok d =>
      rw [h1] at h
      simp only at h
      cases h2 : fracMod (m.offset / 4 - s.skipped - (newSig s mc (m.offset / 4 - s.skipped) m).2) d with
      | error e => rw [h2] at h; cases h
      | ok off =>
        rw [h2] at h
        injection h with e
        subst e
        exact ⟨⟨m.number, (newSig s mc (m.offset / 4 - s.skipped) m).1, m.offset / 4 - s.skipped, m.quarters / 4,
          off⟩, [⟨r.mn, r.timeSig, r.start, m.offset / 4 - s.skipped - r.start, r.offset⟩], by
            simp only [hr, closeLast]; rfl⟩

theorem loop_suffix (first : List (Int × Int)) (ms : List XmlMeasure) :
    ∀ (mc : Nat) (s s' : XmlState), xmlLoop first mc ms s = .ok s' → ∀ (r : XmlRow) (tl : List XmlRow),
      s.rows = r :: tl → ∃ r' xs, s'.rows = r' :: (xs ++ tl) := by
  induction ms with
  | nil =>
    intro mc s s' h r tl hr
    simp only [xmlLoop, Except.ok.injEq] at h
    subst h
    exact ⟨r, [], hr⟩
  | cons m ms ih =>
    intro mc s s' h r tl hr
    simp only [xmlLoop, Bind.bind, Except.bind] at h
    cases h1 : xmlStep first mc m s with
    | error e => rw [h1] at h; cases h
    | ok s1 =>
      rw [h1] at h
      obtain ⟨r1, xs, h2⟩ := step_suffix first mc m s s1 h1 r tl hr
      obtain ⟨r2, ys, h3⟩ := ih (mc + 1) s1 s' h r1 (xs ++ tl) h2
      exact ⟨r2, ys ++ xs, by rw [h3, List.append_assoc]⟩

/-- What a round does with a measure that is not skipped. -/
theorem step_push (first : List (Int × Int)) (mc : Nat) (m : XmlMeasure) (s s' : XmlState)
    (hf : ¬ Skipped first m) (h : xmlStep first mc m s = .ok s') :
    ∃ off, fracMod (m.offset / 4 - s.skipped - (newSig s mc (m.offset / 4 - s.skipped) m).2)
        (sigLength (newSig s mc (m.offset / 4 - s.skipped) m).1) = .ok off ∧
      s'.skipped = s.skipped ∧
      s'.rows = ⟨m.number, (newSig s mc (m.offset / 4 - s.skipped) m).1, m.offset / 4 - s.skipped, m.quarters / 4,
        off⟩ :: closeLast (m.offset / 4 - s.skipped) s.rows := by
  unfold xmlStep at h
  rw [if_neg (fun e => hf ((skipped_iff _ _).1 e))] at h
  simp only [Bind.bind, Except.bind] at h
  cases h1 : sigDuration (newSig s mc (m.offset / 4 - s.skipped) m).1 with
  | error e => rw [h1] at h; cases h
  | ok d =>
    rw [h1] at h
    simp only at h
    have hd : d = sigLength (newSig s mc (m.offset / 4 - s.skipped) m).1 := by
      unfold sigDuration at h1
      split at h1
      · cases h1
      · injection h1 with h1
        exact h1.symm
    cases h2 : fracMod (m.offset / 4 - s.skipped - (newSig s mc (m.offset / 4 - s.skipped) m).2) d with
    | error e => rw [h2] at h; cases h
    | ok off =>
      rw [h2] at h
      injection h with e
      subst e
      exact ⟨off, by rw [← hd]; exact h2, rfl, rfl⟩

/-- C80: the first measure, which may be a pickup, ends on a downbeat. -/
theorem C80_pickup (first : List (Int × Int)) (m0 m1 : XmlMeasure) (ms : List XmlMeasure)
    (h0 : ¬ Skipped first m0) (h1 : ¬ Skipped first m1)
    (hms : ∀ m ∈ m0 :: m1 :: ms, ∀ t, m.timeSig = some t → PosSig t) :
    ∃ r rows, xmlMeasures first (m0 :: m1 :: ms) = .ok (r :: rows) ∧ r.mn = m0.number ∧
      r.timeSig = m0.timeSig.getD (4, 4) ∧ r.start = m0.offset / 4 ∧
      r.actDur = (m1.offset - m0.offset) / 4 ∧
      ∃ k : ℤ, r.offset + r.actDur = k * sigLength r.timeSig := by
  obtain ⟨rows, hrows, -, -, hin⟩ := C80_measures_partial first (m0 :: m1 :: ms) (by simp) hms ⟨m0, by simp, h0⟩
  have hrows' := hrows
  unfold xmlMeasures at hrows
  have hget : pyGet (m0 :: m1 :: ms) 1 = .ok m1 := rfl
  simp only [Bind.bind, Except.bind, hget] at hrows
  cases hl : xmlLoop first 0 (m0 :: m1 :: ms) ⟨(4, 4), m1.offset / 4, 0, []⟩ with
  | error e => rw [hl] at hrows; cases hrows
  | ok s =>
    rw [hl] at hrows
    simp only at hrows
    split at hrows
    · cases hrows
    · injection hrows with hrows
      simp only [xmlLoop, Bind.bind, Except.bind] at hl
      cases e1 : xmlStep first 0 m0 ⟨(4, 4), m1.offset / 4, 0, []⟩ with
      | error e => rw [e1] at hl; cases hl
      | ok s1 =>
        rw [e1] at hl
        simp only at hl
        cases e2 : xmlStep first (0 + 1) m1 s1 with
        | error e => rw [e2] at hl; cases hl
        | ok s2 =>
          rw [e2] at hl
          simp only at hl
          obtain ⟨off, a1, a2, a3⟩ := step_push first 0 m0 _ s1 h0 e1
          obtain ⟨off', b1, b2, b3⟩ := step_push first (0 + 1) m1 s1 s2 h1 e2
          have hsig : newSig ⟨(4, 4), m1.offset / 4, 0, []⟩ 0 (m0.offset / 4 - 0) m0 =
              (m0.timeSig.getD (4, 4), m1.offset / 4) := by
            unfold newSig
            cases m0.timeSig with
            | none => rfl
            | some t =>
              simp only [Option.getD_some]
              split
              · rfl
              · rename_i ht
                rw [Decidable.not_not.1 ht]
          rw [hsig] at a1 a3
          rw [a2] at b3
          simp only [closeLast, sub_zero] at a1 a2 a3 b3
          rw [a3] at b3
          obtain ⟨r', xs, c1⟩ := loop_suffix first ms _ s2 s hl _ _ b3
          have hpos : PosSig (m0.timeSig.getD (4, 4)) := by
            cases ht : m0.timeSig with
            | none => exact ⟨by decide, by decide⟩
            | some t => exact hms m0 (by simp) t ht
          obtain ⟨off2, d1, -, -, k, d2⟩ := fracMod_spec (m0.offset / 4 - m1.offset / 4) _ (sigLength_pos hpos)
          rw [a1] at d1
          injection d1 with d1
          subst d1
          rw [c1] at hrows
          simp only [List.reverse_cons, List.reverse_append, List.reverse_nil, List.nil_append,
            List.cons_append] at hrows
          refine ⟨_, _, by rw [hrows', ← hrows], rfl, rfl, rfl, by simp only; ring, -k, ?_⟩
          simp only
          push_cast
          linear_combination -d2

/-! ### The table of measures -/

theorem find_sorted (c : List (Measure ℚ)) (h : c.Pairwise (fun a b => a.mc < b.mc)) :
    ∀ m ∈ c, findMeasure c m.mc = some m := by
  induction c with
  | nil => simp
  | cons a c ih =>
    intro m hm
    rw [List.pairwise_cons] at h
    unfold findMeasure
    rw [List.find?_cons]
    rcases List.mem_cons.1 hm with rfl | hm
    · simp
    · have := h.1 m hm
      rw [decide_eq_false (by omega)]
      exact ih h.2 m hm

theorem table_get (rows : List XmlRow) (i : Nat) :
    (xmlTable rows)[i]? = rows[i]?.map (fun r =>
      ⟨(i : Int), r.actDur, r.offset, if i + 1 < rows.length then some ((i : Int) + 1) else none⟩) := by
  unfold xmlTable
  rw [List.getElem?_mapIdx]

/-- C80: the measures are linked one after another. -/
theorem C80_chain (rows : List XmlRow) : Chain (xmlTable rows) (xmlTable rows) := by
  have hsorted : (xmlTable rows).Pairwise (fun a b => a.mc < b.mc) := by
    rw [List.pairwise_iff_getElem]
    intro i j hi hj hij
    have h1 := List.getElem?_eq_getElem hi
    have h2 := List.getElem?_eq_getElem hj
    rw [table_get, Option.map_eq_some_iff] at h1 h2
    obtain ⟨_, _, h1⟩ := h1
    obtain ⟨_, _, h2⟩ := h2
    rw [← h1, ← h2]
    simp only
    omega
  refine ⟨find_sorted _ hsorted, ?_, hsorted⟩
  intro k m m' h1 h2
  rw [table_get, Option.map_eq_some_iff] at h1 h2
  obtain ⟨r, hr, rfl⟩ := h1
  obtain ⟨r', hr', rfl⟩ := h2
  have := (List.getElem?_eq_some_iff.1 hr').1
  simp only
  rw [if_pos this]
  push_cast
  rfl

theorem sum_starts (rows : List XmlRow) (h : rows.IsChain Follows) (r0 : XmlRow) (h0 : rows[0]? = some r0) :
    ∀ (i : Nat) r, rows[i]? = some r → ((rows.take i).map (·.actDur)).sum = r.start - r0.start := by
  intro i
  induction i with
  | zero =>
    intro r hr
    rw [h0] at hr
    injection hr with hr
    subst hr
    simp
  | succ i ih =>
    intro r hr
    have hlt := (List.getElem?_eq_some_iff.1 hr).1
    have hi : rows[i]? = some rows[i] := List.getElem?_eq_getElem (by omega)
    have := ih _ hi
    rw [List.take_add_one, List.map_append, List.sum_append, this, hi]
    have hf := List.isChain_iff_getElem.1 h i hlt
    have hr' : r = rows[i + 1] := by
      rw [List.getElem?_eq_getElem hlt] at hr
      injection hr with hr
      exact hr.symm
    rw [hr', hf.start]
    simp only [Option.toList_some, List.map_cons, List.map_nil, List.sum_cons, List.sum_nil]
    ring

theorem table_sum (rows : List XmlRow) (i : Nat) :
    ((xmlTable rows).take i).map (·.actDur) = (rows.take i).map (·.actDur) := by
  apply List.ext_getElem?
  intro j
  rw [List.getElem?_map, List.getElem?_map, List.getElem?_take, List.getElem?_take]
  split
  · rw [table_get]
    cases rows[j]? <;> rfl
  · rfl

/-- C80: a beat of a measure is as far from the beginning of the first measure as the starts say. -/
theorem C80_position (rows : List XmlRow) (h : rows.IsChain Follows) (r0 r : XmlRow) (i : Nat)
    (h0 : rows[0]? = some r0) (hr : rows[i]? = some r) (beat : ℚ) :
    chainPos (xmlTable rows) i beat = r.start - r0.start + (beat - r.offset) := by
  unfold chainPos
  rw [table_sum, sum_starts rows h r0 h0 i r hr, table_get, hr]
  rfl

/-- A pickup of a quarter, two measures of 3/4 the second of which is in a first ending, one of 2/4. -/
def exScore : List XmlMeasure :=
  [⟨0, 0, 1, some (3, 4)⟩, ⟨1, 1, 3, none⟩, ⟨4, 2, 3, none⟩, ⟨7, 3, 2, some (2, 4)⟩]

/-- Its table: the measures 0, 1 and 3. -/
def exRows : List XmlRow :=
  [⟨0, (3, 4), 0, 1/4, 1/2⟩, ⟨1, (3, 4), 1/4, 3/4, 0⟩, ⟨3, (2, 4), 1, 1/2, 0⟩]

example : xmlMeasures [(2, 2)] exScore = .ok exRows := by decide +kernel

/-! ## C81: positions of labels -/

/-- The position of a label: in the last measure that does not begin after it. -/
structure LabelAt (rows : List XmlRow) (x : ℚ) (p : Int × ℚ) (r : XmlRow) (i : Nat) : Prop where
  mc : p.1 = (i : Int)
  row : rows[i]? = some r
  beat : p.2 = r.offset + (x - r.start)
  begun : r.start ≤ x
  last : ∀ (j : Nat) r', i < j → rows[j]? = some r' → x < r'.start

theorem getElem?_rangeZip (rows : List XmlRow) (i : Nat) (p : Nat × XmlRow) :
    ((List.range rows.length).zip rows)[i]? = some p ↔ p.1 = i ∧ rows[i]? = some p.2 := by
  rw [List.getElem?_zip_eq_some]
  constructor
  · rintro ⟨h1, h2⟩
    have hlt := (List.getElem?_eq_some_iff.1 h2).1
    rw [List.getElem?_range hlt] at h1
    injection h1 with h1
    exact ⟨h1.symm, h2⟩
  · rintro ⟨h1, h2⟩
    have hlt := (List.getElem?_eq_some_iff.1 h2).1
    rw [List.getElem?_range hlt, h1]
    exact ⟨rfl, h2⟩

theorem lastStarting_spec (rows : List XmlRow) (x : ℚ) (r0 : XmlRow) (h0 : rows[0]? = some r0)
    (hx : r0.start ≤ x) : ∃ i r, lastStarting rows x = .ok (i, r) ∧ rows[i]? = some r ∧ r.start ≤ x ∧
      ∀ (j : Nat) r', i < j → rows[j]? = some r' → x < r'.start := by
  unfold lastStarting
  cases hf : ((List.range rows.length).zip rows).reverse.find? (fun p => decide (p.2.start ≤ x)) with
  | none =>
    rw [List.find?_eq_none] at hf
    have : (0, r0) ∈ ((List.range rows.length).zip rows).reverse := by
      rw [List.mem_reverse]
      exact List.mem_of_getElem? ((getElem?_rangeZip rows 0 (0, r0)).2 ⟨rfl, h0⟩)
    exact absurd hx (by simpa using hf _ this)
  | some p =>
    rw [List.find?_eq_some_iff_append] at hf
    obtain ⟨hp, as, bs, hsplit, hno⟩ := hf
    simp only [decide_eq_true_eq] at hp
    have hrev := congrArg List.reverse hsplit
    rw [List.reverse_reverse, List.reverse_append, List.reverse_cons, List.append_assoc] at hrev
    have hi : ((List.range rows.length).zip rows)[bs.length]? = some p := by
      rw [hrev, List.getElem?_append_right (by simp)]; simp
    obtain ⟨e1, e2⟩ := (getElem?_rangeZip rows _ p).1 hi
    refine ⟨p.1, p.2, rfl, by rw [e1]; exact e2, hp, ?_⟩
    intro j r' hj hr'
    have hj' := (getElem?_rangeZip rows j (j, r')).2 ⟨rfl, hr'⟩
    rw [hrev, List.getElem?_append_right (by simp; omega)] at hj'
    obtain ⟨n, hn⟩ : ∃ n, j - bs.reverse.length = n + 1 := ⟨j - bs.length - 1, by simp; omega⟩
    rw [hn] at hj'
    simp only [List.cons_append, List.nil_append, List.getElem?_cons_succ] at hj'
    have hmem := List.mem_reverse.1 (List.mem_of_getElem? hj')
    have := hno _ hmem
    simpa using this

theorem label_spec (rows : List XmlRow) (x : ℚ) (r0 : XmlRow) (h0 : rows[0]? = some r0)
    (hx : r0.start ≤ x) : ∃ i p r, labelPosition rows x = .ok (p, r) ∧ LabelAt rows x p r i := by
  obtain ⟨i, r, h1, h2, h3, h4⟩ := lastStarting_spec rows x r0 h0 hx
  refine ⟨i, _, r, by simp only [labelPosition, Bind.bind, Except.bind, h1]; rfl, ⟨rfl, h2, ?_, h3, h4⟩⟩
  simp only
  ring

/-- C81: a label from `on` to `off` has the positions of `on` and `off`, each in the last measure that has
begun; their distance, by `get_range_length`, is the duration of the chord; the levels are those of the beats
in their time signatures. -/
theorem C81_label (rows : List XmlRow) (h : rows.IsChain Follows) (hin : ∀ r ∈ rows, OffsetIn r) (r0 : XmlRow)
    (h0 : rows[0]? = some r0) (on off : ℚ) (hon : r0.start ≤ on) (hoff : on ≤ off) :
    ∃ t i j r r', labelTimes rows on off = .ok t ∧ LabelAt rows on t.onset r i ∧ LabelAt rows off t.offset r' j ∧
      chainPos (xmlTable rows) i t.onset.2 = on - r0.start ∧
      chainPos (xmlTable rows) j t.offset.2 = off - r0.start ∧
      t.duration = off - on ∧ getRangeLength (xmlTable rows) t.onset t.offset = .ok t.duration ∧
      metricalLevel t.onset.2 r.timeSig.1 r.timeSig.2 = .ok t.onsetLevel ∧
      metricalLevel t.offset.2 r'.timeSig.1 r'.timeSig.2 = .ok t.offsetLevel := by
  obtain ⟨i, p, r, a1, a2⟩ := label_spec rows on r0 h0 hon
  obtain ⟨j, q, r', b1, b2⟩ := label_spec rows off r0 h0 (by linarith)
  have hs : ∀ (r : XmlRow) (i : Nat), rows[i]? = some r → PosSig r.timeSig := fun r i hr =>
    (hin r (List.mem_of_getElem? hr)).1
  obtain ⟨_, _, _, l, -, c1, -⟩ := C32_levels r.timeSig.1 r.timeSig.2 (hs r i a2.row).1 (hs r i a2.row).2 p.2
  obtain ⟨_, _, _, l', -, d1, -⟩ := C32_levels r'.timeSig.1 r'.timeSig.2 (hs r' j b2.row).1 (hs r' j b2.row).2 q.2
  refine ⟨⟨p, l, q, l', off - on⟩, i, j, r, r', ?_, a2, b2, ?_, ?_, rfl, ?_, c1, d1⟩
  · simp only [labelTimes, Bind.bind, Except.bind, a1, b1, c1, d1]
  · simp only
    rw [C80_position rows h r0 r i h0 a2.row, a2.beat]; ring
  · simp only
    rw [C80_position rows h r0 r' j h0 b2.row, b2.beat]; ring
  · simp only
    have hi : (xmlTable rows)[i]? = some
        ⟨(i : Int), r.actDur, r.offset, if i + 1 < rows.length then some ((i : Int) + 1) else none⟩ := by
      rw [table_get, a2.row]; rfl
    have hj : (xmlTable rows)[j]? = some
        ⟨(j : Int), r'.actDur, r'.offset, if j + 1 < rows.length then some ((j : Int) + 1) else none⟩ := by
      rw [table_get, b2.row]; rfl
    have := C31_distance (C80_chain rows) i j _ _ hi hj p.2 q.2
    simp only at this
    rw [← a2.mc, ← b2.mc] at this
    rw [show p = (p.1, p.2) from rfl, show q = (q.1, q.2) from rfl, this,
      C80_position rows h r0 r i h0 a2.row, C80_position rows h r0 r' j h0 b2.row, a2.beat, b2.beat]
    congr 1
    ring

/-- C81: a label before the first measure raises an `IndexError`. -/
theorem C81_before (rows : List XmlRow) (on off : ℚ) (h : ∀ r ∈ rows, on < r.start) :
    labelTimes rows on off = .error .indexError := by
  have : lastStarting rows on = .error .indexError := by
    unfold lastStarting
    have : ((List.range rows.length).zip rows).reverse.find? (fun p => decide (p.2.start ≤ on)) = none := by
      rw [List.find?_eq_none]
      intro p hp
      rw [List.mem_reverse] at hp
      have := h p.2 (List.of_mem_zip hp).2
      simpa using this
    rw [this]
  simp only [labelTimes, labelPosition, this, Bind.bind, Except.bind]

/-- From the middle of the pickup to the middle of the second measure. -/
example : labelTimes exRows (1/8) (1/2) = .ok ⟨(0, 5/8), 1, (1, 1/4), 2, 3/8⟩ := by decide +kernel

/-! ## C82: notes -/

theorem noteEnd_spec (rows : List XmlRow) (h : rows.IsChain Follows) :
    ∀ (rest : List XmlRow) (r : XmlRow) (i : Nat) (tmp : ℚ), rows[i]? = some r → rows.drop (i + 1) = rest →
      ∃ i' r' tmp', noteEnd r rest i tmp = (i', r', tmp') ∧ i ≤ i' ∧ rows[i']? = some r' ∧
        r'.start + tmp' = r.start + tmp ∧ (tmp' < r'.actDur ∨ i' + 1 = rows.length) ∧
        (i < i' → 0 ≤ tmp') := by
  intro rest
  induction rest with
  | nil =>
    intro r i tmp hr hd
    refine ⟨i, r, tmp, rfl, le_refl _, hr, rfl, .inr ?_, by omega⟩
    have := (List.getElem?_eq_some_iff.1 hr).1
    rw [List.drop_eq_nil_iff] at hd
    omega
  | cons r1 rest ih =>
    intro r i tmp hr hd
    rw [noteEnd]
    have h1 : rows[i + 1]? = some r1 := by
      have := congrArg (fun l => l[0]?) hd
      simpa [List.getElem?_drop] using this
    have hlt := (List.getElem?_eq_some_iff.1 h1).1
    have hf := List.isChain_iff_getElem.1 h i hlt
    have e0 : rows[i] = r := by
      rw [List.getElem?_eq_getElem (by omega)] at hr
      injection hr
    have e1 : rows[i + 1] = r1 := by
      rw [List.getElem?_eq_getElem hlt] at h1
      injection h1
    rw [e0, e1] at hf
    by_cases ht : tmp ≥ r.actDur
    · rw [if_pos ht]
      obtain ⟨i', r', tmp', g1, g2, g3, g4, g5, g6⟩ := ih r1 (i + 1) (tmp - r.actDur) h1 (by
        rw [← List.drop_drop, hd]; rfl)
      refine ⟨i', r', tmp', g1, by omega, g3, ?_, g5, fun _ => ?_⟩
      · rw [g4, hf.start]; ring
      · rcases Nat.lt_or_eq_of_le g2 with hlt' | heq
        · exact g6 hlt'
        · subst heq
          rw [h1] at g3
          injection g3 with g3
          subst g3
          have : tmp' = tmp - r.actDur := by linarith
          rw [this]
          linarith
    · rw [if_neg ht]
      exact ⟨i, r, tmp, rfl, le_refl _, hr, rfl, .inl (by linarith), by omega⟩

/-- Where a note ends, and in which rows it begins and ends. -/
structure NoteRight (rows : List XmlRow) (mc : Nat) (start duration : ℚ) (n : XmlNote) (r r' : XmlRow) (i : Nat) :
    Prop where
  onset : n.onset = ((mc : Int), r.offset + start)
  mcOnset : n.mcOnset = start
  duration : n.duration = duration
  offset : n.offset.1 = (i : Int)
  after : mc ≤ i
  row : rows[i]? = some r'
  onsetLevel : metricalLevel n.onset.2 r.timeSig.1 r.timeSig.2 = .ok n.onsetLevel
  offsetLevel : metricalLevel n.offset.2 r'.timeSig.1 r'.timeSig.2 = .ok n.offsetLevel

theorem note_spec (rows : List XmlRow) (h : rows.IsChain Follows) (hin : ∀ r ∈ rows, OffsetIn r)
    (mc : Nat) (r : XmlRow) (hr : rows[mc]? = some r) (start duration : ℚ) :
    ∃ n r' i tmp, xmlNote rows mc start duration = .ok n ∧ NoteRight rows mc start duration n r r' i ∧
      n.offset.2 = tmp + r'.offset + r'.offset ∧ r'.start + tmp = r.start + (duration + start - r.offset) ∧
      (tmp < r'.actDur ∨ i + 1 = rows.length) ∧ (mc < i → 0 ≤ tmp) := by
  obtain ⟨i, r', tmp, e1, e2, e3, e4, e5, e6⟩ := noteEnd_spec rows h (rows.drop (mc + 1)) r mc
    (duration + start - r.offset) hr rfl
  have hs : ∀ (r : XmlRow) (i : Nat), rows[i]? = some r → PosSig r.timeSig := fun r i hr =>
    (hin r (List.mem_of_getElem? hr)).1
  have hget : pyGet rows mc = .ok r := by
    exact pyGet_ofNat rows mc r hr
  obtain ⟨_, _, _, l, -, c1, -⟩ := C32_levels r.timeSig.1 r.timeSig.2 (hs r mc hr).1 (hs r mc hr).2
    (start + r.offset)
  obtain ⟨_, _, _, l', -, d1, -⟩ := C32_levels r'.timeSig.1 r'.timeSig.2 (hs r' i e3).1 (hs r' i e3).2
    (tmp + r'.offset + r'.offset)
  refine ⟨⟨((mc : Int), start + r.offset), l, ((i : Int), tmp + r'.offset + r'.offset), l', duration,
    start + r.offset - r.offset⟩, r', i, tmp, ?_, ?_, rfl, e4, e5, e6⟩
  · simp only [xmlNote, Bind.bind, Except.bind, hget, e1, c1, d1]
  · refine ⟨?_, by simp only; ring, rfl, rfl, e2, e3, c1, d1⟩
    simp only [add_comm]

/-- C82: a note begins `start` after the beginning of its measure. Its end, by the measures, is its onset plus
its duration plus the difference of the offsets of the measures in which it ends and begins. -/
theorem C82_position (rows : List XmlRow) (h : rows.IsChain Follows) (hin : ∀ r ∈ rows, OffsetIn r)
    (r0 r : XmlRow) (mc : Nat) (h0 : rows[0]? = some r0) (hr : rows[mc]? = some r) (start duration : ℚ) :
    ∃ n r' i, xmlNote rows mc start duration = .ok n ∧ NoteRight rows mc start duration n r r' i ∧
      chainPos (xmlTable rows) mc n.onset.2 = r.start - r0.start + start ∧
      chainPos (xmlTable rows) i n.offset.2 =
        chainPos (xmlTable rows) mc n.onset.2 + duration + (r'.offset - r.offset) := by
  obtain ⟨n, r', i, tmp, e1, e2, e3, e4, -, -⟩ := note_spec rows h hin mc r hr start duration
  refine ⟨n, r', i, e1, e2, ?_, ?_⟩
  · rw [C80_position rows h r0 r mc h0 hr, e2.onset]; ring
  · rw [C80_position rows h r0 r mc h0 hr, C80_position rows h r0 r' i h0 e2.row, e2.onset, e3]
    simp only
    linear_combination e4

/-- C82: if all measures begin on downbeats, a note ends at its onset plus its duration, in the measure in
which that is (or in the last one). -/
theorem C82_note_partial (rows : List XmlRow) (h : rows.IsChain Follows) (hin : ∀ r ∈ rows, OffsetIn r)
    (hzero : ∀ r ∈ rows, r.offset = 0) (r0 r : XmlRow) (mc : Nat) (h0 : rows[0]? = some r0)
    (hr : rows[mc]? = some r) (start duration : ℚ) (hs : 0 ≤ start) (hd : 0 ≤ duration) :
    ∃ n r' i, xmlNote rows mc start duration = .ok n ∧ NoteRight rows mc start duration n r r' i ∧
      chainPos (xmlTable rows) i n.offset.2 = chainPos (xmlTable rows) mc n.onset.2 + duration ∧
      0 ≤ n.offset.2 ∧ (n.offset.2 < r'.actDur ∨ i + 1 = rows.length) := by
  obtain ⟨n, r', i, tmp, e1, e2, e3, e4, e5, e6⟩ := note_spec rows h hin mc r hr start duration
  have z := hzero r (List.mem_of_getElem? hr)
  have z' := hzero r' (List.mem_of_getElem? e2.row)
  have ht : n.offset.2 = tmp := by rw [e3, z']; ring
  refine ⟨n, r', i, e1, e2, ?_, ?_, ?_⟩
  · rw [C80_position rows h r0 r mc h0 hr, C80_position rows h r0 r' i h0 e2.row, e2.onset, ht, z, z']
    simp only
    rw [z] at e4
    linear_combination e4
  · rw [ht]
    rcases Nat.lt_or_eq_of_le e2.after with hlt | heq
    · exact e6 hlt
    · subst heq
      have hrow := e2.row
      rw [hr] at hrow
      injection hrow with hrow
      subst hrow
      rw [z] at e4
      linarith
  · rw [ht]; exact e5

/-- C82: in general this fails. A note of three quarters from a pickup of one quarter in 3/4 should end on the
third beat of the first measure, at (1, 1/2), but has the offset (1, 0); a quarter note in the pickup should
end at (1, 0) and stays in the pickup. -/
theorem C82_fails_pickup :
    xmlNote exRows 0 0 (3/4) = .ok ⟨(0, 1/2), 2, (1, 0), 3, 3/4, 0⟩ ∧
    xmlNote exRows 0 0 (1/4) = .ok ⟨(0, 1/2), 2, (0, 3/4), 3, 1/4, 0⟩ ∧
    getRangeLength (xmlTable exRows) (0, 1/2) (1, 0) = .ok (1/4) ∧
    getRangeLength (xmlTable exRows) (0, 1/2) (1, 1/2) = .ok (3/4) := by
  refine ⟨?_, ?_, ?_, ?_⟩ <;> decide +kernel

/-- Without offsets: a note over a barline. -/
example : xmlNote [⟨1, (3, 4), 0, 3/4, 0⟩, ⟨2, (3, 4), 3/4, 3/4, 0⟩] 0 (1/2) (1/2) =
    .ok ⟨(0, 1/2), 2, (1, 1/4), 2, 1/2, 1/2⟩ := by decide +kernel

end Verif.MusicXml
