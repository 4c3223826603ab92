import Verif.TablePiece
import Verif.TransitionTraining
import Verif.Lemmas.Lists
import Verif.Props.TablePiece

/-!
# The numbers of measures (C154)

Measures are numbered from the beginning of a score, and an excerpt keeps its numbers. Nothing that is learnt from a
piece depends on them.
-/

namespace Verif.Renumber

open Verif

/-- A position some measures later. -/
def later (k : Int) {δ : Type} (p : Int × δ) : Int × δ := (p.1 + k, p.2)

def shiftMeasure (k : Int) {δ : Type} (m : Measure δ) : Measure δ :=
  { m with mc := m.mc + k, next := m.next.map (· + k) }

def shiftMeter (k : Int) (m : MeterRow) : MeterRow := { m with mc := m.mc + k }

def shiftMeasureRow (k : Int) (m : MeasureRow) : MeasureRow := { m with measure := shiftMeasure k m.measure }

def shiftNoteRow (k : Int) (r : NoteRow) : NoteRow := { r with mc := r.mc + k, offsetMc := r.offsetMc + k }

def shiftChordRow (k : Int) (r : PieceRow) : PieceRow :=
  { r with row := { r.row with mc := r.row.mc + k, mcNext := r.row.mcNext + k } }

def shiftNote (k : Int) (n : NoteObj) : NoteObj := { n with onset := later k n.onset, offset := later k n.offset }

def shiftSpan (k : Int) (c : ChordSpan) : ChordSpan := { c with onset := later k c.onset, offset := later k c.offset }

def shiftChord (k : Int) (c : SeriesChord) : SeriesChord :=
  { c with onset := later k c.onset, offset := later k c.offset }

def shiftPiece (k : Int) (x : ClassPiece) : ClassPiece :=
  ⟨x.notes.map (shiftNote k), x.measures.map (shiftMeasure k), x.chords.map fun c => (shiftSpan k c.1, c.2)⟩

variable {k : Int}

/-! ## Lengths -/

section
variable {δ : Type}

theorem findMeasure_shift (T : List (Measure δ)) (mc : Int) :
    findMeasure (T.map (shiftMeasure k)) (mc + k) = (findMeasure T mc).map (shiftMeasure k) := by
  simp only [findMeasure, List.find?_map]
  congr 2
  funext m
  simp [shiftMeasure]

theorem measureAt_shift (T : List (Measure δ)) (mc : Int) :
    measureAt (T.map (shiftMeasure k)) (mc + k) = (measureAt T mc).map (shiftMeasure k) := by
  simp only [measureAt, findMeasure_shift]
  cases findMeasure T mc <;> rfl

theorem walkMeasures_shift [Add δ] (T : List (Measure δ)) (e : Int) (fuel : Nat) (mc : Option Int) (len : δ) :
    walkMeasures (T.map (shiftMeasure k)) (e + k) fuel (mc.map (· + k)) len = walkMeasures T e fuel mc len := by
  induction fuel generalizing mc len with
  | zero =>
    cases mc with
    | none => rfl
    | some mc => simp [walkMeasures]
  | succ fuel ih =>
    cases mc with
    | none => rfl
    | some mc =>
      simp only [Option.map_some, walkMeasures, Int.add_left_inj, measureAt_shift]
      split
      · rfl
      · cases measureAt T mc with
        | error e => rfl
        | ok m => exact ih m.next _

theorem forwardLength_shift [Add δ] [Sub δ] (T : List (Measure δ)) (s e : Int × δ) :
    forwardLength (T.map (shiftMeasure k)) (later k s) (later k e) = forwardLength T s e := by
  simp only [forwardLength, later, Int.add_left_inj, measureAt_shift, List.length_map]
  split
  · rfl
  · cases measureAt T s.1 with
    | error e => rfl
    | ok m =>
      simp only [Except.map, Bind.bind, Except.bind]
      have := walkMeasures_shift (k := k) T e.1 T.length m.next (m.actDur + m.offset - s.2)
      simp only [shiftMeasure] at this ⊢
      rw [this]
      cases walkMeasures T e.1 T.length m.next (m.actDur + m.offset - s.2) with
      | error e => rfl
      | ok l => cases measureAt T e.1 <;> rfl

theorem pairGt_shift [LT δ] (a b : Int × δ) : pairGt (later k a) (later k b) ↔ pairGt a b := by
  simp [pairGt, later]

/-- C154: the distance of two positions does not depend on the number of the first measure. -/
theorem C154_lengths [Add δ] [Sub δ] [Neg δ] [LT δ] [DecidableLT δ] (T : List (Measure δ)) (s e : Int × δ) :
    getRangeLength (T.map (shiftMeasure k)) (later k s) (later k e) = getRangeLength T s e := by
  simp only [getRangeLength, pairGt_shift, forwardLength_shift]

end

theorem rhythmicInfo_shift (T : List (Measure ℚ)) (n : Int × ℚ) (d : ℚ) (s e : Int × ℚ) (l : Option ℚ) :
    rhythmicInfo (T.map (shiftMeasure k)) (later k n) d (later k s) (later k e) l = rhythmicInfo T n d s e l := by
  have h1 : (later k n).1 - (later k s).1 = n.1 - s.1 := by simp only [later]; omega
  have h2 : (later k n).1 - (later k e).1 = n.1 - e.1 := by simp only [later]; omega
  simp only [rhythmicInfo, C154_lengths, h1, h2]

/-! ## Reading tables -/

theorem meterOf_shift (T : List MeterRow) (mc : Int) :
    meterOf (T.map (shiftMeter k)) (mc + k) = (meterOf T mc).map (shiftMeter k) := by
  have h : (T.map (shiftMeter k)).filter (fun m => decide (m.mc = mc + k)) =
      (T.filter (fun m => decide (m.mc = mc))).map (shiftMeter k) := by
    rw [List.filter_map]
    congr 2
    funext m
    simp [shiftMeter]
  simp only [meterOf, h]
  generalize T.filter (fun m => decide (m.mc = mc)) = l
  rcases l with _ | ⟨m, _ | ⟨m', l⟩⟩ <;> rfl

theorem levelAt_shift (T : List MeterRow) (cache : Option LevelCache) (mc : Int) (beat : ℚ) :
    levelAt (T.map (shiftMeter k)) cache (mc + k) beat = levelAt T cache mc beat := by
  simp only [levelAt, meterOf_shift]
  cases meterOf T mc <;> rfl

theorem noteFromSeries_shift (T : List MeterRow) (pt : PitchType) (cache : Option LevelCache) (r : NoteRow) :
    noteFromSeries (T.map (shiftMeter k)) pt cache (shiftNoteRow k r) =
      ((noteFromSeries T pt cache r).1.map (shiftNote k), (noteFromSeries T pt cache r).2) := by
  have hp : rowPitch (shiftNoteRow k r) pt = rowPitch r pt := by cases pt <;> rfl
  have h1 := levelAt_shift (k := k) T cache r.mc r.onset
  simp only [noteFromSeries, hp]
  cases rowPitch r pt with
  | error e => rfl
  | ok pitch =>
    simp only [shiftNoteRow, h1]
    rcases levelAt T cache r.mc r.onset with ⟨_ | l1, cache'⟩
    · rfl
    · simp only [levelAt_shift]
      rcases levelAt T cache' r.offsetMc r.offsetBeat with ⟨_ | l2, cache''⟩ <;> rfl

theorem notesFromTable_shift (T : List MeterRow) (pt : PitchType) (cache : Option LevelCache) (rows : List NoteRow) :
    notesFromTable (T.map (shiftMeter k)) pt cache (rows.map (shiftNoteRow k)) =
      ((notesFromTable T pt cache rows).1.map (Option.map (shiftNote k)), (notesFromTable T pt cache rows).2) := by
  induction rows generalizing cache with
  | nil => rfl
  | cons r rows ih => simp only [List.map_cons, notesFromTable, noteFromSeries_shift, ih]

theorem squeezed_map {α β : Type} (f : α → β) (l : List α) : squeezed (l.map f) = (squeezed l).map (List.map f) := by
  simp only [squeezed, List.length_map]
  split <;> rfl

theorem pieceNotes_shift (T : List MeterRow) (rows : List NoteRow) :
    pieceNotes (T.map (shiftMeter k)) (rows.map (shiftNoteRow k)) =
      ((pieceNotes T rows).1.map (List.map fun x => (shiftNote k x.1, x.2)), (pieceNotes T rows).2) := by
  simp only [pieceNotes, notesFromTable_shift, List.length_map, ← squeezed_map]
  congr 2
  rw [List.zip_map_left, List.filterMap_map, List.map_filterMap]
  congr 1
  funext x
  rcases x with ⟨_ | n, i⟩ <;> rfl

theorem chordFromSeries_shift (T : List MeterRow) (pt : PitchType) (red : Reduction) (useInv useRel : Bool)
    (cache : Option LevelCache) (r : PieceRow) :
    chordFromSeries (T.map (shiftMeter k)) pt red useInv useRel cache (shiftChordRow k r).row =
      ((chordFromSeries T pt red useInv useRel cache r.row).1.map (shiftChord k),
        (chordFromSeries T pt red useInv useRel cache r.row).2) := by
  have hh : seriesHarmony (shiftChordRow k r).row pt red useInv = seriesHarmony r.row pt red useInv := rfl
  have hn : (shiftChordRow k r).row.numeral = r.row.numeral := rfl
  simp only [chordFromSeries, hh, hn]
  split
  · rfl
  · cases seriesHarmony r.row pt red useInv with
    | error e => rfl
    | ok h =>
      have h1 := levelAt_shift (k := k) T cache r.row.mc r.row.onset
      simp only [seriesLevels, shiftChordRow, h1]
      rcases levelAt T cache r.row.mc r.row.onset with ⟨_ | l1, cache'⟩
      · rfl
      · simp only [levelAt_shift]
        rcases levelAt T cache' r.row.mcNext r.row.onsetNext with ⟨_ | l2, cache''⟩ <;> rfl

theorem chordsFromTable_shift (T : List MeterRow) (pt : PitchType) (red : Reduction) (useInv useRel : Bool)
    (cache : Option LevelCache) (rows : List PieceRow) :
    chordsFromTable (T.map (shiftMeter k)) pt red useInv useRel cache ((rows.map (shiftChordRow k)).map (·.row)) =
      ((chordsFromTable T pt red useInv useRel cache (rows.map (·.row))).1.map (Option.map (shiftChord k)),
        (chordsFromTable T pt red useInv useRel cache (rows.map (·.row))).2) := by
  induction rows generalizing cache with
  | nil => rfl
  | cons r rows ih => simp only [List.map_cons, chordsFromTable, chordFromSeries_shift, ih]

theorem readChords_shift (T : List MeterRow) (red : Reduction) (useInv useRel : Bool)
    (cache : Option LevelCache) (rows : List PieceRow) :
    readChords (T.map (shiftMeter k)) red useInv useRel cache (rows.map (shiftChordRow k)) =
      (readChords T red useInv useRel cache rows).map fun x => (shiftChord k x.1, shiftChordRow k x.2) := by
  simp only [readChords, chordsFromTable_shift]
  rw [List.zip_map, List.filterMap_map, List.map_filterMap]
  congr 1
  funext x
  rcases x with ⟨_ | n, i⟩ <;> rfl

theorem reductionMask_map {α β : Type} {f : α → β} {rep : β → β → Bool} {rep' : α → α → Bool}
    (h : ∀ a b, rep (f a) (f b) = rep' a b) (l : List α) : reductionMask rep (l.map f) = reductionMask rep' l := by
  cases l with
  | nil => rfl
  | cons a l =>
    simp only [List.map_cons, reductionMask]
    rw [← List.map_cons, List.zipWith_map]
    simp only [h]

theorem seriesMerge_shift (acc : List SeriesChord) (l : List (SeriesChord × Bool)) :
    seriesMerge (acc.map (shiftChord k)) (l.map fun x => (shiftChord k x.1, x.2)) =
      (seriesMerge acc l).map (List.map (shiftChord k)) := by
  induction l generalizing acc with
  | nil => simp [seriesMerge, Except.map]
  | cons x l ih =>
    obtain ⟨c, b⟩ := x
    cases b with
    | true => exact ih (c :: acc)
    | false =>
      cases acc with
      | nil => rfl
      | cons a acc => exact ih (a.mergeWith c :: acc)

theorem kept_map {α β : Type} (f : α → β) (l : List α) (mask : List Bool) :
    kept (l.map f) mask = (kept l mask).map f := by
  simp only [kept, List.zip_map_left, List.filter_map, List.map_map]
  rfl

theorem npMask_map {α β : Type} (f : α → β) (l : List α) (mask : List Bool) :
    npMask (l.map f) mask = (npMask l mask).map (List.map f) := by
  simp only [npMask, List.length_map, kept_map]
  split <;> rfl

theorem changedMask_shift (rows : List PieceRow) : changedMask (rows.map (shiftChordRow k)) = changedMask rows := by
  cases rows with
  | nil => rfl
  | cons r rows =>
    simp only [List.map_cons, changedMask]
    rw [← List.map_cons, List.zipWith_map]
    rfl

theorem pieceKeys_shift (useRel : Bool) (rows : List PieceRow) :
    pieceKeys useRel (rows.map (shiftChordRow k)) = pieceKeys useRel rows := by
  simp only [pieceKeys, changedMask_shift, List.length_map, npMask_map]
  cases npMask (List.range rows.length) (changedMask rows) with
  | error e => rfl
  | ok c =>
    cases npMask rows (changedMask rows) with
    | error e => rfl
    | ok l =>
      simp only [Except.map, Bind.bind, Except.bind, List.filterMap_map]
      rfl

/-- The harmony of a piece is the same, at later positions. -/
theorem pieceHarmony_shift (T : List MeterRow) (red : Reduction) (useInv useRel useSus : Bool)
    (cache : Option LevelCache) (rows : List PieceRow) :
    pieceHarmony (T.map (shiftMeter k)) red useInv useRel useSus cache (rows.map (shiftChordRow k)) =
      (pieceHarmony T red useInv useRel useSus cache rows).map
        fun h => { h with chords := h.chords.map (shiftChord k) } := by
  simp only [pieceHarmony, readChords_shift, squeezed_map]
  cases squeezed (readChords T red useInv useRel cache rows) with
  | error e => rfl
  | ok read =>
    have hm : reductionMask (SeriesChord.isRepeated useInv useSus) (read.map fun x => shiftChord k x.1) =
        reductionMask (SeriesChord.isRepeated useInv useSus) (read.map (·.1)) := by
      have := reductionMask_map (f := shiftChord k) (rep := SeriesChord.isRepeated useInv useSus)
        (rep' := SeriesChord.isRepeated useInv useSus) (fun a b => rfl) (read.map (·.1))
      rw [List.map_map] at this
      exact this
    have hz : (read.map fun x => shiftChord k x.1).zip
          (reductionMask (SeriesChord.isRepeated useInv useSus) (read.map (·.1))) =
        ((read.map (·.1)).zip (reductionMask (SeriesChord.isRepeated useInv useSus) (read.map (·.1)))).map
          fun x => (shiftChord k x.1, x.2) := by
      have := List.zip_map_left (l₁ := read.map (·.1)) (l₂ := reductionMask (SeriesChord.isRepeated useInv useSus)
        (read.map (·.1))) (f := shiftChord k)
      rw [List.map_map] at this
      exact this
    have hs := seriesMerge_shift (k := k) [] ((read.map (·.1)).zip
      (reductionMask (SeriesChord.isRepeated useInv useSus) (read.map (·.1))))
    have hr : (read.map fun x => shiftChordRow k x.2) = (read.map (·.2)).map (shiftChordRow k) := by
      rw [List.map_map]; rfl
    simp only [Except.map, Bind.bind, Except.bind, List.map_map, Function.comp_def, hm, hz] at hs ⊢
    rw [show List.map (shiftChord k) [] = [] from rfl] at hs
    rw [hs, hr, npMask_map]
    generalize seriesMerge [] _ = m
    cases m with
    | error e => rfl
    | ok m =>
      generalize npMask _ _ = n
      cases n with
      | error e => rfl
      | ok n =>
        simp only [Except.map, pieceKeys_shift]
        cases pieceKeys useRel n <;> rfl

theorem tablePiece_shift (measures : List MeasureRow) (notes : List NoteRow) (chords : List PieceRow)
    (red : Reduction) (useInv useRel useSus : Bool) :
    tablePiece (measures.map (shiftMeasureRow k)) (notes.map (shiftNoteRow k)) (chords.map (shiftChordRow k)) red
      useInv useRel useSus = (tablePiece measures notes chords red useInv useRel useSus).map (shiftPiece k) := by
  have hm : (measures.map (shiftMeasureRow k)).map MeasureRow.meter =
      (measures.map MeasureRow.meter).map (shiftMeter k) := by
    simp only [List.map_map]; rfl
  simp only [tablePiece, hm, pieceNotes_shift, pieceHarmony_shift]
  cases (pieceNotes (measures.map MeasureRow.meter) notes).1 with
  | error e => rfl
  | ok ns =>
    simp only [Except.map, Bind.bind, Except.bind]
    cases pieceHarmony (measures.map MeasureRow.meter) red useInv useRel useSus
      (pieceNotes (measures.map MeasureRow.meter) notes).2 chords with
    | error e => rfl
    | ok h => simp [shiftPiece, shiftMeasureRow, SeriesChord.spanned, shiftChord, shiftSpan]

/-- C154: the chord sequence and key models read exactly the same of a piece whose measures begin with another
number. -/
theorem C154_sequence (measures : List MeasureRow) (notes : List NoteRow) (chords : List PieceRow)
    (red : Reduction) (useInv useRel useSus : Bool) :
    tableKeyed (measures.map (shiftMeasureRow k)) (notes.map (shiftNoteRow k)) (chords.map (shiftChordRow k)) red
      useInv useRel useSus = tableKeyed measures notes chords red useInv useRel useSus := by
  have hm : (measures.map (shiftMeasureRow k)).map MeasureRow.meter =
      (measures.map MeasureRow.meter).map (shiftMeter k) := by
    simp only [List.map_map]; rfl
  simp only [tableKeyed, hm, pieceNotes_shift, pieceHarmony_shift]
  cases (pieceNotes (measures.map MeasureRow.meter) notes).1 with
  | error e => rfl
  | ok ns =>
    simp only [Except.map, Bind.bind, Except.bind]
    cases pieceHarmony (measures.map MeasureRow.meter) red useInv useRel useSus
      (pieceNotes (measures.map MeasureRow.meter) notes).2 chords with
    | error e => rfl
    | ok h => simp [PieceHarmony.keyed, shiftChord]

/-! ## Inputs of the chord classifier -/

section
variable {τ σ : Type} [LE τ] [LT τ] [DecidableLE τ] [DecidableLT τ] [LE σ] [LT σ] [DecidableLE σ] [DecidableLT σ]
  {f : τ → σ}

omit [LE τ] [DecidableLE τ] [LE σ] [DecidableLE σ] in
theorem advance_map (hlt : ∀ a b, f a < f b ↔ a < b) (onsets : List τ) (x : τ) (fuel i : Nat) :
    advance (onsets.map f) (f x) fuel i = advance onsets x fuel i := by
  induction fuel generalizing i with
  | zero => rfl
  | succ fuel ih =>
    simp only [advance, List.getElem?_map, List.length_map]
    cases onsets[i]? with
    | none => rfl
    | some y => simp only [Option.map_some, hlt, ih]

omit [LE τ] [DecidableLE τ] [LE σ] [DecidableLE σ] in
theorem chordChanges_map (hlt : ∀ a b, f a < f b ↔ a < b) (onsets xs : List τ) (i : Nat) :
    chordChanges (onsets.map f) i (xs.map f) = chordChanges onsets i xs := by
  induction xs generalizing i with
  | nil => rfl
  | cons x xs ih => simp only [List.map_cons, chordChanges, advance_map hlt, List.length_map, ih]

theorem rangeStart_map (hlt : ∀ a b, f a < f b ↔ a < b) (hle : ∀ a b, f a ≤ f b ↔ a ≤ b) (x : τ)
    (notes : List (τ × τ)) : rangeStart (f x) (notes.map fun n => (f n.1, f n.2)) = rangeStart x notes := by
  simp only [rangeStart, List.findIdx_map, Function.comp_def, hlt, hle]

theorem pieceChordRanges_map (hlt : ∀ a b, f a < f b ↔ a < b) (hle : ∀ a b, f a ≤ f b ↔ a ≤ b)
    (notes : List (τ × τ)) (chords : List τ) :
    pieceChordRanges (notes.map fun n => (f n.1, f n.2)) (chords.map f) = pieceChordRanges notes chords := by
  have h : (notes.map fun n => (f n.1, f n.2)).map (·.1) = (notes.map (·.1)).map f := by
    simp only [List.map_map]; rfl
  simp only [pieceChordRanges]
  rw [h, chordChanges_map hlt, List.length_map, List.zip_map_left, List.map_map]
  congr 1
  funext x
  simp [rangeStart_map hlt hle]

omit [LE τ] [DecidableLE τ] [LE σ] [DecidableLE σ] in
theorem maxTime_map (hlt : ∀ a b, f a < f b ↔ a < b) (l : List τ) : maxTime (l.map f) = (maxTime l).map f := by
  cases l with
  | nil => rfl
  | cons a l =>
    simp only [List.map_cons, maxTime, Except.map, Except.ok.injEq]
    induction l generalizing a with
    | nil => rfl
    | cons b l ih =>
      simp only [List.map_cons, List.foldl_cons, hlt]
      split <;> exact ih _

omit [LE τ] [DecidableLE τ] [LE σ] [DecidableLE σ] in
theorem lastOffset_map (hlt : ∀ a b, f a < f b ↔ a < b) (c : Option (List τ)) (l : List τ) :
    lastOffset (c.map (List.map f)) (l.map f) = (lastOffset c l).map f := by
  cases c with
  | none => exact maxTime_map hlt l
  | some c =>
    simp only [lastOffset, Option.map_some, pyGet_map]

end

theorem later_lt (a b : Lex (Int × ℚ)) : toLex (later k (ofLex a)) < toLex (later k (ofLex b)) ↔ a < b := by
  simp [Prod.Lex.lt_iff, later]

theorem later_le (a b : Lex (Int × ℚ)) : toLex (later k (ofLex a)) ≤ toLex (later k (ofLex b)) ↔ a ≤ b := by
  simp [Prod.Lex.le_iff, later]

theorem mapPy_shift {α β γ : Type} (f : β → Py γ) (g : α → β) (h : α → Py γ) (hf : ∀ a, f (g a) = h a) (l : List α) :
    mapPy f (l.map g) = mapPy h l := by
  induction l with
  | nil => rfl
  | cons a l ih => simp only [List.map_cons, mapPy, hf, ih]

theorem durationCache_shift (T : List (Measure ℚ)) (onsets : List (Int × ℚ)) (last : Int × ℚ) :
    durationCache (T.map (shiftMeasure k)) (onsets.map (later k)) (later k last) = durationCache T onsets last := by
  have h : (onsets.map (later k)).zip ((onsets.map (later k)).drop 1 ++ [later k last]) =
      (onsets.zip (onsets.drop 1 ++ [last])).map fun p => (later k p.1, later k p.2) := by
    rw [← List.map_drop, show [later k last] = [last].map (later k) from rfl, ← List.map_append, List.zip_map]
    rfl
  simp only [durationCache, h]
  exact mapPy_shift _ _ _ (fun p => C154_lengths T p.1 p.2) _

theorem pySlice_map {α β : Type} (f : α → β) (l : List α) (a b : Int) :
    pySlice (l.map f) a b = (pySlice l a b).map f := by
  simp only [pySlice, List.length_map, ← List.map_take, ← List.map_drop]

theorem noteVector_shift (T : List (Measure ℚ)) (on off : Int × ℚ) (d : ℚ) (lo hi : Int × Int) (n : NoteObj)
    (o p q : Option ℚ) :
    noteVector (T.map (shiftMeasure k)) (later k on) (later k off) d lo hi (shiftNote k n) o p q =
      noteVector T on off d lo hi n o p q := by
  have h : noteRhythm (T.map (shiftMeasure k)) (shiftNote k n) (later k on) (later k off) d o =
      noteRhythm T n on off d o := by
    cases o with
    | none => exact rhythmicInfo_shift T n.onset n.duration on off (some d)
    | some o => rfl
  simp only [noteVector, h]
  rfl

theorem later_inj (a b : Int × ℚ) : later k a = later k b ↔ a = b := by
  simp [later, Prod.ext_iff]

theorem mapM_shift {α β γ : Type} (f : β → Py γ) (g : α → β) (h : α → Py γ) (hf : ∀ a, f (g a) = h a) (l : List α) :
    (l.map g).mapM f = l.mapM h := by
  induction l with
  | nil => rfl
  | cons a l ih => simp only [List.map_cons, List.mapM_cons, hf, ih]

theorem spanPlace_shift (c : Option (Int × ℚ)) (x : Int × ℚ) :
    spanPlace (c.map (later k)) (later k x) = later k (spanPlace c x) := by
  cases c with
  | none => rfl
  | some c =>
    simp only [Option.map_some, spanPlace, later_inj]
    split <;> rfl

theorem spanAligns_shift (c : Option (Int × ℚ)) (x : Int × ℚ) :
    spanAligns (c.map (later k)) (later k x) = spanAligns c x := by
  cases c with
  | none => rfl
  | some c => simp only [Option.map_some, spanAligns, later_inj]

theorem chordNoteInput_shift (notes : List NoteObj) (T : List (Measure ℚ)) (on off : Int × ℚ) (d : ℚ)
    (change first last window : Nat) (cache : List ℚ) (c : Option ChordSpan) :
    chordNoteInput (notes.map (shiftNote k)) (T.map (shiftMeasure k)) (later k on) (later k off) d change first last
      window cache (c.map (shiftSpan k)) =
    chordNoteInput notes T on off d change first last window cache c := by
  have e1 : (c.map (shiftSpan k)).map ChordSpan.onset = (c.map ChordSpan.onset).map (later k) := by
    cases c <;> rfl
  have e2 : (c.map (shiftSpan k)).map ChordSpan.offset = (c.map ChordSpan.offset).map (later k) := by
    cases c <;> rfl
  simp only [chordNoteInput, e1, e2, spanAligns_shift, spanPlace_shift, List.length_map, pySlice_map]
  generalize pySlice notes _ _ = inside
  rw [mapM_shift (g := shiftNote k) (h := fun n => do
    let m ← n.midiNumber
    .ok (n.octave, m)) (hf := fun n => rfl)]
  simp only [List.map_map, Function.comp_def]
  congr 1; funext pitches
  congr 1; funext lowest
  congr 1; funext highest
  congr 1
  rw [List.zip_map_left]
  exact mapM_shift _ _ _ (fun x => noteVector_shift (k := k) T _ _ d lowest highest x.1 x.2.1 x.2.2.1 x.2.2.2) _

theorem pieceChordInput_shift (notes : List NoteObj) (T : List (Measure ℚ)) (cache : List ℚ) (last : Int × ℚ)
    (window : Nat) (range : Nat × Nat) (change : Nat) (c : Option ChordSpan) :
    pieceChordInput (notes.map (shiftNote k)) (T.map (shiftMeasure k)) cache (later k last) window range change
      (c.map (shiftSpan k)) = pieceChordInput notes T cache last window range change c := by
  have e : rangeEnd (notes.map (shiftNote k)) (later k last) range.2 = later k (rangeEnd notes last range.2) := by
    simp only [rangeEnd, List.getElem?_map]
    cases notes[range.2]? <;> rfl
  simp only [pieceChordInput, pyGet_map, e]
  cases pyGet notes change with
  | error e => rfl
  | ok n =>
    simp only [Except.map, Bind.bind, Except.bind]
    have := chordNoteInput_shift (k := k) notes T n.onset (rangeEnd notes last range.2)
    cases c with
    | none => exact this _ _ _ _ _ _ none
    | some c => exact this _ _ _ _ _ _ (some c)

/-- The last part of `chordNoteInputs`. -/
def inputsOf (notes : List NoteObj) (chords : Option (List ChordSpan)) (T : List (Measure ℚ)) (window : Nat)
    (rs : List (Nat × Nat)) (cs : List Nat) (chosen : List (Option ChordSpan)) : Py (List (List (List ℚ))) := do
  let last ← lastOffset (chords.map (fun l : List ChordSpan => l.map fun c => toLex c.offset))
    (notes.map fun n => toLex n.offset)
  let cache ← durationCache T (notes.map NoteObj.onset) (ofLex last)
  (rs.zip (cs.zip chosen)).mapM (fun x => pieceChordInput notes T cache (ofLex last) window x.1 x.2.1 x.2.2)

/-- C154: the chord classifier gets the same inputs for a piece whose measures begin with another number. -/
theorem C154_inputs (notes : List NoteObj) (chords : Option (List ChordSpan)) (T : List (Measure ℚ)) (window : Nat)
    (ranges : Option (List (Nat × Nat))) (changes : Option (List Nat)) :
    chordNoteInputs (notes.map (shiftNote k)) (chords.map (List.map (shiftSpan k))) (T.map (shiftMeasure k)) window
      ranges changes = chordNoteInputs notes chords T window ranges changes := by
  let f : Lex (Int × ℚ) → Lex (Int × ℚ) := fun a => toLex (later k (ofLex a))
  have hlt : ∀ a b, f a < f b ↔ a < b := later_lt
  have hle : ∀ a b, f a ≤ f b ↔ a ≤ b := later_le
  have ht : ((notes.map (shiftNote k)).map fun n => (n.onset, n.offset)).map (fun t => (toLex t.1, toLex t.2)) =
      ((notes.map fun n => (n.onset, n.offset)).map fun t => (toLex t.1, toLex t.2)).map
        fun n => (f n.1, f n.2) := by
    simp only [List.map_map]; rfl
  have hf : ∀ l : List (Lex (Int × ℚ) × Lex (Int × ℚ)), (l.map fun n => (f n.1, f n.2)).map Prod.fst =
      (l.map Prod.fst).map f := by
    intro l; simp only [List.map_map]; rfl
  have hs : ∀ l : List ChordSpan, ((l.map (shiftSpan k)).map fun c => toLex c.onset) =
      (l.map fun c => toLex c.onset).map f := by
    intro l; simp only [List.map_map]; rfl
  have ho : ((notes.map (shiftNote k)).map fun n => toLex n.offset) = (notes.map fun n => toLex n.offset).map f := by
    simp only [List.map_map]; rfl
  have hc : (chords.map (List.map (shiftSpan k))).map (fun l : List ChordSpan => l.map fun c => toLex c.offset) =
      (chords.map fun l : List ChordSpan => l.map fun c => toLex c.offset).map (List.map f) := by
    cases chords with
    | none => rfl
    | some l => simp only [Option.map_some, List.map_map]; rfl
  have hn : (notes.map (shiftNote k)).map NoteObj.onset = (notes.map NoteObj.onset).map (later k) := by
    simp only [List.map_map]; rfl
  have body : ∀ (rs : List (Nat × Nat)) (cs : List Nat) (chosen : List (Option ChordSpan)),
      inputsOf (notes.map (shiftNote k)) (chords.map (List.map (shiftSpan k))) (T.map (shiftMeasure k)) window rs cs
        (chosen.map (Option.map (shiftSpan k))) = inputsOf notes chords T window rs cs chosen := by
    intro rs cs chosen
    simp only [inputsOf]
    rw [hc, ho, lastOffset_map hlt, hn]
    cases lastOffset (chords.map (fun l : List ChordSpan => l.map fun c => toLex c.offset)) (notes.map fun n => toLex n.offset) with
    | error e => rfl
    | ok last =>
      simp only [Except.map, Bind.bind, Except.bind]
      have hd := durationCache_shift (k := k) T (notes.map NoteObj.onset) (ofLex last)
      have hl : ofLex (f last) = later k (ofLex last) := rfl
      rw [hl, hd]
      cases durationCache T (notes.map NoteObj.onset) (ofLex last) with
      | error e => rfl
      | ok cache =>
        simp only
        rw [List.zip_map_right, List.zip_map_right]
        exact mapM_shift _ _ _ (fun x => pieceChordInput_shift (k := k) notes T cache (ofLex last) window x.1 x.2.1
          x.2.2) _
  cases chords with
  | none =>
    cases ranges with
    | none => rfl
    | some rs =>
      cases changes with
      | none => rfl
      | some cs =>
        have := body rs cs (rs.map fun _ => none)
        rw [show (rs.map fun _ => (none : Option ChordSpan)).map (Option.map (shiftSpan k)) = rs.map fun _ => none by
          simp] at this
        exact this
  | some l =>
    let times (notes : List NoteObj) :=
      (notes.map fun n => (n.onset, n.offset)).map fun t => (toLex t.1, toLex t.2)
    have hr : pieceChordRanges (times (notes.map (shiftNote k))) ((l.map (shiftSpan k)).map fun c => toLex c.onset) =
        pieceChordRanges (times notes) (l.map fun c => toLex c.onset) := by
      simp only [times, ht, hs, pieceChordRanges_map hlt hle]
    have hch : chordChanges ((times (notes.map (shiftNote k))).map Prod.fst) 0
          ((l.map (shiftSpan k)).map fun c => toLex c.onset) =
        chordChanges ((times notes).map Prod.fst) 0 (l.map fun c => toLex c.onset) := by
      simp only [times, ht, hs, hf, chordChanges_map hlt]
    have hl : (l.map (shiftSpan k)).map some = (l.map some).map (Option.map (shiftSpan k)) := by
      simp only [List.map_map]; rfl
    have nn : ∀ (N : List NoteObj) (l : List ChordSpan) (T : List (Measure ℚ)),
        chordNoteInputs N (some l) T window none none =
        inputsOf N (some l) T window (pieceChordRanges (times N) (l.map fun c => toLex c.onset))
          (chordChanges ((times N).map Prod.fst) 0 (l.map fun c => toLex c.onset)) (l.map some) := fun _ _ _ => rfl
    have ns : ∀ (N : List NoteObj) (l : List ChordSpan) (T : List (Measure ℚ)) (cs : List Nat),
        chordNoteInputs N (some l) T window none (some cs) =
        inputsOf N (some l) T window (pieceChordRanges (times N) (l.map fun c => toLex c.onset)) cs (l.map some) :=
      fun _ _ _ _ => rfl
    have sn : ∀ (N : List NoteObj) (l : List ChordSpan) (T : List (Measure ℚ)) (rs : List (Nat × Nat)),
        chordNoteInputs N (some l) T window (some rs) none =
        inputsOf N (some l) T window rs (chordChanges ((times N).map Prod.fst) 0 (l.map fun c => toLex c.onset))
          (l.map some) := fun _ _ _ _ => rfl
    cases ranges with
    | none =>
      cases changes with
      | none => rw [Option.map_some, nn, nn, hr, hch, hl]; exact body _ _ _
      | some cs => rw [Option.map_some, ns, ns, hr, hl]; exact body _ _ _
    | some rs =>
      cases changes with
      | none => rw [Option.map_some, sn, sn, hch, hl]; exact body _ _ _
      | some cs =>
        have := body rs cs (rs.map fun _ => none)
        rw [show (rs.map fun _ => (none : Option ChordSpan)).map (Option.map (shiftSpan k)) = rs.map fun _ => none by
          simp] at this
        exact this

theorem classDataset_shift (l : List (Int × ClassPiece)) :
    classDataset (l.map fun x => shiftPiece x.1 x.2) = classDataset (l.map Prod.snd) := by
  have h1 : (l.map fun x => shiftPiece x.1 x.2).mapM (fun x : ClassPiece =>
        chordNoteInputs x.notes (some (x.chords.map Prod.fst)) x.measures 2 none none) =
      (l.map Prod.snd).mapM (fun x : ClassPiece =>
        chordNoteInputs x.notes (some (x.chords.map Prod.fst)) x.measures 2 none none) := by
    rw [mapM_shift _ Prod.snd _ (fun x => rfl)]
    refine mapM_shift _ _ _ (fun x => ?_) l
    have := C154_inputs (k := x.1) x.2.notes (some (x.2.chords.map Prod.fst)) x.2.measures 2 none none
    rw [← this]
    simp only [shiftPiece, Option.map_some, List.map_map]
    rfl
  have h2 : (l.map fun x => shiftPiece x.1 x.2).flatMap ClassPiece.chords =
      (l.flatMap fun x => x.2.chords.map fun c => (x.1, c)).map fun c => (shiftSpan c.1 c.2.1, c.2.2) := by
    clear h1
    induction l with
    | nil => rfl
    | cons x l ih =>
      simp only [List.map_cons, List.flatMap_cons, List.map_append, ih, List.map_map]
      rfl
  have h3 : (l.map Prod.snd).flatMap ClassPiece.chords =
      (l.flatMap fun x => x.2.chords.map fun c => (x.1, c)).map Prod.snd := by
    clear h1 h2
    induction l with
    | nil => rfl
    | cons x l ih =>
      simp only [List.map_cons, List.flatMap_cons, List.map_append, ih, List.map_map]
      congr 1
      exact (List.map_id' _).symm
  have h4 : firstPitchType (l.map fun x => shiftPiece x.1 x.2) = firstPitchType (l.map Prod.snd) := by
    cases l with
    | nil => rfl
    | cons x l =>
      simp only [List.map_cons, firstPitchType, shiftPiece, List.head?_map, Option.map_map]
      rfl
  have h5 : ∀ L : List (Int × ChordSpan × Chord ℚ),
      (L.map fun c => (shiftSpan c.1 c.2.1, c.2.2)).mapM
        (fun c : ChordSpan × Chord ℚ => c.2.oneHotIndex false true false noReduction) =
      (L.map Prod.snd).mapM (fun c => c.2.oneHotIndex false true false noReduction) := by
    intro L
    rw [mapM_shift _ Prod.snd (fun c => c.2.2.oneHotIndex false true false noReduction) (fun x => rfl)]
    exact mapM_shift _ _ _ (fun x => rfl) L
  simp only [classDataset, h1, h2, h3, h4, h5]

/-- The three tables of a piece. -/
structure Tables where
  measures : List MeasureRow
  notes : List NoteRow
  chords : List PieceRow

/-- The tables of the same music, some measures later. -/
def Tables.shift (k : Int) (t : Tables) : Tables :=
  ⟨t.measures.map (shiftMeasureRow k), t.notes.map (shiftNoteRow k), t.chords.map (shiftChordRow k)⟩

/-- The data of the chord classifier from tables. -/
def classTables (red : Reduction) (useInv useRel useSus : Bool) (l : List Tables) : Py ClassDataset := do
  let pieces ← l.mapM fun t => tablePiece t.measures t.notes t.chords red useInv useRel useSus
  classDataset pieces

/-- The data of the chord transition model from tables. -/
def transitionTables (red : Reduction) (useInv useRel useSus : Bool) (l : List Tables) : Py CtmData := do
  let pieces ← l.mapM fun t => tablePiece t.measures t.notes t.chords red useInv useRel useSus
  ctmData pieces

theorem tables_shift (red : Reduction) (useInv useRel useSus : Bool) (l : List (Int × Tables)) :
    ∃ ks : Py (List (Int × ClassPiece)),
      (l.map fun x => x.2.shift x.1).mapM (fun t => tablePiece t.measures t.notes t.chords red useInv useRel useSus) =
        ks.map (List.map fun x => shiftPiece x.1 x.2) ∧
      (l.map Prod.snd).mapM (fun t => tablePiece t.measures t.notes t.chords red useInv useRel useSus) =
        ks.map (List.map Prod.snd) := by
  induction l with
  | nil => exact ⟨.ok [], rfl, rfl⟩
  | cons x l ih =>
    obtain ⟨ks, h1, h2⟩ := ih
    simp only [List.map_cons, List.mapM_cons, h1, h2]
    have hp := tablePiece_shift (k := x.1) x.2.measures x.2.notes x.2.chords red useInv useRel useSus
    simp only [Tables.shift, hp]
    cases tablePiece x.2.measures x.2.notes x.2.chords red useInv useRel useSus with
    | error e => exact ⟨.error e, rfl, rfl⟩
    | ok p =>
      cases ks with
      | error e => exact ⟨.error e, rfl, rfl⟩
      | ok ks => exact ⟨.ok ((x.1, p) :: ks), rfl, rfl⟩

theorem ctmPiece_shift (x : ClassPiece) : ctmPiece (shiftPiece k x) = ctmPiece x := by
  let f : Lex (Int × ℚ) → Lex (Int × ℚ) := fun a => toLex (later k (ofLex a))
  have hlt : ∀ a b, f a < f b ↔ a < b := later_lt
  have ho : ((x.notes.map (shiftNote k)).map fun n => toLex n.offset) =
      (x.notes.map fun n => toLex n.offset).map f := by
    simp only [List.map_map]; rfl
  have hn : ((x.notes.map (shiftNote k)).map fun n => toLex n.onset) =
      (x.notes.map fun n => toLex n.onset).map f := by
    simp only [List.map_map]; rfl
  have hp : (x.notes.map (shiftNote k)).map NoteObj.onset = (x.notes.map NoteObj.onset).map (later k) := by
    simp only [List.map_map]; rfl
  have hc : ((x.chords.map fun c => (shiftSpan k c.1, c.2)).map fun c => toLex c.1.offset) =
      (x.chords.map fun c => toLex c.1.offset).map f := by
    simp only [List.map_map]; rfl
  have hs : ((x.chords.map fun c => (shiftSpan k c.1, c.2)).map fun c => toLex c.1.onset) =
      (x.chords.map fun c => toLex c.1.onset).map f := by
    simp only [List.map_map]; rfl
  have hl := lastOffset_map hlt (some (x.chords.map fun c => toLex c.1.offset)) (x.notes.map fun n => toLex n.offset)
  rw [Option.map_some] at hl
  simp only [ctmPiece, shiftPiece, ho, hn, hc, hs, hl, hp, chordChanges_map hlt]
  cases lastOffset (some (x.chords.map fun c => toLex c.1.offset)) (x.notes.map fun n => toLex n.offset) with
  | error e => rfl
  | ok last =>
    have hd := durationCache_shift (k := k) x.measures (x.notes.map NoteObj.onset) (ofLex last)
    have hlast : ofLex (f last) = later k (ofLex last) := rfl
    simp only [Except.map, Bind.bind, Except.bind, hlast, hd]
    cases durationCache x.measures (x.notes.map NoteObj.onset) (ofLex last) with
    | error e => rfl
    | ok cache =>
      have hi : ctmInputs (x.notes.map (shiftNote k)) cache = ctmInputs x.notes cache := by
        simp only [ctmInputs]
        rw [List.zip_map_left, mapM_shift _ (Prod.map (shiftNote k) id) _ (fun y => rfl)]
        rfl
      simp only [hi]

/-- C154: the chord classifier is trained on the same data if the measures of each piece begin with another number. -/
theorem C154_class (red : Reduction) (useInv useRel useSus : Bool) (l : List (Int × Tables)) :
    classTables red useInv useRel useSus (l.map fun x => x.2.shift x.1) =
      classTables red useInv useRel useSus (l.map Prod.snd) := by
  obtain ⟨ks, h1, h2⟩ := tables_shift red useInv useRel useSus l
  simp only [classTables, h1, h2]
  cases ks with
  | error e => rfl
  | ok ks => exact classDataset_shift ks

/-- C154: so is the chord transition model. -/
theorem C154_transition (red : Reduction) (useInv useRel useSus : Bool) (l : List (Int × Tables)) :
    transitionTables red useInv useRel useSus (l.map fun x => x.2.shift x.1) =
      transitionTables red useInv useRel useSus (l.map Prod.snd) := by
  obtain ⟨ks, h1, h2⟩ := tables_shift red useInv useRel useSus l
  simp only [transitionTables, h1, h2]
  cases ks with
  | error e => rfl
  | ok ks =>
    simp only [Except.map, Bind.bind, Except.bind, ctmData]
    rw [mapM_shift _ Prod.snd _ (fun x => rfl), mapM_shift _ (fun x : Int × ClassPiece => shiftPiece x.1 x.2) _
      (fun x => ctmPiece_shift x.2)]

/-! ## A concrete case -/

/-- The piece of `Verif.TablePiece`, beginning in measure 17. -/
def exTables : Tables := ⟨TablePiece.exMeasures, TablePiece.exNotes, TablePiece.exRows⟩

example : ((exTables.shift 17).measures.map fun m => (m.measure.mc, m.measure.next)) =
    [(17, some 18), (18, some 19), (19, some 20), (20, none)] := by decide

/-- It is read, with its chords in other measures, … -/
example : ((tablePiece (exTables.shift 17).measures (exTables.shift 17).notes (exTables.shift 17).chords noReduction
    true true false).map fun x => x.chords.map fun c => (c.1.onset, c.1.offset, c.1.duration)) =
      .ok [((17, 0), (19, 0), 2), ((19, 0), (20, 0), 1)] := by decide +kernel

/-- … and next to the piece itself it gives the same two chords again. -/
example : ((classTables noReduction true true false [exTables, exTables.shift 17]).map fun d =>
    (d.targets, d.lengths, decide (d.inputs.take 2 = d.inputs.drop 2))) =
      .ok ([45, 48, 45, 48], [6, 6, 6, 6], true) := by decide +kernel

example : ((transitionTables noReduction true true false [exTables, exTables.shift 17]).map fun d => d.targets) =
    .ok [[-100, 0, 1, -100], [-100, 0, 1, -100]] := by decide +kernel

end Verif.Renumber
