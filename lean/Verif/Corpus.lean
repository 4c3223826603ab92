import Verif.Rhythm

/-!
# Corpus tables

Model of /repo/harmonic_inference/utils/corpus_utils.py. A table of the corpus is a list of rows with a
file number. A merge on `file_id` and `mc` takes the first matching row: the tables have one row for
each measure of a file. A missing value (`NaN`, `pd.NA`) is `none`.
-/

namespace Verif

/-- A row of the measures table before repeats are removed: `next` holds all measures which may follow. -/
structure RawMeasure (δ : Type) where
  file : Nat
  mc : Int
  actDur : δ
  offset : δ
  nexts : List Int
  deriving DecidableEq

/-- A row of the measures table with one `next`, or none. -/
structure FileMeasure (δ : Type) extends Measure δ where
  file : Nat
  deriving DecidableEq

/-- A row and whether its index is in `start_indices` (corpus_utils.py:101-104). -/
structure Marked (δ : Type) where
  row : FileMeasure δ
  start : Bool
  deriving DecidableEq

/-- `max(next_mc)` for a list with at least one value. -/
def maxOf : List Int → Option Int
  | [] => none
  | a :: l => some (l.foldl max a)

/-- corpus_utils.py:69-94: the one measure which follows a row. `lastOfFile`: the file number of the row
after it, or of the first row, differs (np.roll, 74-76). -/
def nextOf {δ : Type} (r : RawMeasure δ) (lastOfFile : Bool) : Option Int :=
  if r.nexts.length = 0 ∨ -1 ∈ r.nexts ∨ lastOfFile = true then none
  else if r.nexts.length > 1 then maxOf r.nexts
  else r.nexts[0]?

/-- `np.roll(files, -1) != files` at one place. -/
def rolledNext (files : List Nat) (i : Nat) : Bool :=
  decide (files[(i + 1) % files.length]? ≠ files[i]?)

/-- `np.roll(files, 1) != files` at one place. -/
def rolledPrev (files : List Nat) (i : Nat) : Bool :=
  decide (files[(i + files.length - 1) % files.length]? ≠ files[i]?)

/-- corpus_utils.py:67-104: rows with one `next`, marked as start measures. -/
def markRows {δ : Type} (rows : List (RawMeasure δ)) : List (Marked δ) :=
  let files := rows.map (·.file)
  rows.zipIdx.map (fun (r, i) =>
    { row := { file := r.file, mc := r.mc, actDur := r.actDur, offset := r.offset,
               next := nextOf r (rolledNext files i) },
      start := rolledPrev files i })

/-- corpus_utils.py:111-129, one round: the rows which follow some row, or are start rows. -/
def pruneOnce {δ : Type} (rows : List (Marked δ)) : List (Marked δ) :=
  rows.filter (fun r => r.start ||
    rows.any (fun p => decide (p.row.file = r.row.file ∧ p.row.next = some r.row.mc)))

/-- corpus_utils.py:110-129: the loop. Each round but the last one removes a row. -/
def prune {δ : Type} : Nat → List (Marked δ) → List (Marked δ)
  | 0, rows => rows
  | fuel + 1, rows =>
    if (pruneOnce rows).length = rows.length then rows else prune fuel (pruneOnce rows)

/-- corpus_utils.py:52-130 `remove_repeats`. -/
def removeRepeats {δ : Type} (rows : List (RawMeasure δ)) (removeUnreachable : Bool) :
    List (FileMeasure δ) :=
  let marked := markRows rows
  let kept := if removeUnreachable then prune (marked.length + 1) marked else marked
  kept.map (·.row)

/-- The measures of one file. -/
def measuresOf {δ : Type} (M : List (FileMeasure δ)) (file : Nat) : List (Measure δ) :=
  (M.filter (fun m => decide (m.file = file))).map (·.toMeasure)

/-- corpus_utils.py:345-381: the loop, for a note which goes beyond the end of the measure `m`, and whose
next measure is `n`. -/
def offsetLoop {δ : Type} [Add δ] [Sub δ] [LT δ] [DecidableLT δ] [DecidableEq δ] (T : List (Measure δ)) :
    Nat → Measure δ → Int → δ → Py (Int × Option δ)
  | 0, _, _, _ => .error .diverges
  | fuel + 1, m, n, off =>
    match findMeasure T n with
    | none => .ok (n, none)
    | some m' =>
      let off := off - m.actDur - m.offset + m'.offset
      match m'.next with
      | none => .ok (n, some off)
      | some n' =>
        if off = m'.actDur + m'.offset then .ok (n', (findMeasure T n').map (·.offset))
        else if m'.actDur + m'.offset < off then offsetLoop T fuel m' n' off
        else .ok (n, some off)

/-- corpus_utils.py:247-386 `add_note_offsets`, for one note: `offset_mc` and `offset_beat`. `T`: the
measures of the file of the note. `fuel`: a number of rounds after which we stop looking. -/
def noteOffset {δ : Type} [Add δ] [Sub δ] [LT δ] [DecidableLT δ] [DecidableEq δ] (T : List (Measure δ))
    (fuel : Nat) (mc : Int) (onset duration : δ) : Py (Int × Option δ) :=
  let off := onset + duration
  match findMeasure T mc with
  | none => .ok (mc, some off)
  | some m =>
    match m.next with
    | none => .ok (mc, some off)
    | some n =>
      if off = m.actDur + m.offset then .ok (n, (findMeasure T n).map (·.offset))
      else if m.actDur + m.offset < off then offsetLoop T fuel m n off
      else .ok (mc, some off)

/-- A row of the chords table. `timesig`: the value of the time signature. -/
structure ChordRow (δ : Type) where
  file : Nat
  mc : Int
  onset : δ
  timesig : δ
  deriving DecidableEq

/-- The columns which are added to a chord. -/
structure ChordEnd (δ : Type) where
  mcNext : Int
  onsetNext : Option δ
  duration : Option δ
  deriving DecidableEq

/-- Arithmetic with missing values. -/
def nanAdd {δ : Type} [Add δ] : Option δ → Option δ → Option δ
  | some a, some b => some (a + b)
  | _, _ => none

/-- Arithmetic with missing values. -/
def nanSub {δ : Type} [Sub δ] : Option δ → Option δ → Option δ
  | some a, some b => some (a - b)
  | _, _ => none

/-- corpus_utils.py:214-234: the loop, for one chord which is still to be checked. -/
def durationLoop {δ : Type} [Add δ] (T : List (Measure δ)) (mcNext : Int) :
    Nat → Int → Option δ → Py (Option δ)
  | 0, _, _ => .error .diverges
  | fuel + 1, cur, dur =>
    match findMeasure T cur with
    | none => .ok none
    | some m =>
      let dur := nanAdd dur (some m.actDur)
      match m.next with
      | none => .ok dur
      | some n => if n = mcNext then .ok dur else durationLoop T mcNext fuel n dur

/-- corpus_utils.py:161-169: `on_fixed` of a chord. -/
def onFixed {δ : Type} [Sub δ] (M : List (FileMeasure δ)) (c : ChordRow δ) : Option δ :=
  (findMeasure (measuresOf M c.file) c.mc).map (fun m => c.onset - m.offset)

/-- corpus_utils.py:171-202: where a chord ends: `mc_next`, `mn_onset_next` and `on_next_fixed`. The next
row of the table, or, for a chord whose file number differs from the one after it (with np.roll), the end
of the last measure of its file. Two last measures give two values for one row: `ValueError`. -/
def chordNext {δ : Type} [Add δ] [Sub δ] (M : List (FileMeasure δ)) (chords : List (ChordRow δ)) (i : Nat)
    (c : ChordRow δ) : Py (Option Int × Option δ × Option δ) :=
  if rolledNext (chords.map (·.file)) i then
    match (measuresOf M c.file).filter (fun m => decide (m.next = none)) with
    | [] => .ok (none, none, none)
    | [m] => .ok (some m.mc, some (m.actDur + m.offset), some m.actDur)
    | _ :: _ :: _ => .error .valueError
  else
    match chords[i + 1]? with
    | none => .ok (none, none, none)
    | some c' => .ok (some c'.mc, some c'.onset, onFixed M c')

/-- corpus_utils.py:204-243: the new columns of one chord. A missing `mc_next` is neither equal to the
measure of the chord nor different from it, and is not checked in the loop; it is replaced at the end
(238-242). -/
def chordEnd {δ : Type} [Add δ] [Sub δ] (M : List (FileMeasure δ)) (chords : List (ChordRow δ))
    (fuel : Nat) (i : Nat) (c : ChordRow δ) : Py (ChordEnd δ) := do
  let (mcNext, onsetNext, onNextFixed) ← chordNext M chords i c
  let duration := nanSub onNextFixed (onFixed M c)
  match mcNext with
  | none => .ok { mcNext := c.mc, onsetNext := some c.timesig, duration := duration }
  | some n =>
    if c.mc = n then .ok { mcNext := n, onsetNext := onsetNext, duration := duration }
    else do
      let duration ← durationLoop (measuresOf M c.file) n fuel c.mc duration
      .ok { mcNext := n, onsetNext := onsetNext, duration := duration }

/-- All of the results, or the first exception. -/
def mapPy {α β : Type} (f : α → Py β) : List α → Py (List β)
  | [] => .ok []
  | a :: l =>
    match f a with
    | .error e => .error e
    | .ok b =>
      match mapPy f l with
      | .error e => .error e
      | .ok bs => .ok (b :: bs)

/-- corpus_utils.py:133-244 `add_chord_metrical_data`, for measures with repeats removed. -/
def addChordMetricalData {δ : Type} [Add δ] [Sub δ] (M : List (FileMeasure δ))
    (chords : List (ChordRow δ)) (fuel : Nat) : Py (List (ChordEnd δ)) :=
  mapPy (fun (c, i) => chordEnd M chords fuel i c) chords.zipIdx

end Verif
