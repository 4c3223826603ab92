import Verif.Harmony
import Verif.StateInputs
import Verif.ChordInputs
import Verif.TransitionTraining

/-!
# The analysis of a piece

Model of /repo/harmonic_inference/models/joint_model.py:505-650 and 793-837 (`get_harmony`, `get_chord_change_probs`,
`get_chord_classifications`) for a `ScorePiece`, with or without labels: from its notes, measures and chords to the result
of the search. In `Harmony.lean` the outputs of the chord transition model and of the chord classifier are given; here they
are computed from what these models read of the piece.

* The networks are arbitrary functions. The chord transition model gives a list of probabilities for the rows of a piece,
  the chord classifier a list of log probabilities for the rows of a window (see C90 and C127 for batches and padding).
* The models of the search read the caches of durations and metrical levels only (1090-1092, 1137-1139, 1210-1212,
  1344-1346).
* The test of the type of the piece (561), logging and the debugger are left out.
-/

namespace Verif

/-- What is read of a `ScorePiece`: its notes, its table of measures, and the places of its chords, if it has labels. -/
structure Analysed where
  notes : List NoteObj
  measures : List (Measure ℚ)
  chords : Option (List ChordSpan)

/-- piece.py:429-431 and 480-484: where the piece ends. -/
def Analysed.last (x : Analysed) : Py (Int × ℚ) := do
  let t ← lastOffset (x.chords.map fun l => l.map fun c => toLex c.offset) (x.notes.map fun n => toLex n.offset)
  .ok (ofLex t)

/-- piece.py:424-448 `get_duration_cache`. -/
def Analysed.cache (x : Analysed) : Py (List ℚ) := do
  let t ← x.last
  durationCache x.measures (x.notes.map NoteObj.onset) t

/-- joint_model.py:606, 609: onsets and offsets of the notes, in Python's order of tuples. -/
def Analysed.times (x : Analysed) : List (Lex (Int × ℚ) × Lex (Int × ℚ)) :=
  x.notes.map fun n => (toLex n.onset, toLex n.offset)

/-- joint_model.py:566-573. -/
def Analysed.caches (x : Analysed) (cache : List ℚ) : Py Caches :=
  makeCaches ((cache.zip x.notes).map fun p => (p.1, (p.2.onsetLevel : Int), (p.2.offsetLevel : Int)))

/-- The parameters and the networks of a joint model. (The fields `ctm`, `ccm` and `search` of `params` are not used.) -/
structure Analyser (π κ ρ H P : Type) where
  params : Joint π κ ℚ ρ H P
  /-- joint_model.py:648-650: the probabilities for the notes of a piece. -/
  ctm : List (List ℚ) → List π
  /-- joint_model.py:831-837: the log probabilities for a window. -/
  ccm : List (List ℚ) → List κ
  /-- The parameters and the models of the search. -/
  search : Caches → SearchData κ ρ H P

namespace Analyser
variable {π κ ρ H P : Type}

/-- The parameters with the change probabilities of the piece (no probability is 0) and the models of the search. -/
def withProbs [Zero π] (N : Analyser π κ ρ H P) (probs : List π) (C : Caches) : Joint π κ ℚ ρ H P :=
  { N.params with ctm := fun i => probs.getD i 0, search := N.search C }

/-- joint_model.py:605-611: the window of the notes that sound in a range. -/
def window (x : Analysed) (r : Nat × Nat × κ) : Py (Nat × Nat) := do
  let n ← pyGet x.notes r.1
  .ok (rangeStart (toLex n.onset) x.times, r.2.1)

/-- joint_model.py:883-907: a range with its probabilities and its classification. -/
def row (m : Joint π κ ℚ ρ H P) (r : ((Nat × Nat × κ) × κ) × List κ) : Nat × RangeData κ :=
  (r.1.1.1, ⟨r.1.1.2.1, r.1.1.2.2, r.1.2, r.2, m.argsort r.2, m.branch r.2⟩)

/-- joint_model.py:505-629 `get_harmony` with 631-650 `get_chord_change_probs` and 793-837 `get_chord_classifications`. -/
def analyse [LE π] [DecidableLE π] [LT π] [DecidableLT π] [Zero π] [One π] [Add κ] [Sub κ] [Zero κ]
    [DecidableEq κ] [DecidableEq H] [DecidableEq P] (N : Analyser π κ ρ H P) (x : Analysed) (chord key : ForcedType) :
    Py (Option (State κ H P)) := do
  let cache ← x.cache
  let C ← x.caches cache
  let ids ← Forced.validate cache chord key
  let inputs ← ctmInputs x.notes cache
  let m := N.withProbs (N.ctm inputs) C
  let changes ← mapPy (Joint.arrayIndex cache.length) (Forced.dropZero chord.changes)
  let nonChanges ← mapPy (Joint.arrayIndex cache.length) chord.nonChanges
  let rs ← (m.rangeInput cache ids.1 ids.2 changes nonChanges).getChordRanges
  let windows ← mapPy (window x) rs.1
  let vectors ← chordNoteInputs x.notes x.chords x.measures 2 (some windows) (some (rs.1.map fun r => r.1))
  (m.searchData x.notes.length (((rs.1.zip rs.2).zip (vectors.map N.ccm)).map (row m)) ids.1 ids.2).search

end Analyser

end Verif
