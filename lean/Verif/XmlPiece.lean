import Verif.LabelsCsv
import Verif.PieceKeys
import Verif.Vectors
import Mathlib.Data.Prod.Lex

/-!
# Pieces from MusicXML scores and their labels

Model of `get_notes_from_music_xml` and `get_score_piece_from_music_xml`
(/repo/harmonic_inference/data/piece.py:841-1034). What music21 gives is the input (see `Verif.MusicXml`). The
comparison of the two ends in piece.py:968-973 only prints something. The cache of levels is left out (see C78).
-/

namespace Verif

/-! ## Notes -/

/-- The notes of a measure, in the order of `measure.recurse().notes` with the notes of each chord in its
place: the time after the beginning of the measure and the duration, in whole notes. -/
structure XmlMeasureNotes where
  number : Int
  notes : List (ℚ × ℚ)

/-- piece.py:881-884: the row of the measure with a number, the first one if there are several. -/
def rowOfNumber (rows : List XmlRow) (number : Int) : Option Nat :=
  rows.findIdx? (fun r => decide (r.mn = number))

/-- piece.py:879-908: the notes of one measure. -/
def measureNotes (rows : List XmlRow) (m : XmlMeasureNotes) : Py (List XmlNote) :=
  match rowOfNumber rows m.number with
  | none => .ok []
  | some mc => m.notes.mapM (fun n => xmlNote rows mc n.1 n.2)

/-- piece.py:841-910 `get_notes_from_music_xml`. -/
def xmlNotes (rows : List XmlRow) (ms : List XmlMeasureNotes) : Py (List XmlNote) := do
  let l ← ms.mapM (measureNotes rows)
  .ok l.flatten

/-! ## Labels -/

/-- piece.py:982-983: the body of the loop over the degrees. -/
def dropPlus (l : CsvLabel) (d : Char) : CsvLabel := if l.degree = [d, '+'] then { l with degree := [d] } else l

/-- piece.py:964-983: the labels in whole notes, without those that are before the score or have no duration,
and without some `+`. -/
def cleanLabels (labels : List CsvLabel) : List CsvLabel :=
  let l := labels.map (fun r => { r with on := r.on / 4, off := r.off / 4 })
  let l := l.filter (fun r => decide (r.on ≥ 0) && decide (r.off > 0))
  let l := l.filter (fun r => decide (r.off > r.on))
  l.map (fun r => ['1', '2', '3', '4', '5'].foldl dropPlus r)

/-- What of a `ScorePiece` is made from the labels. -/
structure XmlPiece where
  chords : List SeriesChord
  keys : List Key
  chordChanges : List Nat
  chordRanges : List (Nat × Nat)
  keyChanges : List Nat
  deriving DecidableEq

/-- piece.py:1021-1022: the vectors are made, but not used. -/
def tryChanges (keys : List Key) : Py (List (List ℚ)) :=
  (keys.zip (keys.drop 1)).mapM (fun p => p.1.changeVector p.2)

/-- piece.py:968-1034, for the rows of the measures, the onsets and offsets of the notes and the labels. -/
def xmlPiece (rows : List XmlRow) (notes : List ((Int × ℚ) × (Int × ℚ))) (labels : List CsvLabel) :
    Py XmlPiece := do
  let _ ← pyGet labels (-1)
  let _ ← pyGet rows (-1)
  let clean := cleanLabels labels
  let chords ← clean.mapM (labelChord rows .tpc noReduction true true)
  let times := notes.map (fun n => (toLex n.1, toLex n.2))
  let onsets := chords.map (fun c => toLex c.onset)
  let first ← pyGet clean 0
  let g ← labelKey first .tpc none
  let keys ← clean.mapM (fun r => labelKey r .tpc (some (g.globalTonic, g.globalMode)))
  let mask := reductionMask (Key.equals true) keys
  let kept ← npMask keys mask
  let changes ← npMask (List.range keys.length) mask
  let _ ← tryChanges kept
  .ok ⟨chords, kept, Verif.chordChanges (times.map (·.1)) 0 onsets, pieceChordRanges times onsets, changes⟩

end Verif
