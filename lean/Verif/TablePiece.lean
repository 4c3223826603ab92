import Verif.Notes
import Verif.PieceKeys
import Verif.ClassTraining

/-!
# Pieces from tables, as they are trained on

Model of `get_score_piece_from_data_frames` (/repo/harmonic_inference/data/piece.py:582-757) as a whole: notes, measures
and chords. The parts are in `Verif.Notes` and `Verif.PieceKeys`.
-/

namespace Verif

/-- A row of `measures_df`: what rhythmic_utils.py reads, and the time signature. -/
structure MeasureRow where
  measure : Measure ℚ
  num : Int
  den : Int

/-- The columns that are read for metrical levels. -/
def MeasureRow.meter (m : MeasureRow) : MeterRow := ⟨m.measure.mc, m.num, m.den⟩

/-- A `Chord` as the datasets read it. -/
def SeriesChord.spanned (c : SeriesChord) : ChordSpan × Chord ℚ := (⟨c.onset, c.offset, c.chord.duration⟩, c.chord)

/-- piece.py:582-757 `get_score_piece_from_data_frames`, with `chords_df`. Keys are in `PieceHarmony`. -/
def tablePiece (measures : List MeasureRow) (notes : List NoteRow) (chords : List PieceRow) (red : Reduction)
    (useInv useRelative useSuspension : Bool) : Py ClassPiece := do
  let read := pieceNotes (measures.map MeasureRow.meter) notes
  let ns ← read.1
  let h ← pieceHarmony (measures.map MeasureRow.meter) red useInv useRelative useSuspension read.2 chords
  .ok ⟨ns.map (·.1), measures.map (·.measure), h.chords.map SeriesChord.spanned⟩

/-- What the chord sequence and key datasets read: piece.py:459-460 and 521-525 `get_chords`, `get_key_change_indices`, `get_keys`. -/
def PieceHarmony.keyed (h : PieceHarmony) : KeyedPiece := ⟨h.chords.map (·.chord), h.keyChanges, h.keys⟩

/-- piece.py:582-757 `get_score_piece_from_data_frames`, with `chords_df`, as the chord sequence and key datasets read the
piece. -/
def tableKeyed (measures : List MeasureRow) (notes : List NoteRow) (chords : List PieceRow) (red : Reduction)
    (useInv useRelative useSuspension : Bool) : Py KeyedPiece := do
  let read := pieceNotes (measures.map MeasureRow.meter) notes
  let _ ← read.1
  let h ← pieceHarmony (measures.map MeasureRow.meter) red useInv useRelative useSuspension read.2 chords
  .ok h.keyed

end Verif
