import Verif.Notes
import Verif.Piece
import Mathlib.Data.Prod.Lex

/-!
# Inputs of the chord classifier

Model of the inputs which are made from the notes of a piece: `get_chord_note_input`
(/repo/harmonic_inference/data/piece.py:52-162) and `ScorePiece.get_chord_note_inputs` (462-519), with the
rhythmic part of `Note.to_vec` (note.py:228-269). Numbers are not rounded to 16 bits.
-/

namespace Verif

/-- The attributes of a chord which are read by `get_chord_note_input`. -/
structure ChordSpan where
  onset : Int × ℚ
  offset : Int × ℚ
  duration : ℚ
  deriving DecidableEq

/-- `min` of a list of pairs (Python's order of tuples); an empty list raises `ValueError`. -/
def minPair : List (Int × Int) → Py (Int × Int)
  | [] => .error .valueError
  | a :: l => .ok (l.foldl (fun m x => if pairGt m x then x else m) a)

/-- `max` of a list of pairs. -/
def maxPair : List (Int × Int) → Py (Int × Int)
  | [] => .error .valueError
  | a :: l => .ok (l.foldl (fun m x => if pairGt x m then x else m) a)

/-- note.py:228-262: onset, offset and duration as proportions of the chord. With a given onset, any exception
(a chord of duration 0) gives three ones. -/
def noteRhythm (T : List (Measure ℚ)) (n : NoteObj) (chordOnset chordOffset : Int × ℚ) (chordDuration : ℚ)
    (noteOnset : Option ℚ) : Py (ℚ × ℚ × ℚ) :=
  match noteOnset with
  | none => rhythmicInfo T n.onset n.duration chordOnset chordOffset (some chordDuration)
  | some o =>
    if chordDuration = 0 then .ok (1, 1, 1)
    else .ok (o / chordDuration, o / chordDuration + n.duration / chordDuration, n.duration / chordDuration)

/-- note.py:135-302 `to_vec` with all arguments. -/
def noteVector (T : List (Measure ℚ)) (chordOnset chordOffset : Int × ℚ) (chordDuration : ℚ)
    (lowest highest : Int × Int) (n : NoteObj) (noteOnset fromPrev toNext : Option ℚ) : Py (List ℚ) := do
  let rhythm ← noteRhythm T n chordOnset chordOffset chordDuration noteOnset
  NoteVec.toVec ⟨n.pitchClass, n.octave, n.onsetLevel, n.offsetLevel, n.pitchType, rhythm,
    (fromPrev.getD 0, toNext.getD 0), some lowest, some highest⟩

/-- piece.py:130-155: the vectors below each other; `np.vstack` raises `ValueError` if their lengths differ. -/
def stackRows : List (List ℚ) → Py (Nat × List (List ℚ))
  | [] => .error .valueError
  | v :: l => if l.all (fun w => decide (w.length = v.length)) then .ok (v.length, v :: l)
    else .error .valueError

/-- piece.py:101-102: a place of the chord is at the place which was found from the notes. -/
def spanAligns (chord : Option (Int × ℚ)) (found : Int × ℚ) : Bool :=
  match chord with
  | none => true
  | some x => decide (x = found)

/-- piece.py:132-133: the place found from the notes, or that of the chord. -/
def spanPlace (chord : Option (Int × ℚ)) (found : Int × ℚ) : Int × ℚ :=
  match chord with
  | none => found
  | some x => if x = found then found else x

/-- piece.py:52-162 `get_chord_note_input`. The indexes are not negative, and there is one entry in the cache
for each note (both callers take it from `get_duration_cache`). -/
def chordNoteInput (notes : List NoteObj) (T : List (Measure ℚ)) (onset offset : Int × ℚ) (duration : ℚ)
    (change first last window : Nat) (cache : List ℚ) (chord : Option ChordSpan) : Py (List (List ℚ)) := do
  let onsetAligns := spanAligns (chord.map ChordSpan.onset) onset
  let lo : Int := (first : Int) - window
  let hi : Int := (last : Int) + window
  let a := max lo 0
  let b := min hi notes.length
  let inside := pySlice notes a b
  let pitches ← inside.mapM (fun n => do
    let m ← n.midiNumber
    .ok (n.octave, m))
  let lowest ← minPair pitches
  let highest ← maxPair pitches
  let onsets : List (Option ℚ) :=
    if onsetAligns then (noteOnsets cache change a.toNat b.toNat).map some else inside.map (fun _ => none)
  let fromPrev := pySlice (none :: cache.map some) a b
  let toNext := pySlice (cache.map some) a b
  let vectors ← (inside.zip (onsets.zip (fromPrev.zip toNext))).mapM (fun x =>
    noteVector T (spanPlace (chord.map ChordSpan.onset) onset) (spanPlace (chord.map ChordSpan.offset) offset)
      duration lowest highest x.1 x.2.1 x.2.2.1 x.2.2.2)
  let (width, rows) ← stackRows vectors
  .ok (List.replicate (a - lo).toNat (List.replicate width 0) ++ rows ++
    List.replicate (hi - b).toNat (List.replicate width 0))

/-- piece.py:498-501: where a range ends. -/
def rangeEnd (notes : List NoteObj) (last : Int × ℚ) (e : Nat) : Int × ℚ :=
  match notes[e]? with
  | some m => m.onset
  | none => last

/-- piece.py:486-519: the input of one chord. -/
def pieceChordInput (notes : List NoteObj) (T : List (Measure ℚ)) (cache : List ℚ) (last : Int × ℚ)
    (window : Nat) (range : Nat × Nat) (change : Nat) (chord : Option ChordSpan) : Py (List (List ℚ)) := do
  let duration := match chord with
    | none => ((cache.take range.2).drop change).sum
    | some c => c.duration
  let n ← pyGet notes change
  chordNoteInput notes T n.onset (rangeEnd notes last range.2) duration change range.1 range.2 window cache chord

/-- piece.py:462-519 `get_chord_note_inputs`; 474-479: real chords are used if ranges or change indexes are not
given. The chords of a piece without labels are None: `TypeError`. -/
def chordNoteInputs (notes : List NoteObj) (chords : Option (List ChordSpan)) (T : List (Measure ℚ))
    (window : Nat) (ranges : Option (List (Nat × Nat))) (changes : Option (List Nat)) :
    Py (List (List (List ℚ))) := do
  let times := notes.map (fun n => (n.onset, n.offset))
  let real := ranges.isNone || changes.isNone
  let lex (l : List ((Int × ℚ) × (Int × ℚ))) := l.map (fun t => (toLex t.1, toLex t.2))
  let starts (l : List ChordSpan) := l.map (fun c => toLex c.onset)
  let ranges ← match ranges, chords with
    | some l, _ => Except.ok l
    | none, some l => .ok (pieceChordRanges (lex times) (starts l))
    | none, none => .error .typeError
  let changes ← match changes, chords with
    | some l, _ => Except.ok l
    | none, some l => .ok (chordChanges ((lex times).map Prod.fst) 0 (starts l))
    | none, none => .error .typeError
  let chosen ← match real, chords with
    | false, _ => Except.ok (ranges.map (fun _ => none))
    | true, some l => .ok (l.map some)
    | true, none => .error .typeError
  let last ← lastOffset (chords.map (fun l => l.map (fun c => toLex c.offset)))
    (notes.map (fun n => toLex n.offset))
  let cache ← durationCache T (notes.map NoteObj.onset) (ofLex last)
  (ranges.zip (changes.zip chosen)).mapM (fun x =>
    pieceChordInput notes T cache (ofLex last) window x.1 x.2.1 x.2.2)

end Verif
