import Verif.MusicXml
import Verif.PieceKeys
import Verif.Vectors

/-!
# Notes of a piece

Model of the notes made by both loaders: `Note.from_series` and `Note.from_music21`
(/repo/harmonic_inference/data/note.py:335-520), of `Note.to_pitch_type`, and of the list of notes of a piece
(piece.py:621-639).
-/

namespace Verif

/-- note.py:22-76: a `Note` of a score. -/
structure NoteObj where
  pitchClass : Int
  octave : Int
  onset : Int × ℚ
  onsetLevel : Nat
  duration : ℚ
  offset : Int × ℚ
  offsetLevel : Nat
  pitchType : PitchType
  mcOnset : ℚ
  deriving DecidableEq

/-- note.py:22-76 `Note.__init__`: without `mc_onset`, the onset beat is taken. -/
def mkNote (pitchClass octave : Int) (onset : Int × ℚ) (onsetLevel : Nat) (duration : ℚ) (offset : Int × ℚ)
    (offsetLevel : Nat) (pt : PitchType) (mcOnset : Option ℚ) : NoteObj :=
  ⟨pitchClass, octave, onset, onsetLevel, duration, offset, offsetLevel, pt, mcOnset.getD onset.2⟩

/-- The columns read by `Note.from_series`. `onset` is the column `NOTE_ONSET_BEAT`. -/
structure NoteRow where
  midi : Int
  tpc : Int
  mc : Int
  onset : ℚ
  offsetMc : Int
  offsetBeat : ℚ
  duration : ℚ
  mcOnset : Option ℚ
  deriving DecidableEq

/-- note.py:373-380. -/
def rowPitch (row : NoteRow) : PitchType → Py Int
  | .tpc =>
    let pitch := row.tpc + TPC_C
    if pitch < 0 ∨ pitch ≥ NUM_PITCHES .tpc then .error .valueError else .ok pitch
  | .midi => .ok (row.midi % NUM_PITCHES .midi)

/-- note.py:335-425 `Note.from_series`: the note or None, and the cache afterwards. Lines 383-405 are those
of `Chord.from_series` (`levelAt`). -/
def noteFromSeries (T : List MeterRow) (pt : PitchType) (cache : Option LevelCache) (row : NoteRow) :
    Option NoteObj × Option LevelCache :=
  match rowPitch row pt with
  | .error _ => (none, cache)
  | .ok pitch =>
    let octave := row.midi / NUM_PITCHES .midi
    match levelAt T cache row.mc row.onset with
    | (.error _, cache) => (none, cache)
    | (.ok l1, cache) =>
      match levelAt T cache row.offsetMc row.offsetBeat with
      | (.error _, cache) => (none, cache)
      | (.ok l2, cache) =>
        (some (mkNote pitch octave (row.mc, row.onset) l1 row.duration (row.offsetMc, row.offsetBeat) l2 pt
          row.mcOnset), cache)

/-- piece.py:623-634: the rows of a table, one after another, with one cache. -/
def notesFromTable (T : List MeterRow) (pt : PitchType) :
    Option LevelCache → List NoteRow → List (Option NoteObj) × Option LevelCache
  | cache, [] => ([], cache)
  | cache, row :: rest =>
    let (n, cache) := noteFromSeries T pt cache row
    let (ns, cache) := notesFromTable T pt cache rest
    (n :: ns, cache)

/-- piece.py:620-639: the notes of a piece, each with the number of its row, and the cache for the chords.
The cache begins empty. `np.squeeze` is as in piece.py:672-674; the `TypeError` comes with the first `len(notes)`
(ScorePiece does not take it, the loop over the chords does), so it is raised here for all pieces. -/
def pieceNotes (T : List MeterRow) (rows : List NoteRow) : Py (List (NoteObj × Nat)) × Option LevelCache :=
  let (ns, cache) := notesFromTable T .tpc (some []) rows
  (squeezed ((ns.zip (List.range ns.length)).filterMap (fun x => x.1.map (fun n => (n, x.2)))), cache)

/-- A pitch of music21: a letter with sharps or flats (negative), and an octave in scientific numbering, where
middle C is C4. -/
structure XmlPitch where
  letter : Char
  alter : Int
  octave : Int
  deriving DecidableEq

/-- note.py:510: `m21_note.pitch.name.replace("-", "b")`; music21 writes flats as `-`. -/
def xmlPitchName (p : XmlPitch) : Str :=
  p.letter :: (List.replicate p.alter.toNat '#' ++ List.replicate (-p.alter).toNat 'b')

/-- note.py:427-520 `Note.from_music21`. -/
def noteFromMusic21 (rows : List XmlRow) (mc : Nat) (pt : PitchType) (p : XmlPitch) (start duration : ℚ) :
    Py NoteObj := do
  let x ← xmlNote rows mc start duration
  let pitch ← pitchFromString (xmlPitchName p) pt
  .ok (mkNote pitch p.octave x.onset x.onsetLevel x.duration x.offset x.offsetLevel pt (some x.mcOnset))

/-- note.py:91-116 `Note.to_pitch_type`. `mc_onset` is one of the parameters. -/
def NoteObj.toPitchType (n : NoteObj) (pt : PitchType) : Py NoteObj :=
  if pt = n.pitchType then .ok { n with pitchType := pt }
  else do
    let name ← pitchString n.pitchClass n.pitchType
    let pitch ← pitchFromString name pt
    .ok { n with pitchClass := pitch, pitchType := pt }

/-- note.py:118-133 `Note.get_midi_note_number`. -/
def NoteObj.midiNumber (n : NoteObj) : Py Int := midiNoteNumber n.pitchClass n.octave n.pitchType

end Verif
