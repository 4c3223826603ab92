import Verif.PyStr
import Verif.Notes
import Verif.FromSeries
import Verif.KwargsJson
import Verif.CourseData

/-!
# How notes, chords and keys are printed

`__str__` and `__repr__` of data/note.py, data/chord.py and data/key.py, and `get_chord_string`. Positions are
tuples of an `int` and a `Fraction`, durations are `Fraction`s (MIDI pieces, whose positions are floats, are not
made by anything in the project). The numbers are Python integers: what newer versions of numpy print around
their own integers inside of a tuple is left out.
-/

namespace Verif

/-- `repr` of a `Fraction`, which is what `str` of a tuple contains. -/
def fracRepr (q : ℚ) : Str := ['F', 'r', 'a', 'c', 't', 'i', 'o', 'n', '('] ++ (intStr q.num ++ ([',', ' '] ++ (intStr q.den ++ [')'])))

/-- `str` of a `Fraction`: integers are printed without a denominator. -/
def fracStr (q : ℚ) : Str := if q.den = 1 then intStr q.num else intStr q.num ++ ('/' :: intStr q.den)

/-- `str` of a position, a tuple of a measure and a beat. -/
def posStr (p : Int × ℚ) : Str := '(' :: (intStr p.1 ++ ([',', ' '] ++ (fracRepr p.2 ++ [')'])))

/-- `str` of a `PitchType`, data_types.py:22-33. -/
def pitchTypeStr : PitchType → Str
  | .tpc => "PitchType.TPC".toList
  | .midi => "PitchType.MIDI".toList

/-- `str` of a `KeyMode`, data_types.py:36-47. -/
def keyModeStr (m : KeyMode) : Str := "KeyMode.".toList ++ modeName m

/-- `str` of a `ChordType`, data_types.py:50-72. -/
def chordTypeStr (t : ChordType) : Str :=
  "ChordType.".toList ++ ((chordTypeNames.find? fun x => x.2 = t).map (·.1)).getD []

/-- harmonic_utils.py:990-1004 `get_chord_string`. `CHORD_TYPE_TO_STRING` (harmonic_constants.py:186) is made from
the first twelve strings, before those of augmented sixth chords are added (188-190). -/
def chordString (t : ChordType) : Py Str :=
  match (chordTypeTable.take 12).reverse.find? fun x => x.2 = t with
  | some x => .ok x.1
  | none => .error .keyError

/-- chord.py:402-411. -/
def inversionStr (i : Int) : Str :=
  if i = 0 then "root position".toList
  else if i = 1 then "1st inversion".toList
  else if i = 2 then "2nd inversion".toList
  else if i = 3 then "3rd inversion".toList
  else intStr i ++ "th inversion".toList

/-- chord.py:401-418 `Chord.__str__`. -/
def chordStr (c : SeriesChord) : Py Str := do
  let root ← pitchString c.chord.root c.chord.pitchType
  let type ← chordString c.chord.chordType
  let bass ← pitchString c.chord.bass c.chord.pitchType
  .ok (root ++ (':' :: (type ++ (' ' :: (inversionStr c.chord.inversion ++ (" BASS=".toList ++ (bass ++
    (": ".toList ++ (posStr c.onset ++ ("--".toList ++ posStr c.offset))))))))))

/-- note.py:328-332 `Note.__str__`. -/
def noteStr (n : NoteObj) : Py Str := do
  let pitch ← pitchString n.pitchClass n.pitchType
  .ok (pitch ++ (intStr n.octave ++ (": ".toList ++ (posStr n.onset ++ ("--".toList ++ posStr n.offset)))))

/-- key.py:286-287 `Key.__str__`. -/
def keyStr (k : Key) : Py Str := do
  let tonic ← pitchString k.relativeTonic k.tonicType
  .ok (tonic ++ (' ' :: keyModeStr k.relativeMode))

/-- joint_model.py:1472-1475, 1598-1601, 1790-1793, 2012-2015: `"; ".join([str(chord) for chord in chords])`. -/
def chordsStr (cs : List SeriesChord) : Py Str := do
  let texts ← cs.mapM chordStr
  .ok (joinWith "; ".toList texts)

/-- `f"{field}={value}"`. -/
def fieldStr (f : Str × Str) : Str := f.1 ++ ('=' :: f.2)

/-- chord.py:397-399, note.py:324-326, key.py:282-284: `__repr__`, from the names and texts of the parameters. -/
def reprOf (cls : Str) (fields : List (Str × Str)) : Str :=
  cls ++ ('(' :: (joinWith [',', ' '] (fields.map fieldStr) ++ [')']))

/-- `str` of a suspension, which is a text or `None`. -/
def suspensionStr : Option Str → Str
  | none => "None".toList
  | some s => s

/-- chord.py:397-399 `Chord.__repr__`; the parameters are those of chord.py:42-57. -/
def chordRepr (c : SeriesChord) : Str :=
  reprOf "Chord".toList
    [("root".toList, intStr c.chord.root), ("bass".toList, intStr c.chord.bass),
     ("key_tonic".toList, intStr c.chord.keyTonic), ("key_mode".toList, keyModeStr c.chord.keyMode),
     ("chord_type".toList, chordTypeStr c.chord.chordType), ("inversion".toList, intStr c.chord.inversion),
     ("onset".toList, posStr c.onset), ("onset_level".toList, intStr c.chord.onsetLevel),
     ("offset".toList, posStr c.offset), ("offset_level".toList, intStr c.chord.offsetLevel),
     ("duration".toList, fracStr c.chord.duration), ("pitch_type".toList, pitchTypeStr c.chord.pitchType),
     ("suspension".toList, suspensionStr c.suspension)]

/-- note.py:324-326 `Note.__repr__`; the parameters are those of note.py:25-36. -/
def noteRepr (n : NoteObj) : Str :=
  reprOf "Note".toList
    [("pitch_class".toList, intStr n.pitchClass), ("octave".toList, intStr n.octave),
     ("onset".toList, posStr n.onset), ("onset_level".toList, intStr n.onsetLevel),
     ("duration".toList, fracStr n.duration), ("offset".toList, posStr n.offset),
     ("offset_level".toList, intStr n.offsetLevel), ("pitch_type".toList, pitchTypeStr n.pitchType),
     ("mc_onset".toList, fracStr n.mcOnset)]

/-- key.py:282-284 `Key.__repr__`; the parameters are those of key.py:31-40. -/
def keyRepr (k : Key) : Str :=
  reprOf "Key".toList
    [("relative_tonic".toList, intStr k.relativeTonic), ("local_tonic".toList, intStr k.localTonic),
     ("global_tonic".toList, intStr k.globalTonic), ("relative_mode".toList, keyModeStr k.relativeMode),
     ("local_mode".toList, keyModeStr k.localMode), ("global_mode".toList, keyModeStr k.globalMode),
     ("tonic_type".toList, pitchTypeStr k.tonicType)]

end Verif
