import Verif.MusicXml

/-!
# Keys and chords from the labels of MusicXML scores

Model of `Key.from_labels_csv_row` (/repo/harmonic_inference/data/key.py:351-479) and
`Chord.from_labels_csv_row` (/repo/harmonic_inference/data/chord.py:571-726). The argument `key` of the second
one is never passed in the project (piece.py:985) and is left out. The cache of levels is left out (see C78).
-/

namespace Verif

/-- The columns of a label. -/
structure CsvLabel where
  on : ℚ
  off : ℚ
  key : Str
  degree : Str
  type : Str
  inv : Int
  deriving DecidableEq

/-- `s.replace("-", "b")` and then `.replace("+", "#")`. -/
def unAscii (s : Str) : Str := s.map (fun c => if c = '-' then 'b' else if c = '+' then '#' else c)

/-- `old in s`. -/
def containsSub (old : Str) : Str → Bool
  | [] => old.isEmpty
  | c :: rest => old.isPrefixOf (c :: rest) || containsSub old rest

/-- `s.replace(old, new)` for a non-empty `old`; the number counts the characters that are left of the last
match. -/
def replaceSub (old new : Str) : Nat → Str → Str
  | _, [] => []
  | k + 1, _ :: rest => replaceSub old new k rest
  | 0, c :: rest =>
    if old.isPrefixOf (c :: rest) then new ++ replaceSub old new (old.length - 1) rest
    else c :: replaceSub old new 0 rest

/-- key.py:408-412, chord.py:651-655: a seventh in a minor key is the raised one. -/
def fixSeven (mode : KeyMode) (s : Str) : Str :=
  if mode = .minor ∧ '7' ∈ s then
    match s with
    | c :: rest => if c = 'b' then rest else '#' :: s
    | [] => s
  else s

/-- key.py:415-416, chord.py:658-659: too many sharps on a sixth in a minor key. -/
def fixSix (old new : Str) (mode : KeyMode) (s : Str) : Str :=
  if mode = .minor ∧ containsSub old s = true then replaceSub old new 0 s else s

/-- key.py:433-448: the mode on a relative root in a major key. -/
def relativeModesMajor : List (Str × KeyMode) :=
  [("1".toList, .major), ("#1".toList, .minor), ("b2".toList, .major), ("2".toList, .minor),
   ("b3".toList, .major), ("3".toList, .minor), ("b4".toList, .minor), ("4".toList, .major),
   ("#4".toList, .major), ("5".toList, .major), ("#5".toList, .major), ("6".toList, .minor),
   ("b7".toList, .major), ("7".toList, .minor)]

/-- key.py:453-467: the mode on a relative root in a minor key. -/
def relativeModesMinor : List (Str × KeyMode) :=
  [("b1".toList, .major), ("1".toList, .minor), ("b2".toList, .major), ("2".toList, .minor),
   ("3".toList, .major), ("b4".toList, .minor), ("4".toList, .minor), ("b5".toList, .minor),
   ("5".toList, .minor), ("6".toList, .major), ("b7".toList, .minor), ("7".toList, .major),
   ("#7".toList, .major)]

/-- key.py:431-469. -/
def relativeMode (mode : KeyMode) (root : Str) : Py KeyMode :=
  match (match mode with | .major => relativeModesMajor | .minor => relativeModesMinor).lookup root with
  | some m => .ok m
  | none => .error .valueError

/-- key.py:405-416: the relative root that is looked up. -/
def relativeRoot (mode : KeyMode) (root : Str) : Str :=
  fixSix "#6".toList "6".toList mode (fixSeven mode root)

/-- key.py:404-469: tonic and mode of the relative key. -/
def relativeKeyOf (tonic : Int) (mode : KeyMode) (root : Str) (pt : PitchType) : Py (Int × KeyMode) := do
  let iv ← intervalFromScaleDegree (relativeRoot mode root) true mode pt
  let t ← transposePitch tonic iv pt
  let m ← relativeMode mode (relativeRoot mode root)
  .ok (t, m)

/-- key.py:384-387: the mode of the local key, by the case of the first letter (there is one: line 386 has
read it). -/
def labelMode (s : Str) : KeyMode :=
  match s with
  | c :: _ => if c.isUpper then .major else .minor
  | [] => .minor

/-- key.py:401-405: the parts of a degree. Three or more cannot be unpacked. -/
def relativeOrLocal (tonic : Int) (mode : KeyMode) (parts : List Str) (pt : PitchType) : Py (Int × KeyMode) :=
  match parts with
  | [_, root] => relativeKeyOf tonic mode root pt
  | [_] => .ok (tonic, mode)
  | _ => .error .valueError

/-- key.py:351-479 `Key.from_labels_csv_row`; `g` is the tonic and mode of `global_key`. -/
def labelKey (row : CsvLabel) (pt : PitchType) (g : Option (Int × KeyMode)) : Py Key := do
  let s := unAscii row.key
  let tonic ← pitchFromString s pt
  let mode := labelMode s
  let (relTonic, relMode) ← relativeOrLocal tonic mode (splitSlash (unAscii row.degree)) pt
  let (globTonic, globMode) := g.getD (tonic, mode)
  .ok ⟨relTonic, tonic, globTonic, relMode, mode, globMode, pt⟩

/-- chord.py:629-642. -/
def labelTypes : List (Str × ChordType) :=
  [("D7".toList, .majMin7), ("M".toList, .major), ("M7".toList, .majMaj7), ("d".toList, .diminished),
   ("a".toList, .augmented), ("d7".toList, .dim7), ("m".toList, .minor), ("m7".toList, .minMin7),
   ("Gr+6".toList, .major), ("Fr+6".toList, .major), ("It+6".toList, .major), ("h7".toList, .halfDim7)]

/-- chord.py:629-642: a `KeyError` for other types. -/
def labelType (s : Str) : Py ChordType :=
  match labelTypes.lookup s with
  | some t => .ok t
  | none => .error .keyError

/-- chord.py:644-659: the degree that is looked up. -/
def labelDegree (mode : KeyMode) (degree : Str) : Str :=
  fixSix "##6".toList "#6".toList mode (fixSeven mode ((splitSlash (unAscii degree)).headD []))

/-- chord.py:667-672. -/
def labelInversion (row : CsvLabel) (t : ChordType) : Int :=
  (if row.type ∈ ["Gr+6".toList, "Fr+6".toList, "It+6".toList] then 0 else row.inv) %
    ((chordPitches .tpc t).length : Int)

/-- chord.py:571-726 `Chord.from_labels_csv_row`. -/
def labelChord (rows : List XmlRow) (pt : PitchType) (red : Reduction) (useInv useRelative : Bool)
    (row : CsvLabel) : Py SeriesChord := do
  let key ← labelKey row pt none
  let t ← labelType row.type
  let iv ← intervalFromScaleDegree (labelDegree key.relativeMode row.degree) true key.relativeMode pt
  let root ← transposePitch key.relativeTonic iv pt
  let times ← labelTimes rows row.on row.off
  let bass ← bassNote t root (labelInversion row t) pt true
  .ok { chord :=
          { root := root
            bass := bass
            keyTonic := if useRelative then key.relativeTonic else key.localTonic
            keyMode := if useRelative then key.relativeMode else key.localMode
            chordType := red t
            inversion := if useInv then labelInversion row t else 0
            onsetLevel := times.onsetLevel
            offsetLevel := times.offsetLevel
            duration := times.duration
            pitchType := pt }
        onset := times.onset
        offset := times.offset
        suspension := none }

end Verif
