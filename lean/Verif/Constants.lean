import Verif.Py

/-!
# Constants and enumerations

`/repo/harmonic_inference/data/data_types.py` and
`/repo/harmonic_inference/utils/harmonic_constants.py`.
Strings are lists of characters.
-/

namespace Verif

/-- Python `str`, as the list of its characters. -/
abbrev Str := List Char

/-- data/data_types.py:20-32 `PitchType`. -/
inductive PitchType where
  | tpc | midi
  deriving DecidableEq, Repr

/-- data/data_types.py:35-46 `KeyMode` (values MAJOR = 0, MINOR = 1). -/
inductive KeyMode where
  | major | minor
  deriving DecidableEq, Repr

/-- `KeyMode.value`. -/
def KeyMode.value : KeyMode → Int
  | .major => 0
  | .minor => 1

/-- Iteration over the enum `KeyMode`. -/
def KeyMode.all : List KeyMode := [.major, .minor]

/-- data/data_types.py:49-70 `ChordType`, in increasing order of value. -/
inductive ChordType where
  | major | minor | diminished | augmented
  | majMaj7 | majMin7 | minMaj7 | minMin7
  | dim7 | halfDim7 | augMin7 | augMaj7
  deriving DecidableEq, Repr

/-- `ChordType.value`. -/
def ChordType.value : ChordType → Nat
  | .major => 0 | .minor => 1 | .diminished => 2 | .augmented => 3
  | .majMaj7 => 4 | .majMin7 => 5 | .minMaj7 => 6 | .minMin7 => 7
  | .dim7 => 8 | .halfDim7 => 9 | .augMin7 => 10 | .augMaj7 => 11

/-- Iteration over the enum `ChordType`. -/
def ChordType.all : List ChordType :=
  [.major, .minor, .diminished, .augmented, .majMaj7, .majMin7, .minMaj7, .minMin7,
   .dim7, .halfDim7, .augMin7, .augMaj7]

theorem ChordType.mem_all (t : ChordType) : t ∈ ChordType.all := by
  cases t <;> decide

/-- A chord type reduction: `Dict[ChordType, ChordType]` with an entry for every chord type
(as are all reductions of data/data_types.py:73-105). -/
abbrev Reduction := ChordType → ChordType

/-- data/data_types.py:73 `NO_REDUCTION`. -/
def noReduction : Reduction := id

/-- data/data_types.py:76-89 `TRIAD_REDUCTION`. -/
def triadReduction : Reduction
  | .major => .major | .minor => .minor | .diminished => .diminished | .augmented => .augmented
  | .majMaj7 => .major | .majMin7 => .major | .minMaj7 => .minor | .minMin7 => .minor
  | .dim7 => .diminished | .halfDim7 => .diminished | .augMin7 => .augmented
  | .augMaj7 => .augmented

/-- data/data_types.py:92-105 `ALL_ONE_TYPE_REDUCTION`. -/
def allOneTypeReduction : Reduction := fun _ => .major

/-- harmonic_constants.py:4-7 `TPC_C = int(5 / 2) * 7 + 1`. -/
def TPC_C : Int := 15

/-- harmonic_constants.py:10-13 `C`. -/
def pitchC : PitchType → Int
  | .tpc => TPC_C
  | .midi => 0

/-- harmonic_constants.py:29 `NUM_PITCHES` (7 * 5 and 12). -/
def NUM_PITCHES : PitchType → Int
  | .tpc => 35
  | .midi => 12

/-- harmonic_constants.py:16-27 and 51-53 `STRING_TO_PITCH`: upper and lower case letters.
`none` is a missing key. -/
def stringToPitch (pt : PitchType) (s : Str) : Option Int :=
  match s with
  | [c] =>
    match pt with
    | .tpc =>
      if c = 'A' ∨ c = 'a' then some (TPC_C + 3)
      else if c = 'B' ∨ c = 'b' then some (TPC_C + 5)
      else if c = 'C' ∨ c = 'c' then some TPC_C
      else if c = 'D' ∨ c = 'd' then some (TPC_C + 2)
      else if c = 'E' ∨ c = 'e' then some (TPC_C + 4)
      else if c = 'F' ∨ c = 'f' then some (TPC_C - 1)
      else if c = 'G' ∨ c = 'g' then some (TPC_C + 1)
      else none
    | .midi =>
      if c = 'C' ∨ c = 'c' then some 0
      else if c = 'D' ∨ c = 'd' then some 2
      else if c = 'E' ∨ c = 'e' then some 4
      else if c = 'F' ∨ c = 'f' then some 5
      else if c = 'G' ∨ c = 'g' then some 7
      else if c = 'A' ∨ c = 'a' then some 9
      else if c = 'B' ∨ c = 'b' then some 11
      else none
  | _ => none

/-- harmonic_constants.py:32-46 `PITCH_TO_STRING[MIDI]`. -/
def midiStrings : List Str :=
  [['C'], ['C', '#', '/', 'D', 'b'], ['D'], ['D', '#', '/', 'E', 'b'], ['E'], ['F'],
   ['F', '#', '/', 'G', 'b'], ['G'], ['G', '#', '/', 'A', 'b'], ['A'],
   ['A', '#', '/', 'B', 'b'], ['B']]

/-- harmonic_constants.py:47 `PITCH_TO_STRING[TPC]`, the inverse of the upper case part of
`STRING_TO_PITCH[TPC]` (keys 14..20). -/
def tpcStrings (p : Int) : Option Str :=
  if p = 14 then some ['F'] else if p = 15 then some ['C'] else if p = 16 then some ['G']
  else if p = 17 then some ['D'] else if p = 18 then some ['A'] else if p = 19 then some ['E']
  else if p = 20 then some ['B'] else none

/-- harmonic_constants.py:56-65 `SCALE_INTERVALS`. -/
def scaleIntervals : KeyMode → PitchType → List Int
  | .major, .tpc => [0, 0, 2, 4, -1, 1, 3, 5]
  | .major, .midi => [0, 0, 2, 4, 5, 7, 9, 11]
  | .minor, .tpc => [0, 0, 2, -3, -1, 1, -4, -2]
  | .minor, .midi => [0, 0, 2, 3, 5, 7, 8, 10]

/-- harmonic_constants.py:68 `ACCIDENTAL_ADJUSTMENT`. -/
def accidentalUnit : PitchType → Int
  | .tpc => 7
  | .midi => 1

/-- harmonic_constants.py:75-97 `SCALE_DEGREE_TO_NUMBER`. -/
def scaleDegreeToNumber (s : Str) : Option Nat :=
  if s = ['I'] ∨ s = ['i'] ∨ s = ['1'] then some 1
  else if s = ['I', 'I'] ∨ s = ['i', 'i'] ∨ s = ['2'] then some 2
  else if s = ['I', 'I', 'I'] ∨ s = ['i', 'i', 'i'] ∨ s = ['3'] then some 3
  else if s = ['I', 'V'] ∨ s = ['i', 'v'] ∨ s = ['4'] then some 4
  else if s = ['V'] ∨ s = ['v'] ∨ s = ['5'] then some 5
  else if s = ['V', 'I'] ∨ s = ['v', 'i'] ∨ s = ['6'] then some 6
  else if s = ['V', 'I', 'I'] ∨ s = ['v', 'i', 'i'] ∨ s = ['7'] then some 7
  else none

/-- harmonic_constants.py:100-109 `NUMBER_TO_SCALE_DEGREE` (keys 0..7). -/
def numberToScaleDegree : Nat → Option Str
  | 0 => some ['I']
  | 1 => some ['I']
  | 2 => some ['I', 'I']
  | 3 => some ['I', 'I', 'I']
  | 4 => some ['I', 'V']
  | 5 => some ['V']
  | 6 => some ['V', 'I']
  | 7 => some ['V', 'I', 'I']
  | _ => none

/-- `STRING_TO_PITCH[pitch_type]["C"]` etc. as used to build `CHORD_PITCHES`. -/
def letterC (pt : PitchType) : Int := match pt with | .tpc => TPC_C | .midi => 0
/-- `STRING_TO_PITCH[pitch_type]["E"]`. -/
def letterE (pt : PitchType) : Int := match pt with | .tpc => TPC_C + 4 | .midi => 4
/-- `STRING_TO_PITCH[pitch_type]["G"]`. -/
def letterG (pt : PitchType) : Int := match pt with | .tpc => TPC_C + 1 | .midi => 7
/-- `STRING_TO_PITCH[pitch_type]["B"]`. -/
def letterB (pt : PitchType) : Int := match pt with | .tpc => TPC_C + 5 | .midi => 11

/-- harmonic_constants.py:112-167 `CHORD_PITCHES`. -/
def chordPitches (pt : PitchType) : ChordType → List Int :=
  let a := accidentalUnit pt
  let c := letterC pt
  let e := letterE pt
  let g := letterG pt
  let b := letterB pt
  fun
  | .major => [c, e, g]
  | .minor => [c, e - a, g]
  | .diminished => [c, e - a, g - a]
  | .augmented => [c, e, g + a]
  | .majMaj7 => [c, e, g, b]
  | .majMin7 => [c, e, g, b - a]
  | .minMaj7 => [c, e - a, g, b]
  | .minMin7 => [c, e - a, g, b - a]
  | .dim7 => [c, e - a, g - a, b - 2 * a]
  | .halfDim7 => [c, e - a, g - a, b - a]
  | .augMaj7 => [c, e, g + a, b]
  | .augMin7 => [c, e, g + a, b - a]

/-- harmonic_constants.py:186 `CHORD_TYPE_TO_STRING`. -/
def chordTypeString : ChordType → Str
  | .major => ['M'] | .minor => ['m'] | .diminished => ['o'] | .augmented => ['+']
  | .majMaj7 => ['M', 'M', '7'] | .majMin7 => ['M', 'm', '7'] | .minMaj7 => ['m', 'M', '7']
  | .minMin7 => ['m', 'm', '7'] | .dim7 => ['o', '7'] | .halfDim7 => ['%', '7']
  | .augMin7 => ['+', '7'] | .augMaj7 => ['+', 'M', '7']

/-- harmonic_constants.py:170-190 `STRING_TO_CHORD_TYPE`, including the augmented sixth names
added after the inverse table was built. -/
def chordTypeTable : List (Str × ChordType) :=
  [(['M'], .major), (['m'], .minor), (['o'], .diminished), (['+'], .augmented),
   (['M', 'M', '7'], .majMaj7), (['M', 'm', '7'], .majMin7), (['m', 'M', '7'], .minMaj7),
   (['m', 'm', '7'], .minMin7), (['o', '7'], .dim7), (['%', '7'], .halfDim7),
   (['+', '7'], .augMin7), (['+', 'M', '7'], .augMaj7),
   (['I', 't'], .diminished), (['G', 'e', 'r'], .dim7), (['F', 'r'], .majMin7)]

/-- harmonic_constants.py:193 `FIGBASS_INVERSIONS`. -/
def figbassTable : List (Str × Int) :=
  [(['7'], 0), (['6'], 1), (['6', '5'], 1), (['4', '3'], 2), (['6', '4'], 2), (['2'], 3)]

/-- harmonic_constants.py:195-208 `CHORD_INVERSION_COUNT`. -/
def inversionCount : ChordType → Nat
  | .major => 3 | .minor => 3 | .diminished => 3 | .augmented => 3
  | .majMaj7 => 4 | .majMin7 => 4 | .minMaj7 => 4 | .minMin7 => 4
  | .dim7 => 4 | .halfDim7 => 4 | .augMin7 => 4 | .augMaj7 => 4

/-- harmonic_constants.py:211-218. -/
def MIN_RELATIVE_TPC : Int := -14
def MAX_RELATIVE_TPC : Int := 15
def RELATIVE_TPC_EXTRA : Int := 5
def MIN_KEY_CHANGE_INTERVAL_TPC : Int := -14
def MAX_KEY_CHANGE_INTERVAL_TPC : Int := 15

end Verif
