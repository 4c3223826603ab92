import Verif.ChordKey
import Verif.Rhythm

/-!
# Chords and keys from the rows of a table

Model of `Key.from_series` and `Chord.from_series` in /repo/harmonic_inference/data/key.py and chord.py. A
time signature is given as its two numbers. The argument `key` of `Chord.from_series` is never passed in the
project (piece.py:657-668) and is left out.
-/

namespace Verif

/-- The columns read by `Key.from_series`; `none` is a null value. -/
structure KeyRow where
  globalkey : Str
  globalIsMinor : Bool
  localkey : Str
  relativeroot : Option Str
  deriving DecidableEq

/-- key.py:317-343: the body of the `try`. -/
def keyOfRow (row : KeyRow) (pt : PitchType) : Py Key := do
  let globalTonic ← pitchFromString row.globalkey pt
  let globalMode := if row.globalIsMinor then KeyMode.minor else .major
  let (localTonic, localMode) ← decodeRelativeKeys row.localkey globalTonic globalMode pt
  let (relativeTonic, relativeMode) ←
    match row.relativeroot with
    | some r => decodeRelativeKeys r localTonic localMode pt
    | none => .ok (localTonic, localMode)
  .ok ⟨relativeTonic, localTonic, globalTonic, relativeMode, localMode, globalMode, pt⟩

/-- A function that logs all exceptions and returns None. -/
def orNone {α : Type} : Py α → Option α
  | .ok a => some a
  | .error _ => none

/-- key.py:290-348 `Key.from_series`. -/
def keyFromSeries (row : KeyRow) (pt : PitchType) : Option Key := orNone (keyOfRow row pt)

/-- The columns read by `Chord.from_series`. -/
structure SeriesRow where
  key : KeyRow
  numeral : Option Str
  root : Int
  chordType : Str
  figbass : Option Str
  mc : Int
  onset : ℚ
  mcNext : Int
  onsetNext : ℚ
  duration : ℚ
  changes : Option Str
  deriving DecidableEq

/-- The columns of `measures_df` that are read: the number and the time signature. -/
structure MeterRow where
  mc : Int
  num : Int
  den : Int
  deriving DecidableEq

/-- A `Chord` with its positions and its suspension. -/
structure SeriesChord where
  chord : Chord ℚ
  onset : Int × ℚ
  offset : Int × ℚ
  suspension : Option Str
  deriving DecidableEq

/-- The cache of metrical levels. The dictionaries of chord.py:533-538 are one dictionary whose keys are a
time signature and a beat. -/
abbrev LevelCache := List ((Int × Int × ℚ) × Nat)

/-- chord.py:529: `measures_df.loc[measures_df["mc"] == mc].squeeze()`. With no row or with several rows the
result is not a row, and reading its time signature or its level fails. -/
def meterOf (T : List MeterRow) (mc : Int) : Py MeterRow :=
  match T.filter (fun m => decide (m.mc = mc)) with
  | [m] => .ok m
  | _ => .error .attributeError

/-- chord.py:531-539: the level of a beat and the cache afterwards. -/
def levelCached (cache : Option LevelCache) (beat : ℚ) (m : MeterRow) : Py Nat × Option LevelCache :=
  match cache with
  | none => (metricalLevel beat m.num m.den, none)
  | some c =>
    match c.lookup (m.num, m.den, beat) with
    | some l => (.ok l, some c)
    | none =>
      match metricalLevel beat m.num m.den with
      | .error e => (.error e, some c)
      | .ok l => (.ok l, some (((m.num, m.den, beat), l) :: c))

/-- chord.py:523-542: the body of the loop. -/
def levelAt (T : List MeterRow) (cache : Option LevelCache) (mc : Int) (beat : ℚ) :
    Py Nat × Option LevelCache :=
  match meterOf T mc with
  | .error e => (.error e, cache)
  | .ok m => levelCached cache beat m

/-- chord.py:518: `assert 0 <= bass < NUM_PITCHES[pitch_type]`. The
`AssertionError` is kept as a `ValueError`; both are caught. -/
def assertPitch (p : Int) (pt : PitchType) : Py Unit :=
  if 0 ≤ p ∧ p < NUM_PITCHES pt then .ok () else .error .valueError

/-- What chord.py:492-518 computes. -/
structure SeriesHarmony where
  key : Key
  root : Int
  bass : Int
  chordType : ChordType
  inversion : Int

/-- chord.py:500-503. -/
def rowInterval (i : Int) : PitchType → Int
  | .midi => tpcIntervalToMidiInterval i
  | .tpc => i

/-- chord.py:512. -/
def rowInversion (figbass : Option Str) (useInv : Bool) : Py Int :=
  if useInv then chordInversion figbass else .ok 0

/-- chord.py:492-518. `Key.from_series` returns None if it fails, and `key.local_tonic` is then an
`AttributeError`. -/
def seriesHarmony (row : SeriesRow) (pt : PitchType) (red : Reduction) (useInv : Bool) : Py SeriesHarmony :=
  match keyFromSeries row.key pt with
  | none => .error .attributeError
  | some key => do
    let root ← transposePitch key.localTonic (rowInterval row.root pt) pt
    let ct ← chordTypeFromString row.chordType
    let inv ← rowInversion row.figbass useInv
    let inv := inv % ((chordPitches pt (red ct)).length : Int)
    let bass ← bassNote (red ct) root inv pt false
    let _ ← assertPitch bass pt
    .ok ⟨key, root, bass, red ct, inv⟩

/-- chord.py:546-564: the chord. -/
def seriesResult (row : SeriesRow) (pt : PitchType) (useRelative : Bool) (h : SeriesHarmony) (l1 l2 : Nat) :
    SeriesChord :=
  { chord :=
      { root := h.root
        bass := h.bass
        keyTonic := if useRelative then h.key.relativeTonic else h.key.localTonic
        keyMode := if useRelative then h.key.relativeMode else h.key.localMode
        chordType := h.chordType
        inversion := h.inversion
        onsetLevel := l1
        offsetLevel := l2
        duration := row.duration
        pitchType := pt }
    onset := (row.mc, row.onset)
    offset := (row.mcNext, row.onsetNext)
    suspension := row.changes }

/-- chord.py:520-568: the rhythmic part, and the result. An exception gives None, but what has been put into
the cache stays there. -/
def seriesLevels (T : List MeterRow) (cache : Option LevelCache) (row : SeriesRow) (pt : PitchType)
    (useRelative : Bool) (h : SeriesHarmony) : Option SeriesChord × Option LevelCache :=
  match levelAt T cache row.mc row.onset with
  | (.error _, cache) => (none, cache)
  | (.ok l1, cache) =>
    match levelAt T cache row.mcNext row.onsetNext with
    | (.error _, cache) => (none, cache)
    | (.ok l2, cache) => (some (seriesResult row pt useRelative h l1 l2), cache)

/-- chord.py:421-568 `Chord.from_series`: the chord or None, and the cache afterwards. -/
def chordFromSeries (T : List MeterRow) (pt : PitchType) (red : Reduction) (useInv useRelative : Bool)
    (cache : Option LevelCache) (row : SeriesRow) : Option SeriesChord × Option LevelCache :=
  if row.numeral = some "@none".toList ∨ row.numeral = none then (none, cache)
  else
    match seriesHarmony row pt red useInv with
    | .error _ => (none, cache)
    | .ok h => seriesLevels T cache row pt useRelative h

/-- piece.py:653-668: the rows of a table, one after another, with one cache. -/
def chordsFromTable (T : List MeterRow) (pt : PitchType) (red : Reduction) (useInv useRelative : Bool) :
    Option LevelCache → List SeriesRow → List (Option SeriesChord) × Option LevelCache
  | cache, [] => ([], cache)
  | cache, row :: rest =>
    let (c, cache) := chordFromSeries T pt red useInv useRelative cache row
    let (cs, cache) := chordsFromTable T pt red useInv useRelative cache rest
    (c :: cs, cache)

end Verif
