import Verif.FromSeries
import Verif.Piece

/-!
# Measures and notes of a MusicXML score

Model of `get_measures_df_from_music21_score` (/repo/harmonic_inference/data/piece.py:749-838) and of
`Note.from_music21` (/repo/harmonic_inference/data/note.py:428-520). What music21 gives is the input:
`measureOffsetMap()` as the list of its offsets (in quarter notes) and first measures, in its order, and the
first endings as pairs of measure numbers.
-/

namespace Verif

/-- An entry of `measureOffsetMap()`: its offset and, of the first measure at that offset, the number, the
length in quarter notes and the time signature if it has one. -/
structure XmlMeasure where
  offset : ℚ
  number : Int
  quarters : ℚ
  timeSig : Option (Int × Int)
  deriving DecidableEq

/-- A row of `measures_df`, without `mc` and `next`, which are given by its index. -/
structure XmlRow where
  mn : Int
  timeSig : Int × Int
  start : ℚ
  actDur : ℚ
  offset : ℚ
  deriving DecidableEq

/-- The variables of the loop. The rows are kept in reverse order, so that the head is the last one.
`ts_duration` is always the fraction of `time_signature`. -/
structure XmlState where
  timeSig : Int × Int
  epoch : ℚ
  skipped : ℚ
  rows : List XmlRow

/-- `Fraction(time_signature)`. -/
def sigDuration (s : Int × Int) : Py ℚ :=
  if s.2 = 0 then .error .zeroDivisionError else .ok ((s.1 : ℚ) / (s.2 : ℚ))

/-- piece.py:797-801. -/
def inFirstEnding (first : List (Int × Int)) (n : Int) : Bool :=
  first.any (fun e => decide (e.1 ≤ n) && decide (n < e.2 + 1))

/-- piece.py:806-814: the time signature and `ts_epoch`. -/
def newSig (s : XmlState) (mc : Nat) (start : ℚ) (m : XmlMeasure) : (Int × Int) × ℚ :=
  match m.timeSig with
  | some t => if t ≠ s.timeSig then (t, if mc ≠ 0 then start else s.epoch) else (s.timeSig, s.epoch)
  | none => (s.timeSig, s.epoch)

/-- piece.py:816-818: the length of the row before. -/
def closeLast (start : ℚ) : List XmlRow → List XmlRow
  | [] => []
  | r :: rs => { r with actDur := start - r.start } :: rs

/-- piece.py:793-825: the body of the loop. -/
def xmlStep (first : List (Int × Int)) (mc : Nat) (m : XmlMeasure) (s : XmlState) : Py XmlState :=
  if inFirstEnding first m.number then .ok { s with skipped := s.skipped + m.quarters / 4 }
  else do
    let start := m.offset / 4 - s.skipped
    let (sig, epoch) := newSig s mc start m
    let dur ← sigDuration sig
    let off ← fracMod (start - epoch) dur
    .ok ⟨sig, epoch, s.skipped, ⟨m.number, sig, start, m.quarters / 4, off⟩ :: closeLast start s.rows⟩

/-- piece.py:793-825: the loop. -/
def xmlLoop (first : List (Int × Int)) : Nat → List XmlMeasure → XmlState → Py XmlState
  | _, [], s => .ok s
  | mc, m :: ms, s => do
    let s ← xmlStep first mc m s
    xmlLoop first (mc + 1) ms s

/-- piece.py:749-838 `get_measures_df_from_music21_score`. Without rows the columns have different lengths
(`next` has one entry): `ValueError`. -/
def xmlMeasures (first : List (Int × Int)) (ms : List XmlMeasure) : Py (List XmlRow) := do
  let second ← pyGet ms 1
  let s ← xmlLoop first 0 ms ⟨(4, 4), second.offset / 4, 0, []⟩
  if s.rows = [] then .error .valueError else .ok s.rows.reverse

/-- piece.py:827-838: the table as it is used by `get_range_length`: `mc` counts the rows, `next` is the
next one. -/
def xmlTable (rows : List XmlRow) : List (Measure ℚ) :=
  rows.mapIdx (fun i r =>
    ⟨(i : Int), r.actDur, r.offset, if i + 1 < rows.length then some ((i : Int) + 1) else none⟩)

/-- note.py:477-479: the loop, from row `r` (the `i`-th one) with the rows after it. `next` is the next row
(piece.py:836). -/
def noteEnd : XmlRow → List XmlRow → Nat → ℚ → Nat × XmlRow × ℚ
  | r, [], i, tmp => (i, r, tmp)
  | r, r' :: rest, i, tmp =>
    if tmp ≥ r.actDur then noteEnd r' rest (i + 1) (tmp - r.actDur) else (i, r, tmp)

/-- The rhythmic attributes of a note made by `Note.from_music21`. -/
structure XmlNote where
  onset : Int × ℚ
  onsetLevel : Nat
  offset : Int × ℚ
  offsetLevel : Nat
  duration : ℚ
  mcOnset : ℚ
  deriving DecidableEq

/-- note.py:467-520, for a note (or the chord it belongs to) that begins `start` whole notes after the
beginning of its measure, the one in row `mc`. The cache is left out (see C78). -/
def xmlNote (rows : List XmlRow) (mc : Nat) (start duration : ℚ) : Py XmlNote := do
  let r ← pyGet rows mc
  let (i, r', tmp) := noteEnd r (rows.drop (mc + 1)) mc (duration + start - r.offset)
  let onsetBeat := start + r.offset
  let offsetBeat := tmp + r'.offset + r'.offset
  let onsetLevel ← metricalLevel onsetBeat r.timeSig.1 r.timeSig.2
  let offsetLevel ← metricalLevel offsetBeat r'.timeSig.1 r'.timeSig.2
  .ok ⟨(mc, onsetBeat), onsetLevel, (i, offsetBeat), offsetLevel, duration, onsetBeat - r.offset⟩

/-- chord.py:672-673: the last row that begins at a position or before it, with its index. -/
def lastStarting (rows : List XmlRow) (x : ℚ) : Py (Nat × XmlRow) :=
  match ((List.range rows.length).zip rows).reverse.find? (fun p => decide (p.2.start ≤ x)) with
  | some p => .ok p
  | none => .error .indexError

/-- chord.py:672-678: measure and beat of a position, and the row. -/
def labelPosition (rows : List XmlRow) (x : ℚ) : Py ((Int × ℚ) × XmlRow) := do
  let (i, r) ← lastStarting rows x
  .ok (((i : Int), r.offset + x - r.start), r)

/-- The metrical attributes of a chord from a label. -/
structure LabelTimes where
  onset : Int × ℚ
  onsetLevel : Nat
  offset : Int × ℚ
  offsetLevel : Nat
  duration : ℚ
  deriving DecidableEq

/-- chord.py:671-721: the metrical attributes of the chord for a label from `on` to `off`. -/
def labelTimes (rows : List XmlRow) (on off : ℚ) : Py LabelTimes := do
  let (p, r) ← labelPosition rows on
  let (q, r') ← labelPosition rows off
  let l ← metricalLevel p.2 r.timeSig.1 r.timeSig.2
  let l' ← metricalLevel q.2 r'.timeSig.1 r'.timeSig.2
  .ok ⟨p, l, q, l', off - on⟩

end Verif
