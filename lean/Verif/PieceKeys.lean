import Verif.FromSeries
import Verif.Piece

/-!
# The chords and keys of a piece

Model of the part of `get_score_piece_from_data_frames` (/repo/harmonic_inference/data/piece.py:653-746) that
makes the chords and keys from the table of chords. The notes at which they begin are in `Verif.Piece`.
-/

namespace Verif

/-- A row of `chords_df`, with the one more column that is compared in piece.py:711-721. -/
structure PieceRow where
  row : SeriesRow
  localIsMinor : Bool
  deriving DecidableEq

/-- The elements of a list where the mask is True. -/
def kept {γ : Type} (l : List γ) (mask : List Bool) : List γ := ((l.zip mask).filter (·.2)).map (·.1)

/-- numpy `l[mask]`: a mask of another length is an `IndexError`. -/
def npMask {γ : Type} (l : List γ) (mask : List Bool) : Py (List γ) :=
  if l.length = mask.length then .ok (kept l mask) else .error .indexError

/-- piece.py:711-721: the columns that are compared, with `fillna("-1")`. -/
def keyColumns (r : PieceRow) : Str × Bool × Bool × Str × Str :=
  (r.row.key.globalkey, r.row.key.globalIsMinor, r.localIsMinor, r.row.key.localkey,
    r.row.key.relativeroot.getD "-1".toList)

/-- piece.py:722-724: `changes.any(axis=1)`. The first row is compared to null values and has changed; each
other row is compared to the row before it. -/
def changedMask : List PieceRow → List Bool
  | [] => []
  | r :: rows => true :: List.zipWith (fun p n => !decide (keyColumns n = keyColumns p)) (r :: rows) rows

/-- piece.py:710-737: the keys and the indices of the chords where they begin, for the rows of the chords. -/
def pieceKeys (useRelative : Bool) (rows : List PieceRow) : Py (List Key × List Nat) := do
  let changes ← npMask (List.range rows.length) (changedMask rows)
  let keyRows ← npMask rows (changedMask rows)
  let keysList := keyRows.filterMap (fun r => keyFromSeries r.row.key .tpc)
  let mask := reductionMask (Key.equals useRelative) keysList
  let keys ← npMask keysList mask
  let changes ← npMask changes mask
  .ok (keys, changes)

/-- chord.py:327-360 `Chord.is_repeated`. -/
def SeriesChord.isRepeated (useInversion useSuspension : Bool) (c d : SeriesChord) : Bool :=
  decide (c.chord.pitchType = d.chord.pitchType) && decide (c.chord.root = d.chord.root) &&
    decide (c.chord.chordType = d.chord.chordType) &&
    (!useInversion || decide (c.chord.inversion = d.chord.inversion)) &&
    (!useSuspension || decide (c.suspension = d.suspension))

/-- chord.py:362-375 `Chord.merge_with`. -/
def SeriesChord.mergeWith (c d : SeriesChord) : SeriesChord :=
  { c with
    chord := { c.chord with
      offsetLevel := d.chord.offsetLevel
      duration := c.chord.duration + d.chord.duration }
    offset := d.offset }

/-- piece.py:685-690: the loop; the list is kept in reverse order, so that its head is `chords[-1]`. -/
def seriesMerge : List SeriesChord → List (SeriesChord × Bool) → Py (List SeriesChord)
  | acc, [] => .ok acc.reverse
  | acc, (c, true) :: l => seriesMerge (c :: acc) l
  | [], (_, false) :: _ => .error .indexError
  | a :: acc, (c, false) :: l => seriesMerge (a.mergeWith c :: acc) l

/-- piece.py:653-671: the chords that could be read, and their rows. -/
def readChords (T : List MeterRow) (red : Reduction) (useInv useRelative : Bool)
    (cache : Option LevelCache) (rows : List PieceRow) : List (SeriesChord × PieceRow) :=
  ((chordsFromTable T .tpc red useInv useRelative cache (rows.map (·.row))).1.zip rows).filterMap
    (fun x => x.1.map (fun c => (c, x.2)))

/-- piece.py:672-674: `np.squeeze` makes an array of one chord into an array without a length, and `len` of
it (piece.py:43) is a `TypeError`. -/
def squeezed {γ : Type} (l : List γ) : Py (List γ) :=
  if l.length = 1 then .error .typeError else .ok l

/-- The chords, keys and key changes of a piece. -/
structure PieceHarmony where
  chords : List SeriesChord
  keys : List Key
  keyChanges : List Nat
  deriving DecidableEq

/-- piece.py:653-746, as far as chords and keys are concerned. `cache`: as it is after the notes have been
read. -/
def pieceHarmony (T : List MeterRow) (red : Reduction) (useInv useRelative useSuspension : Bool)
    (cache : Option LevelCache) (rows : List PieceRow) : Py PieceHarmony := do
  let read ← squeezed (readChords T red useInv useRelative cache rows)
  let list := read.map (·.1)
  let mask := reductionMask (SeriesChord.isRepeated useInv useSuspension) list
  let chords ← seriesMerge [] (list.zip mask)
  let keptRows ← npMask (read.map (·.2)) mask
  let (keys, changes) ← pieceKeys useRelative keptRows
  .ok ⟨chords, keys, changes⟩

end Verif
