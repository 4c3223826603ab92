import Verif.Vectors
import Verif.Piece
import Verif.Forced

/-!
# Datasets

Model of padding, h5 files, item numbering, key datasets and splits in
/repo/harmonic_inference/data/datasets.py. Rows of inputs are of an abstract type with a row of zeros,
unless they are built here. Rounding to float16 is outside of the model.
-/

namespace Verif

/-! ## Padding and h5 files -/

/-- `max` of a list of lengths with at least one element. -/
def maxLength (lengths : List Nat) : Nat := lengths.foldl max 0

/-- `np.zeros(n); z[:len(item)] = item`, for `len(item) <= n`. -/
def padTo {α : Type} (zero : α) (n : Nat) (item : List α) : List α :=
  item ++ List.replicate (n - item.length) zero

/-- datasets.py:1148-1179 `pad_array`; `max` of an empty list is a `ValueError`. All rows have the same
shape. -/
def padArray {α : Type} (zero : α) (array : List (List α)) : Py (List (List α) × List Nat) :=
  let lengths := array.map List.length
  if lengths = [] then .error .valueError
  else .ok (array.map (padTo zero (maxLength lengths)), lengths)

/-- The body of the loop of datasets.py:1116-1127. -/
def loadChunk {α : Type} (padded : List (List α)) (lengths : List Nat) (size start : Nat) :
    List (List α) :=
  let chunk := (padded.drop start).take size
  let chunkLengths := (lengths.drop start).take size
  (chunk.zip chunkLengths).map fun (item, length) => item.take length

/-- `range(start, stop, step)` for a positive step, at most `fuel` elements. -/
def rangeStep (start stop step : Nat) : (fuel : Nat) → List Nat
  | 0 => []
  | fuel + 1 => if start < stop then start :: rangeStep (start + step) stop step fuel else []

/-- datasets.py:1113-1130, inputs or targets with lengths in `h5_to_dataset`; `size` is the chunk
size. -/
def loadLists {α : Type} (padded : List (List α)) (lengths : List Nat) (size : Nat) : List (List α) :=
  (rangeStep 0 lengths.length size lengths.length).flatMap (loadChunk padded lengths size)

/-- What datasets.py:224-250 (`pad`) and 252-297 (`to_h5`) write of the inputs, and what
datasets.py:1070-1145 (`h5_to_dataset`) reads of it. `itemLengths`: the lengths held by the dataset if it
does not save those of the padding (`save_padded_input_lengths=False`), as the key datasets. -/
def h5RoundTrip {α : Type} (zero : α) (inputs : List (List α)) (itemLengths : Option (List Nat))
    (size : Nat) : Py (List (List α)) := do
  let (padded, lengths) ← padArray zero inputs
  .ok (loadLists padded (itemLengths.getD lengths) size)

/-- datasets.py:197-210, the inputs of an item of a `HarmonicDataset` with lengths in memory: padded to the
greatest length. -/
def paddedItem {α : Type} (zero : α) (inputs : List (List α)) (lengths : List Nat) (item : Int) :
    Py (List α × Nat) := do
  let x ← pyGet inputs item
  let n ← pyGet lengths item
  .ok (padTo zero (maxLength lengths) x, n)

/-! ## Item numbering -/

/-- datasets.py:455-456 `ChordClassificationDataset.__len__`. -/
def transposedLength (items lo hi : Int) : Int := items * (hi - lo + 1)

/-- datasets.py:458-462 `ChordClassificationDataset.__getitem__`: the item and the transposition. -/
def transposedItem (lo hi item : Int) : Py (Int × Int) :=
  let n := hi - lo + 1
  if n = 0 then .error .zeroDivisionError else .ok (item.fdiv n, lo + item.fmod n)

/-- The loop of datasets.py:817-821. -/
def getPieceIndexFrom (pieceIdx : Nat) : List Nat → Int → Py (Nat × Bool)
  | [], _ => .error .valueError
  | n :: rest, item =>
    if item < n then .ok (pieceIdx, decide (item > 0)) else getPieceIndexFrom (pieceIdx + 1) rest (item - n)

/-- datasets.py:793-821 `get_piece_index`. -/
def getPieceIndex (pieceLengths : List Nat) (item : Int) : Py (Nat × Bool) :=
  getPieceIndexFrom 0 pieceLengths item

/-! ## Items of the key datasets -/

/-- The contents of a `KeyHarmonicDataset` in memory. -/
structure KeyData (α : Type) where
  /-- a `KeyTransitionDataset`, otherwise a `KeySequenceDataset` -/
  transitions : Bool
  inputs : List (List α)
  inputLengths : List Nat
  pieceLengths : List Nat
  replacements : List α
  targets : List Int

/-- What `__getitem__` returns. -/
structure KeyItem (α : Type) where
  inputs : List α
  inputLength : Nat
  targets : List Int
  deriving DecidableEq

/-- `x[i] = y` for a numpy array and `0 <= i`. -/
def setRow {α : Type} (x : List α) (i : Nat) (y : α) : Py (List α) :=
  if i < x.length then .ok (x.set i y) else .error .indexError

/-- datasets.py:843-846: the input that is written to, a copy if it is shorter than the greatest length. -/
def pieceInputOf {α : Type} (zero : α) (x : List α) (maxLen : Nat) : List α :=
  if x.length < maxLen then padTo zero (maxLen + 1) x else x

/-- datasets.py:848-855. The targets of a `KeyTransitionDataset` have one entry for each row. -/
def keyTargets (transitions : Bool) (n start length : Nat) (target : Int) : Py (List Int) :=
  if transitions then
    let ts := (List.range n).map fun i => if start + 1 ≤ i ∧ i < length then (0 : Int) else -100
    if target = 1 then setRow ts length target else .ok ts
  else .ok [target]

/-- datasets.py:857-860. -/
def replaceLast {α : Type} (transitions : Bool) (x : List α) (length : Nat) (target : Int) (y : α) :
    Py (List α × Nat) :=
  if target = 1 ∨ transitions = false then (setRow x length y).map fun x' => (x', length + 1)
  else .ok (x, length)

/-- The dataset after a read: a piece which was not copied has been written to. -/
def KeyData.afterRead {α : Type} (d : KeyData α) (pieceIdx : Nat) (old new : List α) (maxLen : Nat) :
    KeyData α :=
  if old.length < maxLen then d else { d with inputs := d.inputs.set pieceIdx new }

/-- datasets.py:792-868 `KeyHarmonicDataset.__getitem__` in memory, before `finalize_data`, together with
the dataset after the call. -/
def KeyData.getItem {α : Type} (zero : α) (d : KeyData α) (item : Int) : Py (KeyItem α × KeyData α) := do
  let (pieceIdx, prev) ← getPieceIndex d.pieceLengths item
  let pieceInput ← pyGet d.inputs pieceIdx
  let inputLength ← pyGet d.inputLengths item
  let start ← if prev then pyGet d.inputLengths (item - 1) else .ok 0
  let maxLen := maxLength d.inputLengths
  let replacement ← pyGet d.replacements item
  let target ← pyGet d.targets item
  let x := pieceInputOf zero pieceInput maxLen
  let targets ← keyTargets d.transitions x.length start inputLength target
  let (x', length') ← replaceLast d.transitions x inputLength target replacement
  .ok (⟨x', length', targets⟩, d.afterRead pieceIdx pieceInput x' maxLen)

/-- What the constructors add for one piece. -/
structure PieceData (α : Type) where
  rows : List α
  lengths : List Nat
  replacements : List α
  targets : List Int

/-- The lists built by the constructors, datasets.py:920-971 and 1018-1067. -/
def keyData {α : Type} (transitions : Bool) (pieces : List (PieceData α)) : KeyData α where
  transitions := transitions
  inputs := pieces.map (·.rows)
  inputLengths := pieces.flatMap (·.lengths)
  pieceLengths := pieces.map (·.lengths.length)
  replacements := pieces.flatMap (·.replacements)
  targets := pieces.flatMap (·.targets)

/-! ## Constructors of the key datasets -/

/-- What the datasets use of a piece: chords, indices of key changes and keys. -/
structure KeyedPiece where
  chords : List (Chord ℚ)
  keyChanges : List Nat
  keys : List Key

/-- A key with the key before it and the range of its chords. -/
structure KeySegment where
  prev : Option Key
  key : Key
  start : Nat
  stop : Nat

/-- `zip(prevs, keys, starts, stops)`. -/
def keySegments (prevs : List (Option Key)) (keys : List Key) (starts stops : List Nat) : List KeySegment :=
  (((prevs.zip keys).zip starts).zip stops).map fun (((p, k), a), b) => ⟨p, k, a, b⟩

/-- The change that is written to row `j` of a segment. -/
def KeySegment.changeAt (s : KeySegment) (j : Nat) : Option (Key × Key) :=
  if j = 0 then s.prev.map fun p => (p, s.key) else none

/-- datasets.py:663-671, 948-953, 966, 968, 1044-1050 and 1061-1064: the rows of the chords of one key. `np.vstack` of no
vectors is a `ValueError`. Which of several exceptions is raised first is not modelled. The chord sequence dataset does not
pad the relative pitches, the key datasets do. -/
def KeySegment.rows (s : KeySegment) (chords : List (Chord ℚ)) (tt : PitchType) (pad : Bool) :
    Py (List (List ℚ)) :=
  let part := slice chords s.start s.stop
  if part.isEmpty then .error .valueError
  else part.zipIdx.mapM fun (c, j) => sequenceRow c tt (s.changeAt j) pad

/-- datasets.py:956-961: the chord after the change, relative to the key before it. -/
def KeySegment.replacement (s : KeySegment) (chords : List (Chord ℚ)) (tt : PitchType) : Py (List ℚ) := do
  let c ← pyGet chords s.stop
  let v ← c.toVec (some s.key) true noReduction
  .ok (v ++ zeros (1 + keyChangeVectorLength tt false))

/-- datasets.py:955-964: zeros (as many as in the row `first`) after the last key. -/
def KeySegment.replacementOrZeros (s : KeySegment) (chords : List (Chord ℚ)) (tt : PitchType)
    (rows : List (List ℚ)) : Py (List ℚ) :=
  if s.stop ≠ chords.length then s.replacement chords tt
  else (pyGet rows 0).map fun first => zeros first.length

/-- datasets.py:927-968, one piece of a `KeyTransitionDataset`. -/
def transitionPiece (x : KeyedPiece) : Py (PieceData (List ℚ)) := do
  let first ← pyGet x.keys 0
  let tt := first.tonicType
  let segments := keySegments (none :: x.keys.dropLast.map some) x.keys x.keyChanges
    (x.keyChanges.drop 1 ++ [x.chords.length])
  let rows ← segments.mapM fun s => s.rows x.chords tt true
  let reps ← (segments.zip rows).mapM fun (s, r) => s.replacementOrZeros x.chords tt r
  .ok { rows := rows.flatten, lengths := x.keyChanges.drop 1 ++ [x.chords.length], replacements := reps,
        targets := List.replicate (x.keys.length - 1) 1 ++ [0] }

/-- datasets.py:1025-1064, one piece of a `KeySequenceDataset`; pieces with one key are left out
(`none`). -/
def sequencePiece (x : KeyedPiece) : Py (Option (PieceData (List ℚ))) := do
  let first ← pyGet x.keys 0
  let tt := first.tonicType
  if x.keys.length ≤ 1 then .ok none
  else do
    let segments := keySegments (none :: x.keys.dropLast.dropLast.map some) x.keys.dropLast
      x.keyChanges.dropLast (x.keyChanges.drop 1)
    let rows ← segments.mapM fun s => s.rows x.chords tt true
    let reps ← segments.mapM fun s => s.replacement x.chords tt
    let targets ← (x.keys.zip (x.keys.drop 1)).mapM fun (a, b) => a.changeOneHot b
    .ok (some { rows := rows.flatten, lengths := x.keyChanges.drop 1, replacements := reps,
                targets := targets })

/-! ## Splits -/

/-- Python's `round` of a rational: to the nearest integer, ties to the even one. -/
def pyRound (q : ℚ) : Int :=
  let f := q.floor
  let r := q - f
  if r < 1 / 2 then f else if r > 1 / 2 then f + 1 else if f % 2 = 0 then f else f + 1

/-- datasets.py:1274-1283: the elements of one part. -/
def splitPart {α : Type} (l : List α) (start stop : Int) : Py (List α) :=
  if stop - start = 0 then .ok []
  else if stop - start = 1 then (pyGet l start).map (fun a => [a])
  else .ok (pySlice l start stop)

/-- datasets.py:1268-1283: the parts of a list, one after the other; `prop` is the sum of the proportions
so far. -/
def splitFrom {α : Type} (l : List α) (prop : ℚ) : List ℚ → Py (List (List α))
  | [] => .ok []
  | s :: rest => do
    let part ← splitPart l (pyRound (prop * l.length)) (pyRound ((prop + s) * l.length))
    let parts ← splitFrom l (prop + s) rest
    .ok (part :: parts)

/-- datasets.py:1212-1285 `get_split_file_ids_and_pieces`: `ids` are the file ids, `parse` gives the piece of
an id (`none` for missing data and exceptions), `shuffled` is the result of shuffling the positions.
Proportions are rationals; the failing `assert sum(splits) != 0` is a `valueError` here. -/
def splitPieces {ι π : Type} (ids : List ι) (parse : ι → Option π) (shuffled : List Nat)
    (splits : List ℚ) : Py (List (List ι) × List (List π)) := do
  Forced.raiseIf (splits.sum = 0) .valueError
  let splits := splits.map (· / splits.sum)
  let indexes := ids.filter fun i => (parse i).isSome
  let pieces := ids.filterMap parse
  let pieces ← shuffled.mapM fun i => pyGet pieces (i : Nat)
  let indexes ← shuffled.mapM fun i => pyGet indexes (i : Nat)
  let splitP ← splitFrom pieces 0 splits
  let splitI ← splitFrom indexes 0 splits
  .ok (splitI, splitP)

end Verif
