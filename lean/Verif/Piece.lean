import Verif.Corpus
import Verif.Forces

/-!
# Pieces

Model of /repo/harmonic_inference/data/piece.py. Times are elements of a type with a decidable order
(pairs of a measure and a beat, compared in lexicographic order).
-/

namespace Verif

/-- Python `l[start:stop]`. -/
def pySlice {α : Type} (l : List α) (start stop : Int) : List α :=
  let clamp (i : Int) : Nat :=
    if i < 0 then (i + l.length).toNat else min i.toNat l.length
  (l.take (clamp stop)).drop (clamp start)

/-- `max(...)` of times; an empty list raises `ValueError`. -/
def maxTime {τ : Type} [LT τ] [DecidableLT τ] : List τ → Py τ
  | [] => .error .valueError
  | a :: l => .ok (l.foldl (fun m x => if m < x then x else m) a)

/-- piece.py:430-432 and 478-482: the end of the piece. -/
def lastOffset {τ : Type} [LT τ] [DecidableLT τ] (chordOffsets : Option (List τ)) (noteOffsets : List τ) :
    Py τ :=
  match chordOffsets with
  | some l => pyGet l (-1)
  | none => maxTime noteOffsets

/-- piece.py:424-448 `get_duration_cache`, for the onsets of the notes and the end of the piece. -/
def durationCache {δ : Type} [Add δ] [Sub δ] [Neg δ] [LT δ] [DecidableLT δ] (T : List (Measure δ))
    (onsets : List (Int × δ)) (last : Int × δ) : Py (List δ) :=
  mapPy (fun (p : (Int × δ) × (Int × δ)) => getRangeLength T p.1 p.2)
    (onsets.zip (onsets.drop 1 ++ [last]))

/-- piece.py:697-698: the inner loop. The first argument bounds the number of rounds (the number of notes
is enough). -/
def advance {τ : Type} [LT τ] [DecidableLT τ] (onsets : List τ) (x : τ) : Nat → Nat → Nat
  | 0, i => i
  | fuel + 1, i =>
    match onsets[i]? with
    | some y => if i + 1 < onsets.length ∧ y < x then advance onsets x fuel (i + 1) else i
    | none => i

/-- piece.py:694-699: the index of the note at which each chord begins. -/
def chordChanges {τ : Type} [LT τ] [DecidableLT τ] (onsets : List τ) : Nat → List τ → List Nat
  | _, [] => []
  | i, x :: xs =>
    let j := advance onsets x onsets.length i
    j :: chordChanges onsets j xs

/-- piece.py:165-185 `get_range_start`, for the onsets and offsets of the notes. -/
def rangeStart {τ : Type} [LE τ] [LT τ] [DecidableLE τ] [DecidableLT τ] (onset : τ) (notes : List (τ × τ)) :
    Nat :=
  notes.findIdx (fun n => decide (onset ≤ n.1) || decide (onset < n.2))

/-- piece.py:702-705: the note ranges of the chords. -/
def pieceChordRanges {τ : Type} [LE τ] [LT τ] [DecidableLE τ] [DecidableLT τ] (notes : List (τ × τ))
    (chords : List τ) : List (Nat × Nat) :=
  let changes := chordChanges (notes.map (·.1)) 0 chords
  (chords.zip (changes.drop 1 ++ [notes.length])).map (fun (x, e) => (rangeStart x notes, e))

/-- piece.py:252-290 `get_chords_within_range`. `stop < start` fails an assertion: `AssertionError`, here
`valueError`. `bisect_left(..., lo=max(start_index, 0))`. -/
def chordsWithinRange {γ : Type} (chords : List γ) (changes : List Int) (start : Int) (stop : Option Int) :
    Py (List γ) :=
  match stop with
  | some e => if e < start then .error .valueError else .ok (body (some e))
  | none => .ok (body none)
where
  body (stop : Option Int) : List γ :=
    let b := bisectLeft changes start
    let startIndex : Int := if changes[b]? = some start then (b : Int) else (b : Int) - 1
    match stop with
    | none => pySlice chords startIndex chords.length
    | some e =>
      let endIndex := bisectLoop changes e changes.length startIndex.toNat changes.length
      pySlice chords startIndex endIndex

/-- piece.py:115-125: the onsets of the notes relative to the note at which the chord begins. -/
def noteOnsets {δ : Type} [Add δ] [Zero δ] [Neg δ] (cache : List δ) (change first last : Nat) : List δ :=
  (List.range (last - first)).map (fun k : Nat =>
    let i := first + k
    if i < change then -((cache.take change).drop i).sum
    else if change < i then ((cache.take i).drop change).sum
    else 0)

/-- piece.py:95-162: the rows of the input of a chord. `vectors`: the vectors of all notes of the piece.
Without notes the smallest pitch is not defined: `ValueError`. -/
def windowRows {α : Type} (vectors : List α) (zero : α) (onset offset : Nat) (window : Nat) : Py (List α) :=
  let lo : Int := (onset : Int) - window
  let hi : Int := (offset : Int) + window
  let first := max lo 0
  let last := min hi vectors.length
  let notes := pySlice vectors first last
  if notes.isEmpty then .error .valueError
  else
    let start := first - lo
    let after := hi - last
    .ok (List.replicate start.toNat zero ++ notes ++ List.replicate after.toNat zero)

/-- The attributes of a chord which are compared by `is_repeated`, and its metrical attributes. -/
structure PChord (τ δ : Type) where
  pitchType : Nat
  root : Int
  chordType : Nat
  inversion : Int
  suspension : Nat
  onset : τ
  offset : τ
  offsetLevel : Nat
  duration : δ
  deriving DecidableEq

/-- chord.py:327-360 `Chord.is_repeated`. -/
def PChord.isRepeated {τ δ : Type} (useInversion useSuspension : Bool) (c d : PChord τ δ) : Bool :=
  decide (c.pitchType = d.pitchType) && decide (c.root = d.root) && decide (c.chordType = d.chordType) &&
    (!useInversion || decide (c.inversion = d.inversion)) &&
    (!useSuspension || decide (c.suspension = d.suspension))

/-- chord.py:362-375 `Chord.merge_with`. -/
def PChord.mergeWith {τ δ : Type} [Add δ] (c d : PChord τ δ) : PChord τ δ :=
  { c with offset := d.offset, offsetLevel := d.offsetLevel, duration := c.duration + d.duration }

/-- piece.py:22-49 `get_reduction_mask`: each element is compared to the one before it in the list. -/
def reductionMask {γ : Type} (repeated : γ → γ → Bool) (l : List γ) : List Bool :=
  match l with
  | [] => []
  | a :: l => true :: (List.zipWith (fun p n => !repeated n p) (a :: l) l)

/-- piece.py:685-690: the loop; the list is kept in reverse order, so that its head is `chords[-1]`. -/
def mergeLoop {τ δ : Type} [Add δ] : List (PChord τ δ) → List (PChord τ δ × Bool) → Py (List (PChord τ δ))
  | acc, [] => .ok acc.reverse
  | acc, (c, true) :: l => mergeLoop (c :: acc) l
  | [], (_, false) :: _ => .error .indexError
  | a :: acc, (c, false) :: l => mergeLoop (a.mergeWith c :: acc) l

/-- piece.py:676-691: chords which repeat the chord before them are merged. -/
def mergeRepeated {τ δ : Type} [Add δ] (useInversion useSuspension : Bool) (l : List (PChord τ δ)) :
    Py (List (PChord τ δ)) :=
  mergeLoop [] (l.zip (reductionMask (PChord.isRepeated useInversion useSuspension) l))

end Verif
