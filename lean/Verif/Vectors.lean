import Verif.ChordKey
import Mathlib.Algebra.Order.Ring.Rat
import Mathlib.Data.List.Dedup
import Mathlib.Data.List.Sort

/-!
# Chord, key change and note vectors

Model of `to_vec` in /repo/harmonic_inference/data/chord.py and data/note.py, of the key change encodings
in data/key.py and of data/vector_decoding.py. Entries of vectors are rationals (rounding to float16 is
outside of the model). Vectors have one dimension, tensors are lists of rows.
-/

namespace Verif

/-- `np.zeros(n)`. -/
def zeros (n : Nat) : List ℚ := List.replicate n 0

/-- `v[i] = x` for a numpy array: negative indices count from the end, `IndexError` outside. -/
def pySet (v : List ℚ) (i : Int) (x : ℚ) : Py (List ℚ) :=
  if 0 ≤ i ∧ i < v.length then .ok (v.set i.toNat x)
  else if -(v.length : Int) ≤ i ∧ i < 0 then .ok (v.set (v.length + i).toNat x)
  else .error .indexError

/-- `z = np.zeros(n); z[i] = 1`. -/
def oneHot (n : Nat) (i : Int) : Py (List ℚ) := pySet (zeros n) i 1

/-- `np.where(v == 1)[0][0]`: the first index of a 1, `IndexError` if there is none. -/
def whereOne (v : List ℚ) : Py Int :=
  match v.findIdx? (fun x => decide (x = 1)) with
  | some i => .ok i
  | none => .error .indexError

/-- `v[a:b]` for `0 <= a <= b`. -/
def slice {α : Type} (v : List α) (a b : Nat) : List α := (v.drop a).take (b - a)

/-- `num_pitches` of chord.py:266-271, vector_decoding.py:140-148, 256-262 and 294-300. -/
def relPitches (pt : PitchType) (pad : Bool) : Nat :=
  match pt with
  | .midi => (NUM_PITCHES .midi).toNat
  | .tpc =>
    if pad then (MAX_RELATIVE_TPC - MIN_RELATIVE_TPC + 2 * RELATIVE_TPC_EXTRA).toNat
    else (MAX_RELATIVE_TPC - MIN_RELATIVE_TPC).toNat

/-- chord.py:764-791 `get_chord_vector_length` with `one_hot=False`. -/
def chordVectorLength (pt : PitchType) (relative pad : Bool) : Nat :=
  let n : Int := if relative = true ∧ pt = .tpc then
      (if pad then MAX_RELATIVE_TPC - MIN_RELATIVE_TPC + RELATIVE_TPC_EXTRA * 2
       else MAX_RELATIVE_TPC - MIN_RELATIVE_TPC)
    else NUM_PITCHES pt
  (n + n + ChordType.all.length + 14).toNat

/-- chord.py:263: the tonic a vector is relative to. -/
def Chord.tonicFor (c : Chord ℚ) : Option Key → Int
  | none => c.keyTonic
  | some k => k.relativeTonic

/-- chord.py:264: the mode stored in a vector. -/
def Chord.modeFor (c : Chord ℚ) : Option Key → KeyMode
  | none => c.keyMode
  | some k => k.relativeMode

/-- chord.py:239-325 `Chord.to_vec`. Durations are rationals. -/
def Chord.toVec (c : Chord ℚ) (relativeTo : Option Key) (pad : Bool) (red : Reduction) : Py (List ℚ) := do
  let keyTonic := c.tonicFor relativeTo
  let keyMode := c.modeFor relativeTo
  let n := relPitches c.pitchType pad
  let r ← absoluteToRelative c.root keyTonic c.pitchType false pad
  let pitch ← oneHot n r
  let chordType ← oneHot ChordType.all.length (red c.chordType).value
  let b ← absoluteToRelative c.bass keyTonic c.pitchType false pad
  let bass ← oneHot n b
  let inversion ← oneHot 4 c.inversion
  let onset ← oneHot 4 c.onsetLevel
  let offset ← oneHot 4 c.offsetLevel
  .ok (pitch ++ chordType ++ bass ++ inversion ++ onset ++ offset ++ [c.duration] ++
    [if keyMode = .major then 1 else 0])

/-- vector_decoding.py:204-229 `infer_chord_vector_pitch_type`. -/
def inferChordVectorPitchType (length : Nat) (pad : Bool) : Py PitchType :=
  match [PitchType.tpc, PitchType.midi].find? (fun pt => length == chordVectorLength pt true pad) with
  | some pt => .ok pt
  | none => .error .valueError

/-- `if pitch_type is None: pitch_type = infer_chord_vector_pitch_type(...)`. -/
def givenOrInferred (pitchType : Option PitchType) (length : Nat) (pad : Bool) : Py PitchType :=
  match pitchType with
  | some pt => .ok pt
  | none => inferChordVectorPitchType length pad

/-- vector_decoding.py:140-148 `to_add`. -/
def toAdd (pt : PitchType) (pad : Bool) : Int :=
  match pt with
  | .midi => 0
  | .tpc => if pad then MIN_RELATIVE_TPC - RELATIVE_TPC_EXTRA else MIN_RELATIVE_TPC

/-- The fields set by `decode_chord_vector`. -/
structure DecodedChord where
  root : Int
  bass : Int
  keyMode : KeyMode
  chordType : ChordType
  inversion : Int
  onsetLevel : Int
  offsetLevel : Int
  pitchType : PitchType
  deriving DecidableEq

/-- `np.array(ChordType)[v == 1][0]`: a mask of the wrong length is an `IndexError`. -/
def typeOfMask (v : List ℚ) : Py ChordType :=
  if v.length ≠ ChordType.all.length then .error .indexError
  else
    match ((ChordType.all.zip v).filter (fun p => decide (p.2 = 1))).head? with
    | some p => .ok p.1
    | none => .error .indexError

/-- vector_decoding.py:115-201 `decode_chord_vector`. -/
def decodeChordVector (v : List ℚ) (pad : Bool) (pitchType : Option PitchType) : Py DecodedChord := do
  let pt ← givenOrInferred pitchType v.length pad
  let n := relPitches pt pad
  let types := ChordType.all.length
  let root ← whereOne v
  let chordType ← typeOfMask (slice v n (n + types))
  let bass ← whereOne (slice v (n + types) (2 * n + types))
  let at0 := 2 * n + types
  let inversion ← whereOne (slice v at0 (at0 + 4))
  let onset ← whereOne (slice v (at0 + 4) (at0 + 8))
  let offset ← whereOne (slice v (at0 + 8) (at0 + 12))
  let last ← pyGet v (-1)
  .ok { root := root + toAdd pt pad, bass := bass + toAdd pt pad, keyMode := if last = 1 then .major else .minor,
        chordType := chordType, inversion := inversion, onsetLevel := onset, offsetLevel := offset,
        pitchType := pt }

/-- vector_decoding.py:232-267 `get_chord_vector_inversion_index`. -/
def inversionIndex (length : Nat) (pad : Bool) (pitchType : Option PitchType) : Py Nat := do
  let pt ← givenOrInferred pitchType length pad
  .ok (2 * relPitches pt pad + ChordType.all.length)

/-- vector_decoding.py:270-305 `get_chord_vector_chord_type_index`. -/
def chordTypeIndex (length : Nat) (pad : Bool) (pitchType : Option PitchType) : Py Nat := do
  let pt ← givenOrInferred pitchType length pad
  .ok (relPitches pt pad)

/-- vector_decoding.py:389-413 `remove_chord_inversions`, the tensor after the call. Rows are at least as
long as the chord part. -/
def removeChordInversions (tensor : List (List ℚ)) (pad : Bool) (pitchType : Option PitchType) :
    Py (List (List ℚ)) := do
  let first ← pyGet tensor 0
  let i ← inversionIndex first.length pad pitchType
  .ok (tensor.map fun row => row.take i ++ ((slice row i (i + 4)).sum :: zeros 3) ++ row.drop (i + 4))

/-- One item of the loop of vector_decoding.py:447-457 for one row: `old` and `new` are the chord types
of the row. -/
def reduceTypeStep (red : Reduction) (old new : List ℚ) (t : ChordType) : List ℚ :=
  if red t = t then new
  else if old[t.value]? = some 1 then new.set (red t).value 1 else new

/-- vector_decoding.py:416-457 `reduce_chord_types`, the tensor after the call (`none` for the reduction
`None`). Rows are at least as long as the chord part. -/
def reduceChordTypes (tensor : List (List ℚ)) (reduction : Option Reduction) (pad : Bool)
    (pitchType : Option PitchType) : Py (List (List ℚ)) :=
  match reduction with
  | none => .ok tensor
  | some red => do
    let first ← pyGet tensor 0
    let i ← chordTypeIndex first.length pad pitchType
    let types := ChordType.all.length
    .ok (tensor.map fun row =>
      row.take i ++ ChordType.all.foldl (reduceTypeStep red (slice row i (i + types))) (zeros types) ++
        row.drop (i + types))

/-- vector_decoding.py:361-367: a relative root is shifted to be an index. -/
def rootForIndex (relative pad : Bool) (pt : PitchType) (root : Int) : Py Int :=
  if relative then absoluteToRelative root 0 pt false pad else .ok root

/-- vector_decoding.py:308-386 `reduce_chord_one_hots` for a list of indices; `NO_REDUCTION` stands for
the default `None`. The loop goes over the sorted distinct indices. -/
def reduceChordOneHots (oneHots : List Int) (pad : Bool) (pt : PitchType) (invPresent : Bool)
    (redPresent : Reduction) (relative : Bool) (red : Reduction) (useInv : Bool) : Py (List Int) := do
  let unique := oneHots.dedup.insertionSort (· ≤ ·)
  let labels ← unique.mapM fun i => chordFromOneHotIndex i pt invPresent relative pad redPresent
  let table ← (unique.zip labels).mapM fun (i, root, ct, inv) => do
    let root ← rootForIndex relative pad pt root
    let new ← chordOneHotIndex ct root pt inv useInv relative pad red
    .ok (i, new)
  .ok (oneHots.map fun i => ((table.find? fun e => e.1 == i).map (·.2)).getD 0)

/-! ## Key changes -/

/-- key.py:482-507 `get_key_change_vector_length`. -/
def keyChangeVectorLength (pt : PitchType) (oneHot : Bool) : Nat :=
  let n : Nat := match pt with
    | .tpc => (MAX_KEY_CHANGE_INTERVAL_TPC - MIN_KEY_CHANGE_INTERVAL_TPC).toNat
    | .midi => 12
  if oneHot then n * KeyMode.all.length else n + KeyMode.all.length

/-- key.py:145-160: the index is set unless it is a `ValueError`. -/
def setTonicBit (v : List ℚ) : Py Int → Py (List ℚ)
  | .ok i => pySet v i 1
  | .error .valueError => .ok v
  | .error e => .error e

/-- key.py:125-164 `Key.get_key_change_vector`. -/
def Key.changeVector (k next : Key) : Py (List ℚ) := do
  let v := zeros (keyChangeVectorLength k.tonicType false)
  let v ← setTonicBit v (absoluteToRelative next.relativeTonic k.relativeTonic k.tonicType true false)
  pySet v (-2 + next.relativeMode.value) 1

/-- key.py:196-206: the number of intervals of the one-hot encoding. -/
def numKeyIntervals : PitchType → Int
  | .midi => NUM_PITCHES .midi
  | .tpc => MAX_KEY_CHANGE_INTERVAL_TPC - MIN_KEY_CHANGE_INTERVAL_TPC

/-- key.py:181-209 `Key.get_key_change_one_hot_index`. -/
def Key.changeOneHot (k next : Key) : Py Int := do
  let interval ← absoluteToRelative next.relativeTonic k.relativeTonic k.tonicType true false
  .ok (next.relativeMode.value * numKeyIntervals k.tonicType + interval)

/-- The fields set by `decode_key_change_vector`; the mode is an array of all modes with a 1. -/
structure DecodedKey where
  relativeTonic : Int
  relativeMode : List KeyMode
  tonicType : PitchType
  deriving DecidableEq

/-- vector_decoding.py:94-101: the pitch type of a key change vector of the given length. -/
def inferKeyVectorPitchType (length : Nat) : Py PitchType :=
  match [PitchType.tpc, PitchType.midi].find? (fun pt => length == keyChangeVectorLength pt false) with
  | some pt => .ok pt
  | none => .error .valueError

/-- vector_decoding.py:79-112 `decode_key_change_vector`. -/
def decodeKeyChangeVector (v : List ℚ) : Py DecodedKey := do
  let pt ← inferKeyVectorPitchType v.length
  let i ← whereOne v
  .ok { relativeTonic := if pt = .tpc then i + MIN_KEY_CHANGE_INTERVAL_TPC else i,
        relativeMode := ((KeyMode.all.zip (v.drop (v.length - 2))).filter
          (fun p => decide (p.2 = 1))).map (·.1),
        tonicType := pt }

/-- vector_decoding.py:489-504: the length of the chord part of a vector. -/
def chordPartLength (length : Nat) (rootType tonicType : Option PitchType) (pad : Bool) : Py Nat :=
  match rootType, tonicType with
  | some rt, _ => .ok (chordVectorLength rt true pad)
  | none, some tt => .ok (length - 1 - keyChangeVectorLength tt false)
  | none, none => .error .valueError

/-- vector_decoding.py:460-523 `decode_chord_and_key_change_vector`. A negative length of the chord
vector (a vector which is too short) is not modelled. -/
def decodeChordAndKeyChange (v : List ℚ) (rootType tonicType : Option PitchType) (pad : Bool) :
    Py (DecodedChord × Option DecodedKey) := do
  let n ← chordPartLength v.length rootType tonicType pad
  let chord ← decodeChordVector (v.take n) pad none
  let last ← pyGet v (-1)
  let keyVector := v.dropLast.drop n
  if last ≠ 0 then do
    let key ← decodeKeyChangeVector keyVector
    .ok (chord, some key)
  else if keyVector.sum > 0 then .error .valueError
  else .ok (chord, none)

/-- One row of the inputs of the chord and key sequence datasets, datasets.py:660-671, 946-970 and
1041-1062: `change` is the previous and the new key at the first chord of a key. -/
def sequenceRow (c : Chord ℚ) (tonicType : PitchType) (change : Option (Key × Key)) (pad : Bool) :
    Py (List ℚ) := do
  let chord ← c.toVec none pad noReduction
  match change with
  | none => .ok (chord ++ zeros (1 + keyChangeVectorLength tonicType false))
  | some (prev, key) => do
    let kv ← prev.changeVector key
    -- assigning a vector of another length to the row is a `ValueError`
    if kv.length ≠ keyChangeVectorLength tonicType false then .error .valueError
    else .ok (chord ++ kv ++ [1])

/-! ## Notes -/

/-- note.py:118-133 `Note.get_midi_note_number`. -/
def midiNoteNumber (pitchClass octave : Int) (pt : PitchType) : Py Int :=
  match pt with
  | .midi => .ok (NUM_PITCHES .tpc * octave + pitchClass)
  | .tpc => do
    let name ← pitchString pitchClass .tpc
    let pc ← pitchFromString name .midi
    .ok (NUM_PITCHES .midi * octave + pc)

/-- note.py:523-552 `get_note_vector_length`. -/
def noteVectorLength (pt : PitchType) : Nat :=
  let octaves := 127 / (NUM_PITCHES .midi).toNat
  (NUM_PITCHES pt).toNat + octaves + octaves + 16

/-- What note.py:135-302 needs of a note and of its surroundings. `rhythm` are the three entries of lines
228-262, `durs` the two of lines 264-269. -/
structure NoteVec where
  pitchClass : Int
  octave : Int
  onsetLevel : Int
  offsetLevel : Int
  pitchType : PitchType
  rhythm : ℚ × ℚ × ℚ
  durs : ℚ × ℚ
  minPitch : Option (Int × Int)
  maxPitch : Option (Int × Int)

/-- note.py:271-274: whether this is the lowest pitch. -/
def NoteVec.isMin (x : NoteVec) (midi : Int) : ℚ :=
  match x.minPitch with
  | some p => if midi = p.2 then 1 else 0
  | none => 0

/-- note.py:278: the octave to count from. -/
def NoteVec.lowestOctave (x : NoteVec) : Int :=
  match x.minPitch with
  | some p => p.1
  | none => 0

/-- note.py:286-300: the relative height of the pitch. -/
def NoteVec.relHeight (x : NoteVec) (midi : Int) : ℚ :=
  match x.minPitch, x.maxPitch with
  | some lo, some hi =>
    let size := hi.2 - lo.2
    ((midi - lo.2 : Int) : ℚ) / (if size = 0 then 1 else size : Int)
  | _, _ => 0

/-- note.py:135-302 `Note.to_vec`. -/
def NoteVec.toVec (x : NoteVec) : Py (List ℚ) := do
  let octaves := 127 / (NUM_PITCHES .midi).toNat
  let pitch ← oneHot (NUM_PITCHES x.pitchType).toNat x.pitchClass
  let octave ← oneHot octaves x.octave
  let onset ← oneHot 4 x.onsetLevel
  let offset ← oneHot 4 x.offsetLevel
  let midi ← midiNoteNumber x.pitchClass x.octave x.pitchType
  let relOctave ← oneHot octaves (x.octave - x.lowestOctave)
  .ok (pitch ++ octave ++ onset ++ offset ++ [x.rhythm.1, x.rhythm.2.1, x.rhythm.2.2] ++
    [x.durs.1, x.durs.2] ++ [x.isMin midi] ++ relOctave ++
    [(midi : ℚ) / 127] ++ [x.relHeight midi])

/-- vector_decoding.py:526-574 `transpose_note_vector` with a given pitch type. -/
def transposeNoteVector (v : List ℚ) (interval : Int) (pt : PitchType) : Py (List ℚ) := do
  let i ← whereOne v
  let old ← pyGet (pyRange 0 (NUM_PITCHES pt)) i
  let new := old + interval
  if ¬ (0 ≤ old ∧ old < NUM_PITCHES pt) then .error .valueError
  else do
    let w ← pySet v old 0
    pySet w new 1

/-- vector_decoding.py:26-76 `decode_note_vector`: line 66 unpacks at most three entries into five
names. -/
def decodeNoteVector (v : List ℚ) : Py Unit := do
  let pt ← match [PitchType.tpc, PitchType.midi].find? (fun pt => v.length == noteVectorLength pt) with
    | some pt => .ok pt
    | none => .error .valueError
  let i ← whereOne v
  let _ ← pyGet (pyRange 0 (NUM_PITCHES pt)) i
  let n := (NUM_PITCHES pt).toNat
  let octaves := 127 / (NUM_PITCHES .midi).toNat
  let _ ← whereOne (slice v n (n + octaves))
  let _ ← whereOne (slice v (n + octaves) (n + octaves + 4))
  let _ ← whereOne (slice v (n + octaves + 4) (n + octaves + 8))
  if (slice v (n + octaves + 8) (n + octaves + 11)).length = 5 then .ok () else .error .valueError

end Verif
