import Verif.Constants

/-!
# Model of `/repo/harmonic_inference/utils/harmonic_utils.py`

Pitch, interval, chord class and key class functions, branch by branch.
-/

namespace Verif

/-! ## Pitches and intervals -/

/-- harmonic_utils.py:903-934 `transpose_pitch`. -/
def transposePitch (pitch interval : Int) (pt : PitchType) : Py Int :=
  match pt with
  | .midi => .ok ((pitch + interval) % NUM_PITCHES .midi)
  | .tpc =>
    let p := pitch + interval
    if p < 0 ∨ p ≥ NUM_PITCHES .tpc then .error .valueError else .ok p

/-- harmonic_utils.py:603-654 `absolute_to_relative`. -/
def absoluteToRelative (pitch keyTonic : Int) (pt : PitchType) (isKeyChange pad : Bool) : Py Int :=
  match pt with
  | .midi => transposePitch pitch (-keyTonic) .midi
  | .tpc =>
    let relative := pitch - keyTonic
    let minimum := if isKeyChange then MIN_KEY_CHANGE_INTERVAL_TPC else MIN_RELATIVE_TPC
    let maximum := if isKeyChange then MAX_KEY_CHANGE_INTERVAL_TPC else MAX_RELATIVE_TPC
    let minimum := if pad && !isKeyChange then minimum - RELATIVE_TPC_EXTRA else minimum
    let maximum := if pad && !isKeyChange then maximum + RELATIVE_TPC_EXTRA else maximum
    if relative < minimum ∨ relative ≥ maximum then .error .valueError
    else .ok (relative - minimum)

/-- harmonic_utils.py:799-814 `tpc_interval_to_midi_interval`. -/
def tpcIntervalToMidiInterval (i : Int) : Int := (7 * i) % NUM_PITCHES .midi

/-- harmonic_utils.py:681-683: `while string[0] == "b" and len(string) > 1` (the string is known
to be non-empty here). -/
def stripFlats : Str → Int × Str
  | c :: d :: rest =>
    if c = 'b' then
      let (a, s) := stripFlats (d :: rest)
      (a - 1, s)
    else (0, c :: d :: rest)
  | s => (0, s)

/-- harmonic_utils.py:685-687: `while string[0] == "#"`; `string[0]` on the empty string is an
`IndexError`. -/
def stripSharps : Str → Py (Int × Str)
  | [] => .error .indexError
  | c :: rest =>
    if c = '#' then do
      let (a, s) ← stripSharps rest
      .ok (a + 1, s)
    else .ok (0, c :: rest)

/-- harmonic_utils.py:657-698 `get_accidental_adjustment`. The `else` branch does the same at the
end of the string, so it is the front version on the reversed string. -/
def accidentalAdjustment (s : Str) (inFront : Bool) : Py (Int × Str) :=
  if s = [] then .error .indexError
  else if inFront then do
    let (a, s₁) := stripFlats s
    let (b, s₂) ← stripSharps s₁
    .ok (a + b, s₂)
  else do
    let (a, s₁) := stripFlats s.reverse
    let (b, s₂) ← stripSharps s₁
    .ok (a + b, s₂.reverse)

/-- `string.split("/")`. -/
def splitSlash : Str → List Str
  | [] => [[]]
  | c :: rest =>
    if c = '/' then [] :: splitSlash rest
    else
      match splitSlash rest with
      | [] => [[c]]
      | w :: ws => (c :: w) :: ws

/-- harmonic_utils.py:1007-1039 `get_pitch_from_string`. -/
def pitchFromString (s : Str) (pt : PitchType) : Py Int := do
  let s := if pt = .midi ∧ '/' ∈ s then (splitSlash s).headD [] else s
  let (adj, s) ← accidentalAdjustment s false
  match stringToPitch pt s with
  | none => .error .keyError
  | some p =>
    let p := p + adj * accidentalUnit pt
    match pt with
    | .midi => .ok (p % NUM_PITCHES .midi)
    | .tpc => if p < 0 ∨ p ≥ NUM_PITCHES .tpc then .error .valueError else .ok p

/-- harmonic_utils.py:1063-1065: `while pitch < min(...)`: add 7, one more flat. The first argument
bounds the number of iterations; `pitchString` passes enough (lemma `raiseLoop_done`). -/
def raiseLoop : Nat → Int → Int → Int × Int
  | 0, p, a => (p, a)
  | n + 1, p, a => if p < 14 then raiseLoop n (p + 7) (a - 1) else (p, a)

/-- harmonic_utils.py:1066-1068: `while pitch > max(...)`: subtract 7, one more sharp. -/
def lowerLoop : Nat → Int → Int → Int × Int
  | 0, p, a => (p, a)
  | n + 1, p, a => if p > 20 then lowerLoop n (p - 7) (a + 1) else (p, a)

/-- harmonic_utils.py:1042-1074 `get_pitch_string`. -/
def pitchString (pitch : Int) (pt : PitchType) : Py Str :=
  match pt with
  | .midi => pyGet midiStrings (pitch % NUM_PITCHES .midi)
  | .tpc =>
    let (p, a) := raiseLoop (14 - pitch).toNat pitch 0
    let (p, a) := lowerLoop (p - 20).toNat p a
    match tpcStrings p with
    | none => .error .keyError
    | some w => if a < 0 then .ok (w ++ List.replicate (-a).toNat 'b')
                else .ok (w ++ List.replicate a.toNat '#')

/-- The conversion between pitch types used everywhere in the project:
`get_pitch_from_string(get_pitch_string(p, from), to)`, e.g. chord.py:139-142, key.py:102-105. -/
def convertPitch (p : Int) (src dst : PitchType) : Py Int := do
  let s ← pitchString p src
  pitchFromString s dst

/-- harmonic_utils.py:817-849 `get_interval_from_scale_degree`. `SCALE_INTERVALS[..][n]` has eight
entries and `n` is at most 7, so the list access cannot fail. -/
def intervalFromScaleDegree (s : Str) (prefixed : Bool) (mode : KeyMode) (pt : PitchType) :
    Py Int := do
  let (adj, s) ← accidentalAdjustment s prefixed
  match scaleDegreeToNumber s with
  | none => .error .keyError
  | some n => do
    let i ← pyGet (scaleIntervals mode pt) n
    .ok (i + adj * accidentalUnit pt)

/-- harmonic_utils.py:777-796 `get_interval_from_numeral`. -/
def intervalFromNumeral (s : Str) (mode : KeyMode) (pt : PitchType) : Py Int :=
  intervalFromScaleDegree s true mode pt

/-- harmonic_utils.py:878-881: MIDI loop `while interval not in scale_intervals`. At most 12
iterations since 0 is in every scale. -/
def midiDegreeLoop (scale : List Int) : Nat → Int → Nat → Int × Nat
  | 0, i, k => (i, k)
  | n + 1, i, k =>
    if i ∈ scale then (i, k) else midiDegreeLoop scale n ((i - 1) % NUM_PITCHES .midi) (k + 1)

/-- harmonic_utils.py:888-890: `while interval < range_min`. -/
def flatLoop (lo : Int) : Nat → Int → Nat → Int × Nat
  | 0, i, k => (i, k)
  | n + 1, i, k => if i < lo then flatLoop lo n (i + 7) (k + 1) else (i, k)

/-- harmonic_utils.py:892-894: `while interval > range_max`. -/
def sharpLoop (hi : Int) : Nat → Int → Nat → Int × Nat
  | 0, i, k => (i, k)
  | n + 1, i, k => if i > hi then sharpLoop hi n (i - 7) (k + 1) else (i, k)

/-- `NUMBER_TO_SCALE_DEGREE[scale_intervals.index(interval)]`; `.index` raises `ValueError` when
the interval is missing. -/
def degreeName (scale : List Int) (i : Int) : Py Str :=
  if i ∈ scale then
    match numberToScaleDegree (scale.idxOf i) with
    | none => .error .keyError
    | some s => .ok s
  else .error .valueError

/-- Python `min` of a non-empty list. -/
def listMin (l : List Int) : Int := l.foldl min (l.headD 0)
/-- Python `max` of a non-empty list. -/
def listMax (l : List Int) : Int := l.foldl max (l.headD 0)

/-- harmonic_utils.py:852-900 `get_scale_degree_from_interval`. -/
def scaleDegreeFromInterval (interval : Int) (mode : KeyMode) (pt : PitchType) : Py Str :=
  let scale := scaleIntervals mode pt
  match pt with
  | .midi => do
    let (i, k) := midiDegreeLoop scale 12 (interval % NUM_PITCHES .midi) 0
    let name ← degreeName scale i
    .ok (List.replicate k '#' ++ name)
  | .tpc => do
    let lo := listMin scale
    let hi := listMax scale
    let (i, flats) := flatLoop lo (lo - interval).toNat interval 0
    let (i, sharps) := sharpLoop hi (i - hi).toNat i 0
    let name ← degreeName scale i
    .ok (List.replicate sharps '#' ++ (List.replicate flats 'b' ++ name))

/-- `relative[-1].islower()` on the characters of numerals. -/
def lastIsLower (s : Str) : Bool :=
  match s.getLast? with
  | some c => c.isLower
  | none => false

/-- harmonic_utils.py:543-549: the loop over the reversed pieces. -/
def decodeRelativeLoop (pt : PitchType) : List Str → Int → KeyMode → Py (Int × KeyMode)
  | [], tonic, mode => .ok (tonic, mode)
  | r :: rs, tonic, mode => do
    let iv ← intervalFromNumeral r mode pt
    let mode' := if lastIsLower r then KeyMode.minor else KeyMode.major
    let tonic' ← transposePitch tonic iv pt
    decodeRelativeLoop pt rs tonic' mode'

/-- harmonic_utils.py:514-549 `decode_relative_keys`. -/
def decodeRelativeKeys (s : Str) (tonic : Int) (mode : KeyMode) (pt : PitchType) :
    Py (Int × KeyMode) :=
  decodeRelativeLoop pt (splitSlash s).reverse tonic mode

/-- harmonic_utils.py:552-583 `get_bass_note`. -/
def bassNote (ct : ChordType) (root inversion : Int) (pt : PitchType) (modulo : Bool) : Py Int := do
  let pitches := chordPitches pt ct
  let bass ← pyGet pitches (if modulo then inversion % (pitches.length : Int) else inversion)
  transposePitch bass (root - pitchC pt) pt

/-- harmonic_utils.py:937-958 `get_chord_inversion`; `none` is a null value. -/
def chordInversion (figbass : Option Str) : Py Int :=
  match figbass with
  | none => .ok 0
  | some s =>
    if s.length = 0 then .ok 0
    else
      match figbassTable.lookup s with
      | some i => .ok i
      | none => .error .valueError

/-- harmonic_utils.py:964-987 `get_chord_type_from_string`. -/
def chordTypeFromString (s : Str) : Py ChordType :=
  match chordTypeTable.lookup s with
  | some t => .ok t
  | none => .error .valueError

/-! ## Chord vectors -/

/-- `np.roll(v, i)`. -/
def roll (v : List Nat) (i : Int) : List Nat :=
  let k := (i % (v.length : Int)).toNat
  v.drop (v.length - k) ++ v.take (v.length - k)

/-- harmonic_utils.py:701-741 `transpose_chord_vector`. The slice assignments write zeros to the
vacated end and copy the rest; slices longer than the vector are cut to its length. -/
def transposeChordVector (v : List Nat) (interval : Int) (pt : PitchType) : List Nat :=
  match pt with
  | .midi => roll v interval
  | .tpc =>
    if interval > 0 then
      List.replicate (min interval.toNat v.length) 0 ++ v.take (v.length - interval.toNat)
    else if interval < 0 then
      v.drop (-interval).toNat ++ List.replicate (min (-interval).toNat v.length) 0
    else v

/-- harmonic_utils.py:744-774 `get_vector_from_chord_type`. -/
def vectorFromChordType (ct : ChordType) (pt : PitchType) (root : Option Int) : List Nat :=
  let v := (chordPitches pt ct).foldl (fun v p => v.set p.toNat 1)
    (List.replicate (NUM_PITCHES pt).toNat 0)
  match root with
  | none => v
  | some r => transposeChordVector v (r - pitchC pt) pt

/-! ## Chord classes -/

/-- `sorted(set(reduction.values()))`: the distinct values in increasing order. -/
def reducedTypes (red : Reduction) : List ChordType :=
  ChordType.all.filter (fun t => ChordType.all.any (fun s => decide (red s = t)))

/-- The `roots` list of harmonic_utils.py:298-312 (also 46-57 in the label list). -/
def classRoots (pt : PitchType) (relative pad : Bool) : List Int :=
  if relative then
    match pt with
    | .tpc =>
      let minimum := if pad then MIN_RELATIVE_TPC - RELATIVE_TPC_EXTRA else MIN_RELATIVE_TPC
      let maximum := if pad then MAX_RELATIVE_TPC + RELATIVE_TPC_EXTRA else MAX_RELATIVE_TPC
      pyRange minimum maximum
    | .midi => pyRange 0 (NUM_PITCHES pt)
  else pyRange 0 (NUM_PITCHES pt)

/-- `range(get_chord_inversion_count(chord_type)) if use_inversions else [0]`. -/
def classInversions (useInv : Bool) (ct : ChordType) : List Int :=
  if useInv then pyRange 0 (inversionCount ct) else [0]

/-- The list comprehension of harmonic_utils.py:314-318: all chord classes in order. -/
def chordClasses (pt : PitchType) (useInv relative pad : Bool) (red : Reduction) :
    List (Int × ChordType × Int) :=
  (reducedTypes red).flatMap fun ct =>
    (classRoots pt relative pad).flatMap fun root =>
      (classInversions useInv ct).map fun inv => (root, ct, inv)

/-- harmonic_utils.py:258-318 `get_chord_from_one_hot_index` at an integer index. -/
def chordFromOneHotIndex (i : Int) (pt : PitchType) (useInv relative pad : Bool)
    (red : Reduction) : Py (Int × ChordType × Int) :=
  pyGet (chordClasses pt useInv relative pad red) i

/-- `num_pitches` of harmonic_utils.py:367-372. -/
def indexNumPitches (pt : PitchType) (relative pad : Bool) : Int :=
  if pt = .midi ∨ relative = false then NUM_PITCHES pt
  else
    let n := MAX_RELATIVE_TPC - MIN_RELATIVE_TPC
    if pad then n + 2 * RELATIVE_TPC_EXTRA else n

/-- harmonic_utils.py:321-391 `get_chord_one_hot_index`. -/
def chordOneHotIndex (ct : ChordType) (root : Int) (pt : PitchType) (inversion : Int)
    (useInv relative pad : Bool) (red : Reduction) : Py Int :=
  let types := reducedTypes red
  let ct := red ct
  let typeIndex := types.idxOf ct
  let n := indexNumPitches pt relative pad
  if root < 0 ∨ root ≥ n then .error .valueError
  else if useInv = true ∧ (inversion < 0 ∨ inversion ≥ (inversionCount ct : Int)) then
    .error .valueError
  else do
    let invs : List Int :=
      if useInv then types.map (fun t => (inversionCount t : Int)) else types.map (fun _ => 1)
    let here ← pyGet invs typeIndex
    let index := ((invs.take typeIndex).map (fun k => n * k)).sum + here * root
    .ok (if useInv then index + inversion else index)

/-- chord.py:729-791 `get_chord_vector_length` with `one_hot=True`. -/
def chordOneHotLength (pt : PitchType) (relative useInv pad : Bool) (red : Reduction) : Int :=
  let n := if relative = true ∧ pt = .tpc then
      (if pad then MAX_RELATIVE_TPC - MIN_RELATIVE_TPC + RELATIVE_TPC_EXTRA * 2
       else MAX_RELATIVE_TPC - MIN_RELATIVE_TPC)
    else NUM_PITCHES pt
  if useInv then ((reducedTypes red).map (fun t => (inversionCount t : Int) * n)).sum
  else n * (reducedTypes red).length

/-- `str(i)` for an integer. -/
def intStr (i : Int) : Str := (toString i).toList

/-- harmonic_utils.py:45-71: the root names of the label list. Pitch names of the absolute roots
always exist (lemma `pitchString_total`); the error branch of the model is unreachable. -/
def classRootNames (pt : PitchType) (relative pad : Bool) (relativeTo : Option Int) :
    Py (List Str) :=
  if relative then
    match relativeTo with
    | none => .ok ((classRoots pt true pad).map intStr)
    | some key =>
      (classRoots pt true pad).mapM fun root =>
        match transposePitch root key pt with
        | .ok p => pitchString p pt
        | .error _ => .ok (intStr root)
  else (pyRange 0 (NUM_PITCHES pt)).mapM fun i => pitchString i pt

/-- `f"{root}:{get_chord_string(chord_type)}{'' if inv is None else f', inv:{inv}'}"`. -/
def chordLabel (root : Str) (ct : ChordType) (inv : Option Int) : Str :=
  root ++ [':'] ++ chordTypeString ct ++
    (match inv with
     | none => []
     | some i => [',', ' ', 'i', 'n', 'v', ':'] ++ intStr i)

/-- harmonic_utils.py:12-81 `get_chord_label_list`. -/
def chordLabelList (pt : PitchType) (useInv relative : Bool) (relativeTo : Option Int) (pad : Bool)
    (red : Reduction) : Py (List Str) := do
  let roots ← classRootNames pt relative pad relativeTo
  .ok ((reducedTypes red).flatMap fun ct =>
    roots.flatMap fun root =>
      (if useInv then (pyRange 0 (inversionCount ct)).map some else [none]).map fun inv =>
        chordLabel root ct inv)

/-! ## Key classes -/

/-- The `tonics` of harmonic_utils.py:474-485. -/
def keyTonics (pt : PitchType) (relative : Bool) : List Int :=
  if relative then
    match pt with
    | .tpc => pyRange MIN_KEY_CHANGE_INTERVAL_TPC MAX_KEY_CHANGE_INTERVAL_TPC
    | .midi => pyRange 0 (NUM_PITCHES pt)
  else pyRange 0 (NUM_PITCHES pt)

/-- All key classes in order, harmonic_utils.py:487. -/
def keyClasses (pt : PitchType) (relative : Bool) : List (Int × KeyMode) :=
  KeyMode.all.flatMap fun mode => (keyTonics pt relative).map fun tonic => (tonic, mode)

/-- harmonic_utils.py:450-487 `get_key_from_one_hot_index`. -/
def keyFromOneHotIndex (i : Int) (pt : PitchType) (relative : Bool) : Py (Int × KeyMode) :=
  pyGet (keyClasses pt relative) i

/-- harmonic_utils.py:490-511 `get_key_one_hot_index`. -/
def keyOneHotIndex (mode : KeyMode) (tonic : Int) (pt : PitchType) : Py Int :=
  if tonic < 0 ∨ tonic ≥ NUM_PITCHES pt then .error .valueError
  else .ok (NUM_PITCHES pt * mode.value + tonic)

/-- `f"{key_mode}"`. -/
def keyModeString : KeyMode → Str
  | .major => ['K','e','y','M','o','d','e','.','M','A','J','O','R']
  | .minor => ['K','e','y','M','o','d','e','.','M','I','N','O','R']

/-- harmonic_utils.py:443-446: one label. -/
def keyLabel (tonic : Str) (mode : KeyMode) : Str :=
  (if mode = .minor then tonic.map Char.toLower else tonic) ++ [':'] ++ keyModeString mode

/-- harmonic_utils.py:414-441: the tonic names. -/
def keyTonicNames (pt : PitchType) (relative : Bool) (relativeTo : Option Int) : Py (List Str) :=
  if relative then
    match relativeTo with
    | none => .ok ((keyTonics pt true).map intStr)
    | some key =>
      (keyTonics pt true).mapM fun tonic =>
        match transposePitch tonic key pt with
        | .ok p => pitchString p pt
        | .error _ => .ok (intStr tonic)
  else (pyRange 0 (NUM_PITCHES pt)).mapM fun i => pitchString i pt

/-- harmonic_utils.py:394-447 `get_key_label_list`. -/
def keyLabelList (pt : PitchType) (relative : Bool) (relativeTo : Option Int) : Py (List Str) := do
  let tonics ← keyTonicNames pt relative relativeTo
  .ok (KeyMode.all.flatMap fun mode => tonics.map fun tonic => keyLabel tonic mode)

/-! ## Chord changes -/

/-- harmonic_utils.py:101-128 `get_first_change_length`. `isNum` is `str.isnumeric` on one character
(kept abstract; only `'1'` and the digits matter). `IndexError` when no character is numeric. -/
def firstChangeLength (isNum : Char → Bool) : Str → Py Nat
  | [] => .ok 0
  | c :: rest =>
    let rec go : Str → Nat → Py Nat
      | [], _ => .error .indexError
      | d :: ds, n =>
        if isNum d then (if d = '1' then .ok (n + 2) else .ok (n + 1)) else go ds (n + 1)
    go (c :: rest) 0

/-- harmonic_utils.py:130-138, the loop of `split_changes_into_list`, with at most `fuel`
iterations (each one removes at least one character). -/
def splitChangesLoop (isNum : Char → Bool) : Nat → Str → Py (List Str)
  | 0, _ => .ok []
  | fuel + 1, s => do
    let n ← firstChangeLength isNum s
    if n = 0 then .ok []
    else do
      let rest ← splitChangesLoop isNum fuel (s.drop n)
      .ok (s.take n :: rest)

/-- harmonic_utils.py:84-138 `split_changes_into_list`. -/
def splitChanges (isNum : Char → Bool) (s : Str) : Py (List Str) :=
  splitChangesLoop isNum (s.length + 1) s

end Verif
