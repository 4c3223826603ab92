import Verif.Results
import Verif.Corpus

/-!
# Chord changes

Model of `get_added_and_removed_pitches` in /repo/harmonic_inference/utils/harmonic_utils.py and of
`get_labels_df` in /repo/harmonic_inference/utils/eval_utils.py. Pitches are kept as integers instead of
their decimal strings; `none` is the empty string (`str` of an integer is injective and never empty).
-/

namespace Verif

/-! ## `get_added_and_removed_pitches` -/

/-- `get_pitch_string(pitch, PitchType.TPC)[0]`. -/
def firstLetter (p : Int) : Py Char := do
  let s ← pitchString p .tpc
  pyGet s 0

/-- `str(degree)` for one digit. -/
def digitStr (n : Nat) : Str := [Char.ofNat (48 + n)]

/-- harmonic_utils.py:182-186: the loop over the degrees, with `break`. Without a match, `degree` keeps the
last value (`last`). -/
def findDegree (rootLetter : Char) (tonic : Int) (mode : KeyMode) : Nat → List Nat → Py Nat
  | last, [] => .ok last
  | _, d :: rest => do
    let interval ← intervalFromScaleDegree (digitStr d) true mode .tpc
    let c ← firstLetter (interval + tonic)
    if c = rootLetter then .ok d else findDegree rootLetter tonic mode d rest

/-- harmonic_utils.py:192-193: `while change[0] in "v^+"`. -/
def stripMarks : Str → Py Str
  | [] => .error .indexError
  | c :: rest => if c = 'v' ∨ c = '^' ∨ c = '+' then stripMarks rest else .ok (c :: rest)

/-- `int(s)` for strings of decimal digits; all else is a `ValueError` (signs, blanks and underscores, which
`int` accepts, are not modelled). -/
def pyInt (s : Str) : Py Nat :=
  if s ≠ [] ∧ s.all Char.isDigit = true then .ok (s.foldl (fun n c => 10 * n + (c.toNat - 48)) 0)
  else .error .valueError

/-- harmonic_utils.py:192-211: the pitch that a change adds, and whether it is in an upper octave. -/
def addedPitch (degree : Nat) (tonic : Int) (mode : KeyMode) (change : Str) : Py (Bool × Int) := do
  let change ← stripMarks change
  let (acc, newChange) ← accidentalAdjustment change true
  let n ← pyInt newChange
  let changeDegree := ((n : Int) + degree - 2) % 7 + 1
  let interval ← intervalFromScaleDegree (change.take acc.natAbs ++ digitStr changeDegree.toNat) true mode .tpc
  .ok (decide (8 ≤ n), interval + tonic)

/-- `np.where(vector == 1)[0]`. -/
def onesOf (v : List Nat) : List Int :=
  (List.range v.length).filterMap fun i : Nat => if v[i]? = some 1 then some (i : Int) else none

/-- harmonic_utils.py:222-224: the pitches with the given letter. -/
def withLetter (c : Char) : List Int → Py (List Int)
  | [] => .ok []
  | p :: rest => do
    let d ← firstLetter p
    let more ← withLetter c rest
    .ok (if d = c then p :: more else more)

/-- harmonic_utils.py:218-224: the pitches of the chord in ascending order. -/
def ascendingLoop (root : Int) (mode : KeyMode) (pitches : List Int) : List Nat → Py (List Int)
  | [] => .ok []
  | d :: rest => do
    let interval ← intervalFromScaleDegree (digitStr d) true mode .tpc
    let c ← firstLetter (interval + root)
    let here ← withLetter c pitches
    let more ← ascendingLoop root mode pitches rest
    .ok (here ++ more)

/-- harmonic_utils.py:214-224. -/
def ascendingChord (root : Int) (ct : ChordType) (mode : KeyMode) : Py (List Int) :=
  ascendingLoop root mode (onesOf (vectorFromChordType ct .tpc (some root))) (List.range' 1 7)

/-- `new_change in "246"`: a substring test. -/
def in246 (s : Str) : Bool :=
  decide (s ∈ [[], ['2'], ['4'], ['6'], ['2', '4'], ['4', '6'], ['2', '4', '6']])

/-- harmonic_utils.py:230-252: what the body of the loop appends for a change, after the `+` test. -/
def removedPitch (ascending : List Int) (change : Str) : Py (Option Int) := do
  let c ← pyGet change 0
  let (_, newChange) ← accidentalAdjustment change true
  if c = '^' ∨ (in246 newChange = true ∧ c = '#') then
    if change = ['#', '6'] ∧ ascending.length = 3 then .ok none
    else do
      let l ← pyGet change (-1)
      let n ← pyInt [l]
      let p ← pyGet ascending ((n : Int) / 2)
      .ok (some p)
  else if c = 'v' ∨ (in246 newChange = true ∧ c ≠ '#') then do
    let l ← pyGet change (-1)
    let n ← pyInt [l]
    let p ← pyGet ascending ((n : Int) / 2 - 1)
    .ok (some p)
  else .ok none

/-- harmonic_utils.py:227-252: the loop over the changes. After a `+` the body goes on and appends a second
entry. -/
def removedLoop (ascending : List Int) : List Str → Py (List (Option Int))
  | [] => .ok []
  | change :: rest => do
    let c ← pyGet change 0
    let r ← removedPitch ascending change
    let more ← removedLoop ascending rest
    .ok (if c = '+' then none :: r :: more else r :: more)

/-- Setting a key of a dictionary: the position of an old key is kept. -/
def dictSet {κ α : Type} [DecidableEq κ] : List (κ × α) → κ → α → List (κ × α)
  | [], k, v => [(k, v)]
  | (k', v') :: rest, k, v => if k' = k then (k, v) :: rest else (k', v') :: dictSet rest k v

/-- A dictionary comprehension. -/
def dictOf {κ α : Type} [DecidableEq κ] (l : List (κ × α)) : List (κ × α) :=
  l.foldl (fun d x => dictSet d x.1 x.2) []

/-- harmonic_utils.py:141-255 `get_added_and_removed_pitches`. -/
def addedAndRemoved (isNum : Char → Bool) (root : Int) (ct : ChordType) (changes : Str) (tonic : Int)
    (mode : KeyMode) : Py (List (Option Int × (Bool × Int))) := do
  let rootLetter ← firstLetter root
  let degree ← findDegree rootLetter tonic mode 7 (List.range' 1 7)
  let list ← splitChanges isNum changes
  let added ← mapPy (addedPitch degree tonic mode) list
  let ascending ← ascendingChord root ct mode
  let removed ← removedLoop ascending list
  .ok (dictOf (removed.zip added))

/-! ## `get_labels_df` -/

/-- An entry of a suspension string: the replaced pitch, if any, whether the new pitch is in an upper octave,
and the new pitch. -/
abbrev ChangeEntry := Option Int × (Bool × Int)

/-- eval_utils.py:187-205: the MIDI version of an entry. -/
def entryMidi : ChangeEntry → Py ChangeEntry
  | (none, up, new) => do
    let n ← convertPitch new .tpc .midi
    .ok (none, up, n)
  | (some orig, up, new) => do
    let o ← convertPitch orig .tpc .midi
    let n ← convertPitch new .tpc .midi
    .ok (some o, up, n)

/-- eval_utils.py:187-209: the TPC version of an entry. -/
def entryTpc (tpcC : Int) (e : ChangeEntry) : ChangeEntry :=
  (e.1.map (· - TPC_C + tpcC), e.2.1, e.2.2 - TPC_C + tpcC)

variable {δ : Type}

/-- eval_utils.py:153-214 `get_suspension_strings`, for a chord and its `suspension`. The strings are kept as
the lists of their entries. -/
def suspensionStrings (isNum : Char → Bool) (tpcC : Int) (c : Chord δ) :
    Option Str → Py (List ChangeEntry × List ChangeEntry)
  | none => .ok ([], [])
  | some s => do
    let m ← addedAndRemoved isNum c.root c.chordType s c.keyTonic c.keyMode
    let midi ← mapPy entryMidi m
    .ok (m.map (entryTpc tpcC), midi)

/-- eval_utils.py:224-231: what the three arrays get for a chord. -/
def chordLabels (isNum : Char → Bool) (tpcC : Int) (x : Chord δ × Option Str) :
    Py (Int × List ChangeEntry × List ChangeEntry) := do
  let v ← x.1.oneHotIndex false true false noReduction
  let (tpc, midi) ← suspensionStrings isNum tpcC x.1 x.2
  .ok (v, tpc, midi)

/-- eval_utils.py:275-290: a row; the position stands for `mc` and `mn_onset`. -/
structure FullRow (τ : Type) where
  rootTpc : Int
  rootMidi : Int
  chordType : ChordType
  inversion : Int
  suspensionTpc : List ChangeEntry
  suspensionMidi : List ChangeEntry
  tonicTpc : Int
  tonicMidi : Int
  mode : KeyMode
  duration : ℚ
  pos : τ
  deriving DecidableEq

/-- eval_utils.py:254-290: the loop. -/
def fullRows {τ : Type} (tpcC : Int) :
    List (ℚ × (Int × List ChangeEntry × List ChangeEntry) × Int × τ) → Py (List (FullRow τ))
  | [] => .ok []
  | (d, (chord, tpc, midi), key, pos) :: rest =>
    if d = 0 then fullRows tpcC rest
    else do
      let (root, ct, inv) ← chordFromOneHotIndex chord .tpc true false false noReduction
      let (tonic, mode) ← keyFromOneHotIndex key .tpc false
      let rootMidi ← convertPitch root .tpc .midi
      let tonicMidi ← convertPitch tonic .tpc .midi
      let more ← fullRows tpcC rest
      .ok (⟨root - TPC_C + tpcC, rootMidi, ct, inv, tpc, midi, tonic - TPC_C + tpcC, tonicMidi, mode, d,
        pos⟩ :: more)

/-- eval_utils.py:123-292 `get_labels_df`. The chords come with their `suspension`. The three arrays which
are filled over the same slices (lines 221-241) are one array of triples. -/
def labelsDf {τ : Type} (isNum : Char → Bool) (tpcC : Int) (cache : List ℚ)
    (chords : List (Chord δ × Option Str)) (chordChanges : List Nat) (keys : List Key)
    (keyChanges : List Nat) (onsets : List τ) : Py (List (FullRow τ)) := do
  let arr ← fillLoop (chordLabels isNum tpcC) chords chordChanges
    (List.replicate onsets.length (0, [], []))
  let last ← pyGet chords (-1)
  let v ← chordLabels isNum tpcC last
  let a ← pyGet chordChanges (-1)
  let keyArr ← gtLabels Key.oneHotIndex onsets.length keys keyChanges
  fullRows tpcC (cache.zip ((assignRange arr a onsets.length v).zip (keyArr.zip onsets)))

end Verif
