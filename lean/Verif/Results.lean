import Verif.Eval

/-!
# Result tables

Model of `get_results_df` and `get_label_df` in /repo/harmonic_inference/utils/eval_utils.py. A piece and
an estimate are given as in `Verif.Eval`.
-/

namespace Verif

/-! ## `get_results_df` -/

/-- eval_utils.py:56-66: the label of a chord of the piece. -/
def gtChordCode {δ : Type} (rootType : PitchType) (c : Chord δ) : Py Int := do
  let c ← c.toPitchType rootType
  c.oneHotIndex false true false noReduction

/-- eval_utils.py:70-76: the label of an estimated chord. Indexing a list with None is a `TypeError`. -/
def estChordCode (outRoot rootType : PitchType) : Option Int → Py Int
  | none => .error .typeError
  | some c => do
    let (root, ct, inv) ← chordFromOneHotIndex c outRoot true false false noReduction
    let root ← convertPitch root outRoot rootType
    chordOneHotIndex ct root rootType inv true false false noReduction

/-- eval_utils.py:82-84: the label of a key of the piece. -/
def gtKeyCode (tonicType : PitchType) (k : Key) : Py Int := do
  let k ← k.toPitchType tonicType
  k.oneHotIndex

/-- eval_utils.py:88-94: the label of an estimated key. -/
def estKeyCode (outTonic tonicType : PitchType) (k : Int) : Py Int := do
  let (tonic, mode) ← keyFromOneHotIndex k outTonic false
  let tonic ← convertPitch tonic outTonic tonicType
  keyOneHotIndex mode tonic tonicType

/-- eval_utils.py:109-117: a row of the results. -/
structure ResultRow where
  gtKey : Str
  gtChord : Str
  estKey : Str
  estChord : Str
  duration : ℚ
  deriving DecidableEq

/-- eval_utils.py:99-118: the loop. The entries are the duration and the labels: estimated and true
chord, estimated and true key. -/
def resultRows (chordNames keyNames : List Str) :
    List (ℚ × (Int × Int) × (Int × Int)) → Py (List ResultRow)
  | [] => .ok []
  | (d, (ec, gc), (ek, gk)) :: rest =>
    if d = 0 then resultRows chordNames keyNames rest
    else do
      let gtKey ← pyGet keyNames gk
      let gtChord ← pyGet chordNames gc
      let estKey ← pyGet keyNames ek
      let estChord ← pyGet chordNames ec
      let more ← resultRows chordNames keyNames rest
      .ok (⟨gtKey, gtChord, estKey, estChord, d⟩ :: more)

variable {δ : Type}

/-- eval_utils.py:26-120 `get_results_df`. -/
def resultsDf (A : EvalInput δ) (outRoot outTonic rootType tonicType : PitchType) :
    Py (List ResultRow) := do
  let gtC ← gtLabels (gtChordCode rootType) A.inputs A.gtChords A.gtChordChanges
  let estC ← fillLoop (estChordCode outRoot rootType) A.estChords A.estChordChanges
    (List.replicate A.inputs 0)
  let gtK ← gtLabels (gtKeyCode tonicType) A.inputs A.gtKeys A.gtKeyChanges
  let estK ← fillLoop (estKeyCode outTonic tonicType) A.estKeys A.estKeyChanges
    (List.replicate A.inputs 0)
  let chordNames ← chordLabelList rootType true false none false noReduction
  let keyNames ← keyLabelList tonicType false none
  resultRows chordNames keyNames (A.cache.zip ((estC.zip gtC).zip (estK.zip gtK)))

/-! ## `get_label_df` -/

/-- The values of `color_name`. -/
inductive Colour
  | green | yellow | red
  deriving DecidableEq

/-- eval_utils.py:815-841: the colour of a key. -/
def keyColour (pt : PitchType) (est gt : Int) : Py Colour := do
  let g ← keyFromOneHotIndex gt pt false
  let e ← keyFromOneHotIndex est pt false
  .ok (if keyDistance false g e = 0 then .green
    else if keyDistance true g e ≠ 1 then .yellow else .red)

/-- eval_utils.py:853-890: the colour of a chord. -/
def chordColour (pt : PitchType) (est gt : Int) : Py Colour := do
  let g ← chordFromOneHotIndex gt pt true false false noReduction
  let e ← chordFromOneHotIndex est pt true false false noReduction
  .ok (if chordDistance true noReduction g e = 0 then .green
    else if chordDistance false triadReduction g e ≠ 1 then .yellow else .red)

/-- eval_utils.py:843-851: a row; the position stands for `mc`, `mc_onset` and `mn_onset`. -/
structure LabelRow (τ : Type) where
  label : Str
  pos : τ
  colour : Colour
  deriving DecidableEq

/-- A true and an estimated label string. -/
abbrev LabelPair := Option Str × Option Str

/-- eval_utils.py:814-851 and 853-890: the row for one kind of label, if there is one. `prev` and `now` are
the true and the estimated strings before and now. -/
def labelRow {τ : Type} (colour : Py Colour) (prev now : LabelPair) (est : Str) (pos : τ) :
    Py (List (LabelRow τ)) :=
  if now.1 ≠ prev.1 ∨ now.2 ≠ prev.2 then do
    let c ← colour
    .ok [⟨if now.2 ≠ prev.2 then est else "--".toList, pos, c⟩]
  else .ok []

/-- eval_utils.py:783-897: the loop. The entries are the duration, the position and the labels: estimated
and true chord, estimated and true key. -/
def labelRows {τ : Type} (rootType tonicType : PitchType) (chordNames keyNames : List Str) :
    LabelPair → LabelPair → List (ℚ × τ × (Int × Int) × (Int × Int)) → Py (List (LabelRow τ))
  | _, _, [] => .ok []
  | prevKey, prevChord, (d, pos, (ec, gc), (ek, gk)) :: rest =>
    if d = 0 then labelRows rootType tonicType chordNames keyNames prevKey prevChord rest
    else do
      let gtChord ← pyGet chordNames gc
      let gtKey ← pyGet keyNames gk
      let estChord ← pyGet chordNames ec
      let estKey ← pyGet keyNames ek
      let key := (some gtKey, some estKey)
      let chord := (some gtChord, some estChord)
      if chord = prevChord ∧ key = prevKey then
        labelRows rootType tonicType chordNames keyNames prevKey prevChord rest
      else do
        let keyRow ← labelRow (keyColour tonicType ek gk) prevKey key estKey pos
        let chordRow ← labelRow (chordColour rootType ec gc) prevChord chord estChord pos
        let more ← labelRows rootType tonicType chordNames keyNames key chord rest
        .ok (keyRow ++ chordRow ++ more)

/-- eval_utils.py:741-751: the true chord labels. `len` of None, the chords of a piece without
annotations (piece.py:418, 459-460), is a `TypeError`; an empty array of chords leaves the labels at -1. -/
def gtChordsOrNone (n : Nat) : Option (List (Chord δ)) → List Nat → Py (List Int)
  | none, _ => .error .typeError
  | some [], _ => .ok (List.replicate n (-1))
  | some (c :: cs), changes => do
    let enc := fun c : Chord δ => c.oneHotIndex false true false noReduction
    let arr ← fillLoop enc (c :: cs) changes (List.replicate n (-1))
    let last ← pyGet (c :: cs) (-1)
    let v ← enc last
    let a ← pyGet changes (-1)
    .ok (assignRange arr a n v)

/-- eval_utils.py:758-765: the true key labels. -/
def gtKeysOrNone (n : Nat) : Option (List Key) → List Nat → Py (List Int)
  | none, _ => .error .typeError
  | some [], _ => .ok (List.replicate n (-1))
  | some (k :: ks), changes => gtLabels Key.oneHotIndex n (k :: ks) changes

/-- eval_utils.py:716-899 `get_label_df` for the positions of the notes. `chords`, `keys`: those of the
piece, in place of the fields of `A`. -/
def labelDf {τ : Type} (A : EvalInput δ) (chords : Option (List (Chord δ))) (keys : Option (List Key))
    (positions : List τ) (rootType tonicType : PitchType) : Py (List (LabelRow τ)) := do
  let gtC ← gtChordsOrNone A.inputs chords A.gtChordChanges
  let estC ← estLabels A.inputs A.estChords A.estChordChanges
  let gtK ← gtKeysOrNone A.inputs keys A.gtKeyChanges
  let estK ← estLabels A.inputs (A.estKeys.map some) A.estKeyChanges
  let chordNames ← chordLabelList rootType true false none false noReduction
  let keyNames ← keyLabelList tonicType false none
  labelRows rootType tonicType chordNames keyNames (none, none) (none, none)
    (A.cache.zip (positions.zip ((estC.zip gtC).zip (estK.zip gtK))))

end Verif
