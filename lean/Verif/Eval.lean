import Verif.ChordKey
import Verif.State
import Mathlib.Data.Rat.Defs

/-!
# Evaluation

Model of /repo/harmonic_inference/utils/eval_utils.py. A piece is given by its number of inputs, its
duration cache, its chords and keys and their change indices; an estimate by the values of
`State.get_chords` and `State.get_keys`. Accuracies are rational numbers in place of floats.
-/

namespace Verif

/-- numpy `a[start:stop] = v` for indices which are not negative. -/
def assignRange {β : Type} (a : List β) (start stop : Nat) (v : β) : List β :=
  a.mapIdx (fun i x => if start ≤ i ∧ i < stop then v else x)

/-- The loop `for item, start, end in zip(items, changes, changes[1:])` over a label array,
eval_utils.py:330-333, 342-343, 458-459, 465-466. -/
def fillLoop {α β : Type} (enc : α → Py β) : List α → List Nat → List β → Py (List β)
  | x :: xs, a :: b :: rest, arr =>
    match enc x with
    | .error e => .error e
    | .ok v => fillLoop enc xs (b :: rest) (assignRange arr a b v)
  | _, _, arr => .ok arr

/-- eval_utils.py:327-336 and 455-460: the label of the ground truth at each input. The last item goes
on to the end. -/
def gtLabels {α : Type} (enc : α → Py Int) (n : Nat) (items : List α) (changes : List Nat) :
    Py (List Int) := do
  let arr ← fillLoop enc items changes (List.replicate n 0)
  let x ← pyGet items (-1)
  let v ← enc x
  let a ← pyGet changes (-1)
  .ok (assignRange arr a n v)

/-- A chord of a state as an entry of an integer array: None is a `TypeError`. -/
def stateLabel : Option Int → Py Int
  | none => .error .typeError
  | some c => .ok c

/-- eval_utils.py:340-343 and 462-465: the estimated label at each input. -/
def estLabels (n : Nat) (items : List (Option Int)) (changes : List Nat) : Py (List Int) :=
  fillLoop stateLabel items changes (List.replicate n 0)

/-- eval_utils.py:375-422 `get_chord_distance`. -/
def chordDistance (useInv : Bool) (red : Reduction) (gt est : Int × ChordType × Int) : ℚ :=
  let gtInv := if useInv then gt.2.2 else 0
  let estInv := if useInv then est.2.2 else 0
  if gt.1 = est.1 ∧ red gt.2.1 = red est.2.1 ∧ gtInv = estInv then 0 else 1

/-- eval_utils.py:487-518 `get_key_distance`. -/
def keyDistance (tonicOnly : Bool) (gt est : Int × KeyMode) : ℚ :=
  if tonicOnly then if gt.1 = est.1 then 0 else 1
  else if gt.1 = est.1 ∧ gt.2 = est.2 then 0 else 1

/-- The accumulation of eval_utils.py:345-370 and 467-482, given the similarity of two labels. -/
def accumulate {α : Type} (sim : α → Py ℚ) : List (ℚ × α) → ℚ → Py ℚ
  | [], acc => .ok acc
  | (d, x) :: rest, acc =>
    if d = 0 then accumulate sim rest acc
    else
      match sim x with
      | .error e => .error e
      | .ok s => accumulate sim rest (acc + s * d)

/-- `accuracy / np.sum(cache)`; the cache is an array of Fractions. -/
def average (acc : ℚ) (cache : List ℚ) : Py ℚ :=
  if cache.sum = 0 then .error .zeroDivisionError else .ok (acc / cache.sum)

/-- The piece and the estimate that the evaluations get. -/
structure EvalInput (δ : Type) where
  cache : List ℚ
  inputs : Nat
  gtChords : List (Chord δ)
  gtChordChanges : List Nat
  gtKeys : List Key
  gtKeyChanges : List Nat
  estChords : List (Option Int)
  estChordChanges : List Nat
  estKeys : List Int
  estKeyChanges : List Nat

variable {δ : Type}

/-- `1.0 - get_chord_distance(...)` of two chord labels, eval_utils.py:353-370. -/
def chordSim (pt : PitchType) (useInv : Bool) (red : Reduction) (x : Int × Int) : Py ℚ := do
  let gt ← chordFromOneHotIndex x.2 pt true false false noReduction
  let est ← chordFromOneHotIndex x.1 pt true false false noReduction
  .ok (1 - chordDistance useInv red gt est)

/-- `1.0 - get_key_distance(...)` of two key labels, eval_utils.py:472-482. -/
def keySim (pt : PitchType) (tonicOnly : Bool) (x : Int × Int) : Py ℚ := do
  let gt ← keyFromOneHotIndex x.2 pt false
  let est ← keyFromOneHotIndex x.1 pt false
  .ok (1 - keyDistance tonicOnly gt est)

/-- The arrays of chord labels (estimated, ground truth). -/
def chordArrays (A : EvalInput δ) : Py (List Int × List Int) := do
  let gt ← gtLabels (fun c => c.oneHotIndex false true false noReduction) A.inputs A.gtChords
    A.gtChordChanges
  let est ← estLabels A.inputs A.estChords A.estChordChanges
  .ok (est, gt)

/-- The arrays of key labels (estimated, ground truth). -/
def keyArrays (A : EvalInput δ) : Py (List Int × List Int) := do
  let gt ← gtLabels Key.oneHotIndex A.inputs A.gtKeys A.gtKeyChanges
  let est ← estLabels A.inputs (A.estKeys.map some) A.estKeyChanges
  .ok (est, gt)

/-- eval_utils.py:298-372 `evaluate_chords`. -/
def evaluateChords (A : EvalInput δ) (pt : PitchType) (useInv : Bool) (red : Reduction) : Py ℚ := do
  let (est, gt) ← chordArrays A
  let acc ← accumulate (chordSim pt useInv red) (A.cache.zip (est.zip gt)) 0
  average acc A.cache

/-- eval_utils.py:425-484 `evaluate_keys`. -/
def evaluateKeys (A : EvalInput δ) (pt : PitchType) (tonicOnly : Bool) : Py ℚ := do
  let (est, gt) ← keyArrays A
  let acc ← accumulate (keySim pt tonicOnly) (A.cache.zip (est.zip gt)) 0
  average acc A.cache

/-- eval_utils.py:521-628 `evaluate_chords_and_keys_jointly`. -/
def evaluateJointly (A : EvalInput δ) (rootType tonicType : PitchType) (useInv : Bool) (red : Reduction)
    (tonicOnly : Bool) : Py ℚ := do
  let (estC, gtC) ← chordArrays A
  let (estK, gtK) ← keyArrays A
  let sim (x : (Int × Int) × (Int × Int)) : Py ℚ := do
    let c ← chordSim rootType useInv red x.1
    let k ← keySim tonicType tonicOnly x.2
    .ok (c * k)
  let acc ← accumulate sim (A.cache.zip ((estC.zip gtC).zip (estK.zip gtK))) 0
  average acc A.cache

/-- eval_utils.py:668-711: the loop of `get_annotation_df`. A row is a label and the position of its
note; `prevKey` and `prevChord` are the strings in force. -/
def annotationLoop {τ : Type} (chordNames keyNames : List Str) :
    Option Str → Option Str → List (ℚ × τ × Int × Int) → Py (List (Str × τ))
  | _, _, [] => .ok []
  | prevKey, prevChord, (d, pos, c, k) :: rest =>
    if d = 0 then annotationLoop chordNames keyNames prevKey prevChord rest
    else do
      let chord ← pyGet chordNames c
      let key ← pyGet keyNames k
      if some chord = prevChord ∧ some key = prevKey then
        annotationLoop chordNames keyNames prevKey prevChord rest
      else do
        let more ← annotationLoop chordNames keyNames (some key) (some chord) rest
        .ok ((if some key = prevKey then [] else [(key, pos)]) ++
          (if some chord = prevChord then [] else [(chord, pos)]) ++ more)

/-- eval_utils.py:631-713 `get_annotation_df` for the positions of the notes. -/
def annotationDf {τ : Type} (A : EvalInput δ) (positions : List τ) (rootType tonicType : PitchType) :
    Py (List (Str × τ)) := do
  let estC ← estLabels A.inputs A.estChords A.estChordChanges
  let estK ← estLabels A.inputs (A.estKeys.map some) A.estKeyChanges
  let chordNames ← chordLabelList rootType true false none false noReduction
  let keyNames ← keyLabelList tonicType false none
  annotationLoop chordNames keyNames none none (A.cache.zip (positions.zip (estC.zip estK)))

end Verif
