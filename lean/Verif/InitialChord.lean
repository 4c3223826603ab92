import Verif.Vectors

/-!
# Initial chord model

Model of /repo/harmonic_inference/models/initial_chord_models.py. Probabilities are rationals and the
logarithm is a parameter.
-/

namespace Verif

/-- initial_chord_models.py:262-270, the data written to the json file. -/
structure ICMData where
  inversionsPresent : Bool
  reductionPresent : Option Reduction
  pitchType : PitchType
  major : List ℚ
  minor : List ℚ

/-- `v[i] += x` for a numpy array and `0 <= i`. -/
def addAt (v : List ℚ) (i : Int) (x : ℚ) : Py (List ℚ) :=
  if 0 ≤ i ∧ i < v.length then .ok (v.set i.toNat (v.getD i.toNat 0 + x)) else .error .indexError

/-- initial_chord_models.py:246-254, the body of the loop. -/
def countChord (acc : List ℚ × List ℚ) (c : Chord ℚ) : Py (List ℚ × List ℚ) := do
  let i ← c.oneHotIndex true true false noReduction
  if c.keyMode = .major then do
    let v ← addAt acc.1 i 1
    .ok (v, acc.2)
  else do
    let v ← addAt acc.2 i 1
    .ok (acc.1, v)

/-- initial_chord_models.py:256-258, `v /= np.sum(v)`. -/
def normalised (v : List ℚ) : List ℚ := v.map (· / v.sum)

/-- initial_chord_models.py:211-272 `train_icm`: what is written to the json file. -/
def trainICM (chords : List (Chord ℚ)) (smoothing : ℚ) : Py ICMData := do
  let first ← pyGet chords 0
  let n := (chordOneHotLength first.pitchType true true false noReduction).toNat
  let start := List.replicate n (smoothing / n)
  let (major, minor) ← chords.foldlM countChord (start, start)
  .ok { inversionsPresent := true, reductionPresent := none, pitchType := first.pitchType,
        major := normalised major, minor := normalised minor }

/-- A loaded model: initial_chord_models.py:44-145. -/
structure ICM where
  pitchType : PitchType
  majorPrior : List ℚ
  minorPrior : List ℚ
  useInversions : Bool
  reduction : Reduction

/-- initial_chord_models.py:25-145 `SimpleInitialChordModel.__init__`, for data without the optional fields
`use_inversions` and `reduction`, and for reductions of all chord types. `np.zeros` of the list of
labels (lines 111-118) is a `TypeError`. -/
def ICM.init (data : ICMData) (useInversions : Bool) (reduction : Option Reduction) : Py ICM := do
  let present := data.reductionPresent.getD noReduction
  let red := reduction.getD noReduction
  if reduction.isSome ∨ useInversions = false then do
    let _ ← chordLabelList data.pitchType useInversions true none false red
    .error .typeError
  else
    .ok { pitchType := data.pitchType, majorPrior := data.major, minorPrior := data.minor,
          useInversions := useInversions && data.inversionsPresent,
          reduction := fun t => red (present t) }

/-- initial_chord_models.py:147-165 `get_prior` with `log=False`. -/
def ICM.prior (m : ICM) (isMinor : Bool) : List ℚ := if isMinor then m.minorPrior else m.majorPrior

/-- `np.argmax` of a non-empty array: the first position of the greatest element. -/
def argmaxFrom {L : Type} [LinearOrder L] (best : L) (at_ pos : Nat) : List L → Nat
  | [] => at_
  | x :: l => if best < x then argmaxFrom x pos (pos + 1) l else argmaxFrom best at_ (pos + 1) l

/-- `np.argmax`; a `ValueError` for an empty array. -/
def argmax {L : Type} [LinearOrder L] : List L → Py Nat
  | [] => .error .valueError
  | x :: l => .ok (argmaxFrom x 0 1 l)

/-- What `evaluate` uses of a piece: the first chord and the mode of the first key. -/
structure Opening where
  chord : Chord ℚ
  mode : KeyMode

/-- initial_chord_models.py:188-203, the body of the loop: the number of correct guesses. The loss is
left out. -/
def ICM.correctFor (majorMax minorMax : Nat) (o : Opening) (prior : Bool → List ℚ) : Py Nat := do
  let i ← o.chord.oneHotIndex true true false noReduction
  let best := if o.mode = .major then majorMax else minorMax
  -- `log_prior[first_chord_one_hot]`
  let _ ← pyGet (prior (decide (o.mode ≠ .major))) i
  .ok (if i = best then 1 else 0)

/-- initial_chord_models.py:167-208 `evaluate`: the accuracy; `log` is the logarithm. -/
def ICM.accuracy {L : Type} [LinearOrder L] (log : ℚ → L) (m : ICM) (pieces : List Opening) : Py ℚ := do
  let majorMax ← argmax ((m.prior false).map log)
  let minorMax ← argmax ((m.prior true).map log)
  let correct ← pieces.mapM fun o => ICM.correctFor majorMax minorMax o m.prior
  if pieces = [] then .error .zeroDivisionError
  else .ok (100 * (correct.sum : ℚ) / pieces.length)

end Verif
