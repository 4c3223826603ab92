import Verif.Eval

/-!
# Debug output

Model of /repo/harmonic_inference/utils/eval_utils.py:977-1060 `log_state`. A note is given by its onset and its
offset. The logged messages are blocks: the range, the duration, the estimated structure and, if it is logged, the
correct structure.
-/

namespace Verif

/-- The messages that are logged for one range, eval_utils.py:1055-1058. The correct structure is None if it is not
logged. -/
structure LogBlock (τ : Type) where
  start : τ
  stop : τ
  duration : ℚ
  estKey : Str
  estChord : Str
  correct : Option (Str × Str)
  deriving DecidableEq, Repr

/-- eval_utils.py:1028-1031: where the structure is not the one before. -/
def changeMask {σ : Type} [DecidableEq σ] (l : List σ) : List Bool :=
  true :: (l.zip l.tail).map fun p => decide (p.1 ≠ p.2)

/-- numpy `a[mask]` with a list of booleans: the lengths have to agree. -/
def boolSelect {α : Type} (mask : List Bool) (l : List α) : Py (List α) :=
  if mask.length = l.length then .ok ((mask.zip l).filterMap fun p => if p.1 then some p.2 else none)
  else .error .indexError

/-- eval_utils.py:1036-1040: the sums of the durations of each range. -/
def rangeDurations (cache : List ℚ) (n : Nat) (indexes : List Nat) : List ℚ :=
  (indexes.zip (indexes.tail ++ [n])).map fun p => ((cache.take p.2).drop p.1).sum

/-- eval_utils.py:1049-1058: the body of the loop. The labels are (ground truth chord, estimated chord, ground truth
key, estimated key). -/
def logBlock {τ : Type} (chordNames keyNames : List Str) (x : (Int × Int × Int × Int) × τ × τ × ℚ) :
    Py (LogBlock τ) := do
  let gtChord ← pyGet chordNames x.1.1
  let estChord ← pyGet chordNames x.1.2.1
  let gtKey ← pyGet keyNames x.1.2.2.1
  let estKey ← pyGet keyNames x.1.2.2.2
  .ok { start := x.2.1, stop := x.2.2.1, duration := x.2.2.2, estKey := estKey, estChord := estChord,
        correct := if gtKey ≠ estKey ∨ gtChord ≠ estChord then some (gtKey, gtChord) else none }

variable {δ : Type}

/-- eval_utils.py:977-1060 `log_state` for a piece with annotations. -/
def logState {τ : Type} (A : EvalInput δ) (notes : List (τ × τ)) (rootType tonicType : PitchType) :
    Py (List (LogBlock τ)) := do
  let (estC, gtC) ← chordArrays A
  let (estK, gtK) ← keyArrays A
  let chordNames ← chordLabelList rootType true false none false noReduction
  let keyNames ← keyLabelList tonicType false none
  let changes := changeMask (gtK.zip (gtC.zip (estK.zip estC)))
  let starts ← boolSelect changes (notes.map (·.1))
  let last ← pyGet notes (-1)
  let indexes ← boolSelect changes (List.range changes.length)
  let gtC' ← boolSelect changes gtC
  let estC' ← boolSelect changes estC
  let gtK' ← boolSelect changes gtK
  let estK' ← boolSelect changes estK
  ((gtC'.zip (estC'.zip (gtK'.zip estK'))).zip (starts.zip ((starts.tail ++ [last.2]).zip
    (rangeDurations A.cache changes.length indexes)))).mapM (logBlock chordNames keyNames)

/-- The same for any piece: without annotations `gt_changes` is None, and `gt_changes[1:]` at eval_utils.py:997 is a
`TypeError`. -/
def logPiece {τ : Type} (annotated : Bool) (A : EvalInput δ) (notes : List (τ × τ)) (rootType tonicType : PitchType) :
    Py (List (LogBlock τ)) :=
  if annotated then logState A notes rootType tonicType else .error .typeError

end Verif
