import Verif.GridSearch
import Verif.ForceLabels
import Verif.ForcesJson
import Mathlib.Algebra.Order.Field.Rat

/-!
# Averages of the accuracies of a log file

Model of /repo/harmonic_inference/utils/eval_utils.py:941-974 (`average_results`) and of the accuracies which
/repo/test.py:211-294 logs. Floating point numbers are rational numbers; `toFloat` is Python's `float`.
-/

namespace Verif

/-- eval_utils.py:941 `split_on`. -/
def splitOn : Str := chars% " = "

/-- eval_utils.py:960-972: a line; `acc` are the values so far. -/
def averageStep (toFloat : Str → Py Rat) (acc : List (Str × List Rat)) (line : Str) : Py (List (Str × List Rat)) :=
  if ¬ containsLiteral splitOn line then .ok acc
  else match pySplit splitOn line with
    | [key, value] =>
      if containsLiteral (chars% "accuracy") (strip key) then
        match toFloat value with
        | .ok v => .ok (putItem (strip key) ((acc.lookup (strip key)).getD [] ++ [v]) acc)
        | .error e => .error e
      else .ok acc
    | _ => .ok acc

/-- eval_utils.py:974 `np.mean`. -/
def meanRat (l : List Rat) : Rat := l.sum / l.length

/-- eval_utils.py:957-974 `average_results`, given the lines of the file. -/
def averageResults (toFloat : Str → Py Rat) (lines : List Str) : Py (List (Str × Rat)) :=
  (lines.foldlM (averageStep toFloat) []).map fun acc => acc.map fun p => (p.1, meanRat p.2)

/-- test.py:272-293: the names of the accuracies, in the order of the log. -/
def accuracyNames : List Str :=
  [chars% "Chord accuracy", chars% "Chord accuracy, no inversions", chars% "Chord accuracy, triads",
    chars% "Chord accuracy, triad, no inversions", chars% "Chord accuracy, root only", chars% "Key accuracy",
    chars% "Key accuracy, tonic only", chars% "Full accuracy"]

/-- What is logged for a piece. -/
inductive PieceLog where
  /-- test.py:229-231: no estimate was found. -/
  | failed
  /-- test.py:233-234: no ground truth. -/
  | unknown
  /-- test.py:235-293: the accuracies in the order of `accuracyNames`. -/
  | known (accuracies : List Rat)

/-- test.py:213, 230, 234 and 272-293: the lines for a piece, with the prefix of `logging.basicConfig`
(test.py:543-547); `str` is Python's `str` of a number. The other lines of the log (about forces and written files) are
left out. -/
def pieceLines (str : Rat → Str) (name : Str) : PieceLog → List Str
  | .failed => [chars% "INFO:root:Running piece " ++ name ++ ['\n'], chars% "INFO:root:Returned None\n"]
  | .unknown => [chars% "INFO:root:Running piece " ++ name ++ ['\n'],
      chars% "INFO:root:Cannot compute accuracy. Ground truth unknown.\n"]
  | .known accs => (chars% "INFO:root:Running piece " ++ name ++ ['\n']) ::
      (accuracyNames.zip accs).map fun p => chars% "INFO:root:" ++ p.1 ++ splitOn ++ str p.2 ++ ['\n']

/-- The log of `evaluate`. -/
def evalLog (str : Rat → Str) (pieces : List (Str × PieceLog)) : List Str :=
  pieces.flatMap fun p => pieceLines str p.1 p.2

end Verif
