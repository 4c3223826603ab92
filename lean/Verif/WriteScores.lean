import Verif.OutputFiles
import Verif.Checkpoints
import Verif.ForceLabels

/-!
# Writing labels onto scores

Model of /repo/write_to_score.py:13-45, which is also /repo/test.py:150-182, and of the choice of files in
/repo/harmonic_inference/utils/eval_utils.py:921-930. What the library then does with the files is not modelled.
-/

namespace Verif

/-- `".tsv"`. -/
def tsvEnd : Str := ['.', 't', 's', 'v']

/-- `".mscx"`. -/
def mscxEnd : Str := ['.', 'm', 's', 'c', 'x']

/-- write_to_score.py:34 `glob` with `**`: hidden files and directories are left out. `p` is the path below the output
directory. -/
def isTsv (p : FilePath) : Bool :=
  p.all (fun c => c.head? != some '.') && tsvEnd.isSuffixOf (p.getLastD [])

/-- write_to_score.py:34: the files in order. -/
def tsvFiles (files : List FilePath) : List FilePath :=
  (files.filter isTsv).insertionSort fun p q => textLe (pyJoin ['/'] p) (pyJoin ['/'] q) = true

/-- write_to_score.py:35-42: the arguments of `write_labels_to_score`, once for each file. -/
def scoreCalls (out ann : FilePath) (files : List FilePath) : List (FilePath × FilePath × Str) :=
  (tsvFiles files).map fun p => (out ++ p.dropLast, ann ++ p.dropLast, stemOf (p.getLastD []))

/-- The name of a file as a regular expression, at the beginning of a text: what is left. A full stop is any character
but the end of a line; the name has none of the other special characters of regular expressions. -/
def nameRegex : Str → Str → Option Str
  | [], s => some s
  | _ :: _, [] => none
  | c :: p, d :: s => if c = d ∨ (c = '.' ∧ d ≠ '\n') then nameRegex p s else none

/-- eval_utils.py:926: `basename + "\\.(mscx|tsv)"` at the beginning of a text. -/
def fileRegex (basename s : Str) : List Str :=
  match nameRegex basename s with
  | none => []
  | some rest => (literal mscxEnd rest).toList ++ (literal tsvEnd rest).toList

/-- eval_utils.py:929-930: the files which are parsed. The library searches the expression anywhere in the name. -/
def pickedFiles (basename : Str) (names : List Str) : List Str :=
  names.filter fun n => (search (fileRegex basename) n).isSome

end Verif
