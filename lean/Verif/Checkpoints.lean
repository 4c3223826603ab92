import Verif.GridSearch
import Verif.H5Files
import Mathlib.Data.List.Sort

/-!
# Loading the models of a run

Model of `load_models_from_argparse`, /repo/harmonic_inference/utils/data_utils.py:198-262. The file system is the list
of the texts of all paths which exist, as `glob` would print them.
-/

namespace Verif

/-- `fnmatch` of one component of a path: `*` is any text, `?` any character. Sets of characters (`[`) are not modelled. -/
def fnMatch : Str → Str → Bool
  | [], s => s.isEmpty
  | c :: p, s =>
    if c = '*' then s.tails.any fun t => fnMatch p t
    else match s with
      | [] => false
      | d :: t => (c = '?' || c = d) && fnMatch p t

/-- `glob`: a pattern which does not begin with a dot does not match a name which does. -/
def nameMatch (p s : Str) : Bool := (s.head? != some '.' || p.head? == some '.') && fnMatch p s

/-- `glob`: patterns are matched component by component. -/
def pathMatch (p s : Str) : Bool :=
  (pySplit ['/'] p).length == (pySplit ['/'] s).length &&
    ((pySplit ['/'] p).zip (pySplit ['/'] s)).all fun x => nameMatch x.1 x.2

/-- `s <= t` of texts: the code points of the first character in which they differ decide. -/
def textLe : Str → Str → Bool
  | [], _ => true
  | _ :: _, [] => false
  | a :: s, b :: t => if a.toNat < b.toNat then true else if a = b then textLe s t else false

/-- `sorted` of texts. -/
def sortTexts (l : List Str) : List Str := l.insertionSort fun s t => textLe s t = true

/-- data_utils.py:233-243: the checkpoint of a model, the last one of those which match; `none` where there is no
match (236). -/
def findCheckpoint (paths : List Str) (checkpoint name : Str) (m : Str × Option Int) : Option Str :=
  (sortTexts (paths.filter (pathMatch (checkpointGlob checkpoint name m)))).getLast?

/-- joint_model.py:31-38 `MODEL_CLASSES` without `icm`, by the names of the classes. -/
def modelClasses : List (Str × List Str) :=
  [(chars% "ccm", [chars% "SimpleChordClassifier"]),
    (chars% "ctm", [chars% "SimpleChordTransitionModel"]),
    (chars% "csm", [chars% "SimpleChordSequenceModel", chars% "PitchBasedChordSequenceModel"]),
    (chars% "ktm", [chars% "SimpleKeyTransitionModel"]),
    (chars% "ksm", [chars% "SimpleKeySequenceModel"])]

/-- data_utils.py:245-254: the first class which can be loaded; `load` is `load_from_checkpoint` of a class. The
`assert` fails if there is none. -/
def loadFirst {μ : Type} (load : Str → Str → Py μ) (path : Str) : List Str → Except H5Stop μ
  | [] => .error (.raised .valueError)
  | c :: cs =>
    match load c path with
    | .ok m => .ok m
    | .error _ => loadFirst load path cs

/-- data_utils.py:214-254: one model. -/
def loadModel {μ : Type} (paths : List Str) (load : Str → Str → Py μ) (checkpoint : Str)
    (x : (Str × List Str) × (Str × Option Int)) : Except H5Stop (Str × μ) :=
  match findCheckpoint paths checkpoint x.1.1 x.2 with
  | none => .error (.exit 2)
  | some path =>
    match loadFirst load path x.1.2 with
    | .ok m => .ok (x.1.1, m)
    | .error e => .error e

/-- data_utils.py:256-259: the initial chord model, given how a file is loaded. -/
def loadIcm {μ : Type} (load : Str → Py μ) (checkpoint icmJson : Str) : Except H5Stop (Str × μ) :=
  match load (pyReplace (chars% "`--checkpoint`") checkpoint icmJson) with
  | .ok m => .ok (chars% "icm", m)
  | .error e => .error (.raised e)

/-- data_utils.py:198-262 `load_models_from_argparse`. `models` are the checkpoint and the version of each model in the
order of `modelClasses`. -/
def loadModels {μ : Type} (paths : List Str) (load : Str → Str → Py μ) (loadJson : Str → Py μ)
    (checkpoint icmJson : Str) (models : List (Str × Option Int)) : Except H5Stop (List (Str × μ)) := do
  let ms ← (modelClasses.zip models).mapM (loadModel paths load checkpoint)
  let i ← loadIcm loadJson checkpoint icmJson
  .ok (ms ++ [i])

end Verif
