import Verif.OutputFiles
import Verif.Lemmas.PyStr

/-!
# Commands of a grid search

Model of /repo/grid_search.py:118-208 (the commands which are printed), of the command line of /repo/test.py:363-533
which reads them, and of the choice of checkpoints in
/repo/harmonic_inference/utils/data_utils.py:214-239 and 255-256.

Hyperparameters are given by the text `str(val)` of their value; that Python reads this text back as the same value is
part of the trusted base. A path is given by its text.
-/

namespace Verif

open Lean in
/-- The characters of a text. -/
macro "chars%" s:str : term => do
  s.getString.toList.foldrM (fun c rest => `(List.cons $(Syntax.mkCharLit c) $rest)) (← `(([] : List Char)))

/-- joint_model.py:31-38 `MODEL_CLASSES.keys()` without `icm`. -/
def modelNames : List Str := [chars% "ccm", chars% "ctm", chars% "csm", chars% "ktm", chars% "ksm"]

/-- joint_model.py:72-178 `add_joint_model_args`: the names of the hyperparameters, in order. -/
def hyperNames : List Str :=
  [chars% "min_chord_change_prob", chars% "max_no_chord_change_prob", chars% "max_chord_length",
    chars% "min_key_change_prob", chars% "max_no_key_change_prob", chars% "beam_size",
    chars% "max_chord_branching_factor", chars% "target_chord_branch_prob", chars% "max_key_branching_factor",
    chars% "target_key_branch_prob", chars% "hash_length", chars% "ksm_exponent"]

/-- joint_model.py:72-177: the options for them, in the order of `hyperNames`. -/
def hyperOptions : List Str :=
  [chars% "--min-chord-change-prob", chars% "--max-no-chord-change-prob", chars% "--max-chord-length",
    chars% "--min-key-change-prob", chars% "--max-no-key-change-prob", chars% "--beam-size",
    chars% "--max-chord-branching-factor", chars% "--target-chord-branch-prob", chars% "--max-key-branching-factor",
    chars% "--target-key-branch-prob", chars% "--hash-length", chars% "--ksm-exponent"]

/-- joint_model.py:47-58: the text of the defaults of the hyperparameters. -/
def hyperDefaults : List Str :=
  [chars% "0.25", chars% "0.45", chars% "8", chars% "0.05", chars% "0.75", chars% "50", chars% "5", chars% "0.75",
    chars% "2", chars% "0.5", chars% "5", chars% "50"]

/-- grid_search.py:60-62, 163-165, test.py:443-445 and data_utils.py:219-221 `DEFAULT_PATH`. -/
def defaultPath (model : Str) : Str :=
  chars% "`--checkpoint`/" ++ model ++ chars% "/lightning_logs/version_*/checkpoints/*.ckpt"

/-- grid_search.py:84 and test.py:469. -/
def defaultIcm : Str := chars% "`--checkpoint`/icm/initial_chord_prior.json"

/-- The arguments of a grid search: grid_search.py:17-116. `models` are the checkpoint and the version of every model
of `modelNames`, `values` the values of every hyperparameter of `hyperNames` (one value, if it is not given). -/
structure GridArgs where
  threads : Option Int
  seed : Int
  h5Dir : Str
  icmJson : Str
  checkpoint : Str
  xml : Bool
  test : Bool
  input : Str
  output : Str
  models : List (Str × Option Int)
  values : List (List Str)

/-- grid_search.py:159-175: the arguments of a model. -/
def modelTokens (name : Str) (m : Str × Option Int) : List Str :=
  match m.2 with
  | some v => [chars% "--" ++ name ++ chars% "-version", intStr v]
  | none => if m.1 ≠ defaultPath name then [chars% "--" ++ name, m.1] else []

/-- grid_search.py:119-178 `static_args`. -/
def staticArgs (a : GridArgs) : List Str :=
  (match a.threads with
    | some t => [chars% "--threads", intStr t]
    | none => []) ++
  (if a.seed ≠ 0 then [chars% "--seed", intStr a.seed] else []) ++
  (if a.h5Dir ≠ chars% "h5_data" then [chars% "-h5", a.h5Dir] else []) ++
  (if a.icmJson ≠ defaultIcm then [chars% "--icm-json", a.icmJson] else []) ++
  (if a.checkpoint ≠ chars% "checkpoints" then [chars% "--checkpoint", a.checkpoint] else []) ++
  (if a.xml then [chars% "-x"] else []) ++
  (if a.test then [chars% "--test"] else []) ++
  (if a.input ≠ chars% "corpus_data" then [chars% "--input", a.input] else []) ++
  (modelNames.zip a.models).flatMap fun p => modelTokens p.1 p.2

/-- grid_search.py:188: the first characters of the words of a name. -/
def abbreviation (name : Str) : Str := (pySplit ['_'] name).filterMap List.head?

/-- grid_search.py:191 `itertools.product`. -/
def pyProduct : List (List Str) → List (List Str)
  | [] => [[]]
  | l :: ls => l.flatMap fun x => (pyProduct ls).map (x :: ·)

/-- grid_search.py:193-195 `DIR_NAME`. -/
def gridDir (values : List Str) : Str :=
  pyJoin ['_'] (((hyperNames.map abbreviation).zip values).map fun p => p.1 ++ ['-'] ++ p.2)

/-- grid_search.py:199 `str(ARGS.output / DIR_NAME)`. -/
def joinDir (output dir : Str) : Str :=
  if output = ['.'] then dir else if output = ['/'] then '/' :: dir else output ++ ['/'] ++ dir

/-- grid_search.py:205 `name.replace('_', '-')`. -/
def dashed (name : Str) : Str := name.map fun c => if c = '_' then '-' else c

/-- grid_search.py:197-206 `this_args`. -/
def commandArgs (a : GridArgs) (values : List Str) : List Str :=
  staticArgs a ++ [chars% "--output", joinDir a.output (gridDir values)] ++ [chars% "--log", chars% "test.log"] ++
  (hyperNames.zip values).flatMap fun p => [chars% "--" ++ dashed p.1, p.2]

/-- grid_search.py:191-208: the printed lines. -/
def gridCommands (a : GridArgs) : List Str :=
  (pyProduct a.values).map fun values => chars% "python test.py " ++ pyJoin [' '] (commandArgs a values)

/-- The characters which mean nothing special to a shell. -/
def isPlain (c : Char) : Bool := c.isAlphanum || c ∈ ['-', '_', '.', '/', '=', ':', ',', '+', '@', '%']

/-- The words of a command line; lines with characters that are neither plain nor blank are not modelled. -/
def shellWords (line : Str) : Option (List Str) :=
  if line.all fun c => isPlain c || c == ' ' then some ((pySplit [' '] line).filter (· ≠ [])) else none

/-- The attributes of the arguments of `test.py`; models and hyperparameters are numbered. -/
inductive Dest where
  | input | test | xml | defaults | fhDefaults | forces | output | average | id | checkpoint | icm | log | verbose
  | h5 | noH5 | seed | threads
  | model (i : Nat) | version (i : Nat) | hyper (i : Nat)
  deriving DecidableEq

/-- test.py:369-531 and joint_model.py:72-178 `add_argument`: the options, their attributes and whether they have a
value. -/
def testOptions : List (Str × Dest × Bool) :=
  [(chars% "-i", .input, true), (chars% "--input", .input, true), (chars% "--test", .test, false),
    (chars% "-x", .xml, false), (chars% "--xml", .xml, false), (chars% "--defaults", .defaults, false),
    (chars% "--fh-defaults", .fhDefaults, false), (chars% "--forces-json", .forces, true),
    (chars% "-o", .output, true), (chars% "--output", .output, true), (chars% "--average", .average, true),
    (chars% "--id", .id, true), (chars% "--checkpoint", .checkpoint, true), (chars% "--icm-json", .icm, true),
    (chars% "-l", .log, true), (chars% "--log", .log, true), (chars% "-v", .verbose, false),
    (chars% "--verbose", .verbose, false), (chars% "-h5", .h5, true), (chars% "--h5_dir", .h5, true),
    (chars% "--no_h5", .noH5, false), (chars% "-s", .seed, true), (chars% "--seed", .seed, true),
    (chars% "--threads", .threads, true)] ++
  (modelNames.zipIdx.map fun p => (chars% "--" ++ p.1, Dest.model p.2, true)) ++
  (modelNames.zipIdx.map fun p => (chars% "--" ++ p.1 ++ chars% "-version", Dest.version p.2, true)) ++
  (hyperOptions.zipIdx.map fun p => (p.1, Dest.hyper p.2, true))

/-- Whether a word is a value for `argparse`: it does not begin with `-`, or is `-` or a negative number. Numbers with
a fraction, which `argparse` accepts as well, are left out. -/
def isValue (w : Str) : Bool :=
  match w with
  | '-' :: s => s.all Char.isDigit
  | _ => true

/-- `parser.parse_args` (test.py:533): the given attributes in order; `none` is an error. Abbreviated options and
`--option=value` are left out; a grid search does not print them. -/
def parseOptions : List Str → Option (List (Dest × Str))
  | [] => some []
  | w :: ws =>
    match testOptions.lookup w with
    | none => none
    | some (d, false) => (parseOptions ws).map ((d, []) :: ·)
    | some (d, true) =>
      match ws with
      | [] => none
      | v :: vs => if isValue v then (parseOptions vs).map ((d, v) :: ·) else none

/-- The last value of an attribute. -/
def lastOf (d : Dest) : List (Dest × Str) → Option Str
  | [] => none
  | p :: l => (lastOf d l).or (if p.1 = d then some p.2 else none)

/-- An attribute with `type=int`; the outer `none` is an error. -/
def intOf (d : Dest) (l : List (Dest × Str)) (default : Option Int) : Option (Option Int) :=
  match lastOf d l with
  | none => some default
  | some s => match parseInt s with
    | .ok i => some (some i)
    | .error _ => none

/-- The arguments of `test.py`. `log` is `none` for `sys.stderr`. -/
structure TestArgs where
  threads : Option Int
  seed : Int
  h5Dir : Str
  icmJson : Str
  checkpoint : Str
  xml : Bool
  test : Bool
  input : Str
  output : Str
  log : Option Str
  models : List (Str × Option Int)
  values : List Str
  defaults : Bool
  fhDefaults : Bool
  verbose : Bool
  noH5 : Bool
  forces : Option Str
  average : Option Str
  id : Option Int
  deriving DecidableEq

/-- test.py:442-464: a model. -/
def modelArg (l : List (Dest × Str)) (i : Nat) (name : Str) : Option (Str × Option Int) :=
  (intOf (.version i) l none).map fun v => ((lastOf (.model i) l).getD (defaultPath name), v)

/-- test.py:369-533: the arguments with their defaults. -/
def testArgs (words : List Str) : Option TestArgs := do
  let l ← parseOptions words
  let threads ← intOf .threads l none
  let seed ← intOf .seed l (some 0)
  let id ← intOf .id l none
  let models ← modelNames.zipIdx.mapM fun p => modelArg l p.2 p.1
  some
    { threads := threads
      seed := seed.getD 0
      h5Dir := (lastOf .h5 l).getD (chars% "h5_data")
      icmJson := (lastOf .icm l).getD defaultIcm
      checkpoint := (lastOf .checkpoint l).getD (chars% "checkpoints")
      xml := (lastOf .xml l).isSome
      test := (lastOf .test l).isSome
      input := (lastOf .input l).getD (chars% "corpus_data")
      output := (lastOf .output l).getD (chars% "outputs")
      log := lastOf .log l
      models := models
      values := hyperDefaults.zipIdx.map fun p => (lastOf (.hyper p.2) l).getD p.1
      defaults := (lastOf .defaults l).isSome
      fhDefaults := (lastOf .fhDefaults l).isSome
      verbose := (lastOf .verbose l).isSome
      noH5 := (lastOf .noH5 l).isSome
      forces := lastOf .forces l
      average := lastOf .average l
      id := id }

/-- Running a printed line: the arguments which `test.py` sees. -/
def runLine (line : Str) : Option TestArgs :=
  match shellWords line with
  | some (p :: t :: words) => if p = chars% "python" ∧ t = chars% "test.py" then testArgs words else none
  | _ => none

/-- `s.replace(old, new)`. -/
def pyReplace (old new s : Str) : Str := pyJoin new (pySplit old s)

/-- data_utils.py:219-231: the pattern with which the checkpoint of a model is looked for. -/
def checkpointGlob (checkpoint : Str) (name : Str) (m : Str × Option Int) : Str :=
  if m.1 = defaultPath name ∨ m.2.isSome then
    let p := pyReplace (chars% "`--checkpoint`") checkpoint (defaultPath name)
    match m.2 with
    | some v => pyReplace (chars% "_*") ('_' :: intStr v) p
    | none => p
  else m.1

end Verif
