import Verif.PyStr
import Verif.ForceLabels

/-!
# Forces from a json file

Model of /repo/test.py:35-147 (`load_forces_from_json`) and 209-225 (the forces of a piece in `evaluate`). A json
object is given by its recognised entries; `set`s are lists of which only the members matter.
-/

namespace Verif

/-- The recognised entries of a json object, test.py:84-98: lists of integers, and mappings of strings to ids. -/
structure RawForces where
  chordChanges : Option (List Int) := none
  chordNonChanges : Option (List Int) := none
  keyChanges : Option (List Int) := none
  keyNonChanges : Option (List Int) := none
  chords : Option (List (Str × Int)) := none
  keys : Option (List (Str × Int)) := none
  deriving DecidableEq, Repr

/-- The keyword arguments of `get_harmony`; the keys of the mappings are tuples. -/
structure ForceArgs where
  chordChanges : Option (List Int) := none
  chordNonChanges : Option (List Int) := none
  keyChanges : Option (List Int) := none
  keyNonChanges : Option (List Int) := none
  chords : Option (List (List Int × Int)) := none
  keys : Option (List (List Int × Int)) := none
  deriving DecidableEq, Repr

/-- test.py:95: `d[k] = v` of a dictionary: a known key keeps its place. -/
def putItem {κ ν : Type} [DecidableEq κ] (k : κ) (v : ν) : List (κ × ν) → List (κ × ν)
  | [] => [(k, v)]
  | (k', v') :: d => if k' = k then (k, v) :: d else (k', v') :: putItem k v d

/-- test.py:96: `tuple(map(int, range_tuple_str[1:-1].split(",")))`. -/
def rangeOf (s : Str) : Py (List Int) := (pySplit [','] (s.drop 1).dropLast).mapM parseInt

/-- test.py:95-98: a dictionary comprehension; `acc` is the dictionary so far. -/
def rangesOf : List (List Int × Int) → List (Str × Int) → Py (List (List Int × Int))
  | acc, [] => .ok acc
  | acc, (s, i) :: rest => do
    let r ← rangeOf s
    rangesOf (putItem r i acc) rest

/-- test.py:93-98: `forced_chords` or `forced_keys`, if given. -/
def optRangesOf : Option (List (Str × Int)) → Py (Option (List (List Int × Int)))
  | none => .ok none
  | some l => do
    let d ← rangesOf [] l
    .ok (some d)

/-- test.py:67-122 `load_forces_from_nested_json`. -/
def loadForces (r : RawForces) : Py ForceArgs := do
  let chords ← optRangesOf r.chords
  let keys ← optRangesOf r.keys
  .ok ⟨r.chordChanges, r.chordNonChanges, r.keyChanges, r.keyNonChanges, chords, keys⟩

/-- test.py:127-134: one of the recognised entries is given. -/
def RawForces.given (r : RawForces) : Bool :=
  r.chordChanges.isSome || r.chordNonChanges.isSome || r.keyChanges.isSome || r.keyNonChanges.isSome ||
    r.chords.isSome || r.keys.isSome

/-- test.py:141-147: each entry in order; keys of a json object are distinct. -/
def loadEntries : List (Str × RawForces) → Py (List (Str × ForceArgs))
  | [] => .ok []
  | (k, r) :: rest => do
    let f ← loadForces r
    let fs ← loadEntries rest
    .ok ((k, f) :: fs)

/-- test.py:139: `"default"`. -/
def defaultKey : Str := ['d', 'e', 'f', 'a', 'u', 'l', 't']

/-- test.py:35-147 `load_forces_from_json`: `top` are the recognised entries of the outer object, `pieces` its other
entries. If there are recognised ones, the others are ignored (with a warning). Entries of the other types (not objects, ids that are not integers) are not
modelled. -/
def loadForcesFile (top : RawForces) (pieces : List (Str × RawForces)) : Py (List (Str × ForceArgs)) :=
  loadEntries (if top.given then [(defaultKey, top)] else pieces)

/-- test.py:218-222: the first key, in the order of iteration of the set, that is in the name. -/
def firstKeyIn (name : Str) : List Str → Option Str
  | [] => none
  | k :: ks => if containsLiteral k name then some k else firstKeyIn name ks

/-- test.py:215-225: the forces of a piece. `order` is the order in which the set of the keys other than `"default"`
is iterated; Python chooses it. -/
def forcesOfPiece (order : List Str) (all : List (Str × ForceArgs)) (name : Option Str) : ForceArgs :=
  let found := match name with
    | none => none
    | some n => (firstKeyIn n order).bind fun k => all.lookup k
  match found with
  | some f => f
  | none => match all.lookup defaultKey with
    | some f => f
    | none => {}

end Verif
