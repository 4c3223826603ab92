import Verif.PyStr
import Verif.ForceLabels
import Verif.ForcesJson

/-!
# Keyword arguments from a json file

Model of /repo/harmonic_inference/utils/data_utils.py:27-62 (`load_kwargs_from_json`).
-/

namespace Verif

/-- A field of the file: a string, a mapping of strings to strings, or any other value. Mappings with other values
are not modelled as reductions; they count as other values. -/
inductive KwJson where
  | str (s : Str)
  | dict (entries : List (Str × Str))
  | other (n : Nat)
  deriving DecidableEq, Repr

/-- A keyword argument: data_utils.py:41-43. -/
inductive KwValue where
  | str (s : Str)
  | pitch (t : PitchType)
  | reduction (entries : List (ChordType × ChordType))
  | dict (entries : List (Str × Str))
  | other (n : Nat)
  deriving DecidableEq, Repr

/-- data/data_types.py:5-17 `PieceType`. -/
inductive PieceKind where
  | score | midi | audio
  deriving DecidableEq, Repr

/-- data_utils.py:54: `PitchType[name]` (data/data_types.py:26-27). -/
def pitchTypeNamed (n : Str) : Py PitchType :=
  if n = ['T', 'P', 'C'] then .ok .tpc else if n = ['M', 'I', 'D', 'I'] then .ok .midi else .error .keyError

/-- The names of the members of `ChordType`, data/data_types.py:54-65. -/
def chordTypeNames : List (Str × ChordType) :=
  [("MAJOR".toList, .major), ("MINOR".toList, .minor), ("DIMINISHED".toList, .diminished),
   ("AUGMENTED".toList, .augmented), ("MAJ_MAJ7".toList, .majMaj7), ("MAJ_MIN7".toList, .majMin7),
   ("MIN_MAJ7".toList, .minMaj7), ("MIN_MIN7".toList, .minMin7), ("DIM7".toList, .dim7),
   ("HALF_DIM7".toList, .halfDim7), ("AUG_MIN7".toList, .augMin7), ("AUG_MAJ7".toList, .augMaj7)]

/-- data_utils.py:58: `ChordType[name]`. -/
def chordTypeNamed (n : Str) : Py ChordType :=
  match chordTypeNames.lookup n with
  | some t => .ok t
  | none => .error .keyError

/-- data_utils.py:57-60: the comprehension; `acc` is the dictionary so far. -/
def loadReduction : List (ChordType × ChordType) → List (Str × Str) → Py (List (ChordType × ChordType))
  | acc, [] => .ok acc
  | acc, (k, v) :: rest => do
    let a ← chordTypeNamed (k.drop 10)
    let b ← chordTypeNamed (v.drop 10)
    loadReduction (putItem a b acc) rest

/-- data_utils.py:52-60: the body of the loop. -/
def loadKwarg (key : Str) : KwJson → Py KwValue
  | .str s =>
    if "PitchType".toList.isPrefixOf s ∨ "PieceType".toList.isPrefixOf s then do
      let t ← pitchTypeNamed (s.drop 10)
      .ok (.pitch t)
    else .ok (.str s)
  | .dict l =>
    if containsLiteral "reduction".toList key then do
      let r ← loadReduction [] l
      .ok (.reduction r)
    else .ok (.dict l)
  | .other n => .ok (.other n)

/-- data_utils.py:51-62: each field in order; the keys stay where they are. -/
def loadKwargFields : List (Str × KwJson) → Py (List (Str × KwValue))
  | [] => .ok []
  | (k, v) :: rest => do
    let x ← loadKwarg k v
    let xs ← loadKwargFields rest
    .ok ((k, x) :: xs)

/-- data_utils.py:27-62 `load_kwargs_from_json`, given the contents of the file, if there is a path. -/
def loadKwargs : Option (List (Str × KwJson)) → Py (List (Str × KwValue))
  | none => .ok []
  | some fields => loadKwargFields fields

end Verif
