import Verif.Py

/-!
# Forced labels

Model of /repo/harmonic_inference/models/joint_model.py:373-503
(`_validate_and_load_forced_labels`). `ArgumentError` is the one of argparse, whose constructor needs
an action and a message: raising it with one string is a `TypeError`, and with two strings an
`AttributeError`, so these are the exceptions a caller sees. Sets are lists (the order in which a set
is gone through only decides which of several errors is seen).
-/

namespace Verif

/-- The forced changes, non-changes and labels of one kind (chords or keys), and the number of labels
of that kind (joint_model.py:382-384, 422-433). `labels` are the items of the dictionary. -/
structure ForcedType where
  changes : List Int
  nonChanges : List Int
  labels : List ((Int × Int) × Int)
  maxId : Int

namespace Forced

/-- `if p: raise e`. -/
def raiseIf (p : Prop) [Decidable p] (e : PyErr) : Py Unit := if p then .error e else .ok ()

/-- Run a check on every element. -/
def forAll {α : Type} (f : α → Py Unit) : List α → Py Unit
  | [] => .ok ()
  | x :: xs => do f x; forAll f xs

/-- The position meant by a bound of a slice of an array of length `n`. -/
def sliceIdx (n : Nat) (i : Int) : Nat := if i < 0 then ((n : Int) + i).toNat else min i.toNat n

/-- `ids[a:b] = v`. -/
def fill (ids : List Int) (a b : Nat) (v : Int) : List Int :=
  ids.mapIdx (fun i x => if a ≤ i ∧ i < b then v else x)

/-- joint_model.py:435-449: check the labels and write them. -/
def loadLabels (maxId : Int) : List ((Int × Int) × Int) → List Int → Py (List Int)
  | [], ids => .ok ids
  | ((s, e), l) :: rest, ids =>
    if l < 0 ∨ l ≥ maxId then .error .typeError
    else
      let a := sliceIdx ids.length s
      let b := sliceIdx ids.length e
      if ((ids.drop a).take (b - a)).all (fun x => decide (x = -1) || decide (x = l)) then
        loadLabels maxId rest (fill ids a b l)
      else .error .attributeError

/-- joint_model.py:389-391: a forced change at 0 is dropped. -/
def dropZero (changes : List Int) : List Int := changes.filter (fun c => decide (c ≠ 0))

/-- joint_model.py:393-397, 399-403: an index beyond the end of the piece. -/
def checkMax (n : Nat) (cs : List Int) : Py Unit :=
  raiseIf (∃ c ∈ cs, c ≥ (n : Int)) .typeError

/-- joint_model.py:413-418: a change must be at the first note of an onset. -/
def checkOnset {δ : Type} [DecidableEq δ] [Zero δ] (dur : List δ) (c : Int) : Py Unit := do
  let d ← pyGet dur (c - 1)
  raiseIf (d = 0) .typeError

/-- joint_model.py:452-460, 484-491: a change between equal labels. -/
def checkChange (ids : List Int) (c : Int) : Py Unit := do
  let x ← pyGet ids (c - 1)
  let y ← pyGet ids c
  raiseIf (x = y ∧ y ≠ -1) .typeError

/-- joint_model.py:462-472: a non-change between different labels. The message is
built from `self.forced_chords[change_index - 1]`, whose keys are pairs: `KeyError`. -/
def checkNonChange (ids : List Int) (c : Int) : Py Unit := do
  let x ← pyGet ids (c - 1)
  let y ← pyGet ids c
  let a := sliceIdx ids.length (c - 1)
  let b := sliceIdx ids.length (c + 1)
  raiseIf (x ≠ y ∧ -1 ∉ (ids.drop a).take (b - a)) .keyError

/-- joint_model.py:380-472: the checks of one kind of labels; the result is the array of labels. -/
def validateType {δ : Type} [DecidableEq δ] [Zero δ] (dur : List δ) (ft : ForcedType) :
    Py (List Int) := do
  let changes := dropZero ft.changes
  checkMax dur.length changes
  checkMax dur.length ft.nonChanges
  raiseIf (∃ c ∈ changes, c ∈ ft.nonChanges) .typeError
  forAll (checkOnset dur) changes
  let ids ← loadLabels ft.maxId ft.labels (List.replicate dur.length (-1))
  forAll (checkChange ids) changes
  forAll (checkNonChange ids) ft.nonChanges
  .ok ids

/-- joint_model.py:477-491: a key change where the chord can not change. -/
def checkKeyChange (chordNonChanges chordIds : List Int) (c : Int) : Py Unit := do
  raiseIf (c ∈ chordNonChanges) .typeError
  checkChange chordIds c

/-- joint_model.py:494-503: a chord non-change where the key changes. The second test
is `-1 not in <a number>`: `TypeError`. -/
def checkChordNonChange (keyIds : List Int) (c : Int) : Py Unit := do
  let x ← pyGet keyIds (c - 1)
  let y ← pyGet keyIds c
  raiseIf (x ≠ y) .typeError

/-- joint_model.py:373-503 `_validate_and_load_forced_labels`: the arrays of forced chords and keys. -/
def validate {δ : Type} [DecidableEq δ] [Zero δ] (dur : List δ) (chord key : ForcedType) :
    Py (List Int × List Int) := do
  let cids ← validateType dur chord
  let kids ← validateType dur key
  forAll (checkKeyChange chord.nonChanges cids) (dropZero key.changes)
  forAll (checkChordNonChange kids) chord.nonChanges
  .ok (cids, kids)

end Forced
end Verif
