import Verif.Harmony

/-!
# Calls of `get_harmony` on one model

Model of /repo/harmonic_inference/models/joint_model.py:505-629 `get_harmony` as a method that works on the attributes of
its object, which are still there when an exception is raised and when it is called again. The networks are
functions of the attributes that they are given. Debug messages are left out.
-/

namespace Verif

/-- A method: it gets the attributes of the object and leaves others, also if it raises. -/
def Method (σ α : Type) : Type := σ → Py α × σ

namespace Method
variable {σ α β : Type}

/-- Do nothing. -/
def ret (a : α) : Method σ α := fun s => (.ok a, s)

/-- One after the other; an exception ends the method. -/
def andThen (x : Method σ α) (f : α → Method σ β) : Method σ β := fun s =>
  match x s with
  | (.ok a, s) => f a s
  | (.error e, s) => (.error e, s)

instance : Monad (Method σ) where
  pure := ret
  bind := andThen

/-- A computation without attributes. -/
def lift (x : Py α) : Method σ α := fun s => (x, s)

/-- Change attributes. -/
def modify (f : σ → σ) : Method σ Unit := fun s => (.ok (), f s)

/-- Read an attribute, which is None or not there yet (`none`) if it has not been set. -/
def read (f : σ → Option α) : Method σ α := fun s =>
  match f s with
  | some a => (.ok a, s)
  | none => (.error .attributeError, s)

end Method

/-- What `get_harmony` reads of a piece. -/
structure PieceIn (δ τ : Type) where
  /-- `DATA_TYPE == INPUT_TYPE` -/
  fits : Bool
  /-- `get_duration_cache` -/
  durations : List δ
  /-- onset, offset and their levels of `get_inputs` -/
  notes : List ((τ × τ) × Nat × Nat)

/-- The attributes that `get_harmony` writes (joint_model.py:319-324, 556-590). Those for the forced labels of a kind
are written together: the sets and the dictionary, which are those of the caller, and the array of ids. -/
structure Attrs (δ τ : Type) where
  currentPiece : Option (PieceIn δ τ)
  durationCache : Option (List δ)
  onsetCache : Option (List τ)
  onsetLevelCache : Option (List Nat)
  chord : Option (ForcedType × List Int)
  key : Option (ForcedType × List Int)

/-- joint_model.py:319-324: the end of `__init__`. -/
def Attrs.fresh {δ τ : Type} : Attrs δ τ := ⟨none, none, none, none, none, none⟩

namespace Attrs
variable {δ τ : Type}

/-- `getattr(self, f"forced_{type_str}_...")` for keys or chords. -/
def kind (isKey : Bool) (s : Attrs δ τ) : Option (ForcedType × List Int) := if isKey then s.key else s.chord

/-- Writing these attributes. -/
def setKind (isKey : Bool) (x : ForcedType × List Int) (s : Attrs δ τ) : Attrs δ τ :=
  if isKey then { s with key := some x } else { s with chord := some x }

end Attrs

namespace Forced
variable {δ τ : Type}

/-- joint_model.py:435-449: the labels are checked and written to the array of the object one by one. -/
def loadLabelsM (isKey : Bool) : List ((Int × Int) × Int) → Method (Attrs δ τ) Unit
  | [] => .ret ()
  | ((s, e), l) :: rest => do
    let (ft, ids) ← Method.read (Attrs.kind isKey)
    Method.lift (raiseIf (l < 0 ∨ l ≥ ft.maxId) .typeError)
    let a := sliceIdx ids.length s
    let b := sliceIdx ids.length e
    Method.lift (raiseIf (¬ ((ids.drop a).take (b - a)).all (fun x => decide (x = -1) || decide (x = l)) = true)
      .attributeError)
    Method.modify (Attrs.setKind isKey (ft, fill ids a b l))
    loadLabelsM isKey rest

/-- joint_model.py:380-472: the checks of one kind. A forced change at 0 is removed from the set of the caller. -/
def validateTypeM [DecidableEq δ] [Zero δ] (isKey : Bool) : Method (Attrs δ τ) Unit := do
  let (ft, ids) ← Method.read (Attrs.kind isKey)
  Method.modify (Attrs.setKind isKey ({ ft with changes := dropZero ft.changes }, ids))
  let dur ← Method.read Attrs.durationCache
  let (ft, _) ← Method.read (Attrs.kind isKey)
  Method.lift (checkMax dur.length ft.changes)
  Method.lift (checkMax dur.length ft.nonChanges)
  Method.lift (raiseIf (∃ c ∈ ft.changes, c ∈ ft.nonChanges) .typeError)
  Method.lift (forAll (checkOnset dur) ft.changes)
  loadLabelsM isKey ft.labels
  let (ft, ids) ← Method.read (Attrs.kind isKey)
  Method.lift (forAll (checkChange ids) ft.changes)
  Method.lift (forAll (checkNonChange ids) ft.nonChanges)

/-- joint_model.py:373-503 `_validate_and_load_forced_labels`. -/
def validateM [DecidableEq δ] [Zero δ] : Method (Attrs δ τ) Unit := do
  validateTypeM false
  validateTypeM true
  let (chord, cids) ← Method.read Attrs.chord
  let (key, kids) ← Method.read Attrs.key
  Method.lift (forAll (checkKeyChange chord.nonChanges cids) key.changes)
  Method.lift (forAll (checkChordNonChange kids) chord.nonChanges)

end Forced

/-- The parameters and networks of a joint model. The chord transition model and the chord classifier get the current
piece (joint_model.py:640, 818), the others rows made from the caches (1090-1092, 1137-1139, 1210-1212, 1344-1346). -/
structure JointNets (π κ δ ρ H P τ : Type) where
  joint : PieceIn δ τ → List δ → List τ → List Nat → Joint π κ δ ρ H P

namespace JointNets
variable {π κ δ ρ H P τ : Type} [LE τ] [LT τ] [DecidableLE τ] [DecidableLT τ] [DecidableEq δ] [Zero δ] [Add δ] [LT δ]
  [DecidableLT δ] [LE π] [DecidableLE π] [LT π] [DecidableLT π] [Zero π] [One π] [Add κ] [Sub κ] [Zero κ]
  [DecidableEq κ] [DecidableEq H] [DecidableEq P]

/-- The model as it is with the attributes at the time. -/
def current (N : JointNets π κ δ ρ H P τ) : Method (Attrs δ τ) (Joint π κ δ ρ H P) := do
  let p ← Method.read Attrs.currentPiece
  let dur ← Method.read Attrs.durationCache
  let onsets ← Method.read Attrs.onsetCache
  let levels ← Method.read Attrs.onsetLevelCache
  .ret (N.joint p dur onsets levels)

/-- joint_model.py:595-603: the change probabilities with the forced ones, and the ranges. -/
def chordRangesM (N : JointNets π κ δ ρ H P τ) : Method (Attrs δ τ) (List (Nat × Nat × κ) × List κ) := do
  let m ← N.current
  let dur ← Method.read Attrs.durationCache
  let (chord, cids) ← Method.read Attrs.chord
  let changes ← Method.lift (mapPy (Joint.arrayIndex dur.length) chord.changes)
  let nonChanges ← Method.lift (mapPy (Joint.arrayIndex dur.length) chord.nonChanges)
  let (_, kids) ← Method.read Attrs.key
  Method.lift (m.rangeInput dur cids kids changes nonChanges).getChordRanges

/-- joint_model.py:619-625: the search over the rows. -/
def searchM (N : JointNets π κ δ ρ H P τ) (rows : List (Nat × RangeData κ)) :
    Method (Attrs δ τ) (Option (State κ H P)) := do
  let m ← N.current
  let p ← Method.read Attrs.currentPiece
  let (_, cids) ← Method.read Attrs.chord
  let (_, kids) ← Method.read Attrs.key
  Method.lift (m.searchData p.notes.length rows cids kids).search

/-- joint_model.py:505-629 `get_harmony`. The `except` clause (588-591) is for `ArgumentError`s, which are never raised:
making one of them raises another exception (see Forced.lean). -/
def getHarmonyM (N : JointNets π κ δ ρ H P τ) (piece : PieceIn δ τ) (chord key : ForcedType) :
    Method (Attrs δ τ) (Option (State κ H P)) := do
  Method.modify (fun s => { s with currentPiece := some piece })
  Method.lift (Forced.raiseIf (piece.fits = false) .valueError)
  Method.modify (fun s => { s with durationCache := some piece.durations })
  let last ← Method.lift (pyGet piece.notes (-1))
  Method.modify (fun s => { s with onsetCache := some (piece.notes.map (·.1.1) ++ [last.1.2]) })
  Method.modify (fun s => { s with onsetLevelCache := some (piece.notes.map (·.2.1) ++ [last.2.2]) })
  let dur ← Method.read Attrs.durationCache
  Method.modify (fun s => { s with chord := some (chord, List.replicate dur.length (-1)),
                                   key := some (key, List.replicate dur.length (-1)) })
  Forced.validateM
  let rs ← N.chordRangesM
  let m ← N.current
  let rows ← Method.lift (mapPy (m.rangeRow (piece.notes.map (·.1))) (rs.1.zip rs.2))
  let state ← N.searchM rows
  Method.modify (fun s => { s with currentPiece := none })
  .ret state

/-- Calls one after the other on the same object; an exception is caught by the caller. The results, and the
attributes in the end. -/
def calls (N : JointNets π κ δ ρ H P τ) : List (PieceIn δ τ × ForcedType × ForcedType) → Attrs δ τ →
    List (Py (Option (State κ H P))) × Attrs δ τ
  | [], s => ([], s)
  | (p, c, k) :: rest, s =>
    let r := N.getHarmonyM p c k s
    let out := N.calls rest r.2
    (r.1 :: out.1, out.2)

end JointNets

end Verif
