import Verif.Ranges
import Verif.Forced
import Verif.Search
import Verif.Piece

/-!
# The harmony of a piece

Model of /repo/harmonic_inference/models/joint_model.py:505-667, 793-837 (`get_harmony`,
`get_chord_change_probs`, `get_chord_classifications`), which puts the validation of the forced labels, the
chord ranges and the beam search together.

* A piece is given by the onsets and offsets of its notes and its duration cache.
* The networks are arbitrary functions: the chord transition model gives a probability for each note, the chord
  classifier a row for each window (a row does not depend on the others of its batch).
* The test of the type of the piece (561), logging and the debugger are left out.
-/

namespace Verif

/-- The joint model, for one piece. -/
structure Joint (π κ δ ρ H P : Type) where
  /-- `max_chord_length`, `min_chord_change_prob`, `max_no_chord_change_prob`. -/
  maxLen : δ
  minChange : π
  maxNoChange : π
  /-- joint_model.py:631-650: the output of the chord transition model. -/
  ctm : Nat → π
  /-- `np.log(p)` and `np.log(1 - p)` (702-703). -/
  log : π → κ
  logCompl : π → κ
  /-- joint_model.py:793-837: the log of the output of the chord classifier for a window and a change index. -/
  ccm : Nat × Nat → Nat → List κ
  /-- joint_model.py:867: the row of `np.argsort(-np.exp(priors))`. -/
  argsort : List κ → List Int
  /-- joint_model.py:868-882: the number of chords to branch on (see `maxBranch`). -/
  branch : List κ → Nat
  /-- The parameters and models of the search. (The fields `numInputs`, `ranges`, `forcedChords` and
  `forcedKeys` are not used.) -/
  search : SearchData κ ρ H P

namespace Joint
variable {π κ δ ρ H P τ : Type}

/-- The position meant by an index of an array of length `n`. -/
def arrayIndex (n : Nat) (i : Int) : Py Nat :=
  if 0 ≤ i then if i < n then .ok i.toNat else .error .indexError
  else if -(n : Int) ≤ i then .ok (i + n).toNat else .error .indexError

/-- joint_model.py:593-609: what `get_chord_ranges` reads. -/
def rangeInput [Zero π] [One π] [Zero δ] (m : Joint π κ δ ρ H P) (dur : List δ) (chordIds keyIds : List Int)
    (changes nonChanges : List Nat) : RangeInput π κ δ :=
  let probs := RangeInput.applyForced changes nonChanges m.ctm
  { n := dur.length
    changeProb := probs
    changeLog := fun i => m.log (probs i)
    noChangeLog := fun i => m.logCompl (probs i)
    dur := fun i => dur.getD i 0
    forcedChord := fun i => chordIds.getD i (-1)
    forcedKey := fun i => keyIds.getD i (-1)
    minChange := m.minChange
    maxNoChange := m.maxNoChange
    maxLen := m.maxLen }

/-- joint_model.py:605-614, 883-907: a range with its probabilities and its classification, from the window of
the notes that sound in it. -/
def rangeRow [LE τ] [LT τ] [DecidableLE τ] [DecidableLT τ] (m : Joint π κ δ ρ H P) (notes : List (τ × τ))
    (r : (Nat × Nat × κ) × κ) : Py (Nat × RangeData κ) := do
  let note ← pyGet notes r.1.1
  let priors := m.ccm (rangeStart note.1 notes, r.1.2.1) r.1.1
  .ok (r.1.1, ⟨r.1.2.1, r.1.2.2, r.2, priors, m.argsort priors, m.branch priors⟩)

/-- joint_model.py:619-622: what the search reads. -/
def searchData (m : Joint π κ δ ρ H P) (n : Nat) (ranges : List (Nat × RangeData κ))
    (chordIds keyIds : List Int) : SearchData κ ρ H P :=
  { m.search with numInputs := n, ranges := ranges, forcedChords := chordIds, forcedKeys := keyIds }

/-- joint_model.py:505-629 `get_harmony`. The forced changes at 0 have been removed by the validation. -/
def getHarmony [LE τ] [LT τ] [DecidableLE τ] [DecidableLT τ] [DecidableEq δ] [Zero δ] [Add δ] [LT δ]
    [DecidableLT δ] [LE π] [DecidableLE π] [LT π] [DecidableLT π] [Zero π] [One π] [Add κ] [Sub κ] [Zero κ]
    [DecidableEq κ] [DecidableEq H] [DecidableEq P] (m : Joint π κ δ ρ H P) (notes : List (τ × τ))
    (dur : List δ) (chord key : ForcedType) : Py (Option (State κ H P)) := do
  let _ ← pyGet notes (-1)
  let ids ← Forced.validate dur chord key
  let changes ← mapPy (arrayIndex dur.length) (Forced.dropZero chord.changes)
  let nonChanges ← mapPy (arrayIndex dur.length) chord.nonChanges
  let rs ← (m.rangeInput dur ids.1 ids.2 changes nonChanges).getChordRanges
  let rows ← mapPy (m.rangeRow notes) (rs.1.zip rs.2)
  (m.searchData notes.length rows ids.1 ids.2).search

end Joint

end Verif
