import Verif.Heap
import Verif.Py

/-!
# Possible chord ranges

Model of /repo/harmonic_inference/models/joint_model.py:652-791 (`_apply_forced_chord_changes` and
`get_chord_ranges`). Arrays are functions of the index, with the common length `n` (all of them have
one entry per note of the piece). Probabilities have a type `π` with an order, log probabilities a
type `κ` with an addition, durations (exact fractions in the code) a type `δ`. The logarithms are
given as two further arrays, as in the code, and nothing is assumed of them.
-/

namespace Verif

/-- What `get_chord_ranges` reads: its argument, the logs of joint_model.py:702-703, and the
attributes `duration_cache`, `forced_chord_ids`, `forced_key_ids`, `min_chord_change_prob`,
`max_no_chord_change_prob`, `max_chord_length`. -/
structure RangeInput (π κ δ : Type) where
  n : Nat
  changeProb : Nat → π
  changeLog : Nat → κ
  noChangeLog : Nat → κ
  dur : Nat → δ
  forcedChord : Nat → Int
  forcedKey : Nat → Int
  minChange : π
  maxNoChange : π
  maxLen : δ

/-- The lists built by `get_chord_ranges` (ranges with their log probabilities in one list, since both
are always appended to together), the priority queue and the array `in_starts`. -/
structure RState (κ : Type) where
  ranges : List (Nat × Nat × κ)
  heap : List Nat
  inStarts : Nat → Bool

/-- Python `set.add`, and the test for -1 of joint_model.py:743, 750. -/
def addForced (s : List Int) (x : Int) : List Int :=
  if x ≠ -1 then (if x ∈ s then s else s ++ [x]) else s

namespace RangeInput
variable {π κ δ : Type}

/-- joint_model.py:698-699: the mask `invalid`. -/
def invalid [DecidableEq δ] [Zero δ] (A : RangeInput π κ δ) (i : Nat) : Bool :=
  decide (i = 0) || decide (A.dur (i - 1) = 0)

/-- joint_model.py:770-773 and 766-767: record a range and push its end. The push is only done for
ends inside of the piece; the range that reaches the end of the piece is recorded by 781-783. -/
def emit (start n : Nat) (st : RState κ) (p : Nat × κ) : RState κ :=
  let ranges := st.ranges ++ [(start, p.1, p.2)]
  if p.1 < n then
    if st.inStarts p.1 then { st with ranges := ranges }
    else { ranges := ranges, heap := heappush (fun a b => decide (a < b)) st.heap p.1,
           inStarts := fun i => if i = p.1 then true else st.inStarts i }
  else { st with ranges := ranges }

/-- joint_model.py:724-783: the inner loop, from `index` on, and the test of `reached_end`. The first
argument is the number of positions left. -/
def scan [DecidableEq δ] [Zero δ] [Add δ] [LT δ] [DecidableLT δ] [LE π] [DecidableLE π] [LT π]
    [DecidableLT π] [Add κ] (A : RangeInput π κ δ) (start : Nat) :
    Nat → Nat → κ → δ → List Int → List Int → RState κ → RState κ
  | 0, _, running, _, _, _, st => emit start A.n st (A.n, running)
  | fuel + 1, index, running, rdur, fc, fk, st =>
    if A.invalid index then scan A start fuel (index + 1) running rdur fc fk st
    else
      let fc' := addForced fc (A.forcedChord (index - 1))
      if A.forcedChord (index - 1) ≠ -1 ∧ fc'.length > 1 then st
      else
        let fk' := addForced fk (A.forcedKey (index - 1))
        if A.forcedKey (index - 1) ≠ -1 ∧ fk'.length > 1 then st
        else
          let rdur' := rdur + A.dur (index - 1)
          if rdur' > A.maxLen then st
          else if A.changeProb index ≥ A.minChange then
            let st' := emit start A.n st (index, running + A.changeLog index)
            if A.changeProb index > A.maxNoChange then st'
            else scan A start fuel (index + 1) (running + A.noChangeLog index) rdur' fc' fk' st'
          else scan A start fuel (index + 1) (running + A.noChangeLog index) rdur' fc' fk' st

/-- joint_model.py:713-722: one round of the outer loop for a popped start. -/
def scanStart [DecidableEq δ] [Zero δ] [Add δ] [LT δ] [DecidableLT δ] [LE π] [DecidableLE π] [LT π]
    [DecidableLT π] [Add κ] [Zero κ] (A : RangeInput π κ δ) (start : Nat) (st : RState κ) : RState κ :=
  scan A start (A.n - (start + 1)) (start + 1) 0 (if start = 0 then A.dur 0 else 0) [] [] st

/-- joint_model.py:713-783: the outer loop. The first argument bounds the number of rounds; `n` is
enough, see `loop_done`. -/
def loop [DecidableEq δ] [Zero δ] [Add δ] [LT δ] [DecidableLT δ] [LE π] [DecidableLE π] [LT π]
    [DecidableLT π] [Add κ] [Zero κ] (A : RangeInput π κ δ) : Nat → RState κ → RState κ
  | 0, st => st
  | fuel + 1, st =>
    match heappop (fun a b => decide (a < b)) st.heap with
    | none => st
    | some (start, heap) => loop A fuel (scanStart A start { st with heap := heap })

/-- joint_model.py:669-791 `get_chord_ranges`: ranges with their log probabilities, and the rejoin log
probabilities. An empty piece raises `IndexError` at `invalid[0] = True`. -/
def getChordRanges [DecidableEq δ] [Zero δ] [Add δ] [LT δ] [DecidableLT δ] [LE π] [DecidableLE π]
    [LT π] [DecidableLT π] [Add κ] [Sub κ] [Zero κ] (A : RangeInput π κ δ) :
    Py (List (Nat × Nat × κ) × List κ) :=
  if A.n = 0 then .error .indexError
  else
    let st := loop A A.n ⟨[], [0], fun i => decide (i = 0)⟩
    .ok (st.ranges, st.ranges.map (fun r => A.noChangeLog r.1 - A.changeLog r.1))

/-- joint_model.py:652-667 `_apply_forced_chord_changes`: first the changes, then the non-changes. -/
def applyForced [Zero π] [One π] (changes nonChanges : List Nat) (probs : Nat → π) : Nat → π :=
  fun i => if i ∈ nonChanges then 0 else if i ∈ changes then 1 else probs i

end RangeInput

end Verif
