import Verif.Search
import Verif.Vectors

/-!
# Inputs of the neural models in the search

Model of /repo/harmonic_inference/utils/beam_search_utils.py:492-776 (`get_csm_input`,
`get_ktm_input`, `get_ksm_input`, `get_chord`, `get_key`) and of the use of these inputs in
/repo/harmonic_inference/models/joint_model.py:1107-1377. Onsets and offsets of chords, which are not
written to vectors, are left out. The caches of chord and key objects do not change results.
-/

namespace Verif

/-- joint_model.py:567-573: `duration_cache` and `onset_level_cache` (with the offset level of the last
input at its end). -/
structure Caches where
  durations : List ℚ
  levels : List Int

/-- joint_model.py:567-573 from the inputs of a piece: (duration in the cache, onset level, offset
level); `piece.get_inputs()[-1]` of a piece without inputs is an `IndexError`. -/
def makeCaches (inputs : List (ℚ × Int × Int)) : Py Caches := do
  let last ← pyGet inputs (-1)
  .ok ⟨inputs.map (·.1), inputs.map (·.2.1) ++ [last.2.2]⟩

/-- beam_search_utils.py:774: the `Key` made by `State.get_key`. -/
def KeyObj.toKey (k : KeyObj) (pt : PitchType) : Key :=
  ⟨k.tonic, k.tonic, k.globalTonic, k.mode, k.mode, k.globalMode, pt⟩

namespace State
variable {κ H P : Type}

/-- beam_search_utils.py:696-747 `State.get_chord`: the chord of node `n` after the nodes `prev`. -/
def chordObj (L : Labels) (pt : PitchType) (C : Caches) (n : Node κ H P) (prev : List (Node κ H P)) :
    Py (Chord ℚ) := do
  let k ← getKeyAux L n prev
  let (root, ct, inv) ← chordLabelOf L n.chord
  match prev with
  | [] => .error .attributeError
  | p :: _ => do
    let bass ← bassNote ct root inv pt false
    let onsetLevel ← pyGet C.levels p.changeIndex
    let offsetLevel ← pyGet C.levels n.changeIndex
    .ok { root := root, bass := bass, keyTonic := k.tonic, keyMode := k.mode, chordType := ct,
          inversion := inv, onsetLevel := onsetLevel, offsetLevel := offsetLevel,
          duration := (slice C.durations p.changeIndex n.changeIndex).sum, pitchType := pt }

/-- beam_search_utils.py:523-530: the key change part of `State.get_csm_input`. -/
def csmKeyPart (L : Labels) (pt : PitchType) (n : Node κ H P) : List (Node κ H P) → Py (List ℚ)
  | [] => .ok (zeros (keyChangeVectorLength pt false) ++ [0])
  | p :: ps =>
    if p.key ≠ n.key then do
      let prevKey ← getKeyAux L p ps
      let key ← getKeyAux L n (p :: ps)
      let v ← (prevKey.toKey pt).changeVector (key.toKey pt)
      .ok (v ++ [1])
    else .ok (zeros (keyChangeVectorLength pt false) ++ [0])

/-- beam_search_utils.py:492-544 `State.get_csm_input`. -/
def csmInput (L : Labels) (pt : PitchType) (C : Caches) (s : State κ H P) : Py (List ℚ) := do
  let change ← csmKeyPart L pt s.node s.prev
  let c ← chordObj L pt C s.node s.prev
  let v ← c.toVec none false noReduction
  .ok (v ++ change)

/-- beam_search_utils.py:574-580: the key change part of `State.get_ktm_input`. A vector of another
length cannot be assigned to `key_change_vector[:-1]`. -/
def ktmKeyPart (L : Labels) (pt : PitchType) (n : Node κ H P) : List (Node κ H P) → Py (List ℚ)
  | [] => .ok (zeros (keyChangeVectorLength pt false + 1))
  | p :: ps =>
    if n.key ≠ p.key then do
      let prevKey ← getKeyAux L p ps
      let key ← getKeyAux L n (p :: ps)
      let v ← (prevKey.toKey pt).changeVector (key.toKey pt)
      if v.length = keyChangeVectorLength pt false then .ok (v ++ [1]) else .error .valueError
    else .ok (zeros (keyChangeVectorLength pt false + 1))

/-- beam_search_utils.py:546-596 `State.get_ktm_input` of node `n` after the nodes `prev`. -/
def ktmInput (L : Labels) (pt : PitchType) (C : Caches) (n : Node κ H P) (prev : List (Node κ H P)) :
    Py (List ℚ) := do
  let change ← ktmKeyPart L pt n prev
  let c ← chordObj L pt C n prev
  let v ← c.toVec none true noReduction
  .ok (v ++ change)

/-- beam_search_utils.py:666-677: has the KSM been run on `p` (`hidden_states_equal` is false)? -/
def ksmHasRun [DecidableEq H] (p : Node κ H P) : List (Node κ H P) → Bool
  | [] => true
  | pp :: _ => decide (p.ksmHidden ≠ pp.ksmHidden)

/-- beam_search_utils.py:598-694 `State.get_ksm_input`: the rows of this node and of those before it
on which the KSM has not been run. (The rows are written into one array from its start: the row of
the first state at index 0, the others at `len(ksm_input) - length - 1`.) -/
def ksmInput [DecidableEq H] (L : Labels) (pt : PitchType) (C : Caches) :
    Node κ H P → List (Node κ H P) → Py (List (List ℚ))
  | n, [] => do
    let row ← ktmInput L pt C n []
    .ok [row]
  | n, p :: ps => do
    let row ← ktmInput L pt C n (p :: ps)
    if ksmHasRun p ps then .ok [row]
    else do
      let rows ← ksmInput L pt C p ps
      .ok (rows ++ [row])

end State

/-! ## Recurrent models -/

/-- The networks of the search, as functions of a hidden state (none: `init_hidden`) and one input
row. The forward pass of an LSTM over a sequence is the iteration of its step; the output for a
sequence is that of its last step. -/
structure Nets (κ ρ H P : Type) where
  /-- chord_sequence_models.py `run_one_step`. -/
  csm : Option H → List ℚ → P × H
  /-- key_transition_models.py `run_one_step`. -/
  ktm : Option H → List ℚ → ρ × H
  /-- One step of key_sequence_models.py `get_output`: the log priors of the relative keys. -/
  ksm : Option H → List ℚ → List κ × H
  /-- joint_model.py:1247-1261: the order of the priors and the number of keys to branch on. -/
  order : List κ → List Int
  maxIndex : List κ → Nat

/-- The output and the hidden state of a network after a sequence of rows, from hidden state `h`. -/
def runNet {H O : Type} (step : Option H → List ℚ → O × H) : Option H → List (List ℚ) → Option (O × H)
  | _, [] => none
  | h, [r] => some (step h r)
  | h, r :: rs => runNet step (some (step h r).2) rs

/-- joint_model.py:1236-1261: the outputs of the KSM as the search uses them. -/
def ksmOutput {κ ρ H P : Type} (N : Nets κ ρ H P) : Option (List κ × H) → Py (KsmOutput κ H)
  | none => .error .indexError
  | some (priors, h) => .ok ⟨priors, N.order priors, N.maxIndex priors, h⟩

/-- The search runs the networks on the inputs of its states. -/
structure UsesNets {κ ρ H P : Type} [DecidableEq H] (d : SearchData κ ρ H P) (N : Nets κ ρ H P)
    (C : Caches) : Prop where
  /-- joint_model.py:1325-1377 `run_csm_batched`. -/
  csm : ∀ s, d.csm s = (s.csmInput d.labels d.pitchType C).map (N.csm s.node.csmHidden)
  /-- joint_model.py:1107-1181 `get_key_change_probs`. -/
  ktm : ∀ s, d.ktm s = (State.ktmInput d.labels d.pitchType C s.node s.prev).map (N.ktm s.node.ktmHidden)
  /-- joint_model.py:1183-1261 `get_key_change_states`. -/
  ksm : ∀ s, d.ksm s = (State.ksmInput d.labels d.pitchType C s.node s.prev).bind
    fun rows => ksmOutput N (runNet N.ksm s.node.ksmHidden rows)

end Verif
