import Verif.State
import Verif.Beam

/-!
# The beam search

Model of /repo/harmonic_inference/models/joint_model.py:839-1377 (`beam_search`,
`get_key_change_probs`, `get_key_change_states`, `run_csm_batched`).

* The neural models are arbitrary functions of a state (they are run in batches, but each row of a
  batch is computed by itself).
* Log probabilities are of a type `κ` with arbitrary `+`, `-`, `<`, `>=` and multiplication by a
  length, probabilities of a type `ρ` with arbitrary comparisons: nothing is assumed of the arithmetic,
  so floats with rounding, infinities and NaN are covered.
* `CHORD_OUTPUT_TYPE` and `KEY_OUTPUT_TYPE` are taken to be the same pitch type.
* Logging and the debugger are left out.
-/

namespace Verif

/-- joint_model.py:883-907: an entry of `chord_ranges_dict` (without its start). `order` is the row of
`priors_argsort` and `maxIndex` the entry of `max_indexes` (see `maxBranch`). -/
structure RangeData (κ : Type) where
  stop : Nat
  logProb : κ
  rejoinLogProb : κ
  priors : List κ
  order : List Int
  maxIndex : Nat

/-- joint_model.py:1247-1261: the outputs of the KSM for one state. -/
structure KsmOutput (κ H : Type) where
  priors : List κ
  order : List Int
  maxIndex : Nat
  hidden : H

/-- All that the search depends on: the parameters of the joint model, the forced labels, the models
and the arguments of `beam_search`. -/
structure SearchData (κ ρ H P : Type) where
  /-- `LABELS["chord"]`, `LABELS["key"]` (271-273). -/
  labels : Labels
  /-- `LABELS["relative_key"]` (274-283). -/
  relativeKeys : List (KeyMode × Int)
  pitchType : PitchType
  beamSize : Nat
  hashLength : Option Nat
  /-- `len(self.current_piece.get_inputs())`. -/
  numInputs : Nat
  /-- The chord ranges with their starts, in order (883-907). -/
  ranges : List (Nat × RangeData κ)
  /-- `self.forced_chord_ids`, `self.forced_key_ids`: -1 is no forced id. -/
  forcedChords : List Int
  forcedKeys : List Int
  /-- `list(ids)[0]` for the set of these ids: some order of the set. -/
  pick : List Int → Int
  /-- `min_key_change_prob`, `max_no_key_change_prob`. -/
  minChange : ρ
  maxNoChange : ρ
  leProb : ρ → ρ → Bool
  zeroProb : ρ
  /-- `np.log(p)` and `np.log(1 - p)` (1025-1027). -/
  logChange : ρ → κ
  logNoChange : ρ → κ
  /-- `a < b` and `a >= b` on log probabilities, and multiplication by a range length. -/
  lt : κ → κ → Bool
  ge : κ → κ → Bool
  scale : κ → Int → κ
  /-- `x * self.ksm_exponent`. -/
  ksmExponent : κ → κ
  /-- `initial_chord_model.get_prior(is_minor, log=True)`. -/
  icm : Bool → P
  /-- `run_one_step` of the CSM on the input of a state: prior and hidden state. -/
  csm : State κ H P → Py (P × H)
  /-- The log probability added by `State.add_csm_prior`. -/
  csmCost : State κ H P → Py κ
  /-- `run_one_step` of the KTM on the input of a state: probability and hidden state. -/
  ktm : State κ H P → Py (ρ × H)
  /-- `get_output` of the KSM on the input of a state. -/
  ksm : State κ H P → Py (KsmOutput κ H)

/-- What the search uses of a beam class. The states of a beam carry a serial number, so that equality
of elements is object identity; it is ignored by `fits`. -/
structure BeamOps (β σ : Type) where
  new : Nat → β
  len : β → Nat
  /-- `beam[0]`. -/
  least : β → Py σ
  /-- `fits_in_beam(state, check_hash)`. -/
  fits : β → σ → Bool → Py Bool
  /-- `add(state, force)`. -/
  add : β → σ → Bool → Py (Bool × β)
  /-- `__iter__`. -/
  states : β → Py (List σ)
  empty : β → β
  topState : β → Py (Option σ)

/-- `self.beam[0]` on the heap of a beam. -/
def heapLeast {σ : Type} : List σ → Py σ
  | [] => .error .indexError
  | top :: _ => .ok top

/-- beam_search_utils.py:886-980: class `Beam`. -/
def plainOps {σ : Type} (lt : σ → σ → Bool) : BeamOps (Beam σ) σ where
  new := Beam.new
  len b := b.heap.length
  least b := heapLeast b.heap
  fits b s _ := b.fits lt s
  add b s force := b.add lt s force
  states b := .ok b.heap
  empty := Beam.empty
  topState b := .ok (b.topState lt)

/-- beam_search_utils.py:983-1104: class `HashedBeam`. -/
def hashedOps {η σ : Type} [DecidableEq η] [DecidableEq σ] (lt : σ → σ → Bool) (hash : σ → η) :
    BeamOps (HBeam η σ) σ where
  new := HBeam.new
  len := HBeam.len
  least b := heapLeast b.heap
  fits b s checkHash := b.fits lt hash s checkHash
  add b s force := b.add lt hash s force
  states := HBeam.states
  empty := HBeam.empty
  topState b := b.topState lt

/-- joint_model.py:870-882, 1249-1261: the number of classes to branch on, for probabilities in
decreasing order: `np.clip(np.argmax(np.cumsum(probs) >= target) + 1, 1, max_branching_factor)`;
`np.argmax` of a row without True is 0. -/
def maxBranch {π : Type} [Add π] [Zero π] (ge : π → π → Bool) (target : π) (maxFactor : Nat)
    (probs : List π) : Nat :=
  let sums := (List.range probs.length).map fun i => (probs.take (i + 1)).foldl (· + ·) 0
  let first := (sums.findIdx? fun x => ge x target).getD 0
  min (max (first + 1) 1) maxFactor

namespace SearchData
variable {κ ρ H P : Type} (d : SearchData κ ρ H P)

/-- joint_model.py:898: `chord_ranges_dict[start]`. -/
def rangesAt (start : Nat) : List (RangeData κ) :=
  (d.ranges.filter fun e => decide (e.1 = start)).map (·.2)

/-- joint_model.py:981-983, 1042-1046, 1276-1279: the first of `set(ids[a:b]) - set([-1])`. -/
def forcedIn (ids : List Int) (a b : Nat) : Option Int :=
  let l := ((ids.take b).drop a).filter fun x => decide (x ≠ -1)
  if l = [] then none else some (d.pick l)

/-- joint_model.py:976-987: the chords to branch on. (The forced id is written into the shared row
`chord_priors_argsort`; each later use of that row, from the same start and range, writes the same id
there before reading it.) -/
def branchIds (start : Nat) (chord : Option Int) (r : RangeData κ) : Py (List Int) :=
  match d.forcedIn d.forcedChords start r.stop with
  | some f => (pyGet r.order 0).map fun _ => [f]
  | none =>
    if r.maxIndex = 1 then
      (pyGet r.order 0).map fun first => if some first = chord then r.order.take 2 else r.order.take 1
    else .ok (r.order.take r.maxIndex)

variable [Add κ] [Sub κ] [Zero κ]

/-- joint_model.py:988-1009: rejoin if the chord is that of the state, else transition. -/
def branchState (start : Nat) (s : State κ H P) (r : RangeData κ) (c : Int) :
    Py (Option (State κ H P)) := do
  let lp ← pyGet r.priors c
  let cost := r.logProb + d.scale lp ((r.stop : Int) - start)
  if some c = s.node.chord then
    (s.rejoin d.labels d.pitchType r.stop (cost + r.rejoinLogProb)).map some
  else s.chordTransition d.labels d.pitchType c r.stop cost

variable {β : Type} (ops : BeamOps β (Nat × State κ H P))

/-- `current_start == 0 or all_states[s.change_index].fits_in_beam(s, check_hash)` (1013-1016, 1060,
1068). -/
def fitsAt (start : Nat) (beams : List β) (s : State κ H P) (checkHash : Bool) : Py Bool :=
  if start = 0 then .ok true
  else do
    let b ← pyGet beams s.node.changeIndex
    ops.fits b (0, s) checkHash

/-- joint_model.py:1011-1021: keep a new state and go on, or stop at the first that does not fit. -/
def keepIf (rest : Py (List (State κ H P))) (s : State κ H P) (fits : Bool) :
    Py (List (State κ H P)) :=
  if fits then rest.map (s :: ·) else .ok []

/-- joint_model.py:987-1021: the loop over chords. -/
def branchLoop (start : Nat) (beams : List β) (s : State κ H P) (r : RangeData κ) :
    List Int → Py (List (State κ H P))
  | [] => .ok []
  | c :: cs => do
    let new ← d.branchState start s r c
    match new with
    | none => branchLoop start beams s r cs
    | some s' => do
      let fits ← fitsAt ops start beams s' false
      keepIf (branchLoop start beams s r cs) s' fits

/-- joint_model.py:968-974: the quick exit. -/
def quickExit (start : Nat) (beams : List β) (s : State κ H P) (r : RangeData κ) : Py Bool :=
  if start = 0 then .ok false
  else do
    let b ← pyGet beams r.stop
    if ops.len b = 0 then .ok false
    else (ops.least b).map fun top => d.ge top.2.node.logProb (s.node.logProb + r.logProb)

/-- joint_model.py:958-1021: one state and one range. -/
def branchRange (start : Nat) (beams : List β) (sr : State κ H P × RangeData κ) :
    Py (List (State κ H P)) := do
  let exit ← d.quickExit ops start beams sr.1 sr.2
  if exit then .ok []
  else do
    let ids ← d.branchIds start sr.1.node.chord sr.2
    d.branchLoop ops start beams sr.1 sr.2 ids

/-- `itertools.product(states, ranges)`. -/
def pairs {α γ : Type} (l : List α) (m : List γ) : List (α × γ) := l.flatMap fun a => m.map fun b => (a, b)

/-- joint_model.py:955-1021: `to_check_for_key_change`. -/
def branchAll (start : Nat) (beams : List β) (states : List (State κ H P)) :
    Py (List (State κ H P)) :=
  ((pairs states (d.rangesAt start)).mapM (d.branchRange ops start beams)).map List.flatten

omit [Add κ] [Sub κ] [Zero κ] in
/-- joint_model.py:1374-1377 (`run_csm_batched`): the new prior and hidden state of one state. -/
def runCsm (s : State κ H P) : Py (State κ H P) :=
  (d.csm s).map fun ph => { s with node := { s.node with csmPrior := some ph.1, csmHidden := some ph.2 } }

omit [Add κ] [Sub κ] [Zero κ] in
/-- joint_model.py:1126-1173 (`get_key_change_probs`) for one state: the probability is 0 if it cannot
change key, and its hidden state is updated. -/
def runKtm (s : State κ H P) : Py (ρ × State κ H P) :=
  (d.ktm s).map fun ph =>
    (if s.canKeyTransition then ph.1 else d.zeroProb,
      { s with node := { s.node with ktmHidden := some ph.2 } })

omit [Add κ] [Sub κ] [Zero κ] in
/-- joint_model.py:1240-1242: the hidden state of the KSM. -/
def setKsm (s : State κ H P) (o : KsmOutput κ H) : State κ H P :=
  { s with node := { s.node with ksmHidden := some o.hidden } }

omit [Add κ] [Sub κ] [Zero κ] in
/-- joint_model.py:1036-1053: `(can_change, can_not_change)` of a state with previous node `q`. -/
def keyOptions (prob : ρ) (s : State κ H P) (q : Node κ H P) : Bool × Bool :=
  match d.forcedIn d.forcedKeys q.changeIndex s.node.changeIndex with
  | some f => if s.node.key = f then (false, !s.node.mustKey) else (true, false)
  | none => (d.leProb d.minChange prob, d.leProb prob d.maxNoChange && !s.node.mustKey)

/-- joint_model.py:1055-1071: the state to change key and the state to keep it, with the costs charged
to them. With both allowed, both costs are charged to the copy (line 1067 names `change_state`). The
third component is the changing state as it is when its fit is tested (1060). -/
def chargeKey (options : Bool × Bool) (changeCost keepCost : κ) (s : State κ H P) :
    Option (State κ H P × State κ H P) × Option (State κ H P) :=
  match options with
  | (true, true) =>
    let c := s.copy.addKtm changeCost
    (some (c, c.addKtm keepCost), some s)
  | (true, false) => let c := s.addKtm changeCost; (some (c, c), none)
  | (false, true) => (none, some (s.addKtm keepCost))
  | (false, false) => (none, none)

/-- The states that are kept after their fit is tested. -/
def keepFits (start : Nat) (beams : List β) (checkHash : Bool) :
    Option (State κ H P × State κ H P) → Py (List (State κ H P))
  | none => .ok []
  | some (tested, s) =>
    (fitsAt ops start beams tested checkHash).map fun f => if f then [s] else []

/-- joint_model.py:1032-1071: the branch on a key change of one state: states for `to_ksm_states` and
for `to_csm_prior_states`. -/
def keyBranch (start : Nat) (beams : List β) (ps : ρ × State κ H P) :
    Py (List (State κ H P) × List (State κ H P)) :=
  match ps.2.prev with
  | [] => .error .attributeError
  | q :: _ => do
    let len : Int := (ps.2.node.changeIndex : Int) - q.changeIndex
    let charged := chargeKey (d.keyOptions ps.1 ps.2 q) (d.scale (d.logChange ps.1) len)
      (d.scale (d.logNoChange ps.1) len) ps.2
    let change ← keepFits ops start beams false charged.1
    let keep ← keepFits ops start beams true (charged.2.map fun s => (s, s))
    .ok (change, keep)

omit [Add κ] [Sub κ] [Zero κ] in
/-- joint_model.py:1283-1292: the key reached by a relative key, if there is one. -/
def targetKey (s : State κ H P) (relative : Int) : Py (Option Int) := do
  let (mode, interval) ← pyGet d.relativeKeys relative
  let k ← s.getKey d.labels
  let tonic := k.tonic + interval
  match d.pitchType with
  | .midi => (keyOneHotIndex mode (tonic % 12) .midi).map some
  | .tpc =>
    if tonic < 0 ∨ tonic ≥ NUM_PITCHES .tpc then .ok none
    else (keyOneHotIndex mode tonic .tpc).map some

omit [Add κ] [Sub κ] [Zero κ] in
/-- joint_model.py:1294-1300: a key to skip. -/
def skipKey (forced : Option Int) (key current : Int) : Bool :=
  (forced.isSome && decide (forced ≠ some key)) || decide (key = current)

/-- joint_model.py:1311-1321: what follows a key transition. -/
def afterKey (forced : Option Int) (key : Int) (room : Nat) (rest : Nat → Py (List (State κ H P))) :
    Option (State κ H P) → Py (List (State κ H P))
  | some s => if room ≤ 1 ∨ forced = some key then .ok [s] else (rest (room - 1)).map (s :: ·)
  | none => if forced = some key then .ok [] else rest room

/-- joint_model.py:1281-1321: the loop over relative keys. `room` is `max_index - valid_states`. -/
def keyLoop (forced : Option Int) (s : State κ H P) (o : KsmOutput κ H) (len : Int) :
    List Int → Nat → Py (List (State κ H P))
  | [], _ => .ok []
  | rel :: rels, room => do
    let target ← d.targetKey s rel
    match target with
    | none => keyLoop forced s o len rels room
    | some key =>
      if skipKey forced key s.node.key then keyLoop forced s o len rels room
      else do
        let lp ← pyGet o.priors rel
        let new ← s.keyTransition d.labels d.pitchType key (d.scale (d.ksmExponent lp) len)
        afterKey forced key room (keyLoop forced s o len rels) new

/-- joint_model.py:1183-1323 (`get_key_change_states`) for one state. -/
def keyChanges (s : State κ H P) : Py (List (State κ H P)) := do
  let o ← d.ksm s
  match (setKsm s o).prev with
  | [] => .error .attributeError
  | q :: _ =>
    d.keyLoop (d.forcedIn d.forcedKeys q.changeIndex s.node.changeIndex) (setKsm s o) o
      ((s.node.changeIndex : Int) - q.changeIndex) o.order o.maxIndex

omit [Add κ] [Sub κ] [Zero κ] in
/-- joint_model.py:1075-1077: the KTM and the KSM are run on the states with a new key, for their
hidden states only. -/
def runHidden (s : State κ H P) : Py (State κ H P) := do
  let ps ← d.runKtm s
  let o ← d.ksm ps.2
  .ok (setKsm ps.2 o)

/-- `all_states[state.change_index].add(state)`; the second component is the next serial number. -/
def addState (st : List β × Nat) (s : State κ H P) : Py (List β × Nat) := do
  let b ← pyGet st.1 s.node.changeIndex
  let (_, b') ← ops.add b (st.2, s) false
  .ok (st.1.set s.node.changeIndex b', st.2 + 1)

/-- joint_model.py:1086-1099: `add_csm_prior`, then add the state to its beam. -/
def addKept (st : List β × Nat) (s : State κ H P) : Py (List β × Nat) := do
  let cost ← d.csmCost s
  addState ops st (s.addCsm cost)

omit [Add κ] [Sub κ] [Zero κ] in
/-- joint_model.py:948-950: the CSM is run at every start but the first. -/
def csmStates (start : Nat) (states : List (State κ H P)) : Py (List (State κ H P)) :=
  if start = 0 then .ok states else states.mapM d.runCsm

/-- joint_model.py:946-1101: the body of the main loop for a non-empty beam. -/
def stepBody (start : Nat) (st : List β × Nat) (b : β) : Py (List β × Nat) := do
  let objects ← ops.states b
  let states ← d.csmStates start (objects.map (·.2))
  let toCheck ← d.branchAll ops start st.1 states
  let withProbs ← toCheck.mapM d.runKtm
  let branched ← withProbs.mapM (d.keyBranch ops start st.1)
  let changed ← ((branched.map (·.1)).flatten).mapM d.keyChanges
  let changed ← changed.flatten.mapM d.runHidden
  let st ← changed.foldlM (addState ops) st
  let st ← ((branched.map (·.2)).flatten).foldlM (d.addKept ops) st
  let b ← pyGet st.1 start
  .ok (st.1.set start (ops.empty b), st.2)

/-- joint_model.py:938-1101: one iteration of the main loop. -/
def step (st : List β × Nat) (start : Nat) : Py (List β × Nat) := do
  let b ← pyGet st.1 start
  if ops.len b = 0 then .ok st else d.stepBody ops start st b

/-- joint_model.py:915-919: the keys of the initial states. -/
def initialKeys : Py (List Int) := do
  let f ← pyGet d.forcedKeys 0
  if f = -1 then do
    let names ← keyLabelList d.pitchType false none
    .ok (pyRange 0 names.length)
  else .ok [f]

/-- joint_model.py:920-926: one initial state. -/
def addInitial (st : β × Nat) (key : Int) : Py (β × Nat) := do
  let (_, mode) ← pyGet d.labels.key key
  let (_, b) ← ops.add st.1 (st.2, State.initial key d.hashLength (some (d.icm (decide (mode = .minor)))))
    true
  .ok (b, st.2 + 1)

/-- joint_model.py:909-926: the beams before the main loop. -/
def initialBeams : Py (List β × Nat) := do
  let keys ← d.initialKeys
  let (b, next) ← keys.foldlM (d.addInitial ops) (ops.new d.beamSize, 0)
  .ok (b :: List.replicate d.numInputs (ops.new d.beamSize), next)

/-- joint_model.py:839-1103 `beam_search` with the given class of beams. -/
def searchWith : Py (Option (State κ H P)) := do
  let st ← d.initialBeams ops
  let st ← (List.range d.numInputs).foldlM (d.step ops) st
  let b ← pyGet st.1 d.numInputs
  let top ← ops.topState b
  .ok (top.map (·.2))

/-- beam_search_utils.py:882-883 `State.__lt__`. -/
def stateLt (a b : Nat × State κ H P) : Bool := d.lt a.2.node.logProb b.2.node.logProb

/-- joint_model.py:839-1103 `beam_search`. -/
def search [DecidableEq κ] [DecidableEq H] [DecidableEq P] : Py (Option (State κ H P)) :=
  match d.hashLength with
  | none => d.searchWith (plainOps d.stateLt)
  | some _ => d.searchWith (hashedOps d.stateLt fun a => a.2.node.hash)

end SearchData

end Verif
