import Verif.Harmonic

/-!
# Search states

Model of /repo/harmonic_inference/utils/beam_search_utils.py:17-883 (class `State`). A state is a
linked list of nodes: its own node and those of `prev_state`, `prev_state.prev_state`, ...; a new node
is made by each transition and only its probability bookkeeping is changed later, before the node is
used as a previous state. Log probabilities are of a type `κ`, hidden states of the neural models of a
type `H`, chord priors of a type `P`. The cached `chord_obj` is left out: it is a function of the
fields modelled here.
-/

namespace Verif

/-- joint_model.py:271-283: `LABELS["chord"]` and `LABELS["key"]`. -/
structure Labels where
  chord : List (Int × ChordType × Int)
  key : List (Int × KeyMode)

/-- The labels of joint_model.py:271-274. -/
def stdLabels (pt : PitchType) : Labels :=
  ⟨chordClasses pt true false false noReduction, keyClasses pt false⟩

/-- The parts of a `Key` object made by `State.get_key` (its local and relative parts are equal). -/
structure KeyObj where
  tonic : Int
  mode : KeyMode
  globalTonic : Int
  globalMode : KeyMode
  deriving DecidableEq

/-- An entry of a hash tuple: `None` or `(key, chord)`. -/
abbrev HashEntry := Option (Int × Option Int)

/-- beam_search_utils.py:25-113: the fields of a State but `prev_state`. `hash` is `none` if there is
no attribute `hash_tuple`. -/
structure Node (κ H P : Type) where
  chord : Option Int
  key : Int
  changeIndex : Nat
  logProb : κ
  hash : Option (List HashEntry)
  csmHidden : Option H
  ktmHidden : Option H
  ksmHidden : Option H
  csmPrior : Option P
  keyObj : Option KeyObj
  mustKey : Bool
  csm : Option κ
  ksm : Option κ
  ktm : Option κ
  deriving DecidableEq

/-- A state with its chain of previous states, newest first. -/
structure State (κ H P : Type) where
  node : Node κ H P
  prev : List (Node κ H P)
  deriving DecidableEq

namespace State
variable {κ H P : Type}

/-- beam_search_utils.py:99-103: the hash tuple of a new node. `len(self.hash_tuple) if
hasattr(self, "hash_tuple") else None` is passed as `hash_length` by all transitions. -/
def newHash (hashLength : Option Nat) (prev : List (Node κ H P)) (key : Int) (chord : Option Int) :
    Option (List HashEntry) :=
  match hashLength with
  | none => none
  | some h =>
    match prev with
    | [] => some (List.replicate (h - 1) none ++ [some (key, chord)])
    | p :: _ => p.hash.map (fun t => t.drop 1 ++ [some (key, chord)])

/-- joint_model.py:922-925: `State(key=key, hash_length=...)` and the prior of the ICM. -/
def initial [Zero κ] (key : Int) (hashLength : Option Nat) (prior : Option P) : State κ H P :=
  ⟨{ chord := none, key := key, changeIndex := 0, logProb := 0,
     hash := newHash (κ := κ) (H := H) (P := P) hashLength [] key none,
     csmHidden := none, ktmHidden := none, ksmHidden := none, csmPrior := prior, keyObj := none,
     mustKey := false, csm := none, ksm := none, ktm := none }, []⟩

/-- beam_search_utils.py:749-776 `State.get_key`. The result is also cached in `key_obj` of this node
and those it asks; `chordTransition` below keeps the one of its own node (the cache never changes an
answer, see C49). -/
def getKeyAux (L : Labels) : Node κ H P → List (Node κ H P) → Py KeyObj
  | n, prev =>
    match n.keyObj with
    | some k => .ok k
    | none => do
      let (tonic, mode) ← pyGet L.key n.key
      match prev with
      | [] => .ok ⟨tonic, mode, tonic, mode⟩
      | p :: ps => do
        let k ← getKeyAux L p ps
        .ok ⟨tonic, mode, k.globalTonic, k.globalMode⟩

/-- beam_search_utils.py:749-776 `State.get_key`. -/
def getKey (L : Labels) (s : State κ H P) : Py KeyObj := getKeyAux L s.node s.prev

/-- `labels["chord"][chord]`; indexing by None is a `TypeError`. -/
def chordLabelOf (L : Labels) : Option Int → Py (Int × ChordType × Int)
  | none => .error .typeError
  | some c => pyGet L.chord c

/-- Outside of the padded range of relative pitches (beam_search_utils.py:201-210). -/
def outsidePadded (r : Int) : Bool :=
  decide (r < MIN_RELATIVE_TPC - RELATIVE_TPC_EXTRA) || decide (r ≥ MAX_RELATIVE_TPC + RELATIVE_TPC_EXTRA)

/-- Outside of the range of relative pitches (beam_search_utils.py:212-217, 287-292, 354-359). -/
def outside (r : Int) : Bool := decide (r < MIN_RELATIVE_TPC) || decide (r ≥ MAX_RELATIVE_TPC)

/-- beam_search_utils.py:163-232 `State.chord_transition`; `none` is the returned None. -/
def chordTransition [Add κ] (L : Labels) (pt : PitchType) (s : State κ H P) (chord : Int)
    (changeIndex : Nat) (lp : κ) : Py (Option (State κ H P)) := do
  let (root, ct, inv) ← chordLabelOf L (some chord)
  let bass ← bassNote ct root inv pt false
  let k ← getKey L s
  let relRoot := root - k.tonic
  let relBass := bass - k.tonic
  if outsidePadded relRoot || outsidePadded relBass then .ok none
  else
    let self : Node κ H P := { s.node with keyObj := some k }
    .ok (some ⟨{ chord := some chord, key := s.node.key, changeIndex := changeIndex,
                 logProb := s.node.logProb + lp,
                 hash := newHash (s.node.hash.map List.length) (self :: s.prev) s.node.key (some chord),
                 csmHidden := s.node.csmHidden, ktmHidden := s.node.ktmHidden,
                 ksmHidden := s.node.ksmHidden, csmPrior := s.node.csmPrior, keyObj := some k,
                 mustKey := outside relRoot || outside relBass,
                 csm := none, ksm := none, ktm := none }, self :: s.prev⟩)

/-- beam_search_utils.py:234-246 `State.can_key_transition`. -/
def canKeyTransition (s : State κ H P) : Bool := decide (2 ≤ s.prev.length)

/-- beam_search_utils.py:248-308 `State.key_transition`. Reading a field of a missing previous state
is an `AttributeError`. -/
def keyTransition [Add κ] (L : Labels) (pt : PitchType) (s : State κ H P) (key : Int) (lp : κ) :
    Py (Option (State κ H P)) := do
  let (root, ct, inv) ← chordLabelOf L s.node.chord
  let bass ← bassNote ct root inv pt false
  let (tonic, _) ← pyGet L.key key
  let relRoot := root - tonic
  let relBass := bass - tonic
  if outside relRoot || outside relBass then .ok none
  else
    match s.prev with
    | [] => .error .attributeError
    | p :: _ =>
      .ok (some ⟨{ chord := s.node.chord, key := key, changeIndex := s.node.changeIndex,
                   logProb := s.node.logProb + lp,
                   hash := newHash (s.node.hash.map List.length) s.prev key s.node.chord,
                   csmHidden := s.node.csmHidden, ktmHidden := p.ktmHidden, ksmHidden := p.ksmHidden,
                   csmPrior := s.node.csmPrior, keyObj := none, mustKey := false,
                   csm := s.node.csm, ksm := some lp, ktm := s.node.ktm }, s.prev⟩)

/-- beam_search_utils.py:361-365: the sum of the most recent log probabilities that are not None. -/
def modelAdjustment [Add κ] [Zero κ] (n : Node κ H P) : κ :=
  ([n.csm, n.ksm, n.ktm].filterMap id).foldl (· + ·) 0

/-- beam_search_utils.py:310-381 `State.rejoin`. -/
def rejoin [Add κ] [Sub κ] [Zero κ] (L : Labels) (pt : PitchType) (s : State κ H P)
    (newRangeEnd : Nat) (lp : κ) : Py (State κ H P) := do
  let (root, ct, inv) ← chordLabelOf L s.node.chord
  let bass ← bassNote ct root inv pt false
  match s.prev with
  | [] => .error .attributeError
  | p :: _ => do
    let (tonic, _) ← pyGet L.key p.key
    let relRoot := root - tonic
    let relBass := bass - tonic
    .ok ⟨{ chord := s.node.chord, key := p.key, changeIndex := newRangeEnd,
           logProb := s.node.logProb + lp - modelAdjustment s.node,
           hash := newHash (s.node.hash.map List.length) s.prev p.key s.node.chord,
           csmHidden := p.csmHidden, ktmHidden := p.ktmHidden, ksmHidden := p.ksmHidden,
           csmPrior := p.csmPrior, keyObj := p.keyObj,
           mustKey := outside relRoot || outside relBass,
           csm := none, ksm := none, ktm := none }, s.prev⟩

/-- beam_search_utils.py:383-394 `State.add_ktm_log_prob`. -/
def addKtm [Add κ] (s : State κ H P) (lp : κ) : State κ H P :=
  { s with node := { s.node with ktm := some lp, logProb := s.node.logProb + lp } }

/-- The effect of beam_search_utils.py:396-490 `State.add_csm_prior` on the state, given the log
probability it computes (see `State.csmPriorCost` in `CsmPrior`). -/
def addCsm [Add κ] (s : State κ H P) (lp : κ) : State κ H P :=
  { s with node := { s.node with csm := some lp, logProb := s.node.logProb + lp } }

/-- beam_search_utils.py:139-161 `State.copy`: the most recent log probabilities are not copied. -/
def copy (s : State κ H P) : State κ H P :=
  { s with node := { s.node with
      hash := newHash (s.node.hash.map List.length) s.prev s.node.key s.node.chord,
      csm := none, ksm := none, ktm := none } }

/-- joint_model.py:1097-1099, 1229-1231, 1366-1369: writing new hidden states and priors. -/
def setHidden (s : State κ H P) (csmH ktmH ksmH : Option H) (chordPrior : Option P) : State κ H P :=
  { s with node :=
    { s.node with csmHidden := csmH, ktmHidden := ktmH, ksmHidden := ksmH, csmPrior := chordPrior } }

/-- beam_search_utils.py:815-834 `State.get_chords` on the chain, newest first. -/
def getChordsAux : Node κ H P → List (Node κ H P) → List (Option Int) × List Nat
  | n, [] => ([], [n.changeIndex])
  | n, p :: ps =>
    let (chords, changes) := getChordsAux p ps
    (chords ++ [n.chord], changes ++ [n.changeIndex])

/-- beam_search_utils.py:815-834 `State.get_chords`. -/
def getChords (s : State κ H P) : List (Option Int) × List Nat := getChordsAux s.node s.prev

/-- beam_search_utils.py:836-860 `State.get_keys` on the chain, newest first. -/
def getKeysAux : Node κ H P → List (Node κ H P) → List Int × List Nat
  | n, [] => ([], [n.changeIndex])
  | n, p :: ps =>
    let (keys, changes) := getKeysAux p ps
    if keys.length = 0 ∨ some n.key ≠ keys.getLast? then (keys ++ [n.key], changes ++ [n.changeIndex])
    else (keys, changes.dropLast ++ [n.changeIndex])

/-- beam_search_utils.py:836-860 `State.get_keys`. -/
def getKeys (s : State κ H P) : List Int × List Nat := getKeysAux s.node s.prev

/-- beam_search_utils.py:778-813 `State.get_relative_chord_index`: the chord object of `get_chord`
(696-747) and chord.py:146-196 `Chord.get_one_hot_index(relative=True, use_inversion=True,
pad=False)`. -/
def relativeChordIndex (L : Labels) (pt : PitchType) (s : State κ H P) : Py Int := do
  let k ← getKey L s
  let (root, ct, inv) ← chordLabelOf L s.node.chord
  if s.prev.length = 0 then .error .attributeError
  else
    let _ ← bassNote ct root inv pt false
    let rel ← absoluteToRelative root k.tonic pt false false
    chordOneHotIndex ct rel pt inv true true false noReduction

end State

end Verif
