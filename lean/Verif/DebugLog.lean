import Verif.Piece
import Verif.ModelEval

/-!
# Debug messages of the joint model

Model of the class `DebugLogger`, /repo/harmonic_inference/models/joint_model.py:1380-2073, which is used if the
level of the root logger is DEBUG (joint_model.py:599, 618, 928, 1082, 1175, 1263). The text of a message is not
modelled; a message is represented by the values it reports. Probabilities are rational numbers. `np.argsort` is a
parameter, since the order of equal values is not specified. The tables of labels (joint_model.py:1408-1417) are not
modelled. A piece either has annotated chords, keys and changes, or none of them (piece.py:943-956).
-/

namespace Verif

/-- Python `a / b` for non-negative integers. -/
def countRatio (a b : Nat) : Py ℚ := if b = 0 then .error .zeroDivisionError else .ok ((a : ℚ) / (b : ℚ))

/-- Python `l.index(x)`. -/
def listIndex (l : List Nat) (x : Nat) : Py Nat := if x ∈ l then .ok (l.idxOf x) else .error .valueError

/-! ## Chord transition model -/

/-- joint_model.py:1893-1896: the counters of `debug_chord_change_probs`, and the inputs with a message. -/
structure ChangeCounts where
  changeCorrect : Nat
  changeTotal : Nat
  noChangeCorrect : Nat
  noChangeTotal : Nat
  missed : List Nat
  spurious : List Nat
deriving DecidableEq, Repr

/-- joint_model.py:1898-1924: one round of the loop. `x`: the probability, the flag `invalid` and the index. -/
def changeStep (changes : Option (List Int)) (r : ChangeCounts) (x : (ℚ × Bool) × Nat) : ChangeCounts :=
  if x.1.2 then r
  else if changes.any (fun l => decide ((x.2 : Int) ∈ l)) then
    if x.1.1 < 1 / 2 then { r with changeTotal := r.changeTotal + 1, missed := r.missed ++ [x.2] }
    else { r with changeTotal := r.changeTotal + 1, changeCorrect := r.changeCorrect + 1 }
  else
    if 1 / 2 < x.1.1 then { r with noChangeTotal := r.noChangeTotal + 1, spurious := r.spurious ++ [x.2] }
    else { r with noChangeTotal := r.noChangeTotal + 1, noChangeCorrect := r.noChangeCorrect + 1 }

/-- joint_model.py:1890-1891: the mask `index_invalid`. The second line raises `IndexError` without inputs. -/
def debugInvalid (cache : List ℚ) : Py (List Bool) :=
  match cache with
  | [] => .error .indexError
  | _ => .ok ((rollOne (cache.map fun d => decide (d = 0))).set 0 true)

/-- joint_model.py:1881-1940 `debug_chord_change_probs`: the counters, and the two accuracies, which are only
computed if the piece is annotated. -/
def debugChangeProbs (changes : Option (List Int)) (cache probs : List ℚ) :
    Py (ChangeCounts × Option (ℚ × ℚ)) := do
  let invalid ← debugInvalid cache
  let r := (probs.zip invalid).zipIdx.foldl (changeStep changes) ⟨0, 0, 0, 0, [], []⟩
  match changes with
  | none => .ok (r, none)
  | some _ => do
    let a ← countRatio r.changeCorrect r.changeTotal
    let b ← countRatio r.noChangeCorrect r.noChangeTotal
    .ok (r, some (a, b))

/-! ## Chord classifier -/

/-- joint_model.py:2005-2034: a message about a range: the chords, their probabilities and ranks, and the top
chords. -/
structure ClassMessage where
  range : Int × Int
  chords : List Nat
  probs : List ℚ
  ranks : List Nat
  top : List Nat
deriving DecidableEq, Repr

/-- joint_model.py:1961-1962: the counters of `debug_chord_classifications`, as lists of ranges, and the messages. -/
structure ClassCounts where
  correctRanges : List (Int × Int)
  correctChords : List (Int × Int)
  messages : List ClassMessage
deriving DecidableEq, Repr

/-- joint_model.py:1967 and piece.py:273-276: the chords of a range; none without annotation. -/
def debugChordsOf {γ : Type} (annot : Option (List γ × List Int)) (range : Int × Int) : Py (List γ) :=
  match annot with
  | none => if range.2 < range.1 then .error .valueError else .ok []
  | some (chords, changes) => chordsWithinRange chords changes range.1 (some range.2)

/-- joint_model.py:1984-1988: the range belongs to one chord, and begins and ends at chord changes. The tests of
the changes are only reached if there is a chord. -/
def rangeCorrect {γ : Type} (annot : Option (List γ × List Int)) (range : Int × Int) (found : List γ) : Bool :=
  decide (found.length = 1) &&
    annot.any (fun a => decide (range.1 ∈ a.2) && decide (range.2 ∈ a.2))

/-- joint_model.py:1989-2034: the update of the counters and the message. `min(correct_rank) == 0` says that 0 is one
of the ranks. -/
def classUpdate (maxPrint : Nat) (r : ClassCounts) (isCorrect : Bool) (range : Int × Int) (ids : List Nat)
    (probs : List ℚ) (ranks rankings : List Nat) : ClassCounts :=
  let r1 := if isCorrect then { r with correctRanges := r.correctRanges ++ [range] } else r
  let r2 := if isCorrect && decide (ranks[0]? = some 0) then { r1 with correctChords := r1.correctChords ++ [range] }
    else r1
  if decide (0 ∈ ranks) || !isCorrect then r2
  else { r2 with messages := r2.messages ++
    [⟨range, ids, probs, ranks, rankings.take (min maxPrint (ranks.foldl max 0 + 1))⟩] }

/-- joint_model.py:1964-2034: one round of the loop. `chordId` is the class of a chord for the classifier,
1968-1978. -/
def classStep {γ : Type} (argsort : List ℚ → List Nat) (chordId : γ → Py Nat) (maxPrint : Nat)
    (annot : Option (List γ × List Int)) (r : ClassCounts) (x : (Int × Int) × List ℚ) : Py ClassCounts := do
  let found ← debugChordsOf annot x.1
  let ids ← found.mapM chordId
  let probs ← ids.mapM (fun i : Nat => pyGet x.2 (i : Int))
  let ranks ← ids.mapM (listIndex (argsort x.2))
  .ok (classUpdate maxPrint r (rangeCorrect annot x.1 found) x.1 ids probs ranks (argsort x.2))

/-- joint_model.py:1942-2043 `debug_chord_classifications`: the counters and the accuracy. `probs`: the exponentials
of the classifications. -/
def debugClassifications {γ : Type} (argsort : List ℚ → List Nat) (chordId : γ → Py Nat) (maxPrint : Nat)
    (annot : Option (List γ × List Int)) (ranges : List (Int × Int)) (probs : List (List ℚ)) :
    Py (ClassCounts × Option ℚ) := do
  let r ← (ranges.zip probs).foldlM (classStep argsort chordId maxPrint annot) ⟨[], [], []⟩
  match annot with
  | none => .ok (r, none)
  | some _ => do
    let a ← countRatio r.correctChords.length r.correctRanges.length
    .ok (r, some a)

/-! ## Key and chord sequences -/

/-- The fields of a state which are read: its key and chord, and the chord and change index of the previous
state. The previous state of the first chord has no chord. -/
structure DState where
  key : Nat
  chord : Nat
  prevChord : Option Nat
  prevChange : Int
deriving DecidableEq, Repr

/-- The annotation of a piece: chords and keys, the input index of each chord, and the chord index of each key
(piece.py:240, 361, 218, 335). -/
structure Annotation (γ κ : Type) where
  chords : List γ
  chordChanges : List Int
  keys : List κ
  keyChanges : List Int

/-- piece.py:346-359 `get_key_change_input_indices`, of an annotated piece. -/
def keyInputs {γ κ : Type} (A : Annotation γ κ) : Py (List Int) :=
  A.keyChanges.mapM (fun i => pyGet A.chordChanges i)

/-- joint_model.py:1522-1525 and 1662-1665: the text of a message contains the labels of the previous chord and the
chord. Without a previous chord, the label array is indexed with `None`, which gives an array of one row, which
`join` does not accept: `TypeError`. -/
def recentChords (s : DState) : Py Unit := if s.prevChord = none then .error .typeError else .ok ()

/-- What is expected at an index by the key transition model: the key before it, the chord which is compared with
the state, and whether the key changes. -/
structure Expected (γ κ : Type) where
  key : κ
  chord : γ
  changes : Bool

/-- joint_model.py:1447-1456: the last of `correct_chords`, which is the one compared with the states (1492). The
test in 1448 compares the number of chord changes with the index the wrong way round. -/
def ktmChord {γ κ : Type} (A : Annotation γ κ) (x : Int) (newChord : Nat) : Py γ :=
  if A.chordChanges.length < newChord then do
    let c ← pyGet A.chordChanges newChord
    pyGet A.chords
      (if c = x then (if newChord = A.chords.length then (newChord : Int) - 1 else newChord)
        else (newChord : Int) - 1)
  else pyGet A.chords ((newChord : Int) - 1)

/-- joint_model.py:1440-1458: what is expected for the key transition model. -/
def ktmExpected {γ κ : Type} (A : Annotation γ κ) (x : Int) : Py (Expected γ κ) := do
  let kc ← keyInputs A
  let key ← pyGet A.keys ((bisectLeft kc x : Int) - 1)
  let chord ← ktmChord A x (bisectLeft A.chordChanges x)
  .ok ⟨key, chord, decide (kc[bisectLeft kc x]? = some x)⟩

/-- The result of `debug_key_transitions` and `debug_chord_sequence_priors`: the states counted in `total` and in
`total_correct`. -/
structure KtmReport where
  counted : List DState
  correct : List DState
deriving DecidableEq, Repr

/-- joint_model.py:1507-1519: the probability is on the right side of one half. -/
def ktmRight (changes : Bool) (p : ℚ) : Bool := if changes then decide (1 / 2 < p) else decide (p < 1 / 2)

/-- joint_model.py:1505-1526: a state which is not skipped; there is a message unless the probability is right. -/
def countState (r : KtmReport) (s : DState) (right : Bool) : Py KtmReport :=
  if right then .ok ⟨r.counted ++ [s], r.correct ++ [s]⟩
  else do
    let _ ← recentChords s
    .ok ⟨r.counted ++ [s], r.correct⟩

/-- joint_model.py:1485-1526: one round of the loop over states. The class of the chord is only computed if the key
agrees. -/
def ktmStep {γ κ : Type} (keyId : κ → Py Nat) (chordId : γ → Py Nat) (E : Option (Expected γ κ)) (r : KtmReport)
    (s : ℚ × DState) : Py KtmReport :=
  match E with
  | none => countState r s.2 false
  | some E => do
    let k ← keyId E.key
    if k ≠ s.2.key then .ok r
    else do
      let c ← chordId E.chord
      if c ≠ s.2.chord then .ok r else countState r s.2 (ktmRight E.changes s.1)

/-- joint_model.py:1440-1480: nothing is expected without annotation. -/
def ktmExpectedOf {γ κ : Type} (A : Option (Annotation γ κ)) (x : Int) : Py (Option (Expected γ κ)) :=
  match A with
  | none => .ok none
  | some A => do
    let E ← ktmExpected A x
    .ok (some E)

/-- joint_model.py:1419-1538 `debug_key_transitions`. The change index is read from the first state. Without counted
states, no accuracy is logged, so there is no division by zero. -/
def debugKeyTransitions {γ κ : Type} (keyId : κ → Py Nat) (chordId : γ → Py Nat) (A : Option (Annotation γ κ))
    (probs : List ℚ) (states : List DState) : Py (Option KtmReport) :=
  match states with
  | [] => .ok none
  | s :: _ => do
    let E ← ktmExpectedOf A s.prevChange
    let r ← (probs.zip states).foldlM (ktmStep keyId chordId E) ⟨[], []⟩
    .ok (some r)

/-- joint_model.py:1561-1584: what is expected for the key sequence model: the key before the index, the key at it,
and the chord. `none`: the piece has no key change at the index. -/
def ksmExpected {γ κ : Type} (A : Annotation γ κ) (x : Int) : Py (Option (κ × κ × γ)) := do
  let kc ← keyInputs A
  if kc[bisectLeft kc x]? ≠ some x then .ok none
  else do
    let prev ← pyGet A.keys ((bisectLeft kc x : Int) - 1)
    let next ← pyGet A.keys (bisectLeft kc x)
    let c ← pyGet A.chordChanges (bisectLeft A.chordChanges x)
    let chord ← pyGet A.chords (chordAt c (bisectLeft A.chordChanges x))
    .ok (some (prev, next, chord))
where
  chordAt (c : Int) (newChord : Nat) : Int :=
    if c = x then (if newChord = A.chords.length then (newChord : Int) - 1 else newChord)
    else (newChord : Int) - 1

/-- joint_model.py:1611-1614: the counters, as lists of states. -/
structure KsmReport where
  total : List DState
  totalCorrect : List DState
  chord : List DState
  chordCorrect : List DState
deriving DecidableEq, Repr

/-- joint_model.py:1643-1665: the counters, and the message if the expected key is not the first one. -/
def ksmCount (r : KsmReport) (chordRight first : Bool) (s : DState) : Py KsmReport := do
  let r1 : KsmReport := { r with total := r.total ++ [s],
                                 chord := if chordRight then r.chord ++ [s] else r.chord }
  if first then
    .ok { r1 with totalCorrect := r.totalCorrect ++ [s],
                  chordCorrect := if chordRight then r.chordCorrect ++ [s] else r.chordCorrect }
  else do
    let _ ← recentChords s
    .ok r1

/-- joint_model.py:1616-1686: one round of the loop. `E`: the previous key, the class of the key change (1575-1577)
and the chord; nothing without annotation. `key_prior[...]` and `rankings.index` raise if there is no such
class. -/
def ksmStep {γ κ : Type} (argsort : List ℚ → List Nat) (keyId : κ → Py Nat) (chordId : γ → Py Nat)
    (E : Option (κ × Nat × γ)) (r : KsmReport) (s : DState × List ℚ) : Py KsmReport :=
  match E with
  | none => ksmCount r false false s.1
  | some (prev, change, chord) => do
    let k ← keyId prev
    if k ≠ s.1.key then .ok r
    else do
      let c ← chordId chord
      let _ ← pyGet s.2 (change : Int)
      let rank ← listIndex (argsort s.2) change
      ksmCount r (decide (c = s.1.chord)) (decide (rank = 0)) s.1

/-- joint_model.py:1540-1708 `debug_key_sequences`. `changeId` is `get_key_change_one_hot_index`. -/
def debugKeySequences {γ κ : Type} (argsort : List ℚ → List Nat) (keyId : κ → Py Nat) (chordId : γ → Py Nat)
    (changeId : κ → κ → Py Nat) (A : Option (Annotation γ κ)) (priors : List (List ℚ)) (states : List DState) :
    Py (Option KsmReport) :=
  match states with
  | [] => .ok none
  | s :: _ =>
    match A with
    | none => run states none
    | some A => do
      let E ← ksmExpected A s.prevChange
      match E with
      | none => .ok none
      | some (prev, next, chord) => do
        let change ← changeId prev next
        run states (some (prev, change, chord))
where
  run (states : List DState) (E : Option (κ × Nat × γ)) : Py (Option KsmReport) := do
    let r ← (states.zip priors).foldlM (ksmStep argsort keyId chordId E) ⟨[], [], [], []⟩
    .ok (some r)

/-- joint_model.py:1735-1761: what is expected for the chord sequence model: the key, the next chord
and the previous chords (at most five). `none`: there is no chord change at the index, or a key change. -/
def csmExpected {γ κ : Type} (A : Annotation γ κ) (x : Int) : Py (Option (κ × γ × List γ)) := do
  let kc ← keyInputs A
  if A.chordChanges[bisectLeft A.chordChanges x]? ≠ some x then .ok none
  else if kc[bisectLeft kc x]? = some x then .ok none
  else do
    let key ← pyGet A.keys ((bisectLeft kc x : Int) - 1)
    let next ← pyGet A.chords (bisectLeft A.chordChanges x)
    .ok (some (key, next, pySlice A.chords (max 0 ((bisectLeft A.chordChanges x : Int) - 5))
      (bisectLeft A.chordChanges x)))

/-- joint_model.py:1808-1864: one round of the loop. `prevIds`: the classes of the previous chords. The second part
of a state is the exponential of its `csm_log_prior`. -/
def csmStep (argsort : List ℚ → List Nat) (key next : Nat) (prevIds : List Nat) (r : KtmReport)
    (s : DState × List ℚ) : Py KtmReport := do
  let last ← pyGet prevIds (-1)
  if s.1.prevChord ≠ some last then .ok r
  else if s.1.key ≠ key then .ok r
  else do
    let _ ← pyGet s.2 (next : Int)
    let rank ← listIndex (argsort s.2) next
    .ok ⟨r.counted ++ [s.1], if rank = 0 then r.correct ++ [s.1] else r.correct⟩

/-- joint_model.py:1710-1879 `debug_chord_sequence_priors`, for an annotated piece (without annotation, all priors are
logged and nothing is counted). `relId` is the class of a chord for the output of the chord sequence model. -/
def debugChordPriors {γ κ : Type} (argsort : List ℚ → List Nat) (keyId : κ → Py Nat) (chordId relId : γ → Py Nat)
    (A : Annotation γ κ) (states : List (DState × List ℚ)) : Py (Option KtmReport) :=
  match states with
  | [] => .ok none
  | s :: _ =>
    if s.1.prevChange = 0 then .ok none
    else do
      let E ← csmExpected A s.1.prevChange
      match E with
      | none => .ok none
      | some (key, next, prev) => do
        let k ← keyId key
        let n ← relId next
        let prevIds ← prev.mapM chordId
        let r ← states.foldlM (csmStep argsort k n prevIds) ⟨[], []⟩
        .ok (some r)

/-- joint_model.py:2045-2073 `debug_initial_chord_prior`: the probability and the rank of the first chord. -/
def debugInitialPrior {γ κ : Type} (argsort : List ℚ → List Nat) (relId : γ → Py Nat) (A : Annotation γ κ)
    (prior : List ℚ) : Py (ℚ × Nat) := do
  let c ← pyGet A.chords 0
  let _ ← pyGet A.keys 0
  let i ← relId c
  let p ← pyGet prior (i : Int)
  let rank ← listIndex (argsort prior) i
  .ok (p, rank)

end Verif
