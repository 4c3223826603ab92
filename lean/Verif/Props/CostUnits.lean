import Verif.CsmPrior
import Verif.Lemmas.SearchSim
import Verif.Lemmas.Lists
import Verif.Props.SearchTransposes
import Mathlib.Algebra.Order.Field.Basic

/-!
# The base of the logarithms (C157)

Log probabilities are only added, subtracted, multiplied with lengths and exponents, and compared. The search finds the
same chords and keys with logarithms to any other base, and with any other representation of the hidden states of the
networks.
-/

namespace Verif.CostUnits

open Verif SearchData State

variable {κ κ' ρ H H' : Type}

/-- A node with its log probabilities in another unit and other names for hidden states. -/
def inNode (f : κ → κ') (g : H → H') (n : Node κ H (List κ)) : Node κ' H' (List κ') :=
  { chord := n.chord, key := n.key, changeIndex := n.changeIndex, logProb := f n.logProb, hash := n.hash
    csmHidden := n.csmHidden.map g, ktmHidden := n.ktmHidden.map g, ksmHidden := n.ksmHidden.map g
    csmPrior := n.csmPrior.map (List.map f), keyObj := n.keyObj, mustKey := n.mustKey
    csm := n.csm.map f, ksm := n.ksm.map f, ktm := n.ktm.map f }

def inState (f : κ → κ') (g : H → H') (s : State κ H (List κ)) : State κ' H' (List κ') :=
  ⟨inNode f g s.node, s.prev.map (inNode f g)⟩

def inRange (f : κ → κ') (r : RangeData κ) : RangeData κ' :=
  ⟨r.stop, f r.logProb, f r.rejoinLogProb, r.priors.map f, r.order, r.maxIndex⟩

/-- The search `d'` is the search `d` in another unit: the log probabilities it is given are taken to others by `f`,
which goes with the arithmetic and the comparisons of both searches. -/
structure OtherUnit [Add κ] [Sub κ] [Zero κ] [Add κ'] [Sub κ'] [Zero κ'] (f : κ → κ')
    (d : SearchData κ ρ H (List κ)) (d' : SearchData κ' ρ H' (List κ')) : Prop where
  inj : Function.Injective f
  zero : f 0 = 0
  add : ∀ a b, f (a + b) = f a + f b
  sub : ∀ a b, f (a - b) = f a - f b
  lt : ∀ a b, d'.lt (f a) (f b) = d.lt a b
  ge : ∀ a b, d'.ge (f a) (f b) = d.ge a b
  scale : ∀ a n, d'.scale (f a) n = f (d.scale a n)
  ksmExponent : ∀ a, d'.ksmExponent (f a) = f (d.ksmExponent a)
  pitchType : d'.pitchType = d.pitchType
  beamSize : d'.beamSize = d.beamSize
  hashLength : d'.hashLength = d.hashLength
  numInputs : d'.numInputs = d.numInputs
  ranges : d'.ranges = d.ranges.map fun e => (e.1, inRange f e.2)
  forcedChords : d'.forcedChords = d.forcedChords
  forcedKeys : d'.forcedKeys = d.forcedKeys
  pick : d'.pick = d.pick
  minChange : d'.minChange = d.minChange
  maxNoChange : d'.maxNoChange = d.maxNoChange
  leProb : d'.leProb = d.leProb
  zeroProb : d'.zeroProb = d.zeroProb
  logChange : ∀ p, d'.logChange p = f (d.logChange p)
  logNoChange : ∀ p, d'.logNoChange p = f (d.logNoChange p)
  icm : ∀ b, d'.icm b = (d.icm b).map f

/-- The networks `N'` are the networks `N` with their outputs in another unit. -/
structure SameNets (f : κ → κ') (g : H → H') (N : Nets κ ρ H (List κ)) (N' : Nets κ' ρ H' (List κ')) : Prop where
  inj : Function.Injective g
  csm : ∀ h r, N'.csm (h.map g) r = ((N.csm h r).1.map f, g (N.csm h r).2)
  ktm : ∀ h r, N'.ktm (h.map g) r = ((N.ktm h r).1, g (N.ktm h r).2)
  ksm : ∀ h r, N'.ksm (h.map g) r = ((N.ksm h r).1.map f, g (N.ksm h r).2)
  order : ∀ l, N'.order (l.map f) = N.order l
  maxIndex : ∀ l, N'.maxIndex (l.map f) = N.maxIndex l

section states
variable {f : κ → κ'} {g : H → H'}

theorem inNode_inj (hf : Function.Injective f) (hg : Function.Injective g) : Function.Injective (inNode f g) := by
  intro a b h
  obtain ⟨⟩ := a
  obtain ⟨⟩ := b
  simp only [inNode, Node.mk.injEq] at h ⊢
  obtain ⟨h1, h2, h3, h4, h5, h6, h7, h8, h9, h10, h11, h12, h13, h14⟩ := h
  exact ⟨h1, h2, h3, hf h4, h5, Option.map_injective hg h6, Option.map_injective hg h7, Option.map_injective hg h8,
    Option.map_injective (List.map_injective_iff.2 hf) h9, h10, h11, Option.map_injective hf h12,
    Option.map_injective hf h13, Option.map_injective hf h14⟩

theorem inState_inj (hf : Function.Injective f) (hg : Function.Injective g) : Function.Injective (inState f g) := by
  intro a b h
  obtain ⟨a1, a2⟩ := a
  obtain ⟨b1, b2⟩ := b
  simp only [inState, State.mk.injEq] at h ⊢
  exact ⟨inNode_inj hf hg h.1, List.map_injective_iff.2 (inNode_inj hf hg) h.2⟩

theorem newHash_in (l : Option Nat) (prev : List (Node κ H (List κ))) (key : Int) (chord : Option Int) :
    newHash l (prev.map (inNode f g)) key chord = newHash l prev key chord := by
  cases l with
  | none => rfl
  | some l => cases prev <;> rfl

theorem getKeyAux_in (L : Labels) (n : Node κ H (List κ)) (prev : List (Node κ H (List κ))) :
    getKeyAux L (inNode f g n) (prev.map (inNode f g)) = getKeyAux L n prev := by
  induction prev generalizing n with
  | nil => unfold getKeyAux; rfl
  | cons p ps ih =>
    unfold getKeyAux
    simp only [List.map_cons, ih]
    rfl

theorem getKey_in (L : Labels) (s : State κ H (List κ)) : getKey L (inState f g s) = getKey L s :=
  getKeyAux_in L s.node s.prev

theorem chordTransition_in [Add κ] [Add κ'] (ha : ∀ a b, f (a + b) = f a + f b) (L : Labels) (pt : PitchType)
    (s : State κ H (List κ)) (c : Int) (i : Nat) (lp : κ) :
    chordTransition L pt (inState f g s) c i (f lp) =
      (chordTransition L pt s c i lp).map (Option.map (inState f g)) := by
  simp only [chordTransition, getKey_in]
  cases chordLabelOf L (some c) with
  | error e => rfl
  | ok x =>
    obtain ⟨root, ct, inv⟩ := x
    simp only [Bind.bind, Except.bind]
    cases bassNote ct root inv pt false with
    | error e => rfl
    | ok bass =>
      simp only
      cases getKey L s with
      | error e => rfl
      | ok k =>
        simp only
        split
        · rfl
        · have hh := newHash_in (f := f) (g := g) (s.node.hash.map List.length)
            ({ s.node with keyObj := some k } :: s.prev) s.node.key (some c)
          simp only [Except.map, Option.map_some, inState, inNode, List.map_cons, ha] at hh ⊢
          rw [hh]
          rfl

theorem keyTransition_in [Add κ] [Add κ'] (ha : ∀ a b, f (a + b) = f a + f b) (L : Labels) (pt : PitchType)
    (s : State κ H (List κ)) (key : Int) (lp : κ) :
    keyTransition L pt (inState f g s) key (f lp) =
      (keyTransition L pt s key lp).map (Option.map (inState f g)) := by
  have hc : (inState f g s).node.chord = s.node.chord := rfl
  simp only [keyTransition, hc]
  cases chordLabelOf L s.node.chord with
  | error e => rfl
  | ok x =>
    obtain ⟨root, ct, inv⟩ := x
    simp only [Bind.bind, Except.bind]
    cases bassNote ct root inv pt false with
    | error e => rfl
    | ok bass =>
      simp only
      cases pyGet L.key key with
      | error e => rfl
      | ok k =>
        simp only
        split
        · rfl
        · obtain ⟨n, prev⟩ := s
          cases prev with
          | nil => rfl
          | cons p ps =>
            have hh := newHash_in (f := f) (g := g) (n.hash.map List.length) (p :: ps) key n.chord
            simp only [Except.map, Option.map_some, inState, inNode, List.map_cons, ha] at hh ⊢
            rw [hh]

theorem modelAdjustment_in [Add κ] [Add κ'] [Zero κ] [Zero κ'] (hz : f 0 = 0) (ha : ∀ a b, f (a + b) = f a + f b)
    (n : Node κ H (List κ)) : modelAdjustment (inNode f g n) = f (modelAdjustment n) := by
  simp only [modelAdjustment, inNode]
  cases n.csm <;> cases n.ksm <;> cases n.ktm <;> simp [ha, hz]

theorem rejoin_in [Add κ] [Add κ'] [Zero κ] [Zero κ'] [Sub κ] [Sub κ'] (hz : f 0 = 0)
    (ha : ∀ a b, f (a + b) = f a + f b) (hs : ∀ a b, f (a - b) = f a - f b) (L : Labels) (pt : PitchType)
    (s : State κ H (List κ)) (i : Nat) (lp : κ) :
    rejoin L pt (inState f g s) i (f lp) = (rejoin L pt s i lp).map (inState f g) := by
  have hc : (inState f g s).node.chord = s.node.chord := rfl
  simp only [rejoin, hc]
  cases chordLabelOf L s.node.chord with
  | error e => rfl
  | ok x =>
    obtain ⟨root, ct, inv⟩ := x
    simp only [Bind.bind, Except.bind]
    cases bassNote ct root inv pt false with
    | error e => rfl
    | ok bass =>
      simp only
      obtain ⟨n, prev⟩ := s
      cases prev with
      | nil => rfl
      | cons p ps =>
        simp only [inState, List.map_cons]
        have hk : (inNode f g p).key = p.key := rfl
        rw [hk]
        cases pyGet L.key p.key with
        | error e => rfl
        | ok k =>
          have hh := newHash_in (f := f) (g := g) (n.hash.map List.length) (p :: ps) p.key n.chord
          have hm := modelAdjustment_in (g := g) hz ha n
          simp only [List.map_cons] at hh
          simp only [Except.map, hm]
          simp only [inNode] at hh ⊢
          simp only [hh, inState, inNode, ha, hs, Option.map_none, List.map_cons]

theorem copy_in (s : State κ H (List κ)) : (inState f g s).copy = inState f g s.copy := by
  have hh := newHash_in (f := f) (g := g) (s.node.hash.map List.length) s.prev s.node.key s.node.chord
  simp only [State.copy, inState, inNode, Option.map_none] at hh ⊢
  rw [hh]

theorem chordObj_in (L : Labels) (pt : PitchType) (C : Caches) (n : Node κ H (List κ))
    (prev : List (Node κ H (List κ))) :
    chordObj L pt C (inNode f g n) (prev.map (inNode f g)) = chordObj L pt C n prev := by
  simp only [chordObj, getKeyAux_in]
  cases prev <;> rfl

theorem csmInput_in (L : Labels) (pt : PitchType) (C : Caches) (s : State κ H (List κ)) :
    csmInput L pt C (inState f g s) = csmInput L pt C s := by
  have h : csmKeyPart L pt (inNode f g s.node) (s.prev.map (inNode f g)) = csmKeyPart L pt s.node s.prev := by
    cases hp : s.prev with
    | nil => rfl
    | cons p ps =>
      have h1 := getKeyAux_in (f := f) (g := g) L s.node (p :: ps)
      simp only [List.map_cons] at h1
      simp only [List.map_cons, csmKeyPart, getKeyAux_in, h1]
      rfl
  simp only [csmInput, inState, h, chordObj_in]

theorem ktmInput_in (L : Labels) (pt : PitchType) (C : Caches) (n : Node κ H (List κ))
    (prev : List (Node κ H (List κ))) :
    ktmInput L pt C (inNode f g n) (prev.map (inNode f g)) = ktmInput L pt C n prev := by
  have h : ktmKeyPart L pt (inNode f g n) (prev.map (inNode f g)) = ktmKeyPart L pt n prev := by
    cases prev with
    | nil => rfl
    | cons p ps =>
      have h1 := getKeyAux_in (f := f) (g := g) L n (p :: ps)
      simp only [List.map_cons] at h1
      simp only [List.map_cons, ktmKeyPart, getKeyAux_in, h1]
      rfl
  simp only [ktmInput, h, chordObj_in]

theorem ksmInput_in [DecidableEq H] [DecidableEq H'] (hg : Function.Injective g) (L : Labels) (pt : PitchType)
    (C : Caches) (n : Node κ H (List κ)) (prev : List (Node κ H (List κ))) :
    ksmInput L pt C (inNode f g n) (prev.map (inNode f g)) = ksmInput L pt C n prev := by
  induction prev generalizing n with
  | nil =>
    have := ktmInput_in (f := f) (g := g) L pt C n []
    simp only [List.map_nil] at this
    simp only [List.map_nil, ksmInput, this]
  | cons p ps ih =>
    have h1 := ktmInput_in (f := f) (g := g) L pt C n (p :: ps)
    simp only [List.map_cons] at h1
    have h2 : ksmHasRun (inNode f g p) (ps.map (inNode f g)) = ksmHasRun p ps := by
      cases ps with
      | nil => rfl
      | cons q qs => simp only [List.map_cons, ksmHasRun, inNode, ne_eq, (Option.map_injective hg).eq_iff]
    simp only [List.map_cons, ksmInput, h1, h2, ih]

theorem runNet_in {O O' : Type} {step : Option H → List ℚ → O × H} {step' : Option H' → List ℚ → O' × H'} {u : O → O'}
    (h : ∀ x r, step' (x.map g) r = (u (step x r).1, g (step x r).2)) (x : Option H) (rows : List (List ℚ)) :
    runNet step' (x.map g) rows = (runNet step x rows).map fun y => (u y.1, g y.2) := by
  induction rows generalizing x with
  | nil => rfl
  | cons r rows ih =>
    cases rows with
    | nil => simp [runNet, h]
    | cons r' rows =>
      simp only [runNet, h]
      exact ih (some (step x r).2)

theorem csmPriorCost_in {scale : κ → Int → κ} {scale' : κ' → Int → κ'} (hs : ∀ a n, scale' (f a) n = f (scale a n))
    (L : Labels) (pt : PitchType) (useInv : Bool) (red : Reduction) (s : State κ H (List κ)) :
    csmPriorCost scale' L pt useInv red (inState f g s) = (csmPriorCost scale L pt useInv red s).map f := by
  obtain ⟨n, prev⟩ := s
  cases prev with
  | nil => rfl
  | cons q rest =>
    have h1 : relativeChordIndex L pt (inState f g ⟨n, q :: rest⟩) = relativeChordIndex L pt ⟨n, q :: rest⟩ := by
      simp only [relativeChordIndex, getKey_in]
      rfl
    have h2 : csmPriorIndex L pt useInv red (inState f g ⟨n, q :: rest⟩) =
        csmPriorIndex L pt useInv red ⟨n, q :: rest⟩ := by
      have h0 : (inState f g ⟨n, q :: rest⟩).prev = inNode f g q :: rest.map (inNode f g) := rfl
      unfold csmPriorIndex
      rw [h0]
      simp only [h1]
      rfl
    have h0 : (inState f g ⟨n, q :: rest⟩).prev = inNode f g q :: rest.map (inNode f g) := rfl
    unfold csmPriorCost
    rw [h0]
    simp only [h2]
    cases csmPriorIndex L pt useInv red ⟨n, q :: rest⟩ with
    | error e => rfl
    | ok i =>
      simp only [Bind.bind, Except.bind]
      have h3 : (inState f g ⟨n, q :: rest⟩).node.csmPrior = n.csmPrior.map (List.map f) := rfl
      rw [h3]
      cases hp : n.csmPrior with
      | none => simp [priorEntry, Except.map]
      | some p =>
        simp only [Option.map_some, priorEntry, pyGet_map]
        cases pyGet p i with
        | error e => rfl
        | ok lp => simp only [Except.map, hs]; rfl

end states

section search
variable [DecidableEq H] [DecidableEq H'] [Add κ] [Sub κ] [Zero κ] [Add κ'] [Sub κ'] [Zero κ']
  {f : κ → κ'} {g : H → H'} {d : SearchData κ ρ H (List κ)} {d' : SearchData κ' ρ H' (List κ')}
  {N : Nets κ ρ H (List κ)} {N' : Nets κ' ρ H' (List κ')} {C : Caches} {useInv : Bool} {red : Reduction}

/-- The outputs of the KSM in another unit. -/
def inOutput (f : κ → κ') (g : H → H') (o : KsmOutput κ H) : KsmOutput κ' H' :=
  ⟨o.priors.map f, o.order, o.maxIndex, g o.hidden⟩

omit [DecidableEq H] [DecidableEq H'] in
theorem forcedIn_in (h : OtherUnit f d d') (ids : List Int) (a b : Nat) : d'.forcedIn ids a b = d.forcedIn ids a b := by
  unfold forcedIn
  rw [h.pick]

omit [DecidableEq H] [DecidableEq H'] in
theorem rangesAt_in (h : OtherUnit f d d') (start : Nat) :
    d'.rangesAt start = (d.rangesAt start).map (inRange f) := by
  unfold rangesAt
  rw [h.ranges]
  induction d.ranges with
  | nil => rfl
  | cons e l ih =>
    simp only [List.map_cons]
    by_cases he : e.1 = start <;> simp [he, ih]

omit [DecidableEq H] [DecidableEq H'] in
theorem branchIds_in (h : OtherUnit f d d') (start : Nat) (c : Option Int) (r : RangeData κ) :
    d'.branchIds start c (inRange f r) = d.branchIds start c r := by
  unfold branchIds
  rw [h.forcedChords, forcedIn_in h]
  rfl

theorem branchState_in (hn : RunsNets d N C useInv red) (hn' : RunsNets d' N' C useInv red) (h : OtherUnit f d d')
    (start : Nat) (s : State κ H (List κ)) (r : RangeData κ) (c : Int) :
    d'.branchState start (inState f g s) (inRange f r) c =
      (d.branchState start s r c).map (Option.map (inState f g)) := by
  unfold branchState
  rw [hn.labels, hn'.labels, h.pitchType]
  simp only [inRange, pyGet_map]
  cases pyGet r.priors c with
  | error e => rfl
  | ok lp =>
    simp only [Except.map, Bind.bind, Except.bind]
    rw [show (inState f g s).node.chord = s.node.chord from rfl]
    rw [h.scale, ← h.add, ← h.add, rejoin_in h.zero h.add h.sub, chordTransition_in h.add]
    split
    · cases rejoin (stdLabels d.pitchType) d.pitchType s r.stop
        (r.logProb + d.scale lp (↑r.stop - ↑start) + r.rejoinLogProb) <;> rfl
    · rfl

theorem ktm_in (hn : RunsNets d N C useInv red) (hn' : RunsNets d' N' C useInv red) (h : OtherUnit f d d')
    (hg : SameNets f g N N') (s : State κ H (List κ)) :
    d'.ktm (inState f g s) = (d.ktm s).map fun x => (x.1, g x.2) := by
  rw [hn.ktm, hn'.ktm, hn.labels, hn'.labels, h.pitchType]
  simp only [inState, ktmInput_in]
  cases ktmInput (stdLabels d.pitchType) d.pitchType C s.node s.prev with
  | error e => rfl
  | ok v =>
    simp only [Except.map, inNode, hg.ktm]

theorem ksm_in (hn : RunsNets d N C useInv red) (hn' : RunsNets d' N' C useInv red) (h : OtherUnit f d d')
    (hg : SameNets f g N N') (s : State κ H (List κ)) :
    d'.ksm (inState f g s) = (d.ksm s).map (inOutput f g) := by
  rw [hn.ksm, hn'.ksm, hn.labels, hn'.labels, h.pitchType]
  simp only [inState, ksmInput_in hg.inj]
  cases ksmInput (stdLabels d.pitchType) d.pitchType C s.node s.prev with
  | error e => rfl
  | ok rows =>
    simp only [Except.bind, inNode, runNet_in (u := List.map f) hg.ksm]
    cases runNet N.ksm s.node.ksmHidden rows with
    | none => rfl
    | some x => simp only [Option.map_some, ksmOutput, Except.map, inOutput, hg.order, hg.maxIndex]

theorem runKtm_in (hn : RunsNets d N C useInv red) (hn' : RunsNets d' N' C useInv red) (h : OtherUnit f d d')
    (hg : SameNets f g N N') (s : State κ H (List κ)) :
    d'.runKtm (inState f g s) = (d.runKtm s).map fun x => (x.1, inState f g x.2) := by
  unfold runKtm
  rw [ktm_in hn hn' h hg, h.zeroProb,
    show canKeyTransition (inState f g s) = canKeyTransition s by simp [canKeyTransition, inState]]
  cases d.ktm s <;> rfl

theorem targetKey_in (hn : RunsNets d N C useInv red) (hn' : RunsNets d' N' C useInv red) (h : OtherUnit f d d')
    (s : State κ H (List κ)) (rel : Int) : d'.targetKey (inState f g s) rel = d.targetKey s rel := by
  unfold targetKey
  rw [hn.labels, hn'.labels, hn.relativeKeys, hn'.relativeKeys, h.pitchType, getKey_in]

theorem keyLoop_in (hn : RunsNets d N C useInv red) (hn' : RunsNets d' N' C useInv red) (h : OtherUnit f d d')
    (forced : Option Int) (s : State κ H (List κ)) (o : KsmOutput κ H) (len : Int) (rels : List Int) : ∀ room,
    d'.keyLoop forced (inState f g s) (inOutput f g o) len rels room =
      (d.keyLoop forced s o len rels room).map (List.map (inState f g)) := by
  induction rels with
  | nil => intro room; rfl
  | cons rel rels ih =>
    intro room
    simp only [keyLoop]
    rw [targetKey_in hn hn' h]
    cases d.targetKey s rel with
    | error e => rfl
    | ok t =>
      cases t with
      | none => exact ih room
      | some key =>
        simp only [Bind.bind, Except.bind]
        rw [show (inState f g s).node.key = s.node.key from rfl]
        split
        · exact ih room
        · simp only [inOutput, pyGet_map]
          cases pyGet o.priors rel with
          | error e => rfl
          | ok lp =>
            simp only [Except.map]
            rw [hn.labels, hn'.labels, h.pitchType, h.ksmExponent, h.scale, keyTransition_in h.add]
            cases keyTransition (stdLabels d.pitchType) d.pitchType s key (d.scale (d.ksmExponent lp) len) with
            | error e => rfl
            | ok t =>
              have ih' := fun room => ih room
              simp only [inOutput] at ih'
              cases t with
              | none =>
                simp only [Except.map, Option.map_none, afterKey]
                split
                · rfl
                · exact ih' room
              | some t =>
                simp only [Except.map, Option.map_some, afterKey]
                split
                · rfl
                · rw [ih']
                  cases d.keyLoop forced s o len rels (room - 1) <;> rfl

theorem keyChanges_in (hn : RunsNets d N C useInv red) (hn' : RunsNets d' N' C useInv red) (h : OtherUnit f d d')
    (hg : SameNets f g N N') (s : State κ H (List κ)) :
    d'.keyChanges (inState f g s) = (d.keyChanges s).map (List.map (inState f g)) := by
  unfold keyChanges
  rw [ksm_in hn hn' h hg]
  cases d.ksm s with
  | error e => rfl
  | ok o =>
    obtain ⟨n, prev⟩ := s
    cases prev with
    | nil => rfl
    | cons q rest =>
      simp only [Except.map, Bind.bind, Except.bind, setKsm, inState, List.map_cons]
      rw [h.forcedKeys, forcedIn_in h]
      exact keyLoop_in hn hn' h _ (setKsm ⟨n, q :: rest⟩ o) o _ _ _

theorem pyRel_map {α β : Type} {R : α → β → Prop} {u : α → β} (hu : ∀ a, R a (u a)) (x : Py α) :
    PyRel R x (x.map u) := by
  cases x with
  | error e => exact PyRel.err
  | ok a => exact hu a

theorem forall₂_map_self {α β : Type} {R : α → β → Prop} {u : α → β} (hu : ∀ a, R a (u a)) (l : List α) :
    List.Forall₂ R l (l.map u) := by
  rw [List.forall₂_map_right_iff]
  induction l with
  | nil => exact .nil
  | cons a l ih => exact .cons (hu a) ih

theorem units_sim (hn : RunsNets d N C useInv red) (hn' : RunsNets d' N' C useInv red) (h : OtherUnit f d d')
    (hg : SameNets f g N N') : Sim d d' (fun a a' => a' = f a) (fun s s' => s' = inState f g s) where
  beamSize := h.beamSize
  hashLength := h.hashLength
  numInputs := h.numInputs
  lt := by rintro a _ b _ rfl rfl; exact (h.lt a b).symm
  ge := by rintro a _ b _ rfl rfl; exact (h.ge a b).symm
  add := by rintro a _ b _ rfl rfl; exact (h.add a b).symm
  logChange := fun p n => by rw [h.logChange, h.scale]
  logNoChange := fun p n => by rw [h.logNoChange, h.scale]
  change := by rintro s _ rfl; rfl
  logProb := by rintro s _ rfl; rfl
  prev := by rintro s _ rfl; simp only [inState, List.map_map]; rfl
  same := by rintro a _ b _ rfl rfl; exact (inState_inj h.inj hg.inj).eq_iff.symm
  hash := by rintro a _ b _ rfl rfl; rfl
  addKtm := by
    rintro s _ a _ rfl rfl
    simp only [State.addKtm, inState, inNode, h.add, Option.map_some]
  addCsm := by
    rintro s _ a _ rfl rfl
    simp only [State.addCsm, inState, inNode, h.add, Option.map_some]
  copy := by rintro s _ rfl; exact copy_in s
  ranges := by
    intro start
    rw [rangesAt_in h]
    refine forall₂_map_self (fun r => ⟨rfl, rfl, ?_⟩) _
    rintro s _ rfl
    rw [show (inState f g s).node.chord = s.node.chord from rfl, branchIds_in h]
    cases d.branchIds start s.node.chord r with
    | error e => exact PyRel.err
    | ok ids =>
      refine PyRel.ok ?_
      have : ∀ c, PyRel (OptRel fun s s' => s' = inState f g s) (d.branchState start s r c)
          (d'.branchState start (inState f g s) (inRange f r) c) := by
        intro c
        rw [branchState_in hn hn' h]
        exact pyRel_map (fun o => by cases o <;> simp [OptRel]) _
      exact forall₂_refl fun c _ => this c
  runCsm := by
    rintro s _ rfl
    unfold runCsm
    rw [hn.csm, hn'.csm, hn.labels, hn'.labels, h.pitchType, csmInput_in]
    cases csmInput (stdLabels d.pitchType) d.pitchType C s with
    | error e => exact PyRel.err
    | ok v =>
      simp only [Except.map, PyRel]
      rw [show (inState f g s).node.csmHidden = s.node.csmHidden.map g from rfl, hg.csm]
      rfl
  csmCost := by
    rintro s _ rfl
    rw [hn.csmCost, hn'.csmCost, hn.labels, hn'.labels, h.pitchType, csmPriorCost_in h.scale]
    exact pyRel_map (R := fun a a' => a' = f a) (fun _ => rfl) _
  runKtm := by
    rintro s _ rfl
    rw [runKtm_in hn hn' h hg]
    exact pyRel_map (fun _ => ⟨rfl, rfl⟩) _
  keyOptions := by
    rintro p s _ q q' l l' rfl hq hq'
    have hq'' : q' = inNode f g q := by
      simp only [inState, hq, List.map_cons, List.cons.injEq] at hq'
      exact hq'.1.symm
    subst hq''
    unfold keyOptions
    rw [h.forcedKeys, forcedIn_in h, h.leProb, h.minChange, h.maxNoChange]
    rfl
  keyChanges := by
    rintro s _ rfl
    rw [keyChanges_in hn hn' h hg]
    exact pyRel_map (R := List.Forall₂ fun s s' => s' = inState f g s)
      (fun l => forall₂_map_self (R := fun s s' => s' = inState f g s) (fun _ => rfl) l) _
  runHidden := by
    rintro s _ rfl
    unfold runHidden
    rw [runKtm_in hn hn' h hg]
    cases d.runKtm s with
    | error e => exact PyRel.err
    | ok p =>
      simp only [Except.map, Bind.bind, Except.bind]
      rw [ksm_in hn hn' h hg]
      cases d.ksm p.2 with
      | error e => exact PyRel.err
      | ok o => rfl
  initial := by
    have hk : d'.initialKeys = d.initialKeys := by
      unfold initialKeys
      rw [h.forcedKeys, h.pitchType]
    rw [hk, hn.labels, hn'.labels, h.pitchType, h.hashLength]
    have : ∀ k, PyRel (fun x x' : Int × KeyMode =>
        State.initial k d.hashLength (some (d'.icm (decide (x'.2 = .minor)))) =
          inState f g (State.initial k d.hashLength (some (d.icm (decide (x.2 = .minor))))))
        (pyGet (stdLabels d.pitchType).key k) (pyGet (stdLabels d.pitchType).key k) := by
      intro k
      cases pyGet (stdLabels d.pitchType).key k with
      | error e => exact PyRel.err
      | ok x =>
        refine PyRel.ok ?_
        have hh := newHash_in (f := f) (g := g) d.hashLength [] k none
        simp only [State.initial, inState, inNode, List.map_nil, Option.map_none, Option.map_some, h.icm, h.zero,
          State.mk.injEq, Node.mk.injEq, true_and, and_true] at hh ⊢
        exact hh
    cases d.initialKeys with
    | error e => exact PyRel.err
    | ok ks => exact PyRel.ok (forall₂_refl fun k _ => this k)

/-- C157: in another unit the search finds the same analysis, with its log probabilities in that unit; it fails in the
same cases. -/
theorem C157_search (hn : RunsNets d N C useInv red) (hn' : RunsNets d' N' C useInv red) (h : OtherUnit f d d')
    (hg : SameNets f g N N') [DecidableEq κ] [DecidableEq κ'] :
    d'.search = d.search.map (Option.map (inState f g)) := by
  have hr := (units_sim hn hn' h hg).search_rel
  revert hr
  cases d.search <;> cases d'.search <;> intro hr <;> simp only [PyRel] at hr
  · rw [hr]; rfl
  · rename_i o o'
    cases o <;> cases o' <;> simp only [OptRel] at hr
    · rfl
    · rw [hr]; rfl

end search

/-- C157: the analysis in another unit has the same chords, keys and changes; its score is the score in that unit. -/
theorem C157_analysis (f : κ → κ') (g : H → H') (s : State κ H (List κ)) :
    (inState f g s).getChords = s.getChords ∧ (inState f g s).getKeys = s.getKeys ∧
    (inState f g s).node.logProb = f s.node.logProb := by
  refine ⟨?_, ?_, rfl⟩
  · unfold getChords inState
    simp only
    generalize s.node = n
    induction s.prev generalizing n with
    | nil => rfl
    | cons p ps ih => simp only [List.map_cons, getChordsAux, ih]; rfl
  · unfold getKeys inState
    simp only
    generalize s.node = n
    induction s.prev generalizing n with
    | nil => rfl
    | cons p ps ih => simp only [List.map_cons, getKeysAux, ih]; rfl

/-! ## Logarithms to another base -/

section base
variable {K : Type} [Field K] [LinearOrder K] [IsStrictOrderedRing K] [DecidableEq H]

/-- The networks with the logarithms of their probabilities to another base: all are multiplied by `a`. -/
def netsInBase (a : K) (N : Nets K ρ H (List K)) : Nets K ρ H (List K) where
  csm h r := ((N.csm h r).1.map (a * ·), (N.csm h r).2)
  ktm := N.ktm
  ksm h r := ((N.ksm h r).1.map (a * ·), (N.ksm h r).2)
  order l := N.order (l.map (a⁻¹ * ·))
  maxIndex l := N.maxIndex (l.map (a⁻¹ * ·))

/-- The search with all logarithms to another base. -/
def inBase (a : K) (d : SearchData K ρ H (List K)) (N : Nets K ρ H (List K)) (C : Caches) (useInv : Bool)
    (red : Reduction) : SearchData K ρ H (List K) :=
  { d with
    ranges := d.ranges.map fun e => (e.1, inRange (a * ·) e.2)
    logChange := fun p => a * d.logChange p
    logNoChange := fun p => a * d.logNoChange p
    icm := fun b => (d.icm b).map (a * ·)
    csm := fun s => (s.csmInput d.labels d.pitchType C).map ((netsInBase a N).csm s.node.csmHidden)
    csmCost := fun s => s.csmPriorCost d.scale d.labels d.pitchType useInv red
    ktm := fun s => (State.ktmInput d.labels d.pitchType C s.node s.prev).map
      ((netsInBase a N).ktm s.node.ktmHidden)
    ksm := fun s => (State.ksmInput d.labels d.pitchType C s.node s.prev).bind
      fun rows => ksmOutput (netsInBase a N) (runNet (netsInBase a N).ksm s.node.ksmHidden rows) }

omit [LinearOrder K] [IsStrictOrderedRing K] in
theorem inBase_nets (a : K) {d : SearchData K ρ H (List K)} {N : Nets K ρ H (List K)} {C : Caches} {useInv : Bool}
    {red : Reduction} (hn : RunsNets d N C useInv red) :
    RunsNets (inBase a d N C useInv red) (netsInBase a N) C useInv red where
  csm _ := rfl
  ktm _ := rfl
  ksm _ := rfl
  labels := hn.labels
  relativeKeys := hn.relativeKeys
  csmCost _ := rfl

/-- C157: with logarithms to any other base (all log probabilities multiplied by a positive `a`) the analysis found is
the same, and its score is the score to that base. -/
theorem C157_base {a : K} (ha : 0 < a) {d : SearchData K ρ H (List K)} {N : Nets K ρ H (List K)} {C : Caches}
    {useInv : Bool} {red : Reduction} (hn : RunsNets d N C useInv red) (hlt : ∀ x y, d.lt x y = decide (x < y))
    (hge : ∀ x y, d.ge x y = decide (y ≤ x)) (hs : ∀ x n, d.scale x n = x * n) (e : K)
    (he : ∀ x, d.ksmExponent x = x * e) :
    (inBase a d N C useInv red).search = d.search.map (Option.map (inState (a * ·) id)) := by
  have hi : ∀ l : List K, (l.map (a * ·)).map (a⁻¹ * ·) = l := by
    intro l
    rw [List.map_map]
    conv_rhs => rw [← List.map_id l]
    refine List.map_congr_left fun x _ => ?_
    simp only [Function.comp, id]
    rw [← mul_assoc, inv_mul_cancel₀ ha.ne', one_mul]
  refine C157_search hn (inBase_nets a hn) ?_ ?_
  · exact {
      inj := mul_right_injective₀ ha.ne'
      zero := mul_zero a
      add := mul_add a
      sub := mul_sub a
      lt := fun x y => by
        show d.lt _ _ = _
        rw [hlt, hlt]; simp only [mul_lt_mul_iff_right₀ ha]
      ge := fun x y => by
        show d.ge _ _ = _
        rw [hge, hge]; simp only [mul_le_mul_iff_right₀ ha]
      scale := fun x n => by
        show d.scale _ _ = _
        rw [hs, hs, mul_assoc]
      ksmExponent := fun x => by
        show d.ksmExponent _ = _
        rw [he, he, mul_assoc]
      pitchType := rfl, beamSize := rfl, hashLength := rfl, numInputs := rfl, ranges := rfl, forcedChords := rfl
      forcedKeys := rfl, pick := rfl, minChange := rfl, maxNoChange := rfl, leProb := rfl, zeroProb := rfl
      logChange := fun _ => rfl, logNoChange := fun _ => rfl, icm := fun _ => rfl }
  · exact {
      inj := Function.injective_id
      csm := fun h r => by simp [netsInBase]
      ktm := fun h r => by simp [netsInBase]
      ksm := fun h r => by simp [netsInBase]
      order := fun l => by
        show N.order _ = _
        rw [hi]
      maxIndex := fun l => by
        show N.maxIndex _ = _
        rw [hi] }

end base

/-! ## An instance -/

/-- Networks that prefer some classes; the hidden state counts the steps. -/
def stepNets : Nets ℚ Int Nat (List ℚ) where
  csm h _ := ((List.replicate (chordOneHotLength .midi true true false noReduction).toNat (-1 : ℚ)).set 0
    (-1 / (h.getD 0 + 2)), h.getD 0 + 1)
  ktm h _ := (5, h.getD 0 + 1)
  ksm h _ := ((List.replicate (relativeKeyLabels .midi).length (-3 : ℚ)).set 5 (-1 / 2), h.getD 0 + 1)
  order l := (List.range l.length).map (fun n : Nat => (n : Int))
  maxIndex l := if l.head? = some (-3) then 2 else 1

/-- A search with these networks over the given ranges, each with the given classes. -/
def stepDemo (hash : Option Nat) (n : Nat) (ranges : List (Nat × Nat × List Int)) :
    SearchData ℚ Int Nat (List ℚ) where
  labels := stdLabels .midi
  relativeKeys := relativeKeyLabels .midi
  pitchType := .midi
  beamSize := 10
  hashLength := hash
  numInputs := n
  ranges := ranges.map fun e =>
    (e.1, ⟨e.2.1, -1, -1 / 3, List.replicate (stdLabels .midi).chord.length (-1), e.2.2, e.2.2.length⟩)
  forcedChords := List.replicate n (-1)
  forcedKeys := 0 :: List.replicate (n - 1) (-1)
  pick := pickMin
  minChange := 3
  maxNoChange := 7
  leProb a b := decide (a ≤ b)
  zeroProb := 0
  logChange _ := -2
  logNoChange _ := -1
  lt a b := decide (a < b)
  ge a b := decide (b ≤ a)
  scale x n := x * n
  ksmExponent x := x * (1 / 2)
  icm _ := List.replicate (chordOneHotLength .midi true true false noReduction).toNat (-1)
  csm s := (s.csmInput (stdLabels .midi) .midi (SearchTransposes.demoCaches n)).map (stepNets.csm s.node.csmHidden)
  csmCost s := s.csmPriorCost (fun x n => x * n) (stdLabels .midi) .midi true noReduction
  ktm s := (State.ktmInput (stdLabels .midi) .midi (SearchTransposes.demoCaches n) s.node s.prev).map
    (stepNets.ktm s.node.ktmHidden)
  ksm s := (State.ksmInput (stdLabels .midi) .midi (SearchTransposes.demoCaches n) s.node s.prev).bind
    fun rows => ksmOutput stepNets (runNet stepNets.ksm s.node.ksmHidden rows)

theorem stepDemo_nets (hash : Option Nat) (n : Nat) (ranges : List (Nat × Nat × List Int)) :
    RunsNets (stepDemo hash n ranges) stepNets (SearchTransposes.demoCaches n) true noReduction where
  csm _ := rfl
  ktm _ := rfl
  ksm _ := rfl
  labels := rfl
  relativeKeys := rfl
  csmCost _ := rfl

/-- What is found: chords, keys and score. -/
def found (x : Py (Option (State ℚ Nat (List ℚ)))) : Option (List (Option Int) × List Int × ℚ) :=
  match x with
  | .ok (some s) => some (s.getChords.1, s.getKeys.1, s.node.logProb)
  | _ => none

/-- The hypotheses of `C157_base` are met, and the analysis is not trivial: natural logarithms and logarithms to
another base, without and with hashed beams. -/
example :
    let r := [(0, 1, [0]), (1, 2, [15, 0]), (2, 3, [0, 200])]
    (∀ hash, (inBase (3 / 2) (stepDemo hash 3 r) stepNets (SearchTransposes.demoCaches 3) true noReduction).search =
      (stepDemo hash 3 r).search.map (Option.map (inState ((3 / 2 : ℚ) * ·) id))) ∧
    found (stepDemo none 3 r).search = some ([some 0, some 15, some 0], [0], -28 / 3) ∧
    found (stepDemo (some 2) 3 r).search = some ([some 0, some 15, some 0], [0], -28 / 3) ∧
    found (inBase (3 / 2) (stepDemo (some 2) 3 r) stepNets (SearchTransposes.demoCaches 3) true noReduction).search =
      some ([some 0, some 15, some 0], [0], -14) := by
  refine ⟨fun hash => C157_base (by decide +kernel) (stepDemo_nets hash 3 _) (fun _ _ => rfl) (fun _ _ => rfl)
    (fun _ _ => rfl) (1 / 2) fun _ => rfl, ?_⟩
  decide +kernel

end Verif.CostUnits
