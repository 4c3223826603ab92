import Verif.CsmPrior
import Verif.Props.SearchTotal
import Verif.Props.StateInputs
import Verif.Props.JointInit

/-!
# The beam search with its networks does not raise (C131)
-/

namespace Verif.SearchRuns

open Verif State SearchData SearchTotal
open Verif.Vectors hiding bind_ok
open Verif.KeyChange

section
variable {κ ρ H : Type} [DecidableEq H]

/-- What is asked of a piece, its settings and the networks. -/
structure Setup (d : SearchData κ ρ H (List κ)) (N : Nets κ ρ H (List κ)) (C : Caches) (useInv : Bool)
    (red : Reduction) : Prop extends RunsNets d N C useInv red where
  /-- The beams have room for a state, and a hash has an entry. -/
  size : 1 ≤ d.beamSize
  hash : ∀ k, d.hashLength = some k → 1 ≤ k
  /-- Hashed beams compare by a strict weak order (no NaN among the log probabilities). -/
  order : d.hashLength ≠ none → WeakOrder d.lt
  pick : ∀ l, l ≠ [] → d.pick l ∈ l
  /-- Ranges are not empty and end in the piece; the CCM has a class for each. -/
  ranges : ∀ e ∈ d.ranges, e.1 < e.2.stop ∧ e.2.stop ≤ d.numInputs ∧ e.2.order ≠ []
  /-- There is an input, and the key forced on it (if any) is a label. -/
  firstKey : ∃ f, pyGet d.forcedKeys 0 = .ok f ∧ (f = -1 ∨ ∃ tm, pyGet d.labels.key f = .ok tm)
  /-- The chords of a range have a prior, a label and a bass note. -/
  chords : ∀ a r c, (a, r) ∈ d.ranges → FitsRange d c a r → (∃ lp, pyGet r.priors c = .ok lp) ∧
    ∃ root ct inv bass, pyGet d.labels.chord c = .ok (root, ct, inv) ∧
      bassNote ct root inv d.pitchType false = .ok bass
  /-- There is a metrical level for each onset and for the end of the piece. -/
  levels : C.levels.length = d.numInputs + 1 ∧ ∀ l ∈ C.levels, 0 ≤ l ∧ l < 4
  /-- The ICM has a value for each relative chord, the CSM one for each of its outputs. -/
  icmLength : ∀ b, ((d.icm b).length : Int) = chordOneHotLength d.pitchType true true false noReduction
  csmLength : ∀ h r, ((N.csm h r).1.length : Int) = chordOneHotLength d.pitchType true useInv false red
  /-- The KSM has an output for each relative key, and the order is of these. -/
  ksmLength : ∀ h r, (N.ksm h r).1.length = d.relativeKeys.length
  ksmOrder : ∀ (l : List κ), ∀ i ∈ N.order l, 0 ≤ i ∧ i < (l.length : Int)
  /-- If the CSM has inversions, the reduced chords have as many as the chords. -/
  inversions : useInv = true → ∀ ct, inversionCount ct ≤ inversionCount (red ct)

variable {d : SearchData κ ρ H (List κ)} {N : Nets κ ρ H (List κ)} {C : Caches} {useInv : Bool}
  {red : Reduction}

/-- The lengths of the priors. -/
def Length (pt : PitchType) (useInv : Bool) (red : Reduction) (b : Bool) (p : List κ) : Prop :=
  (p.length : Int) = if b then chordOneHotLength pt true true false noReduction
    else chordOneHotLength pt true useInv false red

theorem pyGet_total {α : Type} (l : List α) (i : Int) (h0 : 0 ≤ i) (h1 : i < (l.length : Int)) :
    ∃ a, pyGet l i = .ok a := by
  obtain ⟨n, rfl⟩ : ∃ n : Nat, i = n := ⟨i.toNat, by omega⟩
  have hn : n < l.length := by omega
  exact ⟨l[n], Inference.pyGet_nat _ _ _ (List.getElem?_eq_getElem hn)⟩

theorem changeVector_total (k next : Key) : ∃ v, k.changeVector next = .ok v := by
  by_cases hr : ∃ r, Interval k next r
  · obtain ⟨r, hr⟩ := hr
    exact ⟨_, changeVector_in hr⟩
  · exact ⟨_, (changeVector_out hr).2⟩

theorem rel_total {pt : PitchType} {pad : Bool} {p k : Int}
    (h : (if pad then outsidePadded (p - k) else outside (p - k)) = false) :
    ∃ r, RelPitch pt pad p k r := by
  have e : MIN_RELATIVE_TPC = -14 ∧ MAX_RELATIVE_TPC = 15 ∧ RELATIVE_TPC_EXTRA = 5 := by decide
  obtain ⟨e1, e2, e3⟩ := e
  cases pt with
  | midi => exact ⟨(p - k) % 12, by simp only [RelPitch]; omega⟩
  | tpc =>
    refine ⟨p - k, rfl, ?_⟩
    cases pad <;>
      simp only [outside, outsidePadded, e1, e2, e3, Bool.false_eq_true, if_false, if_true,
        Bool.or_eq_false_iff, decide_eq_false_iff_not] at h ⊢ <;> omega

omit [DecidableEq H] in
/-- The chain below a node. -/
theorem chain_tail {L : Labels} {g : Int} {h : Option Nat} {n p : Node κ H (List κ)}
    {ps : List (Node κ H (List κ))} (hc : ChainOK L g h (n :: p :: ps)) : ChainOK L g h (p :: ps) :=
  hc.2.2.2.2

omit [DecidableEq H] in
theorem chain_index {g : Int} {p : Node κ H (List κ)} {ps : List (Node κ H (List κ))}
    (hc : ChainOK d.labels g d.hashLength (p :: ps)) (hf : Fine d (p :: ps)) : p.changeIndex ≤ d.numInputs := by
  cases ps with
  | nil => rw [hc.2.1]; omega
  | cons q ps => exact hf.2.1.1

/-- The vector of the chord of a node. -/
theorem vec_total (hs : Setup d N C useInv red) {g : Int} {n p : Node κ H (List κ)}
    {ps : List (Node κ H (List κ))} (hc : ChainOK d.labels g d.hashLength (n :: p :: ps))
    (hf : Fine d (n :: p :: ps)) (pad : Bool)
    (hp : pad = false → ∃ c, n.chord = some c ∧ InKeyRange d n.key c) :
    ∃ c v, chordObj d.labels d.pitchType C n (p :: ps) = .ok c ∧ c.toVec none pad noReduction = .ok v := by
  obtain ⟨k, hk⟩ := getKeyAux_total d.labels n (p :: ps) hf.keys
  have hkt := (getKeyAux_ok d.labels g d.hashLength _ _ hc k hk).1
  obtain ⟨root, ct, inv, bass, tonic, mode, hcc, h1, h2, h3, h4, h5⟩ :
      ∃ root ct inv bass tonic mode, chordLabelOf d.labels n.chord = .ok (root, ct, inv) ∧
        pyGet d.labels.chord (n.chord.getD 0) = .ok (root, ct, inv) ∧
        bassNote ct root inv d.pitchType false = .ok bass ∧ pyGet d.labels.key n.key = .ok (tonic, mode) ∧
        (if pad then outsidePadded (root - tonic) else outside (root - tonic)) = false ∧
        (if pad then outsidePadded (bass - tonic) else outside (bass - tonic)) = false := by
    cases pad with
    | true =>
      obtain ⟨-, c, hcc, -, root, ct, inv, bass, tonic, mode, h1, h2, h3, h4, h5⟩ := hf.2.1
      exact ⟨root, ct, inv, bass, tonic, mode, by rw [hcc]; exact h1, by rw [hcc]; exact h1, h2, h3, h4, h5⟩
    | false =>
      obtain ⟨c, hcc, root, ct, inv, bass, tonic, mode, h1, h2, h3, h4, h5⟩ := hp rfl
      exact ⟨root, ct, inv, bass, tonic, mode, by rw [hcc]; exact h1, by rw [hcc]; exact h1, h2, h3, h4, h5⟩
  rw [h3] at hkt
  injection hkt with hkt
  obtain rfl : tonic = k.tonic := congrArg Prod.fst hkt
  have hni := hf.2.1.1
  have hpi := chain_index (chain_tail hc) hf.2.2
  obtain ⟨l1, hl1⟩ := pyGet_total C.levels (p.changeIndex : Int) (by omega) (by rw [hs.levels.1]; omega)
  obtain ⟨l2, hl2⟩ := pyGet_total C.levels (n.changeIndex : Int) (by omega) (by rw [hs.levels.1]; omega)
  rw [hs.labels] at h1
  have hinv := chordClasses_inversion d.pitchType _ root inv ct h1
  have hic : inversionCount ct ≤ 4 := by cases ct <;> decide
  simp only [chordObj, hk, hcc, h2, hl1, hl2, Bind.bind, Except.bind]
  have hv := (C41_exists (⟨root, bass, k.tonic, k.mode, ct, inv, l1, l2,
      (slice C.durations p.changeIndex n.changeIndex).sum, d.pitchType⟩ : Chord ℚ) none pad noReduction
    (by simp only; omega) (hs.levels.2 l1 (pyGet_mem _ _ _ hl1)) (hs.levels.2 l2 (pyGet_mem _ _ _ hl2))).2
    ⟨rel_total h4, rel_total h5⟩
  obtain ⟨v, hv⟩ := hv
  exact ⟨_, v, rfl, hv⟩

omit [DecidableEq H] in
theorem ktmPart_total {n p : Node κ H (List κ)} {ps : List (Node κ H (List κ))}
    (hf : Fine d (n :: p :: ps)) : ∃ v, ktmKeyPart d.labels d.pitchType n (p :: ps) = .ok v := by
  obtain ⟨k, hk⟩ := getKeyAux_total d.labels n (p :: ps) hf.keys
  obtain ⟨k', hk'⟩ := getKeyAux_total d.labels p ps hf.2.2.keys
  obtain ⟨v, hv⟩ := changeVector_total (k'.toKey d.pitchType) (k.toKey d.pitchType)
  have hl : v.length = keyChangeVectorLength d.pitchType false := StateInputs.changeVector_length hv
  rw [ktmKeyPart]
  split
  · simp only [hk, hk', hv, hl, if_true, Bind.bind, Except.bind]
    exact ⟨_, rfl⟩
  · exact ⟨_, rfl⟩

omit [DecidableEq H] in
theorem csmPart_total {n p : Node κ H (List κ)} {ps : List (Node κ H (List κ))}
    (hf : Fine d (n :: p :: ps)) : ∃ v, csmKeyPart d.labels d.pitchType n (p :: ps) = .ok v := by
  obtain ⟨k, hk⟩ := getKeyAux_total d.labels n (p :: ps) hf.keys
  obtain ⟨k', hk'⟩ := getKeyAux_total d.labels p ps hf.2.2.keys
  obtain ⟨v, hv⟩ := changeVector_total (k'.toKey d.pitchType) (k.toKey d.pitchType)
  rw [csmKeyPart]
  split
  · simp only [hk, hk', hv, Bind.bind, Except.bind]
    exact ⟨_, rfl⟩
  · exact ⟨_, rfl⟩

theorem csmInput_total (hs : Setup d N C useInv red) {g : Int} {s : State κ H (List κ)}
    (hc : ChainOK d.labels g d.hashLength (s.node :: s.prev)) (hf : Fine d (s.node :: s.prev))
    (hp : s.prev ≠ []) (hk : ∃ c, s.node.chord = some c ∧ InKeyRange d s.node.key c) :
    ∃ row, s.csmInput d.labels d.pitchType C = .ok row := by
  obtain ⟨n, prev⟩ := s
  cases prev with
  | nil => exact absurd rfl hp
  | cons p ps =>
    obtain ⟨v, hv⟩ := csmPart_total hf
    obtain ⟨c, w, h1, h2⟩ := vec_total hs hc hf false (fun _ => hk)
    simp only [csmInput, hv, h1, h2, Bind.bind, Except.bind]
    exact ⟨_, rfl⟩

theorem ktmInput_total (hs : Setup d N C useInv red) {g : Int} {n p : Node κ H (List κ)}
    {ps : List (Node κ H (List κ))} (hc : ChainOK d.labels g d.hashLength (n :: p :: ps))
    (hf : Fine d (n :: p :: ps)) : ∃ row, ktmInput d.labels d.pitchType C n (p :: ps) = .ok row := by
  obtain ⟨v, hv⟩ := ktmPart_total hf
  obtain ⟨c, w, h1, h2⟩ := vec_total hs hc hf true (by simp)
  simp only [ktmInput, hv, h1, h2, Bind.bind, Except.bind]
  exact ⟨_, rfl⟩

theorem ksmInput_total (hs : Setup d N C useInv red) {g : Int} {n p : Node κ H (List κ)}
    {ps : List (Node κ H (List κ))} (hc : ChainOK d.labels g d.hashLength (n :: p :: ps))
    (hf : Fine d (n :: p :: ps)) :
    ∃ rows, ksmInput d.labels d.pitchType C n (p :: ps) = .ok rows ∧ rows ≠ [] := by
  induction ps generalizing n p with
  | nil =>
    obtain ⟨row, hrow⟩ := ktmInput_total hs hc hf
    simp only [ksmInput, hrow, ksmHasRun, Bind.bind, Except.bind, if_true]
    exact ⟨[row], rfl, by simp⟩
  | cons q ps ih =>
    obtain ⟨row, hrow⟩ := ktmInput_total hs hc hf
    obtain ⟨rows, hrows, -⟩ := ih (chain_tail hc) hf.2.2
    rw [ksmInput]
    simp only [hrow, hrows, Bind.bind, Except.bind]
    split
    · exact ⟨[row], rfl, by simp⟩
    · exact ⟨rows ++ [row], rfl, by simp⟩

omit [DecidableEq H] in
theorem runNet_total {O : Type} (step : Option H → List ℚ → O × H) (h : Option H) (rows : List (List ℚ))
    (hne : rows ≠ []) : ∃ h' r, runNet step h rows = some (step h' r) := by
  induction rows generalizing h with
  | nil => exact absurd rfl hne
  | cons r rs ih =>
    cases rs with
    | nil => exact ⟨h, r, rfl⟩
    | cons r' rs => exact ih (some (step h r).2) (by simp)

theorem rel_roots {pt : PitchType} {p k rel : Int} (h : absoluteToRelative p k pt false false = .ok rel) :
    0 ≤ rel ∧ rel < specRoots pt true false := by
  have := C05_in_vector_range _ _ _ _ _ _ h
  cases pt <;> exact this

omit [DecidableEq H] in
/-- C131: the prior of a chord is looked up at the class of the chord in its key, with the settings of the
CSM, or (for the first chord) those of the ICM. -/
theorem C131_prior_index (L : Labels) (pt : PitchType) (useInv : Bool) (red : Reduction)
    (s : State κ H (List κ)) (q : Node κ H (List κ)) (rest : List (Node κ H (List κ)))
    (hq : s.prev = q :: rest) (i : Int) (hi : s.relativeChordIndex L pt = .ok i) :
    ∃ k root ct inv rel, s.getKey L = .ok k ∧ chordLabelOf L s.node.chord = .ok (root, ct, inv) ∧
      absoluteToRelative root k.tonic pt false false = .ok rel ∧
      s.csmPriorIndex L pt useInv red =
        if q.changeIndex = 0 then chordOneHotIndex ct rel pt inv true true false noReduction
        else chordOneHotIndex ct rel pt inv useInv true false red := by
  have hi' := hi
  simp only [relativeChordIndex, Bind.bind] at hi
  obtain ⟨k, hk, hi⟩ := bind_ok hi
  obtain ⟨⟨root, ct, inv⟩, hl, hi⟩ := bind_ok hi
  simp only at hi
  split at hi
  · cases hi
  obtain ⟨-, -, hi⟩ := bind_ok hi
  obtain ⟨rel, hrel, hi⟩ := bind_ok hi
  refine ⟨k, root, ct, inv, rel, hk, hl, hrel, ?_⟩
  have hcom : ∀ (red : Reduction) (useInv : Bool),
      (reduceChordOneHots [i] false pt true noReduction true red useInv).bind (fun js => pyGet js 0) =
        chordOneHotIndex ct rel pt inv useInv true false red := by
    intro red useInv
    obtain ⟨c1, c2⟩ := C39_commutes [⟨ct, rel, inv⟩] [i] false pt true noReduction true red useInv rfl
      (by
        intro k c j hc hj'
        rcases k with _ | k
        · simp only [List.getElem?_cons_zero, Option.some.injEq] at hc hj'
          subst hc; subst hj'
          exact hi
        · simp at hc)
    have hnew : newIndex false pt true noReduction true red useInv ⟨ct, rel, inv⟩ =
      chordOneHotIndex ct rel pt inv useInv true false red := rfl
    by_cases hn : ∃ j, newIndex false pt true noReduction true red useInv ⟨ct, rel, inv⟩ = .ok j
    · obtain ⟨js, e1, e2, e3⟩ := c1 (by
        intro c hc; rw [List.mem_singleton.1 hc]; exact hn)
      obtain ⟨j, rfl⟩ := List.length_eq_one_iff.1 e2
      rw [e1, ← hnew, e3 0 _ j rfl rfl]
      rfl
    · rw [c2 ⟨_, List.mem_singleton.2 rfl, hn⟩]
      have := (C01_accepts_iff ct rel pt inv useInv true false red).2
        (fun he => hn ((C01_accepts_iff ct rel pt inv useInv true false red).1.2 he))
      rw [this]
      rfl
  simp only [csmPriorIndex, hq, hi', Bind.bind, priorSettings]
  split
  · exact hcom noReduction true
  · exact hcom red useInv

omit [DecidableEq H] in
/-- C131: what is added for a chord that covers `n` inputs is the entry of its class in the prior of the state, for each
of these inputs. -/
theorem C131_prior_value (scale : κ → Int → κ) (L : Labels) (pt : PitchType) (useInv : Bool) (red : Reduction)
    (s : State κ H (List κ)) (q : Node κ H (List κ)) (rest : List (Node κ H (List κ)))
    (hq : s.prev = q :: rest) (i : Int) (hi : s.relativeChordIndex L pt = .ok i) (n : Nat)
    (hn : s.node.changeIndex = q.changeIndex + n) (p : List κ) (hp : s.node.csmPrior = some p) :
    ∃ k root ct inv rel, s.getKey L = .ok k ∧ chordLabelOf L s.node.chord = .ok (root, ct, inv) ∧
      absoluteToRelative root k.tonic pt false false = .ok rel ∧
      ∀ (j : Nat) lp, (if q.changeIndex = 0 then chordOneHotIndex ct rel pt inv true true false noReduction
        else chordOneHotIndex ct rel pt inv useInv true false red) = .ok (j : Int) → p[j]? = some lp →
        s.csmPriorCost scale L pt useInv red = .ok (scale lp n) := by
  obtain ⟨k, root, ct, inv, rel, h1, h2, h3, h4⟩ := C131_prior_index L pt useInv red s q rest hq i hi
  refine ⟨k, root, ct, inv, rel, h1, h2, h3, ?_⟩
  intro j lp hj hlp
  have hlen : ((s.node.changeIndex : Int) - q.changeIndex) = (n : Int) := by rw [hn]; push_cast; ring
  simp only [csmPriorCost, hq, h4, hj, hp, priorEntry, pyGet_ofNat _ _ _ hlp, Bind.bind, Except.bind, hlen]

variable [Add κ] [Sub κ] [Zero κ]

/-- The prior of a chord is found. -/
theorem cost_total (hs : Setup d N C useInv red) {s : State κ H (List κ)} (hc : Cand d s)
    (hsd : Sound d (Length d.pitchType useInv red) s) (hm : s.node.mustKey = false) :
    ∃ c, d.csmCost s = .ok c := by
  obtain ⟨⟨g, hg⟩, q, rest, hq, -, -, hin⟩ := hc
  obtain ⟨c, hcc, -⟩ := hin hm
  rw [hs.csmCost]
  obtain ⟨k, hk⟩ := getKey_total hsd.fine
  have hgk : ∃ tm, pyGet (stdLabels d.pitchType).key g = .ok tm :=
    ⟨_, by rw [← hs.labels]; exact (C49_key_object _ _ g _ hs.hash s hg k hk).2⟩
  have hg' := hg
  rw [hs.labels] at hg'
  obtain ⟨i, hi⟩ := C24_encodable d.pitchType g d.hashLength hs.hash s hg' hgk c hcc hm
  rw [← hs.labels] at hi
  obtain ⟨k', root, ct, inv, rel, -, hl, hrel, hidx⟩ :=
    C131_prior_index d.labels d.pitchType useInv red s q rest hq i hi
  have hrb := rel_roots hrel
  rw [hcc] at hl
  have hl' : pyGet d.labels.chord c = .ok (root, ct, inv) := hl
  rw [hs.labels] at hl'
  have hinv := chordClasses_inversion d.pitchType _ root inv ct hl'
  have henc : ∀ (useInv : Bool) (red : Reduction),
      (useInv = true → ∀ ct, inversionCount ct ≤ inversionCount (red ct)) →
      ∃ j, chordOneHotIndex ct rel d.pitchType inv useInv true false red = .ok j := by
    intro useInv red hle
    apply (C01_accepts_iff ct rel d.pitchType inv useInv true false red).1.2
    refine ⟨?_, fun hu => ?_⟩
    · exact hrb
    · have := hle hu ct
      rw [specInversions_eq]; omega
  have hhead := hsd.head
  rw [hq] at hhead
  obtain ⟨p, hp, hw⟩ := hhead
  have hfin : ∃ j lp, s.csmPriorIndex d.labels d.pitchType useInv red = .ok j ∧ pyGet p j = .ok lp := by
    by_cases h0 : q.changeIndex = 0
    · rw [if_pos h0] at hidx
      obtain ⟨j, hj⟩ := henc true noReduction (fun _ _ => Nat.le_refl _)
      obtain ⟨b1, b2, -⟩ := C01_encode_decode _ _ _ _ _ _ _ _ _ hj
      simp only [Length, h0, decide_true, if_true] at hw
      obtain ⟨lp, hlp⟩ := pyGet_total p j b1 (by rw [hw]; exact b2)
      exact ⟨j, lp, by rw [hidx, hj], hlp⟩
    · rw [if_neg h0] at hidx
      obtain ⟨j, hj⟩ := henc useInv red hs.inversions
      obtain ⟨b1, b2, -⟩ := C01_encode_decode _ _ _ _ _ _ _ _ _ hj
      simp only [Length, h0, decide_false, Bool.false_eq_true, if_false] at hw
      obtain ⟨lp, hlp⟩ := pyGet_total p j b1 (by rw [hw]; exact b2)
      exact ⟨j, lp, by rw [hidx, hj], hlp⟩
  obtain ⟨j, lp, h1, h2⟩ := hfin
  simp only [csmPriorCost, hq, h1, hp, priorEntry, h2, Bind.bind, Except.bind]
  exact ⟨_, rfl⟩

/-- The setup is one in which the search runs. -/
theorem setup_runs (hs : Setup d N C useInv red) : Runs d (Length d.pitchType useInv red) where
  forward e he := (hs.ranges e he).1
  hash := hs.hash
  pick := hs.pick
  size := hs.size
  order := hs.order
  stops e he := (hs.ranges e he).2
  keyLabels := by rw [hs.labels]; rfl
  firstKey := hs.firstKey
  chords := hs.chords
  icm b := by simp only [Length, if_true]; exact hs.icmLength b
  csm s hg hsd hp := by
    obtain ⟨⟨g, hgr⟩, hseg⟩ := hg
    have hin : ∃ c, s.node.chord = some c ∧ InKeyRange d s.node.key c := by
      cases hq : s.prev with
      | nil => exact absurd hq hp
      | cons q rest => rw [hq] at hseg; exact hseg.1.2.2
    obtain ⟨row, hrow⟩ := csmInput_total hs (hgr.chain hs.hash) hsd.fine hp hin
    refine ⟨N.csm s.node.csmHidden row, by rw [hs.csm, hrow]; rfl, ?_⟩
    simp only [Length, Bool.false_eq_true, if_false]
    exact hs.csmLength _ _
  ktm s hc hsd := by
    obtain ⟨⟨g, hg⟩, q, rest, hq, -⟩ := hc
    have hch := hg.chain hs.hash
    have hf := hsd.fine
    rw [hq] at hch hf
    obtain ⟨row, hrow⟩ := ktmInput_total hs hch hf
    exact ⟨N.ktm s.node.ktmHidden row, by rw [hs.ktm, hq, hrow]; rfl⟩
  ksm s hc hsd := by
    obtain ⟨⟨g, hg⟩, q, rest, hq, -⟩ := hc
    have hch := hg.chain hs.hash
    have hf := hsd.fine
    rw [hq] at hch hf
    obtain ⟨rows, hrows, hne⟩ := ksmInput_total hs hch hf
    obtain ⟨h', r, hrun⟩ := runNet_total N.ksm s.node.ksmHidden rows hne
    refine ⟨⟨(N.ksm h' r).1, N.order (N.ksm h' r).1, N.maxIndex (N.ksm h' r).1, (N.ksm h' r).2⟩, ?_, ?_⟩
    · rw [hs.ksm, hq, hrows]
      simp only [Except.bind, hrun]
      rfl
    · intro rel hrel
      obtain ⟨b1, b2⟩ := hs.ksmOrder _ rel hrel
      refine ⟨pyGet_total _ rel b1 b2, pyGet_total _ rel b1 ?_⟩
      rw [← hs.ksmLength h' r]; exact b2
  csmCost s hc hsd hm := cost_total hs hc hsd hm

/-- C131: the search with its networks does not raise. -/
theorem C131_networks_partial [DecidableEq κ] (hs : Setup d N C useInv red) : ∃ r, d.search = .ok r :=
  C131_search d _ (setup_runs hs)

end

/-- C131: with MIDI pitches all chord labels have a bass note. -/
theorem C131_midi_bass (c root inv : Int) (ct : ChordType)
    (hl : pyGet (stdLabels .midi).chord c = .ok (root, ct, inv)) :
    ∃ bass, bassNote ct root inv .midi false = .ok bass := by
  have hinv := chordClasses_inversion .midi c root inv ct hl
  obtain ⟨n, rfl⟩ : ∃ n : Nat, inv = n := ⟨inv.toNat, by omega⟩
  have hn : n < (specTones .midi ct).length := by rw [specTones_length]; omega
  have hb := C14_bass ct root n _ .midi false (List.getElem?_eq_getElem hn)
  exact ⟨_, hb⟩

/-! ## Instances -/

/-- Networks whose outputs do not depend on their inputs. -/
def flatNets (pt : PitchType) (useInv : Bool) (red : Reduction) : Nets Int Int Unit (List Int) where
  csm _ _ := (List.replicate (chordOneHotLength pt true useInv false red).toNat (-1), ())
  ktm _ _ := (5, ())
  ksm _ _ := (List.replicate (relativeKeyLabels pt).length (-1), ())
  order l := (List.range l.length).map (fun n : Nat => (n : Int))
  maxIndex _ := 2

/-- A search with these networks over the given ranges, each with the given classes. -/
def netDemo (pt : PitchType) (useInv : Bool) (red : Reduction) (hash : Option Nat) (n : Nat)
    (ranges : List (Nat × Nat × List Int)) : SearchData Int Int Unit (List Int) where
  labels := stdLabels pt
  relativeKeys := relativeKeyLabels pt
  pitchType := pt
  beamSize := 10
  hashLength := hash
  numInputs := n
  ranges := ranges.map fun e =>
    (e.1, ⟨e.2.1, -1, -1, List.replicate (stdLabels pt).chord.length (-1), e.2.2, e.2.2.length⟩)
  forcedChords := List.replicate n (-1)
  forcedKeys := List.replicate n (-1)
  pick := pickMin
  minChange := 3
  maxNoChange := 7
  leProb a b := decide (a ≤ b)
  zeroProb := 0
  logChange _ := -2
  logNoChange _ := -1
  lt a b := decide (a < b)
  ge a b := decide (b ≤ a)
  scale x n := x * n
  ksmExponent x := x
  icm _ := List.replicate (chordOneHotLength pt true true false noReduction).toNat (-1)
  csm s := (s.csmInput (stdLabels pt) pt ⟨List.replicate n 1, List.replicate (n + 1) 0⟩).map
    ((flatNets pt useInv red).csm s.node.csmHidden)
  csmCost s := s.csmPriorCost (fun x n => x * n) (stdLabels pt) pt useInv red
  ktm s := (State.ktmInput (stdLabels pt) pt ⟨List.replicate n 1, List.replicate (n + 1) 0⟩ s.node s.prev).map
    ((flatNets pt useInv red).ktm s.node.ktmHidden)
  ksm s := (State.ksmInput (stdLabels pt) pt ⟨List.replicate n 1, List.replicate (n + 1) 0⟩ s.node s.prev).bind
    fun rows => ksmOutput (flatNets pt useInv red) (runNet (flatNets pt useInv red).ksm s.node.ksmHidden rows)

theorem length_nonneg (pt : PitchType) (useInv : Bool) (red : Reduction) :
    0 ≤ chordOneHotLength pt true useInv false red := by
  obtain ⟨i, hi⟩ := (C01_accepts_iff .major 0 pt 0 useInv true false red).1.2
    ⟨by cases pt <;> decide, fun _ => by
      rw [specInversions_eq]; have := inversionCount_pos (red .major); omega⟩
  obtain ⟨b1, b2, -⟩ := C01_encode_decode _ _ _ _ _ _ _ _ _ hi
  omega

/-- A class has a bass note. -/
def hasBass (pt : PitchType) (c : Int) : Bool :=
  match (stdLabels pt).chord[c.toNat]? with
  | none => false
  | some l => (bassNote l.2.1 l.1 l.2.2 pt false).isOk

theorem hasBass_ok {pt : PitchType} {c : Int} (h : hasBass pt c = true) :
    ∃ l, (stdLabels pt).chord[c.toNat]? = some l ∧ ∃ bass, bassNote l.2.1 l.1 l.2.2 pt false = .ok bass := by
  simp only [hasBass] at h
  split at h
  · cases h
  · rename_i l hl
    refine ⟨l, hl, ?_⟩
    cases hb : bassNote l.2.1 l.1 l.2.2 pt false with
    | ok b => exact ⟨b, rfl⟩
    | error e => rw [hb] at h; cases h

theorem netDemo_setup (pt : PitchType) (useInv : Bool) (red : Reduction) (hash : Option Nat) (n : Nat)
    (ranges : List (Nat × Nat × List Int)) (hh : ∀ k, hash = some k → 1 ≤ k) (hn : 1 ≤ n)
    (hi : useInv = true → ∀ ct, inversionCount ct ≤ inversionCount (red ct))
    (hr : ∀ e ∈ ranges, e.1 < e.2.1 ∧ e.2.1 ≤ n ∧ e.2.2 ≠ [] ∧ ∀ c ∈ e.2.2, 0 ≤ c ∧ hasBass pt c = true) :
    Setup (netDemo pt useInv red hash n ranges) (flatNets pt useInv red)
      ⟨List.replicate n 1, List.replicate (n + 1) 0⟩ useInv red where
  csm _ := rfl
  ktm _ := rfl
  ksm _ := rfl
  labels := rfl
  relativeKeys := rfl
  csmCost _ := rfl
  size := by simp [netDemo]
  hash := hh
  order _ := ⟨fun a b h => by simp only [netDemo, decide_eq_true_eq, decide_eq_false_iff_not] at *; omega,
    fun a b c h1 h2 => by simp only [netDemo, decide_eq_false_iff_not] at *; omega⟩
  pick := pickMin_mem
  ranges e he := by
    simp only [netDemo, List.mem_map] at he ⊢
    obtain ⟨x, hx, rfl⟩ := he
    exact ⟨(hr x hx).1, (hr x hx).2.1, (hr x hx).2.2.1⟩
  firstKey := by
    obtain ⟨m, rfl⟩ : ∃ m, n = m + 1 := ⟨n - 1, by omega⟩
    exact ⟨-1, rfl, Or.inl rfl⟩
  chords a r c hm hf := by
    simp only [netDemo, List.mem_map, Prod.mk.injEq] at hm ⊢
    obtain ⟨x, hx, rfl, rfl⟩ := hm
    have hc : c ∈ x.2.2 := by
      refine List.mem_of_mem_take (hf.2 ?_)
      rintro ⟨i, f, -, -, hf, hne⟩
      simp only [netDemo] at hf
      exact hne (List.mem_replicate.1 (List.mem_of_getElem? hf)).2
    obtain ⟨h0, hc⟩ := (hr x hx).2.2.2 c hc
    obtain ⟨l, hl, bass, hb⟩ := hasBass_ok hc
    have hlt := (List.getElem?_eq_some_iff.1 hl).1
    obtain ⟨m, rfl⟩ : ∃ m : Nat, c = m := ⟨c.toNat, by omega⟩
    refine ⟨pyGet_total _ _ h0 (by simp only [List.length_replicate]; simpa using hlt), l.1, l.2.1, l.2.2, bass,
      Inference.pyGet_nat _ _ _ (by simpa using hl), hb⟩
  levels := ⟨by simp [netDemo], fun l hl => by
    rw [(List.mem_replicate.1 hl).2]; decide⟩
  icmLength b := by
    simp only [netDemo, List.length_replicate]
    exact Int.toNat_of_nonneg (length_nonneg _ _ _)
  csmLength h r := by
    simp only [netDemo, flatNets, List.length_replicate]
    exact Int.toNat_of_nonneg (length_nonneg _ _ _)
  ksmLength h r := by simp [netDemo, flatNets]
  ksmOrder l i hi := by
    simp only [flatNets, List.mem_map, List.mem_range] at hi
    obtain ⟨m, hm, rfl⟩ := hi
    omega
  inversions := hi

/-- A search over three notes with a reduction to triads, plain and hashed, and one with tonal pitch classes that
branches on seventh chords, one of them in third inversion. -/
example :
    Setup (netDemo .midi false triadReduction (some 2) 3 [(0, 2, [0, 5]), (2, 3, [7, 300])])
      (flatNets .midi false triadReduction) ⟨[1, 1, 1], [0, 0, 0, 0]⟩ false triadReduction ∧
    Setup (netDemo .tpc true noReduction none 2 [(0, 1, [60]), (1, 2, [643, 60])])
      (flatNets .tpc true noReduction) ⟨[1, 1], [0, 0, 0]⟩ true noReduction :=
  ⟨netDemo_setup _ _ _ _ 3 _ (by simp) (by decide) (by simp) (by decide +kernel),
    netDemo_setup _ _ _ _ 2 _ (by simp) (by decide) (fun _ _ => Nat.le_refl _) (by decide +kernel)⟩

example : ((netDemo .midi false triadReduction (some 2) 3 [(0, 2, [0, 5]), (2, 3, [7, 300])]).search.toOption.bind
    id).map (fun s => (getChords s, getKeys s)) = some (([some 0, some 7], [0, 2, 3]), ([0], [0, 3])) := by decide +kernel

/-- C131: a class without a bass note among the tonal pitch classes stops the search: here the only class of the
only range is the first inversion of the major chord on the highest root. -/
theorem C131_bass_fails :
    (netDemo .tpc true noReduction none 1 [(0, 1, [103])]).search = .error .valueError ∧
    pyGet (stdLabels .tpc).chord 103 = .ok (34, .major, 1) := by decide +kernel

/-- C131: with inversions and a reduction to triads, a seventh chord in its third inversion that is not the first
chord stops the search. -/
theorem C131_inversions_fails :
    (netDemo .tpc true triadReduction none 2 [(0, 1, [60]), (1, 2, [643])]).search = .error .valueError ∧
    pyGet (stdLabels .tpc).chord 643 = .ok (20, .majMin7, 3) := by decide +kernel

end Verif.SearchRuns
