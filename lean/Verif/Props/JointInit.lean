import Verif.JointInit
import Verif.Props.StateInputs
import Verif.Props.Search

/-!
# C117, C118 and C119: creation of the joint model
-/

namespace Verif.JointInit

open Verif.Vectors Verif.KeyChange

variable {κ ρ H P : Type}

/-! ## C117 -/

/-- The component models fit together as the joint model demands: notes, chords and keys have one type each. The
chords which the KTM reads are not among the demands. -/
def Fit (t : ComponentTypes) : Prop :=
  (t.ccmInput = t.ctmInput ∧ t.ccmNotes = t.ctmNotes) ∧
  (∃ c, t.ccmOutput = c ∧ t.csmChords = c ∧ t.csmOutput = c ∧ t.ksmChords = c ∧ t.icm = c) ∧
  ∃ k, t.csmKeys = k ∧ t.ktmKeys = k ∧ t.ksmKeys = k ∧ t.ksmOutput = k

/-- Every probability is allowed to be a change or not to be one. -/
def Covering (h : HyperParams) : Prop :=
  h.minChordChangeProb ≤ h.maxNoChordChangeProb ∧ h.minKeyChangeProb ≤ h.maxNoKeyChangeProb

theorem pyAssert_bind {α : Type} (b : Bool) (f : Unit → Py α) :
    (pyAssert b).bind f = if b then f () else .error .valueError := by
  unfold pyAssert; cases b <;> rfl

theorem checkTypes_ok (t : ComponentTypes) : checkTypes t = .ok () ↔ Fit t := by
  simp only [checkTypes, Bind.bind, pyAssert_bind, Fit]
  simp only [pyAssert]
  constructor
  · intro h
    repeat' split at h
    all_goals try cases h
    simp_all
  · rintro ⟨⟨h1, h2⟩, ⟨c, h3, h4, h5, h6, h7⟩, k, h8, h9, h10, h11⟩
    simp_all

theorem checkTypes_error (t : ComponentTypes) (h : ¬ Fit t) : checkTypes t = .error .valueError := by
  rw [← checkTypes_ok] at h
  simp only [checkTypes, Bind.bind, pyAssert_bind] at h ⊢
  simp only [pyAssert] at h ⊢
  repeat' split
  all_goals simp_all

/-- The model made of given components and parameters. -/
theorem initJoint_ok (t : ComponentTypes) (h : HyperParams) (ht : Fit t) (hc : Covering h) :
    initJoint t h = .ok ⟨t.ccmInput, t.csmOutput, t.ksmOutput,
      ⟨chordClasses t.csmOutput true false false noReduction, keyClasses t.ksmOutput false⟩,
      relativeKeyLabels t.ksmOutput, h⟩ := by
  simp only [initJoint, Bind.bind, (checkTypes_ok t).2 ht, Except.bind]
  rw [show pyAssert (decide (h.minChordChangeProb ≤ h.maxNoChordChangeProb)) = .ok () by
    rw [pyAssert, if_pos (decide_eq_true hc.1)]]
  simp only
  rw [show pyAssert (decide (h.minKeyChangeProb ≤ h.maxNoKeyChangeProb)) = .ok () by
    rw [pyAssert, if_pos (decide_eq_true hc.2)]]

theorem initJoint_error (t : ComponentTypes) (h : HyperParams) (hn : ¬ (Fit t ∧ Covering h)) :
    initJoint t h = .error .valueError := by
  simp only [initJoint, Bind.bind]
  by_cases ht : Fit t
  · rw [(checkTypes_ok t).2 ht]
    simp only [Except.bind, pyAssert]
    by_cases h1 : h.minChordChangeProb ≤ h.maxNoChordChangeProb
    · rw [if_pos (decide_eq_true h1)]
      have h2 : ¬ h.minKeyChangeProb ≤ h.maxNoKeyChangeProb := fun h2 => hn ⟨ht, h1, h2⟩
      simp only
      rw [if_neg (by simpa using h2)]
    · rw [if_neg (by simpa using h1)]
  · rw [checkTypes_error t ht]; rfl

/-- The settings of the paper: those of the command line except for a few. `fh` are the models trained on the
functional harmony corpus. -/
def published (fh : Bool) (version : Nat) : HyperParams :=
  if fh then
    { parserDefaults with
      minChordChangeProb := 3/10, maxNoChordChangeProb := 4/10, minKeyChangeProb := 1/10, maxNoKeyChangeProb := 7/10,
      ksmExponent := 30 }
  else match version with
    | 0 => { parserDefaults with minKeyChangeProb := 1/10, ksmExponent := 100 }
    | 1 => { parserDefaults with maxNoChordChangeProb := 1/2 }
    | _ => { parserDefaults with targetChordBranchProb := 1/2 }

/-- The versions with published settings: 0 to 2, of which 2 is used if none is given. -/
def Version (given : Option Int) (version : Nat) : Prop :=
  (given = some (version : Int) ∧ version ≤ 2) ∨ (given = none ∧ version = 2)

theorem published_covering (fh : Bool) (v : Nat) : Covering (published fh v) := by
  unfold published Covering
  cases fh
  · rcases v with _ | _ | v <;> simp only <;> decide +kernel
  · simp only [if_true]; decide +kernel

theorem internal_published {given : Option Int} {v : Nat} (h : Version given v) :
    internalHyper given = some (published false v) := by
  rcases h with ⟨rfl, hv⟩ | ⟨rfl, rfl⟩
  · have : v = 0 ∨ v = 1 ∨ v = 2 := by omega
    rcases this with rfl | rfl | rfl <;> decide +kernel
  · decide +kernel

theorem fh_published {given : Option Int} {v : Nat} (h : Version given v) :
    fhHyper given = some (published true v) := by
  rcases h with ⟨rfl, hv⟩ | ⟨rfl, rfl⟩
  · have : v = 0 ∨ v = 1 ∨ v = 2 := by omega
    rcases this with rfl | rfl | rfl <;> decide +kernel
  · decide +kernel

theorem no_version {given : Option Int} (h : ¬ ∃ v, Version given v) :
    internalHyper given = none ∧ fhHyper given = none := by
  have h0 : given ≠ some 0 := fun e => h ⟨0, .inl ⟨e, by omega⟩⟩
  have h1 : given ≠ some 1 := fun e => h ⟨1, .inl ⟨e, by omega⟩⟩
  have h2 : ¬ (given = some 2 ∨ given = none) := fun e => e.elim (fun e => h ⟨2, .inl ⟨e, by omega⟩⟩)
    (fun e => h ⟨2, .inr ⟨e, rfl⟩⟩)
  simp only [internalHyper, fhHyper, if_neg h0, if_neg h1, if_neg h2, and_self]

/-- C117: without flags, both scripts run the model with the parameters of the command line; if no value is left for
some probabilities (or the components do not fit together), they raise. -/
theorem C117_given (t : ComponentTypes) (a : RunArgs) (hd : a.defaults = false) (hf : a.fhDefaults = false) :
    testStart t a = annotateStart t a ∧
    (Fit t → Covering a.hyper → ∃ m, testStart t a = .model m ∧ m.params = a.hyper) ∧
    (¬ (Fit t ∧ Covering a.hyper) → testStart t a = .raised .valueError) := by
  have h0 : setDefaultArgs a = some a := by
    simp [setDefaultArgs, setInternal, setFh, hd, hf]
  refine ⟨by simp only [testStart, h0, annotateStart], ?_, ?_⟩
  · intro ht hc
    simp only [testStart, h0, jointFromArgs, initJoint_ok t _ ht hc, ScriptStart.of]
    exact ⟨_, rfl, rfl⟩
  · intro hn
    simp only [testStart, h0, jointFromArgs, initJoint_error t _ hn, ScriptStart.of]

/-- C117, what holds: with `--defaults` or `--fh-defaults`, test.py runs the model with the settings of the paper for
the version of the CSM, whatever else is given; of both flags the second one counts. -/
theorem C117_test_partial (t : ComponentTypes) (ht : Fit t) (a : RunArgs) (v : Nat) (hv : Version a.csmVersion v)
    (h : a.defaults = true ∨ a.fhDefaults = true) :
    ∃ m, testStart t a = .model m ∧ m.params = published a.fhDefaults v := by
  have hs : ∃ b : RunArgs, setDefaultArgs a = some b ∧ b.hyper = published a.fhDefaults v := by
    cases hf : a.fhDefaults
    · have hd : a.defaults = true := by simpa [hf] using h
      exact ⟨{ a with hyper := published false v }, by
        simp [setDefaultArgs, setInternal, setFh, hd, hf, internal_published hv], rfl⟩
    · cases hd : a.defaults
      · exact ⟨{ a with hyper := published true v }, by
          simp [setDefaultArgs, setInternal, setFh, hd, hf, fh_published hv], rfl⟩
      · exact ⟨{ a with hyper := published true v }, by
          simp [setDefaultArgs, setInternal, setFh, hd, hf, fh_published hv, internal_published hv], rfl⟩
  obtain ⟨b, hb, hh⟩ := hs
  have hc : Covering b.hyper := by rw [hh]; exact published_covering _ _
  refine ⟨⟨t.ccmInput, t.csmOutput, t.ksmOutput,
      ⟨chordClasses t.csmOutput true false false noReduction, keyClasses t.ksmOutput false⟩,
      relativeKeyLabels t.ksmOutput, b.hyper⟩, ?_, hh⟩
  simp only [testStart, hb, jointFromArgs, initJoint_ok t _ ht hc, ScriptStart.of]

/-- C117: for other versions there are no such settings, and test.py exits before anything is loaded. -/
theorem C117_version (t : ComponentTypes) (a : RunArgs) (hv : ¬ ∃ v, Version a.csmVersion v)
    (h : a.defaults = true ∨ a.fhDefaults = true) : testStart t a = .exit 1 := by
  obtain ⟨h1, h2⟩ := no_version hv
  have : setDefaultArgs a = none := by
    cases hd : a.defaults
    · have hf : a.fhDefaults = true := by simpa [hd] using h
      simp [setDefaultArgs, setInternal, setFh, hd, hf, h2]
    · simp [setDefaultArgs, setInternal, hd, h1]
  simp only [testStart, this]

/-- C117, what fails: the flags have no effect on annotate.py. With the commands of the README, it annotates with other
settings than those of the paper, for every version; and a version without settings is not rejected. -/
theorem C117_annotate_fails (t : ComponentTypes) (ht : Fit t) (d f : Bool) (version : Option Int) :
    (∀ h, annotateStart t ⟨d, f, version, h⟩ = annotateStart t ⟨false, false, version, h⟩) ∧
    ∃ m, annotateStart t ⟨d, f, version, parserDefaults⟩ = .model m ∧ ∀ fh v, m.params ≠ published fh v := by
  refine ⟨fun _ => rfl, ?_⟩
  have hc : Covering parserDefaults := by unfold Covering; decide +kernel
  refine ⟨⟨t.ccmInput, t.csmOutput, t.ksmOutput,
      ⟨chordClasses t.csmOutput true false false noReduction, keyClasses t.ksmOutput false⟩,
      relativeKeyLabels t.ksmOutput, parserDefaults⟩, ?_, ?_⟩
  · simp only [annotateStart, jointFromArgs]
    rw [initJoint_ok t _ ht hc]; rfl
  · intro fh v
    unfold published
    cases fh
    · rcases v with _ | _ | v <;> simp only <;> decide +kernel
    · simp only [if_true]; decide +kernel

/-- The types of the models which train.py makes. -/
def trained : ComponentTypes :=
  ⟨.score, .tpc, .tpc, .score, .tpc, .tpc, .tpc, .tpc, .tpc, .tpc, .tpc, .tpc, .tpc, .tpc⟩

theorem trained_fit : Fit trained := ⟨⟨rfl, rfl⟩, ⟨_, rfl, rfl, rfl, rfl, rfl⟩, _, rfl, rfl, rfl, rfl⟩

example : ∃ m, testStart trained ⟨true, false, some 2, { parserDefaults with beamSize := 7 }⟩ = .model m ∧
    m.params.beamSize = 50 ∧ m.params.targetChordBranchProb = 1/2 ∧ m.params.ksmExponent = 50 := by
  obtain ⟨m, h, hm⟩ := C117_test_partial trained trained_fit ⟨true, false, some 2, { parserDefaults with beamSize := 7 }⟩
    2 (.inl ⟨rfl, by omega⟩) (.inl rfl)
  exact ⟨m, h, by rw [hm]; decide +kernel⟩

example : testStart trained ⟨false, true, some 3, parserDefaults⟩ = .exit 1 :=
  C117_version _ _ (by rintro ⟨v, ⟨h, hv⟩ | ⟨h, -⟩⟩ <;> simp at h; omega) (.inr rfl)

/-! ## C118 -/

/-- C118: a joint model is created exactly if its components fit together and its parameters leave no probability
without a choice. It then has the pitch types of the outputs of the CSM and of the KSM. -/
theorem C118_created (t : ComponentTypes) (h : HyperParams) :
    ((∃ m, initJoint t h = .ok m) ↔ Fit t ∧ Covering h) ∧
    ∀ m, initJoint t h = .ok m → m.chordOutput = t.ccmOutput ∧ m.keyOutput = t.ktmKeys ∧ m.params = h := by
  have hiff : (∃ m, initJoint t h = .ok m) ↔ Fit t ∧ Covering h := by
    constructor
    · rintro ⟨m, hm⟩
      by_contra hn
      rw [initJoint_error t h hn] at hm; cases hm
    · rintro ⟨ht, hc⟩; exact ⟨_, initJoint_ok t h ht hc⟩
  refine ⟨hiff, ?_⟩
  intro m hm
  obtain ⟨ht, hc⟩ := hiff.1 ⟨m, hm⟩
  rw [initJoint_ok t h ht hc] at hm
  injection hm with hm
  subst hm
  obtain ⟨-, ⟨c, h3, h4, h5, h6, h7⟩, k, h8, h9, h10, h11⟩ := ht
  exact ⟨h5.trans h3.symm, h11.trans h9.symm, rfl⟩

theorem oneHot_length {n : Nat} {i : Int} {v : List ℚ} (h : oneHot n i = .ok v) : v.length = n := by
  rw [oneHot, pySet] at h
  split at h
  · injection h with h; rw [← h, List.length_set, zeros_length]
  · split at h
    · injection h with h; rw [← h, List.length_set, zeros_length]
    · cases h

theorem toVec_length {c : Chord ℚ} {rel : Option Key} {pad : Bool} {red : Reduction} {v : List ℚ}
    (h : c.toVec rel pad red = .ok v) : v.length = chordVectorLength c.pitchType true pad := by
  simp only [Chord.toVec, Bind.bind] at h
  obtain ⟨r, hr, h⟩ := bind_ok h
  obtain ⟨p1, h1, h⟩ := bind_ok h
  obtain ⟨p2, h2, h⟩ := bind_ok h
  obtain ⟨b, hb, h⟩ := bind_ok h
  obtain ⟨p3, h3, h⟩ := bind_ok h
  obtain ⟨p4, h4, h⟩ := bind_ok h
  obtain ⟨p5, h5, h⟩ := bind_ok h
  obtain ⟨p6, h6, h⟩ := bind_ok h
  injection h with h
  subst h
  simp only [List.length_append, oneHot_length h1, oneHot_length h2, oneHot_length h3, oneHot_length h4,
    oneHot_length h5, oneHot_length h6, List.length_cons, List.length_nil, chordVectorLength_eq]
  have : ChordType.all.length = 12 := rfl
  omega

theorem chordObj_type {L : Labels} {pt : PitchType} {C : Caches} {n : Node κ H P} {prev : List (Node κ H P)}
    {c : Chord ℚ} (ho : State.chordObj L pt C n prev = .ok c) : c.pitchType = pt := by
  simp only [State.chordObj, Bind.bind] at ho
  obtain ⟨k, hk, ho⟩ := bind_ok ho
  obtain ⟨⟨root, ct, inv⟩, hl, ho⟩ := bind_ok ho
  cases prev with
  | nil => cases ho
  | cons p ps =>
    simp only at ho
    obtain ⟨bass, hb, ho⟩ := bind_ok ho
    obtain ⟨l1, h1, ho⟩ := bind_ok ho
    obtain ⟨l2, h2, ho⟩ := bind_ok ho
    injection ho with ho
    rw [← ho]

/-- The length of the rows which the search makes with one pitch type. -/
theorem csm_length {L : Labels} {pt : PitchType} {C : Caches} {s : State κ H P} {row : List ℚ}
    (h : s.csmInput L pt C = .ok row) :
    row.length = chordVectorLength pt true false + keyChangeVectorLength pt false + 1 := by
  simp only [State.csmInput, Bind.bind] at h
  obtain ⟨kp, hkp, h⟩ := bind_ok h
  obtain ⟨c, hc, h⟩ := bind_ok h
  obtain ⟨v, hv, h⟩ := bind_ok h
  injection h with h
  subst h
  rw [List.length_append, toVec_length hv, chordObj_type hc, Nat.add_assoc]
  congr 1
  cases hp : s.prev with
  | nil =>
    rw [hp] at hkp
    simp only [State.csmKeyPart] at hkp
    injection hkp with hkp
    rw [← hkp, List.length_append, zeros_length]; rfl
  | cons p ps =>
    rw [hp] at hkp
    simp only [State.csmKeyPart, Bind.bind] at hkp
    split at hkp
    · obtain ⟨k1, -, hkp⟩ := bind_ok hkp
      obtain ⟨k2, -, hkp⟩ := bind_ok hkp
      obtain ⟨w, hw, hkp⟩ := bind_ok hkp
      injection hkp with hkp
      rw [← hkp, List.length_append, StateInputs.changeVector_length hw]; rfl
    · injection hkp with hkp
      rw [← hkp, List.length_append, zeros_length]; rfl

theorem ktm_length {L : Labels} {pt : PitchType} {C : Caches} {n : Node κ H P} {prev : List (Node κ H P)}
    {row : List ℚ} (h : State.ktmInput L pt C n prev = .ok row) :
    row.length = chordVectorLength pt true true + keyChangeVectorLength pt false + 1 := by
  simp only [State.ktmInput, Bind.bind] at h
  obtain ⟨kp, hkp, h⟩ := bind_ok h
  obtain ⟨c, hc, h⟩ := bind_ok h
  obtain ⟨v, hv, h⟩ := bind_ok h
  injection h with h
  subst h
  rw [List.length_append, toVec_length hv, chordObj_type hc, Nat.add_assoc]
  congr 1
  cases prev with
  | nil =>
    simp only [State.ktmKeyPart] at hkp
    injection hkp with hkp
    rw [← hkp, zeros_length]
  | cons p ps =>
    simp only [State.ktmKeyPart, Bind.bind] at hkp
    split at hkp
    · obtain ⟨k1, -, hkp⟩ := bind_ok hkp
      obtain ⟨k2, -, hkp⟩ := bind_ok hkp
      obtain ⟨w, hw, hkp⟩ := bind_ok hkp
      split at hkp
      · rename_i hl
        injection hkp with hkp
        rw [← hkp, List.length_append, hl]; rfl
      · cases hkp
    · injection hkp with hkp
      rw [← hkp, zeros_length]

theorem ksm_length [DecidableEq H] {L : Labels} {pt : PitchType} {C : Caches} (n : Node κ H P)
    (prev : List (Node κ H P)) {rows : List (List ℚ)} (h : State.ksmInput L pt C n prev = .ok rows) :
    rows ≠ [] ∧ ∀ r ∈ rows, r.length = chordVectorLength pt true true + keyChangeVectorLength pt false + 1 := by
  induction prev generalizing n rows with
  | nil =>
    simp only [State.ksmInput, Bind.bind] at h
    obtain ⟨row, hr, h⟩ := bind_ok h
    injection h with h
    subst h
    refine ⟨by simp, ?_⟩
    intro r hm
    rw [List.mem_singleton.1 hm]; exact ktm_length hr
  | cons p ps ih =>
    simp only [State.ksmInput, Bind.bind] at h
    obtain ⟨row, hr, h⟩ := bind_ok h
    split at h
    · injection h with h
      subst h
      refine ⟨by simp, ?_⟩
      intro r hm
      rw [List.mem_singleton.1 hm]; exact ktm_length hr
    · obtain ⟨rs, hrs, h⟩ := bind_ok h
      injection h with h
      subst h
      refine ⟨by simp, ?_⟩
      intro r hm
      rcases List.mem_append.1 hm with hm | hm
      · exact (ih p hrs).2 r hm
      · rw [List.mem_singleton.1 hm]; exact ktm_length hr

/-- C118, what holds: if chords and keys have the same pitch type, each row which the search makes for the CSM and the
KSM has the length for which the model was built; so has each row for the KTM if it was built for these chords. -/
theorem C118_inputs_partial [DecidableEq H] (t : ComponentTypes) (h : HyperParams) (m : JointModel)
    (hm : initJoint t h = .ok m) (heq : m.keyOutput = m.chordOutput) (C : Caches) (s : State κ H P) :
    (∀ row, s.csmInput m.labels m.chordOutput C = .ok row → row.length = csmInputDim t) ∧
    (∀ rows, State.ksmInput m.labels m.chordOutput C s.node s.prev = .ok rows →
      ∀ r ∈ rows, r.length = ksmInputDim t) ∧
    (t.ktmChords = m.chordOutput →
      ∀ row, State.ktmInput m.labels m.chordOutput C s.node s.prev = .ok row → row.length = ktmInputDim t) := by
  obtain ⟨hiff, hout⟩ := C118_created t h
  obtain ⟨ht, -⟩ := hiff.1 ⟨m, hm⟩
  obtain ⟨o1, o2, -⟩ := hout m hm
  obtain ⟨-, ⟨c, h3, h4, h5, h6, h7⟩, k, h8, h9, h10, h11⟩ := ht
  have hc : m.chordOutput = c := o1.trans h3
  have hk : k = c := by rw [← h9, ← o2, heq, hc]
  subst hk
  simp only [csmInputDim, ksmInputDim, ktmInputDim, h4, h6, h8, h9, h10]
  rw [hc]
  refine ⟨fun row hr => csm_length hr, fun rows hr => (ksm_length _ _ hr).2, ?_⟩
  intro e row hr
  rw [e]; exact ktm_length hr

/-- C118, what fails: types that differ between chords and keys pass the check, although no row for the CSM or the KSM
then has the length for which the model was built; and a KTM which was built for other chords passes the check,
although no row has its length. -/
theorem C118_inputs_fails [DecidableEq H] (t : ComponentTypes) (h : HyperParams) (m : JointModel)
    (hm : initJoint t h = .ok m) (C : Caches) (s : State κ H P) :
    (m.keyOutput ≠ m.chordOutput →
      (∀ row, s.csmInput m.labels m.chordOutput C = .ok row → row.length ≠ csmInputDim t) ∧
      (∀ rows, State.ksmInput m.labels m.chordOutput C s.node s.prev = .ok rows →
        rows ≠ [] ∧ ∀ r ∈ rows, r.length ≠ ksmInputDim t)) ∧
    (m.keyOutput = m.chordOutput → t.ktmChords ≠ m.chordOutput →
      ∀ row, State.ktmInput m.labels m.chordOutput C s.node s.prev = .ok row → row.length ≠ ktmInputDim t) := by
  obtain ⟨hiff, hout⟩ := C118_created t h
  obtain ⟨ht, -⟩ := hiff.1 ⟨m, hm⟩
  obtain ⟨o1, o2, -⟩ := hout m hm
  obtain ⟨-, ⟨c, h3, h4, h5, h6, h7⟩, k, h8, h9, h10, h11⟩ := ht
  have hc : m.chordOutput = c := o1.trans h3
  have hk : m.keyOutput = k := o2.trans h9
  rw [hc, hk]
  simp only [csmInputDim, ksmInputDim, ktmInputDim, h4, h6, h8, h9, h10]
  refine ⟨?_, ?_⟩
  · intro hne
    have hd : keyChangeVectorLength c false ≠ keyChangeVectorLength k false := by
      revert hne; cases c <;> cases k <;> decide
    refine ⟨fun row hr => ?_, fun rows hr => ⟨(ksm_length _ _ hr).1, fun r hmem => ?_⟩⟩
    · rw [csm_length hr]; omega
    · rw [(ksm_length _ _ hr).2 r hmem]; omega
  · intro he hne row hr
    have hd : chordVectorLength c true true ≠ chordVectorLength t.ktmChords true true := by
      revert hne; cases c <;> cases t.ktmChords <;> decide
    rw [ktm_length hr, he]; omega

/-- Both are accepted. -/
example : Fit { trained with csmKeys := .midi, ktmKeys := .midi, ksmKeys := .midi, ksmOutput := .midi } ∧
    Fit { trained with ktmChords := .midi } :=
  ⟨⟨⟨rfl, rfl⟩, ⟨_, rfl, rfl, rfl, rfl, rfl⟩, _, rfl, rfl, rfl, rfl⟩,
    ⟨⟨rfl, rfl⟩, ⟨_, rfl, rfl, rfl, rfl, rfl⟩, _, rfl, rfl, rfl, rfl⟩⟩

/-- C118: where the search looks up the prior of a chord, the CSM (with its own reduction) has an output. -/
theorem C118_csm_outputs (t : ComponentTypes) (h : HyperParams) (m : JointModel) (hm : initJoint t h = .ok m)
    (s : State κ H P) (i : Int) (hi : s.relativeChordIndex m.labels m.chordOutput = .ok i) (useInv : Bool)
    (red : Reduction) (js : List Int)
    (hj : reduceChordOneHots [i] false m.chordOutput true noReduction true red useInv = .ok js) :
    ∃ j, js = [j] ∧ 0 ≤ j ∧ j < csmOutputDim t useInv red := by
  obtain ⟨hiff, hout⟩ := C118_created t h
  obtain ⟨ht, -⟩ := hiff.1 ⟨m, hm⟩
  obtain ⟨o1, -, -⟩ := hout m hm
  have hpt : m.chordOutput = t.csmOutput := by
    obtain ⟨-, ⟨c, h3, h4, h5, h6, h7⟩, -⟩ := ht
    rw [o1, h3, h5]
  rw [hpt] at hi hj
  simp only [State.relativeChordIndex, Bind.bind] at hi
  obtain ⟨k, -, hi⟩ := bind_ok hi
  obtain ⟨⟨root, ct, inv⟩, -, hi⟩ := bind_ok hi
  simp only at hi
  split at hi
  · cases hi
  · obtain ⟨-, -, hi⟩ := bind_ok hi
    obtain ⟨rel, hrel, hi⟩ := bind_ok hi
    obtain ⟨c1, c2⟩ := C39_commutes [⟨ct, rel, inv⟩] [i] false t.csmOutput true noReduction true red useInv rfl
      (by
        intro k c j hc hj'
        rcases k with _ | k
        · simp only [List.getElem?_cons_zero, Option.some.injEq] at hc hj'
          subst hc; subst hj'
          exact hi
        · simp at hc)
    by_cases hn : ∃ j, newIndex false t.csmOutput true noReduction true red useInv ⟨ct, rel, inv⟩ = .ok j
    · obtain ⟨js', e1, e2, e3⟩ := c1 (by
        intro c hc; rw [List.mem_singleton.1 hc]; exact hn)
      rw [hj] at e1
      injection e1 with e1
      subst e1
      obtain ⟨j, rfl⟩ := List.length_eq_one_iff.1 e2
      obtain ⟨b1, b2, -⟩ := C01_encode_decode _ _ _ _ _ _ _ _ _ (e3 0 _ j rfl rfl)
      exact ⟨j, rfl, b1, b2⟩
    · rw [c2 ⟨_, List.mem_singleton.2 rfl, hn⟩] at hj
      cases hj

/-- C118: the labels by which the search numbers chords, keys and key changes are as many as there are classes of a CCM
without reductions, tonics in both modes, and outputs of the KSM. -/
theorem C118_labels (t : ComponentTypes) (h : HyperParams) (m : JointModel) (hm : initJoint t h = .ok m) :
    (m.labels.chord.length : Int) = ccmClasses t true noReduction ∧
    (m.labels.key.length : Int) = 2 * NUM_PITCHES t.ksmOutput ∧
    m.relativeKeys.length = ksmOutputDim t := by
  obtain ⟨hiff, -⟩ := C118_created t h
  obtain ⟨ht, hc⟩ := hiff.1 ⟨m, hm⟩
  rw [initJoint_ok t h ht hc] at hm
  injection hm with hm
  subst hm
  obtain ⟨-, ⟨c, h3, h4, h5, h6, h7⟩, -⟩ := ht
  simp only [ccmClasses, ksmOutputDim, h3, h5]
  refine ⟨?_, ?_, ?_⟩
  · cases c <;> decide +kernel
  · cases t.ksmOutput <;> decide +kernel
  · cases t.ksmOutput <;> decide +kernel

/-! ## C119 -/

/-- A tonic with a class: spelled tonics from 0 to 34, or classes of semitones. -/
def TonicClass : PitchType → Int → Prop
  | .tpc, x => 0 ≤ x ∧ x ≤ 34
  | .midi, x => 0 ≤ x ∧ x ≤ 11

/-- The class of a key among the labels of the search. -/
def keyClass (pt : PitchType) (mode : KeyMode) (tonic : Int) : Int :=
  (match pt with | .tpc => 35 | .midi => 12) * mode.value + tonic

theorem relativeKeys_tpc : ∀ j < 58, (relativeKeyLabels .tpc)[j]? =
    some (if j < 29 then KeyMode.major else .minor, ((j % 29 : Nat) : Int) - 14) := by decide +kernel

theorem relativeKeys_midi : ∀ j < 24, (relativeKeyLabels .midi)[j]? =
    some (if j < 12 then KeyMode.major else .minor, ((j % 12 : Nat) : Int)) := by decide +kernel

/-- C119: the class with which the KSM is trained for a change from one key to another is the one by which the search
goes from that key to the other: each class leads to at most one key, and a key is reached by its class only. -/
theorem C119_target (d : SearchData κ ρ H P) (hd : d.relativeKeys = relativeKeyLabels d.pitchType)
    (s : State κ H P) (k : KeyObj) (hk : s.getKey d.labels = .ok k) (hr : TonicClass d.pitchType k.tonic)
    (key next : Key) (ht : key.tonicType = d.pitchType) (hkey : key.relativeTonic = k.tonic)
    (hnext : TonicClass d.pitchType next.relativeTonic) (j : Nat) :
    d.targetKey s j = .ok (some (keyClass d.pitchType next.relativeMode next.relativeTonic)) ↔
      key.changeOneHot next = .ok (j : Int) := by
  have hmaj : KeyMode.major.value = 0 := rfl
  have hmin : KeyMode.minor.value = 1 := rfl
  rw [C42_one_hot]
  cases hp : d.pitchType
  · rw [hp] at hd hr hnext ht
    simp only [TonicClass] at hr hnext
    simp only [Interval, bit, specIntervals, ht, keyClass]
    by_cases hj : j < 58
    · have hm := (congrArg (fun l => l[j]?) hd).trans (relativeKeys_tpc j hj)
      rw [SearchData.C47_target s k hk j _ _ hm, hp]
      simp only [Except.ok.injEq]
      constructor
      · intro h
        split at h
        · rename_i hin
          rw [Option.some.injEq] at h
          refine ⟨((j % 29 : Nat) : Int) - 14, ⟨?_, ?_, ?_⟩, ?_⟩
          · revert h; split <;> cases next.relativeMode <;> simp only [hmaj, hmin] <;> intro h <;> omega
          · omega
          · omega
          · revert h; split <;> cases next.relativeMode <;> simp only [hmaj, hmin] <;> intro h <;> omega
        · cases h
      · rintro ⟨r, ⟨h1, h2, h3⟩, h4⟩
        revert h4
        cases next.relativeMode <;> simp only [hmaj, hmin] <;> intro h4
        · rw [if_pos (by omega), if_pos (by omega)]
          simp only [hmaj]; congr 1; omega
        · rw [if_pos (by omega), if_neg (by omega)]
          simp only [hmin]; congr 1; omega
    · constructor
      · intro h
        have : pyGet d.relativeKeys (j : Int) = .error .indexError := by
          have hl : d.relativeKeys.length = 58 := by rw [hd]; decide +kernel
          rw [pyGet, if_pos (by omega), List.getElem?_eq_none (by omega)]
        simp only [SearchData.targetKey, Bind.bind, this, Except.bind] at h
        cases h
      · rintro ⟨r, ⟨h1, h2, h3⟩, h4⟩
        revert h4
        cases next.relativeMode <;> simp only [hmaj, hmin] <;> intro h4 <;> omega
  · rw [hp] at hd hr hnext ht
    simp only [TonicClass] at hr hnext
    simp only [Interval, bit, specIntervals, ht, keyClass]
    by_cases hj : j < 24
    · have hm := (congrArg (fun l => l[j]?) hd).trans (relativeKeys_midi j hj)
      rw [SearchData.C47_target s k hk j _ _ hm, hp]
      simp only [Except.ok.injEq, Option.some.injEq]
      constructor
      · intro h
        refine ⟨((j % 12 : Nat) : Int), ⟨?_, ?_, ?_⟩, ?_⟩
        · omega
        · omega
        · revert h; split <;> cases next.relativeMode <;> simp only [hmaj, hmin] <;> intro h <;> omega
        · revert h; split <;> cases next.relativeMode <;> simp only [hmaj, hmin] <;> intro h <;> omega
      · rintro ⟨r, ⟨h1, h2, h3⟩, h4⟩
        revert h4
        cases next.relativeMode <;> simp only [hmaj, hmin] <;> intro h4
        · rw [if_pos (by omega)]
          simp only [hmaj]; omega
        · rw [if_neg (by omega)]
          simp only [hmin]; omega
    · constructor
      · intro h
        have : pyGet d.relativeKeys (j : Int) = .error .indexError := by
          have hl : d.relativeKeys.length = 24 := by rw [hd]; decide +kernel
          rw [pyGet, if_pos (by omega), List.getElem?_eq_none (by omega)]
        simp only [SearchData.targetKey, Bind.bind, this, Except.bind] at h
        cases h
      · rintro ⟨r, ⟨h1, h2, h3⟩, h4⟩
        revert h4
        cases next.relativeMode <;> simp only [hmaj, hmin] <;> intro h4 <;> omega

/-- C119: every output of the KSM is read, without an error; only with spelled pitches does an output lead to no key,
namely if the tonic lies off the line of fifths of the labels. -/
theorem C119_all (d : SearchData κ ρ H P) (hd : d.relativeKeys = relativeKeyLabels d.pitchType)
    (s : State κ H P) (k : KeyObj) (hk : s.getKey d.labels = .ok k)
    (j : Nat) (hj : j < keyChangeVectorLength d.pitchType true) :
    (d.pitchType = .midi → ∃ c, d.targetKey s j = .ok (some c)) ∧
    (d.pitchType = .tpc →
      d.targetKey s j = .ok none ∨ ∃ mode tonic, TonicClass .tpc tonic ∧
        d.targetKey s j = .ok (some (keyClass .tpc mode tonic))) := by
  cases hp : d.pitchType
  · refine ⟨by simp, fun _ => ?_⟩
    rw [hp] at hd hj
    have hj' : j < 58 := hj
    have hm := (congrArg (fun l => l[j]?) hd).trans (relativeKeys_tpc j hj')
    rw [SearchData.C47_target s k hk j _ _ hm, hp]
    simp only
    split
    · rename_i h
      exact .inr ⟨_, _, h, rfl⟩
    · exact .inl rfl
  · refine ⟨fun _ => ?_, by simp⟩
    rw [hp] at hd hj
    have hj' : j < 24 := hj
    have hm := (congrArg (fun l => l[j]?) hd).trans (relativeKeys_midi j hj')
    rw [SearchData.C47_target s k hk j _ _ hm, hp]
    exact ⟨_, rfl⟩

/-- From C major (tonic 15 by fifths) to A minor: class 29 + 14 + 3, and back. -/
example : (⟨15, 15, 15, .major, .major, .major, .tpc⟩ : Key).changeOneHot ⟨18, 18, 15, .minor, .minor, .major, .tpc⟩ = .ok 46 ∧
    keyClass .tpc .minor 18 = 53 := by decide +kernel

end Verif.JointInit
