import Verif.ClassData
import Verif.Props.NoteVectors
import Verif.Props.ChordTones

/-!
# C86: data points of the chord classifier
-/

namespace Verif.ClassData

open Verif.Vectors Verif.NoteVectors

/-- A chord whose class (with inversions and all types) is the target. -/
def IsTarget (pt : PitchType) (c : Label) (i : Int) : Prop :=
  chordOneHotIndex c.type c.root pt c.inversion true false false noReduction = .ok i

/-- The inversion of a chord as far as it is used. -/
def usedInversion (useInv : Bool) (c : Label) : Int := if useInv then c.inversion else 0

/-- The pitches of a chord, marked in a vector. -/
def MarksChord (pt : PitchType) (t : ChordType) (root : Int) (v : List Nat) : Prop :=
  v.length = specPitches pt ∧ ∀ j : Nat, j < specPitches pt → v[j]? = some (if
    (match pt with
      | .tpc => (j : Int) - root
      | .midi => ((j : Int) - root) % 12) ∈ specTones pt t then 1 else 0)

theorem marks (pt : PitchType) (t : ChordType) (root : Int) :
    MarksChord pt t root (vectorFromChordType t pt (some root)) := by
  cases pt
  · exact C14_vector_tpc t root
  · exact C14_vector_midi t root

/-- Pitch `pc` is marked in the first part of a vector, and no other one. -/
def MarksPitch (pt : PitchType) (pc : Int) (v : List ℚ) : Prop :=
  (0 ≤ pc ∧ pc < specPitches pt) ∧
    ∀ i : Nat, i < specPitches pt → v[i]? = some (if (i : Int) = pc then 1 else 0)

/-- An input vector and the vector of the note `interval` higher. Vectors which sum up to 0 are no notes. -/
def MovesNote (pt : PitchType) (interval : Int) (v w : List ℚ) : Prop :=
  (v.sum = 0 ∧ w = v) ∨
  (v.sum ≠ 0 ∧ ∃ pc, MarksPitch pt pc v ∧ MarksPitch pt (pc + interval) w ∧ w.length = v.length ∧
    ∀ i : Nat, specPitches pt ≤ i → w[i]? = v[i]?)

/-- The input vectors that are read are empty or those of notes which can be moved. -/
def Movable (pt : PitchType) (interval : Int) (v : List ℚ) : Prop :=
  v.sum = 0 ∨ ∃ pc, MarksPitch pt pc v ∧ 0 ≤ pc + interval ∧ pc + interval < specPitches pt

theorem marksPitch_split {pt : PitchType} {pc : Int} {v : List ℚ} (h : MarksPitch pt pc v) :
    v = hot (specPitches pt) pc.toNat ++ v.drop (specPitches pt) := by
  have ht : v.take (specPitches pt) = hot (specPitches pt) pc.toNat := by
    apply List.ext_getElem?
    intro i
    have hp := h.1
    rw [List.getElem?_take, hot_getElem? _ _ _ (by omega)]
    by_cases hi : i < specPitches pt
    · rw [if_pos hi, if_pos hi, h.2 i hi]
      congr 1
      by_cases e : (i : Int) = pc
      · rw [if_pos e, if_pos (by omega)]
      · rw [if_neg e, if_neg (by omega)]
    · rw [if_neg hi, if_neg hi]
  rw [← ht, List.take_append_drop]

/-- Notes mark their pitch. -/
theorem marksPitch_note (x : NoteVec) (h : InRange x) (v : List ℚ) (hv : x.toVec = .ok v) :
    MarksPitch x.pitchType x.pitchClass v := by
  refine ⟨h.pitch, ?_⟩
  obtain ⟨tail, _, hv'⟩ := toVec_blocks h
  rw [hv] at hv'
  injection hv' with hv'
  intro i hi
  have hp := h.pitch
  rw [hv', List.getElem?_append_left (by rw [hot_length]; exact hi), hot_getElem? _ _ _ (by omega), if_pos hi]
  congr 1
  by_cases e : (i : Int) = x.pitchClass
  · rw [if_pos e, if_pos (by omega)]
  · rw [if_neg e, if_neg (by omega)]

theorem moveInput_ok {pt : PitchType} {t : Int} {v : List ℚ} (h : Movable pt t v) :
    ∃ w, moveInput t pt v = .ok w ∧ MovesNote pt t v w := by
  unfold moveInput
  by_cases hs : v.sum = 0
  · exact ⟨v, by rw [if_pos hs], Or.inl ⟨hs, rfl⟩⟩
  · rcases h with h | ⟨pc, hm, hnew⟩
    · exact absurd h hs
    rw [if_neg hs]
    have hv := marksPitch_split hm
    have hp := hm.1
    have hw : whereOne v = .ok (pc.toNat : Int) := by rw [hv]; exact whereOne_hot _ _ (by omega) _
    have hlen : specPitches pt ≤ v.length := by
      rw [hv, List.length_append, hot_length]; omega
    have hc : ((pc.toNat : Nat) : Int) = pc := by omega
    have hrange := pitch_of_range pt pc hp
    simp only [transposeNoteVector, Bind.bind, hw, Except.bind, hc, hrange]
    rw [if_neg (by rw [pitches_eq]; simp only [not_not]; exact hp)]
    have hset : ∀ (u : List ℚ) (i : Int) (y : ℚ), 0 ≤ i → i < u.length → pySet u i y = .ok (u.set i.toNat y) := by
      intro u i y h0 h1
      rw [pySet, if_pos ⟨h0, h1⟩]
    rw [hset _ _ _ hp.1 (by omega)]
    simp only
    rw [hset _ _ _ hnew.1 (by rw [List.length_set]; omega)]
    refine ⟨_, rfl, Or.inr ⟨hs, pc, hm, ⟨hnew, ?_⟩, by simp, ?_⟩⟩
    · intro i hi
      rw [List.getElem?_set, List.length_set]
      by_cases e1 : (pc + t).toNat = i
      · rw [if_pos e1, if_pos (by omega), if_pos (by omega)]
      · rw [if_neg e1, if_neg (by omega), List.getElem?_set]
        by_cases e2 : pc.toNat = i
        · rw [if_pos e2, if_pos (by omega)]
        · rw [if_neg e2, hm.2 i hi, if_neg (by omega)]
    · intro i hi
      rw [List.getElem?_set, if_neg (by omega), List.getElem?_set, if_neg (by omega)]

theorem moveInputs_ok {pt : PitchType} {t : Int} {vs : List (List ℚ)} {length : Int}
    (h : ∀ v ∈ vs.take length.toNat, Movable pt t v) :
    ∃ ws, moveInputs t pt vs length = .ok ws ∧ ws.length = vs.length ∧
      ∀ (i : Nat) v, vs[i]? = some v → ∃ w, ws[i]? = some w ∧
        (((i : Int) < length ∧ MovesNote pt t v w) ∨ (length ≤ i ∧ w = v)) := by
  obtain ⟨fs, h1, h2, h3⟩ := mapM_all (moveInput t pt) (vs.take length.toNat)
    (fun v hv => let ⟨w, hw, _⟩ := moveInput_ok (h v hv); ⟨w, hw⟩)
  have hl : fs.length = min length.toNat vs.length := by rw [h2, List.length_take]
  refine ⟨fs ++ vs.drop length.toNat, ?_, ?_, ?_⟩
  · simp only [moveInputs, Bind.bind, h1, Except.bind]
  · rw [List.length_append, List.length_drop, hl]; omega
  · intro i v hi
    have hlt : i < vs.length := (List.getElem?_eq_some_iff.1 hi).1
    by_cases hc : i < length.toNat
    · have hti : (vs.take length.toNat)[i]? = some v := by rw [List.getElem?_take, if_pos hc]; exact hi
      obtain ⟨w, hw, hm⟩ := moveInput_ok (h v (List.mem_of_getElem? hti))
      refine ⟨w, ?_, Or.inl ⟨by omega, hm⟩⟩
      rw [List.getElem?_append_left (by omega)]
      exact h3 i v w hti hw
    · refine ⟨v, ?_, Or.inr ⟨by omega, rfl⟩⟩
      rw [List.getElem?_append_right (by omega), List.getElem?_drop]
      have : length.toNat + (i - fs.length) = i := by omega
      rw [this]; exact hi

/-- The class of the reduced chord is that of the chord. -/
theorem index_reduced (t : ChordType) (r inv : Int) (pt : PitchType) (useInv : Bool) (red : Reduction)
    (hred : ∀ t, red (red t) = red t) :
    chordOneHotIndex (red t) r pt (if useInv then inv else 0) useInv false false red =
      chordOneHotIndex t r pt inv useInv false false red := by
  simp only [chordOneHotIndex, hred]
  cases useInv <;> simp

theorem decode_of {c : Label} {r : Int} {pt : PitchType} {useInv : Bool} {red : Reduction} {i : Int}
    (h : chordOneHotIndex c.type r pt c.inversion useInv false false red = .ok i) :
    chordFromOneHotIndex i pt useInv false false red = .ok (r, red c.type, usedInversion useInv c) := by
  have := (C01_encode_decode _ _ _ _ _ _ _ _ _ h).2.2
  cases pt <;> exact this

theorem reduced {c : Label} {i j : Int} {pt : PitchType} {red : Reduction} {useInv : Bool}
    (hc : IsTarget pt c i) (hj : chordOneHotIndex c.type c.root pt c.inversion useInv false false red = .ok j) :
    reduceChordOneHots [i] false pt true noReduction false red useInv = .ok [j] := by
  have hold : ∀ (k : Nat) c' i', [c][k]? = some c' → [i][k]? = some i' →
      OldIndex false pt true noReduction false c' i' := by
    intro k c' i' h1 h2
    cases k with
    | zero =>
      simp only [List.getElem?_cons_zero, Option.some.injEq] at h1 h2
      subst h1 h2; exact hc
    | succ k => simp at h1
  have hn : newIndex false pt true noReduction false red useInv c = .ok j := hj
  obtain ⟨js, e1, e2, e3⟩ := (C39_commutes [c] [i] false pt true noReduction false red useInv rfl hold).1 (by
    intro c' hc'
    rw [List.mem_singleton] at hc'
    subst hc'; exact ⟨j, hn⟩)
  rw [e1]
  match js, e2 with
  | [j'], _ =>
    have := e3 0 c j' rfl rfl
    rw [hn, Except.ok.injEq] at this
    rw [this]

/-- A chord with a class. -/
def HasClass (pt : PitchType) (red : Reduction) (useInv : Bool) (c : Label) (root : Int) : Prop :=
  (0 ≤ root ∧ root < specPitches pt) ∧
    (useInv = true → 0 ≤ c.inversion ∧ c.inversion < specInversions (red c.type))

theorem class_iff (pt : PitchType) (red : Reduction) (useInv : Bool) (c : Label) (root : Int) :
    (HasClass pt red useInv c root → ∃ j, chordOneHotIndex c.type root pt c.inversion useInv false false red = .ok j) ∧
    (¬ HasClass pt red useInv c root →
      chordOneHotIndex c.type root pt c.inversion useInv false false red = .error .valueError) := by
  have hh : HasClass pt red useInv c root ↔ specEncodable c.type root pt c.inversion useInv false false red := by
    cases pt <;> exact Iff.rfl
  rw [hh]
  have := C01_accepts_iff c.type root pt c.inversion useInv false false red
  exact ⟨this.1.2, this.2⟩

section
variable (t : Int) (pt : PitchType) (red : Reduction) (useInv : Bool) (x : ClassItem) (c : Label)

/-- What comes after the reduction of the target. -/
theorem reduceClass_eq (j : Int) (hc : IsTarget pt c x.target)
    (hj : chordOneHotIndex c.type c.root pt c.inversion useInv false false red = .ok j) :
    reduceClass t pt red useInv x = orElse (noItem pt x) (moveItem t pt red useInv { x with target := j }) := by
  have h0 : pyGet [j] (0 : Int) = .ok j := rfl
  simp only [reduceClass, Bind.bind, reduced hc hj, Except.bind, h0]

theorem moveTarget_eq (hred : ∀ t, red (red t) = red t) (j : Int)
    (hj : chordOneHotIndex c.type c.root pt c.inversion useInv false false red = .ok j) :
    moveTarget j t pt red useInv = chordOneHotIndex c.type (c.root + t) pt c.inversion useInv false false red := by
  simp only [moveTarget, Bind.bind, decode_of hj, Except.bind, usedInversion]
  exact index_reduced _ _ _ _ _ _ hred

theorem intermediate_eq (r j : Int) (tone : Int) (hk : 0 ≤ usedInversion useInv c)
    (htone : (specTones pt (red c.type))[(usedInversion useInv c).toNat]? = some tone)
    (hj : chordOneHotIndex c.type r pt c.inversion useInv false false red = .ok j) :
    intermediateTargets j pt red useInv =
      (transposePitch r tone pt).map (fun b => ⟨r, b, vectorFromChordType (red c.type) pt (some r)⟩) := by
  have hb := C14_bass (red c.type) r _ tone pt false htone
  rw [Int.toNat_of_nonneg hk] at hb
  simp only [intermediateTargets, Bind.bind, decode_of hj, Except.bind, hb]
  cases transposePitch r tone pt <;> rfl

/-- The bass note of a chord: the pitch at the position of the inversion, above the root. -/
def BassAbove (pt : PitchType) (tone root bass : Int) : Prop :=
  match pt with
  | .tpc => bass = root + tone
  | .midi => bass = (root + tone) % 12

/-- The note of a chord which is its bass. -/
theorem tone_exists (hc : HasClass pt red useInv c c.root) : 0 ≤ usedInversion useInv c ∧
    ∃ tone, (specTones pt (red c.type))[(usedInversion useInv c).toNat]? = some tone := by
  have h0 : 0 ≤ usedInversion useInv c ∧ usedInversion useInv c < specInversions (red c.type) := by
    unfold usedInversion
    split
    · rename_i h; exact hc.2 h
    · rw [specInversions_eq]
      have := inversionCount_pos (red c.type)
      omega
  rw [specInversions_eq] at h0
  have hl := specTones_length pt (red c.type)
  exact ⟨h0.1, _, List.getElem?_eq_getElem (by omega)⟩

/-- C86: the data point of a chord, transposed by an interval. The target is the class of the transposed
chord, the root, the bass and the pitches are those of the transposed and reduced chord, and the notes are
transposed by the same interval. Missing: MIDI roots are not taken modulo 12 (`C86_midi_fails`), and the range
of the notes is not checked (`C86_notes_fail`). -/
theorem C86_item_partial (hred : ∀ t, red (red t) = red t) (hc : IsTarget pt c x.target)
    (h0 : HasClass pt red useInv c c.root) (h1 : HasClass pt red useInv c (c.root + t))
    (tone : Int) (htone : (specTones pt (red c.type))[(usedInversion useInv c).toNat]? = some tone)
    (hbass : pt = .tpc → 0 ≤ c.root + t + tone ∧ c.root + t + tone ≤ 34)
    (hx : t ≠ 0 → ∀ v ∈ x.inputs.take x.length.toNat, Movable pt t v) :
    ∃ y m, reduceClass t pt red useInv x = .ok y ∧ y.intermediate = some m ∧
      chordOneHotIndex c.type (c.root + t) pt c.inversion useInv false false red = .ok y.target ∧
      m.root = c.root + t ∧ BassAbove pt tone (c.root + t) m.bass ∧
      MarksChord pt (red c.type) (c.root + t) m.pitches ∧ y.length = x.length ∧
      y.inputs.length = x.inputs.length ∧ (t = 0 → y.inputs = x.inputs) ∧
      (t ≠ 0 → ∀ (i : Nat) v, x.inputs[i]? = some v → ∃ w, y.inputs[i]? = some w ∧
        (((i : Int) < x.length ∧ MovesNote pt t v w) ∨ (x.length ≤ i ∧ w = v))) := by
  obtain ⟨j, hj⟩ := (class_iff pt red useInv c c.root).1 h0
  obtain ⟨j', hj'⟩ := (class_iff pt red useInv c (c.root + t)).1 h1
  obtain ⟨hk, -⟩ := tone_exists pt red useInv c h0
  have hb : ∃ b, transposePitch (c.root + t) tone pt = .ok b ∧ BassAbove pt tone (c.root + t) b := by
    cases pt
    · have := hbass rfl
      exact ⟨c.root + t + tone, by rw [C04_tpc_iff, if_pos (by omega)], rfl⟩
    · exact ⟨_, rfl, rfl⟩
  obtain ⟨b, hb, hb'⟩ := hb
  have hi := intermediate_eq pt red useInv c (c.root + t) j' tone hk htone hj'
  rw [hb] at hi
  rw [reduceClass_eq t pt red useInv x c j hc hj]
  by_cases ht : t = 0
  · have hjj : j' = j := by
      rw [ht, Int.add_zero, hj] at hj'
      injection hj' with e; exact e.symm
    subst hjj
    have hm : moveItem t pt red useInv { x with target := j' } =
        .ok ⟨j', x.length, x.inputs, some ⟨c.root + t, b, vectorFromChordType (red c.type) pt (some (c.root + t))⟩⟩ := by
      simp only [moveItem, ht, ne_eq, not_true_eq_false, if_false, Bind.bind, Except.bind]
      rw [ht] at hi
      rw [hi]; rfl
    rw [hm]
    exact ⟨_, _, rfl, rfl, hj', rfl, hb', marks _ _ _, rfl, rfl, fun _ => rfl, fun h => absurd ht h⟩
  · obtain ⟨ws, w1, w2, w3⟩ := moveInputs_ok (hx ht)
    have hm : moveItem t pt red useInv { x with target := j } =
        .ok ⟨j', x.length, ws, some ⟨c.root + t, b, vectorFromChordType (red c.type) pt (some (c.root + t))⟩⟩ := by
      simp only [moveItem, if_pos ht, Bind.bind, moveTarget_eq t pt red useInv c hred j hj, hj', Except.bind, w1, hi]
      rfl
    rw [hm]
    exact ⟨_, _, rfl, rfl, hj', rfl, hb', marks _ _ _, rfl, w2, fun h => absurd h ht, fun _ => w3⟩

/-- What a data point looks like if it is not to be used. -/
structure Unusable (pt : PitchType) (x y : ClassItem) : Prop where
  target : y.target = -1
  length : y.length = -1
  shape : y.inputs.map List.length = x.inputs.map List.length
  zeros : ∀ v ∈ y.inputs, ∀ a ∈ v, a = 0
  intermediate : y.intermediate = some ⟨-1, -1, List.replicate (specPitches pt) 0⟩

theorem noItem_unusable : Unusable pt x (noItem pt x) := by
  refine ⟨rfl, rfl, ?_, ?_, ?_⟩
  · simp [noItem, Function.comp_def]
  · intro v hv a ha
    simp only [noItem, List.mem_map] at hv
    obtain ⟨u, _, rfl⟩ := hv
    simp only [List.mem_map] at ha
    obtain ⟨_, _, rfl⟩ := ha
    rfl
  · simp only [noItem, toNat_pitches]

/-- C86: if the root of the transposed chord is out of range, the data point is marked as unusable, whatever
its notes are. -/
theorem C86_root_out (hred : ∀ t, red (red t) = red t) (hc : IsTarget pt c x.target)
    (h0 : HasClass pt red useInv c c.root) (h1 : c.root + t < 0 ∨ (specPitches pt : Int) ≤ c.root + t) :
    ∃ y, reduceClass t pt red useInv x = .ok y ∧ Unusable pt x y := by
  obtain ⟨j, hj⟩ := (class_iff pt red useInv c c.root).1 h0
  have hj' := (class_iff pt red useInv c (c.root + t)).2 (by
    intro h
    have := h.1
    omega)
  have ht : t ≠ 0 := by
    intro ht
    have := h0.1
    omega
  rw [reduceClass_eq t pt red useInv x c j hc hj]
  have hm : moveItem t pt red useInv { x with target := j } = .error .valueError := by
    simp only [moveItem, if_pos ht, Bind.bind, moveTarget_eq t pt red useInv c hred j hj, hj', Except.bind]
  rw [hm]
  exact ⟨_, rfl, noItem_unusable pt x⟩

/-- C86: the same if the bass of the transposed chord is out of range. -/
theorem C86_bass_out (hpt : pt = .tpc) (hred : ∀ t, red (red t) = red t) (hc : IsTarget pt c x.target)
    (h0 : HasClass pt red useInv c c.root) (h1 : HasClass pt red useInv c (c.root + t))
    (tone : Int) (htone : (specTones pt (red c.type))[(usedInversion useInv c).toNat]? = some tone)
    (hbass : c.root + t + tone < 0 ∨ 35 ≤ c.root + t + tone)
    (hx : t ≠ 0 → ∀ v ∈ x.inputs.take x.length.toNat, Movable pt t v) :
    ∃ y, reduceClass t pt red useInv x = .ok y ∧ Unusable pt x y := by
  obtain ⟨j, hj⟩ := (class_iff pt red useInv c c.root).1 h0
  obtain ⟨j', hj'⟩ := (class_iff pt red useInv c (c.root + t)).1 h1
  obtain ⟨hk, -⟩ := tone_exists pt red useInv c h0
  have hb : transposePitch (c.root + t) tone pt = .error .valueError := by
    subst hpt
    rw [C04_tpc_iff, if_neg (by omega)]
  have hi := intermediate_eq pt red useInv c (c.root + t) j' tone hk htone hj'
  rw [hb] at hi
  rw [reduceClass_eq t pt red useInv x c j hc hj]
  have hm : moveItem t pt red useInv { x with target := j } = .error .valueError := by
    by_cases ht : t = 0
    · have hjj : j' = j := by
        rw [ht, Int.add_zero, hj] at hj'
        injection hj' with e; exact e.symm
      subst hjj
      simp only [moveItem, ht, ne_eq, not_true_eq_false, if_false, Bind.bind, Except.bind]
      rw [ht] at hi
      rw [hi]; rfl
    · obtain ⟨ws, w1, -⟩ := moveInputs_ok (hx ht)
      simp only [moveItem, if_pos ht, Bind.bind, moveTarget_eq t pt red useInv c hred j hj, hj', Except.bind, w1, hi]
      rfl
  rw [hm]
  exact ⟨_, rfl, noItem_unusable pt x⟩

/-- C86 fails for MIDI pitches: a chord whose root passes B is thrown away, although the transposed chord is a
chord with a class. -/
theorem C86_midi_fails (hred : ∀ t, red (red t) = red t) (hc : IsTarget .midi c x.target)
    (h0 : HasClass .midi red useInv c c.root) (h1 : 12 ≤ c.root + t) :
    HasClass .midi red useInv c ((c.root + t) % 12) ∧
    ∃ y, reduceClass t .midi red useInv x = .ok y ∧ Unusable .midi x y := by
  refine ⟨⟨?_, h0.2⟩, C86_root_out t .midi red useInv x c hred hc h0 (Or.inr h1)⟩
  show 0 ≤ (c.root + t) % 12 ∧ (c.root + t) % 12 < ((12 : Nat) : Int)
  omega

end

/-- C86 fails for notes out of range: the chord is transposed, and the note loses its pitch. -/
theorem C86_notes_fail (t : Int) (pt : PitchType) (red : Reduction) (useInv : Bool) (x : ClassItem) (c : Label)
    (hred : ∀ t, red (red t) = red t) (hc : IsTarget pt c x.target)
    (h0 : HasClass pt red useInv c c.root) (h1 : HasClass pt red useInv c (c.root + t))
    (tone : Int) (htone : (specTones pt (red c.type))[(usedInversion useInv c).toNat]? = some tone)
    (hbass : pt = .tpc → 0 ≤ c.root + t + tone ∧ c.root + t + tone ≤ 34)
    (n : NoteVec) (hn : InRange n) (hnp : n.pitchType = pt) (v : List ℚ) (hv : n.toVec = .ok v) (hs : v.sum ≠ 0)
    (hout : (specPitches pt : Int) ≤ n.pitchClass + t) (hout' : n.pitchClass + t < v.length)
    (hx : x.inputs = [v]) (hl : x.length = 1) :
    ∃ y w, reduceClass t pt red useInv x = .ok y ∧ y.inputs = [w] ∧ y.length = 1 ∧
      chordOneHotIndex c.type (c.root + t) pt c.inversion useInv false false red = .ok y.target ∧
      ∀ i : Nat, i < specPitches pt → w[i]? = some 0 := by
  obtain ⟨j, hj⟩ := (class_iff pt red useInv c c.root).1 h0
  obtain ⟨j', hj'⟩ := (class_iff pt red useInv c (c.root + t)).1 h1
  obtain ⟨hk, -⟩ := tone_exists pt red useInv c h0
  have hb : ∃ b, transposePitch (c.root + t) tone pt = .ok b := by
    cases pt
    · exact ⟨_, by rw [C04_tpc_iff, if_pos (by have := hbass rfl; omega)]⟩
    · exact ⟨_, rfl⟩
  obtain ⟨b, hb⟩ := hb
  have hi := intermediate_eq pt red useInv c (c.root + t) j' tone hk htone hj'
  rw [hb] at hi
  subst hnp
  obtain ⟨w, w1, w2, -⟩ := C64_out_of_range n hn v hv t hout hout'
  have ht : t ≠ 0 := by
    intro ht
    have := hn.pitch
    omega
  have hw : moveInputs t n.pitchType x.inputs x.length = .ok [w] := by
    rw [hx, hl]
    have : moveInput t n.pitchType v = .ok w := by rw [moveInput, if_neg hs]; exact w1
    have ht : ([v] : List (List ℚ)).take (1 : Int).toNat = [v] := rfl
    have hd : ([v] : List (List ℚ)).drop (1 : Int).toNat = [] := rfl
    simp only [moveInputs, ht, hd, List.mapM_cons, List.mapM_nil, Bind.bind, this, Except.bind, Pure.pure, Except.pure,
      List.append_nil]
  rw [reduceClass_eq t n.pitchType red useInv x c j hc hj]
  have hm : moveItem t n.pitchType red useInv { x with target := j } =
      .ok ⟨j', x.length, [w],
        some ⟨c.root + t, b, vectorFromChordType (red c.type) n.pitchType (some (c.root + t))⟩⟩ := by
    simp only [moveItem, if_pos ht, Bind.bind, moveTarget_eq t n.pitchType red useInv c hred j hj, hj', Except.bind,
      hw, hi]
    rfl
  rw [hm]
  exact ⟨_, w, rfl, rfl, hl, hj', w2⟩

/-- C86: a chord which has no class after the reduction is an error, which is not caught. -/
theorem C86_unreduced (t : Int) (pt : PitchType) (red : Reduction) (useInv : Bool) (x : ClassItem) (c : Label)
    (hc : IsTarget pt c x.target) (h0 : ¬ HasClass pt red useInv c c.root) :
    reduceClass t pt red useInv x = .error .valueError := by
  have hn := (class_iff pt red useInv c c.root).2 h0
  have hold : ∀ (k : Nat) c' i', [c][k]? = some c' → [x.target][k]? = some i' →
      OldIndex false pt true noReduction false c' i' := by
    intro k c' i' h1 h2
    cases k with
    | zero =>
      simp only [List.getElem?_cons_zero, Option.some.injEq] at h1 h2
      subst h1 h2; exact hc
    | succ k => simp at h1
  have h := (C39_commutes [c] [x.target] false pt true noReduction false red useInv rfl hold).2
    ⟨c, List.mem_singleton.2 rfl, by
      rintro ⟨j, hj⟩
      have : newIndex false pt true noReduction false red useInv c = .error .valueError := hn
      rw [this] at hj
      cases hj⟩
  simp only [reduceClass, Bind.bind, h, Except.bind]

/-- G7/B up a tone, with triads and inversions: A/C♯. -/
example : chordOneHotIndex .majMin7 7 .midi 1 true false false noReduction = .ok 221 := by decide +kernel

example : reduceClass 2 .midi triadReduction true ⟨221, 1, [], none⟩ =
    .ok ⟨28, 1, [], some ⟨9, 1, [0, 1, 0, 0, 1, 0, 0, 0, 0, 1, 0, 0]⟩⟩ := by decide +kernel

/-- The note B above it is moved to C♯, which does not exist in the vector: octave 2 is marked. -/
example : ((b5.toVec).bind fun v => reduceClass 2 .midi triadReduction true ⟨221, 1, [v], none⟩).map
    (fun y => (y.target, y.inputs.map (List.take 22))) =
    .ok (28, [zeros 12 ++ [0, 1, 0, 0, 0, 1, 0, 0, 0, 0]]) := by decide +kernel

/-- A fourth higher the chord would be C/E. It is thrown away. -/
example : reduceClass 5 .midi triadReduction true ⟨221, 1, [], none⟩ =
    .ok ⟨-1, -1, [], some ⟨-1, -1, List.replicate 12 0⟩⟩ := by decide +kernel

/-- The third inversion is no inversion of the triad. -/
example : HasClass .midi noReduction true ⟨.majMin7, 7, 3⟩ 7 ∧ ¬ HasClass .midi triadReduction true ⟨.majMin7, 7, 3⟩ 7 := by
  constructor
  · exact ⟨by decide, fun _ => by decide⟩
  · intro h
    have := (h.2 rfl).2
    revert this
    decide

end Verif.ClassData
