import Verif.Props.VectorReductions

/-!
# C63-C65: note numbers and note vectors
-/

namespace Verif.NoteVectors

open Verif.Vectors

/-- C63: for spelled pitches, a note number counts 12 semitones per octave, plus the class of the pitch
(seven semitones per fifth from C). What is missing are MIDI pitches: see `C63_midi`. -/
theorem C63_tpc_partial (pitchClass octave : Int) (h0 : 0 ≤ pitchClass) (h1 : pitchClass < 35) :
    ∃ n, midiNoteNumber pitchClass octave .tpc = .ok n ∧ n = 12 * octave + (7 * (pitchClass - 15)) % 12 := by
  have htab : ∀ k : Fin 35, (pitchString (k.val : Int) .tpc).bind (fun s => pitchFromString s .midi) =
      .ok ((7 * ((k.val : Int) - 15)) % 12) := by decide +kernel
  have hk := htab ⟨pitchClass.toNat, by omega⟩
  have hp : ((⟨pitchClass.toNat, by omega⟩ : Fin 35).val : Int) = pitchClass := by simp only; omega
  rw [hp] at hk
  refine ⟨_, ?_, rfl⟩
  obtain ⟨s, hs, hf⟩ := bind_ok hk
  have hN : NUM_PITCHES .midi = 12 := rfl
  simp only [midiNoteNumber, Bind.bind, hs, Except.bind, hf, hN]

/-- C63 fails for MIDI pitches: octaves are 35 apart, so only the numbers in octave 0 are right. -/
theorem C63_midi (pitchClass octave : Int) :
    midiNoteNumber pitchClass octave .midi = .ok (35 * octave + pitchClass) ∧
    (midiNoteNumber pitchClass octave .midi = .ok (12 * octave + pitchClass) ↔ octave = 0) := by
  have h : midiNoteNumber pitchClass octave .midi = .ok (35 * octave + pitchClass) := rfl
  refine ⟨h, ?_⟩
  rw [h, Except.ok.injEq]
  omega

/-- Middle C in both spellings. -/
example : midiNoteNumber 15 5 .tpc = .ok 60 ∧ midiNoteNumber 0 5 .midi = .ok 175 := by decide +kernel

/-- The number of pitches. -/
def specPitches : PitchType → Nat
  | .tpc => 35
  | .midi => 12

theorem pitches_eq (pt : PitchType) : NUM_PITCHES pt = specPitches pt := by cases pt <;> rfl

theorem toNat_pitches (pt : PitchType) : (NUM_PITCHES pt).toNat = specPitches pt := by cases pt <;> rfl

/-- A note whose fields are in range: pitch, octave (and octave above the lowest one) and levels. -/
structure InRange (x : NoteVec) : Prop where
  pitch : 0 ≤ x.pitchClass ∧ x.pitchClass < specPitches x.pitchType
  octave : 0 ≤ x.octave ∧ x.octave < 10
  lowest : ∀ p, x.minPitch = some p → 0 ≤ p.1 ∧ p.1 ≤ x.octave
  onset : 0 ≤ x.onsetLevel ∧ x.onsetLevel < 4
  offset : 0 ≤ x.offsetLevel ∧ x.offsetLevel < 4

theorem midi_ok {x : NoteVec} (h : InRange x) : ∃ n, midiNoteNumber x.pitchClass x.octave x.pitchType = .ok n := by
  have hp := h.pitch
  revert hp
  cases x.pitchType
  · intro hp
    obtain ⟨n, hn, _⟩ := C63_tpc_partial x.pitchClass x.octave hp.1 hp.2
    exact ⟨n, hn⟩
  · intro _; exact ⟨_, rfl⟩

/-- The vector of a note: its blocks. -/
theorem toVec_blocks {x : NoteVec} (h : InRange x) :
    ∃ tail : List ℚ, tail.length = 18 ∧
      x.toVec = .ok (hot (specPitches x.pitchType) x.pitchClass.toNat ++ (hot 10 x.octave.toNat ++
        (hot 4 x.onsetLevel.toNat ++ (hot 4 x.offsetLevel.toNat ++ tail)))) := by
  obtain ⟨n, hn⟩ := midi_ok h
  have hr : 0 ≤ x.octave - x.lowestOctave ∧ x.octave - x.lowestOctave < 10 := by
    have ho := h.octave
    have hlow := h.lowest
    unfold NoteVec.lowestOctave
    revert hlow
    cases x.minPitch with
    | none => intro _; simp only; omega
    | some p =>
      intro hlow
      have := hlow p rfl
      simp only; omega
  have h10 : 127 / specPitches .midi = 10 := rfl
  simp only [NoteVec.toVec, Bind.bind, toNat_pitches, h10, hn, Except.bind,
    oneHot_ok h.pitch.1 h.pitch.2, oneHot_ok h.octave.1 (show x.octave < (10 : Nat) from h.octave.2),
    oneHot_ok h.onset.1 (show x.onsetLevel < (4 : Nat) from h.onset.2),
    oneHot_ok h.offset.1 (show x.offsetLevel < (4 : Nat) from h.offset.2)]
  simp only [oneHot_ok hr.1 (show _ < ((10 : Nat) : Int) from hr.2), List.append_assoc]
  exact ⟨_, by simp [hot_length], rfl⟩

/-- C65: the vector of a note has the announced length (71 or 48 entries) and starts with one bit for each
of pitch, octave and the two levels. What is missing is the decoder: see `C65_decoder`. -/
theorem C65_layout_partial (x : NoteVec) (h : InRange x) :
    ∃ v, x.toVec = .ok v ∧ v.length = noteVectorLength x.pitchType ∧
      v.length = specPitches x.pitchType + 36 ∧
      ∀ (i : Nat) y, v[i]? = some y → i < specPitches x.pitchType + 18 →
        y = if (i : Int) = x.pitchClass ∨ (i : Int) = specPitches x.pitchType + x.octave ∨
            (i : Int) = specPitches x.pitchType + 10 + x.onsetLevel ∨
            (i : Int) = specPitches x.pitchType + 14 + x.offsetLevel then 1 else 0 := by
  obtain ⟨tail, ht, hv⟩ := toVec_blocks h
  have h1 := h.pitch
  have h2 := h.octave
  have h3 := h.onset
  have h4 := h.offset
  refine ⟨_, hv, ?_, ?_, ?_⟩
  · simp only [List.length_append, hot_length, ht]
    cases x.pitchType <;> rfl
  · simp only [List.length_append, hot_length, ht]
  · intro i y hy hi
    generalize specPitches x.pitchType = n at *
    by_cases a1 : i < n
    · rw [List.getElem?_append_left (by rw [hot_length]; exact a1), hot_getElem? _ _ _ (by omega),
        if_pos a1] at hy
      injection hy with hy
      rw [← hy]
      apply if_congr _ rfl rfl
      omega
    · rw [List.getElem?_append_right (by rw [hot_length]; omega), hot_length] at hy
      by_cases a2 : i - n < 10
      · rw [List.getElem?_append_left (by rw [hot_length]; exact a2), hot_getElem? _ _ _ (by omega),
          if_pos a2] at hy
        injection hy with hy
        rw [← hy]
        apply if_congr _ rfl rfl
        omega
      · rw [List.getElem?_append_right (by rw [hot_length]; omega), hot_length] at hy
        by_cases a3 : i - n - 10 < 4
        · rw [List.getElem?_append_left (by rw [hot_length]; exact a3), hot_getElem? _ _ _ (by omega),
            if_pos a3] at hy
          injection hy with hy
          rw [← hy]
          apply if_congr _ rfl rfl
          omega
        · rw [List.getElem?_append_right (by rw [hot_length]; omega), hot_length] at hy
          have a4 : i - n - 10 - 4 < 4 := by omega
          rw [List.getElem?_append_left (by rw [hot_length]; exact a4), hot_getElem? _ _ _ (by omega),
            if_pos a4] at hy
          injection hy with hy
          rw [← hy]
          apply if_congr _ rfl rfl
          omega

/-- The octave that octaves are counted from: that of the lowest note, if given. -/
def specLowest (x : NoteVec) (o : Int) : Prop :=
  (∃ p, x.minPitch = some p ∧ p.1 = o) ∨ (x.minPitch = none ∧ o = 0)

theorem toVec_tail {x : NoteVec} (h : InRange x) (n o : Int) (ho : specLowest x o)
    (hn : midiNoteNumber x.pitchClass x.octave x.pitchType = .ok n) :
    ∃ head : List ℚ, head.length = specPitches x.pitchType + 18 ∧
      x.toVec = .ok (head ++ ([x.rhythm.1, x.rhythm.2.1, x.rhythm.2.2, x.durs.1, x.durs.2, x.isMin n] ++
        (hot 10 (x.octave - o).toNat ++ [(n : ℚ) / 127, x.relHeight n]))) := by
  have e : x.lowestOctave = o := by
    unfold NoteVec.lowestOctave
    rcases ho with ⟨p, hp, rfl⟩ | ⟨hp, rfl⟩
    · rw [hp]
    · rw [hp]
  have hr : 0 ≤ x.octave - o ∧ x.octave - o < 10 := by
    have h2 := h.octave
    rcases ho with ⟨p, hp, rfl⟩ | ⟨hp, rfl⟩
    · have := h.lowest p hp
      omega
    · omega
  have h10 : 127 / specPitches .midi = 10 := rfl
  refine ⟨hot (specPitches x.pitchType) x.pitchClass.toNat ++ (hot 10 x.octave.toNat ++
        (hot 4 x.onsetLevel.toNat ++ hot 4 x.offsetLevel.toNat)), by simp [hot_length], ?_⟩
  simp only [NoteVec.toVec, Bind.bind, toNat_pitches, h10, hn, Except.bind,
    oneHot_ok h.pitch.1 h.pitch.2, oneHot_ok h.octave.1 (show x.octave < (10 : Nat) from h.octave.2),
    oneHot_ok h.onset.1 (show x.onsetLevel < (4 : Nat) from h.onset.2),
    oneHot_ok h.offset.1 (show x.offsetLevel < (4 : Nat) from h.offset.2), e]
  simp only [oneHot_ok hr.1 (show _ < ((10 : Nat) : Int) from hr.2), List.append_assoc, List.cons_append,
    List.nil_append]

/-- C65: the other entries of the vector of a note: its place in the chord, the distances to its neighbours,
whether it is the lowest pitch, its octave above the lowest one, its note number and its height between the
lowest and the highest pitch, from 0 to 1. -/
theorem C65_context (x : NoteVec) (h : InRange x) (n o : Int) (ho : specLowest x o)
    (hn : midiNoteNumber x.pitchClass x.octave x.pitchType = .ok n) :
    ∃ v, x.toVec = .ok v ∧
      (v.drop (specPitches x.pitchType + 18)).take 5 =
        [x.rhythm.1, x.rhythm.2.1, x.rhythm.2.2, x.durs.1, x.durs.2] ∧
      (∃ y, v[specPitches x.pitchType + 23]? = some y ∧ (y = 0 ∨ y = 1) ∧
        (y = 1 ↔ ∃ p, x.minPitch = some p ∧ p.2 = n)) ∧
      (∀ i : Nat, i < 10 → v[specPitches x.pitchType + 24 + i]? =
        some (if (i : Int) = x.octave - o then 1 else 0)) ∧
      v[specPitches x.pitchType + 34]? = some ((n : ℚ) / 127) ∧
      ∃ y, v[specPitches x.pitchType + 35]? = some y ∧
        (∀ lo hi, x.minPitch = some lo → x.maxPitch = some hi → lo.2 ≤ n → n ≤ hi.2 →
          0 ≤ y ∧ y ≤ 1 ∧ y * ((hi.2 : ℚ) - lo.2) = n - lo.2) ∧
        (x.minPitch = none ∨ x.maxPitch = none → y = 0) := by
  obtain ⟨head, hl, hv⟩ := toVec_tail h n o ho hn
  have hr : 0 ≤ x.octave - o ∧ x.octave - o < 10 := by
    have h2 := h.octave
    rcases ho with ⟨p, hp, rfl⟩ | ⟨hp, rfl⟩
    · have := h.lowest p hp
      omega
    · omega
  refine ⟨_, hv, ?_, ⟨x.isMin n, ?_, ?_, ?_⟩, ?_, ?_, ⟨x.relHeight n, ?_, ?_, ?_⟩⟩
  · rw [← hl, List.drop_left]; rfl
  · rw [List.getElem?_append_right (by omega), hl]
    rw [show specPitches x.pitchType + 23 - (specPitches x.pitchType + 18) = 5 by omega]; rfl
  · unfold NoteVec.isMin
    split
    · split <;> simp
    · simp
  · unfold NoteVec.isMin
    cases x.minPitch with
    | none => simp
    | some p =>
      simp only [Option.some.injEq, exists_eq_left']
      by_cases hp : n = p.2
      · simp [hp]
      · simp only [if_neg hp]
        constructor
        · intro h; norm_num at h
        · intro h; exact absurd h.symm hp
  · intro i hi
    rw [List.getElem?_append_right (by omega), hl,
      show specPitches x.pitchType + 24 + i - (specPitches x.pitchType + 18) = 6 + i by omega,
      List.getElem?_append_right (by simp), List.getElem?_append_left (by simp [hot_length]; omega),
      hot_getElem? _ _ _ (by omega)]
    simp only [List.length_cons, List.length_nil, Nat.add_sub_cancel_left, Nat.zero_add, Nat.reduceAdd, if_pos hi]
    congr 1
    apply if_congr _ rfl rfl
    omega
  · rw [List.getElem?_append_right (by omega), hl,
      show specPitches x.pitchType + 34 - (specPitches x.pitchType + 18) = 16 by omega,
      List.getElem?_append_right (by simp), List.getElem?_append_right (by simp [hot_length])]
    simp [hot_length]
  · rw [List.getElem?_append_right (by omega), hl,
      show specPitches x.pitchType + 35 - (specPitches x.pitchType + 18) = 17 by omega,
      List.getElem?_append_right (by simp), List.getElem?_append_right (by simp [hot_length])]
    simp [hot_length]
  · intro lo hi hlo hhi h1 h2
    unfold NoteVec.relHeight
    rw [hlo, hhi]
    simp only
    by_cases hz : hi.2 - lo.2 = 0
    · rw [if_pos hz]
      have e1 : n = lo.2 := by omega
      have e2 : hi.2 = lo.2 := by omega
      rw [e1, e2]
      simp
    · rw [if_neg hz]
      have hpos : (0 : ℚ) < ((hi.2 - lo.2 : Int) : ℚ) := by
        have : 0 < hi.2 - lo.2 := by omega
        exact_mod_cast this
      refine ⟨?_, ?_, ?_⟩
      · apply div_nonneg _ hpos.le
        have : 0 ≤ n - lo.2 := by omega
        exact_mod_cast this
      · rw [div_le_one hpos]
        have : n - lo.2 ≤ hi.2 - lo.2 := by omega
        exact_mod_cast this
      · have hne := hpos.ne'
        push_cast at hne ⊢
        field_simp
  · intro hnone
    unfold NoteVec.relHeight
    rcases hnone with e | e
    · rw [e]
    · rw [e]
      cases x.minPitch <;> rfl

/-- E in the fifth octave between C and C an octave higher: a third of the way up. -/
example : (⟨19, 5, 3, 1, .tpc, (0, 1/2, 1/2), (0, 1), some (5, 60), some (6, 72)⟩ : NoteVec).toVec.map
    (fun v => v.drop 53) =
    .ok [0, 1/2, 1/2, 0, 1, 0, 1, 0, 0, 0, 0, 0, 0, 0, 0, 0, 64/127, 1/3] := by decide +kernel

/-- C65 fails: no vector at all can be decoded. -/
theorem C65_decoder (v : List ℚ) : decodeNoteVector v ≠ .ok () := by
  intro h
  simp only [decodeNoteVector, Bind.bind] at h
  split at h
  · obtain ⟨_, _, h⟩ := bind_ok h
    obtain ⟨_, _, h⟩ := bind_ok h
    obtain ⟨_, _, h⟩ := bind_ok h
    obtain ⟨_, _, h⟩ := bind_ok h
    obtain ⟨_, _, h⟩ := bind_ok h
    obtain ⟨_, _, h⟩ := bind_ok h
    split at h
    · rename_i h5
      simp only [slice, List.length_take] at h5
      omega
    · cases h
  · simp only [Except.bind] at h
    cases h

theorem pitch_of_range (pt : PitchType) (p : Int) (hp : 0 ≤ p ∧ p < specPitches pt) :
    pyGet (pyRange 0 (NUM_PITCHES pt)) p = .ok p := by
  rw [pitches_eq]
  have hl : (pyRange 0 (specPitches pt : Int)).length = specPitches pt := by
    cases pt <;> decide
  have hr : ∀ q : Nat, q < specPitches pt → (pyRange 0 (specPitches pt : Int))[q]? = some (q : Int) := by
    cases pt <;> decide +kernel
  simp only [pyGet, hl]
  rw [if_pos hp.1, hr _ (by omega)]
  simp only
  congr 1; omega

/-- C64: transposing the vector of a note moves its pitch bit and nothing else, if the new pitch is in
range. What is missing is the error for other intervals: see `C64_out_of_range`. -/
theorem C64_transposed_partial (x : NoteVec) (h : InRange x) (v : List ℚ) (hv : x.toVec = .ok v)
    (interval : Int)
    (hnew : 0 ≤ x.pitchClass + interval ∧ x.pitchClass + interval < specPitches x.pitchType) :
    ∃ w, transposeNoteVector v interval x.pitchType = .ok w ∧ w.length = v.length ∧
      ∀ i : Nat, w[i]? = if i < specPitches x.pitchType
        then some (if (i : Int) = x.pitchClass + interval then 1 else 0) else v[i]? := by
  obtain ⟨tail, _, hv'⟩ := toVec_blocks h
  rw [hv] at hv'
  injection hv' with hv'
  have hp := h.pitch
  generalize hn : specPitches x.pitchType = n at *
  have hw : whereOne v = .ok (x.pitchClass.toNat : Int) := by rw [hv']; exact whereOne_hot _ _ (by omega) _
  have hlen : n ≤ v.length := by
    rw [hv', List.length_append, hot_length]; omega
  have hc : ((x.pitchClass.toNat : Nat) : Int) = x.pitchClass := by omega
  have hrange := pitch_of_range x.pitchType x.pitchClass (by rw [hn]; exact hp)
  simp only [transposeNoteVector, Bind.bind, hw, Except.bind, hc, hrange]
  rw [if_neg (by rw [pitches_eq, hn]; simp only [not_not]; exact hp)]
  have hset : ∀ (u : List ℚ) (i : Int) (y : ℚ), 0 ≤ i → i < u.length → pySet u i y = .ok (u.set i.toNat y) := by
    intro u i y h0 h1
    rw [pySet, if_pos ⟨h0, h1⟩]
  rw [hset _ _ _ hp.1 (by omega)]
  simp only
  rw [hset _ _ _ hnew.1 (by rw [List.length_set]; omega)]
  refine ⟨_, rfl, by simp, ?_⟩
  intro i
  by_cases hi : i < n
  · rw [if_pos hi]
    have hold : v[i]? = some (if i = x.pitchClass.toNat then 1 else 0) := by
      rw [hv', List.getElem?_append_left (by rw [hot_length]; exact hi), hot_getElem? _ _ _ (by omega), if_pos hi]
    rw [List.getElem?_set, List.length_set]
    by_cases e1 : (x.pitchClass + interval).toNat = i
    · rw [if_pos e1, if_pos (by omega), if_pos (by omega)]
    · rw [if_neg e1, if_neg (by omega), List.getElem?_set]
      by_cases e2 : x.pitchClass.toNat = i
      · rw [if_pos e2, if_pos (by omega)]
      · rw [if_neg e2, hold, if_neg (by omega)]
  · rw [if_neg hi, List.getElem?_set, if_neg (by omega), List.getElem?_set, if_neg (by omega)]

/-- C64 fails: an interval that leads out of the range of pitches is no error. The note loses its pitch,
and another entry is set to 1: here for intervals upwards. -/
theorem C64_out_of_range (x : NoteVec) (h : InRange x) (v : List ℚ) (hv : x.toVec = .ok v)
    (interval : Int) (hnew : (specPitches x.pitchType : Int) ≤ x.pitchClass + interval)
    (hnew' : x.pitchClass + interval < v.length) :
    ∃ w, transposeNoteVector v interval x.pitchType = .ok w ∧
      (∀ i : Nat, i < specPitches x.pitchType → w[i]? = some 0) ∧
      w[(x.pitchClass + interval).toNat]? = some 1 := by
  obtain ⟨tail, _, hv'⟩ := toVec_blocks h
  rw [hv] at hv'
  injection hv' with hv'
  have hp := h.pitch
  generalize hn : specPitches x.pitchType = n at *
  have hw : whereOne v = .ok (x.pitchClass.toNat : Int) := by rw [hv']; exact whereOne_hot _ _ (by omega) _
  have hc : ((x.pitchClass.toNat : Nat) : Int) = x.pitchClass := by omega
  have hrange := pitch_of_range x.pitchType x.pitchClass (by rw [hn]; exact hp)
  simp only [transposeNoteVector, Bind.bind, hw, Except.bind, hc, hrange]
  rw [if_neg (by rw [pitches_eq, hn]; simp only [not_not]; exact hp)]
  have hset : ∀ (u : List ℚ) (i : Int) (y : ℚ), 0 ≤ i → i < u.length → pySet u i y = .ok (u.set i.toNat y) := by
    intro u i y h0 h1
    rw [pySet, if_pos ⟨h0, h1⟩]
  rw [hset _ _ _ hp.1 (by omega)]
  simp only
  rw [hset _ _ _ (by omega) (by rw [List.length_set]; omega)]
  refine ⟨_, rfl, ?_, ?_⟩
  · intro i hi
    have hold : v[i]? = some (if i = x.pitchClass.toNat then 1 else 0) := by
      rw [hv', List.getElem?_append_left (by rw [hot_length]; exact hi), hot_getElem? _ _ _ (by omega), if_pos hi]
    rw [List.getElem?_set, if_neg (by omega), List.getElem?_set]
    by_cases e2 : x.pitchClass.toNat = i
    · rw [if_pos e2, if_pos (by omega)]
    · rw [if_neg e2, hold, if_neg (by omega)]
  · rw [List.getElem?_set, if_pos rfl, if_pos (by rw [List.length_set]; omega)]

/-- The note B above middle C. -/
def b5 : NoteVec := ⟨11, 5, 3, 2, .midi, (0, 1, 1 / 2), (1, 1), some (5, 180), some (5, 186)⟩

example : InRange b5 where
  pitch := by decide
  octave := by decide
  lowest := by intro p hp; injection hp with hp; subst hp; decide
  onset := by decide
  offset := by decide

/-- A semitone above B is no pitch of the vector: octave 0 is set in addition to octave 5. -/
example : ((b5.toVec).bind fun v => transposeNoteVector v 1 .midi).map (fun w => w.take 22) =
    .ok (zeros 12 ++ [1, 0, 0, 0, 0, 1, 0, 0, 0, 0]) := by decide +kernel

end Verif.NoteVectors
