import Verif.Lemmas.Pitch

/-!
# C04 - C11: pitches, intervals and their names
-/

namespace Verif

/-! ## C04 transposition -/

/-- C04: two accepted transpositions compose to the transposition by the sum. -/
theorem C04_compose (p a b q r : Int) (pt : PitchType)
    (h1 : transposePitch p a pt = .ok q) (h2 : transposePitch q b pt = .ok r) :
    transposePitch p (a + b) pt = .ok r := by
  cases pt
  · simp only [transposePitch] at *
    split at h1 <;> simp at h1
    subst h1
    rw [Int.add_assoc] at h2
    exact h2
  · simp only [transposePitch, NUM_PITCHES, Except.ok.injEq] at *
    omega

/-- C04: for MIDI pitches every step is accepted and the result is in 0..11. -/
theorem C04_midi_total (p a : Int) :
    ∃ q, transposePitch p a .midi = .ok q ∧ 0 ≤ q ∧ q < 12 ∧ (q - (p + a)) % 12 = 0 := by
  refine ⟨(p + a) % 12, rfl, ?_, ?_, ?_⟩ <;> omega

/-- C04: TPC transposition is exact, and fails with `ValueError` exactly when it leaves 0..34. -/
theorem C04_tpc_iff (p a : Int) :
    transposePitch p a .tpc =
      if 0 ≤ p + a ∧ p + a ≤ 34 then .ok (p + a) else .error .valueError := by
  have hN : NUM_PITCHES .tpc = 35 := rfl
  simp only [transposePitch, hN]
  by_cases h : 0 ≤ p + a ∧ p + a ≤ 34
  · rw [if_pos h, if_neg (by omega)]
  · rw [if_neg h, if_pos (by omega)]

/-- C04: going back by the opposite interval returns to the start, on pitches in range. -/
theorem C04_inverse (p a q : Int) (pt : PitchType) (h0 : 0 ≤ p) (h1 : p < NUM_PITCHES pt)
    (h : transposePitch p a pt = .ok q) : transposePitch q (-a) pt = .ok p := by
  cases pt
  · rw [C04_tpc_iff] at *
    have hN : NUM_PITCHES .tpc = 35 := rfl
    split at h <;> simp at h
    subst h
    rw [if_pos (by omega)]; congr 1; omega
  · simp only [transposePitch, NUM_PITCHES, Except.ok.injEq] at *
    omega

example : transposePitch 30 (-25) .tpc = .ok 5 ∧ transposePitch 5 29 .tpc = .ok 34 := by decide
example : transposePitch 30 5 .tpc = .error .valueError := by decide

/-! ## C05 relative pitches -/

/-- The interval range of a relative pitch: key changes and plain chord pitches -14..14, padded
chord pitches -19..19. -/
def relBound (isKeyChange pad : Bool) : Int := if pad && !isKeyChange then 19 else 14

/-- C05, tonal pitch classes: the result is the interval shifted to start at 0, and `ValueError` is
raised exactly for intervals outside the range. -/
theorem C05_tpc (pitch key : Int) (isKeyChange pad : Bool) :
    absoluteToRelative pitch key .tpc isKeyChange pad =
      if -(relBound isKeyChange pad) ≤ pitch - key ∧ pitch - key ≤ relBound isKeyChange pad
      then .ok (pitch - key + relBound isKeyChange pad) else .error .valueError := by
  cases isKeyChange <;> cases pad <;>
    simp only [absoluteToRelative, relBound, MIN_KEY_CHANGE_INTERVAL_TPC, MIN_RELATIVE_TPC,
      MAX_KEY_CHANGE_INTERVAL_TPC, MAX_RELATIVE_TPC, RELATIVE_TPC_EXTRA, Bool.false_eq_true,
      if_true, if_false, Bool.and_true, Bool.and_false, Bool.not_true, Bool.not_false] <;>
    split <;> split <;> first
      | omega
      | (congr 1; omega)
      | rfl

/-- C05, MIDI: the result is in 0..11 and congruent to the interval. -/
theorem C05_midi (pitch key : Int) (isKeyChange pad : Bool) :
    ∃ r, absoluteToRelative pitch key .midi isKeyChange pad = .ok r ∧ 0 ≤ r ∧ r < 12 ∧
      (r - (pitch - key)) % 12 = 0 := by
  refine ⟨(pitch + -key) % 12, rfl, ?_, ?_, ?_⟩ <;> omega

/-- C05: only the interval matters, i.e. moving pitch and key together changes nothing. -/
theorem C05_invariant (pitch key k : Int) (pt : PitchType) (isKeyChange pad : Bool) :
    absoluteToRelative (pitch + k) (key + k) pt isKeyChange pad =
      absoluteToRelative pitch key pt isKeyChange pad := by
  cases pt
  · rw [C05_tpc, C05_tpc]
    have : pitch + k - (key + k) = pitch - key := by omega
    rw [this]
  · simp only [absoluteToRelative, transposePitch, Except.ok.injEq]
    congr 1; omega

/-- C05: the interval can be recovered, so relative pitches are unambiguous. -/
theorem C05_injective_tpc (p k p' k' : Int) (isKeyChange pad : Bool) (r : Int)
    (h : absoluteToRelative p k .tpc isKeyChange pad = .ok r)
    (h' : absoluteToRelative p' k' .tpc isKeyChange pad = .ok r) : p - k = p' - k' := by
  rw [C05_tpc] at *
  split at h <;> split at h' <;> simp at h h'
  omega

/-- C05: the relative pitch of an accepted chord pitch is a valid root for the chord class encoder
with the same settings (0 ≤ r < number of roots). -/
theorem C05_in_vector_range (p k : Int) (pt : PitchType) (isKeyChange pad : Bool) (r : Int)
    (h : absoluteToRelative p k pt isKeyChange pad = .ok r) :
    0 ≤ r ∧ r < (match pt with | .midi => 12 | .tpc => 2 * relBound isKeyChange pad + 1) := by
  cases pt
  · rw [C05_tpc] at h
    split at h <;> simp at h
    simp only; omega
  · obtain ⟨r', h1, h2, h3, _⟩ := C05_midi p k isKeyChange pad
    rw [h1] at h; injection h with h; subst h
    exact ⟨h2, h3⟩

example : absoluteToRelative 33 15 .tpc false true = .ok 37 := by decide
example : absoluteToRelative 33 15 .tpc false false = .error .valueError := by decide

/-! ## C06, C07 pitch names -/

theorem letters_ne {c : Char} (h : c ∈ ['A', 'B', 'C', 'D', 'E', 'F', 'G']) :
    c ≠ '#' ∧ c ≠ '/' ∧ c ≠ 'b' := by
  simp at h; rcases h with h | h | h | h | h | h | h <;> subst h <;> decide

theorem spelled_tpc (p : Int) (s : Str) (h : pitchString p .tpc = .ok s) :
    pitchFromString s .tpc = if 0 ≤ p ∧ p < 35 then .ok p else .error .valueError := by
  obtain ⟨c, q, a, hp, hc, hq0, hq1, h1, _, h2⟩ := pitchString_tpc p
  rw [h2] at h; injection h with h; subst h
  rw [pitchFromString_letter_tpc c _ _ (letters_ne hc).1 q h1]
  have : q + 7 * (((a.toNat : Nat) : Int) - ((-a).toNat : Nat)) = p := by omega
  rw [this]

/-- C06: every TPC pitch has a name, and reading the name gives the pitch back. -/
theorem C06_round_trip (p : Int) (h0 : 0 ≤ p) (h1 : p < 35) :
    ∃ s, pitchString p .tpc = .ok s ∧ pitchFromString s .tpc = .ok p := by
  obtain ⟨s, hs⟩ := pitchString_total p .tpc
  exact ⟨s, hs, by rw [spelled_tpc p s hs, if_pos ⟨h0, h1⟩]⟩

/-- C06: the name of a pitch outside 0..34 exists too, but is rejected when read. -/
theorem C06_out_of_range (p : Int) (h : ¬ (0 ≤ p ∧ p < 35)) :
    ∃ s, pitchString p .tpc = .ok s ∧ pitchFromString s .tpc = .error .valueError := by
  obtain ⟨s, hs⟩ := pitchString_total p .tpc
  exact ⟨s, hs, by rw [spelled_tpc p s hs, if_neg h]⟩

/-- Position of the natural letters on the line of fifths (F C G D A E B). -/
def fifths : List (Char × Int) :=
  [('F', -1), ('C', 0), ('G', 1), ('D', 2), ('A', 3), ('E', 4), ('B', 5),
   ('f', -1), ('c', 0), ('g', 1), ('d', 2), ('a', 3), ('e', 4), ('b', 5)]

/-- Semitones of the natural letters above C. -/
def semitones : List (Char × Int) :=
  [('F', 5), ('C', 0), ('G', 7), ('D', 2), ('A', 9), ('E', 4), ('B', 11),
   ('f', 5), ('c', 0), ('g', 7), ('d', 2), ('a', 9), ('e', 4), ('b', 11)]

/-- C06: a letter (upper or lower case) with `m` sharps and then `n` flats, for all `m` and `n`,
lies seven fifths per accidental from the letter; `ValueError` exactly outside 0..34. -/
theorem C06_spelling (c : Char) (f : Int) (hf : (c, f) ∈ fifths) (m n : Nat) :
    pitchFromString (c :: (List.replicate m '#' ++ List.replicate n 'b')) .tpc =
      if 0 ≤ 15 + f + 7 * ((m : Int) - n) ∧ 15 + f + 7 * ((m : Int) - n) < 35
      then .ok (15 + f + 7 * ((m : Int) - n)) else .error .valueError := by
  have : c ≠ '#' ∧ stringToPitch .tpc [c] = some (15 + f) := by
    revert hf; simp only [fifths, List.mem_cons, Prod.mk.injEq, List.not_mem_nil, or_false]
    intro hf
    rcases hf with h | h | h | h | h | h | h | h | h | h | h | h | h | h <;>
      obtain ⟨rfl, rfl⟩ := h <;> decide
  exact pitchFromString_letter_tpc c m n this.1 _ this.2

/-- C07: a letter with `m` sharps and `n` flats, read as MIDI. -/
theorem C07_spelling (c : Char) (f : Int) (hf : (c, f) ∈ semitones) (m n : Nat) :
    pitchFromString (c :: (List.replicate m '#' ++ List.replicate n 'b')) .midi =
      .ok ((f + ((m : Int) - n)) % 12) := by
  have : c ≠ '#' ∧ c ≠ '/' ∧ stringToPitch .midi [c] = some f := by
    revert hf; simp only [semitones, List.mem_cons, Prod.mk.injEq, List.not_mem_nil, or_false]
    intro hf
    rcases hf with h | h | h | h | h | h | h | h | h | h | h | h | h | h <;>
      obtain ⟨rfl, rfl⟩ := h <;> decide
  exact pitchFromString_letter_midi c m n this.1 this.2.1 _ this.2.2

theorem midi_names (n : Nat) (h : n < 12) (s : Str) (hs : midiStrings[n]? = some s) :
    pitchFromString s .midi = .ok (n : Int) := by
  have : n = 0 ∨ n = 1 ∨ n = 2 ∨ n = 3 ∨ n = 4 ∨ n = 5 ∨ n = 6 ∨ n = 7 ∨ n = 8 ∨ n = 9 ∨ n = 10 ∨
    n = 11 := by omega
  rcases this with h | h | h | h | h | h | h | h | h | h | h | h <;> subst h <;>
    (simp [midiStrings] at hs; subst hs; decide)

/-- C07: every integer has a MIDI name and reading it gives the pitch class. -/
theorem C07_round_trip (p : Int) :
    ∃ s, pitchString p .midi = .ok s ∧ pitchFromString s .midi = .ok (p % 12) := by
  obtain ⟨s, h1, h2⟩ := pitchString_midi p
  refine ⟨s, h1, ?_⟩
  rw [midi_names _ (by omega) s h2]
  congr 1; omega

example : pitchString 0 .tpc = .ok ['F', 'b', 'b'] := by decide
example : pitchFromString ['g', '#', '#'] .tpc = .ok 30 := by decide
example : pitchString (-2) .midi = .ok ['A', '#', '/', 'B', 'b'] := by decide

/-! ## C08, C09 pitch type conversion -/

/-- C08: converting a TPC pitch (however remote) to MIDI is seven semitones per fifth from C. -/
theorem C08_value (p : Int) : convertPitch p .tpc .midi = .ok ((7 * (p - 15)) % 12) := by
  obtain ⟨c, q, a, hp, hc, hq0, hq1, _, h1, h2⟩ := pitchString_tpc p
  have hne := letters_ne hc
  simp only [convertPitch, h2, Bind.bind, Except.bind]
  rw [pitchFromString_letter_midi c _ _ hne.1 hne.2.1 _ h1]
  congr 1; omega

/-- C08: conversion to MIDI commutes with transposition. -/
theorem C08_commutes (p i q : Int) (h : transposePitch p i .tpc = .ok q) :
    ∃ m, convertPitch p .tpc .midi = .ok m ∧
      convertPitch q .tpc .midi = transposePitch m (tpcIntervalToMidiInterval i) .midi := by
  refine ⟨_, C08_value p, ?_⟩
  rw [C08_value, C04_tpc_iff] at *
  split at h <;> simp at h
  subst h
  simp only [transposePitch, tpcIntervalToMidiInterval, NUM_PITCHES]
  congr 1; omega

/-- C08: the interval conversion is a homomorphism modulo 12. -/
theorem C08_interval_add (i j : Int) :
    tpcIntervalToMidiInterval (i + j) =
      (tpcIntervalToMidiInterval i + tpcIntervalToMidiInterval j) % 12 := by
  simp only [tpcIntervalToMidiInterval, NUM_PITCHES]; omega

example : transposePitch 15 4 .tpc = .ok 19 := by decide

/-- The MIDI pitch classes with a one-letter name. -/
def whiteKeys : List Int := [0, 2, 4, 5, 7, 9, 11]

theorem midi_to_tpc (n : Nat) (h : n < 12) (s : Str) (hs : midiStrings[n]? = some s) :
    (if (n : Int) ∈ whiteKeys then
      ∃ q, pitchFromString s .tpc = .ok q ∧ 0 ≤ q ∧ q < 35 ∧ (7 * (q - 15)) % 12 = n
     else pitchFromString s .tpc = .error .keyError) := by
  have : n = 0 ∨ n = 1 ∨ n = 2 ∨ n = 3 ∨ n = 4 ∨ n = 5 ∨ n = 6 ∨ n = 7 ∨ n = 8 ∨ n = 9 ∨ n = 10 ∨
    n = 11 := by omega
  rcases this with h | h | h | h | h | h | h | h | h | h | h | h <;> subst h <;>
    simp [midiStrings] at hs <;> subst hs
  · exact ⟨15, by decide⟩
  · rw [if_neg (by decide)]; decide
  · exact ⟨17, by decide⟩
  · rw [if_neg (by decide)]; decide
  · exact ⟨19, by decide⟩
  · exact ⟨14, by decide⟩
  · rw [if_neg (by decide)]; decide
  · exact ⟨16, by decide⟩
  · rw [if_neg (by decide)]; decide
  · exact ⟨18, by decide⟩
  · rw [if_neg (by decide)]; decide
  · exact ⟨20, by decide⟩

/-- C09 (partial): for the white keys, MIDI to TPC gives a TPC pitch which converts back. Missing:
the five other pitch classes, where the code raises (`C09_fails`). -/
theorem C09_white_keys_partial (p : Int) (h : p % 12 ∈ whiteKeys) :
    ∃ q, convertPitch p .midi .tpc = .ok q ∧ 0 ≤ q ∧ q < 35 ∧
      convertPitch q .tpc .midi = .ok (p % 12) := by
  obtain ⟨s, h1, h2⟩ := pitchString_midi p
  have := midi_to_tpc _ (by omega) s h2
  have hc : ((p % 12).toNat : Int) = p % 12 := by omega
  rw [hc, if_pos h] at this
  obtain ⟨q, g1, g2, g3, g4⟩ := this
  refine ⟨q, by simp [convertPitch, h1, Bind.bind, Except.bind, g1], g2, g3, ?_⟩
  rw [C08_value, g4]

/-- C09 is false for the code: every black key raises `KeyError` when converted to TPC (the name
"C#/Db" is only split for MIDI targets). -/
theorem C09_fails (p : Int) (h : p % 12 ∉ whiteKeys) :
    convertPitch p .midi .tpc = .error .keyError := by
  obtain ⟨s, h1, h2⟩ := pitchString_midi p
  have := midi_to_tpc _ (by omega) s h2
  have hc : ((p % 12).toNat : Int) = p % 12 := by omega
  rw [hc, if_neg h] at this
  simp [convertPitch, h1, Bind.bind, Except.bind, this]

example : (65 : Int) % 12 ∈ whiteKeys := by decide
example : (-2 : Int) % 12 ∉ whiteKeys := by decide

/-! ## C10 scale degrees -/

theorem flatLoop_done (lo : Int) : ∀ (n : Nat) (i : Int) (k : Nat), (lo - i).toNat ≤ n →
    lo ≤ (flatLoop lo n i k).1 ∧ (lo ≤ i → flatLoop lo n i k = (i, k)) ∧
    (i < lo → (flatLoop lo n i k).1 < lo + 7) ∧
    (flatLoop lo n i k).1 = i + 7 * ((flatLoop lo n i k).2 - k : Int)
  | 0, i, k, h => ⟨by simp only [flatLoop]; omega, fun _ => rfl, fun h => absurd h (by omega),
      by simp only [flatLoop]; omega⟩
  | n + 1, i, k, h => by
    unfold flatLoop
    by_cases hp : i < lo
    · rw [if_pos hp]
      obtain ⟨h1, h2, h3, h4⟩ := flatLoop_done lo n (i + 7) (k + 1) (by omega)
      refine ⟨h1, by omega, fun _ => ?_, by rw [h4]; omega⟩
      by_cases hq : i + 7 < lo
      · exact h3 hq
      · rw [h2 (by omega)]; simp only; omega
    · rw [if_neg hp]
      exact ⟨by simp only; omega, fun _ => rfl, fun h => absurd h (by omega), by simp only; omega⟩

theorem sharpLoop_done (hi : Int) : ∀ (n : Nat) (i : Int) (k : Nat), (i - hi).toNat ≤ n →
    (sharpLoop hi n i k).1 ≤ hi ∧ (i ≤ hi → sharpLoop hi n i k = (i, k)) ∧
    (hi < i → hi - 7 < (sharpLoop hi n i k).1) ∧
    (sharpLoop hi n i k).1 = i - 7 * ((sharpLoop hi n i k).2 - k : Int)
  | 0, i, k, h => ⟨by simp only [sharpLoop]; omega, fun _ => rfl, fun h => absurd h (by omega),
      by simp only [sharpLoop]; omega⟩
  | n + 1, i, k, h => by
    unfold sharpLoop
    by_cases hp : i > hi
    · rw [if_pos hp]
      obtain ⟨h1, h2, h3, h4⟩ := sharpLoop_done hi n (i - 7) (k + 1) (by omega)
      refine ⟨h1, by omega, fun _ => ?_, by rw [h4]; omega⟩
      by_cases hq : hi < i - 7
      · exact h3 hq
      · rw [h2 (by omega)]; simp only; omega
    · rw [if_neg hp]
      exact ⟨by simp only; omega, fun _ => rfl, fun h => absurd h (by omega), by simp only; omega⟩

/-- The seven natural degrees of each mode have a name that reads back as the same interval. -/
theorem degreeName_tpc (mode : KeyMode) (j : Int)
    (h0 : listMin (scaleIntervals mode .tpc) ≤ j) (h1 : j ≤ listMax (scaleIntervals mode .tpc)) :
    ∃ c rest n, degreeName (scaleIntervals mode .tpc) j = .ok (c :: rest) ∧ c ≠ '#' ∧ c ≠ 'b' ∧
      scaleDegreeToNumber (c :: rest) = some n ∧ pyGet (scaleIntervals mode .tpc) n = .ok j := by
  cases mode
  · have e1 : listMin (scaleIntervals .major .tpc) = -1 := by decide
    have e2 : listMax (scaleIntervals .major .tpc) = 5 := by decide
    rw [e1] at h0; rw [e2] at h1
    have : j = -1 ∨ j = 0 ∨ j = 1 ∨ j = 2 ∨ j = 3 ∨ j = 4 ∨ j = 5 := by omega
    rcases this with h | h | h | h | h | h | h <;> subst h
    · exact ⟨'I', ['V'], 4, by decide⟩
    · exact ⟨'I', [], 1, by decide⟩
    · exact ⟨'V', [], 5, by decide⟩
    · exact ⟨'I', ['I'], 2, by decide⟩
    · exact ⟨'V', ['I'], 6, by decide⟩
    · exact ⟨'I', ['I', 'I'], 3, by decide⟩
    · exact ⟨'V', ['I', 'I'], 7, by decide⟩
  · have e1 : listMin (scaleIntervals .minor .tpc) = -4 := by decide
    have e2 : listMax (scaleIntervals .minor .tpc) = 2 := by decide
    rw [e1] at h0; rw [e2] at h1
    have : j = -4 ∨ j = -3 ∨ j = -2 ∨ j = -1 ∨ j = 0 ∨ j = 1 ∨ j = 2 := by omega
    rcases this with h | h | h | h | h | h | h <;> subst h
    · exact ⟨'V', ['I'], 6, by decide⟩
    · exact ⟨'I', ['I', 'I'], 3, by decide⟩
    · exact ⟨'V', ['I', 'I'], 7, by decide⟩
    · exact ⟨'I', ['V'], 4, by decide⟩
    · exact ⟨'I', [], 1, by decide⟩
    · exact ⟨'V', [], 5, by decide⟩
    · exact ⟨'I', ['I'], 2, by decide⟩

theorem scale_width (mode : KeyMode) :
    listMax (scaleIntervals mode .tpc) = listMin (scaleIntervals mode .tpc) + 6 := by
  cases mode <;> decide

/-- C10: the name of a TPC interval reads back as that interval, for every integer interval. -/
theorem C10_tpc (i : Int) (mode : KeyMode) :
    ∃ s, scaleDegreeFromInterval i mode .tpc = .ok s ∧
      intervalFromScaleDegree s true mode .tpc = .ok i := by
  have hw := scale_width mode
  generalize hlo : listMin (scaleIntervals mode .tpc) = lo at *
  generalize hhi : listMax (scaleIntervals mode .tpc) = hi at *
  obtain ⟨h1, h2, h3, h4⟩ := flatLoop_done lo (lo - i).toNat i 0 (Nat.le_refl _)
  generalize hr : flatLoop lo (lo - i).toNat i 0 = x at *
  obtain ⟨j, flats⟩ := x
  simp only at *
  obtain ⟨g1, g2, g3, g4⟩ := sharpLoop_done hi (j - hi).toNat j 0 (Nat.le_refl _)
  generalize hs : sharpLoop hi (j - hi).toNat j 0 = y at *
  obtain ⟨k, sharps⟩ := y
  simp only at *
  have hk0 : lo ≤ k := by
    by_cases hh : j ≤ hi
    · have := g2 hh; simp only [Prod.mk.injEq] at this; omega
    · have := g3 (by omega); omega
  have hone : flats = 0 ∨ sharps = 0 := by
    by_cases hh : lo ≤ i
    · have := h2 hh; simp only [Prod.mk.injEq] at this; omega
    · have h5 := h3 (by omega)
      have := g2 (by omega); simp only [Prod.mk.injEq] at this; omega
  obtain ⟨c, rest, n, d1, d2, d3, d4, d5⟩ := degreeName_tpc mode k (by omega) (by omega)
  refine ⟨List.replicate sharps '#' ++ (List.replicate flats 'b' ++ c :: rest), ?_, ?_⟩
  · simp only [scaleDegreeFromInterval, hlo, hhi, hr, hs, d1, Bind.bind, Except.bind]
  · have hadj : accidentalAdjustment
        (List.replicate sharps '#' ++ (List.replicate flats 'b' ++ c :: rest)) true =
        .ok ((sharps : Int) - flats, c :: rest) := by
      rcases hone with h | h <;> subst h
      · have := accidental_front 0 sharps c rest d2 (Or.inr (Or.inl d3))
        simpa using this
      · have := accidental_front flats 0 c rest d2 (Or.inr (Or.inl d3))
        simpa using this
    simp only [intervalFromScaleDegree, hadj, Bind.bind, Except.bind, d4, d5, accidentalUnit]
    congr 1; omega

/-- C10: the name of a MIDI interval reads back as that interval modulo 12. -/
theorem C10_midi (i : Int) (mode : KeyMode) :
    ∃ s, scaleDegreeFromInterval i mode .midi = .ok s ∧
      intervalFromScaleDegree s true mode .midi = .ok (i % 12) := by
  have key : ∀ j : Nat, j < 12 → ∀ mode : KeyMode, ∃ s,
      (do
        let (i, k) := midiDegreeLoop (scaleIntervals mode .midi) 12 (j : Int) 0
        let name ← degreeName (scaleIntervals mode .midi) i
        .ok (List.replicate k '#' ++ name) : Py Str) = .ok s ∧
      intervalFromScaleDegree s true mode .midi = .ok (j : Int) := by
    intro j hj mode
    have : j = 0 ∨ j = 1 ∨ j = 2 ∨ j = 3 ∨ j = 4 ∨ j = 5 ∨ j = 6 ∨ j = 7 ∨ j = 8 ∨ j = 9 ∨ j = 10 ∨
      j = 11 := by omega
    rcases this with h | h | h | h | h | h | h | h | h | h | h | h <;> subst h <;> cases mode <;>
      exact ⟨_, rfl, by decide⟩
  obtain ⟨s, h1, h2⟩ := key (i % 12).toNat (by omega) mode
  have hc : ((i % 12).toNat : Int) = i % 12 := by omega
  rw [hc] at h1 h2
  exact ⟨s, h1, h2⟩

example : scaleDegreeFromInterval (-23) .minor .tpc = .ok ['b', 'b', 'b', 'V', 'I', 'I'] := by decide
example : scaleDegreeFromInterval 6 .minor .midi = .ok ['#', 'I', 'V'] := by decide

/-! ## C11 accidentals -/

/-- What the accidental parser is supposed to do at the front of a string: `n` flats, then `m`
sharps, then the rest; a trailing lone `b` is a pitch name and stays. -/
def FrontAccidentals (s : Str) (n m : Nat) (c : Char) (rest : Str) : Prop :=
  s = List.replicate n 'b' ++ (List.replicate m '#' ++ c :: rest) ∧ c ≠ '#' ∧
    (m ≠ 0 ∨ c ≠ 'b' ∨ rest = [])

/-- C11: on every string the parser either finds the decomposition or fails; it fails (with
`IndexError`) exactly on the empty string and on flats followed by sharps and nothing else. -/
theorem C11_front (s : Str) :
    (∃ n m c rest, FrontAccidentals s n m c rest ∧
        accidentalAdjustment s true = .ok ((m : Int) - n, c :: rest)) ∨
    ((s = [] ∨ ∃ n m, s = List.replicate n 'b' ++ List.replicate (m + 1) '#') ∧
        accidentalAdjustment s true = .error .indexError) := by
  by_cases hs : s = []
  · right; subst hs; exact ⟨Or.inl rfl, rfl⟩
  obtain ⟨n, c, rest, h1, h2⟩ := exists_flats s hs
  rcases exists_sharps (c :: rest) with ⟨m, hm⟩ | ⟨m, c', rest', hm, hc'⟩
  · right
    cases m with
    | zero => simp at hm
    | succ m =>
      rw [hm] at h1
      refine ⟨Or.inr ⟨n, m, h1⟩, ?_⟩
      simp only [accidentalAdjustment, hs, if_false, if_true]
      rw [h1, stripFlats_then_sharps]
      simp only [stripSharps_all, Bind.bind, Except.bind]
  · left
    have hb : m ≠ 0 ∨ c' ≠ 'b' ∨ rest' = [] := by
      by_cases hm0 : m = 0
      · subst hm0
        simp at hm
        obtain ⟨rfl, rfl⟩ := hm
        exact Or.inr h2
      · exact Or.inl hm0
    rw [hm] at h1
    exact ⟨n, m, c', rest', ⟨h1, hc', hb⟩, by rw [h1]; exact accidental_front n m c' rest' hc' hb⟩

/-- C11: the decomposition is unique, so the result is determined by the specification. -/
theorem C11_front_unique (s : Str) (n m n' m' : Nat) (c c' : Char) (rest rest' : Str)
    (h : FrontAccidentals s n m c rest) (h' : FrontAccidentals s n' m' c' rest') :
    (m : Int) - n = (m' : Int) - n' ∧ c :: rest = c' :: rest' := by
  have e1 := accidental_front n m c rest h.2.1 h.2.2
  have e2 := accidental_front n' m' c' rest' h'.2.1 h'.2.2
  rw [← h.1] at e1; rw [← h'.1, e1] at e2
  injection e2 with e2
  simpa only [Prod.mk.injEq] using e2

/-- C11: parsing behind is parsing the mirrored string in front. -/
theorem C11_behind (s : Str) :
    accidentalAdjustment s false =
      (accidentalAdjustment s.reverse true).map (fun p => (p.1, p.2.reverse)) :=
  accidental_behind_eq s

example : FrontAccidentals ['b', 'b', '#', 'V', 'I'] 2 1 'V' ['I'] := by
  refine ⟨rfl, ?_, ?_⟩ <;> simp
example : accidentalAdjustment ['b', 'b'] false = .ok (-1, ['b']) := by decide

end Verif
