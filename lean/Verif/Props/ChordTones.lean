import Verif.Props.Pitch

/-!
# C14: bass notes and chord vectors
-/

namespace Verif

/-- The notes of each chord type above its root, as steps on the line of fifths. -/
def fifthTones : ChordType → List Int
  | .major => [0, 4, 1] | .minor => [0, -3, 1] | .diminished => [0, -3, -6]
  | .augmented => [0, 4, 8] | .majMaj7 => [0, 4, 1, 5] | .majMin7 => [0, 4, 1, -2]
  | .minMaj7 => [0, -3, 1, 5] | .minMin7 => [0, -3, 1, -2] | .dim7 => [0, -3, -6, -9]
  | .halfDim7 => [0, -3, -6, -2] | .augMin7 => [0, 4, 8, -2] | .augMaj7 => [0, 4, 8, 5]

/-- The notes of each chord type above its root, in semitones. -/
def semitoneTones : ChordType → List Int
  | .major => [0, 4, 7] | .minor => [0, 3, 7] | .diminished => [0, 3, 6]
  | .augmented => [0, 4, 8] | .majMaj7 => [0, 4, 7, 11] | .majMin7 => [0, 4, 7, 10]
  | .minMaj7 => [0, 3, 7, 11] | .minMin7 => [0, 3, 7, 10] | .dim7 => [0, 3, 6, 9]
  | .halfDim7 => [0, 3, 6, 10] | .augMin7 => [0, 4, 8, 10] | .augMaj7 => [0, 4, 8, 11]

/-- Chord notes in the units of a pitch type. -/
def specTones : PitchType → ChordType → List Int
  | .tpc => fifthTones
  | .midi => semitoneTones

theorem chordPitches_eq (pt : PitchType) (ct : ChordType) :
    chordPitches pt ct = (specTones pt ct).map (· + pitchC pt) := by
  cases pt <;> cases ct <;> decide

theorem specTones_length (pt : PitchType) (ct : ChordType) :
    (specTones pt ct).length = inversionCount ct := by
  cases pt <;> cases ct <;> decide

/-- The two tables describe the same notes: a fifth is seven semitones. -/
theorem C14_tables (ct : ChordType) :
    (fifthTones ct).map (fun f => (7 * f) % 12) = semitoneTones ct := by
  cases ct <;> decide

theorem pyGet_map_add (l : List Int) (c i : Int) :
    pyGet (l.map (· + c)) i = (pyGet l i).map (· + c) := by
  simp only [pyGet, List.length_map, List.getElem?_map]
  split
  · cases l[i.toNat]? <;> rfl
  · split
    · cases l[((l.length : Int) + i).toNat]? <;> rfl
    · rfl

/-- C14: with the inversion in range, the bass is the root plus the inversion's chord note
(modulo 12 for MIDI, and an error when outside of the 35 TPC pitches). -/
theorem C14_bass (ct : ChordType) (root : Int) (k : Nat) (tone : Int) (pt : PitchType) (m : Bool)
    (hk : (specTones pt ct)[k]? = some tone) :
    bassNote ct root k pt m = transposePitch root tone pt := by
  have hlt : k < (specTones pt ct).length := (List.getElem?_eq_some_iff.mp hk).1
  have hidx : (if m = true then (k : Int) % ((chordPitches pt ct).length : Int) else (k : Int)) = k := by
    rw [chordPitches_eq, List.length_map]
    split
    · exact Int.emod_eq_of_lt (by omega) (by omega)
    · rfl
  have hg : pyGet (chordPitches pt ct) (k : Int) = .ok (tone + pitchC pt) := by
    rw [chordPitches_eq, pyGet_map_add]
    simp only [pyGet, if_pos (Int.natCast_nonneg k), Int.toNat_natCast, hk]
    rfl
  simp only [bassNote, hidx, hg, Bind.bind, Except.bind]
  have e : tone + pitchC pt + (root - pitchC pt) = root + tone := by omega
  cases pt
  · rw [C04_tpc_iff, C04_tpc_iff, e]
  · simp only [transposePitch, e]

/-- C14: without `modulo`, an inversion beyond the chord's notes is an `IndexError`. -/
theorem C14_bass_too_high (ct : ChordType) (root : Int) (k : Nat) (pt : PitchType)
    (hk : (specTones pt ct).length ≤ k) :
    bassNote ct root k pt false = .error .indexError := by
  have hg : pyGet (chordPitches pt ct) (k : Int) = .error .indexError := by
    rw [chordPitches_eq, pyGet_map_add]
    simp only [pyGet, if_pos (Int.natCast_nonneg k), Int.toNat_natCast,
      List.getElem?_eq_none hk]
    rfl
  simp only [bassNote, Bool.false_eq_true, if_false, hg, Bind.bind, Except.bind]

/-- C14: with `modulo`, inversions repeat with the number of chord notes. -/
theorem C14_bass_modulo (ct : ChordType) (root inv : Int) (pt : PitchType) :
    bassNote ct root inv pt true =
      bassNote ct root (inv % ((inversionCount ct : Nat) : Int)) pt false := by
  have hlen : (chordPitches pt ct).length = inversionCount ct := by
    rw [chordPitches_eq, List.length_map, specTones_length]
  simp only [bassNote, hlen, Bool.false_eq_true, if_true, if_false]

theorem specTones_distinct (pt : PitchType) (ct : ChordType) : ∀ i j : Fin (specTones pt ct).length,
    ((specTones pt ct)[i] - (specTones pt ct)[j]) % NUM_PITCHES pt = 0 → i = j := by
  cases pt <;> cases ct <;> decide

/-- C14: a chord's inversions all have different basses. -/
theorem C14_bass_distinct (ct : ChordType) (root b : Int) (k l : Nat) (pt : PitchType) (m m' : Bool)
    (hk : k < inversionCount ct) (hl : l < inversionCount ct)
    (h1 : bassNote ct root k pt m = .ok b) (h2 : bassNote ct root l pt m' = .ok b) : k = l := by
  have hk' : k < (specTones pt ct).length := by rw [specTones_length]; exact hk
  have hl' : l < (specTones pt ct).length := by rw [specTones_length]; exact hl
  rw [C14_bass ct root k _ pt m (List.getElem?_eq_getElem hk')] at h1
  rw [C14_bass ct root l _ pt m' (List.getElem?_eq_getElem hl')] at h2
  have := specTones_distinct pt ct ⟨k, hk'⟩ ⟨l, hl'⟩ (by
    cases pt
    · rw [C04_tpc_iff] at h1 h2
      split at h1 <;> simp at h1
      split at h2 <;> simp at h2
      simp only [Fin.getElem_fin]
      rw [show (specTones .tpc ct)[k] - (specTones .tpc ct)[l] = 0 by omega]; rfl
    · simp only [transposePitch, Except.ok.injEq] at h1 h2
      simp only [Fin.getElem_fin]
      have hN : NUM_PITCHES .midi = 12 := rfl
      rw [hN] at h1 h2 ⊢; omega)
  simpa using this

/-! ## Chord vectors -/

theorem set_foldl_getElem? (l : List Int) (v : List Nat) (j : Nat) (hj : j < v.length)
    (hl : ∀ p ∈ l, 0 ≤ p) :
    (l.foldl (fun v p => v.set p.toNat 1) v)[j]? =
      if (j : Int) ∈ l then some 1 else v[j]? := by
  induction l generalizing v with
  | nil => simp
  | cons p l ih =>
    have hp : 0 ≤ p := hl p (by simp)
    rw [List.foldl_cons, ih _ (by simpa using hj) (fun p h => hl p (by simp [h]))]
    simp only [List.mem_cons]
    by_cases h1 : (j : Int) ∈ l
    · simp [h1]
    · by_cases h2 : (j : Int) = p
      · subst h2; simp [h1, hj]
      · have : p.toNat ≠ j := by omega
        simp [h1, h2, this]

theorem foldl_set_length (l : List Int) (v : List Nat) :
    (l.foldl (fun v p => v.set p.toNat 1) v).length = v.length := by
  induction l generalizing v with
  | nil => rfl
  | cons p l ih => rw [List.foldl_cons, ih]; simp

/-- The vector of a chord on C. -/
def baseVector (ct : ChordType) (pt : PitchType) : List Nat :=
  (chordPitches pt ct).foldl (fun v p => v.set p.toNat 1) (List.replicate (NUM_PITCHES pt).toNat 0)

theorem baseVector_length (ct : ChordType) (pt : PitchType) :
    (baseVector ct pt).length = (NUM_PITCHES pt).toNat := by
  simp [baseVector, foldl_set_length]

theorem chordPitches_range (pt : PitchType) (ct : ChordType) :
    ∀ p ∈ chordPitches pt ct, 0 ≤ p ∧ p < NUM_PITCHES pt := by
  cases pt <;> cases ct <;> decide

theorem baseVector_getElem? (ct : ChordType) (pt : PitchType) (j : Nat)
    (hj : j < (NUM_PITCHES pt).toNat) :
    (baseVector ct pt)[j]? = some (if (j : Int) ∈ chordPitches pt ct then 1 else 0) := by
  unfold baseVector
  rw [set_foldl_getElem? _ _ _ (by simpa using hj) (fun p hp => (chordPitches_range pt ct p hp).1)]
  split
  · rfl
  · simp [hj]

theorem roll_getElem? (v : List Nat) (i : Int) (j : Nat) (hj : j < v.length) :
    (roll v i)[j]? = v[(((j : Int) - i) % (v.length : Int)).toNat]? := by
  have hpos : (0 : Int) < v.length := by omega
  have hk0 := Int.emod_nonneg i (show (v.length : Int) ≠ 0 by omega)
  have hk1 := Int.emod_lt_of_pos i hpos
  have hsub : ((j : Int) - i) % (v.length : Int) = ((j : Int) - i % (v.length : Int)) % (v.length : Int) := by
    rw [Int.sub_emod, Int.sub_emod (j : Int) (i % _), Int.emod_emod_of_dvd _ (Int.dvd_refl _)]
  simp only [roll]
  generalize hk : i % (v.length : Int) = k at *
  rw [hsub, List.getElem?_append]
  simp only [List.length_drop]
  by_cases h : j < k.toNat
  · rw [if_pos (by omega), List.getElem?_drop]
    have : ((j : Int) - k) % (v.length : Int) = (j : Int) - k + v.length := by
      rw [← Int.add_emod_right]
      exact Int.emod_eq_of_lt (by omega) (by omega)
    rw [this]; congr 1; omega
  · rw [if_neg (by omega), List.getElem?_take, if_pos (by omega)]
    rw [Int.emod_eq_of_lt (by omega) (by omega)]
    congr 1; omega

/-- C14: transposing a MIDI chord vector rotates it by the interval. -/
theorem C14_transpose_midi (v : List Nat) (i : Int) (j : Nat) (hj : j < v.length) :
    (transposeChordVector v i .midi)[j]? = v[(((j : Int) - i) % (v.length : Int)).toNat]? :=
  roll_getElem? v i j hj

/-- C14: transposing a TPC chord vector shifts it by the interval; what leaves the range is lost and
zeros come in. -/
theorem C14_transpose_tpc (v : List Nat) (i : Int) (j : Nat) (hj : j < v.length) :
    (transposeChordVector v i .tpc)[j]? =
      if 0 ≤ (j : Int) - i ∧ (j : Int) - i < v.length then v[((j : Int) - i).toNat]? else some 0 := by
  simp only [transposeChordVector]
  by_cases h1 : i > 0
  · rw [if_pos h1, List.getElem?_append, List.length_replicate]
    by_cases h2 : (j : Int) < i
    · rw [if_pos (by omega), if_neg (by omega), List.getElem?_replicate, if_pos (by omega)]
    · rw [if_neg (by omega), if_pos (by omega), List.getElem?_take, if_pos (by omega)]
      congr 1; omega
  · rw [if_neg h1]
    by_cases h3 : i < 0
    · rw [if_pos h3, List.getElem?_append, List.length_drop]
      by_cases h2 : (j : Int) - i < v.length
      · rw [if_pos (by omega), if_pos (by omega), List.getElem?_drop]
        congr 1; omega
      · rw [if_neg (by omega), if_neg (by omega), List.getElem?_replicate, if_pos (by omega)]
    · rw [if_neg h3, if_pos (by omega)]; congr 1; omega

/-- C14: transposition keeps the length. -/
theorem C14_transpose_length (v : List Nat) (i : Int) (pt : PitchType) :
    (transposeChordVector v i pt).length = v.length := by
  cases pt
  · simp only [transposeChordVector]
    split
    · simp; omega
    · split
      · simp; omega
      · rfl
  · simp [transposeChordVector, roll]

/-- C14: the TPC vector of a chord has 35 entries and a one exactly at the chord's notes that are
in range, for every root (also outside of the range). -/
theorem C14_vector_tpc (ct : ChordType) (root : Int) :
    (vectorFromChordType ct .tpc (some root)).length = 35 ∧
    ∀ j : Nat, j < 35 → (vectorFromChordType ct .tpc (some root))[j]? =
      some (if (j : Int) - root ∈ fifthTones ct then 1 else 0) := by
  have hv : vectorFromChordType ct .tpc (some root) =
    transposeChordVector (baseVector ct .tpc) (root - 15) .tpc := rfl
  have hlen : (baseVector ct .tpc).length = 35 := baseVector_length ct .tpc
  rw [hv]
  refine ⟨by rw [C14_transpose_length, hlen], fun j hj => ?_⟩
  rw [C14_transpose_tpc _ _ _ (by omega), hlen]
  have hC : pitchC .tpc = 15 := rfl
  have hr := chordPitches_range .tpc ct
  have hN : NUM_PITCHES .tpc = 35 := rfl
  rw [chordPitches_eq, hN] at hr
  have hm : ((j : Int) - (root - 15) ∈ chordPitches .tpc ct) ↔ ((j : Int) - root ∈ fifthTones ct) := by
    rw [chordPitches_eq, hC, List.mem_map]
    constructor
    · rintro ⟨x, hx, e⟩
      rw [show (j : Int) - root = x by omega]; exact hx
    · intro h; exact ⟨_, h, by omega⟩
  split
  · rename_i h
    rw [baseVector_getElem? ct .tpc _ (by rw [hN]; omega), Int.toNat_of_nonneg h.1]
    simp only [hm]
  · rename_i h
    rw [if_neg]
    intro hmem
    have := hr ((j : Int) - root + 15) (List.mem_map.mpr ⟨_, hmem, by rw [hC]⟩)
    omega

/-- C14: the MIDI vector of a chord has 12 entries and a one exactly at the chord's notes. -/
theorem C14_vector_midi (ct : ChordType) (root : Int) :
    (vectorFromChordType ct .midi (some root)).length = 12 ∧
    ∀ j : Nat, j < 12 → (vectorFromChordType ct .midi (some root))[j]? =
      some (if ((j : Int) - root) % 12 ∈ semitoneTones ct then 1 else 0) := by
  have hv : vectorFromChordType ct .midi (some root) =
    transposeChordVector (baseVector ct .midi) (root - 0) .midi := rfl
  have hlen : (baseVector ct .midi).length = 12 := baseVector_length ct .midi
  rw [hv]
  refine ⟨by rw [C14_transpose_length, hlen], fun j hj => ?_⟩
  rw [C14_transpose_midi _ _ _ (by omega), hlen]
  have hN : NUM_PITCHES .midi = 12 := rfl
  rw [baseVector_getElem? ct .midi _ (by rw [hN]; omega)]
  have hp : chordPitches .midi ct = semitoneTones ct := by
    rw [chordPitches_eq]
    show (semitoneTones ct).map (fun x => x + 0) = semitoneTones ct
    simp
  rw [hp, Int.toNat_of_nonneg (by omega)]
  simp

/-- C14: the bass note of any inversion is marked in the chord's vector. -/
theorem C14_bass_in_vector (ct : ChordType) (root b : Int) (k : Nat) (pt : PitchType)
    (hk : k < inversionCount ct) (h : bassNote ct root k pt false = .ok b) :
    (vectorFromChordType ct pt (some root))[b.toNat]? = some 1 := by
  have hk' : k < (specTones pt ct).length := by rw [specTones_length]; exact hk
  rw [C14_bass ct root k _ pt false (List.getElem?_eq_getElem hk')] at h
  have hmem : (specTones pt ct)[k] ∈ specTones pt ct := List.getElem_mem hk'
  cases pt
  · rw [C04_tpc_iff] at h
    split at h <;> simp at h
    rw [(C14_vector_tpc ct root).2 _ (by omega), if_pos]
    rw [show ((b.toNat : Int) - root) = (specTones .tpc ct)[k] by omega]; exact hmem
  · have hN : NUM_PITCHES .midi = 12 := rfl
    simp only [transposePitch, Except.ok.injEq] at h
    rw [hN] at h
    rw [(C14_vector_midi ct root).2 _ (by omega), if_pos]
    have hr : ∀ x ∈ specTones .midi ct, 0 ≤ x ∧ x < 12 := by
      clear h hmem hk hk'; cases ct <;> decide
    have := hr _ hmem
    rw [show (((b.toNat : Int) - root) % 12) = (specTones .midi ct)[k] by omega]; exact hmem

example : bassNote .dim7 16 3 .tpc false = .ok 7 := by decide
example : bassNote .dim7 3 3 .tpc false = .error .valueError := by decide
example : vectorFromChordType .minor .midi (some 9) = [1, 0, 0, 0, 1, 0, 0, 0, 0, 1, 0, 0] := by decide

/-- The third inversion of G7 is on F; the vector of the chord has a one there. -/
example : bassNote .majMin7 15 3 .tpc false = transposePitch 15 (-2) .tpc ∧
    bassNote .majMin7 15 3 .tpc false = .ok 13 ∧
    (vectorFromChordType .majMin7 .tpc (some 15))[13]? = some 1 :=
  ⟨C14_bass .majMin7 15 3 (-2) .tpc false rfl, by decide,
    C14_bass_in_vector .majMin7 15 13 3 .tpc (by decide) (by decide)⟩

/-- A triad has no third inversion; with `modulo` it is in root position. -/
example : bassNote .major 14 3 .tpc false = .error .indexError ∧
    bassNote .major 14 3 .tpc true = bassNote .major 14 0 .tpc false :=
  ⟨C14_bass_too_high .major 14 3 .tpc (by decide), C14_bass_modulo .major 14 3 .tpc⟩

/-- No other inversion of G7 has the bass F. -/
example (k : Nat) (hk : k < 4) (h : bassNote .majMin7 15 k .tpc false = .ok 13) : k = 3 :=
  C14_bass_distinct .majMin7 15 13 k 3 .tpc false false hk (by decide) h (by decide)

example : transposeChordVector [1, 0, 0, 1] 3 .midi = [0, 0, 1, 1] ∧
    transposeChordVector [1, 0, 0, 1] 3 .tpc = [0, 0, 0, 1] := by decide

end Verif
