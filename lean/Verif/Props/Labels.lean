import Verif.Lemmas.Lists
import Verif.Props.ChordIndex
import Verif.Props.Pitch

/-!
# C02 (label part) and C03: printed labels and key classes
-/

namespace Verif

/-- What a chord root (or key tonic) is printed as: absolute ones by their pitch name, relative
ones by their number, or by the pitch name above the given key when that pitch exists. -/
def specRootName (pt : PitchType) (relative : Bool) (relativeTo : Option Int) (root : Int) :
    Py Str :=
  match relative, relativeTo with
  | false, _ => pitchString root pt
  | true, none => .ok (toString root).toList
  | true, some key =>
    match pt with
    | .midi => pitchString (root + key) .midi
    | .tpc => if 0 ≤ root + key ∧ root + key < 35 then pitchString (root + key) .tpc
              else .ok (toString root).toList

/-- `name:type` or `name:type, inv:k`. -/
def specChordLabel (name : Str) (ct : ChordType) (inv : Option Int) : Str :=
  name ++ ":".toList ++ chordTypeString ct ++
    (match inv with
     | none => []
     | some i => ", inv:".toList ++ (toString i).toList)

/-- `tonic:KeyMode.MAJOR` or, in lower case, `tonic:KeyMode.MINOR`. -/
def specKeyLabel (name : Str) (mode : KeyMode) : Str :=
  match mode with
  | .major => name ++ ":KeyMode.MAJOR".toList
  | .minor => name.map Char.toLower ++ ":KeyMode.MINOR".toList

theorem chordLabel_spec (name : Str) (ct : ChordType) (inv : Option Int) :
    chordLabel name ct inv = specChordLabel name ct inv := by
  cases inv <;> simp [chordLabel, specChordLabel, intStr]

theorem keyLabel_spec (name : Str) (mode : KeyMode) :
    keyLabel name mode = specKeyLabel name mode := by
  cases mode <;> simp [keyLabel, specKeyLabel, keyModeString]

theorem specRootName_total (pt : PitchType) (relative : Bool) (relativeTo : Option Int) (r : Int) :
    ∃ s, specRootName pt relative relativeTo r = .ok s := by
  cases relative
  · exact pitchString_total r pt
  · cases relativeTo with
    | none => exact ⟨_, rfl⟩
    | some key =>
      cases pt
      · simp only [specRootName]
        split
        · exact pitchString_total _ _
        · exact ⟨_, rfl⟩
      · exact pitchString_total (r + key) .midi

/-- The total version of the name function. -/
def rootNameD (pt : PitchType) (relative : Bool) (relativeTo : Option Int) (r : Int) : Str :=
  match specRootName pt relative relativeTo r with
  | .ok s => s
  | .error _ => []

theorem rootNameD_eq (pt : PitchType) (relative : Bool) (relativeTo : Option Int) (r : Int) :
    specRootName pt relative relativeTo r = .ok (rootNameD pt relative relativeTo r) := by
  obtain ⟨s, h⟩ := specRootName_total pt relative relativeTo r
  simp [rootNameD, h]

theorem pitchString_midi_mod (p : Int) : pitchString (p % 12) .midi = pitchString p .midi := by
  have hN : NUM_PITCHES .midi = 12 := rfl
  simp only [pitchString, hN]
  congr 1; omega

/-- The names computed by the loops of the code (roots and tonics alike). -/
theorem loop_name (pt : PitchType) (key r : Int) :
    (match transposePitch r key pt with
      | .ok p => pitchString p pt
      | .error _ => .ok (intStr r)) = specRootName pt true (some key) r := by
  cases pt
  · rw [C04_tpc_iff]
    simp only [specRootName]
    by_cases h : 0 ≤ r + key ∧ r + key ≤ 34
    · rw [if_pos h, if_pos (by omega)]
    · rw [if_neg h, if_neg (by omega)]; rfl
  · simp only [transposePitch, specRootName]
    exact pitchString_midi_mod (r + key)

theorem classRootNames_eq (pt : PitchType) (relative pad : Bool) (relativeTo : Option Int) :
    classRootNames pt relative pad relativeTo =
      .ok ((classRoots pt relative pad).map (rootNameD pt relative relativeTo)) := by
  unfold classRootNames
  cases relative
  · simp only [Bool.false_eq_true, if_false]
    rw [mapM_ok _ (rootNameD pt false relativeTo)]
    · simp [classRoots]
    · intro x _
      exact rootNameD_eq pt false relativeTo x
  · simp only [if_true]
    cases relativeTo with
    | none =>
      simp only
      congr 1
    | some key =>
      simp only
      exact mapM_ok _ _ _ (fun x _ => (loop_name pt key x).trans (rootNameD_eq pt true (some key) x))

/-- C02: the label list exists, has one entry per class, and the entry at every index is the
printed form of the chord decoded from that index. -/
theorem C02_labels (pt : PitchType) (useInv relative : Bool) (relativeTo : Option Int) (pad : Bool)
    (red : Reduction) :
    ∃ labels, chordLabelList pt useInv relative relativeTo pad red = .ok labels ∧
      (labels.length : Int) = chordOneHotLength pt relative useInv pad red ∧
      ∀ i root ct inv, chordFromOneHotIndex i pt useInv relative pad red = .ok (root, ct, inv) →
        ∃ name, specRootName pt relative relativeTo root = .ok name ∧
          pyGet labels i = .ok (specChordLabel name ct (if useInv then some inv else none)) := by
  refine ⟨(chordClasses pt useInv relative pad red).map (fun c =>
    specChordLabel (rootNameD pt relative relativeTo c.1) c.2.1
      (if useInv then some c.2.2 else none)), ?_, ?_, ?_⟩
  · unfold chordLabelList
    rw [classRootNames_eq]
    simp only [Bind.bind, Except.bind]
    congr 1
    rw [chordClasses, List.map_flatMap]
    apply flatMap_congr_left
    intro ct _
    rw [List.flatMap_map, List.map_flatMap]
    apply flatMap_congr_left
    intro r _
    cases useInv <;>
      simp [classInversions, chordLabel_spec, List.map_map, Function.comp_def]
  · rw [chordOneHotLength_eq, List.length_map]
  · intro i root ct inv h
    rw [chordFromOneHotIndex] at h
    refine ⟨_, rootNameD_eq pt relative relativeTo root, ?_⟩
    rw [pyGet_map, h]
    rfl

example : chordFromOneHotIndex 7 .midi true false false noReduction = .ok (2, .major, 1) := by decide

/-! ## C03 keys -/

/-- 35 tonal pitch classes, 12 MIDI pitch classes. -/
def specPitches : PitchType → Int
  | .tpc => 35
  | .midi => 12

theorem specPitches_eq (pt : PitchType) : specPitches pt = NUM_PITCHES pt := by cases pt <;> rfl

theorem keyTonics_abs_length (pt : PitchType) : ((keyTonics pt false).length : Int) = NUM_PITCHES pt := by
  cases pt <;> decide

theorem keyClasses_at (pt : PitchType) (mode : KeyMode) (n : Nat) (h : (n : Int) < NUM_PITCHES pt) :
    (keyClasses pt false)[(NUM_PITCHES pt).toNat * mode.value.toNat + n]? = some ((n : Int), mode) := by
  have hm : KeyMode.all[mode.value.toNat]? = some mode := by cases mode <;> decide
  have hlen : (keyTonics pt false).length = (NUM_PITCHES pt).toNat := by
    have := keyTonics_abs_length pt; omega
  have hn : n < (NUM_PITCHES pt).toNat := by omega
  have hk := flatMap_const_getElem? (fun mode => (keyTonics pt false).map fun tonic => (tonic, mode))
    (NUM_PITCHES pt).toNat KeyMode.all (fun x _ => by simp [hlen]) _ n mode hm hn
  rw [keyClasses, Nat.mul_comm, hk]
  have : (keyTonics pt false)[n]? = some (n : Int) := by
    simp only [keyTonics, Bool.false_eq_true, if_false]
    rw [pyRange_getElem? 0 _ n (by omega)]; simp
  simp [this]

theorem keyClasses_length (pt : PitchType) : ((keyClasses pt false).length : Int) = 2 * NUM_PITCHES pt := by
  cases pt <;> decide

/-- C03: the encoder rejects (`ValueError`) exactly the tonics outside the pitch range; for all
others the index is below the number of keys and decodes to the same key. -/
theorem C03_encode_decode (mode : KeyMode) (tonic : Int) (pt : PitchType) :
    if 0 ≤ tonic ∧ tonic < specPitches pt then
      ∃ i, keyOneHotIndex mode tonic pt = .ok i ∧ 0 ≤ i ∧
        i < 2 * specPitches pt ∧
        keyFromOneHotIndex i pt false = .ok (tonic, mode)
    else keyOneHotIndex mode tonic pt = .error .valueError := by
  rw [specPitches_eq]
  have hpos : 0 < NUM_PITCHES pt := by cases pt <;> decide
  have hv : mode.value = 0 ∨ mode.value = 1 := by cases mode <;> simp [KeyMode.value]
  by_cases h : 0 ≤ tonic ∧ tonic < NUM_PITCHES pt
  · rw [if_pos h]
    refine ⟨NUM_PITCHES pt * mode.value + tonic, ?_, ?_, ?_, ?_⟩
    · rw [keyOneHotIndex, if_neg (by omega)]
    · rcases hv with hv | hv <;> rw [hv] <;> omega
    · rcases hv with hv | hv <;> rw [hv] <;> omega
    · have hat := keyClasses_at pt mode tonic.toNat (by omega)
      have := pyGet_ofNat _ _ _ hat
      have hi : (((NUM_PITCHES pt).toNat * mode.value.toNat + tonic.toNat : Nat) : Int) =
          NUM_PITCHES pt * mode.value + tonic := by
        rw [Int.natCast_add, Int.natCast_mul, Int.toNat_of_nonneg (by omega),
          Int.toNat_of_nonneg (by omega), Int.toNat_of_nonneg h.1]
      rw [hi, Int.toNat_of_nonneg h.1] at this
      exact this
  · rw [if_neg h, keyOneHotIndex, if_pos (by omega)]

/-- C03: every index below the number of keys decodes to a key whose index it is. -/
theorem C03_decode_encode (i : Int) (pt : PitchType) (h0 : 0 ≤ i)
    (h1 : i < 2 * specPitches pt) :
    ∃ tonic mode, keyFromOneHotIndex i pt false = .ok (tonic, mode) ∧
      0 ≤ tonic ∧ tonic < specPitches pt ∧
      keyOneHotIndex mode tonic pt = .ok i := by
  rw [specPitches_eq] at *
  have hpos : 0 < NUM_PITCHES pt := by cases pt <;> decide
  by_cases hi : i < NUM_PITCHES pt
  · have h := C03_encode_decode .major i pt
    rw [specPitches_eq, if_pos ⟨h0, hi⟩] at h
    obtain ⟨j, e1, _, _, e2⟩ := h
    have hj : j = i := by
      rw [keyOneHotIndex, if_neg (by omega)] at e1
      simp [KeyMode.value] at e1; omega
    subst hj
    exact ⟨j, .major, e2, h0, hi, e1⟩
  · have h := C03_encode_decode .minor (i - NUM_PITCHES pt) pt
    rw [specPitches_eq, if_pos (by omega)] at h
    obtain ⟨j, e1, _, _, e2⟩ := h
    have hj : j = i := by
      rw [keyOneHotIndex, if_neg (by omega)] at e1
      simp [KeyMode.value] at e1; omega
    subst hj
    exact ⟨_, .minor, e2, by omega, by omega, e1⟩

theorem keyTonicNames_eq (pt : PitchType) (relative : Bool) (relativeTo : Option Int) :
    keyTonicNames pt relative relativeTo =
      .ok ((keyTonics pt relative).map (rootNameD pt relative relativeTo)) := by
  unfold keyTonicNames
  cases relative
  · simp only [Bool.false_eq_true, if_false]
    rw [mapM_ok _ (rootNameD pt false relativeTo)]
    · simp [keyTonics]
    · intro x _
      exact rootNameD_eq pt false relativeTo x
  · simp only [if_true]
    cases relativeTo with
    | none =>
      simp only
      congr 1
    | some key =>
      simp only
      exact mapM_ok _ _ _ (fun x _ => (loop_name pt key x).trans (rootNameD_eq pt true (some key) x))

/-- C03: the key label list has one label per key class, printed from the decoded key. -/
theorem C03_labels (pt : PitchType) (relative : Bool) (relativeTo : Option Int) :
    ∃ labels, keyLabelList pt relative relativeTo = .ok labels ∧
      (labels.length : Int) = 2 * (match pt, relative with
        | .midi, _ => 12 | .tpc, false => 35 | .tpc, true => 29) ∧
      ∀ i tonic mode, keyFromOneHotIndex i pt relative = .ok (tonic, mode) →
        ∃ name, specRootName pt relative relativeTo tonic = .ok name ∧
          pyGet labels i = .ok (specKeyLabel name mode) := by
  refine ⟨(keyClasses pt relative).map (fun c =>
    specKeyLabel (rootNameD pt relative relativeTo c.1) c.2), ?_, ?_, ?_⟩
  · unfold keyLabelList
    rw [keyTonicNames_eq]
    simp only [Bind.bind, Except.bind]
    congr 1
    rw [keyClasses, List.map_flatMap]
    apply flatMap_congr_left
    intro mode _
    simp [keyLabel_spec, List.map_map, Function.comp_def]
  · rw [List.length_map]
    cases pt <;> cases relative <;> decide
  · intro i tonic mode h
    rw [keyFromOneHotIndex] at h
    refine ⟨_, rootNameD_eq pt relative relativeTo tonic, ?_⟩
    rw [pyGet_map, h]
    rfl

example : keyFromOneHotIndex 17 .midi false = .ok (5, .minor) := by decide
example : keyOneHotIndex .minor 36 .tpc = .error .valueError := by decide

end Verif
