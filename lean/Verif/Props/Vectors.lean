import Verif.Vectors
import Verif.Lemmas.Lists
import Verif.Props.ChordIndex
import Verif.Props.Pitch
import Mathlib.Tactic.NormNum

/-!
# C39-C42, C60-C63: vectors of chords, key changes and notes
-/

namespace Verif.Vectors

/-- A one-hot vector. -/
def hot (n k : Nat) : List ℚ := (zeros n).set k 1

theorem hot_length (n k : Nat) : (hot n k).length = n := by simp [hot, zeros]

theorem oneHot_eq (n : Nat) (i : Int) :
    oneHot n i = if 0 ≤ i ∧ i < n then .ok (hot n i.toNat)
      else if -(n : Int) ≤ i ∧ i < 0 then .ok (hot n (n + i).toNat) else .error .indexError := by
  simp [oneHot, pySet, zeros, hot]

theorem oneHot_ok {n : Nat} {i : Int} (h0 : 0 ≤ i) (h1 : i < n) : oneHot n i = .ok (hot n i.toNat) := by
  rw [oneHot_eq, if_pos ⟨h0, h1⟩]

theorem hot_getElem? (n k i : Nat) (h : k < n) :
    (hot n k)[i]? = if i < n then some (if i = k then 1 else 0) else none := by
  simp only [hot, zeros, List.getElem?_set, List.length_replicate, List.getElem?_replicate]
  by_cases h1 : k = i
  · subst h1; simp [h]
  · have h2 : ¬ i = k := fun h => h1 h.symm
    simp [h1, h2]

theorem findIdx_hot (n k : Nat) (h : k < n) (rest : List ℚ) :
    (hot n k ++ rest).findIdx? (fun x => decide (x = 1)) = some k := by
  rw [List.findIdx?_eq_some_iff_getElem]
  have hl : k < (hot n k ++ rest).length := by rw [List.length_append, hot_length]; omega
  have hget : ∀ (j : Nat) (hj : j ≤ k) (hj' : j < (hot n k ++ rest).length),
      (hot n k ++ rest)[j] = if j = k then 1 else 0 := by
    intro j hj hj'
    have h1 : (hot n k ++ rest)[j]? = some (if j = k then 1 else 0) := by
      rw [List.getElem?_append_left (by rw [hot_length]; omega), hot_getElem? n k j h,
        if_pos (by omega)]
    rw [List.getElem?_eq_getElem hj'] at h1
    injection h1
  refine ⟨hl, ?_, ?_⟩
  · rw [hget k (Nat.le_refl _) hl]; simp
  · intro j hj
    rw [hget j (by omega)]
    have : ¬ j = k := by omega
    simp [this]

theorem whereOne_hot (n k : Nat) (h : k < n) (rest : List ℚ) : whereOne (hot n k ++ rest) = .ok (k : Int) := by
  rw [whereOne, findIdx_hot n k h]

theorem whereOne_hot' (n k : Nat) (h : k < n) : whereOne (hot n k) = .ok (k : Int) := by
  have := whereOne_hot n k h []
  rwa [List.append_nil] at this

theorem slice_mid {α : Type} (p m s : List α) (a b : Nat) (ha : p.length = a) (hb : b = a + m.length) :
    slice (p ++ (m ++ s)) a b = m := by
  subst ha; subst hb
  simp [slice]

theorem typeOfMask_hot (t : ChordType) : typeOfMask (hot 12 t.value) = .ok t := by
  cases t <;> decide +kernel

/-! ## C41 -/

/-- The relative pitch that a vector stores: the interval above the tonic, within 14 (19 with padding)
fifths; for MIDI the class of the interval. -/
def RelPitch (pt : PitchType) (pad : Bool) (pitch tonic r : Int) : Prop :=
  match pt with
  | .tpc => r = pitch - tonic ∧ -(if pad then 19 else 14) ≤ r ∧ r ≤ (if pad then 19 else 14)
  | .midi => 0 ≤ r ∧ r < 12 ∧ (r - (pitch - tonic)) % 12 = 0

/-- The length of a vector: two blocks of pitches, the 12 chord types and 14 further entries. -/
def specLength (pt : PitchType) (pad : Bool) : Nat :=
  match pt, pad with
  | .midi, _ => 50
  | .tpc, false => 84
  | .tpc, true => 104

/-- What the stored index adds to a relative pitch. -/
def shift (pt : PitchType) (pad : Bool) : Int :=
  match pt with
  | .midi => 0
  | .tpc => if pad then 19 else 14

theorem abs_rel {p k : Int} {pt : PitchType} {pad : Bool} {i : Int}
    (h : absoluteToRelative p k pt false pad = .ok i) :
    0 ≤ i ∧ i < relPitches pt pad ∧ RelPitch pt pad p k (i - shift pt pad) := by
  cases pt
  · rw [C05_tpc] at h
    split at h
    · rename_i hr
      injection h with h
      subst h
      cases pad
      · have : relBound false false = 14 := rfl
        rw [this] at hr ⊢
        have hN : (relPitches .tpc false : Int) = 29 := by decide
        simp only [RelPitch, shift, Bool.false_eq_true, if_false]
        omega
      · have : relBound false true = 19 := rfl
        rw [this] at hr ⊢
        have hN : (relPitches .tpc true : Int) = 39 := by decide
        simp only [RelPitch, shift, if_true]
        omega
    · cases h
  · obtain ⟨r, h1, h2, h3, h4⟩ := C05_midi p k false pad
    rw [h1] at h
    injection h with h
    subst h
    have hN : (relPitches .midi pad : Int) = 12 := by cases pad <;> decide
    refine ⟨h2, by omega, ?_⟩
    simp only [RelPitch, shift]
    refine ⟨by omega, by omega, ?_⟩
    rw [sub_zero]; exact h4

theorem rel_abs {p k : Int} {pt : PitchType} {pad : Bool} {r : Int} (h : RelPitch pt pad p k r) :
    absoluteToRelative p k pt false pad = .ok (r + shift pt pad) := by
  cases pt
  · rw [C05_tpc]
    cases pad <;> simp only [RelPitch, if_true, Bool.false_eq_true, if_false] at h <;>
      obtain ⟨rfl, h1, h2⟩ := h
    · have : relBound false false = 14 := rfl
      rw [this, if_pos ⟨h1, h2⟩]; rfl
    · have : relBound false true = 19 := rfl
      rw [this, if_pos ⟨h1, h2⟩]; rfl
  · obtain ⟨r', h1, h2, h3, h4⟩ := C05_midi p k false pad
    obtain ⟨g1, g2, g3⟩ := h
    rw [h1]
    congr 1
    simp only [shift]
    omega

theorem bind_ok {α β : Type} {x : Py α} {f : α → Py β} {b : β} (h : x.bind f = .ok b) :
    ∃ a, x = .ok a ∧ f a = .ok b := by
  cases x with
  | error e => cases h
  | ok a => exact ⟨a, rfl, h⟩

/-- The layout of a vector. -/
def layout (n t r b inv on off : Nat) (d m : ℚ) : List ℚ :=
  hot n r ++ (hot 12 t ++ (hot n b ++ (hot 4 inv ++ (hot 4 on ++ (hot 4 off ++ [d, m])))))

theorem toVec_layout {c : Chord ℚ} {rel : Option Key} {pad : Bool} {red : Reduction} {v : List ℚ}
    (hi : 0 ≤ c.inversion ∧ c.inversion < 4) (ho : 0 ≤ c.onsetLevel ∧ c.onsetLevel < 4)
    (hf : 0 ≤ c.offsetLevel ∧ c.offsetLevel < 4) (h : c.toVec rel pad red = .ok v) :
    ∃ r b : Nat, absoluteToRelative c.root (c.tonicFor rel) c.pitchType false pad = .ok (r : Int) ∧
      absoluteToRelative c.bass (c.tonicFor rel) c.pitchType false pad = .ok (b : Int) ∧
      r < relPitches c.pitchType pad ∧ b < relPitches c.pitchType pad ∧
      v = layout (relPitches c.pitchType pad) (red c.chordType).value r b c.inversion.toNat
        c.onsetLevel.toNat c.offsetLevel.toNat c.duration (if c.modeFor rel = .major then 1 else 0) := by
  simp only [Chord.toVec, Bind.bind] at h
  obtain ⟨r, hr, h⟩ := bind_ok h
  obtain ⟨p1, h1, h⟩ := bind_ok h
  obtain ⟨p2, h2, h⟩ := bind_ok h
  obtain ⟨b, hb, h⟩ := bind_ok h
  obtain ⟨p3, h3, h⟩ := bind_ok h
  obtain ⟨p4, h4, h⟩ := bind_ok h
  obtain ⟨p5, h5, h⟩ := bind_ok h
  obtain ⟨p6, h6, h⟩ := bind_ok h
  obtain ⟨r0, r1, _⟩ := abs_rel hr
  obtain ⟨b0, b1, _⟩ := abs_rel hb
  have ht : ((red c.chordType).value : Int) < (ChordType.all.length : Nat) := by
    cases red c.chordType <;> decide
  rw [oneHot_ok r0 r1] at h1
  rw [oneHot_ok (by omega) ht] at h2
  rw [oneHot_ok b0 b1] at h3
  rw [oneHot_ok hi.1 (by exact_mod_cast hi.2)] at h4
  rw [oneHot_ok ho.1 (by exact_mod_cast ho.2)] at h5
  rw [oneHot_ok hf.1 (by exact_mod_cast hf.2)] at h6
  injection h1 with h1; injection h2 with h2; injection h3 with h3
  injection h4 with h4; injection h5 with h5; injection h6 with h6
  injection h with h
  subst h1 h2 h3 h4 h5 h6
  refine ⟨r.toNat, b.toNat, by rw [hr]; congr 1; omega, by rw [hb]; congr 1; omega, by omega, by omega, ?_⟩
  rw [← h]
  simp only [layout, List.append_assoc, Int.toNat_natCast]
  rfl

theorem layout_length (n t r b inv on off : Nat) (d m : ℚ) :
    (layout n t r b inv on off d m).length = 2 * n + 26 := by
  simp only [layout, List.length_append, hot_length, List.length_cons, List.length_nil]
  omega

theorem chordVectorLength_eq (pt : PitchType) (pad : Bool) :
    chordVectorLength pt true pad = 2 * relPitches pt pad + 26 := by
  cases pt <;> cases pad <;> rfl

theorem infer_eq (pt : PitchType) (pad : Bool) :
    inferChordVectorPitchType (2 * relPitches pt pad + 26) pad = .ok pt := by
  cases pt <;> cases pad <;> decide

theorem decode_layout (pt : PitchType) (pad : Bool) (t : ChordType) (r b inv on off : Nat) (d m : ℚ)
    (p : Option PitchType) (hp : p = none ∨ p = some pt)
    (hr : r < relPitches pt pad) (hb : b < relPitches pt pad) (hi : inv < 4) (ho : on < 4) (hf : off < 4) :
    decodeChordVector (layout (relPitches pt pad) t.value r b inv on off d m) pad p =
      .ok ⟨r - shift pt pad, b - shift pt pad, if m = 1 then .major else .minor, t, inv, on, off, pt⟩ := by
  have hpt : givenOrInferred p (layout (relPitches pt pad) t.value r b inv on off d m).length pad =
      .ok pt := by
    rcases hp with rfl | rfl
    · simp only [givenOrInferred, layout_length, infer_eq]
    · rfl
  have hts : ChordType.all.length = 12 := rfl
  generalize hn : relPitches pt pad = n at *
  have w1 : whereOne (layout n t.value r b inv on off d m) = .ok (r : Int) := whereOne_hot n r hr _
  have w2 : slice (layout n t.value r b inv on off d m) n (n + 12) = hot 12 t.value :=
    slice_mid (hot n r) (hot 12 t.value) _ _ _ (hot_length _ _) (by rw [hot_length])
  have w3 : slice (layout n t.value r b inv on off d m) (n + 12) (2 * n + 12) = hot n b := by
    have := slice_mid (hot n r ++ hot 12 t.value) (hot n b)
      (hot 4 inv ++ (hot 4 on ++ (hot 4 off ++ [d, m]))) (n + 12) (2 * n + 12)
      (by rw [List.length_append, hot_length, hot_length]) (by rw [hot_length]; omega)
    rw [List.append_assoc] at this
    exact this
  have w4 : slice (layout n t.value r b inv on off d m) (2 * n + 12) (2 * n + 12 + 4) = hot 4 inv := by
    have := slice_mid (hot n r ++ (hot 12 t.value ++ hot n b)) (hot 4 inv)
      (hot 4 on ++ (hot 4 off ++ [d, m])) (2 * n + 12) (2 * n + 12 + 4)
      (by simp only [List.length_append, hot_length]; omega) (by rw [hot_length])
    simp only [List.append_assoc] at this
    exact this
  have w5 : slice (layout n t.value r b inv on off d m) (2 * n + 12 + 4) (2 * n + 12 + 8) = hot 4 on := by
    have := slice_mid (hot n r ++ (hot 12 t.value ++ (hot n b ++ hot 4 inv))) (hot 4 on)
      (hot 4 off ++ [d, m]) (2 * n + 12 + 4) (2 * n + 12 + 8)
      (by simp only [List.length_append, hot_length]; omega) (by rw [hot_length])
    simp only [List.append_assoc] at this
    exact this
  have w6 : slice (layout n t.value r b inv on off d m) (2 * n + 12 + 8) (2 * n + 12 + 12) = hot 4 off := by
    have := slice_mid (hot n r ++ (hot 12 t.value ++ (hot n b ++ (hot 4 inv ++ hot 4 on)))) (hot 4 off)
      [d, m] (2 * n + 12 + 8) (2 * n + 12 + 12)
      (by simp only [List.length_append, hot_length]; omega) (by rw [hot_length])
    simp only [List.append_assoc] at this
    exact this
  have w7 : pyGet (layout n t.value r b inv on off d m) (-1) = .ok m := by
    have hl := layout_length n t.value r b inv on off d m
    simp only [pyGet, hl]
    rw [if_neg (by omega), if_pos (by omega)]
    have : ((((2 * n + 26 : Nat) : Int) + -1).toNat) = 2 * n + 25 := by omega
    rw [this]
    have hg : (layout n t.value r b inv on off d m)[2 * n + 25]? = some m := by
      have : layout n t.value r b inv on off d m =
          (hot n r ++ (hot 12 t.value ++ (hot n b ++ (hot 4 inv ++ (hot 4 on ++ (hot 4 off ++ [d])))))) ++ [m] := by
        simp [layout]
      rw [this, List.getElem?_append_right (by simp only [List.length_append, hot_length, List.length_cons, List.length_nil]; omega)]
      simp only [List.length_append, hot_length, List.length_cons, List.length_nil]
      have : 2 * n + 25 - (n + (12 + (n + (4 + (4 + (4 + (0 + 1))))))) = 0 := by omega
      rw [this]; rfl
    rw [hg]
  simp only [decodeChordVector, Bind.bind, hpt, Except.bind, hn, hts, w1, w2, w3, w4, w5, w6, w7,
    typeOfMask_hot, whereOne_hot' n b hb, whereOne_hot' 4 inv hi, whereOne_hot' 4 on ho, whereOne_hot' 4 off hf]
  have : toAdd pt pad = -shift pt pad := by
    cases pt <;> cases pad <;> rfl
  rw [this]
  rfl

/-- C41: the vector has the announced length, and decoding it (with or without the pitch type) gives
back the relative root and bass, the chord type, the inversion, the metrical levels and the mode. -/
theorem C41_round_trip (c : Chord ℚ) (rel : Option Key) (pad : Bool) (red : Reduction) (v : List ℚ)
    (p : Option PitchType) (hp : p = none ∨ p = some c.pitchType)
    (hi : 0 ≤ c.inversion ∧ c.inversion < 4) (ho : 0 ≤ c.onsetLevel ∧ c.onsetLevel < 4)
    (hf : 0 ≤ c.offsetLevel ∧ c.offsetLevel < 4) (h : c.toVec rel pad red = .ok v) :
    v.length = specLength c.pitchType pad ∧ v.length = chordVectorLength c.pitchType true pad ∧
    ∃ d, decodeChordVector v pad p = .ok d ∧
      RelPitch c.pitchType pad c.root (c.tonicFor rel) d.root ∧
      RelPitch c.pitchType pad c.bass (c.tonicFor rel) d.bass ∧
      d.chordType = red c.chordType ∧ d.inversion = c.inversion ∧ d.onsetLevel = c.onsetLevel ∧
      d.offsetLevel = c.offsetLevel ∧ d.keyMode = c.modeFor rel ∧ d.pitchType = c.pitchType := by
  obtain ⟨r, b, hr, hb, r1, b1, rfl⟩ := toVec_layout hi ho hf h
  refine ⟨?_, ?_, _, decode_layout c.pitchType pad (red c.chordType) r b _ _ _ _ _ p hp r1 b1
    (by omega) (by omega) (by omega), ?_, ?_, rfl, ?_, ?_, ?_, ?_, rfl⟩
  · rw [layout_length]
    cases c.pitchType <;> cases pad <;> rfl
  · rw [layout_length, chordVectorLength_eq]
  · exact (abs_rel hr).2.2
  · exact (abs_rel hb).2.2
  · simp only; omega
  · simp only; omega
  · simp only; omega
  · cases c.modeFor rel <;> simp

/-- C41: the vector exists exactly if root and bass are within reach of the tonic (always for MIDI). -/
theorem C41_exists (c : Chord ℚ) (rel : Option Key) (pad : Bool) (red : Reduction)
    (hi : 0 ≤ c.inversion ∧ c.inversion < 4) (ho : 0 ≤ c.onsetLevel ∧ c.onsetLevel < 4)
    (hf : 0 ≤ c.offsetLevel ∧ c.offsetLevel < 4) :
    (∃ v, c.toVec rel pad red = .ok v) ↔
      (∃ r, RelPitch c.pitchType pad c.root (c.tonicFor rel) r) ∧
      (∃ b, RelPitch c.pitchType pad c.bass (c.tonicFor rel) b) := by
  constructor
  · rintro ⟨v, h⟩
    obtain ⟨r, b, hr, hb, _⟩ := toVec_layout hi ho hf h
    exact ⟨⟨_, (abs_rel hr).2.2⟩, ⟨_, (abs_rel hb).2.2⟩⟩
  · rintro ⟨⟨r, hr⟩, ⟨b, hb⟩⟩
    have h1 := rel_abs hr
    have h2 := rel_abs hb
    obtain ⟨r0, r1, _⟩ := abs_rel h1
    obtain ⟨b0, b1, _⟩ := abs_rel h2
    have ht : ((red c.chordType).value : Int) < (ChordType.all.length : Nat) := by
      cases red c.chordType <;> decide
    simp only [Chord.toVec, Bind.bind]
    rw [h1, h2]
    simp only [Except.bind, oneHot_ok r0 r1, oneHot_ok b0 b1,
      oneHot_ok (show (0 : Int) ≤ ((red c.chordType).value : Int) by omega) ht,
      oneHot_ok hi.1 (show c.inversion < (4 : Nat) by exact_mod_cast hi.2),
      oneHot_ok ho.1 (show c.onsetLevel < (4 : Nat) by exact_mod_cast ho.2),
      oneHot_ok hf.1 (show c.offsetLevel < (4 : Nat) by exact_mod_cast hf.2)]
    exact ⟨_, rfl⟩

/-- C41: a length belongs to at most one pitch type, which is the one inferred. -/
theorem C41_infer (n : Nat) (pad : Bool) (pt : PitchType) :
    inferChordVectorPitchType n pad = .ok pt ↔ n = specLength pt pad := by
  have h : ∀ pt', chordVectorLength pt' true pad = specLength pt' pad := by
    intro pt'; cases pt' <;> cases pad <;> rfl
  simp only [inferChordVectorPitchType, List.find?_cons, List.find?_nil, h]
  by_cases h1 : n = specLength .tpc pad
  · subst h1
    cases pad <;> cases pt <;> simp [specLength]
  · rw [beq_false_of_ne h1]
    by_cases h2 : n = specLength .midi pad
    · subst h2
      cases pad <;> cases pt <;> simp [specLength]
    · rw [beq_false_of_ne h2]
      cases pt
      · simpa using h1
      · simpa using h2

example : (⟨7, 11, 0, .minor, .majMin7, 1, 3, 2, 5 / 2, .midi⟩ : Chord ℚ).toVec none false noReduction =
    .ok (hot 12 7 ++ hot 12 5 ++ hot 12 11 ++ hot 4 1 ++ hot 4 3 ++ hot 4 2 ++ [5 / 2, 0]) := by
  decide +kernel

/-! ## C39 -/

theorem relative_root (r : Int) (pt : PitchType) (relative pad : Bool)
    (h : 0 ≤ r ∧ r < specRoots pt relative pad) :
    rootForIndex relative pad pt (specDecodedRoot pt relative pad r) = .ok r := by
  unfold rootForIndex
  cases relative
  · cases pt <;> rfl
  · rw [if_pos rfl]
    cases pt
    · rw [C05_tpc]
      cases pad
      · have h1 : relBound false false = 14 := rfl
        have h2 : specDecodedRoot .tpc true false r = r - 14 := rfl
        simp only [specRoots] at h
        rw [h1, h2, if_pos (by omega)]
        congr 1; omega
      · have h1 : relBound false true = 19 := rfl
        have h2 : specDecodedRoot .tpc true true r = r - 19 := rfl
        simp only [specRoots] at h
        rw [h1, h2, if_pos (by omega)]
        congr 1; omega
    · simp only [specRoots, specDecodedRoot, absoluteToRelative, transposePitch] at h ⊢
      congr 1
      have hN : NUM_PITCHES .midi = 12 := rfl
      rw [hN]
      omega

theorem mapM_all {α β : Type} (f : α → Py β) (l : List α) (h : ∀ a ∈ l, ∃ b, f a = .ok b) :
    ∃ bs, l.mapM f = .ok bs ∧ bs.length = l.length ∧
      ∀ (i : Nat) a b, l[i]? = some a → f a = .ok b → bs[i]? = some b := by
  induction l with
  | nil => exact ⟨[], rfl, rfl, by simp⟩
  | cons a l ih =>
    obtain ⟨b, hb⟩ := h a (by simp)
    obtain ⟨bs, h1, h2, h3⟩ := ih (fun x hx => h x (by simp [hx]))
    refine ⟨b :: bs, by simp only [List.mapM_cons, hb, h1, Bind.bind, Except.bind]; rfl, by simp [h2], ?_⟩
    intro i a' b' hi hf
    cases i with
    | zero =>
      simp only [List.getElem?_cons_zero, Option.some.injEq] at hi
      subst hi
      rw [hb] at hf
      injection hf with hf
      subst hf
      simp
    | succ i => simpa using h3 i a' b' (by simpa using hi) hf

theorem mapM_fail {α β : Type} (f : α → Py β) (e : PyErr) (l : List α)
    (h : ∀ a ∈ l, (∃ b, f a = .ok b) ∨ f a = .error e) (hx : ∃ a ∈ l, f a = .error e) :
    l.mapM f = .error e := by
  induction l with
  | nil => obtain ⟨a, ha, _⟩ := hx; cases ha
  | cons a l ih =>
    rcases h a (by simp) with ⟨b, hb⟩ | hb
    · obtain ⟨a', ha', he⟩ := hx
      rcases List.mem_cons.1 ha' with rfl | ha'
      · rw [he] at hb; cases hb
      · have := ih (fun x hx => h x (by simp [hx])) ⟨a', ha', he⟩
        simp only [List.mapM_cons, hb, this, Bind.bind, Except.bind]
    · simp only [List.mapM_cons, hb, Bind.bind, Except.bind]

/-- A chord as seen by the encoder: type, root (in the encoder's numbering) and inversion. -/
structure Label where
  type : ChordType
  root : Int
  inversion : Int

section
variable (pad : Bool) (pt : PitchType) (invPresent : Bool) (redPresent : Reduction) (relative : Bool)

/-- The index of a chord before the reduction. -/
def OldIndex (c : Label) (i : Int) : Prop :=
  chordOneHotIndex c.type c.root pt c.inversion invPresent relative pad redPresent = .ok i

/-- The result of encoding the chord, as far as it is known from its old index, with the new settings. -/
def newIndex (red : Reduction) (useInv : Bool) (c : Label) : Py Int :=
  chordOneHotIndex (redPresent c.type) c.root pt (if invPresent then c.inversion else 0) useInv relative pad red

/-- The part of the loop for one index. -/
def stepOf (red : Reduction) (useInv : Bool) (x : Int × Int × ChordType × Int) : Py (Int × Int) := do
  let root ← rootForIndex relative pad pt x.2.1
  let new ← chordOneHotIndex x.2.2.1 root pt x.2.2.2 useInv relative pad red
  .ok (x.1, new)

variable {pad pt invPresent redPresent relative}

theorem old_decode {c : Label} {i : Int} (h : OldIndex pad pt invPresent redPresent relative c i) :
    chordFromOneHotIndex i pt invPresent relative pad redPresent =
      .ok (specDecodedRoot pt relative pad c.root, redPresent c.type, if invPresent then c.inversion else 0) ∧
    ∀ (red : Reduction) (useInv : Bool),
      stepOf pad pt relative red useInv (i, specDecodedRoot pt relative pad c.root, redPresent c.type,
        if invPresent then c.inversion else 0) =
      (newIndex pad pt invPresent redPresent relative red useInv c).map (fun j => (i, j)) := by
  obtain ⟨h1, h2, h3⟩ := C01_encode_decode _ _ _ _ _ _ _ _ _ h
  have he := (C01_accepts_iff _ _ _ _ _ _ _ _).1.1 ⟨i, h⟩
  refine ⟨h3, ?_⟩
  intro red useInv
  have hr := relative_root c.root pt relative pad he.1
  simp only [stepOf, Bind.bind]
  rw [hr]
  simp only [Except.bind, newIndex]
  cases chordOneHotIndex (redPresent c.type) c.root pt (if invPresent = true then c.inversion else 0) useInv
    relative pad red <;> rfl

end

/-- C39: the reduced indices are those of the chords with the new settings, element by element, if all
of them exist; a `ValueError` is raised otherwise. -/
theorem C39_commutes (cs : List Label) (is : List Int) (pad : Bool) (pt : PitchType) (invPresent : Bool)
    (redPresent : Reduction) (relative : Bool) (red : Reduction) (useInv : Bool)
    (hlen : is.length = cs.length)
    (hold : ∀ (k : Nat) c i, cs[k]? = some c → is[k]? = some i →
      OldIndex pad pt invPresent redPresent relative c i) :
    ((∀ c ∈ cs, ∃ j, newIndex pad pt invPresent redPresent relative red useInv c = .ok j) →
      ∃ js, reduceChordOneHots is pad pt invPresent redPresent relative red useInv = .ok js ∧
        js.length = is.length ∧
        ∀ (k : Nat) c j, cs[k]? = some c → js[k]? = some j →
          newIndex pad pt invPresent redPresent relative red useInv c = .ok j) ∧
    ((∃ c ∈ cs, ¬ ∃ j, newIndex pad pt invPresent redPresent relative red useInv c = .ok j) →
      reduceChordOneHots is pad pt invPresent redPresent relative red useInv = .error .valueError) := by
  -- the chord of an index
  have hchord : ∀ i ∈ is, ∃ c ∈ cs, OldIndex pad pt invPresent redPresent relative c i := by
    intro i hi
    obtain ⟨k, hk⟩ := List.getElem?_of_mem hi
    have hk' : k < cs.length := by rw [← hlen]; exact (List.getElem?_eq_some_iff.1 hk).1
    exact ⟨cs[k], List.getElem_mem _, hold k _ i (List.getElem?_eq_getElem hk') hk⟩
  set unique := is.dedup.insertionSort (· ≤ ·) with hu
  have hmem : ∀ i, i ∈ unique ↔ i ∈ is := by
    intro i
    rw [hu, List.mem_insertionSort, List.mem_dedup]
  obtain ⟨labels, l1, l2, l3⟩ := mapM_all
    (fun i => chordFromOneHotIndex i pt invPresent relative pad redPresent) unique (by
      intro i hi
      obtain ⟨c, _, hc⟩ := hchord i ((hmem i).1 hi)
      exact ⟨_, (old_decode hc).1⟩)
  -- an entry of the loop and its chord
  have hentry : ∀ x ∈ unique.zip labels, ∃ c ∈ cs, OldIndex pad pt invPresent redPresent relative c x.1 ∧
      ∀ (red : Reduction) (useInv : Bool), stepOf pad pt relative red useInv x =
        (newIndex pad pt invPresent redPresent relative red useInv c).map (fun j => (x.1, j)) := by
    intro x hx
    obtain ⟨k, hk⟩ := List.getElem?_of_mem hx
    rw [List.getElem?_zip_eq_some] at hk
    obtain ⟨k1, k2⟩ := hk
    obtain ⟨c, hc, ho⟩ := hchord x.1 ((hmem _).1 (List.mem_of_getElem? k1))
    have hd := old_decode ho
    have := l3 k x.1 _ k1 hd.1
    rw [k2] at this
    injection this with this
    refine ⟨c, hc, ho, ?_⟩
    intro red useInv
    rw [← hd.2 red useInv, ← this]
  have hfun : reduceChordOneHots is pad pt invPresent redPresent relative red useInv =
      ((unique.zip labels).mapM (stepOf pad pt relative red useInv)).bind (fun table =>
        .ok (is.map fun i => ((table.find? fun e => e.1 == i).map (·.2)).getD 0)) := by
    simp only [reduceChordOneHots, Bind.bind, ← hu, l1, Except.bind]
    rfl
  rw [hfun]
  constructor
  · intro hall
    obtain ⟨table, t1, t2, t3⟩ := mapM_all (stepOf pad pt relative red useInv) (unique.zip labels) (by
      intro x hx
      obtain ⟨c, hc, _, hs⟩ := hentry x hx
      obtain ⟨j, hj⟩ := hall c hc
      exact ⟨(x.1, j), by rw [hs, hj]; rfl⟩)
    rw [t1]
    refine ⟨_, rfl, by simp, ?_⟩
    intro k c j hc hj
    rw [List.getElem?_map, Option.map_eq_some_iff] at hj
    obtain ⟨i, hi, hj⟩ := hj
    have ho := hold k c i hc hi
    obtain ⟨j', hj'⟩ := hall c (List.mem_of_getElem? hc)
    -- the entry of `i` in the table
    have hin : ∃ e ∈ table, e.1 = i := by
      obtain ⟨n, hn⟩ := List.getElem?_of_mem ((hmem i).2 (List.mem_of_getElem? hi))
      have hn' : n < labels.length := by rw [l2]; exact (List.getElem?_eq_some_iff.1 hn).1
      have hz : (unique.zip labels)[n]? = some (i, labels[n]) := by
        rw [List.getElem?_zip_eq_some]; exact ⟨hn, List.getElem?_eq_getElem hn'⟩
      obtain ⟨c', hc', _, hs⟩ := hentry _ (List.mem_of_getElem? hz)
      obtain ⟨q, hq⟩ := hall c' hc'
      have := t3 n _ (i, q) hz (by rw [hs, hq]; rfl)
      exact ⟨_, List.mem_of_getElem? this, rfl⟩
    obtain ⟨e, he⟩ := Option.isSome_iff_exists.1 (List.find?_isSome.2
      (show ∃ e ∈ table, (e.1 == i) = true by
        obtain ⟨e, he, hei⟩ := hin
        exact ⟨e, he, by simp [hei]⟩))
    have hei : e.1 = i := by
      have := List.find?_some he
      simpa using this
    rw [he] at hj
    simp only [Option.map_some, Option.getD_some] at hj
    -- what the entry holds
    obtain ⟨n, hn⟩ := List.getElem?_of_mem (List.mem_of_find?_eq_some he)
    have hn' : n < (unique.zip labels).length := by
      rw [← t2]; exact (List.getElem?_eq_some_iff.1 hn).1
    have hz := List.getElem?_eq_getElem hn'
    obtain ⟨c', hc', ho', hs⟩ := hentry _ (List.mem_of_getElem? hz)
    obtain ⟨q, hq⟩ := hall c' hc'
    have hq2 := t3 n _ _ hz (by rw [hs, hq]; rfl)
    rw [hn] at hq2
    injection hq2 with hq2
    rw [hq2] at hei hj
    simp only at hei hj
    rw [hei] at ho'
    -- both chords have the index `i`
    have d1 := (old_decode ho).2 red useInv
    have d1' := (old_decode ho').2 red useInv
    have e1 := (old_decode ho).1
    rw [(old_decode ho').1] at e1
    injection e1 with e1
    rw [e1, d1, hj', hq] at d1'
    simp only [Except.map, Except.ok.injEq, Prod.mk.injEq, true_and] at d1'
    rw [hj', ← hj, ← d1']
  · rintro ⟨c, hc, hno⟩
    have herr : ∀ c, (∃ j, newIndex pad pt invPresent redPresent relative red useInv c = .ok j) ∨
        newIndex pad pt invPresent redPresent relative red useInv c = .error .valueError := by
      intro c
      by_cases he : specEncodable (redPresent c.type) c.root pt (if invPresent then c.inversion else 0) useInv
        relative pad red
      · left; exact (C01_accepts_iff _ _ _ _ _ _ _ _).1.2 he
      · right; exact (C01_accepts_iff _ _ _ _ _ _ _ _).2 he
    have hbad := (herr c).resolve_left hno
    rw [mapM_fail (stepOf pad pt relative red useInv) .valueError]
    · rfl
    · intro x hx
      obtain ⟨c', _, _, hs⟩ := hentry x hx
      rw [hs]
      rcases herr c' with ⟨j, hj⟩ | hj
      · left; exact ⟨(x.1, j), by rw [hj]; rfl⟩
      · right; rw [hj]; rfl
    · obtain ⟨k, hk⟩ := List.getElem?_of_mem hc
      have hk' : k < is.length := by rw [hlen]; exact (List.getElem?_eq_some_iff.1 hk).1
      have ho := hold k c _ hk (List.getElem?_eq_getElem hk')
      obtain ⟨n, hn⟩ := List.getElem?_of_mem ((hmem is[k]).2 (List.getElem_mem _))
      have hz : (unique.zip labels)[n]? = some (is[k], specDecodedRoot pt relative pad c.root,
          redPresent c.type, if invPresent then c.inversion else 0) := by
        rw [List.getElem?_zip_eq_some]; exact ⟨hn, l3 n _ _ hn (old_decode ho).1⟩
      exact ⟨_, List.mem_of_getElem? hz, by rw [(old_decode ho).2, hbad]; rfl⟩

/-- C39: an index outside of the list of classes is an `IndexError`. -/
theorem C39_index_error (is : List Int) (pad : Bool) (pt : PitchType) (invPresent : Bool)
    (redPresent : Reduction) (relative : Bool) (red : Reduction) (useInv : Bool) (i : Int) (hi : i ∈ is)
    (h : i < -(chordOneHotLength pt relative invPresent pad redPresent) ∨
      chordOneHotLength pt relative invPresent pad redPresent ≤ i) :
    reduceChordOneHots is pad pt invPresent redPresent relative red useInv = .error .indexError := by
  have hf : ∀ j, chordFromOneHotIndex j pt invPresent relative pad redPresent = .error .indexError ∨
      ∃ b, chordFromOneHotIndex j pt invPresent relative pad redPresent = .ok b := by
    intro j
    by_cases hj : -((chordClasses pt invPresent relative pad redPresent).length : Int) ≤ j ∧
        j < (chordClasses pt invPresent relative pad redPresent).length
    · right; exact (pyGet_ok_iff _ _).2 hj
    · left; exact pyGet_error _ _ hj
  have hbad : chordFromOneHotIndex i pt invPresent relative pad redPresent = .error .indexError := by
    rw [chordOneHotLength_eq] at h
    exact pyGet_error _ _ (by omega)
  have hm : i ∈ is.dedup.insertionSort (· ≤ ·) := by
    rw [List.mem_insertionSort, List.mem_dedup]; exact hi
  simp only [reduceChordOneHots, Bind.bind]
  rw [mapM_fail (fun j => chordFromOneHotIndex j pt invPresent relative pad redPresent) .indexError _
    (fun a _ => (hf a).symm) ⟨i, hm, hbad⟩]
  rfl

/-- Third inversions cannot be kept when sevenths are reduced to triads: here that of the dominant
seventh chord. -/
theorem C39_third_inversion :
    ∃ i, OldIndex false .midi true noReduction true ⟨.majMin7, 7, 3⟩ i ∧
      reduceChordOneHots [i] false .midi true noReduction true triadReduction true = .error .valueError ∧
      ∃ j, reduceChordOneHots [i] false .midi true noReduction true triadReduction false = .ok [j] :=
  ⟨_, rfl, by decide +kernel, _, by rfl⟩

example : reduceChordOneHots [22, 5, 22] false .midi true noReduction true noReduction false =
    .ok [7, 1, 7] := by decide +kernel

end Verif.Vectors
