import Verif.ClassData
import Verif.Props.ChordTones
import Verif.Props.ChordIndex
import Verif.Props.Vectors
import Verif.Props.KeyDatasetRows

/-!
# C87: the pitch-based chord sequence model
-/

namespace Verif.PitchBased

open Verif.Vectors

/-- The number of relative pitches. -/
def pitches : PitchType → Nat
  | .midi => 12
  | .tpc => 29

theorem sum_zero_iff (l : List Nat) : l.sum = 0 ↔ ∀ a ∈ l, a = 0 := by
  induction l with
  | nil => simp
  | cons a l ih => simp only [List.sum_cons, Nat.add_eq_zero_iff, ih, List.forall_mem_cons]

theorem cutVector_ok {n : Nat} {v : List Nat} {row : List Int} (h : cutVector n v = .ok row) :
    row = (v.take n).map (fun (a : Nat) => (a : Int)) := by
  unfold cutVector at h
  by_cases hz : (v.drop n).sum = 0
  · rw [if_pos hz, Except.ok.injEq] at h; exact h.symm
  · rw [if_neg hz] at h; cases h

theorem pitches_eq (pt : PitchType) : csmPitches pt = pitches pt := by cases pt <;> rfl

/-- The position of a pitch, given relative to the tonic: spelled pitches start at -14. -/
def position : PitchType → Int → Int
  | .tpc, p => p + 14
  | .midi, p => p % 12

/-- The class of a chord with its root relative to the tonic. -/
def IsClass (pt : PitchType) (red : Reduction) (useInv : Bool) (t : ChordType) (r : Int) (i : Int) : Prop :=
  ∃ inv, chordFromOneHotIndex i pt useInv true false red = .ok (r, t, inv)

/-- The chord has no pitch outside of the range. -/
def Fits : PitchType → ChordType → Int → Prop
  | .tpc, t, r => ∀ f ∈ specTones .tpc t, -14 ≤ r + f ∧ r + f ≤ 14
  | .midi, _, _ => True

/-- C87: the row of a chord marks its pitches relative to the tonic and nothing else, if all of them are in
range. -/
theorem C87_row_partial (pt : PitchType) (red : Reduction) (useInv : Bool) (t : ChordType) (r i : Int)
    (hi : IsClass pt red useInv t r i) (hfit : Fits pt t r) :
    ∃ row, pitchTarget i pt red useInv = .ok row ∧ row.length = pitches pt ∧
      (∀ a ∈ row, a = 0 ∨ a = 1) ∧
      ∀ j : Nat, j < pitches pt →
        (row[j]? = some 1 ↔ ∃ f ∈ specTones pt t, (j : Int) = position pt (r + f)) := by
  obtain ⟨inv, hi⟩ := hi
  simp only [pitchTarget, Bind.bind, hi, Except.bind, pitches_eq]
  cases pt
  · obtain ⟨h1, h2⟩ := C14_vector_tpc t (r - MIN_RELATIVE_TPC)
    have hM : MIN_RELATIVE_TPC = -14 := rfl
    simp only [shiftedRoot]
    rw [hM] at h1 h2 ⊢
    generalize hv : vectorFromChordType t .tpc (some (r - -14)) = v at h1 h2 ⊢
    have hz : (v.drop 29).sum = 0 := by
      rw [sum_zero_iff]
      intro a ha
      obtain ⟨k, hk⟩ := List.getElem?_of_mem ha
      rw [List.getElem?_drop] at hk
      have hlt : 29 + k < v.length := (List.getElem?_eq_some_iff.1 hk).1
      rw [h2 _ (by omega), if_neg, Option.some.injEq] at hk
      · exact hk.symm
      · intro hmem
        have := hfit _ hmem
        omega
    have hcut : cutVector (pitches .tpc) v = .ok ((v.take 29).map (fun (n : Nat) => (n : Int))) := if_pos hz
    rw [hcut]
    refine ⟨_, rfl, by simp [pitches, h1], ?_, ?_⟩
    · intro a ha
      simp only [List.mem_map] at ha
      obtain ⟨n, hn, rfl⟩ := ha
      obtain ⟨k, hk⟩ := List.getElem?_of_mem (List.mem_of_mem_take hn)
      have hlt : k < v.length := (List.getElem?_eq_some_iff.1 hk).1
      rw [h2 _ (by omega), Option.some.injEq] at hk
      rw [← hk]
      split <;> simp
    · intro j hj
      have hj' : j < 29 := hj
      rw [List.getElem?_map, List.getElem?_take]
      rw [if_pos hj', h2 _ (by omega)]
      simp only [Option.map_some, Option.some.injEq, position]
      constructor
      · intro h
        refine ⟨(j : Int) - (r - -14), ?_, by omega⟩
        by_contra hn
        have hn' : ¬ ((j : Int) - (r - -14) ∈ fifthTones t) := hn
        rw [if_neg hn'] at h
        simp at h
      · rintro ⟨f, hf, he⟩
        have : (j : Int) - (r - -14) = f := by omega
        rw [this, if_pos (show f ∈ fifthTones t from hf)]; rfl
  · obtain ⟨h1, h2⟩ := C14_vector_midi t r
    simp only [shiftedRoot]
    generalize hv : vectorFromChordType t .midi (some r) = v at h1 h2 ⊢
    have hz : (v.drop 12).sum = 0 := by rw [List.drop_eq_nil_of_le (by omega)]; rfl
    have hcut : cutVector (pitches .midi) v = .ok ((v.take 12).map (fun (n : Nat) => (n : Int))) := if_pos hz
    rw [hcut]
    refine ⟨_, rfl, by simp [pitches, h1], ?_, ?_⟩
    · intro a ha
      simp only [List.mem_map] at ha
      obtain ⟨n, hn, rfl⟩ := ha
      obtain ⟨k, hk⟩ := List.getElem?_of_mem (List.mem_of_mem_take hn)
      have hlt : k < v.length := (List.getElem?_eq_some_iff.1 hk).1
      rw [h2 _ (by omega), Option.some.injEq] at hk
      rw [← hk]
      split <;> simp
    · intro j hj
      have hj' : j < 12 := hj
      have hr : ∀ f ∈ semitoneTones t, 0 ≤ f ∧ f < 12 := by cases t <;> decide
      rw [List.getElem?_map, List.getElem?_take]
      rw [if_pos hj', h2 _ (by omega)]
      simp only [Option.map_some, Option.some.injEq, position]
      constructor
      · intro h
        refine ⟨((j : Int) - r) % 12, ?_, by omega⟩
        by_contra hn
        have hn' : ¬ (((j : Int) - r) % 12 ∈ semitoneTones t) := hn
        rw [if_neg hn'] at h
        simp at h
      · rintro ⟨f, hf, he⟩
        have := hr f hf
        have : ((j : Int) - r) % 12 = f := by omega
        rw [this, if_pos (show f ∈ semitoneTones t from hf)]; rfl

/-- C87: a spelled chord with a pitch more than 14 fifths above the tonic (and at most 20) stops the program. -/
theorem C87_high_fails (red : Reduction) (useInv : Bool) (t : ChordType) (r i : Int)
    (hi : IsClass .tpc red useInv t r i) (f : Int) (hf : f ∈ specTones .tpc t) (h1 : 15 ≤ r + f)
    (h2 : r + f ≤ 20) : pitchTarget i .tpc red useInv = .error .valueError := by
  obtain ⟨inv, hi⟩ := hi
  obtain ⟨l1, l2⟩ := C14_vector_tpc t (r - MIN_RELATIVE_TPC)
  have hM : MIN_RELATIVE_TPC = -14 := rfl
  simp only [pitchTarget, Bind.bind, hi, Except.bind, pitches_eq, shiftedRoot]
  rw [hM] at l1 l2 ⊢
  rw [cutVector, if_neg]
  intro hz
  rw [sum_zero_iff] at hz
  have hk : ((vectorFromChordType t .tpc (some (r - -14))).drop (pitches .tpc))[(r + f - 15).toNat]? = some 1 := by
    rw [List.getElem?_drop]
    have : pitches .tpc = 29 := rfl
    rw [this, l2 _ (by omega), if_pos]
    have : (((29 + (r + f - 15).toNat : Nat) : Int)) - (r - -14) = f := by omega
    rw [this]; exact hf
  have := hz _ (List.mem_of_getElem? hk)
  omega

/-- C87: the rows of the first chord, of key changes and of the padding are left out (-100); every other row is
that of its chord. -/
theorem C87_rows (targets : List Int) (changes : List Bool) (length : Nat) (pt : PitchType) (red : Reduction)
    (useInv : Bool) (hlen : changes.length = targets.length) (rows : List (List Int))
    (h : pitchTargets targets changes length pt red useInv = .ok rows) :
    rows.length = targets.length ∧
    ∀ (j : Nat) i c, targets[j]? = some i → changes[j]? = some c →
      (j = 0 ∨ length ≤ j ∨ c = true → rows[j]? = some (List.replicate (pitches pt) (-100))) ∧
      (j ≠ 0 → j < length → c = false → ∃ row, pitchTarget i pt red useInv = .ok row ∧ rows[j]? = some row) := by
  obtain ⟨l1, l2⟩ := KeyDatasets.mapM_inv _ _ _ h
  have hz : ((List.range targets.length).zip (targets.zip changes)).length = targets.length := by simp [hlen]
  refine ⟨by rw [l1, hz], ?_⟩
  intro j i c hi hc
  have hlt : j < targets.length := (List.getElem?_eq_some_iff.1 hi).1
  have he : ((List.range targets.length).zip (targets.zip changes))[j]? = some (j, i, c) := by
    rw [List.getElem?_zip_eq_some]
    refine ⟨by rw [List.getElem?_range hlt], ?_⟩
    rw [List.getElem?_zip_eq_some]
    exact ⟨hi, hc⟩
  obtain ⟨row, r1, r2⟩ := l2 j _ he
  constructor
  · intro hcase
    rw [if_pos hcase, pitches_eq, Except.ok.injEq] at r2
    rw [r1, ← r2]
  · intro n1 n2 n3
    rw [if_neg (by
      rintro (h | h | h)
      · exact n1 h
      · exact absurd n2 (by omega)
      · rw [n3] at h; cases h)] at r2
    exact ⟨row, r2, r1⟩

/-- The sum over all pitches: `p` for the marked ones, `q` for the others. -/
def likelihood : List ℚ → List ℚ → List Int → ℚ
  | p :: ps, q :: qs, a :: row => (if a = 1 then p else q) + likelihood ps qs row
  | _, _, _ => 0

theorem prior_eq (p q : List ℚ) (v : List Nat) (hp : p.length = v.length) (hq : q.length = v.length)
    (hv : ∀ a ∈ v, a = 0 ∨ a = 1) : pitchPrior p q v = likelihood p q (v.map (fun (n : Nat) => (n : Int))) := by
  induction v generalizing p q with
  | nil =>
    cases p with
    | nil => cases q <;> simp [pitchPrior, likelihood]
    | cons => simp at hp
  | cons a v ih =>
    cases p with
    | nil => simp at hp
    | cons p ps =>
      cases q with
      | nil => simp at hq
      | cons q qs =>
        have := ih ps qs (by simpa using hp) (by simpa using hq) (fun a ha => hv a (List.mem_cons_of_mem _ ha))
        simp only [pitchPrior] at this ⊢
        simp only [List.zip_cons_cons, List.filter_cons, List.map_cons, likelihood, ← this]
        rcases hv a List.mem_cons_self with rfl | rfl
        · simp; ring
        · simp; ring

/-- C87 for MIDI pitches: the prior of a chord is the likelihood of the row that is its target. -/
theorem C87_prior_midi (red : Reduction) (useInv : Bool) (t : ChordType) (r i : Int)
    (hi : IsClass .midi red useInv t r i) (p q : List ℚ) (hp : p.length = 12) (hq : q.length = 12) :
    ∃ row v, pitchTarget i .midi red useInv = .ok row ∧ priorVector i .midi red useInv = .ok v ∧
      pitchPrior p q v = likelihood p q row := by
  have hi' := hi
  obtain ⟨row, h1, h2, h3, h4⟩ := C87_row_partial .midi red useInv t r i hi trivial
  obtain ⟨inv, hi⟩ := hi
  obtain ⟨l1, l2⟩ := C14_vector_midi t r
  have hv : priorVector i .midi red useInv = .ok ((vectorFromChordType t .midi (some r)).take 12) := by
    simp only [priorVector, Bind.bind, hi, Except.bind]; rfl
  refine ⟨row, _, h1, hv, ?_⟩
  have hrow : row = ((vectorFromChordType t .midi (some r)).take 12).map (fun (n : Nat) => (n : Int)) := by
    simp only [pitchTarget, Bind.bind, hi, Except.bind, shiftedRoot] at h1
    exact cutVector_ok h1
  rw [hrow]
  have hl : ((vectorFromChordType t .midi (some r)).take 12).length = 12 := by simp [l1]
  apply prior_eq _ _ _ (by rw [hl]; exact hp) (by rw [hl]; exact hq)
  intro a ha
  obtain ⟨k, hk⟩ := List.getElem?_of_mem (List.mem_of_mem_take ha)
  have hlt : k < _ := (List.getElem?_eq_some_iff.1 hk).1
  rw [l2 _ (by omega), Option.some.injEq] at hk
  rw [← hk]
  split <;> simp

/-- C87 fails for spelled pitches: the prior of a chord is read at the wrong pitches, 14 positions too low. It
is never read at the row that is the target of the chord. -/
theorem C87_prior_tpc_fails (red : Reduction) (useInv : Bool) (t : ChordType) (r i : Int)
    (hi : IsClass .tpc red useInv t r i) (hfit : Fits .tpc t r) :
    ∃ row v, pitchTarget i .tpc red useInv = .ok row ∧ priorVector i .tpc red useInv = .ok v ∧
      v.length = 29 ∧ (∀ j : Nat, j < 29 → (v[j]? = some 1 ↔ ∃ f ∈ specTones .tpc t, (j : Int) = r + f)) ∧
      row ≠ v.map (fun (n : Nat) => (n : Int)) := by
  obtain ⟨row, h1, h2, h3, h4⟩ := C87_row_partial .tpc red useInv t r i hi hfit
  obtain ⟨inv, hi⟩ := hi
  obtain ⟨l1, l2⟩ := C14_vector_tpc t r
  have hv : priorVector i .tpc red useInv = .ok ((vectorFromChordType t .tpc (some r)).take 29) := by
    simp only [priorVector, Bind.bind, hi, Except.bind]; rfl
  have hget : ∀ j : Nat, j < 29 → (((vectorFromChordType t .tpc (some r)).take 29)[j]? = some 1 ↔
      ∃ f ∈ specTones .tpc t, (j : Int) = r + f) := by
    intro j hj
    rw [List.getElem?_take, if_pos hj, l2 _ (by omega), Option.some.injEq]
    constructor
    · intro h
      refine ⟨(j : Int) - r, ?_, by omega⟩
      by_contra hn
      have hn' : ¬ ((j : Int) - r ∈ fifthTones t) := hn
      rw [if_neg hn'] at h
      omega
    · rintro ⟨f, hf, he⟩
      have : (j : Int) - r = f := by omega
      rw [this, if_pos (show f ∈ fifthTones t from hf)]
  refine ⟨row, _, h1, hv, by simp [l1], hget, ?_⟩
  intro he
  -- the root is marked in the row; in the vector this place is 14 above the root
  have h0 : (0 : Int) ∈ specTones .tpc t := by cases t <;> decide
  have hfr : ∀ f ∈ specTones .tpc t, f < 14 := by cases t <;> decide
  have hr := hfit 0 h0
  have hp : (pitches .tpc : Nat) = 29 := rfl
  have e1 : row[(r + 14).toNat]? = some 1 :=
    (h4 _ (by omega)).2 ⟨0, h0, by simp only [position]; omega⟩
  rw [he, List.getElem?_map] at e1
  obtain ⟨a, ha, ha'⟩ := Option.map_eq_some_iff.1 e1
  have ha1 : a = 1 := by omega
  rw [ha1] at ha
  obtain ⟨f, hf, hf'⟩ := (hget _ (by omega)).1 ha
  have := hfr f hf
  omega

/-- C87: rows of -100 are left out of the training. -/
theorem C87_left_out (pt : PitchType) : keptInTraining (List.replicate (pitches pt) (-100)) = false := by
  cases pt <;> decide

/-- C87 fails: so are the rows of chords which contain the first pitch. For MIDI pitches this is the tonic. -/
theorem C87_training_fails (pt : PitchType) (red : Reduction) (useInv : Bool) (t : ChordType) (r i : Int)
    (hi : IsClass pt red useInv t r i) (hfit : Fits pt t r) :
    ∃ row, pitchTarget i pt red useInv = .ok row ∧
      (keptInTraining row = false ↔ ∃ f ∈ specTones pt t, position pt (r + f) = 0) := by
  obtain ⟨row, h1, h2, h3, h4⟩ := C87_row_partial pt red useInv t r i hi hfit
  refine ⟨row, h1, ?_⟩
  have hpos : 0 < pitches pt := by cases pt <;> decide
  have hg : row[0]? = some row[0] := List.getElem?_eq_getElem (by omega)
  have hm := h4 0 hpos
  simp only [Nat.cast_zero] at hm
  have hc : (∃ f ∈ specTones pt t, position pt (r + f) = 0) ↔ row[0]? = some 1 := by
    rw [hm]
    constructor
    · rintro ⟨f, hf, e⟩; exact ⟨f, hf, e.symm⟩
    · rintro ⟨f, hf, e⟩; exact ⟨f, hf, e.symm⟩
  rw [hc, keptInTraining, decide_eq_false_iff_not, hg]
  rcases h3 _ (List.mem_of_getElem? hg) with h | h <;> rw [h] <;> simp

/-- The classes of I, V7 and IV in a key. -/
example : IsClass .tpc noReduction false .major 0 14 ∧ IsClass .midi noReduction false .major 0 0 :=
  ⟨⟨0, by decide +kernel⟩, ⟨0, by decide +kernel⟩⟩

example : pitchTarget 14 .tpc noReduction false =
    .ok [0, 0, 0, 0, 0, 0, 0, 0, 0, 0, 0, 0, 0, 0, 1, 1, 0, 0, 1, 0, 0, 0, 0, 0, 0, 0, 0, 0, 0] ∧
  priorVector 14 .tpc noReduction false =
    .ok [1, 1, 0, 0, 1, 0, 0, 0, 0, 0, 0, 0, 0, 0, 0, 0, 0, 0, 0, 0, 0, 0, 0, 0, 0, 0, 0, 0, 0] := by
  decide +kernel

/-- The chord of the tonic is not learned with MIDI pitches. -/
example : (pitchTarget 0 .midi noReduction false).map keptInTraining = .ok false ∧
    (pitchTarget 7 .midi noReduction false).map keptInTraining = .ok true := by decide +kernel

/-- The chord 11 fifths above the tonic has its third out of range. -/
example : IsClass .tpc noReduction false .major 11 25 ∧ pitchTarget 25 .tpc noReduction false = .error .valueError :=
  ⟨⟨0, by decide +kernel⟩, by decide +kernel⟩

/-- A diminished chord at the bottom of the range loses its third and fifth without an error. -/
example : (chordFromOneHotIndex 58 .tpc false true false noReduction = .ok (-14, .diminished, 0)) ∧
    pitchTarget 58 .tpc noReduction false = .ok (1 :: List.replicate 28 0) := by decide +kernel

end Verif.PitchBased
