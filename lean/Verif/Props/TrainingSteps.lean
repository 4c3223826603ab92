import Verif.TrainingSteps
import Verif.Props.ModelEval
import Mathlib.Data.Rat.Floor

/-!
# C135: what the steps of training and validation measure
-/

namespace Verif.TrainingSteps

open Verif.ModelEval

theorem batches_one {α : Type} (b : Nat) (l : List α) (h0 : l ≠ []) (hb : l.length ≤ b) : batchesOf b l = [l] := by
  cases l with
  | nil => exact absurd rfl h0
  | cons x l =>
    rw [batchesOf, List.length_cons, batchesAux, List.take_of_length_le hb, List.drop_of_length_le hb]
    cases l.length <;> rfl

theorem masked_step (counted : EvalPosition → Bool) (b : Nat) (batch : List (List EvalPosition))
    (hb : batch.length ≤ b) (hc : ∃ p ∈ batch.flatten, counted p = true) :
    let all := batch.flatten.filter counted
    let loss := (all.map EvalPosition.loss).sum / (all.length : ℚ)
    let acc := 100 * ((all.filter fun p => p.output = p.target).length : ℚ) / (all.length : ℚ)
    maskedTraining counted batch = some loss ∧ maskedValidation counted batch = (some loss, some acc) ∧
      evaluateMasked counted b batch = .ok (some acc, some loss) := by
  obtain ⟨p, hp, hcp⟩ := hc
  have hne : batch ≠ [] := by rintro rfl; simp at hp
  have hf : batch.flatten.filter counted ≠ [] := List.ne_nil_of_mem (List.mem_filter.mpr ⟨hp, hcp⟩)
  have hpos : 0 < batch.length := List.length_pos_iff.mpr hne
  refine ⟨by simp only [maskedTraining, lossOf, if_neg hf], by simp only [maskedValidation, lossOf, accOf, if_neg hf],
    masked_ok counted b (by omega) batch hne fun c hm => ?_⟩
  rw [batches_one b batch hne hb, List.mem_singleton] at hm
  subst hm
  exact ⟨p, hp, hcp⟩

/-- C135 (partial: some position of the batch counts): training, validation and evaluation of the chord transition model
measure the same on a batch, namely the mean over all positions with an input and a target. -/
theorem C135_ctm_partial (b : Nat) (batch : List (List EvalPosition)) (hb : batch.length ≤ b)
    (hc : ∃ p ∈ batch.flatten, p.present = true ∧ p.target ≠ -100) :
    let all := batch.flatten.filter fun p => p.present && p.target != -100
    let loss := (all.map EvalPosition.loss).sum / (all.length : ℚ)
    let acc := 100 * ((all.filter fun p => p.output = p.target).length : ℚ) / (all.length : ℚ)
    trainCtm batch = some loss ∧ validateCtm batch = (some loss, some acc) ∧
      evaluateCtm b batch = .ok (some acc, some loss) := by
  obtain ⟨p, hp, h1, h2⟩ := hc
  exact masked_step _ b batch hb ⟨p, hp, by simp [h1, h2]⟩

/-- C135 (partial: some position of the batch counts): so do those of the key transition model and of the chord
sequence model, for all positions with a target. -/
theorem C135_ktm_csm_partial (b : Nat) (batch : List (List EvalPosition)) (hb : batch.length ≤ b)
    (hc : ∃ p ∈ batch.flatten, p.target ≠ -100) :
    let all := batch.flatten.filter fun p => p.target != -100
    let loss := (all.map EvalPosition.loss).sum / (all.length : ℚ)
    let acc := 100 * ((all.filter fun p => p.output = p.target).length : ℚ) / (all.length : ℚ)
    trainKtm batch = some loss ∧ validateKtm batch = (some loss, some acc) ∧
      evaluateKtm b batch = .ok (some acc, some loss) := by
  obtain ⟨p, hp, h1⟩ := hc
  exact masked_step _ b batch hb ⟨p, hp, by simp [h1]⟩

/-- C135: so do those of the key sequence model, for all data points. -/
theorem C135_ksm (fields b : Nat) (hk : 0 < fields) (batch : List EvalPosition) (h0 : batch ≠ [])
    (hb : batch.length ≤ b) :
    let loss := (batch.map EvalPosition.loss).sum / (batch.length : ℚ)
    let acc := 100 * ((batch.filter fun p => p.output = p.target).length : ℚ) / (batch.length : ℚ)
    trainKsm batch = some loss ∧ validateKsm batch = (some loss, some acc) ∧
      evaluateKsm fields b batch = .ok (some acc, some loss) := by
  have hk' : (fields : ℚ) ≠ 0 := by exact_mod_cast (by omega : fields ≠ 0)
  refine ⟨by simp only [trainKsm, lossOf, if_neg h0], by simp only [validateKsm, lossOf, accOf, if_neg h0], ?_⟩
  simp only [evaluateKsm, batches_one b batch h0 hb, List.map_cons, List.map_nil, runEval, List.foldl_cons,
    List.foldl_nil, evalStep, accOf, lossOf, if_neg h0, addWeighted, meanOf, zero_add, Option.map_some,
    if_neg (show ¬ fields = 0 by omega), mul_div_cancel_right₀ _ hk', reduceCtorEq, if_false]

/-- C135 (partial: all targets in range): so do those of the chord classifier. -/
theorem C135_ccm_partial (b : Nat) (batch : List EvalPosition) (h0 : batch ≠ []) (hb : batch.length ≤ b)
    (ht : ∀ p ∈ batch, p.target ≠ -1) :
    let loss := (batch.map EvalPosition.loss).sum / (batch.length : ℚ)
    let acc := 100 * ((batch.filter fun p => p.output = p.target).length : ℚ) / (batch.length : ℚ)
    trainCcm batch = some loss ∧ validateCcm batch = some (some loss, some acc) ∧
      evaluateCcm b batch = .ok (some acc, some loss) := by
  have hpos : 0 < batch.length := List.length_pos_iff.mpr h0
  have hf : (batch.filter fun p => p.target != -1) = batch :=
    List.filter_eq_self.mpr fun p hp => by simpa using ht p hp
  refine ⟨by simp only [trainCcm, hf, lossOf, if_neg h0],
    by simp only [validateCcm, hf, if_pos hpos, lossOf, accOf, if_neg h0], ?_⟩
  exact C110_ccm_partial b (by omega) batch h0 ht

/-- C135 does not hold for the chord classifier with transpositions out of range: training and validation leave them
out, evaluation raises. -/
theorem C135_ccm_fails (b : Nat) (batch : List EvalPosition) (h1 : ∃ p ∈ batch, p.target = -1)
    (h2 : ∃ p ∈ batch, p.target ≠ -1) :
    let all := batch.filter fun p => p.target != -1
    let loss := (all.map EvalPosition.loss).sum / (all.length : ℚ)
    let acc := 100 * ((all.filter fun p => p.output = p.target).length : ℚ) / (all.length : ℚ)
    trainCcm batch = some loss ∧ validateCcm batch = some (some loss, some acc) ∧
      evaluateCcm b batch = .error .indexError := by
  obtain ⟨p, hp, h⟩ := h2
  have hf : (batch.filter fun p => p.target != -1) ≠ [] :=
    List.ne_nil_of_mem (List.mem_filter.mpr ⟨hp, by simpa using h⟩)
  exact ⟨by simp only [trainCcm, lossOf, if_neg hf],
    by simp only [validateCcm, if_pos (List.length_pos_iff.mpr hf), lossOf, accOf, if_neg hf], C110_ccm_fails b batch h1⟩

/-- C135 does not hold if no position of a batch counts: the loss that is minimized is NaN. Only the validation of
the chord classifier leaves out such a batch. -/
theorem C135_nothing_fails (batch : List (List EvalPosition)) (points : List EvalPosition)
    (hc : ∀ p ∈ batch.flatten, p.target = -100) (ht : ∀ p ∈ points, p.target = -1) :
    trainCtm batch = none ∧ validateCtm batch = (none, none) ∧ trainKtm batch = none ∧
      validateKtm batch = (none, none) ∧ trainCcm points = none ∧ validateCcm points = none := by
  have e1 : (batch.flatten.filter fun p => p.present && p.target != -100) = [] :=
    List.filter_eq_nil_iff.mpr fun p hp => by simp [hc p hp]
  have e2 : (batch.flatten.filter fun p => p.target != -100) = [] :=
    List.filter_eq_nil_iff.mpr fun p hp => by simp [hc p hp]
  have e3 : (points.filter fun p => p.target != -1) = [] :=
    List.filter_eq_nil_iff.mpr fun p hp => by simp [ht p hp]
  simp [trainCtm, validateCtm, trainKtm, validateKtm, trainCcm, validateCcm, maskedTraining, maskedValidation, e1, e2,
    e3, lossOf, accOf]

/-- Such a batch is that of a piece with one input, for the chord transition model. -/
theorem C135_one_chord_fails (changes : List Int) (cache : List ℚ) (t : List Int)
    (h : ctmTargets 1 changes cache = .ok t) (ps : List EvalPosition) (hp : ps.map EvalPosition.target = t) :
    trainCtm [ps] = none := by
  have ht : t = [-100] := by
    simp only [ctmTargets, Nat.one_ne_zero, if_false, Bind.bind, Except.bind] at h
    split at h
    · cases h
    · rename_i v hv
      have key : ∀ (cs : List Int) (u : List Int), u.length = 1 → ∀ w, setOnes u cs = .ok w → w.length = 1 := by
        intro cs
        induction cs with
        | nil => intro u hu w hw; cases hw; exact hu
        | cons c cs ih =>
          intro u hu w hw
          simp only [setOnes] at hw
          split at hw
          · exact ih _ (by simpa using hu) w hw
          · split at hw
            · exact ih _ (by simpa using hu) w hw
            · cases hw
      have hl := key changes _ (by simp) v hv
      obtain ⟨a, rfl⟩ := List.length_eq_one_iff.mp hl
      simp only [List.set_cons_zero] at h
      cases hm : rollOne (cache.map fun d => decide (d = 0)) with
      | nil => rw [hm] at h; cases h
      | cons m ms =>
        rw [hm] at h
        cases ms with
        | nil =>
          simp only [setMasked, Bind.bind, Except.bind, ite_self] at h
          exact (Except.ok.inj h).symm
        | cons m' ms => cases h
  subst ht
  have := (C135_nothing_fails [ps] [] (by
    intro p hp'
    rw [List.flatten_singleton] at hp'
    have : p.target ∈ ps.map EvalPosition.target := List.mem_map_of_mem hp'
    rw [hp] at this
    simpa using this) (by simp)).1
  exact this

theorem losses_weighted (f : List EvalPosition) (hf : f ≠ []) :
    (f.length : ℚ) * ((lossOf f).getD 0) = losses f ∧ (f.length : ℚ) * ((accOf f).getD 0) = 100 * (right f : ℚ) := by
  have hn : (f.length : ℚ) ≠ 0 := by simpa [List.length_eq_zero_iff] using hf
  simp only [lossOf, accOf, if_neg hf, Option.getD_some, right, losses]
  exact ⟨mul_div_cancel₀ _ hn, mul_div_cancel₀ _ hn⟩

theorem masked_epoch (counted : EvalPosition → Bool) (b : Nat) (hb : 0 < b) (points : List (List EvalPosition))
    (h0 : points ≠ []) (hc : ∀ batch ∈ batchesOf b points, ∃ p ∈ batch.flatten, counted p = true) :
    let n := fun batch : List (List EvalPosition) => ((batch.flatten.filter counted).length : ℚ)
    let total := ((batchesOf b points).map n).sum
    evaluateMasked counted b points =
      .ok (some (((batchesOf b points).map fun x => n x * (maskedValidation counted x).2.getD 0).sum / total),
        some (((batchesOf b points).map fun x => n x * (maskedValidation counted x).1.getD 0).sum / total)) := by
  rw [masked_ok counted b hb points h0 hc]
  have hsum : ∀ bs : List (List (List EvalPosition)), (∀ x ∈ bs, ∃ p ∈ x.flatten, counted p = true) →
      ((bs.map fun x => (((x.flatten.filter counted).length : ℕ) : ℚ)).sum = ((Counted counted bs.flatten).length : ℚ)) ∧
      ((bs.map fun x => ((x.flatten.filter counted).length : ℚ) * (maskedValidation counted x).2.getD 0).sum =
        100 * (right (Counted counted bs.flatten) : ℚ)) ∧
      ((bs.map fun x => ((x.flatten.filter counted).length : ℚ) * (maskedValidation counted x).1.getD 0).sum =
        losses (Counted counted bs.flatten)) := by
    intro bs
    induction bs with
    | nil => intro _; simp [Counted, right, losses]
    | cons x bs ih =>
      intro h
      obtain ⟨i1, i2, i3⟩ := ih fun y hy => h y (List.mem_cons_of_mem _ hy)
      obtain ⟨p, hp, hcp⟩ := h x (by simp)
      have hf : x.flatten.filter counted ≠ [] := List.ne_nil_of_mem (List.mem_filter.mpr ⟨hp, hcp⟩)
      obtain ⟨w1, w2⟩ := losses_weighted _ hf
      have e : Counted counted (x :: bs).flatten = x.flatten.filter counted ++ Counted counted bs.flatten := by
        simp only [Counted, List.flatten_cons, List.flatten_append, List.filter_append]
      simp only [maskedValidation] at i2 i3
      simp only [List.map_cons, List.sum_cons, i1, i2, i3, e, maskedValidation, w1, w2]
      simp only [right, losses, List.length_append, List.filter_append, List.map_append, List.sum_append, Nat.cast_add,
        true_and]
      ring_nf; exact ⟨trivial, trivial⟩
  obtain ⟨e1, e2, e3⟩ := hsum (batchesOf b points) hc
  simp only [e1, e2, e3, batchesOf_flatten b hb]

/-- C135 (partial: each batch has a position that counts): the evaluation of a dataset is the mean of what
`validation_step` logs for its batches, weighted by the number of positions that count (not by that of data points). -/
theorem C135_epoch_partial (b : Nat) (hb : 0 < b) (points : List (List EvalPosition)) (h0 : points ≠ [])
    (hc : ∀ batch ∈ batchesOf b points, ∃ p ∈ batch.flatten, p.present = true ∧ p.target ≠ -100) :
    let n := fun batch : List (List EvalPosition) =>
      ((batch.flatten.filter fun p => p.present && p.target != -100).length : ℚ)
    let total := ((batchesOf b points).map n).sum
    evaluateCtm b points =
      .ok (some (((batchesOf b points).map fun x => n x * (validateCtm x).2.getD 0).sum / total),
        some (((batchesOf b points).map fun x => n x * (validateCtm x).1.getD 0).sum / total)) :=
  masked_epoch _ b hb points h0 fun batch hm => by
    obtain ⟨p, hp, h1, h2⟩ := hc batch hm
    exact ⟨p, hp, by simp [h1, h2]⟩

/-! ## The pitch-based model -/

/-- A row as it is: the outputs are probabilities; the target marks pitches, or is to be left out. -/
structure IsRow (r : PitchRow) : Prop where
  outputs : r.output.length = 29
  targets : r.target.length = 29
  prob : ∀ o ∈ r.output, 0 ≤ o ∧ o ≤ 1
  mark : (∀ t ∈ r.target, t = 0 ∨ t = 1) ∨ ∀ t ∈ r.target, t = -100

theorem tpc_dim : pitchOutputDim = csmPitches .tpc := by decide

theorem midi_dim : pitchOutputDim ≠ csmPitches .midi := by decide

theorem flatten_length {α : Type} (n : Nat) (m : List (List α)) (h : ∀ r ∈ m, r.length = n) :
    m.flatten.length = m.length * n := by
  induction m with
  | nil => simp
  | cons r m ih =>
    rw [List.flatten_cons, List.length_append, h r (by simp), ih fun x hx => h x (List.mem_cons_of_mem _ hx),
      List.length_cons]
    ring

theorem round_prob (x : ℚ) (h0 : 0 ≤ x) (h1 : x ≤ 1) : pyRound x = if 1 / 2 < x then 1 else 0 := by
  rw [pyRound]
  rcases eq_or_lt_of_le h1 with rfl | hlt
  · have : (1 : ℚ).floor = 1 := by decide +kernel
    rw [this]; norm_num
  · have hf : x.floor = 0 := by
      have h1 : (0 : Int) ≤ x.floor := Rat.le_floor_iff.mpr (by simpa using h0)
      have h2 : x.floor < 1 := Rat.floor_lt_iff.mpr (by simpa using hlt)
      omega
    rw [hf]
    by_cases h : x < 1 / 2
    · rw [if_pos (by simpa using h), if_neg (by linarith)]
    · by_cases h' : 1 / 2 < x
      · rw [if_neg (by simpa using h), if_pos (by simpa using h'), if_pos h']; rfl
      · rw [if_neg (by simpa using h), if_neg (by simpa using h'), if_pos (by decide), if_neg h']

/-- The entries of the rows: pairs of an output and a target. -/
def entries (rows : List PitchRow) : List (ℚ × Int) := rows.flatMap fun r => r.output.zip r.target

theorem entries_length (rows : List PitchRow) (h : ∀ r ∈ rows, IsRow r) : (entries rows).length = rows.length * 29 := by
  rw [entries, List.flatMap_def, flatten_length 29, List.length_map]
  intro l hl
  obtain ⟨r, hr, rfl⟩ := List.mem_map.mp hl
  rw [List.length_zip, (h r hr).outputs, (h r hr).targets]; rfl

theorem flatten_zipWith {β : Type} (f : ℚ → Int → β) (rows : List PitchRow) :
    (rows.map fun r => r.output.zipWith f r.target).flatten = (entries rows).map fun x => f x.1 x.2 := by
  induction rows with
  | nil => rfl
  | cons r rows ih =>
    have e : entries (r :: rows) = r.output.zip r.target ++ entries rows := rfl
    rw [List.map_cons, List.flatten_cons, ih, e, List.map_append, List.zip, List.map_zipWith]

/-- The rows that are measured: those of marked pitches without the first one. -/
theorem kept_iff (rows : List PitchRow) (r : PitchRow) :
    r ∈ keptRows rows ↔ r ∈ rows ∧ r.target.head? = some 0 := by
  simp only [keptRows, List.mem_filter, keptInTraining, List.head?_eq_getElem?, decide_eq_true_eq]

/-- C135 (partial: spelled pitches, and a row that counts): training and validation of the pitch-based model measure the
same, namely the mean over all pitches of the rows whose first entry is 0; an output counts as right if it is above
1/2 just where the pitch is marked. -/
theorem C135_pitch_partial (bce : ℚ → Int → ℚ) (rows : List PitchRow) (h : ∀ r ∈ rows, IsRow r)
    (hc : ∃ r ∈ rows, r.target.head? = some 0) :
    ∃ all : List PitchRow, (∀ r, r ∈ all ↔ r ∈ rows ∧ r.target.head? = some 0) ∧ all.Sublist rows ∧
      let n := (all.length : ℚ) * 29
      let loss := ((entries all).map fun x => bce x.1 x.2).sum / n
      let acc := 100 * (((entries all).filter fun x => decide (1 / 2 < x.1 ↔ x.2 = 1)).length : ℚ) / n
      trainPitch bce .tpc rows = .ok (some loss) ∧ validatePitch bce .tpc rows = .ok (some loss, some acc) := by
  refine ⟨keptRows rows, kept_iff rows, List.filter_sublist, ?_⟩
  have hk : ∀ r ∈ keptRows rows, IsRow r := fun r hr => h r (List.mem_of_mem_filter hr)
  have hlen := entries_length _ hk
  have hpos : 0 < (keptRows rows).length := by
    obtain ⟨r, hr, h0⟩ := hc
    exact List.length_pos_iff.mpr (List.ne_nil_of_mem ((kept_iff rows r).mpr ⟨hr, h0⟩))
  have hne : ∀ {β : Type} (f : ℚ × Int → β), (entries (keptRows rows)).map f ≠ [] := by
    intro β f e
    have := congrArg List.length e
    rw [List.length_map, hlen] at this
    simp only [List.length_nil] at this
    omega
  have hn : (((keptRows rows).length : ℚ) * 29) = ((entries (keptRows rows)).length : ℚ) := by rw [hlen]; norm_num
  have hloss : meanEntries ((keptRows rows).map fun r => r.output.zipWith bce r.target) =
      some (((entries (keptRows rows)).map fun x => bce x.1 x.2).sum / (((keptRows rows).length : ℚ) * 29)) := by
    rw [meanEntries, flatten_zipWith, if_neg (hne _), List.length_map, hn]
  have hacc : pitchAcc (keptRows rows) =
      some (100 * (((entries (keptRows rows)).filter fun x => decide (1 / 2 < x.1 ↔ x.2 = 1)).length : ℚ) /
        (((keptRows rows).length : ℚ) * 29)) := by
    have e : ((keptRows rows).flatMap fun r => r.output.zipWith (fun o t => decide (pyRound o = t)) r.target) =
        (entries (keptRows rows)).map fun x => decide (1 / 2 < x.1 ↔ x.2 = 1) := by
      rw [List.flatMap_def, flatten_zipWith]
      refine List.map_congr_left fun x hx => ?_
      obtain ⟨r, hr, hx⟩ := List.mem_flatMap.mp hx
      have hrow := hk r hr
      obtain ⟨p0, p1⟩ := hrow.prob _ (List.of_mem_zip hx).1
      have ht : x.2 = 0 ∨ x.2 = 1 := by
        rcases hrow.mark with hm | hm
        · exact hm _ (List.of_mem_zip hx).2
        · have h0 := ((kept_iff rows r).mp hr).2
          have := hm 0 (List.mem_of_mem_head? h0)
          omega
      rw [round_prob _ p0 p1]
      rcases ht with ht | ht <;> by_cases hx' : 1 / 2 < x.1 <;> simp only [ht, hx', if_true, if_false] <;> decide
    simp only [pitchAcc, e, if_neg (hne _), List.length_map, List.filter_map, hn]
    rfl
  exact ⟨by simp only [trainPitch, pitchLosses, if_pos tpc_dim, Bind.bind, Except.bind, hloss],
    by simp only [validatePitch, pitchLosses, if_pos tpc_dim, Bind.bind, Except.bind, hloss, hacc]⟩

/-- C135 does not hold for the pitch-based model with MIDI pitches: it has 29 outputs for 12 pitches, and training and
validation raise on every batch. -/
theorem C135_pitch_midi_fails (bce : ℚ → Int → ℚ) (rows : List PitchRow) :
    trainPitch bce .midi rows = .error .valueError ∧ validatePitch bce .midi rows = .error .valueError := by
  simp only [trainPitch, validatePitch, pitchLosses, if_neg midi_dim, Bind.bind, Except.bind, and_self]

theorem addTensors_width (a b c : List (List ℚ)) (ha : ∀ r ∈ a, r.length = 29) (hb : ∀ r ∈ b, r.length = 29)
    (h : addTensors a b = .ok c) : ∀ r ∈ c, r.length = 29 := by
  unfold addTensors at h
  split at h
  · rename_i x
    cases h
    intro r hr
    obtain ⟨y, hy, rfl⟩ := List.mem_map.mp hr
    rw [List.length_zipWith, ha x (by simp), hb y hy]; rfl
  · rename_i y _
    cases h
    intro r hr
    obtain ⟨x, hx, rfl⟩ := List.mem_map.mp hr
    rw [List.length_zipWith, ha x hx, hb y (by simp)]; rfl
  · split at h
    · cases h
      intro r hr
      obtain ⟨i, hi, rfl⟩ := List.mem_iff_getElem.mp hr
      rw [List.getElem_zipWith, List.length_zipWith, ha _ (List.getElem_mem _), hb _ (List.getElem_mem _)]; rfl
    · cases h

theorem step_width (bce : ℚ → Int → ℚ) (pt : PitchType) (s s' : PitchTotals) (rows : List PitchRow)
    (hr : ∀ r ∈ rows, r.output.length = 29 ∧ r.target.length = 29) (hs : ∀ m, s.loss = some m → ∀ r ∈ m, r.length = 29)
    (h : pitchEvalStep bce pt s rows = .ok s') : ∀ m, s'.loss = some m → ∀ r ∈ m, r.length = 29 := by
  simp only [pitchEvalStep, pitchLosses, Bind.bind, Except.bind] at h
  split at h
  · cases h
  · rename_i m hm
    split at hm
    · cases hm
      split at h
      · cases h
      · rename_i t ht
        cases h
        have hw : ∀ r ∈ (((keptRows rows).map fun r => r.output.zipWith bce r.target).map
            fun r => r.map (· * (rows.length : ℚ))), r.length = 29 := by
          intro r h
          obtain ⟨r', h', rfl⟩ := List.mem_map.mp h
          obtain ⟨x, hx, rfl⟩ := List.mem_map.mp h'
          obtain ⟨w1, w2⟩ := hr x (List.mem_of_mem_filter hx)
          rw [List.length_map, List.length_zipWith, w1, w2]; rfl
        intro m hm
        cases hm
        cases hl : s.loss with
        | none => rw [hl] at ht; cases ht; exact hw
        | some t' => rw [hl] at ht; exact addTensors_width _ _ _ (hs t' hl) hw ht
    · cases hm

/-- C135 does not hold for the pitch-based model: `evaluate` raises on every dataset, since it does not take the mean of
the losses (for MIDI pitches it raises as training does). -/
theorem C135_pitch_evaluate_fails (bce : ℚ → Int → ℚ) (pt : PitchType) (batches : List (List PitchRow))
    (hr : ∀ rows ∈ batches, ∀ r ∈ rows, r.output.length = 29 ∧ r.target.length = 29) :
    ∃ e, evaluatePitch bce pt batches = .error e := by
  have key : ∀ (bs : List (List PitchRow)) (s : PitchTotals),
      (∀ rows ∈ bs, ∀ r ∈ rows, r.output.length = 29 ∧ r.target.length = 29) →
      (∀ m, s.loss = some m → ∀ r ∈ m, r.length = 29) →
      ∃ e, (bs.foldlM (pitchEvalStep bce pt) s >>= pitchResult) = .error e := by
    intro bs
    induction bs with
    | nil =>
      intro s _ hs
      simp only [List.foldlM_nil, Bind.bind, pure, Except.pure, Except.bind, pitchResult]
      split
      · exact ⟨_, rfl⟩
      · rename_i m hm
        have hl : (m.map fun r => r.map (· / (s.count : ℚ))).flatten.length = m.length * 29 := by
          rw [flatten_length 29, List.length_map]
          intro r h
          obtain ⟨x, hx, rfl⟩ := List.mem_map.mp h
          rw [List.length_map]; exact hs m hm x hx
        have he : tensorItem (m.map fun r => r.map (· / (s.count : ℚ))) = .error .valueError := by
          unfold tensorItem
          split
          · rename_i x hx
            rw [hx, List.length_singleton] at hl
            omega
          · rfl
        rw [he]
        exact ⟨_, rfl⟩
    | cons rows bs ih =>
      intro s hb hs
      cases h : pitchEvalStep bce pt s rows with
      | error e => exact ⟨e, by simp only [List.foldlM_cons, h, Bind.bind, Except.bind]⟩
      | ok s' =>
        obtain ⟨e, he⟩ := ih s' (fun r hr => hb r (List.mem_cons_of_mem _ hr))
          (step_width bce pt s s' rows (hb rows (by simp)) hs h)
        exact ⟨e, by simpa only [List.foldlM_cons, h, Bind.bind, Except.bind] using he⟩
  exact key batches _ hr (fun m hm => by cases hm)

/-! ## Cases -/

/-- Two sequences; the second is shorter. -/
example :
    let batch : List (List EvalPosition) :=
      [[⟨0, -100, 5, true⟩, ⟨1, 1, 1/2, true⟩, ⟨0, 1, 2, true⟩], [⟨1, 1, 1/4, true⟩, ⟨0, 0, 7, false⟩]]
    trainCtm batch = some (11 / 12) ∧ validateCtm batch = (some (11 / 12), some (200 / 3)) ∧
      evaluateCtm 2 batch = .ok (some (200 / 3), some (11 / 12)) := by decide +kernel

/-- A transposition out of range. -/
example :
    let batch : List EvalPosition := [⟨3, -1, 9, true⟩, ⟨4, 4, 1, true⟩]
    trainCcm batch = some 1 ∧ validateCcm batch = some (some 1, some 100) ∧
      evaluateCcm 2 batch = .error .indexError := by decide +kernel

/-- A row that is right at all pitches but one. -/
def demoRow : PitchRow := ⟨1 :: List.replicate 27 0 ++ [3/4], 0 :: List.replicate 27 0 ++ [1]⟩

example : IsRow demoRow := ⟨by decide, by decide, by decide +kernel, by decide +kernel⟩

example : validatePitch (fun o t => if t = 1 then 1 - o else o) .tpc [demoRow, ⟨demoRow.output, List.replicate 29 (-100)⟩] =
    .ok (some (5 / 116), some (2800 / 29)) ∧
  evaluatePitch (fun o t => if t = 1 then 1 - o else o) .tpc [[demoRow]] = .error .valueError := by decide +kernel

end Verif.TrainingSteps
