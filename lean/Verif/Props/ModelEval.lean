import Verif.ModelEval
import Verif.Props.Piece
import Mathlib.Tactic.Ring
import Mathlib.Tactic.FieldSimp
import Mathlib.Tactic.Linarith

/-!
# C110, C111 and C112: evaluation of the models and their targets
-/

namespace Verif.ModelEval

/-! ## Batches -/

theorem batchesAux_flatten {α : Type} (b : Nat) (hb : 0 < b) (fuel : Nat) (l : List α) (h : l.length ≤ fuel) :
    (batchesAux b fuel l).flatten = l := by
  induction fuel generalizing l with
  | zero =>
    have : l = [] := List.length_eq_zero_iff.mp (by omega)
    subst this; rfl
  | succ fuel ih =>
    cases l with
    | nil => rfl
    | cons x l =>
      rw [batchesAux, List.flatten_cons, ih _ (by simp only [List.length_drop, List.length_cons] at h ⊢; omega),
        List.take_append_drop]

theorem batchesOf_flatten {α : Type} (b : Nat) (hb : 0 < b) (l : List α) : (batchesOf b l).flatten = l :=
  batchesAux_flatten b hb _ l (Nat.le_refl _)

theorem batchesAux_ne {α : Type} (b : Nat) (hb : 0 < b) (fuel : Nat) (l : List α) :
    ∀ c ∈ batchesAux b fuel l, c ≠ [] := by
  induction fuel generalizing l with
  | zero => intro c hc; cases hc
  | succ fuel ih =>
    cases l with
    | nil => intro c hc; cases hc
    | cons x l =>
      intro c hc
      rw [batchesAux] at hc
      rcases List.mem_cons.mp hc with rfl | hc
      · obtain ⟨b, rfl⟩ := Nat.exists_eq_succ_of_ne_zero (by omega : b ≠ 0)
        simp
      · exact ih _ c hc

theorem batchesAux_len {α : Type} (b : Nat) (fuel : Nat) (l : List α) (hd : b ∣ l.length) :
    ∀ c ∈ batchesAux b fuel l, c.length = b := by
  induction fuel generalizing l with
  | zero => intro c hc; cases hc
  | succ fuel ih =>
    cases l with
    | nil => intro c hc; cases hc
    | cons x l =>
      intro c hc
      have hle : b ≤ (x :: l).length := Nat.le_of_dvd (by simp) hd
      rw [batchesAux] at hc
      rcases List.mem_cons.mp hc with rfl | hc
      · rw [List.length_take]; omega
      · refine ih _ ?_ c hc
        rw [List.length_drop]
        exact (Nat.dvd_sub hd (Nat.dvd_refl b))

theorem batchesOf_nil_iff {α : Type} (b : Nat) (l : List α) : batchesOf b l = [] ↔ l = [] := by
  cases l with
  | nil => simp [batchesOf, batchesAux]
  | cons x l => simp [batchesOf, batchesAux]

/-! ## The totals -/

/-- The number of right outputs. -/
def right (l : List EvalPosition) : Nat := (l.filter fun p => p.output = p.target).length

/-- The sum of the losses. -/
def losses (l : List EvalPosition) : ℚ := (l.map EvalPosition.loss).sum

theorem fold_weighted (fs : List (List EvalPosition)) (hne : ∀ f ∈ fs, f ≠ []) (T : Nat) (A L : ℚ) :
    (fs.map fun f => (f.length, accOf f, lossOf f)).foldl evalStep (T, some A, some L) =
      (T + fs.flatten.length, some (A + 100 * (right fs.flatten : ℚ)), some (L + losses fs.flatten)) := by
  induction fs generalizing T A L with
  | nil => simp [right, losses]
  | cons f fs ih =>
    have hf := hne f (by simp)
    have hn : (f.length : ℚ) ≠ 0 := by
      simpa [List.length_eq_zero_iff] using hf
    have hstep : evalStep (T, some A, some L) (f.length, accOf f, lossOf f) =
        (T + f.length, some (A + 100 * (right f : ℚ)), some (L + losses f)) := by
      simp only [evalStep, accOf, lossOf, if_neg hf, addWeighted, right, losses]
      rw [div_mul_cancel₀ _ hn, div_mul_cancel₀ _ hn]
    rw [List.map_cons, List.foldl_cons, hstep, ih (fun g hg => hne g (List.mem_cons_of_mem _ hg))]
    simp only [right, losses, List.flatten_cons, List.filter_append, List.length_append, List.map_append,
      List.sum_append, Nat.cast_add]
    refine Prod.ext (by simp only []; omega) (Prod.ext ?_ ?_)
    · simp only [Option.some.injEq]; ring
    · simp only [Option.some.injEq]; ring

theorem run_weighted (fs : List (List EvalPosition)) (h0 : fs ≠ []) (hne : ∀ f ∈ fs, f ≠ []) :
    runEval (fs.map fun f => (f.length, accOf f, lossOf f)) =
      .ok (some (100 * (right fs.flatten : ℚ) / (fs.flatten.length : ℚ)),
        some (losses fs.flatten / (fs.flatten.length : ℚ))) := by
  have hl : fs.flatten.length ≠ 0 := by
    cases fs with
    | nil => exact absurd rfl h0
    | cons f fs =>
      have := hne f (by simp)
      rw [← List.length_pos_iff] at this
      rw [List.flatten_cons, List.length_append]; omega
  rw [runEval, if_neg (by simpa using h0), fold_weighted fs hne]
  simp only [meanOf, if_neg hl, Option.map_some, zero_add]

theorem filter_flatten (p : EvalPosition → Bool) (bs : List (List (List EvalPosition))) :
    (bs.map fun b => b.flatten.filter p).flatten = bs.flatten.flatten.filter p := by
  induction bs with
  | nil => rfl
  | cons b bs ih => simp only [List.map_cons, List.flatten_cons, List.flatten_append, List.filter_append, ih]

theorem fold_nan (bs : List (Nat × Option ℚ × Option ℚ)) (h : ∃ b ∈ bs, b.2 = (none, none))
    (s : Nat × Option ℚ × Option ℚ) : (bs.foldl evalStep s).2 = (none, none) := by
  have keep : ∀ (bs : List (Nat × Option ℚ × Option ℚ)) s, s.2 = (none, none) →
      (bs.foldl evalStep s).2 = (none, none) := by
    intro bs
    induction bs with
    | nil => intro s hs; exact hs
    | cons b bs ih =>
      intro s hs
      refine ih _ ?_
      obtain ⟨n, x, y⟩ := s
      simp only [Prod.mk.injEq] at hs
      rw [hs.1, hs.2]
      simp only [evalStep, addWeighted]
  induction bs generalizing s with
  | nil => obtain ⟨b, hb, _⟩ := h; cases hb
  | cons b bs ih =>
    obtain ⟨c, hc, hn⟩ := h
    rcases List.mem_cons.mp hc with rfl | hc
    · refine keep bs _ ?_
      obtain ⟨n, x, y⟩ := c
      simp only [Prod.mk.injEq] at hn
      obtain ⟨m, z, w⟩ := s
      rw [hn.1, hn.2]
      simp only [evalStep, addWeighted]
    · exact ih ⟨c, hc, hn⟩ _

/-! ## C110: accuracies -/

/-- The positions of all data points that count. -/
def Counted (counted : EvalPosition → Bool) (points : List (List EvalPosition)) : List EvalPosition :=
  points.flatten.filter counted

theorem masked_ok (counted : EvalPosition → Bool) (b : Nat) (hb : 0 < b) (points : List (List EvalPosition))
    (h0 : points ≠ []) (hc : ∀ batch ∈ batchesOf b points, ∃ p ∈ batch.flatten, counted p = true) :
    evaluateMasked counted b points =
      .ok (some (100 * (right (Counted counted points) : ℚ) / ((Counted counted points).length : ℚ)),
        some (losses (Counted counted points) / ((Counted counted points).length : ℚ))) := by
  have e : (batchesOf b points).map (maskedBatch counted) =
      ((batchesOf b points).map fun b => b.flatten.filter counted).map fun f => (f.length, accOf f, lossOf f) := by
    rw [List.map_map]; rfl
  rw [evaluateMasked, e, run_weighted]
  · rw [filter_flatten, batchesOf_flatten b hb]; rfl
  · simpa [batchesOf_nil_iff] using h0
  · intro f hf
    obtain ⟨batch, hm, rfl⟩ := List.mem_map.mp hf
    obtain ⟨p, hp, hcp⟩ := hc batch hm
    exact List.ne_nil_of_mem (List.mem_filter.mpr ⟨hp, hcp⟩)

theorem masked_nan (counted : EvalPosition → Bool) (b : Nat) (points : List (List EvalPosition))
    (hc : ∃ batch ∈ batchesOf b points, ∀ p ∈ batch.flatten, counted p = false) :
    evaluateMasked counted b points = .ok (none, none) := by
  obtain ⟨batch, hm, hp⟩ := hc
  have hf : batch.flatten.filter counted = [] := by
    rw [List.filter_eq_nil_iff]
    intro p h; simp [hp p h]
  have hne : (batchesOf b points).map (maskedBatch counted) ≠ [] := by
    intro h
    rw [List.map_eq_nil_iff] at h
    rw [h] at hm; cases hm
  have := fold_nan ((batchesOf b points).map (maskedBatch counted))
    ⟨maskedBatch counted batch, List.mem_map.mpr ⟨batch, hm, rfl⟩, by simp [maskedBatch, hf, accOf, lossOf]⟩
    (0, some 0, some 0)
  rw [evaluateMasked, runEval, if_neg hne]
  simp only [this, meanOf]
  split <;> rfl

/-- C110 (partial: each batch has a position that counts): `evaluate` of the chord transition model gives the
percentage of right outputs and the mean loss of all positions with an input and a target, for every batch size. -/
theorem C110_ctm_partial (b : Nat) (hb : 0 < b) (points : List (List EvalPosition)) (h0 : points ≠ [])
    (hc : ∀ batch ∈ batchesOf b points, ∃ p ∈ batch.flatten, p.present = true ∧ p.target ≠ -100) :
    let all := points.flatten.filter fun p => p.present && p.target != -100
    evaluateCtm b points =
      .ok (some (100 * ((all.filter fun p => p.output = p.target).length : ℚ) / (all.length : ℚ)),
        some ((all.map EvalPosition.loss).sum / (all.length : ℚ))) := by
  refine masked_ok _ b hb points h0 fun batch hm => ?_
  obtain ⟨p, hp, h1, h2⟩ := hc batch hm
  exact ⟨p, hp, by simp [h1, h2]⟩

/-- C110 (partial: each batch has a position that counts): the same for the key transition model and the chord
sequence model, where all positions with a target count. -/
theorem C110_ktm_csm_partial (b : Nat) (hb : 0 < b) (points : List (List EvalPosition)) (h0 : points ≠ [])
    (hc : ∀ batch ∈ batchesOf b points, ∃ p ∈ batch.flatten, p.target ≠ -100) :
    let all := points.flatten.filter fun p => p.target != -100
    evaluateKtm b points =
      .ok (some (100 * ((all.filter fun p => p.output = p.target).length : ℚ) / (all.length : ℚ)),
        some ((all.map EvalPosition.loss).sum / (all.length : ℚ))) := by
  refine masked_ok _ b hb points h0 fun batch hm => ?_
  obtain ⟨p, hp, h1⟩ := hc batch hm
  exact ⟨p, hp, by simp [h1]⟩

/-- C110 does not hold if no position of some batch counts (for example a last batch with one piece of one chord):
accuracy and loss of the whole dataset are NaN. -/
theorem C110_empty_batch_fails (b : Nat) (points : List (List EvalPosition))
    (hc : ∃ batch ∈ batchesOf b points, ∀ p ∈ batch.flatten, p.target = -100) :
    evaluateCtm b points = .ok (none, none) ∧ evaluateKtm b points = .ok (none, none) := by
  obtain ⟨batch, hm, hp⟩ := hc
  exact ⟨masked_nan _ b points ⟨batch, hm, fun p h => by simp [hp p h]⟩,
    masked_nan _ b points ⟨batch, hm, fun p h => by simp [hp p h]⟩⟩

/-- C110 (partial: all targets in range): `evaluate` of the chord classifier gives the percentage of right outputs and
the mean loss of all data points, for every batch size. -/
theorem C110_ccm_partial (b : Nat) (hb : 0 < b) (points : List EvalPosition) (h0 : points ≠ [])
    (ht : ∀ p ∈ points, p.target ≠ -1) :
    evaluateCcm b points =
      .ok (some (100 * ((points.filter fun p => p.output = p.target).length : ℚ) / (points.length : ℚ)),
        some ((points.map EvalPosition.loss).sum / (points.length : ℚ))) := by
  have hany : (points.any fun p => p.target == -1) = false := by
    rw [List.any_eq_false]
    intro p hp; simp [ht p hp]
  rw [evaluateCcm, hany]
  simp only [Bool.false_eq_true, if_false]
  rw [run_weighted, batchesOf_flatten b hb]; rfl
  · rwa [ne_eq, batchesOf_nil_iff]
  · exact batchesAux_ne b hb _ _

/-- C110 does not hold for the chord classifier if there are transpositions out of range, which training and
validation ignore: `evaluate` raises. -/
theorem C110_ccm_fails (b : Nat) (points : List EvalPosition) (ht : ∃ p ∈ points, p.target = -1) :
    evaluateCcm b points = .error .indexError := by
  obtain ⟨p, hp, h⟩ := ht
  have hany : (points.any fun p => p.target == -1) = true := List.any_eq_true.mpr ⟨p, hp, by simp [h]⟩
  rw [evaluateCcm, hany]; rfl

theorem ksm_scaled (k c : Nat) (fs : List (List EvalPosition)) (hc : 0 < c) (hl : ∀ f ∈ fs, f.length = c) (n : Nat)
    (A L : ℚ) :
    (fs.map fun f => (k, accOf f, lossOf f)).foldl evalStep (n * k, some (A * (k / c)), some (L * (k / c))) =
      ((n + fs.length) * k, some ((A + 100 * (right fs.flatten : ℚ)) * (k / c)),
        some ((L + losses fs.flatten) * (k / c))) := by
  induction fs generalizing n A L with
  | nil => simp [right, losses]
  | cons f fs ih =>
    have hlf := hl f (by simp)
    have hf : f ≠ [] := by rintro rfl; simp at hlf; omega
    have hc' : (c : ℚ) ≠ 0 := by exact_mod_cast (by omega : c ≠ 0)
    have hstep : evalStep (n * k, some (A * (k / c)), some (L * (k / c))) (k, accOf f, lossOf f) =
        ((n + 1) * k, some ((A + 100 * (right f : ℚ)) * (k / c)), some ((L + losses f) * (k / c))) := by
      simp only [evalStep, accOf, lossOf, if_neg hf, addWeighted, right, losses, hlf]
      refine Prod.ext (by simp only []; ring) (Prod.ext ?_ ?_)
      · simp only [Option.some.injEq]; field_simp
      · simp only [Option.some.injEq]; field_simp
    rw [List.map_cons, List.foldl_cons, hstep, ih (fun g hg => hl g (List.mem_cons_of_mem _ hg))]
    simp only [right, losses, List.flatten_cons, List.filter_append, List.length_append, List.map_append,
      List.sum_append, Nat.cast_add, List.length_cons]
    refine Prod.ext (by simp only []; ring) (Prod.ext ?_ ?_)
    · simp only [Option.some.injEq]; ring
    · simp only [Option.some.injEq]; ring

theorem flatten_len {α : Type} (c : Nat) (fs : List (List α)) (hl : ∀ f ∈ fs, f.length = c) :
    fs.flatten.length = fs.length * c := by
  induction fs with
  | nil => simp
  | cons f fs ih =>
    rw [List.flatten_cons, List.length_append, hl f (by simp), ih (fun g hg => hl g (List.mem_cons_of_mem _ hg)),
      List.length_cons]
    ring

/-- C110 (partial: the batch size divides the number of data points): `evaluate` of the key sequence model gives the
percentage of right outputs and the mean loss of all data points. -/
theorem C110_ksm_partial (fields b : Nat) (hk : 0 < fields) (hb : 0 < b) (points : List EvalPosition)
    (h0 : points ≠ []) (hd : b ∣ points.length) :
    evaluateKsm fields b points =
      .ok (some (100 * ((points.filter fun p => p.output = p.target).length : ℚ) / (points.length : ℚ)),
        some ((points.map EvalPosition.loss).sum / (points.length : ℚ))) := by
  have hl := batchesAux_len b points.length points hd
  have hflat := batchesOf_flatten b hb points
  have hlen := flatten_len b (batchesOf b points) hl
  rw [hflat] at hlen
  have hbs : batchesOf b points ≠ [] := by rwa [ne_eq, batchesOf_nil_iff]
  have hpos : (batchesOf b points).length ≠ 0 := by simpa [List.length_eq_zero_iff] using hbs
  have := ksm_scaled fields b (batchesOf b points) hb hl 0 0 0
  simp only [zero_mul, zero_add, hflat] at this
  rw [evaluateKsm, runEval, if_neg (by simpa using hbs)]
  simp only [this, meanOf, if_neg (Nat.mul_ne_zero hpos (by omega : fields ≠ 0)), Option.map_some, hlen]
  have h1 : ((batchesOf b points).length : ℚ) ≠ 0 := by exact_mod_cast hpos
  have h2 : (fields : ℚ) ≠ 0 := by exact_mod_cast (by omega : fields ≠ 0)
  have h3 : (b : ℚ) ≠ 0 := by exact_mod_cast (by omega : b ≠ 0)
  simp only [Except.ok.injEq, Prod.mk.injEq, Option.some.injEq, Nat.cast_mul, right, losses]
  constructor
  · field_simp
  · field_simp

/-- Data points of which all but the last one are wrong. -/
def lastRight (b : Nat) : List EvalPosition := List.replicate b ⟨0, 1, 1, true⟩ ++ [⟨1, 1, 0, true⟩]

/-- C110 does not hold for the key sequence model: its batches count equally (by the number of fields of a batch), so
a single data point in the last batch counts as much as all others. With one right output among `b + 1` it reports
50%. -/
theorem C110_ksm_fails (fields b : Nat) (hk : 0 < fields) (hb : 1 < b) :
    evaluateKsm fields b (lastRight b) = .ok (some 50, some (1 / 2)) ∧
    (100 * (((lastRight b).filter fun p => p.output = p.target).length : ℚ) / ((lastRight b).length : ℚ)) < 50 := by
  have hlen : (lastRight b).length = b + 1 := by simp [lastRight]
  have hbat : batchesOf b (lastRight b) = [List.replicate b ⟨0, 1, 1, true⟩, [⟨1, 1, 0, true⟩]] := by
    obtain ⟨n, rfl⟩ : ∃ n, b = n + 2 := ⟨b - 2, by omega⟩
    rw [batchesOf, hlen]
    have e : lastRight (n + 2) = ⟨0, 1, 1, true⟩ :: (List.replicate (n + 1) ⟨0, 1, 1, true⟩ ++ [⟨1, 1, 0, true⟩]) := by
      rw [lastRight, List.replicate_succ]; rfl
    rw [e, batchesAux, ← e]
    have h1 : (lastRight (n + 2)).take (n + 2) = List.replicate (n + 2) ⟨0, 1, 1, true⟩ := by
      rw [lastRight, List.take_left' (by simp)]
    have h2 : (lastRight (n + 2)).drop (n + 2) = [⟨1, 1, 0, true⟩] := by
      rw [lastRight, List.drop_left' (by simp)]
    rw [h1, h2, batchesAux]
    simp [batchesAux]
  have hb0 : (b : ℚ) ≠ 0 := by exact_mod_cast (by omega : b ≠ 0)
  have hk0 : (fields : ℚ) ≠ 0 := by exact_mod_cast (by omega : fields ≠ 0)
  have hbl : (1 : ℚ) < b := by exact_mod_cast hb
  constructor
  · have hne : (List.replicate b ⟨0, 1, 1, true⟩ : List EvalPosition) ≠ [] := by
      intro h
      have := congrArg List.length h
      simp only [List.length_replicate, List.length_nil] at this
      omega
    have ha : accOf (List.replicate b ⟨0, 1, 1, true⟩) = some 0 := by
      simp [accOf, hne]
    have hlo : lossOf (List.replicate b ⟨0, 1, 1, true⟩) = some 1 := by
      simp only [lossOf, if_neg hne, List.map_replicate, List.sum_replicate, List.length_replicate, nsmul_eq_mul,
        mul_one, div_self hb0]
    have ha2 : accOf [⟨1, 1, 0, true⟩] = some 100 := by decide +kernel
    have hl2 : lossOf [⟨1, 1, 0, true⟩] = some 0 := by decide +kernel
    rw [evaluateKsm, hbat, runEval]
    simp only [List.map_cons, List.map_nil, ha, hlo, ha2, hl2, reduceCtorEq, if_false, List.foldl_cons, List.foldl_nil,
      evalStep, addWeighted, meanOf, if_neg (by omega : ¬ 0 + fields + fields = 0), Option.map_some]
    refine congrArg _ (Prod.ext ?_ ?_)
    · simp only [Option.some.injEq]; push_cast; field_simp; ring
    · simp only [Option.some.injEq]; push_cast; field_simp; ring
  · have hf : ((lastRight b).filter fun p => p.output = p.target).length = 1 := by
      simp [lastRight]
    rw [hf, hlen]
    push_cast
    rw [div_lt_iff₀ (by linarith)]
    linarith

/-- Two pieces, batches of one: masked positions do not count. -/
example : evaluateCtm 1 [[⟨1, -100, 7, true⟩, ⟨1, 1, 2, true⟩, ⟨0, 1, 3, true⟩], [⟨0, 0, 1, true⟩, ⟨1, 0, 9, false⟩]] =
    .ok (some (200 / 3), some 2) := by decide +kernel
example : evaluateKtm 1 [[⟨1, 1, 2, true⟩], [⟨0, -100, 1, true⟩]] = .ok (none, none) := by decide +kernel
example : evaluateKtm 2 [[⟨1, 1, 2, true⟩], [⟨0, -100, 1, true⟩]] = .ok (some 100, some 2) := by decide +kernel
example : evaluateKsm 5 2 (lastRight 2) = .ok (some 50, some (1 / 2)) := by decide +kernel
example : evaluateCcm 2 (lastRight 2) = .ok (some (100 / 3), some (2 / 3)) := by decide +kernel

/-! ## C111: the targets of the chord sequence model -/

theorem maskKeyChanges_get (cs : List Bool) (ts : List Int) (h : cs.length = ts.length) (i : Nat) :
    (maskKeyChanges cs ts)[i]? = ts[i]?.map fun t => if cs[i]? = some true then -100 else t := by
  induction cs generalizing ts i with
  | nil =>
    cases ts with
    | nil => simp [maskKeyChanges]
    | cons t ts => simp at h
  | cons c cs ih =>
    cases ts with
    | nil => simp at h
    | cons t ts =>
      cases i with
      | zero => cases c <;> simp [maskKeyChanges]
      | succ i => simpa [maskKeyChanges] using ih ts (by simpa using h) i

/-- C111: the target of a position is the chord at the next position. Nothing is predicted where the next chord
belongs to a new key, at the last chord of a piece and in the padding. -/
theorem C111_targets (longest length : Nat) (changes : List Bool) (targets : List Int)
    (hl : changes.length = targets.length) (h1 : longest ≤ targets.length) (h2 : length ≤ longest) :
    (csmTargets longest length changes targets).length = longest ∧
    ∀ i : Nat, i < longest → (csmTargets longest length changes targets)[i]? =
      if i + 1 < length ∧ changes[i + 1]? = some false then targets[i + 1]? else some (-100) := by
  obtain ⟨M, hM⟩ : ∃ M, M = maskKeyChanges (changes.take longest) (targets.take longest) := ⟨_, rfl⟩
  have hget : ∀ i : Nat, M[i]? = (targets.take longest)[i]?.map
      fun t => if (changes.take longest)[i]? = some true then -100 else t := by
    intro i
    rw [hM]
    exact maskKeyChanges_get _ _ (by simp [hl]) i
  have hlen : M.length = longest := by
    have b : ∀ i : Nat, M[i]? = none ↔ longest ≤ i := by
      intro i
      rw [hget, Option.map_eq_none_iff, List.getElem?_eq_none_iff, List.length_take, Nat.min_eq_left h1]
    have := (b M.length).mp (by simp)
    have := (b longest).mpr (Nat.le_refl _)
    rw [List.getElem?_eq_none_iff] at this
    omega
  rw [csmTargets, ← hM]
  cases M with
  | nil =>
    simp only [List.length_nil] at hlen
    subst hlen
    simp [maskFirst, maskFrom, rollBack]
  | cons m M =>
    simp only [List.length_cons] at hlen
    cases length with
    | zero =>
      simp only [maskFirst, maskFrom, List.take_zero, List.drop_zero, List.map_cons, List.nil_append, rollBack]
      refine ⟨by simp [hlen], fun i hi => ?_⟩
      rw [if_neg (by omega)]
      by_cases hi' : i < M.length
      · rw [List.getElem?_append_left (by simpa using hi')]; simp [hi']
      · rw [List.getElem?_append_right (by simpa using Nat.le_of_not_lt hi')]
        have : i - (M.map fun _ => (-100 : Int)).length = 0 := by simp; omega
        rw [this]; rfl
    | succ length =>
      simp only [maskFirst, maskFrom, List.take_succ_cons, List.drop_succ_cons, List.cons_append, rollBack]
      refine ⟨by simp; omega, fun i hi => ?_⟩
      have hA : (M.take length ++ (M.drop length).map fun _ => (-100 : Int)).length = M.length := by simp; omega
      by_cases hi' : i < M.length
      · rw [List.getElem?_append_left (by omega)]
        have hg := hget (i + 1)
        rw [List.getElem?_cons_succ, List.getElem?_take_of_lt (by omega), List.getElem?_take_of_lt (by omega)] at hg
        by_cases hil : i < length
        · rw [List.getElem?_append_left (by simp; omega), List.getElem?_take_of_lt hil, hg]
          have ht : i + 1 < targets.length := by omega
          have hc : i + 1 < changes.length := by omega
          rw [List.getElem?_eq_getElem ht, List.getElem?_eq_getElem hc]
          cases changes[i + 1] <;> simp [hil]
        · rw [if_neg (by omega), List.getElem?_append_right (by simp; omega), List.getElem?_map,
            List.getElem?_drop, List.getElem?_eq_getElem (by simp; omega)]
          rfl
      · rw [if_neg (by omega), List.getElem?_append_right (by omega)]
        have : i - (M.take length ++ (M.drop length).map fun _ => (-100 : Int)).length = 0 := by omega
        rw [this]; rfl

/-- Five chords with a key change at the fourth, padded to seven, in a batch with a piece of six. -/
example : csmTargets 6 5 [false, false, false, true, false, false, false] [10, 11, 12, 13, 14, 0, 0] =
    [11, 12, -100, 14, -100, -100] := by decide

/-! ## C112: the targets of the chord transition model -/

theorem setOnes_ok (n : Nat) (changes : List Int) (t : List Int) (ht : t.length = n)
    (hc : ∀ c ∈ changes, 0 ≤ c ∧ c < n) :
    ∃ t', setOnes t changes = .ok t' ∧ t'.length = n ∧
      ∀ i : Nat, i < n → t'[i]? = if (i : Int) ∈ changes then some 1 else t[i]? := by
  induction changes generalizing t with
  | nil => exact ⟨t, rfl, ht, by simp⟩
  | cons c cs ih =>
    obtain ⟨h1, h2⟩ := hc c (by simp)
    obtain ⟨t', e, hl, hg⟩ := ih (t.set c.toNat 1) (by simp [ht]) fun x hx => hc x (List.mem_cons_of_mem _ hx)
    refine ⟨t', by rw [setOnes, if_pos ⟨h1, by omega⟩, e], hl, fun i hi => ?_⟩
    rw [hg i hi]
    by_cases hm : (i : Int) ∈ cs
    · rw [if_pos hm, if_pos (List.mem_cons_of_mem _ hm)]
    · rw [if_neg hm]
      by_cases hic : (i : Int) = c
      · rw [if_pos (by simp [hic])]
        have : c.toNat = i := by omega
        rw [this, List.getElem?_set_self (by omega)]
      · rw [if_neg (by simp [hic, hm]), List.getElem?_set_ne (by omega)]

theorem setMasked_ok (t : List Int) (m : List Bool) (h : t.length = m.length) :
    ∃ t', setMasked t m = .ok t' ∧ t'.length = t.length ∧
      ∀ i : Nat, i < t.length → t'[i]? = if m[i]? = some true then some (-100) else t[i]? := by
  induction t generalizing m with
  | nil =>
    cases m with
    | nil => exact ⟨[], rfl, rfl, by simp⟩
    | cons x m => simp at h
  | cons a t ih =>
    cases m with
    | nil => simp at h
    | cons x m =>
      obtain ⟨t', e, hl, hg⟩ := ih m (by simpa using h)
      refine ⟨(if x then -100 else a) :: t', by simp [setMasked, e, Bind.bind, Except.bind], by simp [hl], ?_⟩
      intro i hi
      cases i with
      | zero => cases x <;> simp
      | succ i => simpa using hg i (by simpa using hi)

theorem rollOne_get (l : List Bool) (i : Nat) (hi : i + 1 < l.length) : (rollOne l)[i + 1]? = l[i]? := by
  rw [rollOne, List.getElem?_append_right (by simp; omega)]
  have : i + 1 - (l.drop (l.length - 1)).length = i := by simp; omega
  rw [this, List.getElem?_take_of_lt (by omega)]

/-- C112: the target of a note is 1 if the chord changes at it and 0 otherwise; the first note and notes that begin
together with the note before them are not measured. -/
theorem C112_targets (n : Nat) (hn : 0 < n) (changes : List Int) (hc : ∀ c ∈ changes, 0 ≤ c ∧ c < n)
    (cache : List ℚ) (hd : cache.length = n) :
    ∃ t, ctmTargets n changes cache = .ok t ∧ t.length = n ∧ t[0]? = some (-100) ∧
      ∀ i : Nat, i + 1 < n → t[i + 1]? =
        if cache[i]? = some 0 then some (-100) else if ((i + 1 : Nat) : Int) ∈ changes then some 1 else some 0 := by
  obtain ⟨t, e, hl, hg⟩ := setOnes_ok n changes (List.replicate n 0) (by simp) hc
  have hr : (rollOne (cache.map fun d => decide (d = 0))).length = n := by simp [rollOne]; omega
  obtain ⟨t', e', hl', hg'⟩ := setMasked_ok (t.set 0 (-100)) (rollOne (cache.map fun d => decide (d = 0)))
    (by rw [hr]; simp [hl])
  rw [List.length_set, hl] at hl' hg'
  refine ⟨t', ?_, hl', ?_, fun i hi => ?_⟩
  · rw [ctmTargets, if_neg (by omega)]
    simp only [e, Bind.bind, Except.bind]
    exact e'
  · rw [hg' 0 hn, List.getElem?_set_self (by omega)]
    split <;> rfl
  · rw [hg' (i + 1) hi, rollOne_get _ i (by simpa [hd] using hi), List.getElem?_set_ne (by omega), hg (i + 1) hi,
      List.getElem?_map, List.getElem?_eq_getElem (by omega : i < cache.length)]
    simp [hi]

/-- C112: with the duration cache of the notes at the positions `ps`: a note is measured if and only if it begins
later or earlier than the note before it. -/
theorem C112_positions {T c : List (Measure ℚ)} (h : Chain T c) (onsets : List (Int × ℚ)) (last : Int × ℚ)
    (ps : List ℚ) (pe : ℚ) (hps : List.Forall₂ (fun o p => At c o.1 o.2 p) onsets ps)
    (hpe : At c last.1 last.2 pe) (hn : onsets ≠ []) (changes : List Int)
    (hc : ∀ x ∈ changes, 0 ≤ x ∧ x < onsets.length) :
    ∃ cache t, durationCache T onsets last = .ok cache ∧ ctmTargets onsets.length changes cache = .ok t ∧
      t.length = onsets.length ∧ t[0]? = some (-100) ∧
      ∀ (i : Nat) (a b : ℚ), ps[i]? = some a → ps[i + 1]? = some b → t[i + 1]? =
        if a = b then some (-100) else if ((i + 1 : Nat) : Int) ∈ changes then some 1 else some 0 := by
  obtain ⟨cache, h1, h2, h3, _⟩ := Piece.C35_cache h onsets last ps pe hps hpe
  obtain ⟨t, h4, h5, h6, h7⟩ := C112_targets onsets.length (List.length_pos_iff.mpr hn) changes hc cache h2
  refine ⟨cache, t, h1, h4, h5, h6, fun i a b ha hb => ?_⟩
  have hlen := hps.length_eq
  have hlt : i + 1 < ps.length := (List.getElem?_eq_some_iff.mp hb).1
  have := h3 i a b (by rw [List.getElem?_append_left (by omega)]; exact ha)
    (by rw [List.getElem?_append_left hlt]; exact hb)
  rw [h7 i (by omega), this]
  by_cases hab : a = b
  · subst hab; simp
  · have hs : b - a ≠ 0 := fun hx => hab (by linarith)
    simp [hab, hs]

example : ctmTargets 5 [0, 2, 4] [1, 1, 0, 2, 0] = .ok [-100, 0, 1, -100, 1] := by decide +kernel
/-- A change at a note that begins together with the one before is not seen. -/
example : ctmTargets 3 [0, 2] [1, 0, 2] = .ok [-100, 0, -100] := by decide +kernel

end Verif.ModelEval
