import Verif.Inference
import Verif.Props.Datasets
import Verif.Props.VectorReductions

/-!
# C90: batches of states at inference
-/

namespace Verif.Inference

open Verif Verif.Datasets Verif.Vectors

/-- The batches are consecutive parts. -/
theorem loaderBatches_flatten {α : Type} (size : Nat) (hs : 0 < size) (items : List α) :
    (loaderBatches size items).flatten = items := by
  have key : ∀ fuel start, items.length ≤ start + fuel →
      ((rangeStep start items.length size fuel).map fun s => (items.drop s).take size).flatten =
        items.drop start := by
    intro fuel
    induction fuel with
    | zero =>
      intro start h
      rw [rangeStep, List.drop_eq_nil_of_le (show items.length ≤ start by omega)]
      rfl
    | succ fuel ih =>
      intro start h
      rw [rangeStep]
      by_cases hlt : start < items.length
      · rw [if_pos hlt, List.map_cons, List.flatten_cons, ih (start + size) (by omega), ← List.drop_drop,
          List.take_append_drop]
      · rw [if_neg hlt, List.drop_eq_nil_of_le (show items.length ≤ start by omega)]
        rfl
  exact key items.length 0 (by omega)

theorem flatMap_batches {α β : Type} (size : Nat) (hs : 0 < size) (items : List α)
    (g : List α → List β) (f : α → β)
    (h : ∀ b ∈ loaderBatches size items, g b = b.map f) :
    (loaderBatches size items).flatMap g = items.map f := by
  have h1 : (loaderBatches size items).flatMap g = (loaderBatches size items).flatMap (List.map f) := by
    rw [List.flatMap_def, List.flatMap_def, List.map_congr_left h]
  rw [h1, List.flatMap_def, ← List.map_flatten, loaderBatches_flatten size hs]

theorem mem_batches {α : Type} {size : Nat} {items b : List α} {x : α} (hb : b ∈ loaderBatches size items)
    (hx : x ∈ b) : x ∈ items := by
  obtain ⟨s, -, rfl⟩ := List.mem_map.mp hb
  exact List.mem_of_mem_drop (List.mem_of_mem_take hx)

theorem keyReduce_asPosition (kw : ModelKwargs) (x : List (List ℚ)) :
    keyReduce kw.asPosition x = .ok x := rfl

theorem pyGet_nat {α : Type} (l : List α) (i : Nat) (x : α) (h : l[i]? = some x) :
    pyGet l (i : Int) = .ok x := by
  have hi : i < l.length := (List.getElem?_eq_some_iff.1 h).1
  simp only [pyGet, Int.toNat_natCast, h]
  rw [if_pos (by omega)]

theorem mapM_range {β : Type} (f : Nat → Py β) (n : Nat) (g : Nat → β) (h : ∀ i < n, f i = .ok (g i)) :
    (List.range n).mapM f = .ok ((List.range n).map g) := by
  have : ∀ l : List Nat, (∀ i ∈ l, i < n) → l.mapM f = .ok (l.map g) := by
    intro l
    induction l with
    | nil => intro _; rfl
    | cons a l ih =>
      intro hl
      rw [List.mapM_cons, h a (hl a (by simp)), ih fun i hi => hl i (by simp [hi])]
      rfl
  exact this _ fun i hi => List.mem_range.mp hi

theorem range_zip_map {α β γ : Type} (l : List α) (l' : List β) (hl : l.length = l'.length) (f : α → β → γ)
    (g : Nat → γ) (h : ∀ (i : Nat) a b, l[i]? = some a → l'[i]? = some b → g i = f a b) :
    (List.range l.length).map g = List.zipWith f l l' := by
  apply List.ext_getElem?
  intro i
  by_cases hi : i < l.length
  · have h1 := List.getElem?_eq_getElem hi
    have h2 := List.getElem?_eq_getElem (show i < l'.length by omega)
    rw [List.getElem?_map, List.getElem?_range hi, List.getElem?_zipWith, h1, h2]
    simp only [Option.map_some]
    rw [h i _ _ h1 h2]
  · rw [List.getElem?_eq_none (by simpa using hi), List.getElem?_eq_none (by simp; omega)]

/-- C90: whatever the batch size and the lengths of the inputs, each state gets the output and the hidden
state of the KSM for its own rows and its own hidden state. -/
theorem C90_ksm {H O : Type} (step : Option H → List ℚ → O × H) (kw : ModelKwargs) (size : Nat)
    (hs : 0 < size) (inputs : List (List (List ℚ))) (hidden : List (Option H))
    (hl : inputs.length = hidden.length) (hne : ∀ rows ∈ inputs, rows ≠ []) :
    ksmBatched step kw size inputs hidden =
      .ok (List.zipWith (fun rows h => runNet step h rows) inputs hidden) := by
  have hitem : ∀ i < inputs.length, ∃ z : List ℚ, ksmItem kw inputs hidden i =
      .ok ((hidden[i]?).join, padTo z (maxLength (inputs.map List.length)) ((inputs[i]?).getD []),
        ((inputs[i]?).getD []).length) := by
    intro i hi
    have h1 := List.getElem?_eq_getElem hi
    have h2 := List.getElem?_eq_getElem (show i < hidden.length by omega)
    have hrow : inputs[i] ≠ [] := hne _ (List.getElem_mem hi)
    obtain ⟨first, rest, hfr⟩ := List.exists_cons_of_ne_nil hrow
    refine ⟨zeros first.length, ?_⟩
    have hp : paddedItem (zeros first.length) inputs (inputs.map List.length) i =
        .ok (padTo (zeros first.length) (maxLength (inputs.map List.length)) inputs[i], inputs[i].length) := by
      simp only [paddedItem, Bind.bind, pyGet_nat _ _ _ h1, Except.bind]
      rw [pyGet_nat (inputs.map List.length) i inputs[i].length (by rw [List.getElem?_map, h1]; rfl)]
    have hf : pyGet inputs[i] 0 = .ok first := by
      rw [hfr]; exact pyGet_nat _ 0 _ rfl
    simp only [ksmItem, Bind.bind, pyGet_nat _ _ _ h1, Except.bind, hf, hp, pyGet_nat _ _ _ h2,
      keyReduce_asPosition, h1, h2, Option.getD_some, Option.join_some]
  choose! z hz using hitem
  simp only [ksmBatched, Bind.bind]
  rw [mapM_range _ _ _ hz]
  simp only [Except.bind]
  rw [flatMap_batches size hs _ (ksmBatch step)
    (fun x => runNet step x.1 (x.2.1.take x.2.2))]
  · rw [List.map_map]
    congr 1
    apply range_zip_map _ _ hl
    intro i a b ha hb
    simp only [Function.comp, ha, hb, Option.getD_some, Option.join_some, padTo_take]
  · intro b hb
    simp only [ksmBatch]
    apply List.map_congr_left
    rintro ⟨h, x, n⟩ hx
    have hn : n ≤ maxLength (b.map (·.2.2)) := le_maxLength (List.mem_map.mpr ⟨_, hx, rfl⟩)
    have hpos : 1 ≤ n := by
      obtain ⟨i, hi, he⟩ := List.mem_map.mp (mem_batches hb hx)
      have hi := List.mem_range.mp hi
      have h1 := List.getElem?_eq_getElem hi
      injection he with _ he
      injection he with _ he
      rw [h1, Option.getD_some] at he
      rw [← he]
      exact List.length_pos_iff.mpr (hne _ (List.getElem_mem hi))
    simp only [List.take_take]
    rw [Nat.max_eq_left hpos, Nat.min_eq_left hn]

theorem oneStep {H O : Type} (step : Option H → List ℚ → O × H) (size : Nat) (hs : 0 < size)
    (inputs : List (List ℚ)) (hidden : List (Option H)) (hl : inputs.length = hidden.length)
    (item : Nat → Py (Option H × List (List ℚ)))
    (hi : ∀ (i : Nat) row h, inputs[i]? = some row → hidden[i]? = some h → item i = .ok (h, [row])) :
    ((List.range inputs.length).mapM item).bind
        (fun items => .ok ((loaderBatches size items).flatMap (oneStepBatch step))) =
      .ok (List.zipWith (fun row h => some (step h row)) inputs hidden) := by
  have hitem : ∀ i < inputs.length, item i = .ok ((hidden[i]?).join, [(inputs[i]?).getD []]) := by
    intro i hlt
    have h1 := List.getElem?_eq_getElem hlt
    have h2 := List.getElem?_eq_getElem (show i < hidden.length by omega)
    rw [hi i _ _ h1 h2, h1, h2]
    rfl
  rw [mapM_range _ _ _ hitem]
  simp only [Except.bind]
  rw [flatMap_batches size hs _ (oneStepBatch step) (fun x => runNet step x.1 (x.2.take 1)) fun b _ => rfl,
    List.map_map]
  congr 1
  apply range_zip_map _ _ hl
  intro i a b ha hb
  simp only [Function.comp, ha, hb, Option.getD_some, Option.join_some]
  rfl

/-- C90: the same for the KTM, which takes one step. -/
theorem C90_ktm {H O : Type} (step : Option H → List ℚ → O × H) (kw : ModelKwargs) (size : Nat)
    (hs : 0 < size) (inputs : List (List ℚ)) (hidden : List (Option H))
    (hl : inputs.length = hidden.length) :
    ktmBatched step kw size inputs hidden =
      .ok (List.zipWith (fun row h => some (step h row)) inputs hidden) :=
  oneStep step size hs inputs hidden hl (ktmItem kw inputs hidden) fun i row h h1 h2 => by
    simp only [ktmItem, Bind.bind, pyGet_nat _ _ _ h1, pyGet_nat _ _ _ h2, Except.bind,
      keyReduce_asPosition]

/-- C90: the same for the CSM. -/
theorem C90_csm {H O : Type} (step : Option H → List ℚ → O × H) (size : Nat)
    (hs : 0 < size) (inputs : List (List ℚ)) (hidden : List (Option H))
    (hl : inputs.length = hidden.length) :
    csmBatched step size inputs hidden =
      .ok (List.zipWith (fun row h => some (step h row)) inputs hidden) :=
  oneStep step size hs inputs hidden hl (csmItem inputs hidden) fun i row h h1 h2 => by
    simp only [csmItem, Bind.bind, pyGet_nat _ _ _ h1, pyGet_nat _ _ _ h2, Except.bind]

/-- C90: the inputs at inference are those of training for a model without a reduction and with
inversions. What is missing are other models: see `C90_reduction_fails`. -/
theorem C90_reduction_partial (x : List (List ℚ)) :
    keyReduce (ModelKwargs.asPosition ⟨none, true⟩) x = keyReduce (ModelKwargs.asKeywords ⟨none, true⟩) x := rfl

/-- C90 fails: the settings of the model are passed as the transform, so that neither its reduction nor
its setting of inversions has any effect on the inputs. -/
theorem C90_reduction_fails (kw : ModelKwargs) (x : List (List ℚ)) :
    keyReduce kw.asPosition x = .ok x ∧ kw.asPosition.reduction = none ∧
      kw.asPosition.useInversions = true := ⟨rfl, rfl, rfl⟩

/-- In training, a reduction or the removal of inversions would raise (C61) for every row of the data. -/
theorem C90_training (c : Chord ℚ) (tt : PitchType) (change : Option (Key × Key)) (row : List ℚ)
    (tensor : List (List ℚ)) (kw : ModelKwargs) (hl : Levels c)
    (h : sequenceRow c tt change true = .ok row) (hk : kw.reduction ≠ none ∨ kw.useInversions = false) :
    keyReduce kw.asKeywords (row :: tensor) = .error .valueError ∧
      keyReduce kw.asPosition (row :: tensor) = .ok (row :: tensor) := by
  refine ⟨?_, rfl⟩
  have hlen := sequenceRow_length hl h
  cases hr : kw.reduction with
  | some red =>
    simp only [keyReduce, ModelKwargs.asKeywords, hr, Bind.bind,
      (C61_inference_fails row tensor c.pitchType tt true true hlen red).1, Except.bind]
  | none =>
    have hu : kw.useInversions = false := hk.resolve_left fun hne => hne hr
    simp only [keyReduce, ModelKwargs.asKeywords, hr, hu, Bind.bind, reduceChordTypes, Except.bind,
      (C61_inference_fails row tensor c.pitchType tt true true hlen noReduction).2]
    rfl

/-- Three states with 1, 3 and 2 rows in batches of two; the network adds up its rows. -/
example : ksmBatched (fun (h : Option ℚ) r => (r.length, h.getD 0 + r.sum)) ⟨some fun _ => .major, false⟩ 2
    [[[1, 1]], [[2, 0], [3, 0], [4, 0]], [[5, 1], [6, 1]]] [none, some 100, some 7] =
    .ok [some (2, 2), some (2, 109), some (2, 20)] := by decide +kernel

end Verif.Inference
