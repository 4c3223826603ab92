import Verif.ChordTraining
import Verif.Props.KeyDatasetRows
import Verif.Props.VectorReductions
import Verif.Props.JointInit
import Verif.Props.ModelEval
import Verif.Props.Datasets
import Verif.Props.Inference

/-!
# C129: what the chord sequence model is trained on
-/

namespace Verif.ChordTraining

open Verif.Vectors Verif.KeyDatasets
open Verif.Datasets hiding bind_ok

/-- A later key begins at chord `i`. -/
def KeyStart (x : KeyedPiece) (i : Nat) : Prop := ∃ j : Nat, x.keyChanges[j + 1]? = some i

/-- Pieces as in the data: all chords have pitch type `pt`, all keys have tonic type `tt`. -/
structure Uniform (pieces : List KeyedPiece) (pt tt : PitchType) : Prop where
  valid : ∀ x ∈ pieces, KeyedPiece.Valid x
  chords : ∀ x ∈ pieces, ∀ c ∈ x.chords, c.pitchType = pt
  keys : ∀ x ∈ pieces, ∀ k ∈ x.keys, k.tonicType = tt

/-- The chord has a class with the settings of the outputs. -/
def HasClass (s : CsmSettings) (c : Chord ℚ) : Prop :=
  ∃ t, c.oneHotIndex true s.outputInv false s.outputRed = .ok t

/-- The number of inputs of the network, see `csmInputDim`. -/
def width (pt tt : PitchType) : Nat := chordVectorLength pt true false + keyChangeVectorLength tt false + 1

theorem valid_chords {x : KeyedPiece} (hx : KeyedPiece.Valid x) : x.chords ≠ [] := by
  intro h
  obtain ⟨cs, k, ks, hc, -, -⟩ := valid_cons hx
  have := hx.chords 0 (by rw [hc]; simp)
  rw [h] at this
  simp at this

theorem row_length {c : Chord ℚ} {tt : PitchType} {change : Option (Key × Key)} {pad : Bool} {row : List ℚ}
    (h : sequenceRow c tt change pad = .ok row) :
    row.length = chordVectorLength c.pitchType true pad + keyChangeVectorLength tt false + 1 := by
  simp only [sequenceRow, Bind.bind] at h
  obtain ⟨v, hv, h⟩ := bind_ok h
  have hlen := JointInit.toVec_length hv
  cases change with
  | none =>
    injection h with h
    rw [← h, List.length_append, hlen, zeros_length]; omega
  | some x =>
    obtain ⟨kv, hkv, h⟩ := bind_ok h
    split at h
    · cases h
    · rename_i hk
      injection h with h
      rw [← h, List.length_append, List.length_append, hlen, List.length_singleton]
      omega

theorem row_flag {c : Chord ℚ} {tt : PitchType} {change : Option (Key × Key)} {pad : Bool} {row : List ℚ}
    (h : sequenceRow c tt change pad = .ok row) : (row.getLast? == some 1) = change.isSome := by
  simp only [sequenceRow, Bind.bind] at h
  obtain ⟨v, hv, h⟩ := bind_ok h
  cases change with
  | none =>
    injection h with h
    have hz : (zeros (1 + keyChangeVectorLength tt false)).getLast? = some 0 := by
      rw [zeros, Nat.add_comm, List.getLast?_replicate]
      simp
    rw [← h, List.getLast?_append, hz]
    rfl
  | some x =>
    obtain ⟨kv, hkv, h⟩ := bind_ok h
    split at h
    · cases h
    · injection h with h
      rw [← h]
      simp

/-- What the dataset holds of a piece. -/
def Holds (x : KeyedPiece) (tt : PitchType) (rows : List (List ℚ)) (targets : List Int) : Prop :=
  rows.length = x.chords.length ∧ targets.length = x.chords.length ∧
  ∀ (i : Nat) c, x.chords[i]? = some c → ∃ row change t, rows[i]? = some row ∧ targets[i]? = some t ∧
    ChangeAt x.keyChanges x.keys i change ∧ sequenceRow c tt change false = .ok row ∧
    c.oneHotIndex true true false noReduction = .ok t

theorem chordPiece_inv {x : KeyedPiece} (hx : KeyedPiece.Valid x) {tt : PitchType}
    (htt : ∀ k ∈ x.keys, k.tonicType = tt) {y : List (List ℚ) × List Int} (h : chordPiece x = .ok y) :
    Holds x tt y.1 y.2 := by
  obtain ⟨cs, k, ks, hc, hk, hlen⟩ := valid_cons hx
  have hinc := hx.increasing
  have hch := hx.chords
  rw [hc] at hinc hch
  have hpw : (0 :: cs ++ [x.chords.length]).Pairwise (· < ·) := by
    rw [List.pairwise_append]
    refine ⟨hinc, by simp, ?_⟩
    intro a ha b hb
    have : b = x.chords.length := by simpa using hb
    have := hch a ha
    omega
  rw [chordPiece] at h
  obtain ⟨first, hfirst, h⟩ := bind_ok h
  obtain ⟨R, hR, h⟩ := bind_ok h
  obtain ⟨ts, hts, h⟩ := bind_ok h
  split at h
  · cases h
  injection h with h
  have hf : first = k := by
    rw [hk] at hfirst
    have h' : (.ok k : Py Key) = .ok first := hfirst
    injection h' with h'; exact h'.symm
  subst hf
  have ht : first.tonicType = tt := htt first (by rw [hk]; simp)
  subst h
  simp only [hc, hk, List.drop_succ_cons, List.drop_zero, ht] at hR
  obtain ⟨f1, f2⟩ := segments_inv x.chords tt x.chords.length (Nat.le_refl _) cs 0 none first ks R
    hlen hpw hR
  obtain ⟨t1, t2⟩ := mapM_inv _ _ _ hts
  refine ⟨by simpa using f1, t1, ?_⟩
  intro i c hic
  have hi : i < x.chords.length := (List.getElem?_eq_some_iff.1 hic).1
  obtain ⟨c', row, e1, e2, e3⟩ := f2 i (by omega) hi
  rw [hic] at e1
  injection e1 with e1
  subst e1
  obtain ⟨t, g1, g2⟩ := t2 i c hic
  refine ⟨row, _, t, by simpa using e2, g1, ?_, e3, g2⟩
  rw [hc, hk]
  exact changeIn_at cs 0 first ks i hlen hinc

theorem pitchType_eq {pieces : List KeyedPiece} {pt : PitchType} (hv : ∀ x ∈ pieces, KeyedPiece.Valid x)
    (hp : ∀ x ∈ pieces, ∀ c ∈ x.chords, c.pitchType = pt) (hne : pieces ≠ []) :
    pieces.foldl nextPitchType none = some pt := by
  have gen : ∀ (l : List KeyedPiece) (o : Option PitchType), (∀ x ∈ l, KeyedPiece.Valid x) →
      (∀ x ∈ l, ∀ c ∈ x.chords, c.pitchType = pt) → l ≠ [] ∨ o = some pt → l.foldl nextPitchType o = some pt := by
    intro l
    induction l with
    | nil => intro o _ _ h; simpa using h
    | cons x l ih =>
      intro o h1 h2 _
      rw [List.foldl_cons]
      refine ih _ (fun y hy => h1 y (by simp [hy])) (fun y hy => h2 y (by simp [hy])) (Or.inr ?_)
      rw [nextPitchType]
      cases hc : x.chords with
      | nil => exact absurd hc (valid_chords (h1 x (by simp)))
      | cons c cs => simp only; rw [h2 x (by simp) c (by rw [hc]; simp)]
  exact gen pieces none hv hp (Or.inl hne)

theorem data_inv {pieces : List KeyedPiece} {pt tt : PitchType} (hu : Uniform pieces pt tt) {d : ChordSeqData}
    (hd : chordSeqData pieces = .ok d) :
    d.inputs.length = pieces.length ∧ d.targets.length = pieces.length ∧
    (pieces ≠ [] → d.pitchType = some pt) ∧
    ∀ (p : Nat) x, pieces[p]? = some x → ∃ rows ts, d.inputs[p]? = some rows ∧ d.targets[p]? = some ts ∧
      Holds x tt rows ts := by
  rw [chordSeqData] at hd
  obtain ⟨l, hl, hd⟩ := bind_ok hd
  injection hd with hd
  subst hd
  obtain ⟨l1, l2⟩ := mapM_inv _ _ _ hl
  refine ⟨by simp [l1], by simp [l1], pitchType_eq hu.valid hu.chords, ?_⟩
  intro p x hx
  obtain ⟨y, hy, hxy⟩ := l2 p x hx
  have hm := List.mem_of_getElem? hx
  exact ⟨y.1, y.2, by simp [hy], by simp [hy], chordPiece_inv (hu.valid x hm) (hu.keys x hm) hxy⟩

/-- The chord of the padding of the targets. -/
def zeroLabel : Label := ⟨.major, 0, 0⟩

theorem zero_old (pt : PitchType) : OldIndex false pt true noReduction true zeroLabel 0 := by
  cases pt <;> (unfold OldIndex; decide +kernel)

theorem zero_new (pt : PitchType) (red : Reduction) (useInv : Bool) :
    ∃ j, newIndex false pt true noReduction true red useInv zeroLabel = .ok j := by
  refine (C01_accepts_iff _ _ _ _ _ _ _ _).1.2 ⟨?_, ?_⟩
  · cases pt <;> decide
  · intro _
    refine ⟨by decide, ?_⟩
    have : ∀ t, 0 < specInversions t := by intro t; cases t <;> decide
    exact this _

theorem class_iff {c : Chord ℚ} {i : Int} (h : c.oneHotIndex true true false noReduction = .ok i) :
    ∃ l : Label, OldIndex false c.pitchType true noReduction true l i ∧
      ∀ red useInv, newIndex false c.pitchType true noReduction true red useInv l =
        c.oneHotIndex true useInv false red := by
  rw [Chord.oneHotIndex] at h
  obtain ⟨r, hr, h⟩ := bind_ok h
  refine ⟨⟨c.chordType, r, c.inversion⟩, h, ?_⟩
  intro red useInv
  rw [Chord.oneHotIndex, hr]
  rfl

theorem maxLength_ge {α : Type} {l : List (List α)} {p : Nat} {x : List α} (h : l[p]? = some x) :
    x.length ≤ maxLength (l.map List.length) :=
  le_maxLength (List.mem_map.2 ⟨x, List.mem_of_getElem? h, rfl⟩)

/-- The reduced targets of an item. -/
theorem reduced_targets {x : KeyedPiece} {pt tt : PitchType} {rows : List (List ℚ)} {ts : List Int}
    (hp : ∀ c ∈ x.chords, c.pitchType = pt) (hh : Holds x tt rows ts) (M : Nat) (hM : ts.length ≤ M)
    (red : Reduction) (useInv : Bool) :
    ((∀ c ∈ x.chords, ∃ t, c.oneHotIndex true useInv false red = .ok t) →
      ∃ js, reduceChordOneHots (padTo 0 M ts) false pt true noReduction true red useInv = .ok js ∧
        js.length = M ∧
        ∀ (i : Nat) c, x.chords[i]? = some c → ∃ t, js[i]? = some t ∧ c.oneHotIndex true useInv false red = .ok t) ∧
    ((∃ c ∈ x.chords, ¬ ∃ t, c.oneHotIndex true useInv false red = .ok t) →
      reduceChordOneHots (padTo 0 M ts) false pt true noReduction true red useInv = .error .valueError) := by
  obtain ⟨h1, h2, h3⟩ := hh
  -- the labels
  have hlab : ∀ c ∈ x.chords, ∃ l : Label, (∀ i, c.oneHotIndex true true false noReduction = .ok i →
      OldIndex false pt true noReduction true l i) ∧
      ∀ red useInv, newIndex false pt true noReduction true red useInv l = c.oneHotIndex true useInv false red := by
    intro c hc
    obtain ⟨i, hi⟩ := List.getElem?_of_mem hc
    obtain ⟨_, _, t, _, _, _, _, ht⟩ := h3 i c hi
    obtain ⟨l, a, b⟩ := class_iff ht
    rw [hp c hc] at a b
    refine ⟨l, ?_, b⟩
    intro t' ht'
    rw [ht] at ht'
    injection ht' with ht'
    rw [← ht']; exact a
  classical
  let lab : Chord ℚ → Label := fun c => if hc : c ∈ x.chords then (hlab c hc).choose else zeroLabel
  have hl1 : ∀ c ∈ x.chords, ∀ i, c.oneHotIndex true true false noReduction = .ok i →
      OldIndex false pt true noReduction true (lab c) i := by
    intro c hc
    simp only [lab, dif_pos hc]
    exact (hlab c hc).choose_spec.1
  have hl2 : ∀ c ∈ x.chords, ∀ red useInv, newIndex false pt true noReduction true red useInv (lab c) =
      c.oneHotIndex true useInv false red := by
    intro c hc
    simp only [lab, dif_pos hc]
    exact (hlab c hc).choose_spec.2
  have hlen : (padTo 0 M ts).length = (padTo zeroLabel M (x.chords.map lab)).length := by
    rw [padTo_length _ _ _ hM, padTo_length _ _ _ (by rw [List.length_map, ← h2]; exact hM)]
  obtain ⟨g1, g2⟩ := C39_commutes (padTo zeroLabel M (x.chords.map lab)) (padTo 0 M ts) false pt true noReduction true
    red useInv hlen (by
      intro k l i hl hi
      simp only [padTo] at hl hi
      by_cases hk : k < x.chords.length
      · rw [List.getElem?_append_left (by simpa using hk)] at hl
        rw [List.getElem?_append_left (by omega)] at hi
        obtain ⟨_, _, t, _, ht, _, _, hc⟩ := h3 k x.chords[k] (List.getElem?_eq_getElem hk)
        rw [ht] at hi
        injection hi with hi
        rw [List.getElem?_map, List.getElem?_eq_getElem hk] at hl
        simp only [Option.map_some, Option.some.injEq] at hl
        rw [← hl, ← hi]
        exact hl1 _ (List.getElem_mem _) _ hc
      · rw [List.getElem?_append_right (by simp; omega)] at hl
        rw [List.getElem?_append_right (by omega)] at hi
        have e1 := List.eq_of_mem_replicate (List.mem_of_getElem? hl)
        have e2 := List.eq_of_mem_replicate (List.mem_of_getElem? hi)
        rw [e1, e2]
        exact zero_old pt)
  constructor
  · intro hall
    obtain ⟨js, j1, j2, j3⟩ := g1 (by
      intro l hl
      rw [padTo, List.mem_append] at hl
      rcases hl with hl | hl
      · obtain ⟨c, hc, rfl⟩ := List.mem_map.1 hl
        rw [hl2 c hc]; exact hall c hc
      · rw [List.eq_of_mem_replicate hl]; exact zero_new pt red useInv)
    rw [padTo_length _ _ _ hM] at j2
    refine ⟨js, j1, j2, ?_⟩
    intro i c hc
    have hi : i < x.chords.length := (List.getElem?_eq_some_iff.1 hc).1
    have hj : i < js.length := by omega
    refine ⟨js[i], List.getElem?_eq_getElem hj, ?_⟩
    rw [← hl2 c (List.mem_of_getElem? hc)]
    refine j3 i (lab c) _ ?_ (List.getElem?_eq_getElem hj)
    rw [padTo, List.getElem?_append_left (by simpa using hi), List.getElem?_map, hc]
    rfl
  · rintro ⟨c, hc, hno⟩
    refine g2 ⟨lab c, ?_, ?_⟩
    · rw [padTo, List.mem_append]
      exact Or.inl (List.mem_map.2 ⟨c, hc, rfl⟩)
    · rw [hl2 c hc]; exact hno

theorem vectorLength_spec (pt : PitchType) (pad : Bool) : chordVectorLength pt true pad = specLength pt pad := by
  cases pt <;> cases pad <;> decide

/-- The inputs of piece `x`, padded to `M` rows. -/
def Inputs (x : KeyedPiece) (pt tt : PitchType) (M : Nat) (inputs : List (List ℚ)) : Prop :=
  inputs.length = M ∧
  (∀ (i : Nat) c, x.chords[i]? = some c → ∃ row change, inputs[i]? = some row ∧
    ChangeAt x.keyChanges x.keys i change ∧ sequenceRow c tt change false = .ok row) ∧
  (∀ i : Nat, x.chords.length ≤ i → i < M → inputs[i]? = some (zeros (width pt tt)))

/-- What is read of an item. -/
theorem item_cases {pieces : List KeyedPiece} {pt tt : PitchType} (hu : Uniform pieces pt tt) {d : ChordSeqData}
    (hd : chordSeqData pieces = .ok d) (s : CsmSettings) (p : Nat) (x : KeyedPiece) (hx : pieces[p]? = some x) :
    ((s.inputRed ≠ none ∨ s.inputInv = false) → d.item s p = .error .valueError) ∧
    ((∃ c ∈ x.chords, ¬ HasClass s c) → d.item s p = .error .valueError) ∧
    (s.inputRed = none → s.inputInv = true → (∀ c ∈ x.chords, HasClass s c) →
      ∃ it, d.item s p = .ok it ∧ it.inputLength = x.chords.length ∧ it.targetLength = x.chords.length ∧
        Inputs x pt tt (maxLength (d.inputs.map List.length)) it.inputs ∧
        it.targets.length = maxLength (d.targets.map List.length) ∧
        ∀ (i : Nat) c, x.chords[i]? = some c → ∃ t, it.targets[i]? = some t ∧
          c.oneHotIndex true s.outputInv false s.outputRed = .ok t) := by
  obtain ⟨d1, d2, d3, d4⟩ := data_inv hu hd
  obtain ⟨rows, ts, hr, ht, hh⟩ := d4 p x hx
  have hm := List.mem_of_getElem? hx
  have hne : pieces ≠ [] := List.ne_nil_of_mem hm
  have hpt := d3 hne
  have hch := valid_chords (hu.valid x hm)
  obtain ⟨h1, h2, h3⟩ := id hh
  obtain ⟨c0, cs0, hcs⟩ := List.exists_cons_of_ne_nil hch
  obtain ⟨row0, ch0, t0, e1, e2, e3, e4, e5⟩ := h3 0 c0 (by rw [hcs]; rfl)
  have hw : ∀ r ∈ rows, r.length = width pt tt := by
    intro r hrm
    obtain ⟨i, hi⟩ := List.getElem?_of_mem hrm
    have hi' : i < x.chords.length := by rw [← h1]; exact (List.getElem?_eq_some_iff.1 hi).1
    obtain ⟨row, _, _, a1, _, _, a4, _⟩ := h3 i x.chords[i] (List.getElem?_eq_getElem hi')
    rw [hi] at a1
    injection a1 with a1
    rw [a1, row_length a4, hu.chords x hm _ (List.getElem_mem _)]
    rfl
  have hgx : pyGet d.inputs (p : Int) = .ok rows := Inference.pyGet_nat _ _ _ hr
  have hg0 : pyGet rows 0 = .ok row0 := Inference.pyGet_nat rows 0 row0 e1
  have hrl : row0.length = width pt tt := hw row0 (List.mem_of_getElem? e1)
  have hpi : ∀ {α : Type} (z : α) (l : List (List α)) (y : List α), l[p]? = some y →
      paddedItem z l (l.map List.length) (p : Int) = .ok (padTo z (maxLength (l.map List.length)) y, y.length) := by
    intro α z l y hy
    simp only [paddedItem, Bind.bind, Inference.pyGet_nat _ _ _ hy, Except.bind]
    rw [Inference.pyGet_nat (l.map List.length) p y.length (by simp [hy])]
  have hA := hpi (zeros (width pt tt)) d.inputs rows hr
  have hB := hpi (0 : Int) d.targets ts ht
  have hMi := maxLength_ge hr
  have hMt := maxLength_ge ht
  set M := maxLength (d.inputs.map List.length) with hMdef
  set M' := maxLength (d.targets.map List.length) with hMdef'
  have hpg : pyGet d.pitchType.toList 0 = .ok pt := by rw [hpt]; rfl
  obtain ⟨q1, q2⟩ := reduced_targets (hu.chords x hm) hh M' hMt s.outputRed s.outputInv
  have hfirst : ∃ rest, padTo (zeros (width pt tt)) M rows = row0 :: rest := by
    cases rows with
    | nil => simp at e1
    | cons a l =>
      simp only [List.getElem?_cons_zero, Option.some.injEq] at e1
      exact ⟨_, by rw [e1]; rfl⟩
  obtain ⟨rest, hrest⟩ := hfirst
  have hlen0 : row0.length = specLength pt false + keyChangeVectorLength tt false + 1 := by
    rw [hrl, width, vectorLength_spec]
  refine ⟨?_, ?_, ?_⟩
  · intro hs
    simp only [ChordSeqData.item, Bind.bind, hgx, Except.bind, hg0, hrl, hA, hB, hrest]
    cases hred : s.inputRed with
    | some red =>
      rw [(C61_inference_fails row0 rest pt tt false false hlen0 red).1]
    | none =>
      have hi : s.inputInv = false := by
        rcases hs with h | h
        · exact absurd hred h
        · exact h
      simp only [reduceChordTypes, CsmSettings.rootPosition, hi, Bool.false_eq_true, if_false]
      rw [(C61_inference_fails row0 rest pt tt false false hlen0 noReduction).2]
  · intro hs
    have q := q2 hs
    simp only [ChordSeqData.item, Bind.bind, hgx, Except.bind, hg0, hrl, hA, hB, hrest]
    cases hred : s.inputRed with
    | some red =>
      rw [(C61_inference_fails row0 rest pt tt false false hlen0 red).1]
    | none =>
      simp only [reduceChordTypes, CsmSettings.rootPosition]
      cases hi : s.inputInv with
      | false =>
        simp only [Bool.false_eq_true, if_false]
        rw [(C61_inference_fails row0 rest pt tt false false hlen0 noReduction).2]
      | true =>
        simp only [if_true, hpg, q]
  · intro hred hi hall
    obtain ⟨js, j1, j2, j3⟩ := q1 hall
    refine ⟨⟨padTo (zeros (width pt tt)) M rows, rows.length, js, ts.length⟩, ?_, h1, h2, ⟨?_, ?_, ?_⟩, j2, j3⟩
    · simp only [ChordSeqData.item, Bind.bind, hgx, Except.bind, hg0, hrl, hA, hB, hred, reduceChordTypes,
        CsmSettings.rootPosition, hi, if_true, hpg, j1]
    · exact padTo_length _ _ _ hMi
    · intro i c hc
      obtain ⟨row, change, _, a1, _, a3, a4, _⟩ := h3 i c hc
      have : i < rows.length := (List.getElem?_eq_some_iff.1 a1).1
      exact ⟨row, change, by rw [padTo, List.getElem?_append_left this]; exact a1, a3, a4⟩
    · intro i hi1 hi2
      rw [padTo, List.getElem?_append_right (by omega), List.getElem?_replicate]
      rw [if_pos (by omega)]

/-- C129: a reduction of the chords of the inputs raises `ValueError`, for every piece. -/
theorem C129_input_fails {pieces : List KeyedPiece} {pt tt : PitchType} (hu : Uniform pieces pt tt)
    {d : ChordSeqData} (hd : chordSeqData pieces = .ok d) (s : CsmSettings)
    (hs : s.inputRed ≠ none ∨ s.inputInv = false) (p : Nat) (hp : p < pieces.length) :
    d.item s p = .error .valueError :=
  (item_cases hu hd s p _ (List.getElem?_eq_getElem hp)).1 hs

/-- C129: so does a piece with a chord that has no class with the settings of the outputs. -/
theorem C129_output_fails {pieces : List KeyedPiece} {pt tt : PitchType} (hu : Uniform pieces pt tt)
    {d : ChordSeqData} (hd : chordSeqData pieces = .ok d) (s : CsmSettings) (p : Nat) (x : KeyedPiece)
    (hx : pieces[p]? = some x) (c : Chord ℚ) (hc : c ∈ x.chords) (hno : ¬ HasClass s c) :
    d.item s p = .error .valueError :=
  (item_cases hu hd s p x hx).2.1 ⟨c, hc, hno⟩

/-- What the model gets of piece `x`, for a batch whose longest piece has `L` chords. -/
structure Trained (x : KeyedPiece) (pt tt : PitchType) (s : CsmSettings) (L : Nat) (r : CsmRow) : Prop where
  length : r.length = x.chords.length
  /-- each chord with the key change at that chord, followed by zeros -/
  inputs : Inputs x pt tt L r.inputs
  /-- the width of the input of the network -/
  width : ∀ row ∈ r.inputs, row.length = chordVectorLength pt true false + keyChangeVectorLength tt false + 1
  targets : r.targets.length = L
  /-- the class of the next chord, which is an output of the network -/
  next : ∀ (i : Nat) c, x.chords[i + 1]? = some c → ¬ KeyStart x (i + 1) →
    ∃ t, r.targets[i]? = some t ∧ c.oneHotIndex true s.outputInv false s.outputRed = .ok t ∧ 0 ≤ t ∧
      t < chordOneHotLength pt true s.outputInv false s.outputRed
  /-- nothing to predict where the key changes and after the last chord -/
  ignored : ∀ i : Nat, i < L → x.chords.length ≤ i + 1 ∨ KeyStart x (i + 1) → r.targets[i]? = some (-100)

theorem oneHotIndex_bounds {c : Chord ℚ} {useInv : Bool} {red : Reduction} {t : Int}
    (h : c.oneHotIndex true useInv false red = .ok t) :
    0 ≤ t ∧ t < chordOneHotLength c.pitchType true useInv false red := by
  rw [Chord.oneHotIndex] at h
  obtain ⟨r, hr, h⟩ := bind_ok h
  obtain ⟨h1, h2, _⟩ := C01_encode_decode _ _ _ _ _ _ _ _ _ h
  exact ⟨h1, h2⟩

theorem change_flag {x : KeyedPiece} (hx : KeyedPiece.Valid x) {i : Nat} {change : Option (Key × Key)}
    (h : ChangeAt x.keyChanges x.keys i change) : change.isSome = true ↔ KeyStart x i := by
  constructor
  · intro hs
    by_contra hno
    have := h.2 fun j hj => hno ⟨j, hj⟩
    rw [this] at hs
    cases hs
  · rintro ⟨j, hj⟩
    have hlt : j + 1 < x.keys.length := by
      rw [hx.keys]; exact (List.getElem?_eq_some_iff.1 hj).1
    rw [h.1 j x.keys[j] x.keys[j + 1] hj (List.getElem?_eq_getElem (by omega)) (List.getElem?_eq_getElem hlt)]
    rfl

theorem inputs_width {x : KeyedPiece} {pt tt : PitchType} {L : Nat} {inputs : List (List ℚ)}
    (hp : ∀ c ∈ x.chords, c.pitchType = pt) (hin : Inputs x pt tt L inputs) :
    ∀ row ∈ inputs, row.length = width pt tt := by
  intro row hrow
  obtain ⟨i, hi⟩ := List.getElem?_of_mem hrow
  have hiL : i < L := by
    have := (List.getElem?_eq_some_iff.1 hi).1
    rw [hin.1] at this; exact this
  by_cases hc : i < x.chords.length
  · obtain ⟨row', change, a1, a2, a3⟩ := hin.2.1 i x.chords[i] (List.getElem?_eq_getElem hc)
    rw [hi] at a1
    injection a1 with a1
    rw [a1, row_length a3, hp _ (List.getElem_mem _)]
    rfl
  · have := hin.2.2 i (by omega) hiL
    rw [hi] at this
    injection this with this
    rw [this, zeros_length]

theorem sameWidth_of {rows : List (List ℚ)} {w : Nat} (h : ∀ r ∈ rows, r.length = w) : sameWidth rows = true := by
  rw [sameWidth, List.all_eq_true]
  intro r hr
  cases rows with
  | nil => cases hr
  | cons a l =>
    have h1 := h r hr
    have h2 := h a (by simp)
    simp [h1, h2]

theorem trained_of_item {x : KeyedPiece} {pt tt : PitchType} {s : CsmSettings} {M L : Nat} {it : CsmItem}
    (hx : KeyedPiece.Valid x) (hp : ∀ c ∈ x.chords, c.pitchType = pt)
    (h1 : it.inputLength = x.chords.length) (h2 : it.targetLength = x.chords.length)
    (h3 : Inputs x pt tt M it.inputs) (h4 : it.targets.length = M)
    (h5 : ∀ (i : Nat) c, x.chords[i]? = some c → ∃ t, it.targets[i]? = some t ∧
      c.oneHotIndex true s.outputInv false s.outputRed = .ok t)
    (hxL : x.chords.length ≤ L) (hLM : L ≤ M) :
    Trained x pt tt s L ⟨it.inputs.take L, it.inputLength,
      csmTargets L it.targetLength (changeFlags it.inputs) it.targets⟩ := by
  obtain ⟨i1, i2, i3⟩ := h3
  have hin : Inputs x pt tt L (it.inputs.take L) := by
    refine ⟨by rw [List.length_take, i1, Nat.min_eq_left hLM], ?_, ?_⟩
    · intro i c hc
      obtain ⟨row, change, a1, a2, a3⟩ := i2 i c hc
      have : i < x.chords.length := (List.getElem?_eq_some_iff.1 hc).1
      exact ⟨row, change, by rw [List.getElem?_take, if_pos (by omega)]; exact a1, a2, a3⟩
    · intro i hi hiL
      rw [List.getElem?_take, if_pos hiL]
      exact i3 i hi (by omega)
  obtain ⟨t1, t2⟩ := ModelEval.C111_targets L it.targetLength (changeFlags it.inputs) it.targets
    (by rw [changeFlags, List.length_map, i1, h4]) (by omega) (by omega)
  have hflag : ∀ (i : Nat) c, x.chords[i]? = some c →
      ((changeFlags it.inputs)[i]? = some false ↔ ¬ KeyStart x i) := by
    intro i c hc
    obtain ⟨row, change, a1, a2, a3⟩ := i2 i c hc
    rw [changeFlags, List.getElem?_map, a1, Option.map_some, row_flag a3, ← change_flag hx a2]
    cases change <;> simp
  refine ⟨h1, hin, inputs_width hp hin, t1, ?_, ?_⟩
  · intro i c hc hno
    have hi : i + 1 < x.chords.length := (List.getElem?_eq_some_iff.1 hc).1
    obtain ⟨t, b1, b2⟩ := h5 (i + 1) c hc
    have hb := oneHotIndex_bounds b2
    rw [hp c (List.mem_of_getElem? hc)] at hb
    refine ⟨t, ?_, b2, hb⟩
    simp only
    rw [t2 i (by omega), if_pos ⟨by omega, (hflag (i + 1) c hc).2 hno⟩]
    exact b1
  · intro i hiL hor
    simp only
    rw [t2 i hiL, if_neg]
    rintro ⟨c1, c2⟩
    rcases hor with h | h
    · omega
    · have hi : i + 1 < x.chords.length := by omega
      exact (hflag (i + 1) _ (List.getElem?_eq_getElem hi)).1 c2 h

/-- The longest of the pieces with numbers `is` has `L` chords. -/
def LongestOf (pieces : List KeyedPiece) (is : List Nat) (L : Nat) : Prop :=
  (∀ p ∈ is, ∀ x, pieces[p]? = some x → x.chords.length ≤ L) ∧
  ∃ p ∈ is, ∃ x, pieces[p]? = some x ∧ x.chords.length = L

theorem width_of_sameWidth {rows : List (List ℚ)} (h : sameWidth rows = true) {r r' : List ℚ} (hr : r ∈ rows)
    (hr' : r' ∈ rows) : r.length = r'.length := by
  rw [sameWidth, List.all_eq_true] at h
  have h1 := eq_of_beq (h r hr)
  have h2 := eq_of_beq (h r' hr')
  exact Option.some_injective _ (h1.trans h2.symm)

/-- C129: whatever the pieces are, also with different pitch types, a batch that is given to the model has rows of one
width only. -/
theorem C129_widths (d : ChordSeqData) (s : CsmSettings) (is : List Nat) (out : List CsmRow)
    (h : d.batch s is = .ok out) : ∀ r ∈ out, ∀ r' ∈ out, ∀ row ∈ r.inputs, ∀ row' ∈ r'.inputs,
      row.length = row'.length := by
  obtain ⟨items, _, h⟩ := bind_ok h
  rw [csmBatch] at h
  split at h
  · cases h
  · rename_i hc
    rw [Bool.or_eq_true, not_or, Bool.not_eq_true', Bool.not_eq_false] at hc
    injection h with h
    subst h
    intro r hr r' hr' row hrow row' hrow'
    obtain ⟨it, hit, rfl⟩ := List.mem_map.1 hr
    obtain ⟨it', hit', rfl⟩ := List.mem_map.1 hr'
    exact width_of_sameWidth hc.2 (List.mem_flatMap.2 ⟨it, hit, List.mem_of_mem_take hrow⟩)
      (List.mem_flatMap.2 ⟨it', hit', List.mem_of_mem_take hrow'⟩)

/-- C129: a batch which can be read holds, for each of its pieces, its chords and key changes, and as targets the
classes of the next chords. It can be read if there are no reductions of the inputs and if all chords have a class. -/
theorem C129_batch {pieces : List KeyedPiece} {pt tt : PitchType} (hu : Uniform pieces pt tt)
    {d : ChordSeqData} (hd : chordSeqData pieces = .ok d) (s : CsmSettings) (is : List Nat) :
    (∀ out, d.batch s is = .ok out →
      s.inputRed = none ∧ s.inputInv = true ∧ out.length = is.length ∧
      ∃ L, LongestOf pieces is L ∧ ∀ (k p : Nat), is[k]? = some p →
        ∃ x r, pieces[p]? = some x ∧ out[k]? = some r ∧ Trained x pt tt s L r) ∧
    ((∃ out, d.batch s is = .ok out) ↔
      is ≠ [] ∧ s.inputRed = none ∧ s.inputInv = true ∧
        ∀ p ∈ is, ∃ x, pieces[p]? = some x ∧ ∀ c ∈ x.chords, HasClass s c) := by
  obtain ⟨d1, d2, d3, d4⟩ := data_inv hu hd
  have hmax : d.targets.map List.length = d.inputs.map List.length := by
    apply List.ext_getElem?
    intro p
    rw [List.getElem?_map, List.getElem?_map]
    by_cases hp : p < pieces.length
    · obtain ⟨rows, ts, hr, ht, h1, h2, _⟩ := d4 p _ (List.getElem?_eq_getElem hp)
      rw [hr, ht, Option.map_some, Option.map_some, h1, h2]
    · rw [List.getElem?_eq_none (by omega), List.getElem?_eq_none (by omega)]
      rfl
  -- an item that can be read
  have hread : ∀ (p : Nat) it, d.item s p = .ok it → s.inputRed = none ∧ s.inputInv = true ∧
      ∃ x, pieces[p]? = some x ∧ ∀ c ∈ x.chords, HasClass s c := by
    intro p it h
    have hp : p < pieces.length := by
      by_contra hp
      have : pyGet d.inputs (p : Int) = .error .indexError := pyGet_error _ _ (by omega)
      simp only [ChordSeqData.item, Bind.bind, this, Except.bind] at h
      cases h
    obtain ⟨a, b, -⟩ := item_cases hu hd s p _ (List.getElem?_eq_getElem hp)
    refine ⟨?_, ?_, pieces[p], List.getElem?_eq_getElem hp, ?_⟩
    · by_contra hn; rw [a (Or.inl hn)] at h; cases h
    · by_contra hn; rw [a (Or.inr (by simpa using hn))] at h; cases h
    · intro c hc
      by_contra hn; rw [b ⟨c, hc, hn⟩] at h; cases h
  have hbatch : ∀ out, d.batch s is = .ok out → ∃ items, (is.mapM fun i : Nat => d.item s i) = .ok items ∧
      csmBatch items = .ok out := fun out h => bind_ok h
  -- the items of the batch
  have hitems : ∀ items, (is.mapM fun i : Nat => d.item s i) = .ok items → items.length = is.length ∧
      ∀ (k p : Nat), is[k]? = some p → ∃ x it, pieces[p]? = some x ∧ items[k]? = some it ∧
        s.inputRed = none ∧ s.inputInv = true ∧ (∀ c ∈ x.chords, HasClass s c) ∧
        it.inputLength = x.chords.length ∧ x.chords.length ≤ maxLength (d.inputs.map List.length) ∧
        Inputs x pt tt (maxLength (d.inputs.map List.length)) it.inputs ∧
        ∀ L, x.chords.length ≤ L → L ≤ maxLength (d.inputs.map List.length) →
          Trained x pt tt s L ⟨it.inputs.take L, it.inputLength,
            csmTargets L it.targetLength (changeFlags it.inputs) it.targets⟩ := by
    intro items hm
    obtain ⟨m1, m2⟩ := mapM_inv _ _ _ hm
    refine ⟨m1, ?_⟩
    intro k p hk
    obtain ⟨it, hit, hdi⟩ := m2 k p hk
    obtain ⟨r1, r2, x, hx, hall⟩ := hread p it hdi
    obtain ⟨it', g1, g2, g3, g4, g5, g6⟩ := (item_cases hu hd s p x hx).2.2 r1 r2 hall
    rw [hdi] at g1
    injection g1 with g1
    subst g1
    have hxm := List.mem_of_getElem? hx
    obtain ⟨rows, ts, hr, ht, h1, h2, _⟩ := d4 p x hx
    refine ⟨x, it, hx, hit, r1, r2, hall, g2, by rw [← h1]; exact maxLength_ge hr, g4, ?_⟩
    intro L hL1 hL2
    rw [hmax] at g5
    exact trained_of_item (hu.valid x hxm) (hu.chords x hxm) g2 g3 g4 g5 g6 hL1 hL2
  have hwidth : ∀ items, (is.mapM fun i : Nat => d.item s i) = .ok items →
      sameWidth (items.flatMap (·.inputs)) = true := by
    intro items hm
    obtain ⟨m1, m2⟩ := hitems items hm
    refine sameWidth_of (w := width pt tt) ?_
    intro r hr
    obtain ⟨it, hit, hr⟩ := List.mem_flatMap.1 hr
    obtain ⟨k, hk⟩ := List.getElem?_of_mem hit
    have hk' : k < is.length := by rw [← m1]; exact (List.getElem?_eq_some_iff.1 hk).1
    obtain ⟨x, it', hx, hit', -, -, -, -, -, hin, -⟩ := m2 k _ (List.getElem?_eq_getElem hk')
    rw [hk] at hit'
    injection hit' with hit'
    subst hit'
    exact inputs_width (hu.chords x (List.mem_of_getElem? hx)) hin r hr
  have hfwd : ∀ out, d.batch s is = .ok out → is ≠ [] ∧
      s.inputRed = none ∧ s.inputInv = true ∧ out.length = is.length ∧
      (∀ p ∈ is, ∃ x, pieces[p]? = some x ∧ ∀ c ∈ x.chords, HasClass s c) ∧
      ∃ L, LongestOf pieces is L ∧ ∀ (k p : Nat), is[k]? = some p →
        ∃ x r, pieces[p]? = some x ∧ out[k]? = some r ∧ Trained x pt tt s L r := by
    intro out h
    obtain ⟨items, hm, hb⟩ := hbatch out h
    obtain ⟨m1, m2⟩ := hitems items hm
    have hne : items ≠ [] := by
      rintro rfl
      simp [csmBatch] at hb
    have hise : is ≠ [] := by
      rintro rfl
      simp only [List.length_nil, List.length_eq_zero_iff] at m1
      exact hne m1
    rw [csmBatch] at hb
    split at hb
    · cases hb
    injection hb with hb
    obtain ⟨p0, is0, his⟩ := List.exists_cons_of_ne_nil hise
    obtain ⟨_, _, _, _, s1, s2, _⟩ := m2 0 p0 (by rw [his]; rfl)
    set L := maxLength (items.map (·.inputLength)) with hL
    have hmemL : L ∈ items.map (·.inputLength) := maxLength_mem (by simpa using hne)
    have hbound : ∀ (k p : Nat), is[k]? = some p → ∀ x, pieces[p]? = some x → x.chords.length ≤ L := by
      intro k p hk x hx
      obtain ⟨x', it, hx', hit, -, -, -, hl, -⟩ := m2 k p hk
      rw [hx] at hx'
      injection hx' with hx'
      subst hx'
      rw [← hl]
      exact le_maxLength (List.mem_map.2 ⟨it, List.mem_of_getElem? hit, rfl⟩)
    have hattain : ∃ p ∈ is, ∃ x, pieces[p]? = some x ∧ x.chords.length = L ∧
        L ≤ maxLength (d.inputs.map List.length) := by
      obtain ⟨it, hit, hl⟩ := List.mem_map.1 hmemL
      obtain ⟨k, hk⟩ := List.getElem?_of_mem hit
      have hk' : k < is.length := by rw [← m1]; exact (List.getElem?_eq_some_iff.1 hk).1
      obtain ⟨x, it', hx, hit', -, -, -, hl', hM, -⟩ := m2 k _ (List.getElem?_eq_getElem hk')
      rw [hk] at hit'
      injection hit' with hit'
      subst hit'
      exact ⟨_, List.getElem_mem hk', x, hx, by omega, by omega⟩
    obtain ⟨pm, hpm, xm, hxm, hLm, hLM⟩ := hattain
    refine ⟨hise, s1, s2, by rw [← hb, List.length_map, m1], ?_, L, ⟨?_, pm, hpm, xm, hxm, hLm⟩, ?_⟩
    · intro p hp
      obtain ⟨k, hk⟩ := List.getElem?_of_mem hp
      obtain ⟨x, _, hx, _, -, -, hall, -⟩ := m2 k p hk
      exact ⟨x, hx, hall⟩
    · intro p hp
      obtain ⟨k, hk⟩ := List.getElem?_of_mem hp
      exact hbound k p hk
    · intro k p hk
      obtain ⟨x, it, hx, hit, -, -, -, -, -, -, htr⟩ := m2 k p hk
      exact ⟨x, _, hx, by rw [← hb, List.getElem?_map, hit]; rfl, htr L (hbound k p hk x hx) hLM⟩
  refine ⟨fun out h => ?_, ⟨?_, ?_⟩⟩
  · obtain ⟨-, a, b, c, -, e⟩ := hfwd out h
    exact ⟨a, b, c, e⟩
  · rintro ⟨out, h⟩
    obtain ⟨a, b, c, -, e, -⟩ := hfwd out h
    exact ⟨a, b, c, e⟩
  · rintro ⟨hne, s1, s2, hall⟩
    obtain ⟨items, hm, hlen, -⟩ := mapM_all (fun i : Nat => d.item s i) is (by
      intro p hp
      obtain ⟨x, hx, hc⟩ := hall p hp
      obtain ⟨it, hit, -⟩ := (item_cases hu hd s p x hx).2.2 s1 s2 hc
      exact ⟨it, hit⟩)
    have hne' : items.isEmpty = false := by
      cases items with
      | nil => simp only [List.length_nil] at hlen; exact absurd (List.length_eq_zero_iff.1 hlen.symm) hne
      | cons _ _ => rfl
    simp only [ChordSeqData.batch, Bind.bind, hm, Except.bind, csmBatch, hne', hwidth items hm]
    exact ⟨_, rfl⟩

/-! ## A piece with two keys -/

/-- A piece with a shorter one. -/
def demo : List KeyedPiece := [demoPiece, ⟨demoPiece.chords.take 2, [0], demoPiece.keys.take 1⟩]

example : Uniform demo .midi .midi :=
  ⟨by
    intro x hx
    simp only [demo, List.mem_cons, List.not_mem_nil, or_false] at hx
    rcases hx with rfl | rfl
    · exact ⟨rfl, rfl, by decide, by decide⟩
    · exact ⟨rfl, rfl, by decide, by decide⟩, by decide, by decide⟩

def demoSettings : CsmSettings := ⟨none, true, triadReduction, false⟩

-- I V | (key of V:) V I: the change of key is not predicted
example : (chordSeqData demo >>= fun d => d.batch demoSettings [1, 0]).map (fun l => l.map fun r => (r.length, r.targets)) =
    .ok [(2, [7, -100, -100, -100]), (4, [7, -100, 0, -100])] := by decide +kernel

example : (chordSeqData demo >>= fun d => d.batch ⟨some triadReduction, true, triadReduction, true⟩ [1]) =
    .error .valueError := by decide +kernel

-- a third inversion has no class among the triads
example : ¬ HasClass ⟨none, true, triadReduction, true⟩ ⟨7, 5, 0, .major, .majMin7, 3, 3, 2, 1, .midi⟩ := by
  rintro ⟨t, ht⟩
  have : Chord.oneHotIndex (⟨7, 5, 0, .major, .majMin7, 3, 3, 2, 1, .midi⟩ : Chord ℚ) true true false triadReduction =
    .error .valueError := by decide +kernel
  rw [this] at ht
  cases ht

end Verif.ChordTraining
