import Verif.PitchTraining
import Verif.Props.ChordTraining
import Verif.Props.PitchBased

/-!
# C136: what the pitch-based chord sequence model is trained on
-/

namespace Verif.PitchTraining

open Verif.Vectors Verif.KeyDatasets Verif.ChordTraining Verif.PitchBased
open Verif.Datasets hiding bind_ok

/-- The place of the tone `f` above the root of a chord, counted from the tonic of its key; spelled pitches begin 14
fifths below the tonic. -/
def place (c : Chord ℚ) (f : Int) : Int :=
  match c.pitchType with
  | .tpc => c.root + f - c.keyTonic + 14
  | .midi => (c.root + f - c.keyTonic) % 12

/-- All pitches of the chord have a place. -/
def InReach (c : Chord ℚ) : Prop := ∀ f ∈ specTones c.pitchType c.chordType, 0 ≤ place c f ∧ place c f < pitches c.pitchType

/-- Chord `i` of a piece is to be predicted. -/
def Predicted (x : KeyedPiece) (i : Nat) (c : Chord ℚ) : Prop := x.chords[i]? = some c ∧ 0 < i ∧ ¬ KeyStart x i

/-- The row marks the pitches of the chord and nothing else. -/
def Marks (c : Chord ℚ) (row : List Int) : Prop :=
  row.length = pitches c.pitchType ∧ (∀ a ∈ row, a = 0 ∨ a = 1) ∧
    ∀ j : Nat, j < pitches c.pitchType →
      (row[j]? = some 1 ↔ ∃ f ∈ specTones c.pitchType c.chordType, (j : Int) = place c f)

/-- What the model gets of piece `x`, for a batch whose longest piece has `L` chords. -/
structure PitchTrained (x : KeyedPiece) (pt tt : PitchType) (L : Nat) (r : PitchItem) : Prop where
  length : r.inputLength = x.chords.length
  /-- each chord with the key change at that chord, followed by zeros -/
  inputs : Inputs x pt tt L r.inputs
  rows : r.rows.length = L
  /-- the pitches of the next chord -/
  next : ∀ (i : Nat) c, Predicted x (i + 1) c → ∃ row, r.rows[i]? = some row ∧ Marks c row
  /-- nothing to predict where the key changes and after the last chord -/
  ignored : ∀ i : Nat, i < L → x.chords.length ≤ i + 1 ∨ KeyStart x (i + 1) →
    r.rows[i]? = some (List.replicate (pitches pt) (-100))

theorem class_of {c : Chord ℚ} {t : Int} (h : c.oneHotIndex true true false noReduction = .ok t) :
    ∃ r, IsClass c.pitchType noReduction true c.chordType r t ∧ (∀ f, position c.pitchType (r + f) = place c f) ∧
      (c.pitchType = .tpc → r = c.root - c.keyTonic) := by
  rw [Chord.oneHotIndex] at h
  obtain ⟨r, hr, h⟩ := bind_ok h
  obtain ⟨-, -, h3⟩ := C01_encode_decode _ _ _ _ _ _ _ _ _ h
  refine ⟨_, ⟨_, h3⟩, ?_, ?_⟩
  · intro f
    simp only [absoluteToRelative] at hr
    cases hp : c.pitchType with
    | midi =>
      rw [hp] at hr
      simp only [transposePitch] at hr
      injection hr with hr
      have h12 : NUM_PITCHES .midi = 12 := rfl
      rw [h12] at hr
      simp only [place, hp, position, specDecodedRoot]
      omega
    | tpc =>
      rw [hp] at hr
      simp only [Bool.false_eq_true, Bool.false_and, if_false] at hr
      split at hr
      · cases hr
      · injection hr with hr
        have hM : MIN_RELATIVE_TPC = -14 := rfl
        rw [hM] at hr
        simp only [place, hp, position, specDecodedRoot]
        omega
  · intro hp
    simp only [absoluteToRelative] at hr
    rw [hp] at hr
    simp only [Bool.false_eq_true, Bool.false_and, if_false] at hr
    split at hr
    · cases hr
    · injection hr with hr
      have hM : MIN_RELATIVE_TPC = -14 := rfl
      rw [hM] at hr
      simp only [hp, specDecodedRoot]
      omega

/-- The row of a chord. -/
theorem target_marks {c : Chord ℚ} {t : Int} (h : c.oneHotIndex true true false noReduction = .ok t) (hf : InReach c) :
    ∃ row, pitchTarget t c.pitchType noReduction true = .ok row ∧ Marks c row := by
  obtain ⟨r, h1, h2, h3⟩ := class_of h
  have hfit : Fits c.pitchType c.chordType r := by
    cases hp : c.pitchType with
    | midi => trivial
    | tpc =>
      intro f hm
      have h29 : pitches .tpc = 29 := rfl
      have := hf f (by rw [hp]; exact hm)
      rw [hp, h29, ← h2 f, hp] at this
      simp only [position] at this
      omega
  obtain ⟨row, r1, r2, r3, r4⟩ := C87_row_partial _ _ _ _ _ _ h1 hfit
  refine ⟨row, r1, r2, r3, fun j hj => ?_⟩
  rw [r4 j hj]
  simp only [h2]

/-- Items of the dataset have a class without reductions. -/
theorem has_class {pieces : List KeyedPiece} {pt tt : PitchType} (hu : Uniform pieces pt tt) {d : ChordSeqData}
    (hd : chordSeqData pieces = .ok d) (inputRed : Option Reduction) (inputInv : Bool) (p : Nat) (x : KeyedPiece)
    (hx : pieces[p]? = some x) : ∀ c ∈ x.chords, HasClass (pitchSettings inputRed inputInv) c := by
  obtain ⟨-, -, -, d4⟩ := data_inv hu hd
  obtain ⟨rows, ts, -, -, -, -, h⟩ := d4 p x hx
  intro c hc
  obtain ⟨i, hi⟩ := List.getElem?_of_mem hc
  obtain ⟨row, change, t, -, -, -, -, ht⟩ := h i c hi
  exact ⟨t, ht⟩

theorem flags_of {x : KeyedPiece} (hx : KeyedPiece.Valid x) {pt tt : PitchType} {M : Nat} {inputs : List (List ℚ)}
    (h : Inputs x pt tt M inputs) (i : Nat) (c : Chord ℚ) (hc : x.chords[i]? = some c) :
    ∃ b, (changeFlags inputs)[i]? = some b ∧ (b = true ↔ KeyStart x i) := by
  obtain ⟨row, change, a1, a2, a3⟩ := h.2.1 i c hc
  refine ⟨_, by rw [changeFlags, List.getElem?_map, a1]; rfl, ?_⟩
  show (row.getLast? == some 1) = true ↔ _
  rw [row_flag a3, change_flag hx a2]

theorem mapM_error {α β : Type} (f : α → Py β) (l : List α) (a : α) (ha : a ∈ l) (e : PyErr) (he : f a = .error e) :
    ∃ e', l.mapM f = .error e' := by
  cases h : l.mapM f with
  | error e' => exact ⟨e', rfl⟩
  | ok out =>
    obtain ⟨k, hk⟩ := List.getElem?_of_mem ha
    obtain ⟨b, -, hb⟩ := (mapM_inv _ _ _ h).2 k a hk
    rw [he] at hb; cases hb

theorem lengths_eq {pieces : List KeyedPiece} {pt tt : PitchType} (hu : Uniform pieces pt tt) {d : ChordSeqData}
    (hd : chordSeqData pieces = .ok d) : d.targets.map List.length = d.inputs.map List.length := by
  obtain ⟨d1, d2, -, d4⟩ := data_inv hu hd
  apply List.ext_getElem?
  intro p
  rw [List.getElem?_map, List.getElem?_map]
  by_cases hp : p < pieces.length
  · obtain ⟨rows, ts, hr, ht, h1, h2, _⟩ := d4 p _ (List.getElem?_eq_getElem hp)
    rw [hr, ht, Option.map_some, Option.map_some, h1, h2]
  · rw [List.getElem?_eq_none (by omega), List.getElem?_eq_none (by omega)]
    rfl

/-- What is read of an item. -/
theorem pitch_item {pieces : List KeyedPiece} {pt tt : PitchType} (hu : Uniform pieces pt tt) {d : ChordSeqData}
    (hd : chordSeqData pieces = .ok d) (p : Nat) (x : KeyedPiece) (hx : pieces[p]? = some x)
    (hr : ∀ i c, Predicted x i c → InReach c) :
    ∃ it, d.pitchItem (pitchSettings none true) p = .ok it ∧ it.inputLength = x.chords.length ∧
      x.chords.length ≤ maxLength (d.inputs.map List.length) ∧
      Inputs x pt tt (maxLength (d.inputs.map List.length)) it.inputs ∧
      it.rows.length = maxLength (d.inputs.map List.length) ∧
      (∀ i c, Predicted x i c → ∃ row, it.rows[i]? = some row ∧ Marks c row) ∧
      ∀ i : Nat, i < maxLength (d.inputs.map List.length) → i = 0 ∨ x.chords.length ≤ i ∨ KeyStart x i →
        it.rows[i]? = some (List.replicate (pitches pt) (-100)) := by
  have hm := List.mem_of_getElem? hx
  have hv := hu.valid x hm
  obtain ⟨it, g1, g2, g3, g4, g5, g6⟩ := (item_cases hu hd (pitchSettings none true) p x hx).2.2 rfl rfl
    (has_class hu hd none true p x hx)
  rw [lengths_eq hu hd] at g5
  obtain ⟨-, -, d3, d4⟩ := data_inv hu hd
  have hpt := d3 (List.ne_nil_of_mem hm)
  have hM : x.chords.length ≤ maxLength (d.inputs.map List.length) := by
    obtain ⟨rows, ts, h1, -, h2, -⟩ := d4 p x hx
    rw [← h2]; exact maxLength_ge h1
  generalize hMM : maxLength (d.inputs.map List.length) = M at g4 g5 hM ⊢
  have hlen : (changeFlags it.inputs).length = it.targets.length := by rw [changeFlags, List.length_map, g4.1, g5]
  have hz : ((List.range it.targets.length).zip (it.targets.zip (changeFlags it.inputs))).length = M := by
    simp [hlen, g5]
  have hall : ∀ e ∈ (List.range it.targets.length).zip (it.targets.zip (changeFlags it.inputs)), ∃ row,
      (if e.1 = 0 ∨ it.targetLength ≤ e.1 ∨ e.2.2 = true then .ok (List.replicate (csmPitches pt) (-100))
        else pitchTarget e.2.1 pt noReduction true : Py (List Int)) = .ok row := by
    intro e he
    obtain ⟨j, hj⟩ := List.getElem?_of_mem he
    obtain ⟨e1, e2⟩ := List.getElem?_zip_eq_some.1 hj
    obtain ⟨e2, e3⟩ := List.getElem?_zip_eq_some.1 e2
    have hjn : e.1 = j := by
      have := (List.getElem?_eq_some_iff.1 e1).2
      simpa using this.symm
    by_cases hc : e.1 = 0 ∨ it.targetLength ≤ e.1 ∨ e.2.2 = true
    · exact ⟨_, if_pos hc⟩
    · rw [if_neg hc]
      have hjl : j < x.chords.length := by
        by_contra h; exact hc (Or.inr (Or.inl (by omega)))
      obtain ⟨t, t1, t2⟩ := g6 j _ (List.getElem?_eq_getElem hjl)
      obtain ⟨b, b1, b2⟩ := flags_of hv g4 j _ (List.getElem?_eq_getElem hjl)
      rw [e2] at t1
      rw [e3] at b1
      injection t1 with t1
      injection b1 with b1
      have hP : Predicted x j x.chords[j] :=
        ⟨List.getElem?_eq_getElem hjl, by
          rcases Nat.eq_zero_or_pos j with h | h
          · exact absurd (Or.inl (hjn.trans h)) hc
          · exact h, fun hk => hc (Or.inr (Or.inr (b1.trans (b2.2 hk))))⟩
      obtain ⟨row, r1, -⟩ := target_marks t2 (hr _ _ hP)
      rw [hu.chords x hm _ (List.getElem_mem _)] at r1
      exact ⟨row, by rw [t1]; exact r1⟩
  obtain ⟨rows, hrows, -⟩ := mapM_all _ _ hall
  have hpt' : pitchTargets it.targets (changeFlags it.inputs) it.targetLength pt noReduction true = .ok rows := hrows
  obtain ⟨c1, c2⟩ := C87_rows _ _ _ _ _ _ hlen _ hpt'
  have hP0 : pyGet d.pitchType.toList 0 = .ok pt := by rw [hpt]; rfl
  refine ⟨⟨it.inputs, it.inputLength, rows⟩, ?_, g2, hM, g4, by rw [c1, g5], ?_, ?_⟩
  · simp only [ChordSeqData.pitchItem, g1, Bind.bind, Except.bind, hP0]
    simp only [pitchSettings, hpt']
  · intro i c hP
    obtain ⟨t, t1, t2⟩ := g6 i c hP.1
    obtain ⟨b, b1, b2⟩ := flags_of hv g4 i c hP.1
    have hil : i < x.chords.length := (List.getElem?_eq_some_iff.1 hP.1).1
    obtain ⟨row, r1, r2⟩ := (c2 i t b t1 b1).2 (by have := hP.2.1; omega) (by omega) (by
      cases hb : b with
      | false => rfl
      | true => exact absurd (b2.1 hb) hP.2.2)
    obtain ⟨row', s1, s2⟩ := target_marks t2 (hr _ _ hP)
    rw [hu.chords x hm c (List.mem_of_getElem? hP.1), r1] at s1
    injection s1 with s1
    subst s1
    exact ⟨row, r2, s2⟩
  · intro i hi hor
    have ht : it.targets[i]? = some it.targets[i] := List.getElem?_eq_getElem (by omega)
    have hb : (changeFlags it.inputs)[i]? = some (changeFlags it.inputs)[i] := List.getElem?_eq_getElem (by omega)
    refine (c2 i _ _ ht hb).1 ?_
    rcases hor with h | h | h
    · exact Or.inl h
    · exact Or.inr (Or.inl (by omega))
    · by_cases hil : i < x.chords.length
      · obtain ⟨b, b1, b2⟩ := flags_of hv g4 i _ (List.getElem?_eq_getElem hil)
        rw [hb] at b1
        injection b1 with b1
        exact Or.inr (Or.inr (b1.trans (b2.2 h)))
      · exact Or.inr (Or.inl (by omega))

theorem roll_get (l : List (List Int)) (i : Nat) (hi : i < l.length) :
    (rollRows l)[i]? = if i + 1 < l.length then l[i + 1]? else l[0]? := by
  cases l with
  | nil => simp at hi
  | cons a l =>
    simp only [rollRows, List.length_cons] at hi ⊢
    by_cases h : i < l.length
    · rw [List.getElem?_append_left h, if_pos (by omega), List.getElem?_cons_succ]
    · rw [List.getElem?_append_right (by omega), if_neg (by omega)]
      have : i - l.length = 0 := by omega
      rw [this]; rfl

theorem roll_length (l : List (List Int)) : (rollRows l).length = l.length := by
  cases l <;> simp [rollRows]

/-- C136 (partial: every chord to be predicted has all its pitches within 14 fifths of the tonic, or pitches are MIDI): a
batch holds, for each of its pieces, its chords and key changes, and as targets the pitches of the next chords. -/
theorem C136_batch_partial {pieces : List KeyedPiece} {pt tt : PitchType} (hu : Uniform pieces pt tt)
    {d : ChordSeqData} (hd : chordSeqData pieces = .ok d) (is : List Nat) (hne : is ≠ [])
    (hin : ∀ p ∈ is, p < pieces.length)
    (hr : ∀ p ∈ is, ∀ x, pieces[p]? = some x → ∀ i c, Predicted x i c → InReach c) :
    ∃ out L, d.pitchBatch (pitchSettings none true) is = .ok out ∧ out.length = is.length ∧ LongestOf pieces is L ∧
      ∀ (k p : Nat), is[k]? = some p →
        ∃ x r, pieces[p]? = some x ∧ out[k]? = some r ∧ PitchTrained x pt tt L r := by
  obtain ⟨items, hm, hlen, -⟩ := mapM_all (fun i : Nat => d.pitchItem (pitchSettings none true) i) is (by
    intro p hp
    obtain ⟨it, h, -⟩ := pitch_item hu hd p _ (List.getElem?_eq_getElem (hin p hp))
      (hr p hp _ (List.getElem?_eq_getElem (hin p hp)))
    exact ⟨it, h⟩)
  have hitem : ∀ (k p : Nat), is[k]? = some p → ∃ x it, pieces[p]? = some x ∧ items[k]? = some it ∧
      it.inputLength = x.chords.length ∧ x.chords.length ≤ maxLength (d.inputs.map List.length) ∧
      Inputs x pt tt (maxLength (d.inputs.map List.length)) it.inputs ∧
      it.rows.length = maxLength (d.inputs.map List.length) ∧
      (∀ i c, Predicted x i c → ∃ row, it.rows[i]? = some row ∧ Marks c row) ∧
      ∀ i : Nat, i < maxLength (d.inputs.map List.length) → i = 0 ∨ x.chords.length ≤ i ∨ KeyStart x i →
        it.rows[i]? = some (List.replicate (pitches pt) (-100)) := by
    intro k p hk
    obtain ⟨it, hit, hdi⟩ := (mapM_inv _ _ _ hm).2 k p hk
    have hp := List.mem_of_getElem? hk
    obtain ⟨it', h, rest⟩ := pitch_item hu hd p _ (List.getElem?_eq_getElem (hin p hp))
      (hr p hp _ (List.getElem?_eq_getElem (hin p hp)))
    rw [hdi] at h
    injection h with h
    subst h
    exact ⟨_, it, List.getElem?_eq_getElem (hin p hp), hit, rest⟩
  have hlen' : items.length = is.length := (mapM_inv _ _ _ hm).1
  have hne' : items ≠ [] := by
    rintro rfl
    exact hne (List.length_eq_zero_iff.1 hlen'.symm)
  have hat : ∀ it ∈ items, ∃ k p : Nat, is[k]? = some p ∧ items[k]? = some it := by
    intro it hit
    obtain ⟨k, hk⟩ := List.getElem?_of_mem hit
    have : k < is.length := by rw [← hlen']; exact (List.getElem?_eq_some_iff.1 hk).1
    exact ⟨k, _, List.getElem?_eq_getElem this, hk⟩
  have hwidth : sameWidth (items.flatMap (·.inputs)) = true := by
    refine sameWidth_of (w := width pt tt) ?_
    intro r hr'
    obtain ⟨it, hit, hr'⟩ := List.mem_flatMap.1 hr'
    obtain ⟨k, p, hk, hkit⟩ := hat it hit
    obtain ⟨x, it', hx, hit', -, -, hi, -⟩ := hitem k p hk
    rw [hkit] at hit'
    injection hit' with hit'
    subst hit'
    exact inputs_width (hu.chords x (List.mem_of_getElem? hx)) hi r hr'
  have hempty : items.isEmpty = false := by
    cases items with
    | nil => exact absurd rfl hne'
    | cons _ _ => rfl
  have hbound : ∀ (k p : Nat), is[k]? = some p → ∀ x, pieces[p]? = some x →
      x.chords.length ≤ maxLength (items.map (·.inputLength)) := by
    intro k p hk x hx
    obtain ⟨x', it, hx', hit, hl, -⟩ := hitem k p hk
    rw [hx] at hx'
    injection hx' with hx'
    subst hx'
    rw [← hl]
    exact le_maxLength (List.mem_map.2 ⟨it, List.mem_of_getElem? hit, rfl⟩)
  obtain ⟨it0, hit0, hl0⟩ := List.mem_map.1 (maxLength_mem (l := items.map (·.inputLength)) (by simpa using hne'))
  obtain ⟨k0, p0, hk0, hkit0⟩ := hat it0 hit0
  obtain ⟨x0, it0', hx0, hit0', hlen0, hM0, -⟩ := hitem k0 p0 hk0
  rw [hkit0] at hit0'
  injection hit0' with hit0'
  subst hit0'
  refine ⟨_, maxLength (items.map (·.inputLength)), by
    simp only [ChordSeqData.pitchBatch, Bind.bind, hm, Except.bind, pitchCollate, hempty, hwidth]; rfl,
    by rw [List.length_map, hlen'], ⟨?_, p0, List.mem_of_getElem? hk0, x0, hx0, by omega⟩, ?_⟩
  · intro p hp x hx
    obtain ⟨k, hk⟩ := List.getElem?_of_mem hp
    exact hbound k p hk x hx
  · intro k p hk
    obtain ⟨x, it, hx, hit, h1, h2, h3, h4, h5, h6⟩ := hitem k p hk
    have hxL := hbound k p hk x hx
    have hLM : maxLength (items.map (·.inputLength)) ≤ maxLength (d.inputs.map List.length) := by omega
    generalize maxLength (items.map (·.inputLength)) = L at hxL hLM ⊢
    generalize maxLength (d.inputs.map List.length) = M at h2 h3 h4 h6 hLM
    have hTL : (it.rows.take L).length = L := by rw [List.length_take, h4, Nat.min_eq_left hLM]
    have hch : 0 < x.chords.length := List.length_pos_iff.mpr (valid_chords (hu.valid x (List.mem_of_getElem? hx)))
    refine ⟨x, ⟨it.inputs.take L, it.inputLength, rollRows (it.rows.take L)⟩, hx,
      by rw [List.getElem?_map, hit]; rfl, h1, ⟨?_, ?_, ?_⟩, ?_, ?_, ?_⟩
    · rw [List.length_take, h3.1, Nat.min_eq_left hLM]
    · intro i c hc
      obtain ⟨row, change, a1, a2, a3⟩ := h3.2.1 i c hc
      have : i < x.chords.length := (List.getElem?_eq_some_iff.1 hc).1
      exact ⟨row, change, by rw [List.getElem?_take, if_pos (by omega)]; exact a1, a2, a3⟩
    · intro i hi hiL
      rw [List.getElem?_take, if_pos hiL]
      exact h3.2.2 i hi (by omega)
    · rw [roll_length, hTL]
    · intro i c hP
      have hi : i + 1 < x.chords.length := (List.getElem?_eq_some_iff.1 hP.1).1
      obtain ⟨row, r1, r2⟩ := h5 (i + 1) c hP
      refine ⟨row, ?_, r2⟩
      show (rollRows (it.rows.take L))[i]? = _
      rw [roll_get _ _ (by omega), if_pos (by omega), List.getElem?_take, if_pos (by omega)]
      exact r1
    · intro i hiL hor
      show (rollRows (it.rows.take L))[i]? = _
      rw [roll_get _ _ (by omega)]
      by_cases hlast : i + 1 < L
      · rw [if_pos (by omega), List.getElem?_take, if_pos hlast]
        exact h6 (i + 1) (by omega) (Or.inr hor)
      · rw [if_neg (by omega), List.getElem?_take, if_pos (by omega)]
        exact h6 0 (by omega) (Or.inl rfl)

/-- C136: of these rows, the model is trained on those whose chord does not contain the lowest pitch (for MIDI pitches
the tonic). -/
theorem C136_measured_fails {x : KeyedPiece} {pt tt : PitchType} {L : Nat} {r : PitchItem} (h : PitchTrained x pt tt L r)
    (hp : ∀ c ∈ x.chords, c.pitchType = pt) (i : Nat) (hi : i < L) :
    (∃ row, r.rows[i]? = some row ∧ keptInTraining row = true) ↔
      ∃ c, Predicted x (i + 1) c ∧ ∀ f ∈ specTones pt c.chordType, place c f ≠ 0 := by
  have hpos : 0 < pitches pt := by cases pt <;> decide
  constructor
  · rintro ⟨row, hrow, hk⟩
    by_cases hor : x.chords.length ≤ i + 1 ∨ KeyStart x (i + 1)
    · rw [h.ignored i hi hor] at hrow
      injection hrow with hrow
      rw [← hrow, C87_left_out] at hk
      cases hk
    · rw [not_or] at hor
      have hlt : i + 1 < x.chords.length := by omega
      have hP : Predicted x (i + 1) x.chords[i + 1] := ⟨List.getElem?_eq_getElem hlt, by omega, hor.2⟩
      obtain ⟨row', h1, h2, h3, h4⟩ := h.next i _ hP
      rw [hrow] at h1
      injection h1 with h1
      subst h1
      have hpt := hp _ (List.getElem_mem hlt)
      refine ⟨_, hP, fun f hf h0 => ?_⟩
      rw [hpt] at h4
      have := (h4 0 hpos).2 ⟨f, hf, by simpa using h0.symm⟩
      rw [keptInTraining, this] at hk
      simp at hk
  · rintro ⟨c, hP, hno⟩
    obtain ⟨row, h1, h2, h3, h4⟩ := h.next i c hP
    have hpt := hp c (List.mem_of_getElem? hP.1)
    rw [hpt] at h2 h4
    refine ⟨row, h1, ?_⟩
    have h0 : row[0]? = some row[0] := List.getElem?_eq_getElem (by omega)
    rcases h3 _ (List.mem_of_getElem? h0) with h | h
    · rw [keptInTraining, h0, h]; rfl
    · rw [h] at h0
      obtain ⟨f, hf, hf0⟩ := (h4 0 hpos).1 h0
      exact absurd (by simpa using hf0.symm) (hno f hf)

/-- C136 does not hold for spelled chords with a pitch 15 to 20 fifths above the tonic: the batch cannot be read. -/
theorem C136_high_fails {pieces : List KeyedPiece} {tt : PitchType} (hu : Uniform pieces .tpc tt) {d : ChordSeqData}
    (hd : chordSeqData pieces = .ok d) (is : List Nat) (p : Nat) (hp : p ∈ is) (x : KeyedPiece) (hx : pieces[p]? = some x)
    (i : Nat) (c : Chord ℚ) (hP : Predicted x i c) (f : Int) (hf : f ∈ specTones .tpc c.chordType)
    (h1 : 15 ≤ c.root + f - c.keyTonic) (h2 : c.root + f - c.keyTonic ≤ 20) (inputRed : Option Reduction)
    (inputInv : Bool) : ∃ e, d.pitchBatch (pitchSettings inputRed inputInv) is = .error e := by
  have hm := List.mem_of_getElem? hx
  have hv := hu.valid x hm
  suffices he : ∃ e, d.pitchItem (pitchSettings inputRed inputInv) (p : Int) = .error e by
    obtain ⟨e, he⟩ := he
    obtain ⟨e', he'⟩ := mapM_error (fun i : Nat => d.pitchItem (pitchSettings inputRed inputInv) i) is p hp e he
    exact ⟨e', by simp only [ChordSeqData.pitchBatch, Bind.bind, he', Except.bind]⟩
  by_cases hs : inputRed ≠ none ∨ inputInv = false
  · have := (item_cases hu hd (pitchSettings inputRed inputInv) p x hx).1 hs
    exact ⟨.valueError, by simp only [ChordSeqData.pitchItem, this, Bind.bind, Except.bind]⟩
  · rw [not_or, not_not] at hs
    obtain ⟨hs1, hs2⟩ := hs
    have hs2 : inputInv = true := by simpa using hs2
    subst hs1 hs2
    obtain ⟨it, g1, g2, g3, g4, g5, g6⟩ := (item_cases hu hd (pitchSettings none true) p x hx).2.2 rfl rfl
      (has_class hu hd none true p x hx)
    obtain ⟨-, -, d3, -⟩ := data_inv hu hd
    have hpt := d3 (List.ne_nil_of_mem hm)
    have hP0 : pyGet d.pitchType.toList 0 = .ok PitchType.tpc := by rw [hpt]; rfl
    obtain ⟨t, t1, t2⟩ := g6 i c hP.1
    obtain ⟨b, b1, b2⟩ := flags_of hv g4 i c hP.1
    have hil : i < x.chords.length := (List.getElem?_eq_some_iff.1 hP.1).1
    have hcp := hu.chords x hm c (List.mem_of_getElem? hP.1)
    obtain ⟨r, r1, -, r3⟩ := class_of t2
    rw [hcp] at r1
    have hr := r3 hcp
    have hbad := C87_high_fails _ _ _ _ _ r1 f hf (by omega) (by omega)
    have hb : b = false := by
      cases hb : b with
      | false => rfl
      | true => exact absurd (b2.1 hb) hP.2.2
    have hmem : (i, t, b) ∈ (List.range it.targets.length).zip (it.targets.zip (changeFlags it.inputs)) := by
      refine List.mem_of_getElem? (i := i) ?_
      rw [List.getElem?_zip_eq_some]
      refine ⟨by rw [List.getElem?_range (List.getElem?_eq_some_iff.1 t1).1], ?_⟩
      rw [List.getElem?_zip_eq_some]
      exact ⟨t1, b1⟩
    obtain ⟨e, he⟩ := mapM_error (fun x : Nat × Int × Bool =>
      if x.1 = 0 ∨ it.targetLength ≤ x.1 ∨ x.2.2 = true then .ok (List.replicate (csmPitches .tpc) (-100))
      else pitchTarget x.2.1 .tpc noReduction true) _ _ hmem .valueError (by
        have := hP.2.1
        rw [if_neg (by rintro (h | h | h) <;> simp only [hb] at h <;> first | omega | cases h)]
        exact hbad)
    have he' : pitchTargets it.targets (changeFlags it.inputs) it.targetLength .tpc noReduction true = .error e := he
    refine ⟨e, ?_⟩
    simp only [ChordSeqData.pitchItem, g1, Bind.bind, Except.bind, hP0]
    simp only [pitchSettings, he']

/-! ## A piece with two keys -/

-- I V | (key of V:) V I with MIDI pitches: the tonic chord of the first key is not learned
example : (chordSeqData ChordTraining.demo >>= fun d => d.pitchBatch (pitchSettings none true) [1, 0]).map
      (fun l => l.map fun r => (r.inputLength, r.rows.map fun row => (row.headD 7, keptInTraining row))) =
    .ok [(2, [(0, true), (-100, false), (-100, false), (-100, false)]),
      (4, [(0, true), (-100, false), (1, false), (-100, false)])] := by decide +kernel

example : ∀ x ∈ ChordTraining.demo, ∀ i c, Predicted x i c → InReach c := by
  intro x hx i c hP f hf
  have hc : c ∈ x.chords := List.mem_of_getElem? hP.1
  have : c.pitchType = .midi := by
    revert hc; revert hx; clear hP hf
    intro hx hc
    simp only [ChordTraining.demo, List.mem_cons, List.not_mem_nil, or_false] at hx
    rcases hx with rfl | rfl <;> revert hc <;> revert c <;> decide
  simp only [place, this, pitches]
  omega

end Verif.PitchTraining
