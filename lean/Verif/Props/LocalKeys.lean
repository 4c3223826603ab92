import Verif.Props.SequenceTables
import Verif.Props.StateInputs

/-!
# C160: changes of key are learnt between the keys of the chords
-/

namespace Verif.LocalKeys
open Verif Verif.Vectors Verif.KeyDatasets Verif.ChordTraining Verif.KeyChange Verif.SequenceTables
open Verif.TablePiece Verif.FromSeries Verif.PieceKeys Verif.Eval Verif.StateInputs

/-- The keys of the piece are not applied ones (tonicizations). -/
def Plain (k : KeyedPiece) : Prop :=
  ∀ l ∈ k.keys, l.relativeTonic = l.localTonic ∧ l.relativeMode = l.localMode

/-- The keys on both sides of a change are those of the chords. -/
theorem change_keys {measures : List MeasureRow} {chords : List PieceRow} {red : Reduction} {useInv u useSusp : Bool}
    {k : KeyedPiece} (h : Keyed measures chords red useInv u useSusp k) (hu : u = true ∨ Plain k) {i j : Nat}
    {o o' : Chord ℚ} {A B : Key} (hj : k.keyChanges[j + 1]? = some (i + 1)) (ho : k.chords[i]? = some o)
    (ho' : k.chords[i + 1]? = some o') (hA : k.keys[j]? = some A) (hB : k.keys[j + 1]? = some B) :
    (A.relativeTonic, A.relativeMode) = (o.keyTonic, o.keyMode) ∧
      (B.relativeTonic, B.relativeMode) = (o'.keyTonic, o'.keyMode) := by
  have hv := h.spelled.valid
  have hmono : ∀ p q : Nat, ∀ v w, p < q → k.keyChanges[p]? = some v → k.keyChanges[q]? = some w → v < w := by
    intro p q v w hpq hv' hw
    obtain ⟨lv, ev⟩ := List.getElem?_eq_some_iff.1 hv'
    obtain ⟨lw, ew⟩ := List.getElem?_eq_some_iff.1 hw
    have := List.pairwise_iff_getElem.1 hv.increasing p q lv lw hpq
    omega
  have hle : k.keyChanges.Pairwise (· ≤ ·) := hv.increasing.imp fun h => Nat.le_of_lt h
  have hjl : j + 1 < k.keyChanges.length := (List.getElem?_eq_some_iff.1 hj).1
  have hj0 : k.keyChanges[j]? = some k.keyChanges[j] := List.getElem?_eq_getElem (by omega)
  have lt0 := hmono j (j + 1) _ _ (by omega) hj0 hj
  obtain ⟨l, cv, el⟩ := h.covered i _ ho
  obtain ⟨l', cv', el'⟩ := h.covered (i + 1) _ ho'
  have u1 : l = A := by
    refine LabelTable.covers_unique hle cv ⟨j, _, hA, hj0, by omega, ?_⟩
    intro b hb'
    rw [hj] at hb'
    injection hb' with hb'
    omega
  have u2 : l' = B := by
    refine LabelTable.covers_unique hle cv' ⟨j + 1, _, hB, hj, Nat.le_refl _, ?_⟩
    intro b hb'
    exact hmono (j + 1) (j + 2) _ _ (by omega) hj hb'
  subst u1 u2
  have same : ∀ m ∈ k.keys, tonicMode u m = (m.relativeTonic, m.relativeMode) := by
    intro m hm
    cases u with
    | true => rfl
    | false =>
      obtain ⟨p1, p2⟩ := (hu.resolve_left (by decide)) m hm
      simp only [tonicMode, p1, p2]
      rfl
  rw [same l (List.mem_of_getElem? hA)] at el
  rw [same l' (List.mem_of_getElem? hB)] at el'
  exact ⟨el, el'⟩

variable {measures : List MeasureRow} {notes : List NoteRow} {chords : List PieceRow} {red : Reduction}
    {useInv u useSusp : Bool} {c : List (Measure ℚ)} {k : KeyedPiece}

/-- C160 (partial: loaded with `use_relative`, or no key of the piece is an applied one): the target of each change of key in
the `KeySequenceDataset` is the class of the interval and the mode between the keys of the chords, and the model is asked
with the first chord of the new key as if it were in the key of the chord before it. -/
theorem C160_targets_partial (h : Tables measures notes chords red useInv u c)
    (hk : tableKeyed measures notes chords red useInv u useSusp = .ok k) (hu : u = true ∨ Plain k)
    {data : PieceData (List ℚ)} (hdata : sequencePiece k = .ok (some data)) {i j : Nat} {o o' : Chord ℚ}
    (hj : k.keyChanges[j + 1]? = some (i + 1)) (ho : k.chords[i]? = some o) (ho' : k.chords[i + 1]? = some o') :
    -14 ≤ o'.keyTonic - o.keyTonic ∧ o'.keyTonic - o.keyTonic ≤ 14 ∧
    data.targets[j]? = some (o'.keyMode.value * 29 + (o'.keyTonic - o.keyTonic + 14)) ∧
    ∃ v, Chord.toVec { o' with keyTonic := o.keyTonic, keyMode := o.keyMode } none true noReduction = .ok v ∧
      data.replacements[j]? = some (v ++ zeros 32) := by
  have hK := keyed h hk
  obtain ⟨-, hall⟩ := C68_sequences k hK.spelled.valid _ hdata
  obtain ⟨k0, last, hk0, -, -, -, -, hitems⟩ := hall data rfl
  rw [hK.spelled.keys k0 (List.mem_of_getElem? hk0)] at hitems
  obtain ⟨-, ⟨r, b2, key, o2, v, c1, c2, c3, c4⟩, A, B, target, e1, e2, e3, e4⟩ := hitems j _ hj
  rw [e1] at c1
  injection c1 with c1
  subst c1
  rw [ho'] at c2
  injection c2 with c2
  subst c2
  obtain ⟨g1, g2⟩ := change_keys hK hu hj ho ho' e1 e2
  injection g1 with g1 g1'
  injection g2 with g2 g2'
  have tt : A.tonicType = .tpc := hK.spelled.keys A (List.mem_of_getElem? e1)
  obtain ⟨d, hd, ht⟩ := (C42_one_hot A B target).1 e3
  unfold Interval at hd
  rw [tt] at hd ht
  simp only [g1, g2] at hd
  refine ⟨by omega, by omega, ?_, v, ?_, ?_⟩
  · rw [e4, ht, g2']
    simp only [specIntervals, bit]
    congr 1
    omega
  · rw [← c3]
    simp only [Chord.toVec, Chord.tonicFor, Chord.modeFor, g1, g1']
    rfl
  · rw [b2, c4]
    rfl

/-- C160 (partial: as above): in the `KeyTransitionDataset` the row of the first chord of each later key has the change
between the keys of the chords. -/
theorem C160_rows_partial (h : Tables measures notes chords red useInv u c)
    (hk : tableKeyed measures notes chords red useInv u useSusp = .ok k) (hu : u = true ∨ Plain k)
    {data : PieceData (List ℚ)} (hdata : transitionPiece k = .ok data) {i j : Nat} {o o' : Chord ℚ}
    (hj : k.keyChanges[j + 1]? = some (i + 1)) (ho : k.chords[i]? = some o) (ho' : k.chords[i + 1]? = some o') :
    ∃ row, data.rows[i + 1]? = some row ∧
      sequenceRow o' .tpc (some (plainKey o.keyTonic o.keyMode .tpc, plainKey o'.keyTonic o'.keyMode .tpc)) true = .ok row := by
  have hK := keyed h hk
  obtain ⟨k0, hk0, -, ⟨hl, hrows⟩, -⟩ := C68_transitions k hK.spelled.valid _ hdata
  rw [hK.spelled.keys k0 (List.mem_of_getElem? hk0)] at hrows
  obtain ⟨o2, row, change, a1, a2, a3, a4⟩ := hrows (i + 1) (List.getElem?_eq_some_iff.1 ho').1
  rw [ho'] at a1
  injection a1 with a1
  subst a1
  have hjl : j + 1 < k.keyChanges.length := (List.getElem?_eq_some_iff.1 hj).1
  have hkl := hK.spelled.valid.keys
  have e1 : k.keys[j]? = some k.keys[j] := List.getElem?_eq_getElem (by omega)
  have e2 : k.keys[j + 1]? = some k.keys[j + 1] := List.getElem?_eq_getElem (by omega)
  obtain ⟨g1, g2⟩ := change_keys hK hu hj ho ho' e1 e2
  injection g1 with g1 g1'
  injection g2 with g2 g2'
  have tt := hK.spelled.keys _ (List.mem_of_getElem? e1)
  rw [a3.1 j _ _ hj e1 e2] at a4
  refine ⟨row, a2, ?_⟩
  rw [← a4]
  have hv : (plainKey o.keyTonic o.keyMode .tpc).changeVector (plainKey o'.keyTonic o'.keyMode .tpc) =
      k.keys[j].changeVector k.keys[j + 1] := by
    simp only [Key.changeVector, plainKey, tt, g1, g2, g2']
  simp only [sequenceRow, hv]

/-! ## Applied keys -/

/-- V of V and I in C major, and I of G major. -/
def appliedRows : List PieceRow :=
  [⟨{ (PieceKeys.chordRow "I".toList 2 0).row with key := ⟨"C".toList, false, "I".toList, some "V".toList⟩ }, false⟩,
    PieceKeys.chordRow "I".toList 0 1, PieceKeys.chordRow "V".toList 0 2]

theorem local_tables {rows : List PieceRow} (hp : rows.map place = keyedRows.map place)
    (hr : ∀ r ∈ rows, (chordFromSeries (TablePiece.exMeasures.map MeasureRow.meter) .tpc noReduction true false none
      r.row).1.isSome = true) :
    Tables TablePiece.exMeasures TablePiece.exNotes rows noReduction true false (TablePiece.exMeasures.map (·.measure)) := by
  refine tables_congr (chords := keyedRows) { keyed_tables with readable := ?_ } hp ?_
  · intro r hr
    obtain ⟨ch, hch⟩ := Option.isSome_iff_exists.1
      (show (chordFromSeries (TablePiece.exMeasures.map MeasureRow.meter) .tpc noReduction true false none
        r.row).1.isSome = true by revert r; decide +kernel)
    exact ⟨ch, ((C78_chord _ .tpc noReduction true false none (by rintro c ⟨⟩) r.row).1 ch).1 hch⟩
  · intro r h
    obtain ⟨ch, hch⟩ := Option.isSome_iff_exists.1 (hr r h)
    exact ⟨ch, ((C78_chord _ .tpc noReduction true false none (by rintro c ⟨⟩) r.row).1 ch).1 hch⟩

/-- C160 does not hold without `use_relative` if a local key begins with an applied chord: the key changes from C major to G
major with the last of three chords, and what is learnt is the class of no change at all. -/
theorem C160_applied_fails : ∃ k data, Tables TablePiece.exMeasures TablePiece.exNotes appliedRows noReduction true false
      (TablePiece.exMeasures.map (·.measure)) ∧
    tableKeyed TablePiece.exMeasures TablePiece.exNotes appliedRows noReduction true false false = .ok k ∧
    sequencePiece k = .ok (some data) ∧ k.keyChanges = [0, 2] ∧
    k.chords.map (fun o => (o.keyTonic, o.keyMode)) = [(15, .major), (15, .major), (16, .major)] ∧
    data.targets = [KeyMode.major.value * 29 + (15 - 15 + 14)] := by
  have ht : Tables TablePiece.exMeasures TablePiece.exNotes appliedRows noReduction true false
      (TablePiece.exMeasures.map (·.measure)) := local_tables (by decide +kernel) (by decide +kernel)
  obtain ⟨k, hk, -⟩ := C150_piece_partial ht false
  have h1 : (tableKeyed TablePiece.exMeasures TablePiece.exNotes appliedRows noReduction true false false).bind (fun k =>
      (sequencePiece k).map fun o => (k.keyChanges, k.chords.map (fun o => (o.keyTonic, o.keyMode)),
        o.map fun d => d.targets)) =
      .ok ([0, 2], [(15, .major), (15, .major), (16, .major)], some [14]) := by decide +kernel
  rw [hk] at h1
  simp only [Except.bind] at h1
  cases hs : sequencePiece k with
  | error e => rw [hs] at h1; cases h1
  | ok o =>
    rw [hs] at h1
    simp only [Except.map] at h1
    have h2 := Except.ok.inj h1
    simp only [Prod.mk.injEq] at h2
    obtain ⟨e1, e2, e3⟩ := h2
    obtain ⟨data, rfl, e4⟩ := Option.map_eq_some_iff.1 e3
    exact ⟨k, data, ht, hk, hs, e1, e2, e4⟩

/-- With `use_relative` the same table has G major, C major and G major, and what is learnt are these changes. -/
example : ((tableKeyed TablePiece.exMeasures TablePiece.exNotes appliedRows noReduction true true false).bind fun k =>
    (sequencePiece k).map fun o => (k.keyChanges, k.chords.map (fun o => o.keyTonic), o.map fun d => d.targets)) =
      .ok ([0, 1, 2], [16, 15, 16], some [13, 15]) := by decide +kernel

/-- The theorems apply to a table without applied chords which is loaded without `use_relative`. -/
example : ∃ k data, Tables TablePiece.exMeasures TablePiece.exNotes keyedRows noReduction true false
      (TablePiece.exMeasures.map (·.measure)) ∧
    tableKeyed TablePiece.exMeasures TablePiece.exNotes keyedRows noReduction true false false = .ok k ∧ Plain k ∧
    sequencePiece k = .ok (some data) ∧ k.keyChanges = [0, 2] ∧ data.targets = [15] := by
  have ht : Tables TablePiece.exMeasures TablePiece.exNotes keyedRows noReduction true false
      (TablePiece.exMeasures.map (·.measure)) := local_tables rfl (by decide +kernel)
  obtain ⟨k, hk, -⟩ := C150_piece_partial ht false
  have h1 : (tableKeyed TablePiece.exMeasures TablePiece.exNotes keyedRows noReduction true false false).bind (fun k =>
      (sequencePiece k).map fun o => (k.keyChanges,
        k.keys.all (fun l => decide (l.relativeTonic = l.localTonic ∧ l.relativeMode = l.localMode)),
        o.map fun d => d.targets)) = .ok ([0, 2], true, some [15]) := by decide +kernel
  rw [hk] at h1
  simp only [Except.bind] at h1
  cases hs : sequencePiece k with
  | error e => rw [hs] at h1; cases h1
  | ok o =>
    rw [hs] at h1
    simp only [Except.map] at h1
    have h2 := Except.ok.inj h1
    simp only [Prod.mk.injEq] at h2
    obtain ⟨e1, e2, e3⟩ := h2
    obtain ⟨data, rfl, e4⟩ := Option.map_eq_some_iff.1 e3
    refine ⟨k, data, ht, hk, ?_, hs, e1, e4⟩
    intro l hl
    exact of_decide_eq_true (List.all_eq_true.1 e2 l hl)

end Verif.LocalKeys
