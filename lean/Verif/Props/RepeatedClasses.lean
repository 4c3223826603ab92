import Verif.Props.PieceKeys
import Verif.Props.ChordIndex
import Verif.Props.Labels

/-!
# C115: repeated chords and keys are those with equal indices
-/

namespace Verif.RepeatedClasses

open Verif Verif.PieceKeys

/-- C115: two chords whose class indices exist are repeats of one another iff they have the same pitch type and the
same index. -/
theorem C115_chords (u : Bool) (c d : SeriesChord) (i j : Int)
    (hi : c.chord.oneHotIndex false u false noReduction = .ok i)
    (hj : d.chord.oneHotIndex false u false noReduction = .ok j) :
    c.isRepeated u false d = true ↔ c.chord.pitchType = d.chord.pitchType ∧ i = j := by
  simp only [Chord.oneHotIndex, Bool.false_eq_true, if_false, Bind.bind, Except.bind] at hi hj
  rw [same_iff]
  constructor
  · rintro ⟨h1, h2, h3, h4, _⟩
    refine ⟨h1, ?_⟩
    cases u with
    | true =>
      rw [h1, h2, h3, h4 rfl, hj] at hi
      simpa using hi.symm
    | false =>
      rw [h1, h2, h3] at hi
      have : chordOneHotIndex d.chord.chordType d.chord.root d.chord.pitchType c.chord.inversion false false false
          noReduction = chordOneHotIndex d.chord.chordType d.chord.root d.chord.pitchType d.chord.inversion false false
          false noReduction := by
        simp [chordOneHotIndex]
      rw [this, hj] at hi
      simpa using hi.symm
  · rintro ⟨h1, rfl⟩
    rw [← h1] at hj
    obtain ⟨h2, h3, h4⟩ := C02_injective _ _ _ _ _ _ _ _ _ _ _ _ hi hj
    exact ⟨h1, h2, h3, h4, by simp⟩

/-- C115: two keys whose indices exist are equal iff they have the same pitch type and the same index. -/
theorem C115_keys (k l : Key) (i j : Int) (hi : k.oneHotIndex = .ok i) (hj : l.oneHotIndex = .ok j) :
    Key.equals true k l = true ↔ k.tonicType = l.tonicType ∧ i = j := by
  rw [equals_iff]
  constructor
  · rintro ⟨h1, h2⟩
    refine ⟨h1, ?_⟩
    simp only [tonicMode, if_true, Prod.mk.injEq] at h2
    simp only [Key.oneHotIndex] at hi hj
    rw [h1, h2.1, h2.2, hj] at hi
    simpa using hi.symm
  · rintro ⟨h1, rfl⟩
    refine ⟨h1, ?_⟩
    simp only [Key.oneHotIndex] at hi hj
    rw [← h1] at hj
    have e1 := C03_encode_decode k.relativeMode k.relativeTonic k.tonicType
    have e2 := C03_encode_decode l.relativeMode l.relativeTonic k.tonicType
    split at e1
    · obtain ⟨x, hx, _, _, dx⟩ := e1
      split at e2
      · obtain ⟨y, hy, _, _, dy⟩ := e2
        rw [hx, Except.ok.injEq] at hi
        rw [hy, Except.ok.injEq] at hj
        subst hi hj
        rw [dx, Except.ok.injEq, Prod.mk.injEq] at dy
        simp [tonicMode, dy.1, dy.2]
      · rw [hj] at e2; cases e2
    · rw [hi] at e1; cases e1

/-- C115: adjacent chords of a piece that was read from a table have different class indices. -/
theorem C115_piece_chords (T : List MeterRow) (red : Reduction) (useInv u : Bool) (cache : Option LevelCache)
    (rows : List PieceRow) (out : PieceHarmony) (h : pieceHarmony T red useInv u false cache rows = .ok out) :
    out.chords.IsChain fun c d => ∀ i j, c.chord.oneHotIndex false useInv false noReduction = .ok i →
      d.chord.oneHotIndex false useInv false noReduction = .ok j → c.chord.pitchType = d.chord.pitchType → i ≠ j := by
  obtain ⟨gs, _, hrun, _, hchain⟩ := C79_chords T red useInv u false cache rows out h
  have key : ∀ (gs : List (SeriesChord × List SeriesChord)) (cs : List SeriesChord), List.Forall₂ IsRun gs cs →
      List.IsChain (fun x y => ¬ SameChord useInv false x y) (gs.map (·.1)) →
      cs.IsChain fun c d => ¬ SameChord useInv false c d := by
    intro gs cs hr
    induction hr with
    | nil => intro _; exact .nil
    | cons hg hr ih =>
      rename_i g c gs' cs'
      intro hc
      cases hr with
      | nil => exact .singleton _
      | cons hg' hr' =>
        rename_i g' c' gs'' cs''
        rw [List.map_cons, List.map_cons, List.isChain_cons_cons] at hc
        rw [List.isChain_cons_cons]
        refine ⟨?_, ih hc.2⟩
        rw [IsRun] at hg hg'
        intro hs
        refine hc.1 ?_
        rw [hg, hg'] at hs
        exact hs
  refine (key gs out.chords hrun hchain).imp ?_
  intro c d hcd i j hi hj hpt hij
  exact hcd ((same_iff useInv false c d).1 ((C115_chords useInv c d i j hi hj).2 ⟨hpt, hij⟩))

/-- C115: adjacent keys of a piece that was read from a table have different key indices. -/
theorem C115_piece_keys (T : List MeterRow) (red : Reduction) (useInv useSusp : Bool) (cache : Option LevelCache)
    (hc : FromSeries.CacheRight cache) (rows : List PieceRow) (out : PieceHarmony)
    (h : pieceHarmony T red useInv true useSusp cache rows = .ok out) :
    out.keys.IsChain fun k l => ∀ i j, k.oneHotIndex = .ok i → l.oneHotIndex = .ok j → k.tonicType = l.tonicType →
      i ≠ j := by
  have hone : (readChords T red useInv true cache rows).length ≠ 1 := by
    intro h1
    simp [pieceHarmony, squeezed, h1, Bind.bind, Except.bind] at h
  obtain ⟨out', h', _, _, _, _, hchain, _⟩ := C79_piece_partial T red useInv true useSusp cache hc rows hone
  rw [h, Except.ok.injEq] at h'
  subst h'
  refine hchain.imp ?_
  intro k l hkl i j hi hj hpt hij
  exact hkl ((equals_iff true k l).1 ((C115_keys k l i j hi hj).2 ⟨hpt, hij⟩)).2

/-- The chords I, I, V6 of C major: the repeated one is merged, and the others have different indices. -/
example : (pieceHarmony fourMeasures noReduction true true false (some [])
      [chordRow "I".toList 0 0, chordRow "I".toList 0 1, chordRow "V".toList (-2) 2]).map
        (fun p => p.chords.map fun c => c.chord.oneHotIndex false true false noReduction) =
    .ok [.ok 45, .ok 42] := by decide +kernel

/-- Without inversions, a chord and its inversion are repeats of one another; with inversions they are not. -/
example :
    let c : SeriesChord := ⟨⟨15, 15, 15, .major, .major, 0, 0, 0, 1, .tpc⟩, (0, 0), (1, 0), none⟩
    let d : SeriesChord := ⟨⟨15, 19, 15, .major, .major, 1, 0, 0, 1, .tpc⟩, (1, 0), (2, 0), none⟩
    c.isRepeated false false d = true ∧ c.isRepeated true false d = false ∧
    c.chord.oneHotIndex false false false noReduction = d.chord.oneHotIndex false false false noReduction ∧
    c.chord.oneHotIndex false true false noReduction = .ok 45 ∧
    d.chord.oneHotIndex false true false noReduction = .ok 46 := by
  decide +kernel

end Verif.RepeatedClasses
