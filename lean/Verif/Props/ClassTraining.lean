import Verif.ClassTraining
import Verif.Props.ClassData
import Verif.Props.ChordInputs
import Verif.Props.KeyDatasetRows

/-!
# C147: what the chord classifier is trained on
-/

namespace Verif.ClassTraining

open Verif.Vectors Verif.NoteVectors Verif.ClassData Verif.ChordInputs Verif.Datasets Verif.KeyDatasets

/-! ## Pieces -/

/-- A labelled piece of a corpus: a score (C93) with notes and chords in the order of their onsets, spelled chords
which have a class, and no chord of the duration 0. -/
structure Labelled (x : ClassPiece) (c : List (Measure ℚ)) (last : Int × ℚ) (ps : List ℚ) (pe : ℚ) : Prop where
  score : Score x.measures c x.notes last ps pe
  notes : x.notes ≠ []
  ends : PieceEnd x.notes (some (x.chords.map Prod.fst)) last
  noteOrder : (x.notes.map (fun n => toLex n.onset)).Pairwise (· ≤ ·)
  chordOrder : ((x.chords.map Prod.fst).map (fun c => toLex c.onset)).Pairwise (· ≤ ·)
  durations : ∀ ch ∈ x.chords, ∃ s t, At c ch.1.onset.1 ch.1.onset.2 s ∧ At c ch.1.offset.1 ch.1.offset.2 t ∧
    ch.1.duration = t - s ∧ ch.1.duration ≠ 0
  spelled : ∀ ch ∈ x.chords, ch.2.pitchType = .tpc
  classes : ∀ ch ∈ x.chords, (0 ≤ ch.2.root ∧ ch.2.root < 35) ∧ 0 ≤ ch.2.inversion ∧
    ch.2.inversion < specInversions ch.2.chordType

/-- Type, root and inversion of a chord. -/
def label (c : Chord ℚ) : Label := ⟨c.chordType, c.root, c.inversion⟩

/-- The rows of the notes around chord `ch`, which begins at `s` and has notes `a` to `b`: two notes before it, its
notes, and two notes after it, with their places in the chord (C93). -/
def RowsOf (x : ClassPiece) (ps : List ℚ) (pe : ℚ) (ch : ChordSpan) (s : ℚ) (a b : Nat) (rows : List (List ℚ)) : Prop :=
  InputRight x.notes ps pe a b 2 (inChord s ch.duration) rows

/-- Notes `a - 2` to `b + 1` can be moved by `t`. -/
def NotesMove (x : ClassPiece) (a b : Nat) (t : Int) : Prop :=
  ∀ (i : Nat) n, x.notes[i]? = some n → a ≤ i + 2 → i < b + 2 → 0 ≤ n.pitchClass + t ∧ n.pitchClass + t < 35

theorem row_length {x : ClassPiece} {ps : List ℚ} {pe : ℚ} {ch : ChordSpan} {s : ℚ} {a b : Nat} {rows : List (List ℚ)}
    (hp : ps.length = x.notes.length) (h : RowsOf x ps pe ch s a b rows) (r : Nat) (v : List ℚ)
    (hv : rows[r]? = some v) : v.length = 71 := by
  have hr := (List.getElem?_eq_some_iff.1 hv).1
  by_cases ho : a + r < 2 ∨ 2 + x.notes.length ≤ a + r
  · have := h.outside r hr ho
    rw [hv] at this
    injection this with this
    rw [this, List.length_replicate]
  · obtain ⟨j, hj⟩ : ∃ j, a + r = 2 + j := ⟨a + r - 2, by omega⟩
    obtain ⟨v', y, z, h1, _, _, hR⟩ := h.inside r j _ _ hr hj
      (List.getElem?_eq_getElem (by omega)) (List.getElem?_eq_getElem (by omega))
    rw [hv] at h1
    injection h1 with h1
    rw [h1]
    exact hR.length

/-- Every row is empty, or marks the pitch of a note of the window. -/
theorem row_marks {x : ClassPiece} {ps : List ℚ} {pe : ℚ} {ch : ChordSpan} {s : ℚ} {a b : Nat} {rows : List (List ℚ)}
    (hs : ∀ n ∈ x.notes, Sane n)
    (hp : ps.length = x.notes.length) (h : RowsOf x ps pe ch s a b rows) (r : Nat) (v : List ℚ)
    (hv : rows[r]? = some v) : v.sum = 0 ∨ ∃ (i : Nat) (n : NoteObj), x.notes[i]? = some n ∧ a ≤ i + 2 ∧ i < b + 2 ∧
      MarksPitch .tpc n.pitchClass v := by
  have hr := (List.getElem?_eq_some_iff.1 hv).1
  have hl := h.length
  by_cases ho : a + r < 2 ∨ 2 + x.notes.length ≤ a + r
  · have := h.outside r hr ho
    rw [hv] at this
    injection this with this
    left
    rw [this]
    simp
  · right
    obtain ⟨j, hj⟩ : ∃ j, a + r = 2 + j := ⟨a + r - 2, by omega⟩
    have hn : x.notes[j]? = some (x.notes[j]'(by omega)) := List.getElem?_eq_getElem (by omega)
    obtain ⟨v', y, z, h1, _, _, hR⟩ := h.inside r j _ _ hr hj hn (List.getElem?_eq_getElem (by omega))
    rw [hv] at h1
    injection h1 with h1
    subst h1
    have hsane := hs _ (List.mem_of_getElem? hn)
    refine ⟨j, _, hn, by omega, by omega, hsane.pitch, ?_⟩
    intro i hi
    have hi : i < 35 := hi
    have hg : v[i]? = some (v[i]'(by rw [hR.length]; omega)) := List.getElem?_eq_getElem _
    have := hR.bits i _ hg (by omega)
    rw [hg, this]
    congr 1
    have ho := hsane.octave
    by_cases e : (i : Int) = (x.notes[j]'(by omega)).pitchClass
    · rw [if_pos (Or.inl e), if_pos e]
    · rw [if_neg (by omega), if_neg e]

/-! ## The dataset -/

/-- What is held of all pieces. -/
theorem dataset_ok (pieces : List ClassPiece) (hp : ∀ x ∈ pieces, ∃ c last ps pe, Labelled x c last ps pe) :
    ∃ d, classDataset pieces = .ok d ∧ d.inputs.length = (pieces.map (·.chords.length)).sum ∧
      d.targets.length = d.inputs.length ∧ d.lengths = d.inputs.map List.length ∧
      d.pitchType = firstPitchType pieces ∧
      ∀ (p : Nat) x, pieces[p]? = some x → ∀ c last ps pe, Labelled x c last ps pe →
        ∀ (k : Nat) ch, x.chords[k]? = some ch → ∃ a b s rows target,
          (pieceChordRanges (x.notes.map (fun n => (toLex n.onset, toLex n.offset)))
            ((x.chords.map Prod.fst).map (fun c => toLex c.onset)))[k]? = some (a, b) ∧
          At c ch.1.onset.1 ch.1.onset.2 s ∧ RowsOf x ps pe ch.1 s a b rows ∧ rows ≠ [] ∧
          d.inputs[itemsBefore (pieces.map (·.chords.length)) p + k]? = some rows ∧
          d.targets[itemsBefore (pieces.map (·.chords.length)) p + k]? = some target ∧
          IsTarget .tpc (label ch.2) target := by
  have hin : ∀ x ∈ pieces, ∃ out, chordNoteInputs x.notes (some (x.chords.map Prod.fst)) x.measures 2 none none = .ok out := by
    intro x hx
    obtain ⟨c, last, ps, pe, h⟩ := hp x hx
    obtain ⟨out, ho, _⟩ := C93_labels_partial h.score h.notes _ h.ends 2 (by omega) h.noteOrder h.chordOrder (by
      intro ch hch
      obtain ⟨ch', hm, rfl⟩ := List.mem_map.1 hch
      exact h.durations ch' hm)
    exact ⟨out, ho⟩
  obtain ⟨ins, hi1, hi2, hi3⟩ := Vectors.mapM_all _ pieces hin
  have htg : ∀ ch ∈ pieces.flatMap ClassPiece.chords, ∃ i, ch.2.oneHotIndex false true false noReduction = .ok i ∧
      IsTarget .tpc (label ch.2) i := by
    intro ch hch
    obtain ⟨x, hx, hc⟩ := List.mem_flatMap.1 hch
    obtain ⟨c, last, ps, pe, h⟩ := hp x hx
    obtain ⟨i, hi⟩ := (class_iff .tpc noReduction true (label ch.2) ch.2.root).1
      ⟨(h.classes ch hc).1, fun _ => (h.classes ch hc).2⟩
    refine ⟨i, ?_, hi⟩
    simp only [Chord.oneHotIndex, Bool.false_eq_true, if_false, Bind.bind, Except.bind, h.spelled ch hc]
    exact hi
  obtain ⟨ts, ht1, ht2, ht3⟩ := Vectors.mapM_all (fun c : ChordSpan × Chord ℚ => c.2.oneHotIndex false true false noReduction)
    (pieces.flatMap ClassPiece.chords) (fun ch hch => let ⟨i, hi, _⟩ := htg ch hch; ⟨i, hi⟩)
  -- the inputs of a piece
  have hone : ∀ (p : Nat) x, pieces[p]? = some x → ∀ c last ps pe, Labelled x c last ps pe →
      ∃ out, ins[p]? = some out ∧ out.length = x.chords.length ∧
        ∀ (k : Nat) ch, x.chords[k]? = some ch → ∃ a b s rows,
          (pieceChordRanges (x.notes.map (fun n => (toLex n.onset, toLex n.offset)))
            ((x.chords.map Prod.fst).map (fun c => toLex c.onset)))[k]? = some (a, b) ∧
          At c ch.1.onset.1 ch.1.onset.2 s ∧ out[k]? = some rows ∧ RowsOf x ps pe ch.1 s a b rows ∧ rows ≠ [] := by
    intro p x hx c last ps pe h
    obtain ⟨out, ho, hol, hok⟩ := C93_labels_partial h.score h.notes _ h.ends 2 (by omega) h.noteOrder h.chordOrder (by
      intro ch hch
      obtain ⟨ch', hm, rfl⟩ := List.mem_map.1 hch
      exact h.durations ch' hm)
    refine ⟨out, hi3 p x out hx ho, by rw [hol, List.length_map], ?_⟩
    intro k ch hk
    obtain ⟨a, b, s, rows, e1, e2, e3, e4, e5⟩ := hok k ch.1 (by rw [List.getElem?_map, hk]; rfl)
    refine ⟨a, b, s, rows, e1, e2, e3, e4, ?_⟩
    rintro rfl
    have := e4.length
    simp only [List.length_nil] at this
    omega
  have hlens : ins.map List.length = pieces.map (·.chords.length) := by
    apply List.ext_getElem?
    intro p
    rw [List.getElem?_map, List.getElem?_map]
    cases hx : pieces[p]? with
    | none =>
      rw [List.getElem?_eq_none (by rw [hi2]; exact List.getElem?_eq_none_iff.1 hx)]
      rfl
    | some x =>
      obtain ⟨c, last, ps, pe, h⟩ := hp x (List.mem_of_getElem? hx)
      obtain ⟨out, h1, h2, _⟩ := hone p x hx c last ps pe h
      rw [h1, Option.map_some, Option.map_some, h2]
  have hflat : ins.flatten.length = (pieces.map (·.chords.length)).sum := by
    rw [List.length_flatten, hlens]
  refine ⟨⟨ins.flatten, ins.flatten.map List.length, ts, firstPitchType pieces⟩, ?_, hflat, ?_, rfl, rfl, ?_⟩
  · simp only [classDataset, hi1, ht1, Bind.bind, Except.bind]
  · show ts.length = ins.flatten.length
    rw [ht2, hflat, List.length_flatMap]
  · intro p x hx c last ps pe h k ch hk
    obtain ⟨out, h1, h2, h3⟩ := hone p x hx c last ps pe h
    obtain ⟨a, b, s, rows, e1, e2, e3, e4, e5⟩ := h3 k ch hk
    have hkl := (List.getElem?_eq_some_iff.1 hk).1
    obtain ⟨i, hi, hT⟩ := htg ch (List.mem_flatMap.2 ⟨x, List.mem_of_getElem? hx, List.mem_of_getElem? hk⟩)
    refine ⟨a, b, s, rows, i, e1, e2, e4, e5, ?_, ?_, hT⟩
    · have := flatMap_getElem? (fun l : List (List (List ℚ)) => l) ins p k out h1 (by rw [h2]; exact hkl)
      rw [List.flatMap_id', show (ins.map fun a => a.length) = pieces.map (·.chords.length) from hlens] at this
      show ins.flatten[_]? = _
      rw [this, e3]
    · refine ht3 _ ch i ?_ hi
      rw [flatMap_getElem? ClassPiece.chords pieces p k x hx hkl, hk]

/-! ## The items -/

/-- The number of the item of chord `k` of piece `p`, transposed by `t`: chords come one after the other, each with
its transpositions from the lowest to the highest. -/
def itemOf (pieces : List ClassPiece) (s : ClassSettings) (p k : Nat) (t : Int) : Int :=
  ((itemsBefore (pieces.map (·.chords.length)) p + k : Nat) : Int) * (s.hi - s.lo + 1) + (t - s.lo)

/-- The item of a chord with the input `rows`, transposed by `t`. `tone`: the interval from the root to the bass. -/
structure Trained (s : ClassSettings) (c : Label) (t tone : Int) (rows : List (List ℚ)) (y : ClassItem) : Prop where
  /-- the class of the transposed chord, which is an output of the network -/
  target : chordOneHotIndex c.type (c.root + t) .tpc c.inversion s.useInv false false s.red = .ok y.target
  bounds : 0 ≤ y.target ∧ y.target < chordOneHotLength .tpc false s.useInv false s.red
  /-- root, bass and pitches of the transposed chord -/
  intermediate : ∃ m, y.intermediate = some m ∧ m.root = c.root + t ∧ m.bass = c.root + t + tone ∧
    MarksChord .tpc (s.red c.type) (c.root + t) m.pitches
  /-- as many rows are read as there are -/
  length : y.length = rows.length
  /-- the rows with the transposed notes -/
  inputs : ∀ (i : Nat) v, rows[i]? = some v → ∃ w, y.inputs[i]? = some w ∧
    (t = 0 → w = v) ∧ (t ≠ 0 → MovesNote .tpc t v w)
  /-- followed by zeros -/
  padding : ∀ (i : Nat) w, rows.length ≤ i → y.inputs[i]? = some w → w = zeros 71

/-- An item which is left out of the loss (`target` is -1, chord_classifier_models.py:101). -/
structure LeftOut (y : ClassItem) : Prop where
  target : y.target = -1
  length : y.length = -1
  zeros : ∀ v ∈ y.inputs, ∀ a ∈ v, a = 0

theorem first_type (pieces : List ClassPiece) (hne : pieces ≠ [])
    (hp : ∀ x ∈ pieces, ∃ c last ps pe, Labelled x c last ps pe) : firstPitchType pieces = some .tpc := by
  cases pieces with
  | nil => exact absurd rfl hne
  | cons x l =>
    obtain ⟨c, last, ps, pe, h⟩ := hp x List.mem_cons_self
    obtain ⟨ch, hl, _⟩ := h.ends
    cases hc : x.chords with
    | nil => rw [hc] at hl; cases hl
    | cons a rest =>
      simp only [firstPitchType, hc, List.head?_cons, Option.map_some]
      rw [h.spelled a (by rw [hc]; exact List.mem_cons_self)]

theorem item_of_number {lo hi : Int} (i : Nat) (t : Int) (hlo : lo ≤ t) (hhi : t ≤ hi) :
    transposedItem lo hi ((i : Int) * (hi - lo + 1) + (t - lo)) = .ok ((i : Int), t) := by
  have hn : 0 < hi - lo + 1 := by omega
  rw [transposedItem, if_neg (by omega), Int.fdiv_eq_ediv_of_nonneg _ (by omega),
    Int.fmod_eq_emod_of_nonneg _ (by omega)]
  have h1 : ((i : Int) * (hi - lo + 1) + (t - lo)) / (hi - lo + 1) = i := by
    rw [Int.add_comm, Int.add_mul_ediv_right _ _ (by omega), Int.ediv_eq_zero_of_lt (by omega) (by omega)]
    omega
  have h2 : ((i : Int) * (hi - lo + 1) + (t - lo)) % (hi - lo + 1) = t - lo := by
    rw [Int.add_comm, Int.add_mul_emod_self_right, Int.emod_eq_of_lt (by omega) (by omega)]
  rw [h1, h2]
  congr 2
  omega

/-- The item, for the contents of the dataset at its chord. -/
theorem item_eq (d : ClassDataset) (s : ClassSettings) (i : Nat) (t : Int) (hlo : s.lo ≤ t) (hhi : t ≤ s.hi)
    (hl : d.lengths = d.inputs.map List.length) (hpt : d.pitchType = some .tpc) (rows : List (List ℚ)) (target : Int)
    (hr : d.inputs[i]? = some rows) (hne : rows ≠ []) (hw : ∀ v ∈ rows, v.length = 71)
    (ht : d.targets[i]? = some target) :
    d.item s ((i : Int) * (s.hi - s.lo + 1) + (t - s.lo)) =
      reduceClass t .tpc s.red s.useInv
        ⟨target, rows.length, padTo (zeros 71) (maxLength (d.inputs.map List.length)) rows, none⟩ := by
  obtain ⟨v, vs, rfl⟩ := List.exists_cons_of_ne_nil hne
  have h0 : pyGet (v :: vs) 0 = .ok v := rfl
  have h1 : pyGet ([PitchType.tpc]) 0 = .ok PitchType.tpc := rfl
  have hlen : (d.inputs.map List.length)[i]? = some (v :: vs).length := by rw [List.getElem?_map, hr]; rfl
  simp only [ClassDataset.item, item_of_number i t hlo hhi, Bind.bind, Except.bind, pyGet_ofNat _ _ _ hr, h0,
    paddedItem, hl, pyGet_ofNat _ _ _ hlen, pyGet_ofNat _ _ _ ht, hpt, Option.toList_some, h1, hw v List.mem_cons_self]

/-- C147: the dataset of labelled pieces has one item for each chord of each piece and each transposition. It has the
class of the transposed chord, and the rows of the notes around it with transposed notes. If the root or the bass of
the transposed chord are out of range, the item is left out. The items cannot be read if the chord has no class with the
settings. Missing: transposed rows are not those of the transposed notes (`C147_rows_fail`); if a note gets out of
range, it loses its pitch (`C86_notes_fail`); and chords of the duration 0 (`C93_fails_zero`) and pieces without
chords (`C147_unlabelled_fails`) are not possible. -/
theorem C147_items_partial (pieces : List ClassPiece) (hne : pieces ≠ [])
    (hp : ∀ x ∈ pieces, ∃ c last ps pe, Labelled x c last ps pe) :
    ∃ d, classDataset pieces = .ok d ∧
      (∀ s, d.size s = (pieces.map (·.chords.length)).sum * (s.hi - s.lo + 1)) ∧
      ∀ (p : Nat) x, pieces[p]? = some x → ∀ c last ps pe, Labelled x c last ps pe →
        ∀ (k : Nat) ch, x.chords[k]? = some ch → ∃ a b start rows,
          (pieceChordRanges (x.notes.map (fun n => (toLex n.onset, toLex n.offset)))
            ((x.chords.map Prod.fst).map (fun c => toLex c.onset)))[k]? = some (a, b) ∧
          At c ch.1.onset.1 ch.1.onset.2 start ∧ RowsOf x ps pe ch.1 start a b rows ∧
          ∀ (s : ClassSettings) (t : Int), (∀ ct, s.red (s.red ct) = s.red ct) → s.lo ≤ t → t ≤ s.hi →
            (¬ HasClass .tpc s.red s.useInv (label ch.2) ch.2.root →
              d.item s (itemOf pieces s p k t) = .error .valueError) ∧
            (HasClass .tpc s.red s.useInv (label ch.2) ch.2.root →
              (ch.2.root + t < 0 ∨ 35 ≤ ch.2.root + t →
                ∃ y, d.item s (itemOf pieces s p k t) = .ok y ∧ LeftOut y) ∧
              (0 ≤ ch.2.root + t → ch.2.root + t < 35 → (t ≠ 0 → NotesMove x a b t) →
                ∀ tone, (specTones .tpc (s.red ch.2.chordType))[(usedInversion s.useInv (label ch.2)).toNat]? = some tone →
                  ∃ y, d.item s (itemOf pieces s p k t) = .ok y ∧
                    (0 ≤ ch.2.root + t + tone ∧ ch.2.root + t + tone < 35 → Trained s (label ch.2) t tone rows y) ∧
                    (¬ (0 ≤ ch.2.root + t + tone ∧ ch.2.root + t + tone < 35) → LeftOut y))) := by
  obtain ⟨d, hd, h1, h2, h3, h4, h5⟩ := dataset_ok pieces hp
  refine ⟨d, hd, ?_, ?_⟩
  · intro s
    rw [ClassDataset.size, transposedLength, h1]
  intro p x hx c last ps pe hL k ch hk
  obtain ⟨a, b, start, rows, target, e1, e2, e3, e4, e5, e6, e7⟩ := h5 p x hx c last ps pe hL k ch hk
  refine ⟨a, b, start, rows, e1, e2, e3, ?_⟩
  intro s t hred hlo hhi
  have hpl : ps.length = x.notes.length := by
    have := List.Forall₂.length_eq hL.score.onsets; rw [List.length_map] at this; exact this.symm
  have hw : ∀ v ∈ rows, v.length = 71 := by
    intro v hv
    obtain ⟨r, hr⟩ := List.getElem?_of_mem hv
    exact row_length hpl e3 r v hr
  have hitem := item_eq d s _ t hlo hhi h3 (by rw [h4, first_type pieces hne hp]) rows target e5 e4 hw e6
  have hnum : itemOf pieces s p k t =
    ((itemsBefore (pieces.map (·.chords.length)) p + k : Nat) : Int) * (s.hi - s.lo + 1) + (t - s.lo) := rfl
  rw [hnum, hitem]
  have hmax : rows.length ≤ maxLength (d.inputs.map List.length) :=
    le_maxLength (List.mem_map.2 ⟨rows, List.mem_of_getElem? e5, rfl⟩)
  generalize maxLength (d.inputs.map List.length) = L at hmax
  have htake : (padTo (zeros 71) L rows).take ((rows.length : Int)).toNat = rows := by
    rw [Int.toNat_natCast]; exact padTo_take _ _ _
  refine ⟨fun hno => C86_unreduced t .tpc s.red s.useInv _ (label ch.2) e7 hno, fun hcl => ⟨?_, ?_⟩⟩
  · intro hout
    obtain ⟨y, hy, hu⟩ := C86_root_out t .tpc s.red s.useInv
      ⟨target, rows.length, padTo (zeros 71) L rows, none⟩ (label ch.2) hred e7 hcl hout
    exact ⟨y, hy, hu.target, hu.length, hu.zeros⟩
  · intro hr0 hr1 hmove tone htone
    have h1' : HasClass .tpc s.red s.useInv (label ch.2) (ch.2.root + t) := ⟨⟨hr0, hr1⟩, hcl.2⟩
    have hmov : t ≠ 0 → ∀ v ∈ (padTo (zeros 71) L rows).take ((rows.length : Int)).toNat, Movable .tpc t v := by
      intro ht v hv
      rw [htake] at hv
      obtain ⟨r, hr⟩ := List.getElem?_of_mem hv
      rcases row_marks hL.score.sane hpl e3 r v hr with h | ⟨i, n, hn, hi1, hi2, hm⟩
      · exact Or.inl h
      · exact Or.inr ⟨n.pitchClass, hm, hmove ht i n hn hi1 hi2⟩
    by_cases hb : 0 ≤ ch.2.root + t + tone ∧ ch.2.root + t + tone < 35
    · obtain ⟨y, m, hy, g1, g2, g3, g4, g5, g6, g7, g8, g9⟩ := C86_item_partial t .tpc s.red s.useInv
        ⟨target, rows.length, padTo (zeros 71) L rows, none⟩ (label ch.2) hred e7 hcl h1' tone htone
        (fun _ => ⟨hb.1, by have := hb.2; show ch.2.root + t + tone ≤ 34; omega⟩) hmov
      refine ⟨y, hy, fun _ => ?_, fun h => absurd hb h⟩
      obtain ⟨b1, b2, _⟩ := C01_encode_decode _ _ _ _ _ _ _ _ _ g2
      refine ⟨g2, ⟨b1, b2⟩, ⟨m, g1, g3, g4, g5⟩, g6, ?_, ?_⟩
      · intro i v hv
        have hil := (List.getElem?_eq_some_iff.1 hv).1
        have hpv : (padTo (zeros 71) L rows)[i]? = some v := by rw [padTo_getElem?, if_pos hil]; exact hv
        by_cases ht : t = 0
        · exact ⟨v, by rw [g8 ht]; exact hpv, fun _ => rfl, fun h => absurd ht h⟩
        · obtain ⟨w, hw1, hw2⟩ := g9 ht i v hpv
          refine ⟨w, hw1, fun h => absurd h ht, fun _ => ?_⟩
          rcases hw2 with ⟨_, h⟩ | ⟨h, _⟩
          · exact h
          · exact absurd h (by show ¬ ((rows.length : Int) ≤ i); omega)
      · intro i w hi hw'
        have hpad : ∀ v, (padTo (zeros 71) L rows)[i]? = some v → v = zeros 71 :=
          fun v hv => (padTo_padded (zeros 71) L rows hmax).2.2 i v hi hv
        by_cases ht : t = 0
        · rw [g8 ht] at hw'
          exact hpad w hw'
        · have hil : i < (padTo (zeros 71) L rows).length := by
            have := (List.getElem?_eq_some_iff.1 hw').1
            rw [g7] at this; exact this
          obtain ⟨w', hw1, hw2⟩ := g9 ht i _ (List.getElem?_eq_getElem hil)
          rw [hw'] at hw1
          injection hw1 with hw1
          subst hw1
          rcases hw2 with ⟨h, _⟩ | ⟨_, h⟩
          · exact absurd h (by show ¬ ((i : Int) < rows.length); omega)
          · rw [h]; exact hpad _ (List.getElem?_eq_getElem hil)
    · obtain ⟨y, hy, hu⟩ := C86_bass_out t .tpc s.red s.useInv
        ⟨target, rows.length, padTo (zeros 71) L rows, none⟩ (label ch.2) rfl hred e7 hcl h1' tone htone
        (by show ch.2.root + t + tone < 0 ∨ 35 ≤ ch.2.root + t + tone; omega) hmov
      exact ⟨y, hy, fun h => absurd h hb, fun _ => ⟨hu.target, hu.length, hu.zeros⟩⟩

/-- C147: each number below the length of the dataset is that of exactly one chord and transposition. -/
theorem C147_numbers (pieces : List ClassPiece) (s : ClassSettings) (hs : s.lo ≤ s.hi) (j : Int) (h0 : 0 ≤ j)
    (h1 : j < (pieces.map (·.chords.length)).sum * (s.hi - s.lo + 1)) :
    ∃ p k t x, (pieces[p]? = some x ∧ k < x.chords.length ∧ s.lo ≤ t ∧ t ≤ s.hi ∧ j = itemOf pieces s p k t) ∧
      ∀ p' k' t' x', pieces[p']? = some x' → k' < x'.chords.length → s.lo ≤ t' → t' ≤ s.hi →
        j = itemOf pieces s p' k' t' → p' = p ∧ k' = k ∧ t' = t := by
  have hn : 0 < s.hi - s.lo + 1 := by omega
  have hq0 : 0 ≤ j / (s.hi - s.lo + 1) := Int.ediv_nonneg h0 (by omega)
  have hq1 : j / (s.hi - s.lo + 1) < (pieces.map (·.chords.length)).sum := Int.ediv_lt_of_lt_mul hn h1
  have hr0 := Int.emod_nonneg j (show s.hi - s.lo + 1 ≠ 0 by omega)
  have hr1 := Int.emod_lt_of_pos j hn
  have hdm := Int.mul_ediv_add_emod j (s.hi - s.lo + 1)
  obtain ⟨p, k, n, ⟨a1, a2, a3⟩, huniq⟩ := C44_key_unique (pieces.map (·.chords.length)) (j / (s.hi - s.lo + 1)).toNat
    (by omega)
  rw [List.getElem?_map, Option.map_eq_some_iff] at a1
  obtain ⟨x, hx, rfl⟩ := a1
  refine ⟨p, k, s.lo + j % (s.hi - s.lo + 1), x, ⟨hx, a2, by omega, by omega, ?_⟩, ?_⟩
  · rw [itemOf, ← a3, Int.toNat_of_nonneg hq0, Int.mul_comm]
    omega
  · intro p' k' t' x' hx' hk' hlo hhi hj
    have hinv := item_of_number (itemsBefore (pieces.map (·.chords.length)) p' + k') t' hlo hhi
    rw [← itemOf.eq_1 pieces s p' k' t', ← hj, transposedItem, if_neg (by omega),
      Int.fdiv_eq_ediv_of_nonneg _ (by omega), Int.fmod_eq_emod_of_nonneg _ (by omega)] at hinv
    injection hinv with hinv
    rw [Prod.mk.injEq] at hinv
    obtain ⟨e1, e2⟩ := huniq p' k' _ (by rw [List.getElem?_map, hx']; rfl) hk' (by rw [hinv.1]; rfl)
    exact ⟨e1, e2, hinv.2.symm⟩

/-- C147: the dataset is the same after an h5 file, whatever the chunk size. -/
theorem C147_h5 (pieces : List ClassPiece) (hne : pieces ≠ [])
    (hp : ∀ x ∈ pieces, ∃ c last ps pe, Labelled x c last ps pe) (d : ClassDataset) (hd : classDataset pieces = .ok d)
    (size : Nat) (hs : 0 < size) : d.throughH5 size = .ok d := by
  obtain ⟨d', hd', h1, h2, h3, h4, h5⟩ := dataset_ok pieces hp
  rw [hd] at hd'
  injection hd' with hd'
  subst hd'
  have hine : d.inputs ≠ [] := by
    obtain ⟨x, l, rfl⟩ := List.exists_cons_of_ne_nil hne
    obtain ⟨c, last, ps, pe, h⟩ := hp x List.mem_cons_self
    obtain ⟨ch, hl, _⟩ := h.ends
    intro he
    rw [he] at h1
    cases hc : x.chords with
    | nil => rw [hc] at hl; cases hl
    | cons a rest => simp [hc] at h1; omega
  have hr := C66_round_trip_partial (zeros ((d.inputs.flatten.head?.map List.length).getD 0)) d.inputs size hs hine
  have hpad : padArray (zeros ((d.inputs.flatten.head?.map List.length).getD 0)) d.inputs = .ok
      (d.inputs.map (padTo (zeros ((d.inputs.flatten.head?.map List.length).getD 0)) (maxLength (d.inputs.map List.length))),
        d.inputs.map List.length) := by
    rw [padArray]
    exact if_neg (by simpa using hine)
  simp only [h5RoundTrip, hpad, Bind.bind, Except.bind, Option.getD_none] at hr
  injection hr with hr
  simp only [ClassDataset.throughH5, hpad, Bind.bind, Except.bind, hr]
  rw [← h3]

/-- C147 fails for a piece with an empty list of chords: no dataset can be made of it and other pieces. -/
theorem C147_unlabelled_fails (pieces : List ClassPiece) (x : ClassPiece) (hx : x ∈ pieces) (hc : x.chords = [])
    (d : ClassDataset) : classDataset pieces ≠ .ok d := by
  intro h
  simp only [classDataset, Bind.bind] at h
  obtain ⟨ins, hi, h⟩ := Vectors.bind_ok h
  obtain ⟨_, hall⟩ := mapM_inv _ _ _ hi
  obtain ⟨i, hxi⟩ := List.getElem?_of_mem hx
  obtain ⟨out, _, ho⟩ := hall i x hxi
  rw [hc] at ho
  have hl : lastOffset (some ([] : List (Int ×ₗ ℚ))) (x.notes.map fun n => toLex n.offset) = .error .indexError := rfl
  simp only [chordNoteInputs, Option.isNone_none, Bool.or_self, List.map_nil, Option.map_some, Bind.bind, Except.bind,
    hl] at ho
  cases ho

/-- C147 fails for the transposed rows: the row of a note, transposed by an interval other than octaves, is the row of
no note at all, because its height (entry 69) is not transposed. -/
theorem C147_rows_fail {W : NoteObj → Prop} {n : NoteObj} {place : ℚ × ℚ × ℚ} {before after : ℚ} {v w : List ℚ} {t : Int}
    (hn : Sane n) (hv : RowRight W n place before after v) (hs : v.sum ≠ 0) (ht : ¬ (12 ∣ t)) (hw : MovesNote .tpc t v w) :
    ∀ W' m place' before' after', Sane m → ¬ RowRight W' m place' before' after' w := by
  intro W' m place' before' after' hm hR
  rcases hw with ⟨h, _⟩ | ⟨_, pc, h1, h2, _, h4⟩
  · exact hs h
  -- the marked pitches
  have hmark : ∀ {u : List ℚ} {W pl x y} {q : NoteObj} {a : Int}, Sane q → RowRight W q pl x y u → MarksPitch .tpc a u →
      a = q.pitchClass := by
    intro u W pl x y q a hq hu ha
    have hp := hq.pitch
    have h35 : q.pitchClass.toNat < 35 := by omega
    have e1 := ha.2 q.pitchClass.toNat h35
    have e2 := hu.bits q.pitchClass.toNat _ e1 (by omega)
    rw [if_pos (Or.inl (by omega))] at e2
    by_contra hne
    rw [if_neg (by omega)] at e2
    norm_num at e2
  have e1 := hmark hn hv h1
  have e2 := hmark hm hR h2
  have e3 := h4 69 (by decide)
  rw [hv.height, hR.height] at e3
  injection e3 with e3
  have e4 : (number m : ℚ) = number n := by
    have h127 : (127 : ℚ) ≠ 0 := by norm_num
    field_simp at e3
    exact_mod_cast e3
  have e5 : number m = number n := by exact_mod_cast e4
  simp only [number] at e5
  omega

/-! ## An example -/

/-- The piece of C93 with two chords: C major, and G7 in first inversion. -/
def exPiece : ClassPiece :=
  ⟨exNotes, exT, [(⟨(1, 0), (1, 3/4), 3/4⟩, ⟨15, 15, 15, .major, .major, 0, 3, 2, 3/4, .tpc⟩),
    (⟨(1, 3/4), (2, 1), 5/4⟩, ⟨16, 20, 15, .major, .majMin7, 1, 2, 3, 5/4, .tpc⟩)]⟩

theorem ex_labelled : Labelled exPiece exT (2, 1) [0, 1/2, 1] 2 where
  score := ex_score
  notes := by decide
  ends := ⟨_, rfl, rfl⟩
  noteOrder := by decide +kernel
  chordOrder := by decide +kernel
  durations := by
    have p0 : ∀ b : ℚ, chainPos exT 0 b = b := fun b => by simp [chainPos, exT]
    have p1 : ∀ b : ℚ, chainPos exT 1 b = 1 + b := fun b => by simp [chainPos, exT]
    intro ch hch
    simp only [exPiece, List.mem_cons, List.not_mem_nil, or_false] at hch
    rcases hch with rfl | rfl
    · exact ⟨0, 3/4, ⟨0, _, rfl, rfl, by rw [p0]⟩, ⟨0, _, rfl, rfl, by rw [p0]⟩, by norm_num, by norm_num⟩
    · exact ⟨3/4, 2, ⟨0, _, rfl, rfl, by rw [p0]⟩, ⟨1, _, rfl, rfl, by rw [p1]; norm_num⟩, by norm_num, by norm_num⟩
  spelled := by decide
  classes := by decide

/-- Two copies of the piece, transposed from two fifths down to a fifth up, with triads: 16 items. Items 12 to 15 are
those of the G triad of the second copy, from F to D. -/
example : ((classDataset [exPiece, exPiece]).bind fun d =>
      ((pyRange 12 (d.size ⟨triadReduction, true, -2, 1⟩)).mapM fun j =>
        d.item ⟨triadReduction, true, -2, 1⟩ j).map fun l => l.map fun y => (y.target, y.length, y.intermediate.map (·.bass))) =
    (([14, 15, 16, 17] : List Int).mapM fun r =>
      (chordOneHotIndex .major r .tpc 1 true false false noReduction).map fun t => (t, 6, some (r + 4))) := by
  decide +kernel

/-- Fifteen fifths higher, the root of G7 is in range, but not its bass: the item is left out. Without inversions, it is
not. -/
example : ((classDataset [exPiece]).bind fun d => d.item ⟨noReduction, true, 15, 15⟩ 1).map (fun y => (y.target, y.length)) =
      .ok (-1, -1) ∧
    ((classDataset [exPiece]).bind fun d => d.item ⟨noReduction, false, 15, 15⟩ 1).map (fun y => y.length) = .ok 6 := by
  decide +kernel

end Verif.ClassTraining
