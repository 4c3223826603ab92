import Verif.Props.Renumber
import Verif.Props.JointInit
import Verif.Props.Eval
import Verif.Ranges
import Mathlib.Tactic.FieldSimp
import Mathlib.Tactic.Ring
import Mathlib.Tactic.Positivity

/-!
# The note values in which a piece is written (C156)

The same music can be written in halves in 4/2, in quarters in 4/4 or in eighths in 4/8. Metrical levels, places within
chords, ranges and accuracies do not depend on this. The distances of notes and the durations of chords in the inputs of
the models do: they are in whole notes.
-/

namespace Verif.NoteValues

open Verif Renumber

/-- A position with all note values multiplied. -/
def at' (c : ℚ) (p : Int × ℚ) : Int × ℚ := (p.1, c * p.2)

def stretchMeasure (c : ℚ) (m : Measure ℚ) : Measure ℚ := { m with actDur := c * m.actDur, offset := c * m.offset }

def stretchNote (c : ℚ) (n : NoteObj) : NoteObj :=
  { n with onset := at' c n.onset, offset := at' c n.offset, duration := c * n.duration, mcOnset := c * n.mcOnset }

def stretchSpan (c : ℚ) (x : ChordSpan) : ChordSpan := ⟨at' c x.onset, at' c x.offset, c * x.duration⟩

variable {c : ℚ}

/-! ## Lengths -/

theorem findMeasure_stretch (T : List (Measure ℚ)) (mc : Int) :
    findMeasure (T.map (stretchMeasure c)) mc = (findMeasure T mc).map (stretchMeasure c) := by
  simp only [findMeasure, List.find?_map]
  congr 2

theorem measureAt_stretch (T : List (Measure ℚ)) (mc : Int) :
    measureAt (T.map (stretchMeasure c)) mc = (measureAt T mc).map (stretchMeasure c) := by
  simp only [measureAt, findMeasure_stretch]
  cases findMeasure T mc <;> rfl

theorem walkMeasures_stretch (T : List (Measure ℚ)) (e : Int) (fuel : Nat) (mc : Option Int) (len : ℚ) :
    walkMeasures (T.map (stretchMeasure c)) e fuel mc (c * len) = (walkMeasures T e fuel mc len).map (c * ·) := by
  induction fuel generalizing mc len with
  | zero =>
    cases mc with
    | none => rfl
    | some mc =>
      simp only [walkMeasures]
      split <;> rfl
  | succ fuel ih =>
    cases mc with
    | none => rfl
    | some mc =>
      simp only [walkMeasures, measureAt_stretch]
      split
      · rfl
      · cases measureAt T mc with
        | error e => rfl
        | ok m =>
          have := ih m.next (len + m.actDur)
          rw [mul_add] at this
          exact this

theorem forwardLength_stretch (T : List (Measure ℚ)) (s e : Int × ℚ) :
    forwardLength (T.map (stretchMeasure c)) (at' c s) (at' c e) = (forwardLength T s e).map (c * ·) := by
  simp only [forwardLength, at', measureAt_stretch, List.length_map]
  split
  · simp [Except.map, mul_sub]
  · cases measureAt T s.1 with
    | error e => rfl
    | ok m =>
      simp only [Except.map, Bind.bind, Except.bind]
      have := walkMeasures_stretch (c := c) T e.1 T.length m.next (m.actDur + m.offset - s.2)
      rw [mul_sub, mul_add] at this
      simp only [stretchMeasure] at this ⊢
      rw [this]
      cases walkMeasures T e.1 T.length m.next (m.actDur + m.offset - s.2) with
      | error e => rfl
      | ok l =>
        cases measureAt T e.1 with
        | error e => rfl
        | ok m' => simp [Except.map, mul_add, mul_sub]

theorem pairGt_stretch (hc : 0 < c) (a b : Int × ℚ) : pairGt (at' c a) (at' c b) ↔ pairGt a b := by
  simp [pairGt, at', hc]

/-- C156: distances are multiplied. -/
theorem C156_lengths (hc : 0 < c) (T : List (Measure ℚ)) (s e : Int × ℚ) :
    getRangeLength (T.map (stretchMeasure c)) (at' c s) (at' c e) = (getRangeLength T s e).map (c * ·) := by
  simp only [getRangeLength, pairGt_stretch hc, forwardLength_stretch]
  split
  · cases forwardLength T e s with
    | error e => rfl
    | ok l => simp [Except.map, Bind.bind, Except.bind]
  · rfl

/-- C156: the place and the length of a note, as a proportion of a range, are the same. -/
theorem C156_proportions (hc : 0 < c) (T : List (Measure ℚ)) (n : Int × ℚ) (d : ℚ) (s e : Int × ℚ) (l : Option ℚ) :
    rhythmicInfo (T.map (stretchMeasure c)) (at' c n) (c * d) (at' c s) (at' c e) (l.map (c * ·)) =
      rhythmicInfo T n d s e l := by
  have hne : c ≠ 0 := hc.ne'
  have main : ∀ len : ℚ, rhythmicInfo (T.map (stretchMeasure c)) (at' c n) (c * d) (at' c s) (at' c e) (some (c * len)) =
      rhythmicInfo T n d s e (some len) := by
    intro len
    have h1 : (at' c n).1 = n.1 := rfl
    have h2 : (at' c s).1 = s.1 := rfl
    have h3 : (at' c e).1 = e.1 := rfl
    simp only [rhythmicInfo, C156_lengths hc, h1, h2, h3, Bind.bind, Except.bind, mul_eq_zero, hne, false_or]
    split
    · rfl
    · split
      · cases getRangeLength T s n with
        | error e => rfl
        | ok x => simp [Except.map, mul_div_mul_left _ _ hne]
      · cases getRangeLength T n e with
        | error e => rfl
        | ok x => simp [Except.map, mul_div_mul_left _ _ hne]
  cases l with
  | some l => exact main l
  | none =>
    have h := C156_lengths hc T s e
    have hn : ∀ (T : List (Measure ℚ)) (n : Int × ℚ) (d : ℚ) (s e : Int × ℚ), rhythmicInfo T n d s e none =
        (getRangeLength T s e).bind fun len => rhythmicInfo T n d s e (some len) := by
      intro T n d s e
      rfl
    rw [Option.map_none, hn, hn, h]
    cases getRangeLength T s e with
    | error e => rfl
    | ok x => exact main x

/-! ## Metrical levels -/

theorem fracMod_stretch (hc : c ≠ 0) (a b : ℚ) : fracMod (c * a) (c * b) = (fracMod a b).map (c * ·) := by
  simp only [fracMod, mul_eq_zero, hc, false_or, mul_div_mul_left _ _ hc]
  split
  · rfl
  · simp only [Except.map, Except.ok.injEq]; ring

theorem lengths_stretch (num den den' : Int) (hd : den ≠ 0) (hd' : den' ≠ 0) (h : c = (den : ℚ) / den') :
    metricalLevelLengths num den' =
      (metricalLevelLengths num den).map fun x => (c * x.1, c * x.2.1, c * x.2.2) := by
  have h1 : (den : ℚ) ≠ 0 := by exact_mod_cast hd
  have h2 : (den' : ℚ) ≠ 0 := by exact_mod_cast hd'
  simp only [metricalLevelLengths, hd, hd', ↓reduceIte]
  split
  · simp only [Except.map, Except.ok.injEq, Prod.mk.injEq, h]
    refine ⟨?_, ?_, ?_⟩ <;> field_simp
  · simp only [Except.map, Except.ok.injEq, Prod.mk.injEq, h]
    refine ⟨?_, ?_, ?_⟩ <;> field_simp

/-- C156: a beat has the same metrical level in 4/2, 4/4 and 4/8, and so on. -/
theorem C156_levels (beat : ℚ) (num den den' : Int) (hd : den ≠ 0) (hd' : den' ≠ 0) :
    metricalLevel ((den : ℚ) / den' * beat) num den' = metricalLevel beat num den := by
  have h1 : (den : ℚ) ≠ 0 := by exact_mod_cast hd
  have h2 : (den' : ℚ) ≠ 0 := by exact_mod_cast hd'
  have hc : (den : ℚ) / den' ≠ 0 := div_ne_zero h1 h2
  simp only [metricalLevel, lengths_stretch num den den' hd hd' rfl]
  cases metricalLevelLengths num den with
  | error e => rfl
  | ok x =>
    obtain ⟨m, b, s⟩ := x
    simp only [Except.map, Bind.bind, Except.bind, fracMod_stretch hc]
    cases fracMod beat m with
    | error e => rfl
    | ok a =>
      simp only [mul_eq_zero, hc, false_or]
      split
      · rfl
      · cases fracMod beat b with
        | error e => rfl
        | ok a =>
          simp only [mul_eq_zero, hc, false_or]
          split
          · rfl
          · cases fracMod beat s with
            | error e => rfl
            | ok a => simp only [mul_eq_zero, hc, false_or]

/-! ## Inputs from notes -/

/-- A row of an input from notes with the two distances multiplied: they stand before the last 13 entries. -/
def stretchRow (c : ℚ) (v : List ℚ) : List ℚ :=
  v.mapIdx fun i x => if i + 15 = v.length ∨ i + 14 = v.length then c * x else x

theorem mapIdx_same {f : Nat → ℚ → ℚ} (l : List ℚ) (h : ∀ i x, i < l.length → f i x = x) : l.mapIdx f = l := by
  apply List.ext_getElem
  · simp
  · intro i h1 h2
    simp [h i _ h2]

theorem stretchRow_parts (a b : List ℚ) (p q : ℚ) (hb : b.length = 13) :
    stretchRow c (a ++ [p, q] ++ b) = a ++ [c * p, c * q] ++ b := by
  have hl : (a ++ [p, q] ++ b).length = a.length + 15 := by simp [hb]
  simp only [stretchRow, hl]
  rw [List.mapIdx_append, List.mapIdx_append]
  congr 1
  · congr 1
    · refine mapIdx_same a fun i x hi => ?_
      rw [if_neg (by omega)]
    · have e : 1 + a.length = a.length + 1 := by omega
      simp [e]
  · refine mapIdx_same b fun i x hi => ?_
    rw [if_neg]
    simp only [List.length_append, List.length_cons, List.length_nil]
    omega

theorem stretchRow_zero (n : Nat) : stretchRow c (List.replicate n 0) = List.replicate n 0 := by
  refine List.ext_getElem (by simp [stretchRow]) fun i h1 h2 => ?_
  simp [stretchRow]

theorem stretchRow_length (v : List ℚ) : (stretchRow c v).length = v.length := by simp [stretchRow]

theorem toVec_stretch (x : NoteVec) :
    NoteVec.toVec { x with durs := (c * x.durs.1, c * x.durs.2) } = x.toVec.map (stretchRow c) := by
  simp only [NoteVec.toVec, NoteVec.isMin, NoteVec.lowestOctave, NoteVec.relHeight, Bind.bind, Except.bind]
  cases oneHot (NUM_PITCHES x.pitchType).toNat x.pitchClass with
  | error e => rfl
  | ok v1 =>
  cases oneHot (127 / (NUM_PITCHES .midi).toNat) x.octave with
  | error e => rfl
  | ok v2 =>
  cases oneHot 4 x.onsetLevel with
  | error e => rfl
  | ok v3 =>
  cases oneHot 4 x.offsetLevel with
  | error e => rfl
  | ok v4 =>
  cases midiNoteNumber x.pitchClass x.octave x.pitchType with
  | error e => rfl
  | ok midi =>
  simp only
  generalize x.octave - _ = o
  cases h : oneHot (127 / (NUM_PITCHES .midi).toNat) o with
  | error e => rfl
  | ok v5 =>
    have hl := JointInit.oneHot_length h
    have h10 : 127 / (NUM_PITCHES .midi).toNat = 10 := by decide
    rw [h10] at hl
    simp only [Except.map, Except.ok.injEq]
    generalize v1 ++ v2 ++ v3 ++ v4 ++ [x.rhythm.1, x.rhythm.2.1, x.rhythm.2.2] = a
    simp only [List.append_assoc]
    rw [← List.append_assoc a, ← List.append_assoc a, stretchRow_parts]
    simp [hl]

theorem noteRhythm_stretch (hc : 0 < c) (T : List (Measure ℚ)) (n : NoteObj) (on off : Int × ℚ) (d : ℚ)
    (o : Option ℚ) :
    noteRhythm (T.map (stretchMeasure c)) (stretchNote c n) (at' c on) (at' c off) (c * d) (o.map (c * ·)) =
      noteRhythm T n on off d o := by
  cases o with
  | none => exact C156_proportions hc T n.onset n.duration on off (some d)
  | some o =>
    have hne : c ≠ 0 := hc.ne'
    simp only [noteRhythm, Option.map_some, mul_eq_zero, hne, false_or, stretchNote, mul_div_mul_left _ _ hne]

theorem getD_stretch (o : Option ℚ) : (o.map (c * ·)).getD 0 = c * o.getD 0 := by
  cases o <;> simp

theorem noteVector_stretch (hc : 0 < c) (T : List (Measure ℚ)) (on off : Int × ℚ) (d : ℚ) (lo hi : Int × Int)
    (n : NoteObj) (o p q : Option ℚ) :
    noteVector (T.map (stretchMeasure c)) (at' c on) (at' c off) (c * d) lo hi (stretchNote c n) (o.map (c * ·))
      (p.map (c * ·)) (q.map (c * ·)) = (noteVector T on off d lo hi n o p q).map (stretchRow c) := by
  simp only [noteVector, noteRhythm_stretch hc, getD_stretch]
  cases noteRhythm T n on off d o with
  | error e => rfl
  | ok r => exact toVec_stretch ⟨n.pitchClass, n.octave, n.onsetLevel, n.offsetLevel, n.pitchType, r,
      (p.getD 0, q.getD 0), some lo, some hi⟩

theorem at_inj (hc : 0 < c) (a b : Int × ℚ) : at' c a = at' c b ↔ a = b := by
  simp [at', Prod.ext_iff, hc.ne']

theorem spanPlace_stretch (hc : 0 < c) (y : Option (Int × ℚ)) (x : Int × ℚ) :
    spanPlace (y.map (at' c)) (at' c x) = at' c (spanPlace y x) := by
  cases y with
  | none => rfl
  | some y =>
    simp only [Option.map_some, spanPlace, at_inj hc]
    split <;> rfl

theorem spanAligns_stretch (hc : 0 < c) (y : Option (Int × ℚ)) (x : Int × ℚ) :
    spanAligns (y.map (at' c)) (at' c x) = spanAligns y x := by
  cases y with
  | none => rfl
  | some y => simp only [Option.map_some, spanAligns, at_inj hc]

theorem sum_stretch (l : List ℚ) : (l.map (c * ·)).sum = c * l.sum := by
  induction l with
  | nil => simp
  | cons a l ih => simp [ih, mul_add]

theorem noteOnsets_stretch (cache : List ℚ) (change first last : Nat) :
    noteOnsets (cache.map (c * ·)) change first last = (noteOnsets cache change first last).map (c * ·) := by
  simp only [noteOnsets, List.map_map]
  refine List.map_congr_left fun k _ => ?_
  simp only [Function.comp_apply, ← List.map_take, ← List.map_drop, sum_stretch]
  split
  · ring
  · split
    · rfl
    · simp

theorem stackRows_stretch (l : List (List ℚ)) :
    stackRows (l.map (stretchRow c)) = (stackRows l).map fun x => (x.1, x.2.map (stretchRow c)) := by
  cases l with
  | nil => rfl
  | cons v l =>
    simp only [List.map_cons, stackRows, List.all_map, Function.comp_def, stretchRow_length]
    split <;> rfl

theorem mapM_map {α β γ δ : Type} (f : β → Py δ) (g : α → β) (h : α → Py γ) (k : γ → δ)
    (hf : ∀ a, f (g a) = (h a).map k) (l : List α) : (l.map g).mapM f = (l.mapM h).map (List.map k) := by
  induction l with
  | nil => rfl
  | cons a l ih =>
    simp only [List.map_cons, List.mapM_cons, hf, ih]
    cases h a with
    | error e => rfl
    | ok x => cases l.mapM h <;> rfl

theorem chordNoteInput_stretch (hc : 0 < c) (notes : List NoteObj) (T : List (Measure ℚ)) (on off : Int × ℚ) (d : ℚ)
    (change first last window : Nat) (cache : List ℚ) (y : Option ChordSpan) :
    chordNoteInput (notes.map (stretchNote c)) (T.map (stretchMeasure c)) (at' c on) (at' c off) (c * d) change first
      last window (cache.map (c * ·)) (y.map (stretchSpan c)) =
    (chordNoteInput notes T on off d change first last window cache y).map (List.map (stretchRow c)) := by
  have e1 : (y.map (stretchSpan c)).map ChordSpan.onset = (y.map ChordSpan.onset).map (at' c) := by
    cases y <;> rfl
  have e2 : (y.map (stretchSpan c)).map ChordSpan.offset = (y.map ChordSpan.offset).map (at' c) := by
    cases y <;> rfl
  have e3 : (cache.map (c * ·)).map some = (cache.map some).map (Option.map (c * ·)) := by
    simp only [List.map_map]; rfl
  have e4 : (none :: (cache.map some).map (Option.map (c * ·)) : List (Option ℚ)) =
      (none :: cache.map some).map (Option.map (c * ·)) := rfl
  simp only [chordNoteInput, e1, e2, e3, e4, spanAligns_stretch hc, spanPlace_stretch hc, List.length_map, pySlice_map,
    noteOnsets_stretch]
  generalize pySlice notes _ _ = inside
  generalize pySlice (none :: cache.map some) _ _ = prev
  generalize (pySlice cache _ _).map some = next
  rw [mapM_shift (g := stretchNote c) (h := fun n => do
    let m ← n.midiNumber
    .ok (n.octave, m)) (hf := fun n => rfl)]
  generalize hO : (if spanAligns (y.map ChordSpan.onset) on = true then
    (noteOnsets cache change _ _).map some else inside.map fun _ => none : List (Option ℚ)) = O
  have hO' : (if spanAligns (y.map ChordSpan.onset) on = true then
      ((noteOnsets cache change (max ((first : Int) - window) 0).toNat
        (min ((last : Int) + window) notes.length).toNat).map (c * ·)).map some
      else (inside.map (stretchNote c)).map fun _ => none : List (Option ℚ)) = O.map (Option.map (c * ·)) := by
    rw [← hO]
    split
    · simp only [List.map_map]; rfl
    · simp only [List.map_map]; rfl
  rw [hO']
  simp only [Bind.bind]
  cases inside.mapM (fun n => do
    let m ← n.midiNumber
    .ok (n.octave, m)) with
  | error e => rfl
  | ok pitches =>
  simp only [Except.bind]
  cases minPair pitches with
  | error e => rfl
  | ok lowest =>
  simp only
  cases maxPair pitches with
  | error e => rfl
  | ok highest =>
  simp only
  have hz : (inside.map (stretchNote c)).zip ((O.map (Option.map (c * ·))).zip
      ((prev.map (Option.map (c * ·))).zip (next.map (Option.map (c * ·))))) =
      (inside.zip (O.zip (prev.zip next))).map fun x => (stretchNote c x.1, x.2.1.map (c * ·), x.2.2.1.map (c * ·),
        x.2.2.2.map (c * ·)) := by
    rw [List.zip_map, List.zip_map, List.zip_map]; rfl
  rw [hz, mapM_map _ _ _ _ (fun x : NoteObj × Option ℚ × Option ℚ × Option ℚ => noteVector_stretch hc T
    (spanPlace (y.map ChordSpan.onset) on) (spanPlace (y.map ChordSpan.offset) off) d lowest highest x.1 x.2.1
    x.2.2.1 x.2.2.2)]
  cases (inside.zip (O.zip (prev.zip next))).mapM (fun x : NoteObj × Option ℚ × Option ℚ × Option ℚ =>
    noteVector T (spanPlace (y.map ChordSpan.onset) on) (spanPlace (y.map ChordSpan.offset) off) d lowest highest
      x.1 x.2.1 x.2.2.1 x.2.2.2) with
  | error e => rfl
  | ok rows =>
    simp only [Except.map, stackRows_stretch]
    cases stackRows rows with
    | error e => rfl
    | ok w => simp [stretchRow_zero]

theorem pieceChordInput_stretch (hc : 0 < c) (notes : List NoteObj) (T : List (Measure ℚ)) (cache : List ℚ)
    (last : Int × ℚ) (window : Nat) (range : Nat × Nat) (change : Nat) (y : Option ChordSpan) :
    pieceChordInput (notes.map (stretchNote c)) (T.map (stretchMeasure c)) (cache.map (c * ·)) (at' c last) window range
      change (y.map (stretchSpan c)) =
    (pieceChordInput notes T cache last window range change y).map (List.map (stretchRow c)) := by
  have e : rangeEnd (notes.map (stretchNote c)) (at' c last) range.2 = at' c (rangeEnd notes last range.2) := by
    simp only [rangeEnd, List.getElem?_map]
    cases notes[range.2]? <;> rfl
  simp only [pieceChordInput, pyGet_map, e]
  cases pyGet notes change with
  | error e => rfl
  | ok n =>
    simp only [Except.map, Bind.bind, Except.bind]
    have := chordNoteInput_stretch hc notes T n.onset (rangeEnd notes last range.2)
    cases y with
    | none =>
      simp only [Option.map_none, ← List.map_take, ← List.map_drop, sum_stretch]
      exact this _ _ _ _ _ _ none
    | some y => exact this _ _ _ _ _ _ (some y)

theorem at_lt (hc : 0 < c) (a b : Lex (Int × ℚ)) : toLex (at' c (ofLex a)) < toLex (at' c (ofLex b)) ↔ a < b := by
  simp [Prod.Lex.lt_iff, at', hc]

theorem at_le (hc : 0 < c) (a b : Lex (Int × ℚ)) : toLex (at' c (ofLex a)) ≤ toLex (at' c (ofLex b)) ↔ a ≤ b := by
  simp [Prod.Lex.le_iff, at', hc]

theorem mapPy_map {α β γ δ : Type} (f : β → Py δ) (g : α → β) (h : α → Py γ) (k : γ → δ)
    (hf : ∀ a, f (g a) = (h a).map k) (l : List α) : mapPy f (l.map g) = (mapPy h l).map (List.map k) := by
  induction l with
  | nil => rfl
  | cons a l ih =>
    simp only [List.map_cons, mapPy, hf, ih]
    cases h a with
    | error e => rfl
    | ok x => cases mapPy h l <;> rfl

theorem durationCache_stretch (hc : 0 < c) (T : List (Measure ℚ)) (onsets : List (Int × ℚ)) (last : Int × ℚ) :
    durationCache (T.map (stretchMeasure c)) (onsets.map (at' c)) (at' c last) =
      (durationCache T onsets last).map (List.map (c * ·)) := by
  have h : (onsets.map (at' c)).zip ((onsets.map (at' c)).drop 1 ++ [at' c last]) =
      (onsets.zip (onsets.drop 1 ++ [last])).map fun p => (at' c p.1, at' c p.2) := by
    rw [← List.map_drop, show [at' c last] = [last].map (at' c) from rfl, ← List.map_append, List.zip_map]
    rfl
  simp only [durationCache, h]
  exact mapPy_map _ _ _ _ (fun p => C156_lengths hc T p.1 p.2) _

/-- C156: in the inputs of the chord classifier, only the two distances of each note change: they are multiplied. -/
theorem C156_inputs (hc : 0 < c) (notes : List NoteObj) (chords : Option (List ChordSpan)) (T : List (Measure ℚ))
    (window : Nat) (ranges : Option (List (Nat × Nat))) (changes : Option (List Nat)) :
    chordNoteInputs (notes.map (stretchNote c)) (chords.map (List.map (stretchSpan c))) (T.map (stretchMeasure c)) window
      ranges changes =
    (chordNoteInputs notes chords T window ranges changes).map (List.map (List.map (stretchRow c))) := by
  let f : Lex (Int × ℚ) → Lex (Int × ℚ) := fun a => toLex (at' c (ofLex a))
  have hlt : ∀ a b, f a < f b ↔ a < b := at_lt hc
  have hle : ∀ a b, f a ≤ f b ↔ a ≤ b := at_le hc
  have ht : ((notes.map (stretchNote c)).map fun n => (n.onset, n.offset)).map (fun t => (toLex t.1, toLex t.2)) =
      ((notes.map fun n => (n.onset, n.offset)).map fun t => (toLex t.1, toLex t.2)).map
        fun n => (f n.1, f n.2) := by
    simp only [List.map_map]; rfl
  have hf : ∀ l : List (Lex (Int × ℚ) × Lex (Int × ℚ)), (l.map fun n => (f n.1, f n.2)).map Prod.fst =
      (l.map Prod.fst).map f := by
    intro l; simp only [List.map_map]; rfl
  have hs : ∀ l : List ChordSpan, ((l.map (stretchSpan c)).map fun c => toLex c.onset) =
      (l.map fun c => toLex c.onset).map f := by
    intro l; simp only [List.map_map]; rfl
  have ho : ((notes.map (stretchNote c)).map fun n => toLex n.offset) = (notes.map fun n => toLex n.offset).map f := by
    simp only [List.map_map]; rfl
  have hk : (chords.map (List.map (stretchSpan c))).map (fun l : List ChordSpan => l.map fun c => toLex c.offset) =
      (chords.map fun l : List ChordSpan => l.map fun c => toLex c.offset).map (List.map f) := by
    cases chords with
    | none => rfl
    | some l => simp only [Option.map_some, List.map_map]; rfl
  have hn : (notes.map (stretchNote c)).map NoteObj.onset = (notes.map NoteObj.onset).map (at' c) := by
    simp only [List.map_map]; rfl
  have body : ∀ (rs : List (Nat × Nat)) (cs : List Nat) (chosen : List (Option ChordSpan)),
      inputsOf (notes.map (stretchNote c)) (chords.map (List.map (stretchSpan c))) (T.map (stretchMeasure c)) window rs cs
        (chosen.map (Option.map (stretchSpan c))) =
      (inputsOf notes chords T window rs cs chosen).map (List.map (List.map (stretchRow c))) := by
    intro rs cs chosen
    simp only [inputsOf]
    rw [hk, ho, lastOffset_map hlt, hn]
    cases lastOffset (chords.map (fun l : List ChordSpan => l.map fun c => toLex c.offset)) (notes.map fun n => toLex n.offset) with
    | error e => rfl
    | ok last =>
      simp only [Except.map, Bind.bind, Except.bind]
      have hd := durationCache_stretch hc T (notes.map NoteObj.onset) (ofLex last)
      have hl : ofLex (f last) = at' c (ofLex last) := rfl
      rw [hl, hd]
      cases durationCache T (notes.map NoteObj.onset) (ofLex last) with
      | error e => rfl
      | ok cache =>
        simp only [Except.map]
        rw [List.zip_map_right, List.zip_map_right]
        exact mapM_map _ _ _ _ (fun x => pieceChordInput_stretch hc notes T cache (ofLex last) window x.1 x.2.1
          x.2.2) _
  cases chords with
  | none =>
    cases ranges with
    | none => rfl
    | some rs =>
      cases changes with
      | none => rfl
      | some cs =>
        have := body rs cs (rs.map fun _ => none)
        rw [show (rs.map fun _ => (none : Option ChordSpan)).map (Option.map (stretchSpan c)) = rs.map fun _ => none by
          simp] at this
        exact this
  | some l =>
    let times (notes : List NoteObj) :=
      (notes.map fun n => (n.onset, n.offset)).map fun t => (toLex t.1, toLex t.2)
    have hr : pieceChordRanges (times (notes.map (stretchNote c))) ((l.map (stretchSpan c)).map fun c => toLex c.onset) =
        pieceChordRanges (times notes) (l.map fun c => toLex c.onset) := by
      simp only [times, ht, hs, pieceChordRanges_map hlt hle]
    have hch : chordChanges ((times (notes.map (stretchNote c))).map Prod.fst) 0
          ((l.map (stretchSpan c)).map fun c => toLex c.onset) =
        chordChanges ((times notes).map Prod.fst) 0 (l.map fun c => toLex c.onset) := by
      simp only [times, ht, hs, hf, chordChanges_map hlt]
    have hl : (l.map (stretchSpan c)).map some = (l.map some).map (Option.map (stretchSpan c)) := by
      simp only [List.map_map]; rfl
    have nn : ∀ (N : List NoteObj) (l : List ChordSpan) (T : List (Measure ℚ)),
        chordNoteInputs N (some l) T window none none =
        inputsOf N (some l) T window (pieceChordRanges (times N) (l.map fun c => toLex c.onset))
          (chordChanges ((times N).map Prod.fst) 0 (l.map fun c => toLex c.onset)) (l.map some) := fun _ _ _ => rfl
    have ns : ∀ (N : List NoteObj) (l : List ChordSpan) (T : List (Measure ℚ)) (cs : List Nat),
        chordNoteInputs N (some l) T window none (some cs) =
        inputsOf N (some l) T window (pieceChordRanges (times N) (l.map fun c => toLex c.onset)) cs (l.map some) :=
      fun _ _ _ _ => rfl
    have sn : ∀ (N : List NoteObj) (l : List ChordSpan) (T : List (Measure ℚ)) (rs : List (Nat × Nat)),
        chordNoteInputs N (some l) T window (some rs) none =
        inputsOf N (some l) T window rs (chordChanges ((times N).map Prod.fst) 0 (l.map fun c => toLex c.onset))
          (l.map some) := fun _ _ _ _ => rfl
    cases ranges with
    | none =>
      cases changes with
      | none => rw [Option.map_some, nn, nn, hr, hch, hl]; exact body _ _ _
      | some cs => rw [Option.map_some, ns, ns, hr, hl]; exact body _ _ _
    | some rs =>
      cases changes with
      | none => rw [Option.map_some, sn, sn, hch, hl]; exact body _ _ _
      | some cs =>
        have := body rs cs (rs.map fun _ => none)
        rw [show (rs.map fun _ => (none : Option ChordSpan)).map (Option.map (stretchSpan c)) = rs.map fun _ => none by
          simp] at this
        exact this

/-! ## Possible ranges and accuracies -/

section
variable {π κ : Type} [LE π] [DecidableLE π] [LT π] [DecidableLT π] [Add κ] [Sub κ] [Zero κ]

/-- The input of `get_chord_ranges` with all durations multiplied. -/
def stretchInput (c : ℚ) (A : RangeInput π κ ℚ) : RangeInput π κ ℚ :=
  { A with dur := fun i => c * A.dur i, maxLen := c * A.maxLen }

omit [Sub κ] [Zero κ] in
theorem scan_stretch (hc : 0 < c) (A : RangeInput π κ ℚ) (start fuel index : Nat) (running : κ) (rdur : ℚ)
    (fc fk : List Int) (st : RState κ) :
    RangeInput.scan (stretchInput c A) start fuel index running (c * rdur) fc fk st =
      RangeInput.scan A start fuel index running rdur fc fk st := by
  induction fuel generalizing index running rdur fc fk st with
  | zero => rfl
  | succ fuel ih =>
    have hi : (stretchInput c A).invalid index = A.invalid index := by
      simp [RangeInput.invalid, stretchInput, hc.ne']
    have hs : c * rdur + (stretchInput c A).dur (index - 1) = c * (rdur + A.dur (index - 1)) := by
      simp only [stretchInput]; ring
    have hm : c * (rdur + A.dur (index - 1)) > (stretchInput c A).maxLen ↔ rdur + A.dur (index - 1) > A.maxLen := by
      simp [stretchInput, hc]
    simp only [RangeInput.scan, hi, hs, hm, ih]
    rfl

/-- C156: the same ranges may be chords if the longest length of a chord is given in the same note values. -/
theorem C156_ranges (hc : 0 < c) (A : RangeInput π κ ℚ) :
    RangeInput.getChordRanges (stretchInput c A) = RangeInput.getChordRanges A := by
  have hs : ∀ start st, RangeInput.scanStart (stretchInput c A) start st = RangeInput.scanStart A start st := by
    intro start st
    have h0 : (if start = 0 then (stretchInput c A).dur 0 else 0) = c * (if start = 0 then A.dur 0 else 0) := by
      split
      · rfl
      · simp
    simp only [RangeInput.scanStart, h0, scan_stretch hc]
    rfl
  have hl : ∀ fuel st, RangeInput.loop (stretchInput c A) fuel st = RangeInput.loop A fuel st := by
    intro fuel
    induction fuel with
    | zero => intro st; rfl
    | succ fuel ih =>
      intro st
      simp only [RangeInput.loop, hs, ih]
  simp only [RangeInput.getChordRanges]
  rw [hl]
  rfl

end

theorem accumulate_stretch (hc : c ≠ 0) {α : Type} (sim : α → Py ℚ) (cache : List ℚ) (l : List α) (acc : ℚ) :
    accumulate sim ((cache.map (c * ·)).zip l) (c * acc) = (accumulate sim (cache.zip l) acc).map (c * ·) := by
  induction cache generalizing l acc with
  | nil => rfl
  | cons d cache ih =>
    cases l with
    | nil => rfl
    | cons x l =>
      simp only [List.map_cons, List.zip_cons_cons, accumulate, mul_eq_zero, hc, false_or]
      split
      · exact ih l acc
      · cases sim x with
        | error e => rfl
        | ok s =>
          have := ih l (acc + s * d)
          rw [← this]
          simp only
          congr 1
          ring

theorem accuracy_stretch (hc : c ≠ 0) {α : Type} (sim : α → Py ℚ) (cache : List ℚ) (l : List α) :
    ((accumulate sim ((cache.map (c * ·)).zip l) 0).bind fun acc => average acc (cache.map (c * ·))) =
      (accumulate sim (cache.zip l) 0).bind fun acc => average acc cache := by
  have h := accumulate_stretch hc sim cache l 0
  rw [mul_zero] at h
  rw [h]
  cases accumulate sim (cache.zip l) 0 with
  | error e => rfl
  | ok acc => simp [Except.map, Except.bind, average, sum_stretch, hc, mul_div_mul_left _ _ hc]

/-- What is evaluated, with all durations multiplied. -/
def stretchEval {δ : Type} (c : ℚ) (A : EvalInput δ) : EvalInput δ := { A with cache := A.cache.map (c * ·) }

/-- C156: the accuracies do not depend on the note values. -/
theorem C156_accuracy (hc : c ≠ 0) {δ : Type} (A : EvalInput δ) (pt qt : PitchType) (useInv : Bool) (red : Reduction)
    (tonicOnly : Bool) :
    evaluateChords (stretchEval c A) pt useInv red = evaluateChords A pt useInv red ∧
    evaluateKeys (stretchEval c A) qt tonicOnly = evaluateKeys A qt tonicOnly ∧
    evaluateJointly (stretchEval c A) pt qt useInv red tonicOnly = evaluateJointly A pt qt useInv red tonicOnly := by
  have hC : chordArrays (stretchEval c A) = chordArrays A := rfl
  have hK : keyArrays (stretchEval c A) = keyArrays A := rfl
  refine ⟨?_, ?_, ?_⟩
  · simp only [evaluateChords, hC]
    cases chordArrays A with
    | error e => rfl
    | ok x => exact accuracy_stretch hc _ A.cache (x.1.zip x.2)
  · simp only [evaluateKeys, hK]
    cases keyArrays A with
    | error e => rfl
    | ok x => exact accuracy_stretch hc _ A.cache (x.1.zip x.2)
  · simp only [evaluateJointly, hC, hK]
    cases chordArrays A with
    | error e => rfl
    | ok x =>
      cases keyArrays A with
      | error e => rfl
      | ok y => exact accuracy_stretch hc _ A.cache ((x.1.zip x.2).zip (y.1.zip y.2))

/-! ## Pieces read from tables

All note values are divided by a natural number, and the denominators of the time signatures are multiplied by it. -/

/-- What a note value is multiplied with. -/
def part (k : Nat) : ℚ := 1 / k

def shortMeter (k : Nat) (m : MeterRow) : MeterRow := { m with den := k * m.den }

def shortMeasureRow (k : Nat) (m : MeasureRow) : MeasureRow :=
  { m with measure := stretchMeasure (part k) m.measure, den := k * m.den }

def shortNoteRow (k : Nat) (r : NoteRow) : NoteRow :=
  { r with
    onset := part k * r.onset
    offsetBeat := part k * r.offsetBeat
    duration := part k * r.duration
    mcOnset := r.mcOnset.map (part k * ·) }

def shortChordRow (k : Nat) (r : PieceRow) : PieceRow :=
  { r with row := { r.row with
      onset := part k * r.row.onset
      onsetNext := part k * r.row.onsetNext
      duration := part k * r.row.duration } }

def stretchChord (c : ℚ) (x : Chord ℚ) : Chord ℚ := { x with duration := c * x.duration }

def stretchSeries (c : ℚ) (x : SeriesChord) : SeriesChord :=
  { x with chord := stretchChord c x.chord, onset := at' c x.onset, offset := at' c x.offset }

def stretchPiece (c : ℚ) (x : ClassPiece) : ClassPiece :=
  ⟨x.notes.map (stretchNote c), x.measures.map (stretchMeasure c),
    x.chords.map fun y => (stretchSpan c y.1, stretchChord c y.2)⟩

def shortKey (k : Nat) (e : Int × Int × ℚ) : Int × Int × ℚ := (e.1, k * e.2.1, part k * e.2.2)

def shortCache (k : Nat) (l : LevelCache) : LevelCache := l.map fun e => (shortKey k e.1, e.2)

variable {k : Nat}

theorem part_pos (hk : 0 < k) : 0 < part k := by
  have : (0 : ℚ) < k := by exact_mod_cast hk
  simp only [part]; positivity

theorem level_short (hk : 0 < k) (beat : ℚ) (num den : Int) :
    metricalLevel (part k * beat) num (k * den) = metricalLevel beat num den := by
  by_cases hd : den = 0
  · simp [hd, metricalLevel, metricalLevelLengths, Bind.bind, Except.bind]
  · have hk' : (k : Int) ≠ 0 := by omega
    have h := C156_levels beat num den (k * den) hd (mul_ne_zero hk' hd)
    have h1 : (den : ℚ) ≠ 0 := by exact_mod_cast hd
    have h2 : (k : ℚ) ≠ 0 := by exact_mod_cast hk.ne'
    have e : (den : ℚ) / ((k * den : Int) : ℚ) = part k := by
      push_cast
      simp only [part]
      field_simp
    rw [e] at h
    exact h

theorem shortKey_inj (hk : 0 < k) (a b : Int × Int × ℚ) : shortKey k a = shortKey k b ↔ a = b := by
  have h1 : (k : Int) ≠ 0 := by omega
  have h2 := (part_pos hk).ne'
  simp only [shortKey, Prod.ext_iff, mul_right_inj' h1, mul_right_inj' h2]

theorem lookup_short (hk : 0 < k) (l : LevelCache) (a : Int × Int × ℚ) :
    (shortCache k l).lookup (shortKey k a) = l.lookup a := by
  induction l with
  | nil => rfl
  | cons e l ih =>
    obtain ⟨b, v⟩ := e
    simp only [shortCache, List.map_cons, List.lookup_cons] at ih ⊢
    by_cases h : a = b
    · simp [h]
    · have h' : (shortKey k a == shortKey k b) = false := by simp [shortKey_inj hk, h]
      have h'' : (a == b) = false := by simp [h]
      rw [h', h'']
      exact ih

theorem meterOf_short (T : List MeterRow) (mc : Int) :
    meterOf (T.map (shortMeter k)) mc = (meterOf T mc).map (shortMeter k) := by
  have h : (T.map (shortMeter k)).filter (fun m => decide (m.mc = mc)) =
      (T.filter (fun m => decide (m.mc = mc))).map (shortMeter k) := by
    rw [List.filter_map]
    congr 1
  simp only [meterOf, h]
  generalize T.filter (fun m => decide (m.mc = mc)) = l
  rcases l with _ | ⟨m, _ | ⟨m', l⟩⟩ <;> rfl

theorem levelAt_short (hk : 0 < k) (T : List MeterRow) (cache : Option LevelCache) (mc : Int) (beat : ℚ) :
    levelAt (T.map (shortMeter k)) (cache.map (shortCache k)) mc (part k * beat) =
      ((levelAt T cache mc beat).1, (levelAt T cache mc beat).2.map (shortCache k)) := by
  simp only [levelAt, meterOf_short]
  cases meterOf T mc with
  | error e => rfl
  | ok m =>
    simp only [Except.map]
    cases cache with
    | none => simp only [levelCached, Option.map_none, shortMeter, level_short hk]
    | some l =>
      have hl := lookup_short hk l (m.num, m.den, beat)
      simp only [shortKey] at hl
      simp only [levelCached, Option.map_some, shortMeter, hl, level_short hk]
      cases l.lookup (m.num, m.den, beat) with
      | some v => rfl
      | none => cases metricalLevel beat m.num m.den <;> rfl

theorem noteFromSeries_short (hk : 0 < k) (T : List MeterRow) (pt : PitchType) (cache : Option LevelCache)
    (r : NoteRow) :
    noteFromSeries (T.map (shortMeter k)) pt (cache.map (shortCache k)) (shortNoteRow k r) =
      ((noteFromSeries T pt cache r).1.map (stretchNote (part k)),
        (noteFromSeries T pt cache r).2.map (shortCache k)) := by
  have hp : rowPitch (shortNoteRow k r) pt = rowPitch r pt := by cases pt <;> rfl
  have h1 := levelAt_short hk T cache r.mc r.onset
  simp only [noteFromSeries, hp]
  cases rowPitch r pt with
  | error e => rfl
  | ok pitch =>
    simp only [shortNoteRow, h1]
    rcases levelAt T cache r.mc r.onset with ⟨_ | l1, cache'⟩
    · rfl
    · simp only [levelAt_short hk]
      rcases levelAt T cache' r.offsetMc r.offsetBeat with ⟨_ | l2, cache''⟩
      · rfl
      · simp only [Option.map_some, Prod.mk.injEq, Option.some.injEq, and_true, mkNote, stretchNote, at']
        cases r.mcOnset <;> rfl

theorem notesFromTable_short (hk : 0 < k) (T : List MeterRow) (pt : PitchType) (cache : Option LevelCache)
    (rows : List NoteRow) :
    notesFromTable (T.map (shortMeter k)) pt (cache.map (shortCache k)) (rows.map (shortNoteRow k)) =
      ((notesFromTable T pt cache rows).1.map (Option.map (stretchNote (part k))),
        (notesFromTable T pt cache rows).2.map (shortCache k)) := by
  induction rows generalizing cache with
  | nil => rfl
  | cons r rows ih => simp only [List.map_cons, notesFromTable, noteFromSeries_short hk, ih]

theorem pieceNotes_short (hk : 0 < k) (T : List MeterRow) (rows : List NoteRow) :
    pieceNotes (T.map (shortMeter k)) (rows.map (shortNoteRow k)) =
      ((pieceNotes T rows).1.map (List.map fun x => (stretchNote (part k) x.1, x.2)),
        (pieceNotes T rows).2.map (shortCache k)) := by
  have h := notesFromTable_short hk T .tpc (some []) rows
  rw [show Option.map (shortCache k) (some []) = some [] from rfl] at h
  simp only [pieceNotes, h, List.length_map, ← squeezed_map]
  congr 2
  rw [List.zip_map_left, List.filterMap_map, List.map_filterMap]
  congr 1
  funext x
  rcases x with ⟨_ | n, i⟩ <;> rfl

theorem chordFromSeries_short (hk : 0 < k) (T : List MeterRow) (pt : PitchType) (red : Reduction)
    (useInv useRel : Bool) (cache : Option LevelCache) (r : PieceRow) :
    chordFromSeries (T.map (shortMeter k)) pt red useInv useRel (cache.map (shortCache k)) (shortChordRow k r).row =
      ((chordFromSeries T pt red useInv useRel cache r.row).1.map (stretchSeries (part k)),
        (chordFromSeries T pt red useInv useRel cache r.row).2.map (shortCache k)) := by
  have hh : seriesHarmony (shortChordRow k r).row pt red useInv = seriesHarmony r.row pt red useInv := rfl
  have hn : (shortChordRow k r).row.numeral = r.row.numeral := rfl
  simp only [chordFromSeries, hh, hn]
  split
  · rfl
  · cases seriesHarmony r.row pt red useInv with
    | error e => rfl
    | ok h =>
      have h1 := levelAt_short hk T cache r.row.mc r.row.onset
      simp only [seriesLevels, shortChordRow, h1]
      rcases levelAt T cache r.row.mc r.row.onset with ⟨_ | l1, cache'⟩
      · rfl
      · simp only [levelAt_short hk]
        rcases levelAt T cache' r.row.mcNext r.row.onsetNext with ⟨_ | l2, cache''⟩ <;> rfl

theorem chordsFromTable_short (hk : 0 < k) (T : List MeterRow) (pt : PitchType) (red : Reduction)
    (useInv useRel : Bool) (cache : Option LevelCache) (rows : List PieceRow) :
    chordsFromTable (T.map (shortMeter k)) pt red useInv useRel (cache.map (shortCache k))
        ((rows.map (shortChordRow k)).map (·.row)) =
      ((chordsFromTable T pt red useInv useRel cache (rows.map (·.row))).1.map (Option.map (stretchSeries (part k))),
        (chordsFromTable T pt red useInv useRel cache (rows.map (·.row))).2.map (shortCache k)) := by
  induction rows generalizing cache with
  | nil => rfl
  | cons r rows ih => simp only [List.map_cons, chordsFromTable, chordFromSeries_short hk, ih]

theorem readChords_short (hk : 0 < k) (T : List MeterRow) (red : Reduction) (useInv useRel : Bool)
    (cache : Option LevelCache) (rows : List PieceRow) :
    readChords (T.map (shortMeter k)) red useInv useRel (cache.map (shortCache k)) (rows.map (shortChordRow k)) =
      (readChords T red useInv useRel cache rows).map fun x => (stretchSeries (part k) x.1, shortChordRow k x.2) := by
  simp only [readChords, chordsFromTable_short hk]
  rw [List.zip_map, List.filterMap_map, List.map_filterMap]
  congr 1
  funext x
  rcases x with ⟨_ | n, i⟩ <;> rfl

theorem mergeWith_stretch (a b : SeriesChord) :
    (stretchSeries c a).mergeWith (stretchSeries c b) = stretchSeries c (a.mergeWith b) := by
  simp only [SeriesChord.mergeWith, stretchSeries, stretchChord, mul_add]

theorem seriesMerge_stretch (acc : List SeriesChord) (l : List (SeriesChord × Bool)) :
    seriesMerge (acc.map (stretchSeries c)) (l.map fun x => (stretchSeries c x.1, x.2)) =
      (seriesMerge acc l).map (List.map (stretchSeries c)) := by
  induction l generalizing acc with
  | nil => simp [seriesMerge, Except.map]
  | cons x l ih =>
    obtain ⟨y, b⟩ := x
    cases b with
    | true => exact ih (y :: acc)
    | false =>
      cases acc with
      | nil => rfl
      | cons a acc =>
        have := ih (a.mergeWith y :: acc)
        simp only [List.map_cons, seriesMerge, mergeWith_stretch] at this ⊢
        exact this

theorem changedMask_short (rows : List PieceRow) : changedMask (rows.map (shortChordRow k)) = changedMask rows := by
  cases rows with
  | nil => rfl
  | cons r rows =>
    simp only [List.map_cons, changedMask]
    rw [← List.map_cons, List.zipWith_map]
    rfl

theorem pieceKeys_short (useRel : Bool) (rows : List PieceRow) :
    pieceKeys useRel (rows.map (shortChordRow k)) = pieceKeys useRel rows := by
  simp only [pieceKeys, changedMask_short, List.length_map, npMask_map]
  cases npMask (List.range rows.length) (changedMask rows) with
  | error e => rfl
  | ok l =>
    cases npMask rows (changedMask rows) with
    | error e => rfl
    | ok l =>
      simp only [Except.map, Bind.bind, Except.bind, List.filterMap_map]
      rfl

theorem pieceHarmony_short (hk : 0 < k) (T : List MeterRow) (red : Reduction) (useInv useRel useSus : Bool)
    (cache : Option LevelCache) (rows : List PieceRow) :
    pieceHarmony (T.map (shortMeter k)) red useInv useRel useSus (cache.map (shortCache k))
        (rows.map (shortChordRow k)) =
      (pieceHarmony T red useInv useRel useSus cache rows).map
        fun h => { h with chords := h.chords.map (stretchSeries (part k)) } := by
  simp only [pieceHarmony, readChords_short hk, squeezed_map]
  cases squeezed (readChords T red useInv useRel cache rows) with
  | error e => rfl
  | ok read =>
    have hm : reductionMask (SeriesChord.isRepeated useInv useSus) (read.map fun x => stretchSeries (part k) x.1) =
        reductionMask (SeriesChord.isRepeated useInv useSus) (read.map (·.1)) := by
      have := reductionMask_map (f := stretchSeries (part k)) (rep := SeriesChord.isRepeated useInv useSus)
        (rep' := SeriesChord.isRepeated useInv useSus) (fun a b => rfl) (read.map (·.1))
      rw [List.map_map] at this
      exact this
    have hz : (read.map fun x => stretchSeries (part k) x.1).zip
          (reductionMask (SeriesChord.isRepeated useInv useSus) (read.map (·.1))) =
        ((read.map (·.1)).zip (reductionMask (SeriesChord.isRepeated useInv useSus) (read.map (·.1)))).map
          fun x => (stretchSeries (part k) x.1, x.2) := by
      have := List.zip_map_left (l₁ := read.map (·.1)) (l₂ := reductionMask (SeriesChord.isRepeated useInv useSus)
        (read.map (·.1))) (f := stretchSeries (part k))
      rw [List.map_map] at this
      exact this
    have hs := seriesMerge_stretch (c := part k) [] ((read.map (·.1)).zip
      (reductionMask (SeriesChord.isRepeated useInv useSus) (read.map (·.1))))
    have hr : (read.map fun x => shortChordRow k x.2) = (read.map (·.2)).map (shortChordRow k) := by
      rw [List.map_map]; rfl
    simp only [Except.map, Bind.bind, Except.bind, List.map_map, Function.comp_def, hm, hz] at hs ⊢
    rw [show List.map (stretchSeries (part k)) [] = [] from rfl] at hs
    rw [hs, hr, npMask_map]
    generalize seriesMerge [] _ = m
    cases m with
    | error e => rfl
    | ok m =>
      generalize npMask _ _ = n
      cases n with
      | error e => rfl
      | ok n =>
        simp only [Except.map, pieceKeys_short]
        cases pieceKeys useRel n <;> rfl

/-- The tables of the same music in smaller note values. -/
def short (k : Nat) (t : Tables) : Tables :=
  ⟨t.measures.map (shortMeasureRow k), t.notes.map (shortNoteRow k), t.chords.map (shortChordRow k)⟩

/-- C156: the same piece is read, with the same levels, in smaller note values. -/
theorem C156_piece (hk : 0 < k) (t : Tables) (red : Reduction) (useInv useRel useSus : Bool) :
    tablePiece (short k t).measures (short k t).notes (short k t).chords red useInv useRel useSus =
      (tablePiece t.measures t.notes t.chords red useInv useRel useSus).map (stretchPiece (part k)) := by
  have hm : (t.measures.map (shortMeasureRow k)).map MeasureRow.meter =
      (t.measures.map MeasureRow.meter).map (shortMeter k) := by
    simp only [List.map_map]; rfl
  simp only [tablePiece, short, hm, pieceNotes_short hk, pieceHarmony_short hk]
  cases (pieceNotes (t.measures.map MeasureRow.meter) t.notes).1 with
  | error e => rfl
  | ok ns =>
    simp only [Except.map, Bind.bind, Except.bind]
    cases pieceHarmony (t.measures.map MeasureRow.meter) red useInv useRel useSus
      (pieceNotes (t.measures.map MeasureRow.meter) t.notes).2 t.chords with
    | error e => rfl
    | ok h => simp [stretchPiece, shortMeasureRow, SeriesChord.spanned, stretchSeries, stretchSpan, stretchChord]

/-- C156: the chords and keys which the sequence models read are the same but for the durations of the chords. -/
theorem C156_sequence (hk : 0 < k) (t : Tables) (red : Reduction) (useInv useRel useSus : Bool) :
    tableKeyed (short k t).measures (short k t).notes (short k t).chords red useInv useRel useSus =
      (tableKeyed t.measures t.notes t.chords red useInv useRel useSus).map
        fun x => { x with chords := x.chords.map (stretchChord (part k)) } := by
  have hm : (t.measures.map (shortMeasureRow k)).map MeasureRow.meter =
      (t.measures.map MeasureRow.meter).map (shortMeter k) := by
    simp only [List.map_map]; rfl
  simp only [tableKeyed, short, hm, pieceNotes_short hk, pieceHarmony_short hk]
  cases (pieceNotes (t.measures.map MeasureRow.meter) t.notes).1 with
  | error e => rfl
  | ok ns =>
    simp only [Except.map, Bind.bind, Except.bind]
    cases pieceHarmony (t.measures.map MeasureRow.meter) red useInv useRel useSus
      (pieceNotes (t.measures.map MeasureRow.meter) t.notes).2 t.chords with
    | error e => rfl
    | ok h => simp [PieceHarmony.keyed, stretchSeries]

theorem tables_short (hk : 0 < k) (red : Reduction) (useInv useRel useSus : Bool) (l : List Tables) :
    (l.map (short k)).mapM (fun t => tablePiece t.measures t.notes t.chords red useInv useRel useSus) =
      (l.mapM fun t => tablePiece t.measures t.notes t.chords red useInv useRel useSus).map
        (List.map (stretchPiece (part k))) :=
  mapM_map _ _ _ _ (fun t => C156_piece hk t red useInv useRel useSus) l

theorem classDataset_stretch (hc : 0 < c) (l : List ClassPiece) :
    classDataset (l.map (stretchPiece c)) =
      (classDataset l).map fun d => { d with inputs := d.inputs.map (List.map (stretchRow c)) } := by
  have h1 : (l.map (stretchPiece c)).mapM (fun x : ClassPiece =>
        chordNoteInputs x.notes (some (x.chords.map Prod.fst)) x.measures 2 none none) =
      (l.mapM fun x : ClassPiece =>
        chordNoteInputs x.notes (some (x.chords.map Prod.fst)) x.measures 2 none none).map
          (List.map (List.map (List.map (stretchRow c)))) := by
    refine mapM_map _ _ _ _ (fun x => ?_) l
    have := C156_inputs hc x.notes (some (x.chords.map Prod.fst)) x.measures 2 none none
    rw [← this]
    simp only [stretchPiece, Option.map_some, List.map_map]
    rfl
  have h2 : (l.map (stretchPiece c)).flatMap ClassPiece.chords =
      (l.flatMap ClassPiece.chords).map fun y => (stretchSpan c y.1, stretchChord c y.2) := by
    rw [List.flatMap_map, List.map_flatMap]
    rfl
  have h3 : firstPitchType (l.map (stretchPiece c)) = firstPitchType l := by
    cases l with
    | nil => rfl
    | cons x l =>
      simp only [List.map_cons, firstPitchType, stretchPiece, List.head?_map, Option.map_map]
      rfl
  have h4 : ((l.flatMap ClassPiece.chords).map fun y => (stretchSpan c y.1, stretchChord c y.2)).mapM
        (fun y : ChordSpan × Chord ℚ => y.2.oneHotIndex false true false noReduction) =
      (l.flatMap ClassPiece.chords).mapM (fun y => y.2.oneHotIndex false true false noReduction) :=
    mapM_shift _ _ _ (fun x => rfl) _
  simp only [classDataset, h1, h2, h3, h4]
  cases l.mapM (fun x : ClassPiece =>
    chordNoteInputs x.notes (some (x.chords.map Prod.fst)) x.measures 2 none none) with
  | error e => rfl
  | ok inputs =>
    simp only [Except.map, Bind.bind, Except.bind]
    cases (l.flatMap ClassPiece.chords).mapM (fun y => y.2.oneHotIndex false true false noReduction) with
    | error e => rfl
    | ok targets =>
      simp only [Except.ok.injEq, ClassDataset.mk.injEq, and_true]
      rw [List.map_flatten]
      refine ⟨rfl, ?_⟩
      rw [← List.map_flatten, List.map_map]
      exact List.map_congr_left fun x _ => by simp

/-- C156: the chord classifier is trained on the same data, but for the two distances of each note. -/
theorem C156_class (hk : 0 < k) (red : Reduction) (useInv useRel useSus : Bool) (l : List Tables) :
    classTables red useInv useRel useSus (l.map (short k)) =
      (classTables red useInv useRel useSus l).map
        fun d => { d with inputs := d.inputs.map (List.map (stretchRow (part k))) } := by
  simp only [classTables, tables_short hk]
  cases l.mapM fun t => tablePiece t.measures t.notes t.chords red useInv useRel useSus with
  | error e => rfl
  | ok ps => exact classDataset_stretch (part_pos hk) ps

theorem plainNoteVector_stretch (n : NoteObj) (p q : Option ℚ) :
    plainNoteVector (stretchNote c n) (p.map (c * ·)) (q.map (c * ·)) =
      (plainNoteVector n p q).map (stretchRow c) := by
  simp only [plainNoteVector, getD_stretch]
  exact toVec_stretch ⟨n.pitchClass, n.octave, n.onsetLevel, n.offsetLevel, n.pitchType, (0, 0, 0),
    (p.getD 0, q.getD 0), none, none⟩

theorem ctmInputs_stretch (notes : List NoteObj) (cache : List ℚ) :
    ctmInputs (notes.map (stretchNote c)) (cache.map (c * ·)) =
      (ctmInputs notes cache).map (List.map (stretchRow c)) := by
  have e3 : (cache.map (c * ·)).map some = (cache.map some).map (Option.map (c * ·)) := by
    simp only [List.map_map]; rfl
  have hz : (notes.map (stretchNote c)).zip
      ((none :: (cache.map some).map (Option.map (c * ·))).zip ((cache.map some).map (Option.map (c * ·)))) =
      (notes.zip ((none :: cache.map some).zip (cache.map some))).map
        fun x => (stretchNote c x.1, x.2.1.map (c * ·), x.2.2.map (c * ·)) := by
    rw [show (none :: (cache.map some).map (Option.map (c * ·)) : List (Option ℚ)) =
      (none :: cache.map some).map (Option.map (c * ·)) from rfl, List.zip_map, List.zip_map]
    rfl
  simp only [ctmInputs, e3, hz]
  rw [mapM_map (fun x : NoteObj × Option ℚ × Option ℚ => plainNoteVector x.1 x.2.1 x.2.2) _
    (fun x : NoteObj × Option ℚ × Option ℚ => plainNoteVector x.1 x.2.1 x.2.2) (stretchRow c)
    (fun x => by
      show plainNoteVector (stretchNote c x.1) (x.2.1.map (c * ·)) (x.2.2.map (c * ·)) = _
      rw [plainNoteVector_stretch])]
  cases (notes.zip ((none :: cache.map some).zip (cache.map some))).mapM
    (fun x : NoteObj × Option ℚ × Option ℚ => plainNoteVector x.1 x.2.1 x.2.2) with
  | error e => rfl
  | ok rows =>
    simp only [Except.map, Bind.bind, Except.bind, stackRows_stretch]
    cases stackRows rows <;> rfl

theorem ctmPiece_stretch (hc : 0 < c) (x : ClassPiece) :
    ctmPiece (stretchPiece c x) = (ctmPiece x).map fun y => (y.1.map (stretchRow c), y.2) := by
  let f : Lex (Int × ℚ) → Lex (Int × ℚ) := fun a => toLex (at' c (ofLex a))
  have hlt : ∀ a b, f a < f b ↔ a < b := at_lt hc
  have ho : ((x.notes.map (stretchNote c)).map fun n => toLex n.offset) =
      (x.notes.map fun n => toLex n.offset).map f := by
    simp only [List.map_map]; rfl
  have hn : ((x.notes.map (stretchNote c)).map fun n => toLex n.onset) =
      (x.notes.map fun n => toLex n.onset).map f := by
    simp only [List.map_map]; rfl
  have hp : (x.notes.map (stretchNote c)).map NoteObj.onset = (x.notes.map NoteObj.onset).map (at' c) := by
    simp only [List.map_map]; rfl
  have hk : ((x.chords.map fun y => (stretchSpan c y.1, stretchChord c y.2)).map fun y => toLex y.1.offset) =
      (x.chords.map fun y => toLex y.1.offset).map f := by
    simp only [List.map_map]; rfl
  have hs : ((x.chords.map fun y => (stretchSpan c y.1, stretchChord c y.2)).map fun y => toLex y.1.onset) =
      (x.chords.map fun y => toLex y.1.onset).map f := by
    simp only [List.map_map]; rfl
  have hl := lastOffset_map hlt (some (x.chords.map fun y => toLex y.1.offset)) (x.notes.map fun n => toLex n.offset)
  rw [Option.map_some] at hl
  simp only [ctmPiece, stretchPiece, ho, hn, hk, hs, hl, hp, chordChanges_map hlt]
  cases lastOffset (some (x.chords.map fun y => toLex y.1.offset)) (x.notes.map fun n => toLex n.offset) with
  | error e => rfl
  | ok last =>
    have hd := durationCache_stretch hc x.measures (x.notes.map NoteObj.onset) (ofLex last)
    have hlast : ofLex (f last) = at' c (ofLex last) := rfl
    simp only [Except.map, Bind.bind, Except.bind, hlast, hd]
    cases durationCache x.measures (x.notes.map NoteObj.onset) (ofLex last) with
    | error e => rfl
    | ok cache =>
      simp only [Except.map, ctmInputs_stretch]
      cases ctmInputs x.notes cache with
      | error e => rfl
      | ok inputs =>
        have ht : ∀ n changes, ctmTargets n changes (cache.map (c * ·)) = ctmTargets n changes cache := by
          intro n changes
          simp [ctmTargets, Function.comp_def, hc.ne']
        simp only [ht, List.length_map]
        cases ctmTargets inputs.length _ cache <;> rfl

/-- C156: so is the chord transition model. -/
theorem C156_transition (hk : 0 < k) (red : Reduction) (useInv useRel useSus : Bool) (l : List Tables) :
    transitionTables red useInv useRel useSus (l.map (short k)) =
      (transitionTables red useInv useRel useSus l).map
        fun d => { d with inputs := d.inputs.map (List.map (stretchRow (part k))) } := by
  simp only [transitionTables, tables_short hk]
  cases l.mapM fun t => tablePiece t.measures t.notes t.chords red useInv useRel useSus with
  | error e => rfl
  | ok ps =>
    simp only [Except.map, Bind.bind, Except.bind, ctmData]
    rw [mapM_map _ _ _ _ (fun x => ctmPiece_stretch (part_pos hk) x)]
    cases ps.mapM ctmPiece with
    | error e => rfl
    | ok ys => simp [Except.map, Function.comp_def]

theorem lastButOne (a : List ℚ) (p q : ℚ) :
    ((a ++ [p] ++ [q]).mapIdx fun i y => if i + 2 = (a ++ [p] ++ [q]).length then c * y else y) =
      a ++ [c * p] ++ [q] := by
  have hl : (a ++ [p] ++ [q]).length = a.length + 2 := by simp
  simp only [hl]
  rw [List.mapIdx_append, List.mapIdx_append]
  congr 1
  · congr 1
    · refine mapIdx_same a fun i x hi => ?_
      rw [if_neg (by omega)]
    · simp
  · refine mapIdx_same [q] fun i x hi => ?_
    rw [if_neg]
    simp only [List.length_append, List.length_cons, List.length_nil]
    omega

/-- C156: in the vector of a chord only the last but one entry, its duration, changes. -/
theorem C156_chord (x : Chord ℚ) (key : Option Key) (pad : Bool) (red : Reduction) :
    (stretchChord c x).toVec key pad red =
      (x.toVec key pad red).map fun v => v.mapIdx fun i y => if i + 2 = v.length then c * y else y := by
  have ht : (stretchChord c x).tonicFor key = x.tonicFor key := by cases key <;> rfl
  have hm : (stretchChord c x).modeFor key = x.modeFor key := by cases key <;> rfl
  have hp : (stretchChord c x).pitchType = x.pitchType := rfl
  simp only [Chord.toVec, ht, hm, hp, Bind.bind]
  simp only [stretchChord]
  cases absoluteToRelative x.root (x.tonicFor key) x.pitchType false pad with
  | error e => rfl
  | ok r =>
  simp only [Except.bind]
  cases oneHot (relPitches x.pitchType pad) r with
  | error e => rfl
  | ok v1 =>
  simp only
  cases oneHot ChordType.all.length (red x.chordType).value with
  | error e => rfl
  | ok v2 =>
  simp only
  cases absoluteToRelative x.bass (x.tonicFor key) x.pitchType false pad with
  | error e => rfl
  | ok b =>
  simp only
  cases oneHot (relPitches x.pitchType pad) b with
  | error e => rfl
  | ok v3 =>
  simp only
  cases oneHot 4 x.inversion with
  | error e => rfl
  | ok v4 =>
  simp only
  cases oneHot 4 x.onsetLevel with
  | error e => rfl
  | ok v5 =>
  simp only
  cases oneHot 4 x.offsetLevel with
  | error e => rfl
  | ok v6 =>
    simp only [Except.map, Except.ok.injEq]
    generalize v1 ++ v2 ++ v3 ++ v4 ++ v5 ++ v6 = a
    exact (lastButOne a _ _).symm

/-! ## Concrete cases -/

/-- A note on the third beat: in 4/4, in 4/2 and in 4/8. -/
example : metricalLevel (1 / 2) 4 4 = .ok 2 ∧ metricalLevel 1 4 2 = .ok 2 ∧ metricalLevel (1 / 4) 4 8 = .ok 2 := by
  decide +kernel

/-- The piece of `Verif.TablePiece` in half of its note values: 4/4 becomes 4/8, … -/
example : ((short 2 exTables).measures.map fun m => (m.measure.actDur, m.num, m.den)) =
    [(1 / 2, 4, 8), (1 / 2, 4, 8), (1 / 2, 4, 8), (1 / 2, 4, 8)] := by decide +kernel

/-- … it is read, with chords of half the length, … -/
example : ((tablePiece (short 2 exTables).measures (short 2 exTables).notes (short 2 exTables).chords noReduction
    true true false).map fun x => x.chords.map fun c => (c.1.onset, c.1.offset, c.1.duration)) =
      .ok [((0, 0), (2, 0), 1), ((2, 0), (3, 0), 1 / 2)] := by decide +kernel

/-- … and gives the same targets, but not the same inputs. -/
example : ((classTables noReduction true true false [exTables, short 2 exTables]).map fun d =>
    (d.targets, d.lengths, decide (d.inputs.take 2 = d.inputs.drop 2),
      decide ((d.inputs.take 2).map (List.map (stretchRow (1 / 2))) = d.inputs.drop 2))) =
      .ok ([45, 48, 45, 48], [6, 6, 6, 6], false, true) := by decide +kernel

example : ((transitionTables noReduction true true false [exTables, short 2 exTables]).map fun d => d.targets) =
    .ok [[-100, 0, 1, -100], [-100, 0, 1, -100]] := by decide +kernel

/-- Four notes of one whole note each, and chords of at most two whole notes. -/
def exRange (dur maxLen : ℚ) : RangeInput Nat Int ℚ :=
  { n := 4, changeProb := fun _ => 3, changeLog := fun i => -1 - i, noChangeLog := fun i => -2 * i
    dur := fun _ => dur, forcedChord := fun _ => -1, forcedKey := fun _ => -1
    minChange := 2, maxNoChange := 5, maxLen := maxLen }

/-- In halves, with one whole note as the longest length, the ranges are the same; … -/
example : ((exRange 1 2).getChordRanges.map fun x => x.1.map fun r => (r.1, r.2.1)) =
      .ok [(0, 1), (1, 2), (1, 3), (1, 4), (2, 3), (2, 4), (3, 4)] ∧
    ((exRange (1 / 2) 1).getChordRanges.map fun x => x.1.map fun r => (r.1, r.2.1)) =
      .ok [(0, 1), (1, 2), (1, 3), (1, 4), (2, 3), (2, 4), (3, 4)] := by decide +kernel

/-- … with the same longest length they are not. -/
example : ((exRange (1 / 2) 2).getChordRanges.map fun x => x.1.map fun r => (r.1, r.2.1)) =
      .ok [(0, 1), (0, 2), (0, 3), (0, 4), (1, 2), (1, 3), (1, 4), (2, 3), (2, 4), (3, 4)] := by decide +kernel

example : (evaluateChords (stretchEval (1 / 2) Eval.exInput) .tpc true noReduction).toOption =
    (evaluateChords Eval.exInput .tpc true noReduction).toOption ∧
    (evaluateChords Eval.exInput .tpc true noReduction).toOption ≠ none := by decide +kernel

end Verif.NoteValues
