import Verif.Corpus
import Verif.Lemmas.Rhythm
import Verif.Props.Rhythm
import Mathlib.Algebra.Order.Group.Defs
import Mathlib.Algebra.Order.Group.Unbundled.Basic
import Mathlib.Tactic.Linarith

/-!
# C33, C34, C53: note offsets, chord durations, removal of repeats
-/

namespace Verif

variable {δ : Type} [AddCommGroup δ] [LinearOrder δ] [IsOrderedAddMonoid δ]

/-- A chain which goes on until a measure without a link. -/
structure FullChain (T c : List (Measure δ)) : Prop extends Chain T c where
  last : ∀ m, c[c.length - 1]? = some m → m.next = none

omit [LinearOrder δ] [IsOrderedAddMonoid δ] in
theorem chainPos_next (c : List (Measure δ)) (i : Nat) (m m' : Measure δ) (hi : c[i]? = some m)
    (hi' : c[i + 1]? = some m') (x : δ) :
    chainPos c (i + 1) (x - m.actDur - m.offset + m'.offset) = chainPos c i x := by
  rw [chainPos, chainPos, sum_take_succ c i m hi, hi, hi']
  simp only [Option.map_some, Option.getD_some]
  abel

omit [LinearOrder δ] [IsOrderedAddMonoid δ] in
theorem chainPos_add (c : List (Measure δ)) (i : Nat) (x d : δ) :
    chainPos c i (x + d) = chainPos c i x + d := by
  rw [chainPos, chainPos]; abel

omit [AddCommGroup δ] [LinearOrder δ] [IsOrderedAddMonoid δ] in
/-- The next measure of a chain, if there is a link. -/
theorem FullChain.step {T c : List (Measure δ)} (h : FullChain T c) (i : Nat) (m : Measure δ)
    (hi : c[i]? = some m) :
    (m.next = none ∧ i + 1 = c.length) ∨
      ∃ m', c[i + 1]? = some m' ∧ m.next = some m'.mc ∧ findMeasure T m'.mc = some m' := by
  have hlt := (List.getElem?_eq_some_iff.mp hi).1
  by_cases hl : i + 1 < c.length
  · refine .inr ⟨c[i + 1], List.getElem?_eq_getElem hl, ?_, h.found _ (List.getElem_mem hl)⟩
    exact h.linked i m _ hi (List.getElem?_eq_getElem hl)
  · refine .inl ⟨h.last m ?_, by omega⟩
    rw [show c.length - 1 = i by omega]; exact hi

/-- What is to be shown of an offset. -/
def OffsetAt (c : List (Measure δ)) (i : Nat) (x : δ) (r : Py (Int × Option δ)) : Prop :=
  ∃ j m' beat, i ≤ j ∧ c[j]? = some m' ∧ r = .ok (m'.mc, some beat) ∧ chainPos c j beat = x ∧
    m'.offset ≤ beat ∧ (beat < m'.actDur + m'.offset ∨ j + 1 = c.length ∨ beat = m'.offset)

theorem offsetLoop_chain {T c : List (Measure δ)} (h : FullChain T c) (d : Nat) :
    ∀ (i : Nat), c.length ≤ i + d → ∀ (m m1 : Measure δ), c[i]? = some m → c[i + 1]? = some m1 →
      ∀ (off : δ), m.actDur + m.offset < off → ∀ fuel, d ≤ fuel →
        OffsetAt c (i + 1) (chainPos c i off) (offsetLoop T fuel m m1.mc off) := by
  induction d with
  | zero =>
    intro i hd m m1 hi hi1 off hoff fuel hf
    have := (List.getElem?_eq_some_iff.mp hi1).1
    omega
  | succ d ih =>
    intro i hd m m1 hi hi1 off hoff fuel hf
    obtain ⟨fuel, rfl⟩ : ∃ f, fuel = f + 1 := ⟨fuel - 1, by omega⟩
    rw [offsetLoop, h.found m1 (List.mem_of_getElem? hi1)]
    simp only
    have hpos := chainPos_next c i m m1 hi hi1 off
    have hge : m1.offset ≤ off - m.actDur - m.offset + m1.offset := by
      have : (0 : δ) ≤ off - m.actDur - m.offset := by
        rw [sub_sub, sub_nonneg]; exact hoff.le
      exact le_add_of_nonneg_left this
    rcases h.step (i + 1) m1 hi1 with ⟨hn, hl⟩ | ⟨m2, hi2, hn, hf2⟩
    · simp only [hn]
      exact ⟨i + 1, m1, _, Nat.le_refl _, hi1, rfl, hpos, hge, .inr (.inl hl)⟩
    · simp only [hn]
      split
      · rename_i hend
        rw [hf2]
        refine ⟨i + 2, m2, m2.offset, by omega, hi2, rfl, ?_, le_refl _, .inr (.inr rfl)⟩
        rw [← hpos, ← chainPos_next c (i + 1) m1 m2 hi1 hi2, hend]
        congr 1; abel
      · split
        · rename_i hgt
          obtain ⟨j, m', beat, hij, h1, h2, h3, h4, h5⟩ :=
            ih (i + 1) (by omega) m1 m2 hi1 hi2 _ hgt fuel (by omega)
          exact ⟨j, m', beat, by omega, h1, h2, h3.trans hpos, h4, h5⟩
        · rename_i h1 h2
          exact ⟨i + 1, m1, _, Nat.le_refl _, hi1, rfl, hpos, hge,
            .inl (lt_of_le_of_ne (not_lt.mp h2) h1)⟩

/-- C33: the offset of a note is its onset plus its duration on the chain of measures, inside of a measure
of the chain, or in its last measure. -/
theorem C33_offset {T c : List (Measure δ)} (h : FullChain T c) (hdur : ∀ m ∈ c, 0 < m.actDur) (i : Nat)
    (m : Measure δ) (hi : c[i]? = some m) (onset d : δ) (ho : m.offset ≤ onset) (hd : 0 ≤ d) (fuel : Nat)
    (hfuel : c.length ≤ fuel) :
    ∃ j m' beat, i ≤ j ∧ c[j]? = some m' ∧ noteOffset T fuel m.mc onset d = .ok (m'.mc, some beat) ∧
      chainPos c j beat = chainPos c i onset + d ∧ m'.offset ≤ beat ∧
      (beat < m'.actDur + m'.offset ∨ j + 1 = c.length) := by
  have hge : m.offset ≤ onset + d := le_trans ho (le_add_of_nonneg_right hd)
  have key : OffsetAt c i (chainPos c i (onset + d)) (noteOffset T fuel m.mc onset d) := by
    rw [noteOffset, h.found m (List.mem_of_getElem? hi)]
    simp only
    rcases h.step i m hi with ⟨hn, hl⟩ | ⟨m1, hi1, hn, hf1⟩
    · simp only [hn]
      exact ⟨i, m, _, Nat.le_refl _, hi, rfl, rfl, hge, .inr (.inl hl)⟩
    · simp only [hn]
      split
      · rename_i hend
        rw [hf1]
        refine ⟨i + 1, m1, m1.offset, by omega, hi1, rfl, ?_, le_refl _, .inr (.inr rfl)⟩
        rw [← chainPos_next c i m m1 hi hi1, hend]
        congr 1; abel
      · split
        · rename_i hgt
          obtain ⟨j, m', beat, hij, h1⟩ :=
            offsetLoop_chain h (c.length - i) i (by omega) m m1 hi hi1 _ hgt fuel (by omega)
          exact ⟨j, m', beat, by omega, h1⟩
        · rename_i h1 h2
          exact ⟨i, m, _, Nat.le_refl _, hi, rfl, rfl, hge, .inl (lt_of_le_of_ne (not_lt.mp h2) h1)⟩
  obtain ⟨j, m', beat, h1, h2, h3, h4, h5, h6⟩ := key
  refine ⟨j, m', beat, h1, h2, h3, by rw [h4, chainPos_add], h5, ?_⟩
  rcases h6 with h6 | h6 | h6
  · exact .inl h6
  · exact .inr h6
  · exact .inl (by rw [h6]; exact lt_add_of_pos_left _ (hdur m' (List.mem_of_getElem? h2)))

theorem exMeasures_full : FullChain exMeasures exMeasures :=
  { exMeasures_chain with
    last := fun m h => by simp [exMeasures] at h; rw [← h] }

/-- Notes which end inside of a measure, at the end of a measure, two measures later, and after the end. -/
example : noteOffset exMeasures 3 1 (3/4) (1/8) = .ok (1, some (7/8)) ∧
    noteOffset exMeasures 3 1 (3/4) (1/4) = .ok (2, some 0) ∧
    noteOffset exMeasures 3 1 (3/4) (3/2) = .ok (3, some (1/4)) ∧
    noteOffset exMeasures 3 1 (3/4) 4 = .ok (3, some (11/4)) ∧
    (∀ m ∈ exMeasures, 0 < m.actDur) := by decide +kernel

/-! ## C34 -/

/-- A position of a file, as a distance from its beginning. -/
def At (T : List (Measure δ)) (mc : Int) (beat : δ) (p : δ) : Prop :=
  ∃ i m, T[i]? = some m ∧ m.mc = mc ∧ p = chainPos T i beat

/-- The result of the table, row by row. -/
theorem mapPy_rows {α β : Type} (f : α → Py β) (l : List α) (h : ∀ a ∈ l, ∃ b, f a = .ok b) :
    ∃ out, mapPy f l = .ok out ∧ out.length = l.length ∧
      ∀ (k : Nat) a, l[k]? = some a → ∀ b, f a = .ok b → out[k]? = some b := by
  induction l with
  | nil => exact ⟨[], rfl, rfl, by simp⟩
  | cons a l ih =>
    obtain ⟨out, h1, h2, h3⟩ := ih (fun x hx => h x (List.mem_cons_of_mem _ hx))
    obtain ⟨b, hb⟩ := h a (List.mem_cons_self ..)
    refine ⟨b :: out, by rw [mapPy, hb, h1], by simp [h2], ?_⟩
    intro k x hk y hy
    cases k with
    | zero =>
      simp only [List.getElem?_cons_zero, Option.some.injEq] at hk ⊢
      subst hk; rw [hb] at hy; injection hy
    | succ k =>
      simp only [List.getElem?_cons_succ] at hk ⊢
      exact h3 k x hk y hy

omit [IsOrderedAddMonoid δ] [LinearOrder δ] in
theorem durationLoop_chain {T c : List (Measure δ)} (h : Chain T c) (d : Nat) :
    ∀ (i j : Nat), j = i + (d + 1) → ∀ (m m' : Measure δ), c[i]? = some m → c[j]? = some m' →
      ∀ (x : δ) (fuel : Nat), d + 1 ≤ fuel →
        durationLoop T m'.mc fuel m.mc (some x) =
          .ok (some (x + (((c.take j).map (·.actDur)).sum - ((c.take i).map (·.actDur)).sum))) := by
  induction d with
  | zero =>
    intro i j hj m m' hi hj' x fuel hf
    obtain ⟨fuel, rfl⟩ : ∃ f, fuel = f + 1 := ⟨fuel - 1, by omega⟩
    subst hj
    rw [durationLoop, h.found m (List.mem_of_getElem? hi)]
    simp only [nanAdd, h.linked i m m' hi hj', if_true, sum_take_succ c i m hi]
    congr 2; abel
  | succ d ih =>
    intro i j hj m m' hi hj' x fuel hf
    obtain ⟨fuel, rfl⟩ : ∃ f, fuel = f + 1 := ⟨fuel - 1, by omega⟩
    have hlt : i + 1 < c.length := by
      have := (List.getElem?_eq_some_iff.mp hj').1; omega
    have hn := List.getElem?_eq_getElem hlt
    have hne : ¬ c[i + 1].mc = m'.mc := fun he => by
      have := ((h.mono (i + 1) j _ m' hn hj').2.1 he); omega
    rw [durationLoop, h.found m (List.mem_of_getElem? hi)]
    simp only [nanAdd, h.linked i m _ hi hn, if_neg hne]
    rw [ih (i + 1) j (by omega) _ m' hn hj' _ fuel (by omega), sum_take_succ c i m hi]
    congr 2; abel

/-- The tables of `add_chord_metrical_data`: the measures of each file are a chain, each chord is in a
measure of its file, and the chords of a file are in order. -/
structure ChordsFit (M : List (FileMeasure δ)) (chords : List (ChordRow δ)) : Prop where
  chain : ∀ c ∈ chords, FullChain (measuresOf M c.file) (measuresOf M c.file)
  inside : ∀ c ∈ chords, ∃ m ∈ measuresOf M c.file, m.mc = c.mc
  sorted : ∀ k c c', chords[k]? = some c → chords[k + 1]? = some c' → c.file = c'.file → c.mc ≤ c'.mc

omit [LinearOrder δ] [IsOrderedAddMonoid δ] in
theorem At.unique {T : List (Measure δ)} (h : Chain T T) {mc : Int} {x p p' : δ} (h1 : At T mc x p)
    (h2 : At T mc x p') : p = p' := by
  obtain ⟨i, m, hi, hm, rfl⟩ := h1
  obtain ⟨j, m', hj, hm', rfl⟩ := h2
  have := (h.mono i j m m' hi hj).2.1 (by omega)
  rw [this]

theorem rolledNext_false (files : List Nat) (k f : Nat) (h1 : files[k]? = some f)
    (h2 : files[k + 1]? = some f) : rolledNext files k = false := by
  have := (List.getElem?_eq_some_iff.mp h2).1
  rw [rolledNext, Nat.mod_eq_of_lt this, h1, h2]; simp

omit [LinearOrder δ] [IsOrderedAddMonoid δ] in
/-- C34 for one row: a chord which is followed by a chord of the same file. -/
theorem chordEnd_inner {M : List (FileMeasure δ)} {chords : List (ChordRow δ)} (h : ChordsFit M chords)
    (k : Nat) (c c' : ChordRow δ) (hk : chords[k]? = some c) (hk' : chords[k + 1]? = some c')
    (hf : c.file = c'.file) (p p' : δ) (hp : At (measuresOf M c.file) c.mc c.onset p)
    (hp' : At (measuresOf M c.file) c'.mc c'.onset p') (fuel : Nat)
    (hfuel : (measuresOf M c.file).length ≤ fuel) :
    chordEnd M chords fuel k c = .ok ⟨c'.mc, some c'.onset, some (p' - p)⟩ := by
  have hch := (h.chain c (List.mem_of_getElem? hk)).toChain
  have hroll : rolledNext (chords.map (·.file)) k = false :=
    rolledNext_false _ k c.file (by rw [List.getElem?_map, hk]; rfl)
      (by rw [List.getElem?_map, hk', hf]; rfl)
  obtain ⟨i, m, hi, hm, rfl⟩ := hp
  obtain ⟨j, m', hj, hm', rfl⟩ := hp'
  have hs := h.sorted k c c' hk hk' hf
  have hmono := hch.mono j i m' m hj hi
  have hij : i ≤ j := by
    by_contra hlt
    have := hmono.1.2 (by omega); omega
  have h1 : onFixed M c = some (c.onset - m.offset) := by
    rw [onFixed, ← hm, hch.found m (List.mem_of_getElem? hi)]; rfl
  have h2 : onFixed M c' = some (c'.onset - m'.offset) := by
    rw [onFixed, ← hf, ← hm', hch.found m' (List.mem_of_getElem? hj)]; rfl
  rw [chordEnd, chordNext, hroll, hk']
  simp only [Bool.false_eq_true, if_false, Bind.bind, Except.bind, h1, h2, nanSub]
  rcases Nat.lt_or_eq_of_le hij with hlt | rfl
  · have hne : ¬ c.mc = c'.mc := by
      intro he
      have := hmono.2.1 (by omega); omega
    have hjl := (List.getElem?_eq_some_iff.mp hj).1
    rw [if_neg hne, ← hm, ← hm', durationLoop_chain hch (j - i - 1) i j (by omega) m m' hi hj _ fuel (by omega)]
    rw [chainPos, chainPos, hi, hj]
    simp only [Option.map_some, Option.getD_some]
    congr 3; abel
  · have he : c.mc = c'.mc := by rw [hi] at hj; injection hj with hj; rw [← hm, ← hm', hj]
    rw [if_pos he, chainPos, chainPos, hi]
    rw [hi] at hj; injection hj with hj
    subst hj
    simp only [Option.map_some, Option.getD_some]
    congr 3; abel

omit [AddCommGroup δ] [LinearOrder δ] [IsOrderedAddMonoid δ] in
theorem FullChain.filter_last {T : List (Measure δ)} (h : FullChain T T) (l : Measure δ)
    (hl : T[T.length - 1]? = some l) : T.filter (fun m => decide (m.next = none)) = [l] := by
  obtain ⟨hlt, he⟩ := List.getElem?_eq_some_iff.mp hl
  have hT : T = T.dropLast ++ [l] := by
    rw [← he, ← List.getLast_eq_getElem (by rintro rfl; simp at hlt)]
    exact (List.dropLast_append_getLast _).symm
  have hd : T.dropLast.filter (fun m => decide (m.next = none)) = [] := by
    rw [List.filter_eq_nil_iff]
    intro m hm
    obtain ⟨k, hk⟩ := List.mem_iff_getElem?.mp hm
    have hkl := (List.getElem?_eq_some_iff.mp hk).1
    rw [List.length_dropLast] at hkl
    rw [List.getElem?_dropLast, if_pos hkl] at hk
    have := h.linked k m _ hk (List.getElem?_eq_getElem (by omega : k + 1 < T.length))
    simp [this]
  rw [hT, List.filter_append, hd]
  simp [h.last l hl]

omit [LinearOrder δ] [IsOrderedAddMonoid δ] in
/-- C34 for one row: a chord whose file differs from the one of the next row (the first row comes after
the last one). -/
theorem chordEnd_last {M : List (FileMeasure δ)} {chords : List (ChordRow δ)} (h : ChordsFit M chords)
    (k : Nat) (c : ChordRow δ) (hk : chords[k]? = some c)
    (hroll : rolledNext (chords.map (·.file)) k = true) (p : δ)
    (hp : At (measuresOf M c.file) c.mc c.onset p) (l : Measure δ)
    (hl : (measuresOf M c.file)[(measuresOf M c.file).length - 1]? = some l) (fuel : Nat)
    (hfuel : (measuresOf M c.file).length ≤ fuel) :
    chordEnd M chords fuel k c =
      .ok ⟨l.mc, some (l.actDur + l.offset), some (((measuresOf M c.file).map (·.actDur)).sum - p)⟩ := by
  have hfull := h.chain c (List.mem_of_getElem? hk)
  have hch := hfull.toChain
  have hll := (List.getElem?_eq_some_iff.mp hl).1
  obtain ⟨i, m, hi, hm, rfl⟩ := hp
  have hil := (List.getElem?_eq_some_iff.mp hi).1
  have h1 : onFixed M c = some (c.onset - m.offset) := by
    rw [onFixed, ← hm, hch.found m (List.mem_of_getElem? hi)]; rfl
  have hsum : ((measuresOf M c.file).map (·.actDur)).sum =
      (((measuresOf M c.file).take ((measuresOf M c.file).length - 1)).map (·.actDur)).sum + l.actDur := by
    rw [← sum_take_succ _ _ l hl, List.take_of_length_le (by omega)]
  rw [chordEnd, chordNext, if_pos hroll, hfull.filter_last l hl, hsum]
  simp only [Bind.bind, Except.bind, h1, nanSub]
  rcases Nat.lt_or_eq_of_le (Nat.le_sub_one_of_lt hil) with hlt | he
  · have hne : ¬ c.mc = l.mc := by
      intro he
      have := (hch.mono _ _ m l hi hl).2.1 (by omega); omega
    rw [if_neg hne, ← hm,
      durationLoop_chain hch ((measuresOf M c.file).length - 1 - i - 1) i _ (by omega) m l hi hl _ fuel
        (by omega), chainPos, hi]
    simp only [Option.map_some, Option.getD_some]
    congr 3; abel
  · rw [← he, hi] at hl; injection hl with hl
    subst hl
    rw [if_pos hm.symm, chainPos, hi, he]
    simp only [Option.map_some, Option.getD_some]
    congr 3; abel

omit [AddCommGroup δ] [LinearOrder δ] [IsOrderedAddMonoid δ] in
theorem measuresOf_length (M : List (FileMeasure δ)) (f : Nat) : (measuresOf M f).length ≤ M.length := by
  rw [measuresOf, List.length_map]; exact List.length_filter_le _ _

omit [LinearOrder δ] [IsOrderedAddMonoid δ] in
theorem ChordsFit.at {M : List (FileMeasure δ)} {chords : List (ChordRow δ)} (h : ChordsFit M chords)
    {c : ChordRow δ} (hc : c ∈ chords) (x : δ) :
    ∃ p l, At (measuresOf M c.file) c.mc x p ∧
      (measuresOf M c.file)[(measuresOf M c.file).length - 1]? = some l := by
  obtain ⟨m, hm, he⟩ := h.inside c hc
  obtain ⟨i, hi⟩ := List.mem_iff_getElem?.mp hm
  have hl := (List.getElem?_eq_some_iff.mp hi).1
  exact ⟨_, _, ⟨i, m, hi, he, rfl⟩,
    List.getElem?_eq_getElem (by omega : (measuresOf M c.file).length - 1 < (measuresOf M c.file).length)⟩

/-- A chord is the last one of its file: the next row is of another file, or there is no next row. -/
def LastOfFile (chords : List (ChordRow δ)) (k : Nat) (c : ChordRow δ) : Prop :=
  ∀ c', chords[k + 1]? = some c' → c'.file ≠ c.file

omit [AddCommGroup δ] [LinearOrder δ] [IsOrderedAddMonoid δ] in
theorem rolledNext_last (chords : List (ChordRow δ)) (k : Nat) (c : ChordRow δ)
    (hk : chords[k]? = some c) (hlast : LastOfFile chords k c)
    (hfiles : ∀ a b, chords[0]? = some a → chords[chords.length - 1]? = some b → a.file ≠ b.file) :
    rolledNext (chords.map (·.file)) k = true := by
  have hlt := (List.getElem?_eq_some_iff.mp hk).1
  rw [rolledNext, decide_eq_true_eq, List.length_map, List.getElem?_map, List.getElem?_map, hk]
  by_cases hl : k + 1 < chords.length
  · rw [Nat.mod_eq_of_lt hl, List.getElem?_eq_getElem hl]
    have := hlast _ (List.getElem?_eq_getElem hl)
    simpa using this
  · have he : k + 1 = chords.length := by omega
    rw [he, Nat.mod_self]
    have h0 : 0 < chords.length := by omega
    rw [List.getElem?_eq_getElem h0]
    have := hfiles _ c (List.getElem?_eq_getElem h0) (by rw [← he, Nat.add_sub_cancel]; exact hk)
    simpa using this

omit [LinearOrder δ] [IsOrderedAddMonoid δ] in
/-- C34: with chords of two files or more (the first and the last row are of different files), each chord
lasts until the next chord of its file, and the last chord of a file until the end of the file. -/
theorem C34_rows_partial {M : List (FileMeasure δ)} {chords : List (ChordRow δ)} (h : ChordsFit M chords)
    (hfiles : ∀ a b, chords[0]? = some a → chords[chords.length - 1]? = some b → a.file ≠ b.file)
    (fuel : Nat) (hfuel : M.length ≤ fuel) :
    ∃ out, addChordMetricalData M chords fuel = .ok out ∧ out.length = chords.length ∧
      (∀ k c c', chords[k]? = some c → chords[k + 1]? = some c' → c.file = c'.file →
        ∀ p p', At (measuresOf M c.file) c.mc c.onset p → At (measuresOf M c.file) c'.mc c'.onset p' →
          out[k]? = some ⟨c'.mc, some c'.onset, some (p' - p)⟩) ∧
      (∀ k c, chords[k]? = some c → LastOfFile chords k c →
        ∀ p, At (measuresOf M c.file) c.mc c.onset p →
          ∃ l, (measuresOf M c.file)[(measuresOf M c.file).length - 1]? = some l ∧
            out[k]? = some ⟨l.mc, some (l.actDur + l.offset),
              some (((measuresOf M c.file).map (·.actDur)).sum - p)⟩) := by
  have hfl : ∀ f, (measuresOf M f).length ≤ fuel := fun f => Nat.le_trans (measuresOf_length M f) hfuel
  have hidx : ∀ (k : Nat) (c : ChordRow δ), chords[k]? = some c → chords.zipIdx[k]? = some (c, k) := by
    intro k c hk; rw [List.getElem?_zipIdx, hk]; simp
  obtain ⟨out, h1, h2, h3⟩ := mapPy_rows (fun (ci : ChordRow δ × Nat) => chordEnd M chords fuel ci.2 ci.1)
    chords.zipIdx (by
      rintro ⟨c, k⟩ hck
      have hk : chords[k]? = some c := List.mk_mem_zipIdx_iff_getElem?.mp hck
      obtain ⟨p, l, hp, hl⟩ := h.at (List.mem_of_getElem? hk) c.onset
      by_cases hlast : LastOfFile chords k c
      · exact ⟨_, chordEnd_last h k c hk (rolledNext_last chords k c hk hlast hfiles) p hp l hl fuel (hfl _)⟩
      · rw [LastOfFile] at hlast
        push Not at hlast
        obtain ⟨c', hk', hf⟩ := hlast
        obtain ⟨p', _, hp', _⟩ := h.at (List.mem_of_getElem? hk') c'.onset
        rw [hf] at hp'
        exact ⟨_, chordEnd_inner h k c c' hk hk' hf.symm p p' hp hp' fuel (hfl _)⟩)
  refine ⟨out, h1, by rw [h2, List.length_zipIdx], ?_, ?_⟩
  · intro k c c' hk hk' hf p p' hp hp'
    exact h3 k (c, k) (hidx k c hk) _ (chordEnd_inner h k c c' hk hk' hf p p' hp hp' fuel (hfl _))
  · intro k c hk hlast p hp
    obtain ⟨_, l, _, hl⟩ := h.at (List.mem_of_getElem? hk) c.onset
    exact ⟨l, hl, h3 k (c, k) (hidx k c hk) _
      (chordEnd_last h k c hk (rolledNext_last chords k c hk hlast hfiles) p hp l hl fuel (hfl _))⟩

omit [LinearOrder δ] [IsOrderedAddMonoid δ] in
/-- C34: the durations of the chords of a file add up to the distance from the first of them to the end of
the file. `k`, ..., `k + n` are the places of consecutive chords of one file, the last one of which is
the last chord of the file. -/
theorem C34_tiles_partial {M : List (FileMeasure δ)} {chords : List (ChordRow δ)} (h : ChordsFit M chords)
    (hfiles : ∀ a b, chords[0]? = some a → chords[chords.length - 1]? = some b → a.file ≠ b.file)
    (fuel : Nat) (hfuel : M.length ≤ fuel) (out : List (ChordEnd δ))
    (hout : addChordMetricalData M chords fuel = .ok out) (f : Nat) (n k : Nat)
    (hsame : ∀ i, i ≤ n → ∃ c, chords[k + i]? = some c ∧ c.file = f)
    (hlast : ∀ c, chords[k + n]? = some c → LastOfFile chords (k + n) c)
    (c : ChordRow δ) (hk : chords[k]? = some c) (p : δ) (hp : At (measuresOf M f) c.mc c.onset p) :
    ∃ ds : List δ, ((out.drop k).take (n + 1)).map (·.duration) = ds.map some ∧
      ds.sum = ((measuresOf M f).map (·.actDur)).sum - p := by
  obtain ⟨out', h1, h2, h3, h4⟩ := C34_rows_partial h hfiles fuel hfuel
  obtain rfl : out' = out := by rw [hout] at h1; injection h1 with h1; exact h1.symm
  have hsplit : ∀ (k n : Nat) (e : ChordEnd δ), out'[k]? = some e →
      (out'.drop k).take (n + 1) = e :: (out'.drop (k + 1)).take n := by
    intro k n e he
    obtain ⟨hl, rfl⟩ := List.getElem?_eq_some_iff.mp he
    rw [List.drop_eq_getElem_cons hl, List.take_succ_cons]
  induction n generalizing k c p with
  | zero =>
    obtain ⟨c0, hc0, hf0⟩ := hsame 0 (Nat.le_refl _)
    obtain rfl : c0 = c := by rw [Nat.add_zero, hk] at hc0; injection hc0 with hc0; exact hc0.symm
    subst hf0
    obtain ⟨l, hl, ho⟩ := h4 k c0 hk (hlast c0 hk) p hp
    exact ⟨[_], by rw [hsplit k 0 _ ho]; rfl, by simp⟩
  | succ n ih =>
    obtain ⟨c0, hc0, hf0⟩ := hsame 0 (Nat.zero_le _)
    obtain rfl : c0 = c := by rw [Nat.add_zero, hk] at hc0; injection hc0 with hc0; exact hc0.symm
    obtain ⟨c1, hc1, hf1⟩ := hsame 1 (by omega)
    obtain ⟨p1, _, hp1, _⟩ := h.at (List.mem_of_getElem? hc1) c1.onset
    rw [hf1] at hp1
    obtain ⟨ds, hds, hsum⟩ := ih (k + 1)
      (fun i hi => by rw [show k + 1 + i = k + (i + 1) by omega]; exact hsame (i + 1) (by omega))
      (fun c hc => by rw [show k + 1 + n = k + (n + 1) by omega] at hc ⊢; exact hlast c hc) c1 hc1 p1 hp1
    subst hf0
    have ho := h3 k c0 c1 hk hc1 hf1.symm p p1 hp hp1
    refine ⟨(p1 - p) :: ds, ?_, ?_⟩
    · rw [hsplit k (n + 1) _ ho, List.map_cons, hds]; rfl
    · rw [List.sum_cons, hsum]; abel

omit [LinearOrder δ] [IsOrderedAddMonoid δ] in
/-- C34 fails if all chords are of one file: the last chord has no duration, and its end is not the end of
the piece, but the place "time signature" of its own measure. -/
theorem C34_fails_single_file (M : List (FileMeasure δ)) (chords : List (ChordRow δ)) (f : Nat)
    (hf : ∀ c ∈ chords, c.file = f) (fuel : Nat) (out : List (ChordEnd δ))
    (hout : addChordMetricalData M chords fuel = .ok out) (c : ChordRow δ)
    (hc : chords[chords.length - 1]? = some c) :
    out[chords.length - 1]? = some ⟨c.mc, some c.timesig, none⟩ := by
  have hlt := (List.getElem?_eq_some_iff.mp hc).1
  have hroll : rolledNext (chords.map (·.file)) (chords.length - 1) = false := by
    rw [rolledNext, decide_eq_false_iff_not, not_not, List.length_map,
      show chords.length - 1 + 1 = chords.length by omega, Nat.mod_self, List.getElem?_map,
      List.getElem?_map, hc, List.getElem?_eq_getElem (by omega : 0 < chords.length)]
    simp only [Option.map_some, Option.some.injEq]
    rw [hf _ (List.getElem_mem _), hf _ (List.mem_of_getElem? hc)]
  have hrow : chordEnd M chords fuel (chords.length - 1) c = .ok ⟨c.mc, some c.timesig, none⟩ := by
    rw [chordEnd, chordNext, hroll, show chords.length - 1 + 1 = chords.length by omega,
      List.getElem?_eq_none (Nat.le_refl _)]
    simp only [Bool.false_eq_true, if_false, Bind.bind, Except.bind]
    cases onFixed M c <;> rfl
  have hall : ∀ a ∈ chords.zipIdx, ∃ b, (fun (ci : ChordRow δ × Nat) => chordEnd M chords fuel ci.2 ci.1) a = .ok b := by
    have gen : ∀ (l : List (ChordRow δ × Nat)) (out : List (ChordEnd δ)),
        mapPy (fun (ci : ChordRow δ × Nat) => chordEnd M chords fuel ci.2 ci.1) l = .ok out →
        ∀ a ∈ l, ∃ b, (fun (ci : ChordRow δ × Nat) => chordEnd M chords fuel ci.2 ci.1) a = .ok b := by
      intro l
      induction l with
      | nil => intro _ _ a ha; cases ha
      | cons a l ih =>
        intro out ho x hx
        rw [mapPy] at ho
        cases hfa : chordEnd M chords fuel a.2 a.1 with
        | error e => simp only [hfa] at ho; cases ho
        | ok b =>
          simp only [hfa] at ho
          rcases List.mem_cons.mp hx with rfl | hx
          · exact ⟨b, hfa⟩
          · cases hm : mapPy (fun (ci : ChordRow δ × Nat) => chordEnd M chords fuel ci.2 ci.1) l with
            | error e => rw [hm] at ho; cases ho
            | ok bs => exact ih bs hm x hx
    exact gen _ out hout
  obtain ⟨out', h1, h2, h3⟩ := mapPy_rows _ chords.zipIdx hall
  obtain rfl : out' = out := by
    have := h1.symm.trans hout
    injection this
  exact h3 (chords.length - 1) (c, chords.length - 1) (by rw [List.getElem?_zipIdx, hc]; simp) _ hrow

/-- Two files: the three measures of above, and one with a single measure. -/
def exCorpus : List (FileMeasure ℚ) :=
  exMeasures.map (fun m => { m with file := 0 }) ++ [{ mc := 1, actDur := 1, offset := 0, next := none, file := 1 }]

def exChords : List (ChordRow ℚ) :=
  [⟨0, 1, 3/4, 1⟩, ⟨0, 2, 1/2, 1⟩, ⟨0, 2, 3/4, 1⟩, ⟨1, 1, 1/4, 1⟩]

/-- Each chord lasts until the next one or the end of the file; the sum of the first file is 2. -/
example : addChordMetricalData exCorpus exChords 4 = .ok
    [⟨2, some (1/2), some (3/4)⟩, ⟨2, some (3/4), some (1/4)⟩, ⟨3, some (3/4), some 1⟩,
      ⟨1, some 1, some (3/4)⟩] := by decide +kernel

/-- The hypotheses hold for these tables. -/
example : ChordsFit exCorpus exChords ∧
    (∀ a b, exChords[0]? = some a → exChords[exChords.length - 1]? = some b → a.file ≠ b.file) := by
  have h0 : measuresOf exCorpus 0 = exMeasures := by decide +kernel
  have h1 : measuresOf exCorpus 1 = [⟨1, 1, 0, none⟩] := by decide +kernel
  have f1 : FullChain [(⟨1, 1, 0, none⟩ : Measure ℚ)] [⟨1, 1, 0, none⟩] := by
    refine ⟨⟨by decide +kernel, ?_, by decide +kernel⟩, ?_⟩
    · intro k m m' _ h; simp at h
    · intro m h; simp at h; rw [← h]
  refine ⟨⟨?_, by decide +kernel, ?_⟩, ?_⟩
  · intro c hc
    simp only [exChords, List.mem_cons, List.not_mem_nil, or_false] at hc
    rcases hc with rfl | rfl | rfl | rfl <;> simp only [h0, h1]
    · exact exMeasures_full
    · exact exMeasures_full
    · exact exMeasures_full
    · exact f1
  · intro k c c' hk hk'
    match k with
    | 0 => simp [exChords] at hk hk'; subst hk; subst hk'; decide
    | 1 => simp [exChords] at hk hk'; subst hk; subst hk'; decide
    | 2 => simp [exChords] at hk hk'; subst hk; subst hk'; decide
    | k + 3 => simp [exChords] at hk'
  · intro a b ha hb
    simp [exChords] at ha hb
    subst ha; subst hb; decide

/-- The same chords without the second file: the last chord has no duration. -/
example : addChordMetricalData exCorpus (exChords.take 3) 4 = .ok
    [⟨2, some (1/2), some (3/4)⟩, ⟨2, some (3/4), some (1/4)⟩, ⟨2, some 1, none⟩] := by decide +kernel

end Verif
