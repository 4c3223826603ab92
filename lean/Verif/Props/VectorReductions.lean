import Verif.Props.Vectors

/-!
# C40, C60 and C61: reductions of chord vectors
-/

namespace Verif.Vectors

theorem zeros_length (n : Nat) : (zeros n).length = n := by simp [zeros]

/-- The row of a chord in a tensor: its vector, followed by other entries. -/
structure Row where
  chord : Chord ℚ
  rest : List ℚ

/-- Levels and inversions as in the data. -/
def Levels (c : Chord ℚ) : Prop :=
  (0 ≤ c.inversion ∧ c.inversion < 4) ∧ (0 ≤ c.onsetLevel ∧ c.onsetLevel < 4) ∧
    (0 ≤ c.offsetLevel ∧ c.offsetLevel < 4)

/-- The tensor holds the vectors of the chords (all of the same pitch type), relative to `rel`, each
followed by other entries. The pitch type is given, or there are no other entries in the first row. -/
structure RowsOf (rows : List Row) (rel : Option Key) (pad : Bool) (pt : PitchType)
    (p : Option PitchType) (tensor : List (List ℚ)) : Prop where
  nonempty : rows ≠ []
  pitchType : ∀ x ∈ rows, x.chord.pitchType = pt
  levels : ∀ x ∈ rows, Levels x.chord
  length : tensor.length = rows.length
  entry : ∀ (i : Nat) x, rows[i]? = some x →
    ∃ v, x.chord.toVec rel pad noReduction = .ok v ∧ tensor[i]? = some (v ++ x.rest)
  given : p = some pt ∨ (p = none ∧ ∃ x, rows[0]? = some x ∧ x.rest = [])

/-- What the first row says about the pitch type. -/
theorem RowsOf.first {rows : List Row} {rel : Option Key} {pad : Bool} {pt : PitchType}
    {p : Option PitchType} {tensor : List (List ℚ)} (h : RowsOf rows rel pad pt p tensor) :
    ∃ f, pyGet tensor 0 = .ok f ∧ givenOrInferred p f.length pad = .ok pt := by
  obtain ⟨x, rows', rfl⟩ := List.exists_cons_of_ne_nil h.nonempty
  obtain ⟨v, hv, ht⟩ := h.entry 0 x rfl
  have hlen : (0 : Int) < tensor.length := by
    rw [h.length]; simp only [List.length_cons]; omega
  refine ⟨v ++ x.rest, ?_, ?_⟩
  · simp only [pyGet]
    rw [if_pos (by omega), Int.toNat_zero, ht]
  · rcases h.given with rfl | ⟨rfl, y, hy, hr⟩
    · rfl
    · simp only [List.getElem?_cons_zero, Option.some.injEq] at hy
      subst hy
      obtain ⟨h1, h2, h3⟩ := h.levels x (by simp)
      obtain ⟨r, b, _, _, _, _, rfl⟩ := toVec_layout h1 h2 h3 hv
      rw [hr, List.append_nil, layout_length, h.pitchType x (by simp)]
      exact infer_eq _ _

theorem hot_value (t u : ChordType) : (hot 12 t.value)[u.value]? = some 1 ↔ u = t := by
  cases t <;> cases u <;> decide +kernel

theorem fold_types (red : Reduction) (t : ChordType) (l : List ChordType) (z : List ℚ) (hl : l.Nodup) :
    l.foldl (reduceTypeStep red (hot 12 t.value)) z =
      if t ∈ l ∧ red t ≠ t then z.set (red t).value 1 else z := by
  induction l generalizing z with
  | nil => simp
  | cons u l ih =>
    rw [List.nodup_cons] at hl
    rw [List.foldl_cons, ih _ hl.2]
    by_cases hu : u = t
    · subst hu
      rw [if_neg (fun h => hl.1 h.1), reduceTypeStep]
      by_cases hr : red u = u
      · rw [if_pos hr, if_neg (by simp [hr])]
      · rw [if_neg hr, if_pos ((hot_value _ _).2 rfl), if_pos ⟨by simp, hr⟩]
    · have : reduceTypeStep red (hot 12 t.value) z u = z := by
        rw [reduceTypeStep]
        split
        · rfl
        · rw [if_neg (fun h => hu ((hot_value _ _).1 h))]
      rw [this]
      have hm : (t ∈ u :: l) ↔ t ∈ l := by
        rw [List.mem_cons]
        constructor
        · rintro (h | h)
          · exact absurd h.symm hu
          · exact h
        · exact Or.inr
      simp only [hm]

/-- The chord types of a row after the reduction. -/
def typesAfter (red : Reduction) (t : ChordType) : List ℚ :=
  if red t = t then zeros 12 else hot 12 (red t).value

theorem fold_all (red : Reduction) (t : ChordType) :
    ChordType.all.foldl (reduceTypeStep red (hot 12 t.value)) (zeros 12) = typesAfter red t := by
  rw [fold_types _ _ _ _ (by decide)]
  have : t ∈ ChordType.all := by cases t <;> decide
  simp only [this, true_and, typesAfter]
  by_cases h : red t = t
  · rw [if_pos h, if_neg (by simp [h])]
  · rw [if_neg h, if_pos h]; rfl

theorem splice {α : Type} (a b c b' : List α) (i j : Nat) (hi : a.length = i) (hj : j = i + b.length) :
    (a ++ (b ++ c)).take i ++ b' ++ (a ++ (b ++ c)).drop j = a ++ (b' ++ c) := by
  subst hi; subst hj
  simp

/-- The reduction, row by row. -/
theorem reduce_rows {rows : List Row} {rel : Option Key} {pad : Bool} {pt : PitchType}
    {p : Option PitchType} {tensor : List (List ℚ)} (h : RowsOf rows rel pad pt p tensor) (red : Reduction) :
    ∃ out, reduceChordTypes tensor (some red) pad p = .ok out ∧ out.length = rows.length ∧
      ∀ (i : Nat) x, rows[i]? = some x → ∃ r b : Nat,
        r < relPitches pt pad ∧ b < relPitches pt pad ∧
        absoluteToRelative x.chord.root (x.chord.tonicFor rel) pt false pad = .ok (r : Int) ∧
        absoluteToRelative x.chord.bass (x.chord.tonicFor rel) pt false pad = .ok (b : Int) ∧
        out[i]? = some (hot (relPitches pt pad) r ++ (typesAfter red x.chord.chordType ++
          (hot (relPitches pt pad) b ++ (hot 4 x.chord.inversion.toNat ++ (hot 4 x.chord.onsetLevel.toNat ++
            (hot 4 x.chord.offsetLevel.toNat ++
              [x.chord.duration, if x.chord.modeFor rel = .major then 1 else 0])))) ++ x.rest)) := by
  obtain ⟨f, hf, hg⟩ := h.first
  simp only [reduceChordTypes, Bind.bind, hf, Except.bind, chordTypeIndex, hg]
  refine ⟨_, rfl, by simp [h.length], ?_⟩
  intro i x hx
  obtain ⟨v, hv, ht⟩ := h.entry i x hx
  obtain ⟨h1, h2, h3⟩ := h.levels x (List.mem_of_getElem? hx)
  have hpt := h.pitchType x (List.mem_of_getElem? hx)
  obtain ⟨r, b, hr, hb, r1, b1, rfl⟩ := toVec_layout h1 h2 h3 hv
  rw [hpt] at hr hb r1 b1 ht
  refine ⟨r, b, r1, b1, hr, hb, ?_⟩
  rw [List.getElem?_map, ht, Option.map_some]
  congr 1
  have hts : ChordType.all.length = 12 := rfl
  simp only [layout, List.append_assoc, hts]
  rw [slice_mid _ _ _ _ _ (hot_length _ _) (by rw [hot_length])]
  have : noReduction x.chord.chordType = x.chord.chordType := by
    cases x.chord.chordType <;> rfl
  rw [this, fold_all, ← List.append_assoc (List.take _ _)]
  simp only [List.append_assoc]
  have := splice (hot (relPitches pt pad) r) (hot 12 x.chord.chordType.value)
    (hot (relPitches pt pad) b ++ (hot 4 x.chord.inversion.toNat ++ (hot 4 x.chord.onsetLevel.toNat ++
      (hot 4 x.chord.offsetLevel.toNat ++
        ([x.chord.duration, if x.chord.modeFor rel = .major then 1 else 0] ++ x.rest)))))
    (typesAfter red x.chord.chordType) (relPitches pt pad) (relPitches pt pad + 12) (hot_length _ _)
    (by rw [hot_length])
  rw [← List.append_assoc] at this
  simpa only [List.append_assoc] using this

/-- C40: the row of a chord whose type is changed by the reduction becomes the vector of the chord with
the reduced type; the rest of the row stays. What is missing are the chord types that the reduction maps
to themselves: see `C40_wiped`. -/
theorem C40_reduced_partial (rows : List Row) (rel : Option Key) (pad : Bool) (pt : PitchType)
    (p : Option PitchType) (tensor : List (List ℚ)) (h : RowsOf rows rel pad pt p tensor) (red : Reduction) :
    ∃ out, reduceChordTypes tensor (some red) pad p = .ok out ∧ out.length = rows.length ∧
      ∀ (i : Nat) x, rows[i]? = some x → red x.chord.chordType ≠ x.chord.chordType →
        ∃ v, x.chord.toVec rel pad red = .ok v ∧ out[i]? = some (v ++ x.rest) := by
  obtain ⟨out, h1, h2, h3⟩ := reduce_rows h red
  refine ⟨out, h1, h2, ?_⟩
  intro i x hx hne
  obtain ⟨r, b, r1, b1, hr, hb, ho⟩ := h3 i x hx
  obtain ⟨l1, l2, l3⟩ := h.levels x (List.mem_of_getElem? hx)
  have hpt := h.pitchType x (List.mem_of_getElem? hx)
  obtain ⟨v, hv, _⟩ := h.entry i x hx
  have hex := (C41_exists x.chord rel pad noReduction l1 l2 l3).1 ⟨v, hv⟩
  obtain ⟨w, hw⟩ := (C41_exists x.chord rel pad red l1 l2 l3).2 hex
  refine ⟨w, hw, ?_⟩
  obtain ⟨r', b', hr', hb', _, _, rfl⟩ := toVec_layout l1 l2 l3 hw
  rw [hpt, hr] at hr'
  rw [hpt, hb] at hb'
  injection hr' with hr'
  injection hb' with hb'
  have hr2 : r = r' := by exact_mod_cast hr'
  have hb2 : b = b' := by exact_mod_cast hb'
  subst hr2 hb2
  rw [ho, hpt, typesAfter, if_neg hne]
  simp only [layout, List.append_assoc]

/-- C40 fails for the other chord types: their bit is cleared, so the row belongs to no chord and
cannot be decoded. In particular `NO_REDUCTION`, which changes no type, clears all rows. -/
theorem C40_wiped (rows : List Row) (rel : Option Key) (pad : Bool) (pt : PitchType)
    (p : Option PitchType) (tensor : List (List ℚ)) (h : RowsOf rows rel pad pt p tensor) (red : Reduction)
    (out : List (List ℚ)) (ho : reduceChordTypes tensor (some red) pad p = .ok out) (i : Nat) (x : Row)
    (hx : rows[i]? = some x) (hs : red x.chord.chordType = x.chord.chordType) (row : List ℚ)
    (hrow : out[i]? = some row) :
    (∀ (c : Chord ℚ) v, c.pitchType = pt → Levels c → c.toVec rel pad red = .ok v → row ≠ v ++ x.rest) ∧
    decodeChordVector row pad (some pt) = .error .indexError := by
  obtain ⟨out', h1, h2, h3⟩ := reduce_rows h red
  rw [ho] at h1
  injection h1 with h1
  subst h1
  obtain ⟨r, b, r1, b1, hr, hb, hout⟩ := h3 i x hx
  rw [hrow] at hout
  injection hout with hout
  rw [typesAfter, if_pos hs] at hout
  have hsl : slice row (relPitches pt pad) (relPitches pt pad + 12) = zeros 12 := by
    rw [hout]
    simp only [List.append_assoc]
    exact slice_mid _ _ _ _ _ (hot_length _ _) (by rw [zeros_length])
  constructor
  · rintro c v hpt ⟨l1, l2, l3⟩ hv he
    obtain ⟨r', b', _, _, _, _, rfl⟩ := toVec_layout l1 l2 l3 hv
    rw [hpt] at he
    have : slice row (relPitches pt pad) (relPitches pt pad + 12) = hot 12 (red c.chordType).value := by
      rw [he]
      simp only [layout, List.append_assoc]
      exact slice_mid _ _ _ _ _ (hot_length _ _) (by rw [hot_length])
    rw [hsl] at this
    revert this
    generalize red c.chordType = t
    cases t <;> decide +kernel
  · have hw : whereOne row = .ok (r : Int) := by
      rw [hout]; exact whereOne_hot _ _ r1 _
    have hts : ChordType.all.length = 12 := rfl
    have hz : typeOfMask (zeros 12) = .error .indexError := by decide +kernel
    simp only [decodeChordVector, Bind.bind, givenOrInferred, Except.bind, hw, hts, hsl, hz]

/-- The reduction `None` leaves the tensor as it is. -/
theorem C40_none (tensor : List (List ℚ)) (pad : Bool) (p : Option PitchType) :
    reduceChordTypes tensor none pad p = .ok tensor := rfl

/-- C60: `remove_chord_inversions` gives the vectors of the same chords in root position (the bass
entries included in the vectors stay). -/
theorem C60_root_position (rows : List Row) (rel : Option Key) (pad : Bool) (pt : PitchType)
    (p : Option PitchType) (tensor : List (List ℚ)) (h : RowsOf rows rel pad pt p tensor) :
    ∃ out, removeChordInversions tensor pad p = .ok out ∧ out.length = rows.length ∧
      ∀ (i : Nat) x, rows[i]? = some x →
        ∃ v, ({ x.chord with inversion := 0 } : Chord ℚ).toVec rel pad noReduction = .ok v ∧
          out[i]? = some (v ++ x.rest) := by
  obtain ⟨f, hf, hg⟩ := h.first
  simp only [removeChordInversions, Bind.bind, hf, Except.bind, inversionIndex, hg]
  refine ⟨_, rfl, by simp [h.length], ?_⟩
  intro i x hx
  obtain ⟨v, hv, ht⟩ := h.entry i x hx
  obtain ⟨h1, h2, h3⟩ := h.levels x (List.mem_of_getElem? hx)
  have hpt := h.pitchType x (List.mem_of_getElem? hx)
  have hex := (C41_exists x.chord rel pad noReduction h1 h2 h3).1 ⟨v, hv⟩
  have ht0 : ∀ c : Chord ℚ, ({ c with inversion := 0 } : Chord ℚ).tonicFor rel = c.tonicFor rel := by
    intro c; cases rel <;> rfl
  have hm0 : ∀ c : Chord ℚ, ({ c with inversion := 0 } : Chord ℚ).modeFor rel = c.modeFor rel := by
    intro c; cases rel <;> rfl
  obtain ⟨w, hw⟩ := (C41_exists { x.chord with inversion := 0 } rel pad noReduction
    (by simp) h2 h3).2 (by simpa only [ht0] using hex)
  refine ⟨w, hw, ?_⟩
  obtain ⟨r, b, hr, hb, r1, b1, rfl⟩ := toVec_layout h1 h2 h3 hv
  obtain ⟨r', b', hr', hb', _, _, rfl⟩ := toVec_layout (c := { x.chord with inversion := 0 })
    (by simp) h2 h3 hw
  rw [ht0, hr] at hr'
  rw [ht0, hb] at hb'
  injection hr' with hr'
  injection hb' with hb'
  have hr2 : r = r' := by exact_mod_cast hr'
  have hb2 : b = b' := by exact_mod_cast hb'
  subst hr2 hb2
  rw [List.getElem?_map, ht, Option.map_some, hm0]
  congr 1
  have hts : ChordType.all.length = 12 := rfl
  simp only [hts, hpt, layout]
  generalize hn : relPitches pt pad = n
  generalize noReduction x.chord.chordType = t
  have hassoc : ∀ (inv : List ℚ) (tail : List ℚ),
      hot n r ++ (hot 12 t.value ++ (hot n b ++ (inv ++ tail))) ++ x.rest =
        (hot n r ++ (hot 12 t.value ++ hot n b)) ++ (inv ++ (tail ++ x.rest)) := by
    intro inv tail; simp only [List.append_assoc]
  have hl : (hot n r ++ (hot 12 t.value ++ hot n b)).length = 2 * n + 12 := by
    simp only [List.length_append, hot_length]; omega
  simp only [hassoc]
  rw [slice_mid _ _ _ _ _ hl (by rw [hot_length]), splice _ _ _ _ _ _ hl (by rw [hot_length])]
  have hsum : ∀ k : Nat, k < 4 → ((hot 4 k).sum :: zeros 3) = hot 4 0 := by
    decide +kernel
  rw [hsum _ (by omega)]
  rfl

/-- C61: the rows of the chord and key sequence datasets hold the key change as well, so that their
length fits no pitch type: without a pitch type (as in the datasets) both functions raise `ValueError`,
for every row, whatever its entries. -/
theorem C61_inference_fails (row : List ℚ) (tensor : List (List ℚ)) (pt tt : PitchType) (pad pad' : Bool)
    (hlen : row.length = specLength pt pad + keyChangeVectorLength tt false + 1)
    (red : Reduction) :
    reduceChordTypes (row :: tensor) (some red) pad' none = .error .valueError ∧
    removeChordInversions (row :: tensor) pad' none = .error .valueError := by
  have h0 : pyGet (row :: tensor) 0 = .ok row := by
    simp only [pyGet, List.length_cons]
    rw [if_pos (by omega)]
    rfl
  have hi : inferChordVectorPitchType row.length pad' = .error .valueError := by
    rw [hlen]
    cases pt <;> cases tt <;> cases pad <;> cases pad' <;> decide
  constructor
  · simp only [reduceChordTypes, Bind.bind, h0, Except.bind, chordTypeIndex, givenOrInferred, hi]
  · simp only [removeChordInversions, Bind.bind, h0, Except.bind, inversionIndex, givenOrInferred, hi]

/-- The length of a row of the datasets. -/
theorem sequenceRow_length {c : Chord ℚ} {tt : PitchType} {change : Option (Key × Key)} {pad : Bool}
    {row : List ℚ} (hl : Levels c) (h : sequenceRow c tt change pad = .ok row) :
    row.length = specLength c.pitchType pad + keyChangeVectorLength tt false + 1 := by
  simp only [sequenceRow, Bind.bind] at h
  obtain ⟨v, hv, h⟩ := bind_ok h
  have hlen := (C41_round_trip c none pad noReduction v none (Or.inl rfl) hl.1 hl.2.1 hl.2.2 hv).1
  cases change with
  | none =>
    injection h with h
    rw [← h, List.length_append, hlen, zeros_length]; omega
  | some x =>
    obtain ⟨kv, hkv, h⟩ := bind_ok h
    split at h
    · cases h
    · rename_i hk
      injection h with h
      rw [← h, List.length_append, List.length_append, hlen, List.length_singleton]
      omega

/-- C61 fails: a dataset whose first row belongs to any chord of the data raises `ValueError` for any
reduction of the inputs. -/
theorem C61_datasets (c : Chord ℚ) (tt : PitchType) (change : Option (Key × Key)) (row : List ℚ)
    (tensor : List (List ℚ)) (red : Reduction) (hl : Levels c)
    (h : sequenceRow c tt change false = .ok row) :
    reduceChordTypes (row :: tensor) (some red) false none = .error .valueError ∧
    removeChordInversions (row :: tensor) false none = .error .valueError :=
  C61_inference_fails row tensor c.pitchType tt false false (sequenceRow_length hl h) red

/-- C61: with the pitch type, the chord part of the rows is changed as described by C40 and C60, and the
rest is untouched. What is missing is the call in the datasets: see `C61_datasets`. -/
theorem C61_given_partial (rows : List Row) (rel : Option Key) (pad : Bool) (pt : PitchType)
    (tensor : List (List ℚ)) (h : RowsOf rows rel pad pt (some pt) tensor) (red : Reduction)
    (hred : ∀ x ∈ rows, red x.chord.chordType ≠ x.chord.chordType) :
    (∃ out, reduceChordTypes tensor (some red) pad (some pt) = .ok out ∧
      ∀ (i : Nat) x, rows[i]? = some x →
        ∃ v, x.chord.toVec rel pad red = .ok v ∧ out[i]? = some (v ++ x.rest)) ∧
    (∃ out, removeChordInversions tensor pad (some pt) = .ok out ∧
      ∀ (i : Nat) x, rows[i]? = some x →
        ∃ v, ({ x.chord with inversion := 0 } : Chord ℚ).toVec rel pad noReduction = .ok v ∧
          out[i]? = some (v ++ x.rest)) := by
  obtain ⟨o1, a1, _, a2⟩ := C40_reduced_partial rows rel pad pt _ tensor h red
  obtain ⟨o2, b1, _, b2⟩ := C60_root_position rows rel pad pt _ tensor h
  exact ⟨⟨o1, a1, fun i x hx => a2 i x hx (hred x (List.mem_of_getElem? hx))⟩, ⟨o2, b1, b2⟩⟩

/-- The chord G7/B in A minor. -/
def g7 : Chord ℚ := ⟨7, 11, 9, .minor, .majMin7, 1, 3, 2, 5 / 2, .midi⟩

example : RowsOf [⟨g7, [1, 0]⟩] none false .midi (some .midi)
    [hot 12 10 ++ hot 12 5 ++ hot 12 2 ++ hot 4 1 ++ hot 4 3 ++ hot 4 2 ++ [5 / 2, 0] ++ [1, 0]] where
  nonempty := by simp
  pitchType := by simp [g7]
  levels := by simp [g7, Levels]
  length := rfl
  entry := by
    intro i x hx
    cases i with
    | zero =>
      simp only [List.getElem?_cons_zero, Option.some.injEq] at hx
      subst hx
      exact ⟨_, by decide +kernel, rfl⟩
    | succ i => simp at hx
  given := Or.inl rfl

example : reduceChordTypes
    [hot 12 10 ++ hot 12 5 ++ hot 12 2 ++ hot 4 1 ++ hot 4 3 ++ hot 4 2 ++ [5 / 2, 0] ++ [1, 0]]
    (some triadReduction) false (some .midi) =
    .ok [hot 12 10 ++ hot 12 0 ++ hot 12 2 ++ hot 4 1 ++ hot 4 3 ++ hot 4 2 ++ [5 / 2, 0] ++ [1, 0]] := by
  decide +kernel

/-- A major triad loses its type, although the reduction to triads should keep it. -/
example : reduceChordTypes
    [hot 12 10 ++ hot 12 0 ++ hot 12 2 ++ hot 4 1 ++ hot 4 3 ++ hot 4 2 ++ [5 / 2, 0]]
    (some triadReduction) false none =
    .ok [hot 12 10 ++ zeros 12 ++ hot 12 2 ++ hot 4 1 ++ hot 4 3 ++ hot 4 2 ++ [5 / 2, 0]] := by
  decide +kernel

example : removeChordInversions
    [hot 12 10 ++ hot 12 5 ++ hot 12 2 ++ hot 4 1 ++ hot 4 3 ++ hot 4 2 ++ [5 / 2, 0]] false none =
    .ok [hot 12 10 ++ hot 12 5 ++ hot 12 2 ++ hot 4 0 ++ hot 4 3 ++ hot 4 2 ++ [5 / 2, 0]] := by
  decide +kernel

end Verif.Vectors
