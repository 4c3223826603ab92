import Verif.Forced
import Verif.Lemmas.Lists
import Mathlib.Logic.Basic

/-!
# C30: validation of forced labels
-/

namespace Verif
namespace Forced

/-! ## Specification -/

/-- The label forced at note `i`, if any: that of the first range that contains it. -/
def labelAt (ft : ForcedType) (i : Nat) : Option Int :=
  (ft.labels.find? (fun r => decide (r.1.1 ≤ (i : Int)) && decide ((i : Int) < r.1.2))).map (·.2)

/-- All indices are natural numbers. -/
def NonNeg (ft : ForcedType) : Prop :=
  (∀ c ∈ ft.changes, 0 ≤ c) ∧ (∀ c ∈ ft.nonChanges, 0 ≤ c) ∧
    ∀ r ∈ ft.labels, 0 ≤ r.1.1 ∧ 0 ≤ r.1.2

/-- The conditions on one kind of labels for a piece of `n` notes. -/
structure TypeOK {δ : Type} [Zero δ] (dur : List δ) (ft : ForcedType) : Prop where
  /-- indices are in bounds -/
  changeBound : ∀ c ∈ ft.changes, c ≠ 0 → c < dur.length
  nonChangeBound : ∀ c ∈ ft.nonChanges, c < dur.length
  /-- no index is both -/
  disjoint : ∀ c ∈ ft.changes, c ≠ 0 → c ∉ ft.nonChanges
  /-- changes are at the first notes of onsets -/
  onset : ∀ c ∈ ft.changes, c ≠ 0 → dur[(c - 1).toNat]? ≠ some 0
  /-- labels exist -/
  range : ∀ r ∈ ft.labels, 0 ≤ r.2 ∧ r.2 < ft.maxId
  /-- no note has two labels -/
  unique : ∀ r ∈ ft.labels, ∀ q ∈ ft.labels, ∀ i : Nat, i < dur.length →
    (r.1.1 ≤ (i : Int) ∧ (i : Int) < r.1.2) → (q.1.1 ≤ (i : Int) ∧ (i : Int) < q.1.2) → r.2 = q.2
  /-- a forced change is not between equal labels -/
  change : ∀ c ∈ ft.changes, c ≠ 0 →
    ∀ l, ¬ (labelAt ft (c - 1).toNat = some l ∧ labelAt ft c.toNat = some l)
  /-- a forced non-change is not between different labels -/
  nonChange : ∀ c ∈ ft.nonChanges, c ≠ 0 →
    ∀ l m, labelAt ft (c - 1).toNat = some l → labelAt ft c.toNat = some m → l = m
  /-- quirk: for a forced non-change at 0 the last note counts as the one before -/
  zero : 0 ∈ ft.nonChanges → labelAt ft (dur.length - 1) = labelAt ft 0

/-- The conditions between chords and keys. -/
structure CrossOK (n : Nat) (chord key : ForcedType) : Prop where
  /-- a key change needs a chord change -/
  keyChange : ∀ c ∈ key.changes, c ≠ 0 → c ∉ chord.nonChanges
  sameChord : ∀ c ∈ key.changes, c ≠ 0 →
    ∀ l, ¬ (labelAt chord (c - 1).toNat = some l ∧ labelAt chord c.toNat = some l)
  /-- quirk: at a chord non-change the key labels must be equal, even if one of them is absent -/
  nonChange : ∀ c ∈ chord.nonChanges, c ≠ 0 → labelAt key (c - 1).toNat = labelAt key c.toNat
  zero : 0 ∈ chord.nonChanges → labelAt key (n - 1) = labelAt key 0

/-! ## Proof -/

theorem raiseIf_ok (p : Prop) [Decidable p] (e : PyErr) (u : Unit) :
    raiseIf p e = .ok u ↔ ¬ p := by
  rw [raiseIf]; split <;> simp_all

theorem forAll_ok {α : Type} (f : α → Py Unit) (l : List α) :
    forAll f l = .ok () ↔ ∀ x ∈ l, f x = .ok () := by
  induction l with
  | nil => simp [forAll]
  | cons x xs ih =>
    simp only [forAll, Bind.bind, Except.bind, List.mem_cons, forall_eq_or_imp]
    cases hx : f x with
    | error e => simp
    | ok u => simp [ih]

theorem bind_ok {α β : Type} (x : Py α) (f : α → Py β) (b : β) :
    (x >>= f) = .ok b ↔ ∃ a, x = .ok a ∧ f a = .ok b := by
  cases x with
  | error e => simp [Bind.bind, Except.bind]
  | ok a => simp [Bind.bind, Except.bind]

theorem bind_unit {β : Type} (x : Py Unit) (f : Unit → Py β) (b : β) :
    (x >>= f) = .ok b ↔ x = .ok () ∧ f () = .ok b := by
  rw [bind_ok]
  constructor
  · rintro ⟨⟨⟩, h⟩; exact h
  · intro h; exact ⟨(), h⟩

/-- Note `i` is in the range of a label. -/
def In (r : (Int × Int) × Int) (i : Nat) : Prop := r.1.1 ≤ (i : Int) ∧ (i : Int) < r.1.2

instance (r : (Int × Int) × Int) (i : Nat) : Decidable (In r i) := by unfold In; infer_instance

/-- The first label of a list at a note. -/
def firstAt (labels : List ((Int × Int) × Int)) (i : Nat) : Option Int :=
  (labels.find? (fun r => decide (In r i))).map (·.2)

theorem slice_all (ids : List Int) (a b : Nat) (p : Int → Bool) :
    ((ids.drop a).take (b - a)).all p = true ↔
      ∀ (i : Nat) (x : Int), ids[i]? = some x → a ≤ i → i < b → p x = true := by
  rw [List.all_eq_true]
  constructor
  · intro h i x hx h1 h2
    apply h
    rw [List.mem_iff_getElem?]
    refine ⟨i - a, ?_⟩
    rw [List.getElem?_take, if_pos (by omega), List.getElem?_drop]
    rw [show a + (i - a) = i by omega]; exact hx
  · intro h x hx
    rw [List.mem_iff_getElem?] at hx
    obtain ⟨k, hk⟩ := hx
    rw [List.getElem?_take] at hk
    split at hk
    · rw [List.getElem?_drop] at hk
      exact h (a + k) x hk (by omega) (by omega)
    · cases hk

theorem sliceIdx_le (n i : Nat) (s : Int) (hs : 0 ≤ s) (hi : i < n) :
    sliceIdx n s ≤ i ↔ s ≤ (i : Int) := by
  rw [sliceIdx, if_neg (by omega)]; omega

theorem lt_sliceIdx (n i : Nat) (s : Int) (hs : 0 ≤ s) (hi : i < n) :
    i < sliceIdx n s ↔ (i : Int) < s := by
  rw [sliceIdx, if_neg (by omega)]; omega

theorem fill_get (ids : List Int) (a b : Nat) (v : Int) (i : Nat) :
    (fill ids a b v)[i]? = (ids[i]?).map (fun x => if a ≤ i ∧ i < b then v else x) := by
  rw [fill, List.getElem?_mapIdx]

theorem fill_length (ids : List Int) (a b : Nat) (v : Int) : (fill ids a b v).length = ids.length := by
  simp [fill]

/-- When loading succeeds and what it gives; `ids` holds what was written before. -/
theorem loadLabels_spec (maxId : Int) (labels : List ((Int × Int) × Int))
    (hnn : ∀ r ∈ labels, 0 ≤ r.1.1 ∧ 0 ≤ r.1.2) (ids ids' : List Int) :
    loadLabels maxId labels ids = .ok ids' ↔
      (∀ r ∈ labels, 0 ≤ r.2 ∧ r.2 < maxId) ∧
      (∀ r ∈ labels, ∀ (i : Nat) (x : Int), ids[i]? = some x → In r i → x = -1 ∨ x = r.2) ∧
      (∀ r ∈ labels, ∀ q ∈ labels, ∀ i : Nat, i < ids.length → In r i → In q i → r.2 = q.2) ∧
      ids' = ids.mapIdx (fun i x => (firstAt labels i).getD x) := by
  induction labels generalizing ids with
  | nil =>
    simp only [loadLabels, firstAt, List.not_mem_nil, false_imp_iff, implies_true, true_and,
      List.find?_nil, Option.map_none, Option.getD_none, Except.ok.injEq]
    rw [show ids.mapIdx (fun _ x => x) = ids from by
      apply List.ext_getElem? ; intro i; rw [List.getElem?_mapIdx]; simp]
    exact eq_comm
  | cons hd rest ih =>
    obtain ⟨⟨s, e⟩, l⟩ := hd
    have hse := hnn _ (List.mem_cons_self ..)
    simp only at hse
    have hin : ∀ i, i < ids.length → (sliceIdx ids.length s ≤ i ∧ i < sliceIdx ids.length e ↔
        In ((s, e), l) i) := by
      intro i hi
      rw [sliceIdx_le _ _ _ hse.1 hi, lt_sliceIdx _ _ _ hse.2 hi]; rfl
    have hlt : ∀ (i : Nat) (x : Int), ids[i]? = some x → i < ids.length := by
      intro i x hx; exact (List.getElem?_eq_some_iff.mp hx).1
    have hget : ∀ i : Nat, (fill ids (sliceIdx ids.length s) (sliceIdx ids.length e) l)[i]? =
        (ids[i]?).map (fun x => if In ((s, e), l) i then l else x) := by
      intro i
      rw [fill_get]
      cases hx : ids[i]? with
      | none => rfl
      | some x => simp only [Option.map_some, hin i (hlt i x hx)]
    rw [loadLabels]
    by_cases hl : l < 0 ∨ l ≥ maxId
    · rw [if_pos hl]
      constructor
      · intro h; cases h
      · rintro ⟨h, _⟩
        have := h _ (List.mem_cons_self ..)
        simp only at this; omega
    rw [if_neg hl]
    simp only
    by_cases hall : ((ids.drop (sliceIdx ids.length s)).take
        (sliceIdx ids.length e - sliceIdx ids.length s)).all
          (fun x => decide (x = -1) || decide (x = l)) = true
    · rw [if_pos hall, ih (fun r hr => hnn r (List.mem_cons_of_mem _ hr)), fill_length]
      rw [slice_all] at hall
      have hall' : ∀ (i : Nat) (x : Int), ids[i]? = some x → In ((s, e), l) i → x = -1 ∨ x = l := by
        intro i x hx hi
        have := hall i x hx ((hin i (hlt i x hx)).2 hi).1 ((hin i (hlt i x hx)).2 hi).2
        simpa using this
      constructor
      · rintro ⟨h1, h2, h3, h4⟩
        have hun : ∀ r ∈ rest, ∀ i : Nat, i < ids.length → In ((s, e), l) i → In r i → l = r.2 := by
          intro r hr i hi ha hb
          have := h2 r hr i l (by rw [hget, List.getElem?_eq_getElem hi]; simp [ha]) hb
          rcases this with h | h
          · omega
          · exact h
        refine ⟨?_, ?_, ?_, ?_⟩
        · intro r hr
          rcases List.mem_cons.mp hr with rfl | hr
          · simp only; omega
          · exact h1 r hr
        · intro r hr i x hx hi
          rcases List.mem_cons.mp hr with rfl | hr
          · exact hall' i x hx hi
          · by_cases ha : In ((s, e), l) i
            · rw [← hun r hr i (hlt i x hx) ha hi]; exact hall' i x hx ha
            · exact h2 r hr i x (by rw [hget, hx]; simp [ha]) hi
        · intro r hr q hq i hi ha hb
          rcases List.mem_cons.mp hr with rfl | hr <;> rcases List.mem_cons.mp hq with rfl | hq
          · rfl
          · exact hun q hq i hi ha hb
          · exact (hun r hr i hi hb ha).symm
          · exact h3 r hr q hq i hi ha hb
        · rw [h4]
          apply List.ext_getElem?
          intro i
          rw [List.getElem?_mapIdx, List.getElem?_mapIdx, hget]
          cases hx : ids[i]? with
          | none => rfl
          | some x =>
            simp only [Option.map_some, Option.some.injEq, firstAt]
            by_cases ha : In ((s, e), l) i
            · rw [if_pos ha, List.find?_cons_of_pos (by simpa using ha)]
              cases hf : rest.find? (fun r => decide (In r i)) with
              | none => rfl
              | some r =>
                have hr := List.mem_of_find?_eq_some hf
                have hri := List.find?_some hf
                simp only [decide_eq_true_eq] at hri
                simp only [Option.map_some, Option.getD_some]
                exact (hun r hr i (hlt i x hx) ha hri).symm
            · rw [if_neg ha, List.find?_cons_of_neg (by simpa using ha)]
      · rintro ⟨h1, h2, h3, h4⟩
        have hun : ∀ r ∈ rest, ∀ i : Nat, i < ids.length → In ((s, e), l) i → In r i → l = r.2 :=
          fun r hr i hi ha hb => h3 _ (List.mem_cons_self ..) r (List.mem_cons_of_mem _ hr) i hi ha hb
        refine ⟨fun r hr => h1 r (List.mem_cons_of_mem _ hr), ?_,
          fun r hr q hq => h3 r (List.mem_cons_of_mem _ hr) q (List.mem_cons_of_mem _ hq), ?_⟩
        · intro r hr i x hx hi
          rw [hget] at hx
          cases hy : ids[i]? with
          | none => rw [hy] at hx; cases hx
          | some y =>
            rw [hy] at hx
            simp only [Option.map_some, Option.some.injEq] at hx
            by_cases ha : In ((s, e), l) i
            · rw [if_pos ha] at hx
              exact .inr (hx ▸ hun r hr i (hlt i y hy) ha hi)
            · rw [if_neg ha] at hx
              exact hx ▸ h2 r (List.mem_cons_of_mem _ hr) i y hy hi
        · rw [h4]
          apply List.ext_getElem?
          intro i
          rw [List.getElem?_mapIdx, List.getElem?_mapIdx, hget]
          cases hx : ids[i]? with
          | none => rfl
          | some x =>
            simp only [Option.map_some, Option.some.injEq, firstAt]
            by_cases ha : In ((s, e), l) i
            · rw [if_pos ha, List.find?_cons_of_pos (by simpa using ha)]
              cases hf : rest.find? (fun r => decide (In r i)) with
              | none => rfl
              | some r =>
                have hr := List.mem_of_find?_eq_some hf
                have hri := List.find?_some hf
                simp only [decide_eq_true_eq] at hri
                simp only [Option.map_some, Option.getD_some]
                exact hun r hr i (hlt i x hx) ha hri
            · rw [if_neg ha, List.find?_cons_of_neg (by simpa using ha)]
    · rw [if_neg hall]
      constructor
      · intro h; cases h
      · rintro ⟨_, h2, _⟩
        exfalso
        apply hall
        rw [slice_all]
        intro i x hx ha hb
        have := h2 _ (List.mem_cons_self ..) i x hx ((hin i (hlt i x hx)).1 ⟨ha, hb⟩)
        simpa using this

theorem ids_get (ft : ForcedType) (n i : Nat) (hi : i < n) :
    ((List.replicate n (-1 : Int)).mapIdx (fun i x => (firstAt ft.labels i).getD x))[i]? =
      some ((labelAt ft i).getD (-1)) := by
  rw [List.getElem?_mapIdx, List.getElem?_replicate, if_pos hi]
  simp only [Option.map_some, firstAt, labelAt, In]
  congr 4
  funext r
  exact Bool.decide_and ..

theorem pyGet_pos (l : List Int) (c : Int) (v : Int) (h0 : 0 ≤ c) (h : l[c.toNat]? = some v) :
    pyGet l c = .ok v := by
  rw [pyGet, if_pos h0, h]

theorem pyGet_last (l : List Int) (v : Int) (hn : 0 < l.length) (h : l[l.length - 1]? = some v) :
    pyGet l (-1) = .ok v := by
  rw [pyGet, if_neg (by omega), if_pos (by omega)]
  rw [show ((l.length : Int) + -1).toNat = l.length - 1 by omega, h]

/-- Labels with the value -1 for none determine the labels. -/
theorem getD_inj (a b : Option Int) (ha : ∀ l, a = some l → 0 ≤ l) (hb : ∀ l, b = some l → 0 ≤ l) :
    a.getD (-1) = b.getD (-1) ↔ a = b := by
  cases a <;> cases b <;> simp only [Option.getD_none, Option.getD_some, reduceCtorEq, iff_false,
    Option.some.injEq]
  · rename_i l; have := hb l rfl; omega
  · rename_i l; have := ha l rfl; omega

/-- `ids` are the labels of `ft`, which are natural numbers. -/
structure Loaded (ft : ForcedType) (n : Nat) (ids : List Int) : Prop where
  length : ids.length = n
  get : ∀ i, i < n → ids[i]? = some ((labelAt ft i).getD (-1))
  nonneg : ∀ i l, labelAt ft i = some l → 0 ≤ l

theorem labelAt_mem (ft : ForcedType) (i : Nat) (l : Int) (h : labelAt ft i = some l) :
    ∃ r ∈ ft.labels, r.2 = l := by
  simp only [labelAt, Option.map_eq_some_iff] at h
  obtain ⟨r, hr, rfl⟩ := h
  exact ⟨r, List.mem_of_find?_eq_some hr, rfl⟩

theorem checkChange_ok {ft : ForcedType} {n : Nat} {ids : List Int} (hl : Loaded ft n ids) (c : Int)
    (h0 : 0 < c) (hn : c < n) :
    checkChange ids c = .ok () ↔
      ∀ l, ¬ (labelAt ft (c - 1).toNat = some l ∧ labelAt ft c.toNat = some l) := by
  rw [checkChange, pyGet_pos ids (c - 1) _ (by omega) (hl.get _ (by omega)),
    pyGet_pos ids c _ (by omega) (hl.get _ (by omega))]
  simp only [Bind.bind, Except.bind]
  rw [raiseIf_ok, getD_inj _ _ (hl.nonneg _) (hl.nonneg _)]
  cases h1 : labelAt ft c.toNat with
  | none => simp
  | some m =>
    have hm := hl.nonneg _ m h1
    simp only [Option.getD_some, Option.some.injEq]
    constructor
    · rintro h l ⟨h2, h3⟩
      exact h ⟨by rw [h2, h3], by omega⟩
    · rintro h ⟨h2, _⟩
      exact h m ⟨h2, rfl⟩

theorem checkNonChange_ok {ft : ForcedType} {n : Nat} {ids : List Int} (hl : Loaded ft n ids) (c : Int)
    (h0 : 0 < c) (hn : c < n) :
    checkNonChange ids c = .ok () ↔
      ∀ l m, labelAt ft (c - 1).toNat = some l → labelAt ft c.toNat = some m → l = m := by
  have e1 := hl.get (c - 1).toNat (by omega)
  have e2 := hl.get c.toNat (by omega)
  rw [checkNonChange, pyGet_pos ids (c - 1) _ (by omega) e1, pyGet_pos ids c _ (by omega) e2]
  simp only [Bind.bind, Except.bind]
  have hsl : (ids.drop (sliceIdx ids.length (c - 1))).take
      (sliceIdx ids.length (c + 1) - sliceIdx ids.length (c - 1)) =
      [(labelAt ft (c - 1).toNat).getD (-1), (labelAt ft c.toNat).getD (-1)] := by
    have a : sliceIdx ids.length (c - 1) = (c - 1).toNat := by
      rw [sliceIdx, if_neg (by omega), hl.length]; omega
    have b : sliceIdx ids.length (c + 1) = (c - 1).toNat + 2 := by
      rw [sliceIdx, if_neg (by omega), hl.length]; omega
    rw [a, b, show (c - 1).toNat + 2 - (c - 1).toNat = 2 by omega]
    apply List.ext_getElem?
    intro k
    rw [List.getElem?_take]
    match k with
    | 0 => rw [if_pos (by omega), List.getElem?_drop, Nat.add_zero, e1]; rfl
    | 1 =>
      rw [if_pos (by omega), List.getElem?_drop, show (c - 1).toNat + 1 = c.toNat by omega, e2]; rfl
    | k + 2 => rw [if_neg (by omega)]; rfl
  rw [raiseIf_ok, hsl]
  cases h1 : labelAt ft (c - 1).toNat with
  | none => simp
  | some l =>
    cases h2 : labelAt ft c.toNat with
    | none => simp
    | some m =>
      have := hl.nonneg _ l h1
      have := hl.nonneg _ m h2
      simp only [Option.getD_some, List.mem_cons, List.not_mem_nil, or_false, Option.some.injEq]
      constructor
      · rintro h a b rfl rfl
        apply Classical.byContradiction
        intro hne
        exact h ⟨hne, by omega⟩
      · rintro h ⟨hne, _⟩
        exact hne (h l m rfl rfl)

/-- The check at 0 compares with the last note. -/
theorem checkNonChange_zero {ft : ForcedType} {n : Nat} {ids : List Int} (hl : Loaded ft n ids)
    (hn : 0 < n) :
    checkNonChange ids 0 = .ok () ↔ labelAt ft (n - 1) = labelAt ft 0 := by
  have e1 := hl.get (n - 1) (by omega)
  have e2 := hl.get 0 hn
  rw [checkNonChange, show (0 : Int) - 1 = -1 from rfl,
    pyGet_last ids _ (by rw [hl.length]; exact hn) (by rw [hl.length]; exact e1),
    pyGet_pos ids 0 _ (by omega) e2]
  simp only [Bind.bind, Except.bind]
  rw [raiseIf_ok, show ((0 : Int) + 1) = 1 from rfl]
  constructor
  · intro h
    apply Classical.byContradiction
    intro hne
    have hn1 : n ≠ 1 := by intro h1; subst h1; exact hne rfl
    have a : sliceIdx ids.length (-1) = n - 1 := by
      rw [sliceIdx, if_pos (by omega), hl.length]; omega
    have b : sliceIdx ids.length 1 = 1 := by
      rw [sliceIdx, if_neg (by omega), hl.length]; omega
    rw [a, b, show 1 - (n - 1) = 0 by omega, List.take_zero] at h
    exact h ⟨fun hh => hne ((getD_inj _ _ (hl.nonneg _) (hl.nonneg _)).1 hh), List.not_mem_nil⟩
  · rintro h ⟨h1, _⟩
    exact h1 (by rw [h])

theorem checkChordNonChange_ok {ft : ForcedType} {n : Nat} {ids : List Int} (hl : Loaded ft n ids)
    (c : Int) (h0 : 0 < c) (hn : c < n) :
    checkChordNonChange ids c = .ok () ↔ labelAt ft (c - 1).toNat = labelAt ft c.toNat := by
  rw [checkChordNonChange, pyGet_pos ids (c - 1) _ (by omega) (hl.get _ (by omega)),
    pyGet_pos ids c _ (by omega) (hl.get _ (by omega))]
  simp only [Bind.bind, Except.bind]
  rw [raiseIf_ok, not_not, getD_inj _ _ (hl.nonneg _) (hl.nonneg _)]

theorem checkChordNonChange_zero {ft : ForcedType} {n : Nat} {ids : List Int} (hl : Loaded ft n ids)
    (hn : 0 < n) :
    checkChordNonChange ids 0 = .ok () ↔ labelAt ft (n - 1) = labelAt ft 0 := by
  rw [checkChordNonChange, show (0 : Int) - 1 = -1 from rfl,
    pyGet_last ids _ (by rw [hl.length]; exact hn) (by rw [hl.length]; exact hl.get (n - 1) (by omega)),
    pyGet_pos ids 0 _ (by omega) (hl.get 0 hn)]
  simp only [Bind.bind, Except.bind]
  rw [raiseIf_ok, not_not, getD_inj _ _ (hl.nonneg _) (hl.nonneg _)]

theorem checkOnset_ok {δ : Type} [DecidableEq δ] [Zero δ] (dur : List δ) (c : Int) (h0 : 0 < c)
    (hn : c < dur.length) : checkOnset dur c = .ok () ↔ dur[(c - 1).toNat]? ≠ some 0 := by
  have hlt : (c - 1).toNat < dur.length := by omega
  rw [checkOnset, pyGet, if_pos (by omega), List.getElem?_eq_getElem hlt]
  simp only [Bind.bind, Except.bind, ne_eq, Option.some.injEq, raiseIf_ok]

theorem checkMax_ok (n : Nat) (cs : List Int) : checkMax n cs = .ok () ↔ ∀ c ∈ cs, c < n := by
  rw [checkMax, raiseIf_ok]
  constructor
  · intro h c hc
    apply Classical.byContradiction
    intro hn; exact h ⟨c, hc, by omega⟩
  · rintro h ⟨c, hc, hge⟩
    have := h c hc; omega

theorem mem_dropZero (cs : List Int) (c : Int) : c ∈ dropZero cs ↔ c ∈ cs ∧ c ≠ 0 := by
  simp [dropZero]

theorem validateType_ok {δ : Type} [DecidableEq δ] [Zero δ] (dur : List δ) (ft : ForcedType)
    (hnn : NonNeg ft) (ids : List Int) :
    validateType dur ft = .ok ids ↔ TypeOK dur ft ∧ Loaded ft dur.length ids := by
  obtain ⟨n1, n2, n3⟩ := hnn
  simp only [validateType, bind_unit, bind_ok (α := List Int), raiseIf_ok, checkMax_ok, forAll_ok,
    loadLabels_spec _ _ n3, mem_dropZero, Except.ok.injEq, not_exists, not_and, and_imp]
  constructor
  · rintro ⟨b1, b2, b3, b4, ids', ⟨l1, _, l3, rfl⟩, b5, b6, rfl⟩
    have hl : Loaded ft dur.length
        ((List.replicate dur.length (-1 : Int)).mapIdx (fun i x => (firstAt ft.labels i).getD x)) := by
      refine ⟨by simp, fun i hi => ids_get ft _ i hi, ?_⟩
      intro i l h
      obtain ⟨r, hr, rfl⟩ := labelAt_mem ft i l h
      exact (l1 r hr).1
    have pos : ∀ c ∈ ft.changes, c ≠ 0 → 0 < c := fun c hc h => by have := n1 c hc; omega
    refine ⟨⟨fun c hc h => b1 c hc h, b2, fun c hc h => b3 c hc h, ?_, l1, ?_, ?_, ?_, ?_⟩, hl⟩
    · intro c hc h; exact (checkOnset_ok dur c (pos c hc h) (b1 c hc h)).1 (b4 c hc h)
    · intro r hr q hq i hi h1 h2; exact l3 r hr q hq i (by simpa using hi) h1 h2
    · intro c hc h; exact (checkChange_ok hl c (pos c hc h) (b1 c hc h)).1 (b5 c hc h)
    · intro c hc h
      exact (checkNonChange_ok hl c (by have := n2 c hc; omega) (b2 c hc)).1 (b6 c hc)
    · intro h
      exact (checkNonChange_zero hl (by have := b2 0 h; omega)).1 (b6 0 h)
  · rintro ⟨ok, hl⟩
    have pos : ∀ c ∈ ft.changes, c ≠ 0 → 0 < c := fun c hc h => by have := n1 c hc; omega
    refine ⟨fun c hc h => ok.changeBound c hc h, ok.nonChangeBound,
      fun c hc h => ok.disjoint c hc h, ?_, ids, ⟨ok.range, ?_, ?_, ?_⟩, ?_, ?_, rfl⟩
    · intro c hc h
      exact (checkOnset_ok dur c (pos c hc h) (ok.changeBound c hc h)).2 (ok.onset c hc h)
    · intro r _ i x hx _
      rw [List.getElem?_replicate] at hx
      split at hx
      · injection hx with hx; exact .inl hx.symm
      · cases hx
    · intro r hr q hq i hi h1 h2; exact ok.unique r hr q hq i (by simpa using hi) h1 h2
    · apply List.ext_getElem?
      intro i
      by_cases hi : i < dur.length
      · rw [hl.get i hi, ids_get ft _ i hi]
      · rw [List.getElem?_eq_none (by rw [hl.length]; omega), List.getElem?_eq_none (by simp; omega)]
    · intro c hc h
      exact (checkChange_ok hl c (pos c hc h) (ok.changeBound c hc h)).2 (ok.change c hc h)
    · intro c hc
      by_cases h : c = 0
      · subst h
        exact (checkNonChange_zero hl (by have := ok.nonChangeBound 0 hc; omega)).2 (ok.zero hc)
      · exact (checkNonChange_ok hl c (by have := n2 c hc; omega) (ok.nonChangeBound c hc)).2
          (ok.nonChange c hc h)

/-- C30: the exact condition for acceptance, and the result. `TypeOK` and `CrossOK` hold the conditions
of the claim and the three conditions marked as quirks, which the claim does not have: that is the part
that is missing. -/
theorem C30_accepts_partial {δ : Type} [DecidableEq δ] [Zero δ] (dur : List δ) (chord key : ForcedType)
    (hc : NonNeg chord) (hk : NonNeg key) (cids kids : List Int) :
    validate dur chord key = .ok (cids, kids) ↔
      TypeOK dur chord ∧ TypeOK dur key ∧ CrossOK dur.length chord key ∧
      cids = (List.range dur.length).map (fun i => (labelAt chord i).getD (-1)) ∧
      kids = (List.range dur.length).map (fun i => (labelAt key i).getD (-1)) := by
  have hload : ∀ ft ids, TypeOK dur ft → (Loaded ft dur.length ids ↔
      ids = (List.range dur.length).map (fun i => (labelAt ft i).getD (-1))) := by
    intro ft ids ok
    constructor
    · intro hl
      apply List.ext_getElem?
      intro i
      by_cases hi : i < dur.length
      · rw [hl.get i hi]; simp [hi]
      · rw [List.getElem?_eq_none (by rw [hl.length]; omega), List.getElem?_eq_none (by simp; omega)]
    · rintro rfl
      refine ⟨by simp, fun i hi => by simp [hi], ?_⟩
      intro i l h
      obtain ⟨r, hr, rfl⟩ := labelAt_mem ft i l h
      exact (ok.range r hr).1
  simp only [validate, bind_unit, bind_ok (α := List Int), validateType_ok dur _ hc, validateType_ok dur _ hk, forAll_ok,
    mem_dropZero, Except.ok.injEq, Prod.mk.injEq, and_imp]
  constructor
  · rintro ⟨c', ⟨okc, lc⟩, k', ⟨okk, lk⟩, x1, x2, rfl, rfl⟩
    refine ⟨okc, okk, ⟨?_, ?_, ?_, ?_⟩, (hload _ _ okc).1 lc, (hload _ _ okk).1 lk⟩
    · intro c h h0
      have := x1 c h h0
      simp only [checkKeyChange, bind_unit, raiseIf_ok] at this
      obtain ⟨h1, _⟩ := this
      exact h1
    · intro c h h0
      have := x1 c h h0
      simp only [checkKeyChange, bind_unit, raiseIf_ok] at this
      obtain ⟨_, h2⟩ := this
      exact (checkChange_ok lc c (by have := hk.1 c h; omega) (okk.changeBound c h h0)).1 h2
    · intro c h h0
      exact (checkChordNonChange_ok lk c (by have := hc.2.1 c h; omega) (okc.nonChangeBound c h)).1
        (x2 c h)
    · intro h
      exact (checkChordNonChange_zero lk (by have := okc.nonChangeBound 0 h; omega)).1 (x2 0 h)
  · rintro ⟨okc, okk, x, hc', hk'⟩
    have lc := (hload _ _ okc).2 hc'
    have lk := (hload _ _ okk).2 hk'
    refine ⟨cids, ⟨okc, lc⟩, kids, ⟨okk, lk⟩, ?_, ?_, rfl, rfl⟩
    · intro c h h0
      simp only [checkKeyChange, bind_unit, raiseIf_ok]
      exact ⟨x.keyChange c h h0, (checkChange_ok lc c (by have := hk.1 c h; omega)
        (okk.changeBound c h h0)).2 (x.sameChord c h h0)⟩
    · intro c h
      by_cases h0 : c = 0
      · subst h0
        exact (checkChordNonChange_zero lk (by have := okc.nonChangeBound 0 h; omega)).2 (x.zero h)
      · exact (checkChordNonChange_ok lk c (by have := hc.2.1 c h; omega) (okc.nonChangeBound c h)).2
          (x.nonChange c h h0)

/-- Nothing forced. -/
def none' : ForcedType := { changes := [], nonChanges := [], labels := [], maxId := 24 }

/-- C30 fails: a forced non-change at 0 with a label forced at the first note only is refused, because
the label of the last note is taken for the one before. -/
theorem C30_fails_at_zero :
    validate [1, 1, 1] { none' with nonChanges := [0], labels := [((0, 1), 5)] } none' =
      .error .keyError := by decide

/-- C30 fails: a chord non-change at the beginning of a forced key is refused with a `TypeError`,
although no key is forced before it. -/
theorem C30_fails_key_label :
    validate [1, 1, 1] { none' with nonChanges := [1] } { none' with labels := [((1, 3), 5)] } =
      .error .typeError := by decide

/-- C30 fails: a negative index is not in bounds, but is accepted. -/
theorem C30_fails_negative :
    validate [1, 1, 1] { none' with changes := [-1] } none' = .ok ([-1, -1, -1], [-1, -1, -1]) := by
  decide

/-- C30 fails: a label on a range beyond the end of the piece is accepted and has no effect. -/
theorem C30_fails_beyond_end :
    validate [1, 1, 1] { none' with labels := [((7, 9), 5)] } none' =
      .ok ([-1, -1, -1], [-1, -1, -1]) := by decide

/-- An accepted request: chords at two ranges with a change between them, and a key change there. -/
example : validate [0, 1, 1, 1]
    { changes := [2], nonChanges := [3], labels := [((0, 2), 7), ((2, 4), 9)], maxId := 24 }
    { changes := [2], nonChanges := [], labels := [((2, 4), 3)], maxId := 24 } =
      .ok ([7, 7, 9, 9], [-1, -1, 3, 3]) := by decide

/-- Two labels for one note. -/
example : validate [0, 1, 1, 1]
    { none' with labels := [((0, 3), 7), ((2, 4), 9)] } none' = .error .attributeError := by decide

end Forced
end Verif
