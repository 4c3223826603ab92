import Verif.Props.Datasets

/-!
# C67: items of the key datasets
-/

namespace Verif.KeyDatasets
open Verif.Datasets

/-- The data of a piece as the constructors make it: a length, a replacement and a target for each item; the
lengths increase and the last one is the number of rows. -/
structure WellFormed {α : Type} (x : PieceData α) : Prop where
  nonempty : x.lengths ≠ []
  replacements : x.replacements.length = x.lengths.length
  targets : x.targets.length = x.lengths.length
  increasing : x.lengths.Pairwise (· < ·)
  last : x.lengths.getLast? = some x.rows.length

theorem le_last {α : Type} {x : PieceData α} (h : WellFormed x) {n : Nat} (hn : n ∈ x.lengths) :
    n ≤ x.rows.length := by
  obtain ⟨h1, h2⟩ := h.increasing, h.last
  obtain ⟨a, l, hl⟩ : ∃ l a, x.lengths = l ++ [a] :=
    ⟨_, _, (List.dropLast_append_getLast h.nonempty).symm⟩
  rw [hl] at h1 h2 hn
  rw [List.getLast?_append_of_ne_nil _ (by simp)] at h2
  simp only [List.getLast?_singleton, Option.some.injEq] at h2
  rw [List.pairwise_append] at h1
  rcases List.mem_append.1 hn with hn | hn
  · have := h1.2.2 n hn l (by simp); omega
  · have : n = l := by simpa using hn
    omega

theorem flatMap_getElem? {α β : Type} (f : α → List β) (l : List α) (p k : Nat) (x : α)
    (hx : l[p]? = some x) (hk : k < (f x).length) :
    (l.flatMap f)[itemsBefore (l.map fun a => (f a).length) p + k]? = (f x)[k]? := by
  induction l generalizing p with
  | nil => simp at hx
  | cons a l ih =>
    rw [List.flatMap_cons]
    cases p with
    | zero =>
      simp only [List.getElem?_cons_zero, Option.some.injEq] at hx
      subst hx
      simp only [itemsBefore, List.take_zero, List.sum_nil, Nat.zero_add]
      rw [List.getElem?_append_left hk]
    | succ p =>
      have h1 : itemsBefore (List.map (fun a => (f a).length) (a :: l)) (p + 1) =
          (f a).length + itemsBefore (l.map fun a => (f a).length) p := by simp [itemsBefore]
      rw [h1, List.getElem?_append_right (by omega)]
      have h2 : (f a).length + itemsBefore (l.map fun a => (f a).length) p + k - (f a).length =
          itemsBefore (l.map fun a => (f a).length) p + k := by omega
      rw [h2]
      exact ih p (by simpa using hx)

theorem pyGet_of {α : Type} {l : List α} {i : Nat} {a : α} (h : l[i]? = some a) :
    pyGet l ((i : Nat) : Int) = .ok a := by
  simp only [pyGet, Int.toNat_natCast, h]; rw [if_pos (by omega)]

/-- The number of the item `k` of piece `p`. -/
def itemNumber {α : Type} (pieces : List (PieceData α)) (p k : Nat) : Nat :=
  itemsBefore (pieces.map (·.lengths.length)) p + k

/-- What an item is made of. -/
structure Parts {α : Type} (x : PieceData α) (k n start : Nat) (r : α) (t : Int) : Prop where
  length : x.lengths[k]? = some n
  start0 : k = 0 → start = 0
  startS : ∀ j, k = j + 1 → x.lengths[j]? = some start
  replacement : x.replacements[k]? = some r
  target : x.targets[k]? = some t

theorem getItem_eq {α : Type} (zero : α) (d : KeyData α) (pieces : List (PieceData α))
    (hw : ∀ x ∈ pieces, WellFormed x) (x : PieceData α) (p k n start : Nat) (r : α) (t : Int)
    (rows : List α) (hd1 : d.inputLengths = pieces.flatMap (·.lengths))
    (hd2 : d.pieceLengths = pieces.map (·.lengths.length))
    (hd3 : d.replacements = pieces.flatMap (·.replacements))
    (hd4 : d.targets = pieces.flatMap (·.targets))
    (hx : pieces[p]? = some x) (hr : d.inputs[p]? = some rows) (h : Parts x k n start r t) :
    d.getItem zero (itemNumber pieces p k : Nat) =
      let maxLen := maxLength d.inputLengths
      let y := pieceInputOf zero rows maxLen
      (keyTargets d.transitions y.length start n t).bind fun ts =>
        (replaceLast d.transitions y n t r).bind fun z =>
          .ok (⟨z.1, z.2, ts⟩, d.afterRead p rows z.1 maxLen) := by
  have hwx := hw x (List.mem_of_getElem? hx)
  have hk : k < x.lengths.length := (List.getElem?_eq_some_iff.1 h.length).1
  have hlen : (pieces.map (·.lengths.length))[p]? = some x.lengths.length := by
    rw [List.getElem?_map, hx]; rfl
  have e1 : pieces.map (fun a => a.replacements.length) = pieces.map (·.lengths.length) :=
    List.map_congr_left fun a ha => (hw a ha).replacements
  have e2 : pieces.map (fun a => a.targets.length) = pieces.map (·.lengths.length) :=
    List.map_congr_left fun a ha => (hw a ha).targets
  have g1 := (C44_key_items _ p k _ hlen hk).2
  have g2 : pyGet d.inputs ((p : Nat) : Int) = .ok rows := pyGet_of hr
  have g3 : pyGet d.inputLengths ((itemNumber pieces p k : Nat) : Int) = .ok n := by
    apply pyGet_of
    rw [hd1, itemNumber, flatMap_getElem? (·.lengths) pieces p k x hx hk, h.length]
  have g4 : pyGet d.replacements ((itemNumber pieces p k : Nat) : Int) = .ok r := by
    apply pyGet_of
    have := flatMap_getElem? (·.replacements) pieces p k x hx (by rw [hwx.replacements]; exact hk)
    rw [hd3, itemNumber, ← e1, this, h.replacement]
  have g5 : pyGet d.targets ((itemNumber pieces p k : Nat) : Int) = .ok t := by
    apply pyGet_of
    have := flatMap_getElem? (·.targets) pieces p k x hx (by rw [hwx.targets]; exact hk)
    rw [hd4, itemNumber, ← e2, this, h.target]
  have g6 : (if decide (k > 0) = true then pyGet d.inputLengths ((itemNumber pieces p k : Nat) - 1 : Int)
      else .ok 0 : Py Nat) = .ok start := by
    cases k with
    | zero => rw [h.start0 rfl]; rfl
    | succ j =>
      rw [if_pos (by simp)]
      have : ((itemNumber pieces p (j + 1) : Nat) - 1 : Int) = ((itemNumber pieces p j : Nat) : Int) := by
        simp only [itemNumber]; omega
      rw [this]
      apply pyGet_of
      rw [hd1, itemNumber, flatMap_getElem? (·.lengths) pieces p j x hx (by omega), h.startS j rfl]
  simp only [KeyData.getItem, Bind.bind]
  rw [hd2]
  rw [itemNumber] at g3 g4 g5 g6 ⊢
  rw [g1]
  simp only [Except.bind] at g6 ⊢
  rw [g2]
  simp only
  rw [g3]
  simp only
  by_cases hk0 : k > 0
  · simp only [hk0, decide_true, if_true] at g6 ⊢
    rw [g6]
    simp only
    rw [g4]
    simp only
    rw [g5]
  · simp only [hk0, decide_false, if_false, Bool.false_eq_true] at g6 ⊢
    injection g6 with g6
    subst g6
    rw [g4]
    simp only
    rw [g5]

/-- `M` is the greatest number of rows of a piece. -/
def Longest {α : Type} (pieces : List (PieceData α)) (M : Nat) : Prop :=
  (∃ y ∈ pieces, y.rows.length = M) ∧ ∀ y ∈ pieces, y.rows.length ≤ M

theorem maxLength_eq {α : Type} (pieces : List (PieceData α)) (hw : ∀ x ∈ pieces, WellFormed x) (M : Nat)
    (hM : Longest pieces M) : maxLength (pieces.flatMap (·.lengths)) = M := by
  obtain ⟨⟨y, hy, hyM⟩, hle⟩ := hM
  apply Nat.le_antisymm
  · have hne : pieces.flatMap (·.lengths) ≠ [] := by
      intro h
      rw [List.flatMap_eq_nil_iff] at h
      exact (hw y hy).nonempty (h y hy)
    obtain ⟨z, hz, hm⟩ := List.mem_flatMap.1 (maxLength_mem hne)
    exact (le_last (hw z hz) hm).trans (hle z hz)
  · apply le_maxLength
    rw [List.mem_flatMap]
    refine ⟨y, hy, ?_⟩
    rw [← hyM]
    exact List.mem_of_mem_getLast? (hw y hy).last

theorem setRow_of_lt {α : Type} (x : List α) (i : Nat) (y : α) (h : i < x.length) :
    setRow x i y = .ok (x.set i y) := if_pos h

theorem keyTargets_eq (N start n : Nat) (t : Int) (hn : n < N) :
    ∃ ts, keyTargets true N start n t = .ok ts ∧ ts.length = N ∧
      ∀ j, j < N → ts[j]? = some (if j = n ∧ t = 1 then 1 else if start < j ∧ j < n then 0 else -100) := by
  rw [keyTargets, if_pos rfl]
  simp only
  by_cases ht : t = 1
  · rw [if_pos ht, setRow_of_lt _ _ _ (by simpa using hn)]
    refine ⟨_, rfl, by simp, ?_⟩
    intro j hj
    rw [List.getElem?_set]
    by_cases hjn : n = j
    · rw [if_pos hjn, if_pos (by simpa using hn), if_pos ⟨hjn.symm, ht⟩, ht]
    · rw [if_neg hjn, if_neg (by omega), List.getElem?_map, List.getElem?_range hj]
      simp only [Option.map_some]
      congr 1
  · rw [if_neg ht]
    refine ⟨_, rfl, by simp, ?_⟩
    intro j hj
    rw [if_neg (by omega), List.getElem?_map, List.getElem?_range hj]
    simp only [Option.map_some]
    congr 1

/-- C67: an item of a piece that is not the longest one: the rows up to the key change, the replacement
(unless there is no key change), and the targets: one number for a `KeySequenceDataset`; for a
`KeyTransitionDataset` 1 at the change, 0 at the chords strictly between the last change and this one, and
-100 elsewhere. The dataset is left as it was. -/
theorem C67_item_partial {α : Type} (zero : α) (transitions : Bool) (pieces : List (PieceData α))
    (hw : ∀ x ∈ pieces, WellFormed x) (M : Nat) (hM : Longest pieces M)
    (x : PieceData α) (p k n start : Nat) (r : α) (t : Int)
    (hx : pieces[p]? = some x) (h : Parts x k n start r t) (hshort : x.rows.length < M) :
    ∃ it, (keyData transitions pieces).getItem zero (itemNumber pieces p k : Nat) =
        .ok (it, keyData transitions pieces) ∧
      it.inputs.length = M + 1 ∧ it.inputs.take n = x.rows.take n ∧
      (t = 1 ∨ transitions = false → it.inputLength = n + 1 ∧ it.inputs[n]? = some r) ∧
      (t ≠ 1 → transitions = true → it.inputLength = n) ∧
      (transitions = false → it.targets = [t]) ∧
      (transitions = true → it.targets.length = M + 1 ∧ ∀ j, j < M + 1 →
        it.targets[j]? = some (if j = n ∧ t = 1 then 1 else if start < j ∧ j < n then 0 else -100)) := by
  have hwx := hw x (List.mem_of_getElem? hx)
  have hn : n ≤ x.rows.length := le_last hwx (List.mem_of_getElem? h.length)
  have hr : (keyData transitions pieces).inputs[p]? = some x.rows := by
    simp only [keyData, List.getElem?_map, hx, Option.map_some]
  rw [getItem_eq zero (keyData transitions pieces) pieces hw x p k n start r t x.rows rfl rfl rfl rfl hx hr h]
  have hmax : maxLength (keyData transitions pieces).inputLengths = M := maxLength_eq pieces hw M hM
  have htr : (keyData transitions pieces).transitions = transitions := rfl
  have hy : pieceInputOf zero x.rows M = padTo zero (M + 1) x.rows := if_pos hshort
  have hlen : (padTo zero (M + 1) x.rows).length = M + 1 := padTo_length _ _ _ (by omega)
  have htake : (padTo zero (M + 1) x.rows).take n = x.rows.take n := by
    rw [padTo, List.take_append_of_le_length hn]
  have hafter : ∀ new, (keyData transitions pieces).afterRead p x.rows new M = keyData transitions pieces :=
    fun new => if_pos hshort
  simp only [hmax, htr, hy, hlen]
  have hset : setRow (padTo zero (M + 1) x.rows) n r = .ok ((padTo zero (M + 1) x.rows).set n r) :=
    setRow_of_lt _ _ _ (by omega)
  have hrow : ((padTo zero (M + 1) x.rows).set n r)[n]? = some r := by
    rw [List.getElem?_set_self (by omega)]
  cases transitions with
  | false =>
    refine ⟨⟨(padTo zero (M + 1) x.rows).set n r, n + 1, [t]⟩, ?_, ?_, ?_, ?_, ?_, ?_, ?_⟩
    · rw [show keyTargets false (M + 1) start n t = .ok [t] from rfl]
      simp only [Except.bind, replaceLast]
      rw [if_pos (Or.inr trivial), hset]
      simp only [Except.map, hafter]
    · simp [hlen]
    · rw [List.take_set_of_le (Nat.le_refl n), htake]
    · intro _; exact ⟨rfl, hrow⟩
    · intro _ h; cases h
    · intro _; rfl
    · intro h; cases h
  | true =>
    obtain ⟨ts, e1, e2, e3⟩ := keyTargets_eq (M + 1) start n t (by omega)
    rw [e1]
    by_cases ht : t = 1
    · refine ⟨⟨(padTo zero (M + 1) x.rows).set n r, n + 1, ts⟩, ?_, ?_, ?_, ?_, ?_, ?_, ?_⟩
      · simp only [Except.bind, replaceLast]
        rw [if_pos (Or.inl ht), hset]
        simp only [Except.map, hafter]
      · simp [hlen]
      · rw [List.take_set_of_le (Nat.le_refl n), htake]
      · intro _; exact ⟨rfl, hrow⟩
      · intro h; exact absurd ht h
      · intro h; cases h
      · intro _; exact ⟨e2, e3⟩
    · refine ⟨⟨padTo zero (M + 1) x.rows, n, ts⟩, ?_, hlen, htake, ?_, ?_, ?_, ?_⟩
      · simp only [Except.bind, replaceLast]
        rw [if_neg (by simp [ht])]
        simp only [hafter]
      · rintro (h | h)
        · exact absurd h ht
        · cases h
      · intro _ _; rfl
      · intro h; cases h
      · intro _; exact ⟨e2, e3⟩

/-- C67 fails for the longest piece of a `KeySequenceDataset`: it is not padded, so that there is no row for
the replacement of its last key change. Every dataset with an item has an item that cannot be read. -/
theorem C67_sequence_index_error {α : Type} (zero : α) (pieces : List (PieceData α))
    (hw : ∀ x ∈ pieces, WellFormed x) (hne : pieces ≠ []) :
    ∃ item : Nat, item < ((keyData false pieces).pieceLengths).sum ∧
      (keyData false pieces).getItem zero item = .error .indexError := by
  have hne' : pieces.map (fun y => y.rows.length) ≠ [] := by simpa using hne
  obtain ⟨x, hxm, hxl⟩ := List.mem_map.1 (maxLength_mem hne')
  have hM : Longest pieces x.rows.length := by
    refine ⟨⟨x, hxm, rfl⟩, ?_⟩
    intro y hy
    rw [hxl]
    exact le_maxLength (List.mem_map_of_mem hy)
  obtain ⟨p, hp, hx'⟩ := List.mem_iff_getElem.1 hxm
  have hx : pieces[p]? = some x := by rw [List.getElem?_eq_getElem hp, hx']
  have hwx := hw x hxm
  have hpos : 0 < x.lengths.length := List.length_pos_iff.2 hwx.nonempty
  obtain ⟨k, hk⟩ : ∃ k, k + 1 = x.lengths.length := ⟨x.lengths.length - 1, by omega⟩
  have hlast : x.lengths[k]? = some x.rows.length := by
    have := hwx.last
    rw [List.getLast?_eq_getElem?] at this
    rwa [show x.lengths.length - 1 = k by omega] at this
  have hrk : k < x.replacements.length := by rw [hwx.replacements]; omega
  have htk : k < x.targets.length := by rw [hwx.targets]; omega
  have hparts : ∃ start, Parts x k x.rows.length start x.replacements[k] x.targets[k] := by
    cases k with
    | zero =>
      exact ⟨0, hlast, fun _ => rfl, by intro j hj; omega, List.getElem?_eq_getElem hrk,
        List.getElem?_eq_getElem htk⟩
    | succ j =>
      have hj : j < x.lengths.length := by omega
      refine ⟨x.lengths[j], hlast, by intro h; omega, ?_, List.getElem?_eq_getElem hrk,
        List.getElem?_eq_getElem htk⟩
      intro i hi
      have : i = j := by omega
      subst this
      exact List.getElem?_eq_getElem hj
  obtain ⟨start, hparts⟩ := hparts
  refine ⟨itemNumber pieces p k, ?_, ?_⟩
  · have hlen : (pieces.map (·.lengths.length))[p]? = some x.lengths.length := by
      rw [List.getElem?_map, hx]; rfl
    exact (C44_key_items _ p k _ hlen (by omega)).1
  · have hr : (keyData false pieces).inputs[p]? = some x.rows := by
      simp only [keyData, List.getElem?_map, hx, Option.map_some]
    rw [getItem_eq zero (keyData false pieces) pieces hw x p k _ start _ _ x.rows rfl rfl rfl rfl hx hr hparts]
    have hmax : maxLength (keyData false pieces).inputLengths = x.rows.length := maxLength_eq pieces hw _ hM
    have hy : pieceInputOf zero x.rows x.rows.length = x.rows := if_neg (by omega)
    simp only [hmax, hy]
    rw [show keyTargets (keyData false pieces).transitions x.rows.length start x.rows.length x.targets[k] =
      .ok [x.targets[k]] from rfl]
    simp only [Except.bind, replaceLast]
    rw [if_pos (Or.inr (show (keyData false pieces).transitions = false from rfl))]
    simp only [setRow]
    rw [if_neg (by omega)]
    rfl

/-- C67: the longest piece of a `KeyTransitionDataset` is written to when one of its key changes is read, and
stays so: a later item of the piece which is read afterwards has the replacement in place of the chord at
the earlier key change. -/
theorem C67_overwritten {α : Type} (zero : α) (pieces : List (PieceData α))
    (hw : ∀ x ∈ pieces, WellFormed x) (x : PieceData α) (hM : Longest pieces x.rows.length)
    (p k n start k' n' start' : Nat) (r r' : α) (t' : Int)
    (hx : pieces[p]? = some x) (h : Parts x k n start r 1) (h' : Parts x k' n' start' r' t')
    (hlt : n < n') (hlast : n' < x.rows.length ∨ t' ≠ 1) :
    ∃ it d it' d', (keyData true pieces).getItem zero (itemNumber pieces p k : Nat) = .ok (it, d) ∧
      d.getItem zero (itemNumber pieces p k' : Nat) = .ok (it', d') ∧
      it'.inputs[n]? = some r ∧
      ∃ fresh d'', (keyData true pieces).getItem zero (itemNumber pieces p k' : Nat) = .ok (fresh, d'') ∧
        fresh.inputs[n]? = x.rows[n]? := by
  have hwx := hw x (List.mem_of_getElem? hx)
  have hn' : n' ≤ x.rows.length := le_last hwx (List.mem_of_getElem? h'.length)
  have hmax : maxLength (keyData true pieces).inputLengths = x.rows.length := maxLength_eq pieces hw _ hM
  have hr : (keyData true pieces).inputs[p]? = some x.rows := by
    simp only [keyData, List.getElem?_map, hx, Option.map_some]
  -- any dataset with the same lists and rows of the same number for this piece
  have key : ∀ (rows : List α) (d : KeyData α) (k n start : Nat) (r : α) (t : Int),
      d.transitions = true → d.inputLengths = (keyData true pieces).inputLengths →
      d.pieceLengths = (keyData true pieces).pieceLengths →
      d.replacements = (keyData true pieces).replacements → d.targets = (keyData true pieces).targets →
      d.inputs[p]? = some rows → rows.length = x.rows.length → Parts x k n start r t →
      (t = 1 → n < rows.length) →
      ∃ ts L, d.getItem zero (itemNumber pieces p k : Nat) =
        .ok (⟨if t = 1 then rows.set n r else rows, L, ts⟩,
          { d with inputs := d.inputs.set p (if t = 1 then rows.set n r else rows) }) := by
    intro rows d k n start r t a1 a2 a3 a4 a5 a6 a7 hp hlt
    rw [getItem_eq zero d pieces hw x p k n start r t rows a2 a3 a4 a5 hx a6 hp]
    have hm : maxLength d.inputLengths = x.rows.length := by rw [a2]; exact hmax
    have hy : pieceInputOf zero rows x.rows.length = rows := if_neg (by omega)
    simp only [hm, hy, a1]
    have haf : ∀ new, d.afterRead p rows new x.rows.length = { d with inputs := d.inputs.set p new } :=
      fun new => if_neg (by omega)
    by_cases ht : t = 1
    · obtain ⟨ts, e1, _, _⟩ := keyTargets_eq rows.length start n t (hlt ht)
      refine ⟨ts, n + 1, ?_⟩
      rw [e1]
      simp only [Except.bind, replaceLast]
      rw [if_pos (Or.inl ht), setRow_of_lt _ _ _ (hlt ht)]
      simp only [Except.map, haf, if_pos ht, a1]
    · obtain ⟨ts, e1⟩ : ∃ ts, keyTargets true rows.length start n t = .ok ts := by
        rw [keyTargets, if_pos rfl]
        simp only [if_neg ht]
        exact ⟨_, rfl⟩
      refine ⟨ts, n, ?_⟩
      rw [e1]
      simp only [Except.bind, replaceLast]
      rw [if_neg (by simp [ht])]
      simp only [haf, if_neg ht, a1]
  have hp : p < (keyData true pieces).inputs.length := (List.getElem?_eq_some_iff.1 hr).1
  have hne : n ≠ n' := by omega
  obtain ⟨ts, L, g1⟩ := key x.rows _ k n start r 1 rfl rfl rfl rfl rfl hr rfl h (by omega)
  obtain ⟨ts', L', g2⟩ := key (x.rows.set n r)
    { keyData true pieces with inputs := (keyData true pieces).inputs.set p (x.rows.set n r) } k' n' start' r' t'
    rfl rfl rfl rfl rfl (by simp only; rw [List.getElem?_set_self hp]) (by simp) h'
    (by intro ht; rw [List.length_set]; omega)
  obtain ⟨ts'', L'', g3⟩ := key x.rows _ k' n' start' r' t' rfl rfl rfl rfl rfl hr rfl h' (by omega)
  rw [if_pos rfl] at g1
  refine ⟨_, _, _, _, g1, g2, ?_, _, _, g3, ?_⟩
  · simp only
    split
    · rw [List.getElem?_set_ne (by omega), List.getElem?_set_self (by omega)]
    · rw [List.getElem?_set_self (by omega)]
  · simp only
    split
    · rw [List.getElem?_set_ne (by omega)]
    · rfl

/-- Two pieces; rows are numbers here. -/
def demo : List (PieceData Nat) :=
  [⟨[1, 2, 3, 4], [2, 4], [90, 0], [1, 0]⟩, ⟨[5, 6], [1, 2], [80, 0], [1, 0]⟩]

/-- A key change of the shorter piece. -/
example : ((keyData true demo).getItem 0 2).map (·.1) =
    .ok ⟨[5, 80, 0, 0, 0], 2, [-100, 1, -100, -100, -100]⟩ := by decide

/-- The last item of the longest piece, before and after reading the first one: row 2 (3) is now 90. -/
example : ((keyData true demo).getItem 0 1).map (·.1) = .ok ⟨[1, 2, 3, 4], 4, [-100, -100, -100, 0]⟩ := by
  decide
example : (((keyData true demo).getItem 0 0).bind fun x => x.2.getItem 0 1).map (·.1) =
    .ok ⟨[1, 2, 90, 4], 4, [-100, -100, -100, 0]⟩ := by decide

example : ((keyData false demo).getItem 0 1).map (·.1) = .error .indexError := by decide

end Verif.KeyDatasets
