import Verif.Datasets
import Verif.Lemmas.Lists
import Verif.Props.Piece
import Mathlib.Data.List.Perm.Basic
import Mathlib.Algebra.Order.Floor.Ring
import Mathlib.Data.Rat.Floor
import Mathlib.Tactic.Linarith
import Mathlib.Tactic.Ring

/-!
# C43-C45 and C66: padding, h5 files, item numbers and splits
-/

namespace Verif.Datasets

theorem bind_ok {α β : Type} {x : Py α} {f : α → Py β} {b : β} (h : x.bind f = .ok b) :
    ∃ a, x = .ok a ∧ f a = .ok b := by
  cases x with
  | error e => cases h
  | ok a => exact ⟨a, rfl, h⟩

theorem foldl_max (l : List Nat) (a : Nat) :
    a ≤ l.foldl max a ∧ (∀ x ∈ l, x ≤ l.foldl max a) ∧ (l.foldl max a = a ∨ l.foldl max a ∈ l) := by
  induction l generalizing a with
  | nil => simp
  | cons b l ih =>
    obtain ⟨h1, h2, h3⟩ := ih (max a b)
    rw [List.foldl_cons]
    refine ⟨by omega, ?_, ?_⟩
    · intro x hx
      rcases List.mem_cons.1 hx with rfl | hx
      · omega
      · exact h2 x hx
    · rcases h3 with h3 | h3
      · rw [h3]
        rcases Nat.le_total a b with h | h
        · right; rw [Nat.max_eq_right h]; simp
        · left; exact Nat.max_eq_left h
      · right; exact List.mem_cons_of_mem _ h3

theorem le_maxLength {l : List Nat} {x : Nat} (h : x ∈ l) : x ≤ maxLength l := (foldl_max l 0).2.1 x h

theorem maxLength_mem {l : List Nat} (h : l ≠ []) : maxLength l ∈ l := by
  rcases (foldl_max l 0).2.2 with h0 | hm
  · obtain ⟨a, l', rfl⟩ := List.exists_cons_of_ne_nil h
    have := le_maxLength (l := a :: l') (x := a) (by simp)
    have hz : maxLength (a :: l') = 0 := h0
    rw [hz] at this ⊢
    have : a = 0 := by omega
    simp [this]
  · exact hm

theorem padTo_length {α : Type} (zero : α) (n : Nat) (x : List α) (h : x.length ≤ n) :
    (padTo zero n x).length = n := by
  simp only [padTo, List.length_append, List.length_replicate]; omega

theorem padTo_take {α : Type} (zero : α) (n : Nat) (x : List α) : (padTo zero n x).take x.length = x := by
  simp [padTo]

theorem padTo_getElem? {α : Type} (zero : α) (n : Nat) (x : List α) (j : Nat) :
    (padTo zero n x)[j]? = if j < x.length then x[j]? else if j < n then some zero else none := by
  rw [padTo, List.getElem?_append]
  split
  · rfl
  · rw [List.getElem?_replicate]
    apply if_congr _ rfl rfl
    omega

/-- An array padded to `n` rows: the original ones, and zeros. -/
def PaddedTo {α : Type} (zero : α) (n : Nat) (x p : List α) : Prop :=
  p.length = n ∧ p.take x.length = x ∧ ∀ (j : Nat) a, x.length ≤ j → p[j]? = some a → a = zero

theorem padTo_padded {α : Type} (zero : α) (n : Nat) (x : List α) (h : x.length ≤ n) :
    PaddedTo zero n x (padTo zero n x) := by
  refine ⟨padTo_length zero n x h, padTo_take zero n x, ?_⟩
  intro j a hj ha
  rw [padTo_getElem?, if_neg (by omega)] at ha
  split at ha
  · injection ha with ha; exact ha.symm
  · cases ha

/-- C43: every array is found again in the first rows of the padded one, as many as its recorded length;
all other rows are zeros; all padded arrays are as long as the longest array. There is no result only for
an empty list. -/
theorem C43_padded {α : Type} (zero : α) (array : List (List α)) :
    (array = [] → padArray zero array = .error .valueError) ∧
    (array ≠ [] → ∃ padded lengths n, padArray zero array = .ok (padded, lengths) ∧
      padded.length = array.length ∧ lengths.length = array.length ∧
      (∃ x ∈ array, x.length = n) ∧
      ∀ (i : Nat) x, array[i]? = some x →
        ∃ p, padded[i]? = some p ∧ lengths[i]? = some x.length ∧ PaddedTo zero n x p) := by
  constructor
  · rintro rfl; rfl
  · intro hne
    have hl : array.map List.length ≠ [] := by simpa using hne
    refine ⟨_, _, maxLength (array.map List.length), by rw [padArray]; exact if_neg hl, by simp, by simp, ?_, ?_⟩
    · have := maxLength_mem hl
      rw [List.mem_map] at this
      exact this
    · intro i x hx
      refine ⟨_, by rw [List.getElem?_map, hx]; rfl, by rw [List.getElem?_map, hx]; rfl, ?_⟩
      apply padTo_padded
      apply le_maxLength
      exact List.mem_map_of_mem (List.mem_of_getElem? hx)

/-- C43: the items of the datasets in memory are padded in the same way. -/
theorem C43_item {α : Type} (zero : α) (inputs : List (List α)) (i : Nat) (x : List α)
    (h : inputs[i]? = some x) :
    ∃ p, paddedItem zero inputs (inputs.map List.length) i = .ok (p, x.length) ∧
      PaddedTo zero (maxLength (inputs.map List.length)) x p := by
  have hi : i < inputs.length := (List.getElem?_eq_some_iff.1 h).1
  have h1 : pyGet inputs (i : Int) = .ok x := by
    simp only [pyGet, Int.toNat_natCast, h]; rw [if_pos (by omega)]
  have h2 : pyGet (inputs.map List.length) (i : Int) = .ok x.length := by
    simp only [pyGet, Int.toNat_natCast, List.getElem?_map, h]; rw [if_pos (by omega)]; rfl
  refine ⟨padTo zero (maxLength (inputs.map List.length)) x,
    by simp only [paddedItem, Bind.bind, h1, h2, Except.bind], ?_⟩
  apply padTo_padded
  apply le_maxLength
  exact List.mem_map_of_mem (List.mem_of_getElem? h)

example : padArray 0 [[1, 2], [], [5]] = .ok ([[1, 2], [0, 0], [5, 0]], [2, 0, 1]) := by decide

/-! ## C66 -/

theorem loadLists_eq {α : Type} (padded : List (List α)) (lengths : List Nat) (size : Nat) (hs : 0 < size) :
    loadLists padded lengths size = (padded.zip lengths).map fun (x : List α × Nat) => x.1.take x.2 := by
  have key : ∀ fuel start, lengths.length ≤ start + fuel →
      (rangeStep start lengths.length size fuel).flatMap (loadChunk padded lengths size) =
        (((padded.drop start).zip (lengths.drop start)).map fun (x : List α × Nat) => x.1.take x.2) := by
    intro fuel
    induction fuel with
    | zero =>
      intro start h
      rw [rangeStep, List.drop_eq_nil_of_le (show lengths.length ≤ start by omega)]
      simp
    | succ fuel ih =>
      intro start h
      rw [rangeStep]
      by_cases hlt : start < lengths.length
      · rw [if_pos hlt, List.flatMap_cons, ih (start + size) (by omega)]
        have hz : (padded.drop start).zip (lengths.drop start) =
            ((padded.drop start).take size).zip ((lengths.drop start).take size) ++
              (padded.drop (start + size)).zip (lengths.drop (start + size)) := by
          simp only [List.zip]
          rw [← List.drop_drop, ← List.drop_drop, ← List.take_zipWith, ← List.drop_zipWith,
            ← List.drop_zipWith, ← List.drop_zipWith, List.take_append_drop]
        rw [hz, List.map_append]
        rfl
      · rw [if_neg hlt, List.drop_eq_nil_of_le (show lengths.length ≤ start by omega)]
        simp
  have := key lengths.length 0 (by omega)
  simpa [loadLists] using this

/-- C66: inputs (and targets) of datasets that record the lengths of their arrays survive a round trip
through an h5 file, whatever the chunk size. -/
theorem C66_round_trip_partial {α : Type} (zero : α) (inputs : List (List α)) (size : Nat) (hs : 0 < size)
    (hne : inputs ≠ []) : h5RoundTrip zero inputs none size = .ok inputs := by
  have hl : inputs.map List.length ≠ [] := by simpa using hne
  simp only [h5RoundTrip, padArray, Bind.bind]
  rw [if_neg hl]
  simp only [Except.bind, Option.getD_none]
  rw [loadLists_eq _ _ _ hs]
  congr 1
  apply List.ext_getElem?
  intro i
  rw [List.getElem?_map, List.zip, List.getElem?_zipWith, List.getElem?_map, List.getElem?_map]
  cases h : inputs[i]? with
  | none => rfl
  | some x => simp only [Option.map_some]; rw [padTo_take]

/-- C66 fails for the key datasets: they have one length for each item (key change), but one array for each
piece, and the array of piece `i` is cut to the length of item `i`. -/
theorem C66_key_data {α : Type} (zero : α) (transitions : Bool) (pieces : List (PieceData α)) (size : Nat)
    (hs : 0 < size) (hne : pieces ≠ []) :
    ∃ out, h5RoundTrip zero (keyData transitions pieces).inputs
        (some (keyData transitions pieces).inputLengths) size = .ok out ∧
      ∀ (i : Nat) x n, pieces[i]? = some x → (pieces.flatMap (·.lengths))[i]? = some n → n ≤ x.rows.length →
        out[i]? = some (x.rows.take n) := by
  have hl : (pieces.map (·.rows)).map List.length ≠ [] := by simpa using hne
  have hk1 : (keyData transitions pieces).inputs = pieces.map (·.rows) := rfl
  have hk2 : (keyData transitions pieces).inputLengths = pieces.flatMap (·.lengths) := rfl
  rw [hk1, hk2]
  simp only [h5RoundTrip, padArray, Bind.bind]
  rw [if_neg hl]
  simp only [Except.bind, Option.getD_some]
  rw [loadLists_eq _ _ _ hs]
  refine ⟨_, rfl, ?_⟩
  intro i x n hx hn hle
  rw [List.getElem?_map, List.zip, List.getElem?_zipWith, List.getElem?_map, List.getElem?_map, hx, hn]
  simp only [Option.map_some]
  congr 1
  rw [padTo, List.take_append_of_le_length hle]

/-- C66: in particular, the first piece loses all its rows from its first key change on. -/
theorem C66_first_piece {α : Type} (zero : α) (transitions : Bool) (x : PieceData α)
    (pieces : List (PieceData α)) (size : Nat) (hs : 0 < size) (n : Nat) (ls : List Nat)
    (hl : x.lengths = n :: ls) (hn : n < x.rows.length) :
    ∃ out rows, h5RoundTrip zero (keyData transitions (x :: pieces)).inputs
        (some (keyData transitions (x :: pieces)).inputLengths) size = .ok (rows :: out) ∧
      rows.length = n ∧ rows ≠ x.rows := by
  obtain ⟨out, h1, h2⟩ := C66_key_data zero transitions (x :: pieces) size hs (by simp)
  have h3 := h2 0 x n rfl (by rw [List.flatMap_cons, hl]; rfl) (by omega)
  cases out with
  | nil => simp at h3
  | cons r out =>
    simp only [List.getElem?_cons_zero, Option.some.injEq] at h3
    subst h3
    refine ⟨out, _, h1, by rw [List.length_take]; omega, ?_⟩
    intro h
    have := congrArg List.length h
    rw [List.length_take] at this
    omega

example : h5RoundTrip 0 [[1, 2, 3], [4]] none 1 = .ok [[1, 2, 3], [4]] := by decide
example : h5RoundTrip 0 [[1, 2, 3], [4]] (some [2, 3, 1]) 256 = .ok [[1, 2], [4, 0, 0]] := by decide

/-! ## C44 -/

/-- C44: every pair of an item and a transposition in the range is enumerated exactly once, and nothing
else is. -/
theorem C44_transpositions (items lo hi : Int) (hr : lo ≤ hi) :
    (∀ i t : Int, 0 ≤ i → i < items → lo ≤ t → t ≤ hi →
      ∃ k, (0 ≤ k ∧ k < transposedLength items lo hi ∧ transposedItem lo hi k = .ok (i, t)) ∧
        ∀ k', 0 ≤ k' → transposedItem lo hi k' = .ok (i, t) → k' = k) ∧
    (∀ k, 0 ≤ k → k < transposedLength items lo hi →
      ∃ i t, transposedItem lo hi k = .ok (i, t) ∧ 0 ≤ i ∧ i < items ∧ lo ≤ t ∧ t ≤ hi) := by
  have hn : 0 < hi - lo + 1 := by omega
  have hdef : ∀ k, transposedItem lo hi k = .ok (k / (hi - lo + 1), lo + k % (hi - lo + 1)) := by
    intro k
    rw [transposedItem, if_neg (by omega), Int.fdiv_eq_ediv_of_nonneg _ (by omega), Int.fmod_eq_emod_of_nonneg _ (by omega)]
  generalize hm : hi - lo + 1 = m at hn hdef
  constructor
  · intro i t h0 h1 h2 h3
    refine ⟨i * m + (t - lo), ⟨?_, ?_, ?_⟩, ?_⟩
    · have : 0 ≤ i * m := Int.mul_nonneg h0 (by omega)
      omega
    · rw [transposedLength, hm]
      have : (i + 1) * m ≤ items * m := Int.mul_le_mul_of_nonneg_right (by omega) (by omega)
      rw [Int.add_mul] at this
      omega
    · rw [hdef]
      have h4 : (i * m + (t - lo)) / m = i := by
        rw [Int.add_comm, Int.add_mul_ediv_right _ _ (by omega), Int.ediv_eq_zero_of_lt (by omega) (by omega)]
        omega
      have h5 : (i * m + (t - lo)) % m = t - lo := by
        rw [Int.add_comm, Int.add_mul_emod_self_right, Int.emod_eq_of_lt (by omega) (by omega)]
      rw [h4, h5]
      congr 2; omega
    · intro k' _ hk
      rw [hdef] at hk
      injection hk with hk
      injection hk with h4 h5
      have := Int.mul_ediv_add_emod k' m
      rw [h4] at this
      rw [Int.mul_comm m i] at this
      omega
  · intro k h0 h1
    refine ⟨_, _, hdef k, Int.ediv_nonneg h0 (by omega), ?_, ?_, ?_⟩
    · rw [transposedLength, hm] at h1
      exact Int.ediv_lt_of_lt_mul hn h1
    · have := Int.emod_nonneg k (show m ≠ 0 by omega); omega
    · have := Int.emod_lt_of_pos k hn; omega

/-- The number of items before a piece. -/
def itemsBefore (pieceLengths : List Nat) (p : Nat) : Nat := (pieceLengths.take p).sum

theorem getPieceIndexFrom_eq (ls : List Nat) (p0 p k : Nat) (n : Nat) (hp : ls[p]? = some n) (hk : k < n) :
    getPieceIndexFrom p0 ls ((itemsBefore ls p + k : Nat) : Int) = .ok (p0 + p, decide (k > 0)) := by
  induction ls generalizing p0 p with
  | nil => simp at hp
  | cons m ls ih =>
    rw [getPieceIndexFrom]
    cases p with
    | zero =>
      simp only [List.getElem?_cons_zero, Option.some.injEq] at hp
      subst hp
      simp only [itemsBefore, List.take_zero, List.sum_nil, Nat.zero_add, Nat.add_zero]
      rw [if_pos (by omega)]
      congr 2
      simp
    | succ p =>
      have h1 : itemsBefore (m :: ls) (p + 1) = m + itemsBefore ls p := by simp [itemsBefore]
      rw [h1, if_neg (by omega)]
      have h2 : ((m + itemsBefore ls p + k : Nat) : Int) - (m : Int) = ((itemsBefore ls p + k : Nat) : Int) := by
        omega
      rw [h2, ih (p0 + 1) p (by simpa using hp)]
      congr 2; omega

/-- C44: the items of a piece are numbered one after the other: item `k` of piece `p` is the item
number `k` after those of the pieces before; this number is found to belong to piece `p`, and the item before
it to the same piece unless `k = 0`. -/
theorem C44_key_items (ls : List Nat) (p k n : Nat) (hp : ls[p]? = some n) (hk : k < n) :
    itemsBefore ls p + k < ls.sum ∧
    getPieceIndex ls ((itemsBefore ls p + k : Nat) : Int) = .ok (p, decide (k > 0)) := by
  constructor
  · have h1 : ls.sum = (ls.take p).sum + (ls.drop p).sum := by
      rw [← List.sum_append, List.take_append_drop]
    have h2 : p < ls.length := (List.getElem?_eq_some_iff.1 hp).1
    have h3 : n = ls[p] := by
      rw [List.getElem?_eq_getElem h2] at hp; injection hp with hp; exact hp.symm
    rw [h1, List.drop_eq_getElem_cons h2, List.sum_cons, ← h3, itemsBefore]
    omega
  · rw [getPieceIndex, getPieceIndexFrom_eq ls 0 p k n hp hk, Nat.zero_add]

/-- C44: every item number belongs to exactly one pair of a piece and an item of it. -/
theorem C44_key_unique (ls : List Nat) (item : Nat) (h : item < ls.sum) :
    ∃ p k n, (ls[p]? = some n ∧ k < n ∧ item = itemsBefore ls p + k) ∧
      ∀ p' k' n', ls[p']? = some n' → k' < n' → item = itemsBefore ls p' + k' → p' = p ∧ k' = k := by
  have hex : ∃ p k n, ls[p]? = some n ∧ k < n ∧ item = itemsBefore ls p + k := by
    induction ls generalizing item with
    | nil => simp at h
    | cons m ls ih =>
      by_cases hm : item < m
      · exact ⟨0, item, m, rfl, hm, by simp [itemsBefore]⟩
      · rw [List.sum_cons] at h
        obtain ⟨p, k, n, h1, h2, h3⟩ := ih (item - m) (by omega)
        refine ⟨p + 1, k, n, by simpa using h1, h2, ?_⟩
        have : itemsBefore (m :: ls) (p + 1) = m + itemsBefore ls p := by simp [itemsBefore]
        omega
  obtain ⟨p, k, n, h1, h2, h3⟩ := hex
  refine ⟨p, k, n, ⟨h1, h2, h3⟩, ?_⟩
  intro p' k' n' g1 g2 g3
  have a := (C44_key_items ls p k n h1 h2).2
  have b := (C44_key_items ls p' k' n' g1 g2).2
  rw [← h3] at a
  rw [← g3, a] at b
  injection b with b
  injection b with b1 b2
  subst b1
  exact ⟨rfl, by omega⟩

/-- C44: a number that is not below the length of the dataset is a `ValueError`. -/
theorem C44_key_beyond (ls : List Nat) (item : Int) (h : (ls.sum : Int) ≤ item) :
    getPieceIndex ls item = .error .valueError := by
  rw [getPieceIndex]
  generalize 0 = p0
  induction ls generalizing item p0 with
  | nil => rfl
  | cons m ls ih =>
    rw [List.sum_cons] at h
    rw [getPieceIndexFrom, if_neg (by omega)]
    exact ih (item - m) (by omega) _

/-- A negative item number does not count from the end: it belongs to the first piece. -/
theorem C44_key_negative (n : Nat) (ls : List Nat) (item : Int) (h : item < 0) :
    getPieceIndex (n :: ls) item = .ok (0, false) := by
  rw [getPieceIndex, getPieceIndexFrom, if_pos (by omega)]
  congr 2
  simp; omega

example : transposedItem (-2) 2 7 = .ok (1, 0) := by decide
example : getPieceIndex [3, 0, 2] 4 = .ok (2, true) := by decide

/-! ## C45 -/

theorem pyRound_bounds (q : ℚ) : (q.floor ≤ pyRound q ∧ pyRound q ≤ q.floor + 1) ∧
    |(pyRound q : ℚ) - q| ≤ 1 / 2 := by
  have h1 : (q.floor : ℚ) ≤ q := Rat.floor_le q
  have h2 : q < (q.floor : ℚ) + 1 := by
    have := Rat.lt_floor (x := q)
    linarith
  simp only [pyRound]
  split
  · rename_i h
    refine ⟨⟨by omega, by omega⟩, ?_⟩
    rw [abs_le]; constructor <;> linarith
  · split
    · rename_i h
      refine ⟨⟨by omega, by omega⟩, ?_⟩
      push_cast
      rw [abs_le]; constructor <;> linarith
    · split
      · refine ⟨⟨by omega, by omega⟩, ?_⟩
        rw [abs_le]; constructor <;> linarith
      · refine ⟨⟨by omega, by omega⟩, ?_⟩
        push_cast
        rw [abs_le]; constructor <;> linarith

theorem pyRound_natCast (n : Nat) : pyRound (n : ℚ) = n := by
  have h : (n : ℚ).floor = n := by
    have := Rat.floor_intCast (n : Int)
    simpa using this
  simp only [pyRound, h]
  rw [if_pos]
  push_cast
  norm_num

theorem pyRound_mono {a b : ℚ} (h : a ≤ b) : pyRound a ≤ pyRound b := by
  have hf : a.floor ≤ b.floor := Rat.floor_monotone h
  rcases hf.lt_or_eq with hlt | heq
  · have := (pyRound_bounds a).1.2
    have := (pyRound_bounds b).1.1
    omega
  · simp only [pyRound, heq]
    split <;> split <;> (try split) <;> (try split) <;> first | omega | (exfalso; linarith)

theorem sum_nonneg_rat {l : List ℚ} (h : ∀ x ∈ l, 0 ≤ x) : 0 ≤ l.sum := by
  induction l with
  | nil => simp
  | cons a l ih =>
    rw [List.sum_cons]
    have := h a (by simp)
    have := ih fun x hx => h x (by simp [hx])
    linarith

/-- One part: the elements between two rounded positions. -/
theorem part_eq {α : Type} (l : List α) (start stop : Int) (h0 : 0 ≤ start) (h1 : start ≤ stop)
    (h2 : stop ≤ l.length) :
    splitPart l start stop = .ok ((l.take stop.toNat).drop start.toNat) := by
  rw [splitPart]
  split
  · have : start.toNat = stop.toNat := by omega
    rw [this, List.drop_eq_nil_of_le (by rw [List.length_take]; omega)]
  · split
    · have hs : start.toNat < l.length := by omega
      have hst : stop.toNat = start.toNat + 1 := by omega
      simp only [pyGet]
      rw [if_pos h0, List.getElem?_eq_getElem hs, hst, List.drop_take]
      have : start.toNat + 1 - start.toNat = 1 := by omega
      rw [this, List.drop_eq_getElem_cons hs]
      rfl
    · have := Verif.Piece.pySlice_nat l start.toNat stop.toNat (by omega) (by omega)
      rw [show ((start.toNat : Nat) : Int) = start by omega,
        show ((stop.toNat : Nat) : Int) = stop by omega] at this
      rw [this]

/-- The positions where the parts of `n` elements begin and end. -/
def bounds (n : Nat) (prop s : ℚ) : Nat × Nat :=
  ((pyRound (prop * n)).toNat, (pyRound ((prop + s) * n)).toNat)

theorem splitFrom_eq {α : Type} (l : List α) (splits : List ℚ) (prop : ℚ) (h0 : 0 ≤ prop)
    (hs : ∀ s ∈ splits, 0 ≤ s) (h1 : prop + splits.sum ≤ 1) :
    ∃ parts, splitFrom l prop splits = .ok parts ∧ parts.length = splits.length ∧
      parts.flatten = (l.take (pyRound ((prop + splits.sum) * l.length)).toNat).drop
        (pyRound (prop * l.length)).toNat ∧
      ∀ (i : Nat) s p, splits[i]? = some s → parts[i]? = some p →
        |(p.length : ℚ) - s * l.length| ≤ 1 := by
  induction splits generalizing prop with
  | nil =>
    refine ⟨[], rfl, rfl, ?_, by simp⟩
    rw [List.sum_nil, add_zero, List.flatten_nil, List.drop_eq_nil_of_le]
    rw [List.length_take]; omega
  | cons s rest ih =>
    have hs0 : 0 ≤ s := hs s (by simp)
    have hrest : 0 ≤ rest.sum := sum_nonneg_rat (fun x hx => hs x (by simp [hx]))
    rw [List.sum_cons] at h1
    obtain ⟨parts, p1, p2, p3, p4⟩ := ih (prop + s) (by linarith) (fun x hx => hs x (by simp [hx]))
      (by linarith)
    have hl : (0 : ℚ) ≤ l.length := by exact_mod_cast Nat.zero_le _
    have a0 : 0 ≤ pyRound (prop * l.length) := by
      have h := pyRound_mono (a := ((0 : Nat) : ℚ)) (b := prop * l.length) (by push_cast; positivity)
      rwa [pyRound_natCast] at h
    have a1 : pyRound (prop * l.length) ≤ pyRound ((prop + s) * l.length) := by
      apply pyRound_mono
      apply mul_le_mul_of_nonneg_right _ hl
      linarith
    have a2 : pyRound ((prop + s) * l.length) ≤ pyRound ((prop + (s + rest.sum)) * l.length) := by
      apply pyRound_mono
      apply mul_le_mul_of_nonneg_right _ hl
      linarith
    have a3 : pyRound ((prop + (s + rest.sum)) * l.length) ≤ l.length := by
      have h := pyRound_mono (a := (prop + (s + rest.sum)) * l.length) (b := ((l.length : Nat) : ℚ)) (by
        have := mul_le_mul_of_nonneg_right h1 hl
        linarith)
      rwa [pyRound_natCast] at h
    refine ⟨(l.take (pyRound ((prop + s) * l.length)).toNat).drop (pyRound (prop * l.length)).toNat :: parts,
      ?_, ?_, ?_, ?_⟩
    · simp only [splitFrom, Bind.bind]
      rw [part_eq l _ _ a0 a1 (by omega), p1]
      rfl
    · simp [p2]
    · rw [List.flatten_cons, p3, List.sum_cons, ← add_assoc]
      rw [← add_assoc] at a2 a3
      generalize pyRound (prop * l.length) = x at *
      generalize pyRound ((prop + s) * l.length) = y at *
      generalize pyRound ((prop + s + rest.sum) * l.length) = z at *
      have hz : l.take z.toNat = l.take y.toNat ++ (l.take z.toNat).drop y.toNat := by
        have : l.take y.toNat = (l.take z.toNat).take y.toNat := by
          rw [List.take_take, Nat.min_eq_left (by omega)]
        rw [this, List.take_append_drop]
      conv_rhs => rw [hz]
      rw [List.drop_append_of_le_length (by rw [List.length_take]; omega)]
    · intro i s' p hsi hpi
      cases i with
      | zero =>
        simp only [List.getElem?_cons_zero, Option.some.injEq] at hsi hpi
        subst hsi hpi
        have b1 := (pyRound_bounds (prop * l.length)).2
        have b2 := (pyRound_bounds ((prop + s) * l.length)).2
        have hlen : ((((l.take (pyRound ((prop + s) * l.length)).toNat).drop
            (pyRound (prop * l.length)).toNat).length : Nat) : ℚ) =
            (pyRound ((prop + s) * l.length) : ℚ) - (pyRound (prop * l.length) : ℚ) := by
          have : (((l.take (pyRound ((prop + s) * l.length)).toNat).drop
            (pyRound (prop * l.length)).toNat).length : Int) =
            pyRound ((prop + s) * l.length) - pyRound (prop * l.length) := by
            rw [List.length_drop, List.length_take]; omega
          exact_mod_cast this
        rw [hlen]
        rw [abs_le] at b1 b2 ⊢
        constructor <;> linarith
      | succ i => exact p4 i s' p (by simpa using hsi) (by simpa using hpi)

theorem splitFrom_map {α β : Type} (f : α → β) (l : List α) (splits : List ℚ) (prop : ℚ) :
    splitFrom (l.map f) prop splits = (splitFrom l prop splits).map (List.map (List.map f)) := by
  induction splits generalizing prop with
  | nil => rfl
  | cons s rest ih =>
    simp only [splitFrom, Bind.bind, List.length_map]
    have hpart : ∀ a b : Int, splitPart (l.map f) a b = (splitPart l a b).map (List.map f) := by
      intro a b
      rw [splitPart, splitPart]
      split
      · rfl
      · split
        · rw [pyGet_map]
          cases pyGet l a <;> rfl
        · simp [pySlice, Except.map, List.map_drop, List.map_take]
    rw [hpart, ih]
    cases splitPart l (pyRound (prop * l.length)) (pyRound ((prop + s) * l.length)) with
    | error e => rfl
    | ok a =>
      cases splitFrom l (prop + s) rest <;> rfl

theorem mapM_shuffle {α : Type} (l : List α) (shuffled : List Nat) (h : ∀ i ∈ shuffled, i < l.length) :
    shuffled.mapM (fun i => pyGet l ((i : Nat) : Int)) = .ok (shuffled.filterMap (l[·]?)) := by
  induction shuffled with
  | nil => rfl
  | cons i rest ih =>
    have hi := h i (by simp)
    have h1 : pyGet l ((i : Nat) : Int) = .ok l[i] := by
      simp only [pyGet, Int.toNat_natCast, List.getElem?_eq_getElem hi]; rw [if_pos (by omega)]
    rw [List.mapM_cons, h1, ih (fun j hj => h j (by simp [hj])), List.filterMap_cons,
      List.getElem?_eq_getElem hi]
    rfl

theorem filterMap_range {α : Type} (l : List α) : (List.range l.length).filterMap (l[·]?) = l := by
  induction l with
  | nil => rfl
  | cons a l ih =>
    rw [List.length_cons, List.range_succ_eq_map, List.filterMap_cons, List.filterMap_map]
    simp only [List.getElem?_cons_zero]
    congr 1

/-- C45: with non-negative proportions, the parts of ids and of pieces are aligned, and together they hold
every file whose data can be parsed exactly once, with its own piece. The size of every part differs by at
most one from its share. -/
theorem C45_partition {ι π : Type} (ids : List ι) (parse : ι → Option π) (shuffled : List Nat)
    (splits : List ℚ) (hs : ∀ s ∈ splits, 0 ≤ s) (hsum : splits.sum ≠ 0)
    (hsh : shuffled.Perm (List.range (ids.filter fun i => (parse i).isSome).length)) :
    ∃ parts : List (List (ι × π)),
      splitPieces ids parse shuffled splits =
        .ok (parts.map (List.map Prod.fst), parts.map (List.map Prod.snd)) ∧
      parts.length = splits.length ∧
      parts.flatten.Perm (ids.filterMap fun i => (parse i).map fun p => (i, p)) ∧
      ∀ (k : Nat) s part, splits[k]? = some s → parts[k]? = some part →
        |(part.length : ℚ) - s / splits.sum * parts.flatten.length| ≤ 1 := by
  set pairs := ids.filterMap fun i => (parse i).map fun p => (i, p) with hpairs
  have hfst : (ids.filter fun i => (parse i).isSome) = pairs.map Prod.fst := by
    rw [hpairs]
    clear hsh hpairs pairs
    induction ids with
    | nil => rfl
    | cons i ids ih =>
      cases hp : parse i with
      | none => simp [hp, ih]
      | some p => simp [hp, ih]
  have hsnd : ids.filterMap parse = pairs.map Prod.snd := by
    rw [hpairs]
    clear hsh hpairs pairs hfst
    induction ids with
    | nil => rfl
    | cons i ids ih =>
      cases hp : parse i with
      | none => simp [hp, ih]
      | some p => simp [hp, ih]
  rw [hfst, List.length_map] at hsh
  set mixed := shuffled.filterMap (pairs[·]?) with hmixed
  have hperm : mixed.Perm pairs := by
    have := hsh.filterMap (pairs[·]?)
    rwa [filterMap_range] at this
  have hlt : ∀ i ∈ shuffled, i < pairs.length := by
    intro i hi
    have := hsh.subset hi
    simpa using this
  have hmap : ∀ {β : Type} (f : ι × π → β),
      shuffled.mapM (fun i => pyGet (pairs.map f) ((i : Nat) : Int)) = .ok (mixed.map f) := by
    intro β f
    rw [mapM_shuffle _ _ (by simpa using hlt), hmixed]
    congr 1
    rw [List.map_filterMap (f := (pairs[·]?))]
    apply List.filterMap_congr
    intro i _
    rw [List.getElem?_map]
  have hspos : 0 < splits.sum := by
    have := sum_nonneg_rat hs
    exact lt_of_le_of_ne this (Ne.symm hsum)
  have hdiv : (splits.map (· / splits.sum)).sum = 1 := by
    have : ∀ (l : List ℚ) (c : ℚ), (l.map (· / c)).sum = l.sum / c := by
      intro l c
      induction l with
      | nil => simp
      | cons a l ih => simp [ih, add_div]
    rw [this, div_self hsum]
  obtain ⟨parts, p1, p2, p3, p4⟩ := splitFrom_eq mixed (splits.map (· / splits.sum)) 0 (le_refl _)
    (by
      intro s hs'
      obtain ⟨t, ht, rfl⟩ := List.mem_map.1 hs'
      exact div_nonneg (hs t ht) hspos.le)
    (by rw [hdiv]; norm_num)
  have hflat : parts.flatten = mixed := by
    rw [p3, hdiv]
    have e1 : pyRound ((0 + 1) * (mixed.length : ℚ)) = mixed.length := by
      rw [zero_add, one_mul, pyRound_natCast]
    have e2 : pyRound (0 * (mixed.length : ℚ)) = 0 := by
      have := pyRound_natCast 0
      simpa using this
    rw [e1, e2]
    simp
  refine ⟨parts, ?_, by rw [p2, List.length_map], by rw [hflat]; exact hperm, ?_⟩
  · simp only [splitPieces, Bind.bind, Forced.raiseIf]
    rw [if_neg hsum]
    simp only [Except.bind]
    rw [hfst, hsnd, hmap, hmap]
    simp only [splitFrom_map, p1, Except.map]
  · intro k s part hk hp
    rw [hflat]
    exact p4 k (s / splits.sum) part (by rw [List.getElem?_map, hk]; rfl) hp

/-- C45: so the parts are disjoint if the ids are distinct, and only ids without a piece are missing. -/
theorem C45_disjoint {ι π : Type} (ids : List ι) (parse : ι → Option π) (shuffled : List Nat)
    (splits : List ℚ) (hs : ∀ s ∈ splits, 0 ≤ s) (hsum : splits.sum ≠ 0) (hids : ids.Nodup)
    (hsh : shuffled.Perm (List.range (ids.filter fun i => (parse i).isSome).length))
    (out : List (List ι) × List (List π)) (ho : splitPieces ids parse shuffled splits = .ok out) :
    out.1.flatten.Nodup ∧ (∀ i, i ∈ out.1.flatten ↔ i ∈ ids ∧ ∃ p, parse i = some p) ∧
    out.1.map List.length = out.2.map List.length ∧
    ∀ (k j : Nat) I P i p, out.1[k]? = some I → out.2[k]? = some P → I[j]? = some i → P[j]? = some p →
      parse i = some p := by
  obtain ⟨parts, h1, _, h2, _⟩ := C45_partition ids parse shuffled splits hs hsum hsh
  rw [h1] at ho
  injection ho with ho
  subst ho
  have hfst : (parts.map (List.map Prod.fst)).flatten = parts.flatten.map Prod.fst := by
    rw [List.map_flatten]
  have hpf : (parts.flatten.map Prod.fst).Perm (ids.filter fun i => (parse i).isSome) := by
    have := h2.map Prod.fst
    refine this.trans (List.Perm.of_eq ?_)
    clear h1 h2 hsh this hfst hids
    induction ids with
    | nil => rfl
    | cons i ids ih =>
      cases hp : parse i with
      | none => simp [hp, ih]
      | some p => simp [hp, ih]
  have hmem : ∀ x ∈ parts.flatten, parse x.1 = some x.2 := by
    intro x hx
    have := h2.subset hx
    rw [List.mem_filterMap] at this
    obtain ⟨i, _, hi⟩ := this
    rw [Option.map_eq_some_iff] at hi
    obtain ⟨p, hp, rfl⟩ := hi
    exact hp
  refine ⟨?_, ?_, ?_, ?_⟩
  · rw [hfst]
    exact hpf.nodup_iff.2 (hids.filter _)
  · intro i
    rw [hfst, hpf.mem_iff, List.mem_filter, Option.isSome_iff_exists]
  · rw [List.map_map, List.map_map]
    congr 1
    funext l
    simp
  · intro k j I P i p hI hP hi hp
    rw [List.getElem?_map, Option.map_eq_some_iff] at hI hP
    obtain ⟨part, hpk, rfl⟩ := hI
    obtain ⟨part', hpk', rfl⟩ := hP
    rw [hpk] at hpk'
    injection hpk' with hpk'
    subst hpk'
    rw [List.getElem?_map, Option.map_eq_some_iff] at hi hp
    obtain ⟨x, hx, rfl⟩ := hi
    obtain ⟨y, hy, rfl⟩ := hp
    rw [hx] at hy
    injection hy with hy
    subst hy
    exact hmem x (List.mem_flatten.2 ⟨part, List.mem_of_getElem? hpk, List.mem_of_getElem? hx⟩)

/-- Five files, one of which cannot be parsed. -/
example : splitPieces [10, 11, 12, 13, 14] (fun i => if i = 12 then none else some (i * 2)) [3, 0, 2, 1]
    [6, 1, 1] = .ok ([[14, 10, 13], [11], []], [[28, 20, 26], [22], []]) := by decide +kernel

end Verif.Datasets
