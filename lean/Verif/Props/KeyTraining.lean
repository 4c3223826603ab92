import Verif.KeyTraining
import Verif.Props.KeyDatasetRows
import Verif.Props.Vectors

/-!
# C137: what the key models are trained on
-/

namespace Verif.KeyTraining
open Verif.Datasets Verif.KeyDatasets

/-- The lists of a dataset apart from its inputs are those of the pieces. -/
structure ListsOf {α : Type} (transitions : Bool) (pieces : List (PieceData α)) (d : KeyData α) : Prop where
  kind : d.transitions = transitions
  lengths : d.inputLengths = pieces.flatMap (·.lengths)
  pieceLengths : d.pieceLengths = pieces.map (·.lengths.length)
  replacements : d.replacements = pieces.flatMap (·.replacements)
  targets : d.targets = pieces.flatMap (·.targets)

/-- What a key model gets of an item which ends before chord `n`, and whose last key begins at `start`, if `N` rows of its
piece are left; `r` is the chord at the key change relative to the key before it and `t` the target. The longest input
of the batch has `L` rows. -/
structure KeyTrained {α : Type} (zero : α) (transitions : Bool) (rows : List α) (N n start : Nat) (r : α) (t : Int)
    (L : Nat) (it : KeyItem α) : Prop where
  length : it.inputLength = if t = 1 ∨ transitions = false then n + 1 else n
  inputs : it.inputs.length = L
  past : ∀ j : Nat, j < n → j < N → it.inputs[j]? = rows[j]?
  lost : ∀ j : Nat, j < n → N ≤ j → it.inputs[j]? = some zero
  change : t = 1 ∨ transitions = false → it.inputs[n]? = some r
  target : transitions = false → it.targets = [t]
  targets : transitions = true → it.targets.length = L ∧ ∀ j : Nat, j < L →
    it.targets[j]? = some (if j = n ∧ t = 1 then 1 else if start < j ∧ j < n then 0 else -100)

theorem parts_le {α : Type} {pieces : List (PieceData α)} (hw : ∀ x ∈ pieces, WellFormed x) {M : Nat}
    (hM : Longest pieces M) {x : PieceData α} {p : Nat} (hx : pieces[p]? = some x) {k n start : Nat} {r : α} {t : Int}
    (h : Parts x k n start r t) : n ≤ x.rows.length ∧ x.rows.length ≤ M :=
  ⟨le_last (hw x (List.mem_of_getElem? hx)) (List.mem_of_getElem? h.length), hM.2 x (List.mem_of_getElem? hx)⟩

/-- An item of a piece of which fewer than the longest number of rows are left. -/
theorem item_short {α : Type} (zero : α) {transitions : Bool} {pieces : List (PieceData α)}
    (hw : ∀ x ∈ pieces, WellFormed x) {M : Nat} (hM : Longest pieces M) {d : KeyData α}
    (hd : ListsOf transitions pieces d) {x : PieceData α} {p k n start : Nat} {r : α} {t : Int}
    (hx : pieces[p]? = some x) (h : Parts x k n start r t) {rows : List α} (hr : d.inputs[p]? = some rows)
    (hs : rows.length < M) :
    ∃ it, d.getItem zero (itemNumber pieces p k : Nat) = .ok (it, d) ∧
      KeyTrained zero transitions rows rows.length n start r t (M + 1) it := by
  obtain ⟨hn, hxM⟩ := parts_le hw hM hx h
  rw [getItem_eq zero d pieces hw x p k n start r t rows hd.lengths hd.pieceLengths hd.replacements hd.targets hx hr h]
  have hmax : maxLength d.inputLengths = M := by rw [hd.lengths]; exact maxLength_eq pieces hw M hM
  have hy : pieceInputOf zero rows M = padTo zero (M + 1) rows := if_pos hs
  have hlen : (padTo zero (M + 1) rows).length = M + 1 := padTo_length _ _ _ (by omega)
  have hafter : ∀ new, d.afterRead p rows new M = d := fun new => if_pos hs
  have hpast : ∀ j : Nat, j < rows.length → (padTo zero (M + 1) rows)[j]? = rows[j]? := by
    intro j hj; rw [padTo_getElem?, if_pos hj]
  have hlost : ∀ j : Nat, j < n → rows.length ≤ j → (padTo zero (M + 1) rows)[j]? = some zero := by
    intro j hj hle; rw [padTo_getElem?, if_neg (by omega), if_pos (by omega)]
  simp only [hmax, hd.kind, hy, hlen]
  have hset : setRow (padTo zero (M + 1) rows) n r = .ok ((padTo zero (M + 1) rows).set n r) :=
    setRow_of_lt _ _ _ (by omega)
  have hset' : ∀ j : Nat, j < n → ((padTo zero (M + 1) rows).set n r)[j]? = (padTo zero (M + 1) rows)[j]? :=
    fun j hj => List.getElem?_set_ne (by omega)
  have hrow : ((padTo zero (M + 1) rows).set n r)[n]? = some r := List.getElem?_set_self (by omega)
  have hsl : ((padTo zero (M + 1) rows).set n r).length = M + 1 := by rw [List.length_set, hlen]
  cases transitions with
  | false =>
    refine ⟨⟨(padTo zero (M + 1) rows).set n r, n + 1, [t]⟩, ?_, ?_⟩
    · rw [show keyTargets false (M + 1) start n t = .ok [t] from rfl]
      simp only [Except.bind, replaceLast]
      rw [if_pos (Or.inr trivial), hset]
      simp only [Except.map, hafter]
    · exact ⟨(if_pos (Or.inr rfl)).symm, hsl, fun j h1 h2 => by rw [hset' j h1, hpast j h2],
        fun j h1 h2 => by rw [hset' j h1, hlost j h1 h2], fun _ => hrow, fun _ => rfl, fun h => (by cases h)⟩
  | true =>
    obtain ⟨ts, e1, e2, e3⟩ := keyTargets_eq (M + 1) start n t (by omega)
    rw [e1]
    by_cases ht : t = 1
    · refine ⟨⟨(padTo zero (M + 1) rows).set n r, n + 1, ts⟩, ?_, ?_⟩
      · simp only [Except.bind, replaceLast]
        rw [if_pos (Or.inl ht), hset]
        simp only [Except.map, hafter]
      · exact ⟨(if_pos (Or.inl ht)).symm, hsl, fun j h1 h2 => by rw [hset' j h1, hpast j h2],
          fun j h1 h2 => by rw [hset' j h1, hlost j h1 h2], fun _ => hrow, fun h => (by cases h), fun _ => ⟨e2, e3⟩⟩
    · refine ⟨⟨padTo zero (M + 1) rows, n, ts⟩, ?_, ?_⟩
      · simp only [Except.bind, replaceLast]
        rw [if_neg (by simp [ht])]
        simp only [hafter]
      · refine ⟨(if_neg (by simp [ht])).symm, hlen, fun j _ h2 => hpast j h2, fun j h1 h2 => hlost j h1 h2, ?_,
          fun h => (by cases h), fun _ => ⟨e2, e3⟩⟩
        rintro (h | h)
        · exact absurd h ht
        · cases h

/-- Any other item, if it can be read, has as many rows as are left of the piece; reading never changes their number. -/
theorem item_any {α : Type} (zero : α) {transitions : Bool} {pieces : List (PieceData α)}
    (hw : ∀ x ∈ pieces, WellFormed x) {M : Nat} (hM : Longest pieces M) {d d' : KeyData α}
    (hd : ListsOf transitions pieces d) {x : PieceData α} {p k n start : Nat} {r : α} {t : Int}
    (hx : pieces[p]? = some x) (h : Parts x k n start r t) {rows : List α} (hr : d.inputs[p]? = some rows)
    {it : KeyItem α} (hit : d.getItem zero (itemNumber pieces p k : Nat) = .ok (it, d')) :
    ListsOf transitions pieces d' ∧ d'.inputs.map List.length = d.inputs.map List.length ∧
      it.inputs.length = if rows.length < M then M + 1 else rows.length := by
  by_cases hs : rows.length < M
  · obtain ⟨it', h1, h2⟩ := item_short zero hw hM hd hx h hr hs
    rw [hit] at h1
    injection h1 with h1
    injection h1 with h1 h3
    subst h1 h3
    exact ⟨hd, rfl, by rw [if_pos hs, h2.inputs]⟩
  · rw [getItem_eq zero d pieces hw x p k n start r t rows hd.lengths hd.pieceLengths hd.replacements hd.targets hx hr h]
      at hit
    have hmax : maxLength d.inputLengths = M := by rw [hd.lengths]; exact maxLength_eq pieces hw M hM
    have hy : pieceInputOf zero rows M = rows := if_neg hs
    have hafter : ∀ new, d.afterRead p rows new M = { d with inputs := d.inputs.set p new } := fun new => if_neg hs
    simp only [hmax, hy, hafter] at hit
    obtain ⟨ts, -, hit⟩ := bind_ok hit
    obtain ⟨z, hz, hit⟩ := bind_ok hit
    injection hit with hit
    injection hit with h1 h2
    subst h1 h2
    have hzl : z.1.length = rows.length := by
      rw [replaceLast] at hz
      split at hz
      · rw [setRow] at hz
        split at hz
        · simp only [Except.map] at hz
          injection hz with hz
          rw [← hz]; simp
        · cases hz
      · injection hz with hz
        rw [← hz]
    refine ⟨⟨hd.kind, hd.lengths, hd.pieceLengths, hd.replacements, hd.targets⟩, ?_, by rw [if_neg hs]; exact hzl⟩
    simp only [List.map_set, hzl]
    apply List.ext_getElem?
    intro i
    rw [List.getElem?_set]
    have hp := (List.getElem?_eq_some_iff.1 hr).1
    split
    · next hi => subst hi; rw [if_pos (by simpa using hp), List.getElem?_map, hr]; rfl
    · rfl

theorem flat_ge {α : Type} {pieces : List (PieceData α)} (hw : ∀ x ∈ pieces, WellFormed x) :
    pieces.length ≤ (pieces.flatMap (·.lengths)).length := by
  induction pieces with
  | nil => simp
  | cons x pieces ih =>
    have := ih (fun y hy => hw y (List.mem_cons_of_mem _ hy))
    have hx := List.length_pos_iff.2 (hw x (List.mem_cons_self ..)).nonempty
    rw [List.flatMap_cons, List.length_append, List.length_cons]
    omega

/-- C137: after the h5 file, as many rows are left of piece `p` as the item with number `p` has. -/
theorem C137_left {α : Type} (zero : α) (transitions : Bool) {pieces : List (PieceData α)}
    (hw : ∀ x ∈ pieces, WellFormed x) (hne : pieces ≠ []) (size : Nat) (hs : 0 < size) {M : Nat} (hM : Longest pieces M) :
    ∃ d, (keyData transitions pieces).throughH5 zero size = .ok d ∧ ListsOf transitions pieces d ∧
      ∀ (p : Nat) x, pieces[p]? = some x → ∃ N rows, (pieces.flatMap (·.lengths))[p]? = some N ∧ N ≤ M ∧
        d.inputs[p]? = some rows ∧ rows.length = N ∧
        (∀ j : Nat, j < N → j < x.rows.length → rows[j]? = x.rows[j]?) ∧
        ∀ j : Nat, j < N → x.rows.length ≤ j → rows[j]? = some zero := by
  have hl : (pieces.map (·.rows)).map List.length ≠ [] := by simpa using hne
  have hk1 : (keyData transitions pieces).inputs = pieces.map (·.rows) := rfl
  have hk2 : (keyData transitions pieces).inputLengths = pieces.flatMap (·.lengths) := rfl
  simp only [KeyData.throughH5, h5RoundTrip, padArray, Bind.bind, hk1, hk2]
  rw [if_neg hl]
  simp only [Except.bind, Option.getD_some]
  rw [loadLists_eq _ _ _ hs]
  refine ⟨_, rfl, ⟨rfl, rfl, rfl, rfl, rfl⟩, ?_⟩
  intro p x hx
  have hp : p < (pieces.flatMap (·.lengths)).length := Nat.lt_of_lt_of_le (List.getElem?_eq_some_iff.1 hx).1 (flat_ge hw)
  have hmax : maxLength ((pieces.map (·.rows)).map List.length) = M := by
    apply Nat.le_antisymm
    · have := maxLength_mem hl
      simp only [List.map_map, List.mem_map, Function.comp] at this
      obtain ⟨y, hy, hyl⟩ := this
      rw [List.map_map, ← hyl]
      exact hM.2 y hy
    · obtain ⟨y, hy, hyM⟩ := hM.1
      rw [← hyM]
      exact le_maxLength (List.mem_map.2 ⟨y.rows, List.mem_map.2 ⟨y, hy, rfl⟩, rfl⟩)
  have hN : (pieces.flatMap (·.lengths))[p] ≤ M := by
    obtain ⟨y, hy, hyn⟩ := List.mem_flatMap.1 (List.getElem_mem hp)
    exact (le_last (hw y hy) hyn).trans (hM.2 y hy)
  rw [hmax]
  refine ⟨_, (padTo zero M x.rows).take (pieces.flatMap (·.lengths))[p], List.getElem?_eq_getElem hp, hN, ?_, ?_, ?_, ?_⟩
  · simp only [List.getElem?_map, List.zip, List.getElem?_zipWith, hx, List.getElem?_eq_getElem hp, Option.map_some]
  · rw [List.length_take, padTo_length _ _ _ (hM.2 x (List.mem_of_getElem? hx)), Nat.min_eq_left hN]
  · intro j hj hjx
    rw [List.getElem?_take, if_pos hj, padTo_getElem?, if_pos hjx]
  · intro j hj hjx
    rw [List.getElem?_take, if_pos hj, padTo_getElem?, if_neg (by omega), if_pos (by omega)]

theorem parts_of {α : Type} {x : PieceData α} (h : WellFormed x) {k : Nat} (hk : k < x.lengths.length) :
    ∃ n start r t, Parts x k n start r t := by
  have h1 : k < x.replacements.length := by rw [h.replacements]; exact hk
  have h2 : k < x.targets.length := by rw [h.targets]; exact hk
  cases k with
  | zero =>
    exact ⟨_, 0, _, _, List.getElem?_eq_getElem hk, fun _ => rfl, fun j hj => by omega, List.getElem?_eq_getElem h1,
      List.getElem?_eq_getElem h2⟩
  | succ i =>
    refine ⟨_, x.lengths[i], _, _, List.getElem?_eq_getElem hk, fun h => by omega, ?_, List.getElem?_eq_getElem h1,
      List.getElem?_eq_getElem h2⟩
    intro j hj
    have : j = i := by omega
    subst this
    exact List.getElem?_eq_getElem _

/-- Items of pieces of which fewer than the longest number of rows are left. -/
theorem read_short {α : Type} (zero : α) {transitions : Bool} {pieces : List (PieceData α)}
    (hw : ∀ x ∈ pieces, WellFormed x) {M : Nat} (hM : Longest pieces M) {d : KeyData α}
    (hd : ListsOf transitions pieces d) (sel : List (Nat × Nat))
    (hsel : ∀ s ∈ sel, ∃ x rows, pieces[s.1]? = some x ∧ s.2 < x.lengths.length ∧ d.inputs[s.1]? = some rows ∧
      rows.length < M) :
    ∃ its, d.readItems zero (sel.map fun s => itemNumber pieces s.1 s.2) = .ok (its, d) ∧ its.length = sel.length ∧
      ∀ (i : Nat) s, sel[i]? = some s → ∃ x rows n start r t it, pieces[s.1]? = some x ∧ d.inputs[s.1]? = some rows ∧
        Parts x s.2 n start r t ∧ its[i]? = some it ∧
        KeyTrained zero transitions rows rows.length n start r t (M + 1) it := by
  induction sel with
  | nil => exact ⟨[], rfl, rfl, by simp⟩
  | cons s sel ih =>
    obtain ⟨its, g1, g2, g3⟩ := ih (fun s' hs' => hsel s' (List.mem_cons_of_mem _ hs'))
    obtain ⟨x, rows, hx, hk, hr, hs⟩ := hsel s (List.mem_cons_self ..)
    obtain ⟨n, start, r, t, hp⟩ := parts_of (hw x (List.mem_of_getElem? hx)) hk
    obtain ⟨it, hit, htr⟩ := item_short zero hw hM hd hx hp hr hs
    refine ⟨it :: its, ?_, by simp [g2], ?_⟩
    · simp only [List.map_cons, KeyData.readItems, Bind.bind, hit, Except.bind, g1]
    · intro i s' hs'
      cases i with
      | zero =>
        simp only [List.getElem?_cons_zero, Option.some.injEq] at hs'
        subst hs'
        exact ⟨x, rows, n, start, r, t, it, hx, hr, hp, rfl, htr⟩
      | succ i => exact g3 i s' (by simpa using hs')

/-- `L` is the greatest input length of a batch. -/
def LongestItem {α : Type} (out : List (KeyItem α)) (L : Nat) : Prop :=
  (∃ it ∈ out, it.inputLength = L) ∧ ∀ it ∈ out, it.inputLength ≤ L

theorem batch_short {α : Type} (zero : α) {transitions : Bool} {pieces : List (PieceData α)}
    (hw : ∀ x ∈ pieces, WellFormed x) {M : Nat} (hM : Longest pieces M) {d : KeyData α}
    (hd : ListsOf transitions pieces d) (sel : List (Nat × Nat)) (hne : sel ≠ [])
    (hsel : ∀ s ∈ sel, ∃ x rows, pieces[s.1]? = some x ∧ s.2 < x.lengths.length ∧ d.inputs[s.1]? = some rows ∧
      rows.length < M) :
    ∃ out L, d.batch zero (sel.map fun s => itemNumber pieces s.1 s.2) = .ok (out, d) ∧ out.length = sel.length ∧
      LongestItem out L ∧
      ∀ (i : Nat) s, sel[i]? = some s → ∃ x rows n start r t it, pieces[s.1]? = some x ∧ d.inputs[s.1]? = some rows ∧
        Parts x s.2 n start r t ∧ out[i]? = some it ∧
        KeyTrained zero transitions rows rows.length n start r t L it := by
  obtain ⟨its, g1, g2, g3⟩ := read_short zero hw hM hd sel hsel
  have hat : ∀ it ∈ its, it.inputs.length = M + 1 ∧ it.inputLength ≤ M + 1 := by
    intro it hit
    obtain ⟨i, hi⟩ := List.getElem?_of_mem hit
    have hil : i < sel.length := by rw [← g2]; exact (List.getElem?_eq_some_iff.1 hi).1
    obtain ⟨x, rows, n, start, r, t, it', hx, -, hp, hit', htr⟩ := g3 i _ (List.getElem?_eq_getElem hil)
    rw [hi] at hit'
    injection hit' with hit'
    subst hit'
    have := parts_le hw hM hx hp
    refine ⟨htr.inputs, ?_⟩
    rw [htr.length]
    split <;> omega
  have hits : its ≠ [] := by
    rintro rfl
    exact hne (List.length_eq_zero_iff.1 g2.symm)
  have hall : (its.isEmpty || !(its.all fun it => some it.inputs.length == its.head?.map (·.inputs.length))) = false := by
    cases its with
    | nil => exact absurd rfl hits
    | cons a its =>
      rw [Bool.or_eq_false_iff]
      refine ⟨rfl, ?_⟩
      rw [Bool.not_eq_false', List.all_eq_true]
      intro it hit
      rw [(hat it hit).1, List.head?_cons, Option.map_some, (hat a (List.mem_cons_self ..)).1]
      simp
  obtain ⟨it0, hit0, hl0⟩ := List.mem_map.1 (maxLength_mem (l := its.map (·.inputLength)) (by simpa using hits))
  refine ⟨_, maxLength (its.map (·.inputLength)), by
    simp only [KeyData.batch, Bind.bind, g1, Except.bind, keyBatch, hall]; rfl, by simp [g2], ⟨?_, ?_⟩, ?_⟩
  · exact ⟨_, List.mem_map.2 ⟨it0, hit0, rfl⟩, hl0⟩
  · intro it hit
    obtain ⟨it', hit', rfl⟩ := List.mem_map.1 hit
    exact le_maxLength (List.mem_map.2 ⟨it', hit', rfl⟩)
  · intro i s hs
    obtain ⟨x, rows, n, start, r, t, it, hx, hr, hp, hit, h⟩ := g3 i s hs
    have hL : it.inputLength ≤ maxLength (its.map (·.inputLength)) :=
      le_maxLength (List.mem_map.2 ⟨it, List.mem_of_getElem? hit, rfl⟩)
    have hLM : maxLength (its.map (·.inputLength)) ≤ M + 1 := by rw [← hl0]; exact (hat it0 hit0).2
    generalize maxLength (its.map (·.inputLength)) = L at hL hLM ⊢
    refine ⟨x, rows, n, start, r, t, cutItem d.transitions L it, hx, hr, hp, by rw [List.getElem?_map, hit]; rfl, ?_⟩
    rw [hd.kind]
    have hlen := h.length
    have hn : n ≤ L := by rw [hlen] at hL; split at hL <;> omega
    refine ⟨hlen, ?_, ?_, ?_, ?_, ?_, ?_⟩
    · simp only [cutItem, List.length_take, h.inputs]; omega
    · intro j h1 h2
      simp only [cutItem]
      rw [List.getElem?_take, if_pos (by omega)]
      exact h.past j h1 h2
    · intro j h1 h2
      simp only [cutItem]
      rw [List.getElem?_take, if_pos (by omega)]
      exact h.lost j h1 h2
    · intro hc
      simp only [cutItem]
      rw [hlen, if_pos hc] at hL
      rw [List.getElem?_take, if_pos (by omega)]
      exact h.change hc
    · intro ht
      subst ht
      simpa [cutItem] using h.target rfl
    · intro ht
      subst ht
      obtain ⟨t1, t2⟩ := h.targets rfl
      simp only [cutItem, if_true]
      refine ⟨by rw [List.length_take, t1]; omega, ?_⟩
      intro j hj
      rw [List.getElem?_take, if_pos hj]
      exact t2 j (by omega)

/-- C137 (partial: pieces shorter than the longest one, in memory): a batch holds for each of its items the chords of the
piece up to the end of the key, the chord at the key change relative to the key before it, and the targets. The dataset
is left as it was. -/
theorem C137_memory_partial {α : Type} (zero : α) (transitions : Bool) {pieces : List (PieceData α)}
    (hw : ∀ x ∈ pieces, WellFormed x) {M : Nat} (hM : Longest pieces M) (sel : List (Nat × Nat)) (hne : sel ≠ [])
    (hsel : ∀ s ∈ sel, ∃ x, pieces[s.1]? = some x ∧ s.2 < x.lengths.length ∧ x.rows.length < M) :
    ∃ out L, (keyData transitions pieces).batch zero (sel.map fun s => itemNumber pieces s.1 s.2) =
        .ok (out, keyData transitions pieces) ∧ out.length = sel.length ∧ LongestItem out L ∧
      ∀ (i : Nat) s, sel[i]? = some s → ∃ x n start r t it, pieces[s.1]? = some x ∧ Parts x s.2 n start r t ∧
        out[i]? = some it ∧ KeyTrained zero transitions x.rows x.rows.length n start r t L it := by
  have hin : ∀ (p : Nat) x, pieces[p]? = some x → (keyData transitions pieces).inputs[p]? = some x.rows := by
    intro p x hx
    simp only [keyData, List.getElem?_map, hx, Option.map_some]
  obtain ⟨out, L, h1, h2, h3, h4⟩ := batch_short zero (d := keyData transitions pieces) hw hM ⟨rfl, rfl, rfl, rfl, rfl⟩
    sel hne (by
      intro s hs
      obtain ⟨x, hx, hk, hl⟩ := hsel s hs
      exact ⟨x, x.rows, hx, hk, hin _ _ hx, hl⟩)
  refine ⟨out, L, h1, h2, h3, ?_⟩
  intro i s hs
  obtain ⟨x, rows, n, start, r, t, it, hx, hr, hp, hit, h⟩ := h4 i s hs
  rw [hin _ _ hx] at hr
  injection hr with hr
  subst hr
  exact ⟨x, n, start, r, t, it, hx, hp, hit, h⟩

/-- C137 (partial: only what the h5 file leaves of the pieces): a batch of a dataset loaded from an h5 file holds for each
of its items the chords of the piece up to the end of the key, but of piece `p` only as many as the item with number `p`
has, and zeros for the others; the chord at the key change relative to the key before it, and the targets. -/
theorem C137_loaded_partial {α : Type} (zero : α) (transitions : Bool) {pieces : List (PieceData α)}
    (hw : ∀ x ∈ pieces, WellFormed x) {M : Nat} (hM : Longest pieces M) (size : Nat) (hs : 0 < size)
    (sel : List (Nat × Nat)) (hne : sel ≠ [])
    (hsel : ∀ s ∈ sel, ∃ x N, pieces[s.1]? = some x ∧ s.2 < x.lengths.length ∧
      (pieces.flatMap (·.lengths))[s.1]? = some N ∧ N < M) :
    ∃ d out L, (keyData transitions pieces).throughH5 zero size = .ok d ∧
      d.batch zero (sel.map fun s => itemNumber pieces s.1 s.2) = .ok (out, d) ∧ out.length = sel.length ∧
      LongestItem out L ∧
      ∀ (i : Nat) s, sel[i]? = some s → ∃ x N n start r t it, pieces[s.1]? = some x ∧
        (pieces.flatMap (·.lengths))[s.1]? = some N ∧ Parts x s.2 n start r t ∧ out[i]? = some it ∧
        KeyTrained zero transitions x.rows N n start r t L it := by
  have hpne : pieces ≠ [] := by
    obtain ⟨y, hy, -⟩ := hM.1
    exact List.ne_nil_of_mem hy
  obtain ⟨d, hd, hl, hin⟩ := C137_left zero transitions hw hpne size hs hM
  obtain ⟨out, L, h1, h2, h3, h4⟩ := batch_short zero hw hM hl sel hne (by
      intro s hs
      obtain ⟨x, N, hx, hk, hN, hlt⟩ := hsel s hs
      obtain ⟨N', rows, hN', -, hr, hrl, -⟩ := hin _ _ hx
      rw [hN] at hN'
      injection hN' with hN'
      exact ⟨x, rows, hx, hk, hr, by omega⟩)
  refine ⟨d, out, L, hd, h1, h2, h3, ?_⟩
  intro i s hs
  obtain ⟨x, rows, n, start, r, t, it, hx, hr, hp, hit, h⟩ := h4 i s hs
  obtain ⟨N, rows', hN, -, hr', hrl, hpast, hlost⟩ := hin _ _ hx
  rw [hr] at hr'
  injection hr' with hr'
  subst hr'
  have hn := (parts_le hw hM hx hp).1
  refine ⟨x, N, n, start, r, t, it, hx, hN, hp, hit, h.length, h.inputs, ?_, ?_, h.change, h.target, h.targets⟩
  · intro j h1 h2
    rw [h.past j h1 (by omega), hpast j h2 (by omega)]
  · intro j h1 h2
    exact h.lost j h1 (by omega)

/-- C137 does not hold for the first piece of a dataset if it has a key change: from this change on, all its items have
zeros in place of the chords. -/
theorem C137_first_piece_fails {α : Type} (zero : α) (transitions : Bool) (x : PieceData α) (pieces : List (PieceData α))
    (hw : ∀ y ∈ x :: pieces, WellFormed y) (size : Nat) (hs : 0 < size) (k : Nat) (hk : k + 1 < x.lengths.length) :
    ∃ d out n0 n, (keyData transitions (x :: pieces)).throughH5 zero size = .ok d ∧
      d.batch zero [k + 1] = .ok ([out], d) ∧ x.lengths[0]? = some n0 ∧ x.lengths[k + 1]? = some n ∧ n0 < n ∧
      ∀ j : Nat, n0 ≤ j → j < n → out.inputs[j]? = some zero := by
  obtain ⟨M, hM⟩ : ∃ M, Longest (x :: pieces) M := by
    have hne : (x :: pieces).map (·.rows.length) ≠ [] := by simp
    refine ⟨_, List.mem_map.1 (maxLength_mem hne), fun y hy => le_maxLength (List.mem_map.2 ⟨y, hy, rfl⟩)⟩
  have hx : WellFormed x := hw x (List.mem_cons_self ..)
  have h0 : x.lengths[0]? = some x.lengths[0] := List.getElem?_eq_getElem (by omega)
  have h1 : x.lengths[k + 1]? = some x.lengths[k + 1] := List.getElem?_eq_getElem hk
  have hlt : x.lengths[0] < x.lengths[k + 1] := List.pairwise_iff_getElem.1 hx.increasing 0 (k + 1) (by omega) hk (by omega)
  have hle := le_last hx (List.getElem_mem hk)
  have hxM := hM.2 x (List.mem_cons_self ..)
  have hN : ((x :: pieces).flatMap (·.lengths))[0]? = some x.lengths[0] := by
    rw [List.flatMap_cons, List.getElem?_append_left (by omega), h0]
  obtain ⟨d, out, L, g1, g2, g3, -, g4⟩ := C137_loaded_partial zero transitions hw hM size hs [(0, k + 1)] (by simp) (by
    intro s hs
    have : s = (0, k + 1) := by simpa using hs
    subst this
    exact ⟨x, _, rfl, hk, hN, by omega⟩)
  obtain ⟨x', N, n, start, r, t, it, a1, a2, a3, a4, a5⟩ := g4 0 (0, k + 1) rfl
  have hx' : x = x' := by simpa using a1
  subst hx'
  have ha2 : ((x :: pieces).flatMap (·.lengths))[0]? = some N := a2
  rw [hN] at ha2
  injection ha2 with ha2
  have ha3 : x.lengths[k + 1]? = some n := a3.length
  rw [h1] at ha3
  injection ha3 with ha3
  have hnum : itemNumber (x :: pieces) 0 (k + 1) = k + 1 := by simp [itemNumber, itemsBefore]
  have hout : out = [it] := by
    match out, g3, a4 with
    | [b], _, a4 => simpa using a4
  subst hout
  refine ⟨d, it, _, _, g1, ?_, h0, h1, hlt, ?_⟩
  · simpa only [List.map_cons, List.map_nil, hnum] using g2
  · intro j hj1 hj2
    exact a5.lost j (by omega) (by omega)

theorem read_lengths {α : Type} (zero : α) {transitions : Bool} {pieces : List (PieceData α)}
    (hw : ∀ x ∈ pieces, WellFormed x) {M : Nat} (hM : Longest pieces M) (sel : List (Nat × Nat)) :
    ∀ {d d' : KeyData α}, ListsOf transitions pieces d →
    (∀ s ∈ sel, ∃ x rows, pieces[s.1]? = some x ∧ s.2 < x.lengths.length ∧ d.inputs[s.1]? = some rows) →
    ∀ {its}, d.readItems zero (sel.map fun s => itemNumber pieces s.1 s.2) = .ok (its, d') →
    ∀ s ∈ sel, ∀ rows, d.inputs[s.1]? = some rows →
      ∃ it ∈ its, it.inputs.length = if rows.length < M then M + 1 else rows.length := by
  induction sel with
  | nil => intro _ _ _ _ _ _ s hs; cases hs
  | cons s sel ih =>
    intro d d' hd hsel its hits
    simp only [List.map_cons, KeyData.readItems, Bind.bind] at hits
    obtain ⟨⟨it, d1⟩, hit, hits⟩ := bind_ok hits
    obtain ⟨⟨its', d2⟩, hits', hits⟩ := bind_ok hits
    injection hits with hits
    injection hits with e1 e2
    subst e1 e2
    obtain ⟨x, rows, hx, hk, hr⟩ := hsel s (List.mem_cons_self ..)
    obtain ⟨n, start, r, t, hp⟩ := parts_of (hw x (List.mem_of_getElem? hx)) hk
    obtain ⟨i1, i2, i3⟩ := item_any zero hw hM hd hx hp hr hit
    have hlen : ∀ (p : Nat) rows, d.inputs[p]? = some rows → ∃ rows', d1.inputs[p]? = some rows' ∧
        rows'.length = rows.length := by
      intro p rows hr
      have := congrArg (fun l => l[p]?) i2
      simp only [List.getElem?_map, hr, Option.map_some] at this
      rw [Option.map_eq_some_iff] at this
      exact this
    intro s' hs' rows' hr'
    rcases List.mem_cons.1 hs' with rfl | hs'
    · rw [hr] at hr'
      injection hr' with hr'
      subst hr'
      exact ⟨it, List.mem_cons_self .., i3⟩
    · obtain ⟨rows1, hr1, hl1⟩ := hlen _ _ hr'
      obtain ⟨it', hit', hl'⟩ := ih i1 (by
        intro s2 hs2
        obtain ⟨x2, rows2, a1, a2, a3⟩ := hsel s2 (List.mem_cons_of_mem _ hs2)
        obtain ⟨rows3, a4, -⟩ := hlen _ _ a3
        exact ⟨x2, rows3, a1, a2, a4⟩) hits' s' hs' rows1 hr1
      exact ⟨it', List.mem_cons_of_mem _ hit', by rw [hl', hl1]⟩

/-- C137: how items are divided into batches does not matter for what is read: the items of a batch are those that follow
on the ones before it, with what these have changed in the dataset. -/
theorem C137_batches {α : Type} (zero : α) (d : KeyData α) (is js : List Nat) :
    d.readItems zero (is ++ js) = (do
      let (a, d) ← d.readItems zero is
      let (b, d) ← d.readItems zero js
      .ok (a ++ b, d)) := by
  induction is generalizing d with
  | nil =>
    simp only [List.nil_append, KeyData.readItems, Bind.bind, Except.bind]
    cases d.readItems zero js <;> rfl
  | cons i is ih =>
    simp only [List.cons_append, KeyData.readItems, Bind.bind, Except.bind]
    cases d.getItem zero i with
    | error e => rfl
    | ok o =>
      simp only [ih, Bind.bind, Except.bind]
      cases o.2.readItems zero is with
      | error e => rfl
      | ok o' =>
        simp only
        cases o'.2.readItems zero js with
        | error e => rfl
        | ok o'' => rfl

/-- C137 does not hold for a batch with items of a piece with as many rows as the longest one (`M`) and of another piece
with fewer: it cannot be made, whether the dataset is in memory or was loaded. -/
theorem C137_mixed_fails {α : Type} (zero : α) {transitions : Bool} {pieces : List (PieceData α)}
    (hw : ∀ x ∈ pieces, WellFormed x) {M : Nat} (hM : Longest pieces M) {d : KeyData α}
    (hd : ListsOf transitions pieces d) (hin : d.inputs.length = pieces.length) (sel : List (Nat × Nat))
    (hsel : ∀ s ∈ sel, ∃ x, pieces[s.1]? = some x ∧ s.2 < x.lengths.length)
    (s s' : Nat × Nat) (hs : s ∈ sel) (hs' : s' ∈ sel) (rows rows' : List α) (hr : d.inputs[s.1]? = some rows)
    (hr' : d.inputs[s'.1]? = some rows') (hl : rows.length = M) (hl' : rows'.length < M) :
    ∃ e, d.batch zero (sel.map fun s => itemNumber pieces s.1 s.2) = .error e := by
  cases hread : d.readItems zero (sel.map fun s => itemNumber pieces s.1 s.2) with
  | error e => exact ⟨e, by simp only [KeyData.batch, Bind.bind, hread, Except.bind]⟩
  | ok o =>
    obtain ⟨its, d1⟩ := o
    have key := read_lengths zero hw hM sel hd (by
      intro s2 hs2
      obtain ⟨x, hx, hk⟩ := hsel s2 hs2
      have hp : s2.1 < d.inputs.length := by rw [hin]; exact (List.getElem?_eq_some_iff.1 hx).1
      exact ⟨x, _, hx, hk, List.getElem?_eq_getElem hp⟩) hread
    obtain ⟨a, ha, hal⟩ := key s hs rows hr
    obtain ⟨b, hb, hbl⟩ := key s' hs' rows' hr'
    rw [if_neg (by omega)] at hal
    rw [if_pos hl'] at hbl
    have hbad : (its.isEmpty || !(its.all fun it => some it.inputs.length == its.head?.map (·.inputs.length))) = true := by
      rw [Bool.or_eq_true]
      right
      rw [Bool.not_eq_true', ← Bool.not_eq_true, List.all_eq_true]
      intro hall
      have h1 := hall a ha
      have h2 := hall b hb
      rw [beq_iff_eq] at h1 h2
      rw [← h2] at h1
      injection h1 with h1
      omega
    exact ⟨.valueError, by simp only [KeyData.batch, Bind.bind, hread, Except.bind, keyBatch, hbad]; rfl⟩

theorem row_ne_zeros {c : Chord ℚ} {tt : PitchType} {change : Option (Key × Key)} {row : List ℚ}
    (h : sequenceRow c tt change true = .ok row) (w : Nat) : row ≠ zeros w := by
  have hone : ∃ a ∈ row, a = (1 : ℚ) := by
    rw [sequenceRow] at h
    obtain ⟨v, hv, h⟩ := bind_ok h
    have hv1 : (1 : ℚ) ∈ v := by
      have ht : (noReduction c.chordType).value < 12 := by cases c.chordType <;> decide
      have hm : (1 : ℚ) ∈ Vectors.hot 12 (noReduction c.chordType).value :=
        List.mem_of_getElem? (i := (noReduction c.chordType).value)
          (by rw [Vectors.hot_getElem? _ _ _ ht, if_pos ht, if_pos rfl])
      obtain ⟨r, hr, hv⟩ := bind_ok hv
      obtain ⟨p, hp, hv⟩ := bind_ok hv
      obtain ⟨ct, hct, hv⟩ := bind_ok hv
      obtain ⟨b, hb, hv⟩ := bind_ok hv
      obtain ⟨bs, hbs, hv⟩ := bind_ok hv
      obtain ⟨iv, hiv, hv⟩ := bind_ok hv
      obtain ⟨on, hon, hv⟩ := bind_ok hv
      obtain ⟨off, hoff, hv⟩ := bind_ok hv
      injection hv with hv
      rw [show ChordType.all.length = 12 from rfl, Vectors.oneHot_ok (by omega) (by omega)] at hct
      injection hct with hct
      rw [← hv, ← hct]
      simp only [Int.toNat_natCast, List.mem_append, hm, true_or, or_true]
    cases change with
    | none =>
      injection h with h
      rw [← h]
      exact ⟨1, List.mem_append_left _ hv1, rfl⟩
    | some ch =>
      obtain ⟨kv, -, h⟩ := bind_ok h
      split at h
      · cases h
      · injection h with h
        rw [← h]
        exact ⟨1, List.mem_append_left _ (List.mem_append_left _ hv1), rfl⟩
  rintro rfl
  obtain ⟨a, ha, rfl⟩ := hone
  have := List.eq_of_mem_replicate ha
  revert this
  decide +kernel

/-- C137 does not hold for the key transition model if the first piece has a key change (at chord `N`): after the h5 file,
in each of the items of its later keys all chords from there on are zeros, though none of their vectors is. -/
theorem C137_modulating_fails (x : KeyedPiece) (xs : List KeyedPiece) (hv : ∀ y ∈ x :: xs, KeyedPiece.Valid y)
    (ds : List (PieceData (List ℚ))) (hds : (x :: xs).mapM transitionPiece = .ok ds) (size : Nat) (hs : 0 < size) (w : Nat)
    (N : Nat) (hN : x.keyChanges[1]? = some N) (k : Nat) (hk : k + 1 < x.keys.length) :
    ∃ d out n, (keyData true ds).throughH5 (zeros w) size = .ok d ∧ d.batch (zeros w) [k + 1] = .ok ([out], d) ∧
      N < n ∧ n = x.keyChanges.getD (k + 2) x.chords.length ∧
      ∀ j : Nat, N ≤ j → j < n → out.inputs[j]? = some (zeros w) ∧
        ∃ c row change, x.chords[j]? = some c ∧ ChangeAt x.keyChanges x.keys j change ∧
          (∃ tt, sequenceRow c tt change true = .ok row) ∧ row ≠ zeros w := by
  obtain ⟨l1, l2⟩ := mapM_inv _ _ _ hds
  match ds, l1 with
  | d0 :: ds, l1 =>
    have h0 : transitionPiece x = .ok d0 := by
      obtain ⟨b, hb, h⟩ := l2 0 x rfl
      have : d0 = b := by simpa using hb
      rw [this]; exact h
    have hwf : ∀ y ∈ d0 :: ds, WellFormed y := by
      intro y hy
      obtain ⟨i, hi⟩ := List.getElem?_of_mem hy
      have hil : i < (x :: xs).length := by rw [← l1]; exact (List.getElem?_eq_some_iff.1 hi).1
      obtain ⟨b, hb, h⟩ := l2 i _ (List.getElem?_eq_getElem hil)
      rw [hi] at hb
      injection hb with hb
      subst hb
      obtain ⟨-, -, h, -⟩ := C68_transitions _ (hv _ (List.getElem_mem hil)) _ h
      exact h
    have hvx := hv x (List.mem_cons_self ..)
    obtain ⟨k0, -, -, c3, c4, c5, -, c7⟩ := C68_transitions x hvx d0 h0
    obtain ⟨d, out, n0, n, g1, g2, g3, g4, g5, g6⟩ := C137_first_piece_fails (zeros w) true d0 ds hwf size hs k (by omega)
    have hn0 : n0 = N := by
      have := (c5 0 N hN).1
      rw [g3] at this
      injection this
    subst hn0
    have hn : n = x.keyChanges.getD (k + 2) x.chords.length := by
      have hlen : x.keyChanges.length = x.keys.length := hvx.keys.symm
      by_cases hlast : k + 2 < x.keyChanges.length
      · have hget := List.getElem?_eq_getElem hlast
        have := (c5 (k + 1) _ hget).1
        rw [g4] at this
        injection this with this
        rw [List.getD_eq_getElem?_getD, hget]; exact this
      · rw [List.getD_eq_getElem?_getD, List.getElem?_eq_none (by omega)]
        rw [show x.keys.length - 1 = k + 1 by omega, g4] at c7
        injection c7
    have hnl : n ≤ x.chords.length := by
      rw [← c3.1]; exact le_last (hwf d0 (List.mem_cons_self ..)) (List.mem_of_getElem? g4)
    refine ⟨d, out, n, g1, g2, g5, hn, ?_⟩
    intro j hj1 hj2
    obtain ⟨c, row, change, r1, r2, r3, r4⟩ := c3.2 j (by omega)
    exact ⟨g6 j hj1 hj2, c, row, change, r1, r3, ⟨_, r4⟩, row_ne_zeros r4 w⟩

/-! ## Two pieces; rows are numbers -/

-- the first piece has a key change after two chords: of its second item, chords 2 and 3 are lost; the second piece
-- keeps all (the second item has more rows than the piece)
example : ((keyData true [⟨[1, 2, 3, 4], [2, 4], [90, 0], [1, 0]⟩, ⟨[5, 6, 7], [1, 3], [80, 0], [1, 0]⟩]).throughH5 0 256).map
    (·.inputs) = .ok [[1, 2], [5, 6, 7, 0]] := by decide

example : ((keyData true [⟨[1, 2, 3, 4, 5], [2, 5], [90, 0], [1, 0]⟩, ⟨[6, 7], [1, 2], [80, 0], [1, 0]⟩,
      ⟨[8, 9], [2], [0], [0]⟩]).throughH5 0 256 >>= fun d => d.batch 0 [0, 1, 4]).map (·.1) =
    .ok [⟨[1, 2, 90, 0, 0], 3, [-100, 0, 1, -100, -100]⟩, ⟨[1, 2, 0, 0, 0], 5, [-100, -100, -100, 0, 0]⟩,
      ⟨[8, 0, 0, 0, 0], 2, [-100, 0, -100, -100, -100]⟩] := by decide

-- items of the longest piece and of a shorter one do not fit into one batch
example : ((keyData true [⟨[1, 2, 3], [3], [0], [0]⟩, ⟨[6, 7], [1, 2], [80, 0], [1, 0]⟩]).throughH5 0 256 >>= fun d =>
    d.batch 0 [0, 1]).map (·.1) = .error .valueError := by decide

end Verif.KeyTraining
