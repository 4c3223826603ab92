import Verif.Forces
import Mathlib.Order.Defs.LinearOrder
import Mathlib.Data.Nat.Basic
import Mathlib.Data.List.Forall2

/-!
# C51: positions of forces
-/

namespace Verif

variable {α : Type} [LinearOrder α]

theorem bisectLoop_spec (a : List α) (x : α) (hs : a.Pairwise (· ≤ ·)) (fuel lo hi : Nat)
    (hf : hi - lo ≤ fuel) (hle : lo ≤ hi) (hh : hi ≤ a.length)
    (h1 : ∀ (i : Nat) (y : α), a[i]? = some y → i < lo → y < x)
    (h2 : ∀ (i : Nat) (y : α), a[i]? = some y → hi ≤ i → x ≤ y) :
    bisectLoop a x fuel lo hi ≤ a.length ∧
    (∀ (i : Nat) (y : α), a[i]? = some y → i < bisectLoop a x fuel lo hi → y < x) ∧
    (∀ (i : Nat) (y : α), a[i]? = some y → bisectLoop a x fuel lo hi ≤ i → x ≤ y) := by
  induction fuel generalizing lo hi with
  | zero =>
    have : lo = hi := by omega
    subst this
    exact ⟨hh, h1, h2⟩
  | succ fuel ih =>
    rw [bisectLoop]
    by_cases hlt : lo < hi
    · rw [if_pos hlt]
      have hm : (lo + hi) / 2 < a.length := by omega
      simp only [List.getElem?_eq_getElem hm]
      have mono : ∀ (i j : Nat) (y z : α), a[i]? = some y → a[j]? = some z → i ≤ j → y ≤ z := by
        intro i j y z hi' hj' hij
        rcases Nat.lt_or_eq_of_le hij with h | rfl
        · obtain ⟨p, rfl⟩ := List.getElem?_eq_some_iff.mp hi'
          obtain ⟨q, rfl⟩ := List.getElem?_eq_some_iff.mp hj'
          exact List.pairwise_iff_getElem.mp hs i j p q h
        · rw [hi'] at hj'; injection hj' with h; exact le_of_eq h
      split
      · rename_i hy
        refine ih (lo := (lo + hi) / 2 + 1) (hi := hi) (by omega) (by omega) hh ?_ h2
        intro i y hi' hlt'
        exact lt_of_le_of_lt (mono i _ y _ hi' (List.getElem?_eq_getElem hm) (by omega)) hy
      · rename_i hy
        refine ih (lo := lo) (hi := (lo + hi) / 2) (by omega) (by omega) (by omega) h1 ?_
        intro i y hi' hlt'
        exact le_trans (not_lt.mp hy) (mono _ i _ y (List.getElem?_eq_getElem hm) hi' hlt')
    · rw [if_neg hlt]
      have : lo = hi := by omega
      subst this
      exact ⟨hh, h1, h2⟩

theorem bisectLeft_spec (a : List α) (x : α) (hs : a.Pairwise (· ≤ ·)) :
    bisectLeft a x ≤ a.length ∧
    (∀ (i : Nat) (y : α), a[i]? = some y → i < bisectLeft a x → y < x) ∧
    (∀ (i : Nat) (y : α), a[i]? = some y → bisectLeft a x ≤ i → x ≤ y) := by
  refine bisectLoop_spec a x hs a.length 0 a.length (by omega) (by omega) (by omega) ?_ ?_
  · intro i y _ h; omega
  · intro i y h1 h2
    obtain ⟨p, _⟩ := List.getElem?_eq_some_iff.mp h1
    omega

/-- C51: for notes in order of their onsets, the result is the index of the first note at the
position, with the id unchanged, and it is given exactly for positions with a note. -/
theorem C51_first_note (positions : List α) (hs : positions.Pairwise (· ≤ ·)) (pos : α)
    (id : Option Int) (r : Nat × Option Int) :
    convertForce positions (pos, id) = .ok r ↔
      positions[r.1]? = some pos ∧ (∀ j, j < r.1 → positions[j]? ≠ some pos) ∧ r.2 = id := by
  obtain ⟨b0, b1, b2⟩ := bisectLeft_spec positions pos hs
  simp only [convertForce, pyGet, if_pos (Int.natCast_nonneg _), Int.toNat_natCast]
  constructor
  · intro h
    cases hg : positions[bisectLeft positions pos]? with
    | none => rw [hg] at h; cases h
    | some p =>
      rw [hg] at h
      simp only [Bind.bind, Except.bind] at h
      split at h
      · cases h
      · rename_i hp
        injection h with h
        subst h
        refine ⟨by rw [hg, not_not.mp hp], fun j hj hh => ?_, rfl⟩
        exact lt_irrefl _ (b1 j pos hh hj)
  · rintro ⟨h1, h2, h3⟩
    have hidx : bisectLeft positions pos = r.1 := by
      rcases Nat.lt_trichotomy (bisectLeft positions pos) r.1 with h | h | h
      · exfalso
        have hlen : bisectLeft positions pos < positions.length :=
          Nat.lt_trans h (List.getElem?_eq_some_iff.mp h1).1
        have hle := b2 _ _ (List.getElem?_eq_getElem hlen) (Nat.le_refl _)
        obtain ⟨q, hq⟩ := List.getElem?_eq_some_iff.mp h1
        have := List.pairwise_iff_getElem.mp hs _ _ hlen q h
        rw [hq] at this
        exact h2 _ h (by rw [List.getElem?_eq_getElem hlen, le_antisymm this hle])
      · exact h
      · exact absurd (b1 _ _ h1 h) (lt_irrefl _)
    rw [hidx, h1]
    simp only [Bind.bind, Except.bind, ne_eq, not_true_eq_false, if_false]
    rw [← h3]

/-- C51: what is raised for a position without a note: `ValueError` if there is a later note,
`IndexError` (at the test itself) if there is none. -/
theorem C51_no_note (positions : List α) (hs : positions.Pairwise (· ≤ ·)) (pos : α)
    (id : Option Int) (hno : pos ∉ positions) :
    convertForce positions (pos, id) =
      if ∃ p ∈ positions, pos < p then .error .valueError else .error .indexError := by
  obtain ⟨b0, b1, b2⟩ := bisectLeft_spec positions pos hs
  simp only [convertForce, pyGet, if_pos (Int.natCast_nonneg _), Int.toNat_natCast]
  cases hg : positions[bisectLeft positions pos]? with
  | none =>
    rw [if_neg]
    · rfl
    · rintro ⟨p, hp, hlt⟩
      obtain ⟨i, hi⟩ := List.mem_iff_getElem?.mp hp
      rw [List.getElem?_eq_none_iff] at hg
      have := (List.getElem?_eq_some_iff.mp hi).1
      exact lt_asymm hlt (b1 i p hi (by omega))
  | some p =>
    have hm := List.mem_of_getElem? hg
    have hne : p ≠ pos := fun h => hno (h ▸ hm)
    rw [if_pos ⟨p, hm, lt_of_le_of_ne (b2 _ _ hg (Nat.le_refl _)) hne.symm⟩]
    simp only [Bind.bind, Except.bind, ne_eq, hne, not_false_eq_true, if_true]

/-- C51: the list of results has one entry per force, in order. -/
theorem C51_all (positions : List α) (fs : List (α × Option Int)) (rs : List (Nat × Option Int)) :
    convertForces positions fs = .ok rs ↔
      List.Forall₂ (fun f r => convertForce positions f = .ok r) fs rs := by
  induction fs generalizing rs with
  | nil =>
    simp only [convertForces, Except.ok.injEq]
    constructor
    · rintro rfl; exact .nil
    · intro h; cases h; rfl
  | cons f fs ih =>
    simp only [convertForces, Bind.bind, Except.bind]
    cases hf : convertForce positions f with
    | error e =>
      simp only [reduceCtorEq, false_iff]
      intro h; cases h with | cons h _ => rw [hf] at h; cases h
    | ok x =>
      simp only
      cases hfs : convertForces positions fs with
      | error e =>
        simp only [reduceCtorEq, false_iff]
        intro h
        cases h with | cons h h' => rw [← ih, hfs] at h'; cases h'
      | ok xs =>
        simp only [Except.ok.injEq]
        constructor
        · rintro rfl; exact .cons hf ((ih _).1 hfs)
        · intro h
          cases h with
          | cons h h' =>
            rw [hf] at h
            injection h with h
            rw [← ih, hfs] at h'
            injection h' with h'
            rw [h, h']

/-- Onsets 0 0 3 3 5. -/
example : convertForces [0, 0, 3, 3, 5] [(3, none), (0, some 7), (5, none)] =
    .ok [(2, none), (0, some 7), (4, none)] := by decide

example : convertForce [0, 0, 3, 3, 5] (4, none) = .error .valueError := by decide

example : convertForce [0, 0, 3, 3, 5] (6, none) = .error .indexError := by decide

end Verif
