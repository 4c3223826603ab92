import Verif.Rhythm
import Mathlib.Algebra.BigOperators.Group.List.Basic
import Mathlib.Data.List.Nodup
import Mathlib.Tactic.Abel

/-!
# Chains of measures
-/

namespace Verif

/-- A chain of measures: rows of the table, each linked to the one after it, in order of their
numbers. -/
structure Chain {δ : Type} (T c : List (Measure δ)) : Prop where
  found : ∀ m ∈ c, findMeasure T m.mc = some m
  linked : ∀ (k : Nat) (m m' : Measure δ), c[k]? = some m → c[k + 1]? = some m' → m.next = some m'.mc
  sorted : c.Pairwise (fun a b => a.mc < b.mc)

/-- The position of a beat of the `k`-th measure of a chain, from the beginning of the chain: the
durations of the measures before it, and the beat less the offset of its measure. -/
def chainPos {δ : Type} [AddCommGroup δ] (c : List (Measure δ)) (k : Nat) (beat : δ) : δ :=
  ((c.take k).map (·.actDur)).sum + (beat - ((c[k]?).map (·.offset)).getD 0)

theorem Chain.mono {δ : Type} {T c : List (Measure δ)} (h : Chain T c) (i j : Nat) (m m' : Measure δ)
    (hi : c[i]? = some m) (hj : c[j]? = some m') : (m.mc < m'.mc ↔ i < j) ∧ (m.mc = m'.mc ↔ i = j) := by
  obtain ⟨hi1, rfl⟩ := List.getElem?_eq_some_iff.mp hi
  obtain ⟨hj1, rfl⟩ := List.getElem?_eq_some_iff.mp hj
  have hs := List.pairwise_iff_getElem.mp h.sorted
  rcases Nat.lt_trichotomy i j with hij | rfl | hij
  · have := hs i j hi1 hj1 hij; constructor <;> constructor <;> intro <;> omega
  · simp
  · have := hs j i hj1 hi1 hij; constructor <;> constructor <;> intro <;> omega

theorem Chain.at {δ : Type} {T c : List (Measure δ)} (h : Chain T c) (k : Nat) (m : Measure δ)
    (hk : c[k]? = some m) : measureAt T m.mc = .ok m := by
  rw [measureAt, h.found m (List.mem_of_getElem? hk)]

theorem Chain.length_le {δ : Type} {T c : List (Measure δ)} (h : Chain T c) : c.length ≤ T.length := by
  have hnd : c.Nodup := h.sorted.imp (fun hlt heq => by rw [heq] at hlt; omega)
  exact (List.subperm_of_subset hnd
    (fun m hm => List.mem_of_find?_eq_some (h.found m hm))).length_le

theorem sum_take_succ {δ : Type} [AddCommGroup δ] (c : List (Measure δ)) (k : Nat) (m : Measure δ)
    (hk : c[k]? = some m) :
    ((c.take (k + 1)).map (·.actDur)).sum = ((c.take k).map (·.actDur)).sum + m.actDur := by
  rw [List.take_add_one, hk]; simp

/-- The loop adds up the durations of the measures from the `i`-th to the one before the `j`-th. -/
theorem walk_chain {δ : Type} [AddCommGroup δ] {T c : List (Measure δ)} (h : Chain T c) (d i j : Nat)
    (hd : j = i + d) (m m' : Measure δ) (hi : c[i]? = some m) (hj : c[j]? = some m') (fuel : Nat)
    (hf : d ≤ fuel) (len : δ) :
    walkMeasures T m'.mc fuel (some m.mc) len =
      .ok (len + (((c.take j).map (·.actDur)).sum - ((c.take i).map (·.actDur)).sum)) := by
  induction d generalizing i m fuel len with
  | zero =>
    obtain rfl : j = i := by omega
    rw [hi] at hj; injection hj with hj
    rw [walkMeasures.eq_def]
    simp [hj]
  | succ d ih =>
    have hne : ¬ m.mc = m'.mc := fun he => by
      have := ((h.mono i j m m' hi hj).2.1 he); omega
    obtain ⟨fuel, rfl⟩ : ∃ f, fuel = f + 1 := ⟨fuel - 1, by omega⟩
    have hlt : i + 1 < c.length := by
      have := (List.getElem?_eq_some_iff.mp hj).1; omega
    have hn := List.getElem?_eq_getElem hlt
    rw [walkMeasures.eq_def]
    simp only [if_neg hne, h.at i m hi, Bind.bind, Except.bind, h.linked i m _ hi hn]
    rw [ih (i + 1) (by omega) c[i + 1] hn fuel (by omega), sum_take_succ c i m hi]
    congr 1; abel

theorem forward_chain {δ : Type} [AddCommGroup δ] {T c : List (Measure δ)} (h : Chain T c) (i j : Nat)
    (hij : i ≤ j) (m m' : Measure δ) (hi : c[i]? = some m) (hj : c[j]? = some m') (b b' : δ) :
    forwardLength T (m.mc, b) (m'.mc, b') = .ok (chainPos c j b' - chainPos c i b) := by
  rw [forwardLength, chainPos, chainPos, hi, hj]
  rcases Nat.lt_or_eq_of_le hij with hlt | rfl
  · have hne : ¬ m.mc = m'.mc := fun he => by
      have := ((h.mono i j m m' hi hj).2.1 he); omega
    have hlt' : i + 1 < c.length := by
      have := (List.getElem?_eq_some_iff.mp hj).1; omega
    have hn := List.getElem?_eq_getElem hlt'
    have hjl := (List.getElem?_eq_some_iff.mp hj).1
    have hTl := h.length_le
    simp only [if_neg hne, h.at i m hi, h.at j m' hj, Bind.bind, Except.bind, h.linked i m _ hi hn]
    rw [walk_chain h (j - (i + 1)) (i + 1) j (by omega) _ m' hn hj T.length (by omega),
      sum_take_succ c i m hi]
    simp only [Option.map_some, Option.getD_some]
    congr 1; abel
  · rw [hi] at hj; injection hj with hj
    subst hj
    simp only [if_true, Option.map_some, Option.getD_some]
    congr 1; abel

end Verif
