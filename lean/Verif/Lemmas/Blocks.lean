import Verif.Harmonic

/-! # Positions inside a concatenation of blocks -/

namespace Verif

theorem flatMap_block_getElem? {α β : Type _} (f : α → List β) :
    ∀ (L : List α) (k j : Nat) (a : α), L[k]? = some a → j < (f a).length →
      (L.flatMap f)[((L.take k).map (fun x => (f x).length)).sum + j]? = (f a)[j]?
  | [], k, j, a, h, _ => by simp at h
  | x :: L, 0, j, a, h, hj => by
    simp at h; subst h
    simp [hj, List.getElem?_append_left]
  | x :: L, k + 1, j, a, h, hj => by
    have ih := flatMap_block_getElem? f L k j a (by simpa using h) hj
    simp only [List.take_succ_cons, List.map_cons, List.sum_cons, List.flatMap_cons]
    rw [List.getElem?_append_right (by omega)]
    rw [← ih]; congr 1; omega

theorem sum_map_const {α : Type _} (c : Nat) : ∀ (L : List α), (L.map (fun _ => c)).sum = L.length * c
  | [] => by simp
  | _ :: L => by simp [sum_map_const c L, Nat.succ_mul, Nat.add_comm]

theorem sum_map_congr {α : Type _} {f g : α → Nat} {L : List α} (h : ∀ x ∈ L, f x = g x) :
    (L.map f).sum = (L.map g).sum := by
  rw [List.map_congr_left h]

/-- Position in a product with inner blocks of constant length. -/
theorem flatMap_const_getElem? {α β : Type _} (f : α → List β) (m : Nat) (L : List α)
    (hm : ∀ x ∈ L, (f x).length = m) (k j : Nat) (a : α) (h : L[k]? = some a) (hj : j < m) :
    (L.flatMap f)[k * m + j]? = (f a)[j]? := by
  have ha : a ∈ L := List.mem_of_getElem? h
  have hk : k < L.length := by
    rcases List.getElem?_eq_some_iff.mp h with ⟨hk, _⟩; exact hk
  have := flatMap_block_getElem? f L k j a h (by rw [hm a ha]; exact hj)
  rw [← this]
  congr 1
  rw [sum_map_congr (g := fun _ => m) (fun x hx => hm x (List.mem_of_mem_take hx)), sum_map_const]
  simp [Nat.min_eq_left (Nat.le_of_lt hk)]

theorem length_flatMap_const {α β : Type _} (f : α → List β) (m : Nat) (L : List α)
    (hm : ∀ x ∈ L, (f x).length = m) : (L.flatMap f).length = L.length * m := by
  rw [List.length_flatMap, sum_map_congr (g := fun _ => m) hm, sum_map_const]

theorem int_sum_cast (l : List Nat) : ((l.sum : Nat) : Int) = (l.map (fun n : Nat => (n : Int))).sum := by
  induction l with
  | nil => rfl
  | cons a l ih => simp [ih]

/-- Every position of a concatenation lies in exactly one block. -/
theorem exists_block {α β : Type _} (f : α → List β) :
    ∀ (L : List α) (i : Nat), i < (L.flatMap f).length →
      ∃ k j a, L[k]? = some a ∧ j < (f a).length ∧
        i = ((L.take k).map (fun x => (f x).length)).sum + j
  | [], i, h => by simp at h
  | x :: L, i, h => by
    by_cases hi : i < (f x).length
    · exact ⟨0, i, x, by simp, hi, by simp⟩
    · have : i - (f x).length < (L.flatMap f).length := by
        simp only [List.flatMap_cons, List.length_append] at h; omega
      obtain ⟨k, j, a, h1, h2, h3⟩ := exists_block f L _ this
      exact ⟨k + 1, j, a, by simpa using h1, h2, by simp only [List.take_succ_cons, List.map_cons, List.sum_cons]; omega⟩

end Verif
