import Verif.Py

/-! # General list lemmas -/

namespace Verif

theorem mapM_ok {α β : Type} (f : α → Py β) (g : α → β) :
    ∀ (l : List α), (∀ x ∈ l, f x = .ok (g x)) → l.mapM f = (.ok (l.map g) : Py (List β))
  | [], _ => rfl
  | x :: l, h => by
    have hx := h x (by simp)
    have ih := mapM_ok f g l (fun y hy => h y (by simp [hy]))
    rw [List.mapM_cons, hx, ih]
    rfl

theorem pyGet_map {α β : Type _} (f : α → β) (l : List α) (i : Int) :
    pyGet (l.map f) i = (pyGet l i).map f := by
  simp only [pyGet, List.length_map, List.getElem?_map]
  split
  · cases l[i.toNat]? <;> rfl
  · split
    · cases l[((l.length : Int) + i).toNat]? <;> rfl
    · rfl

/-- Python indexing succeeds exactly on -len..len-1. -/
theorem pyGet_ok_iff {α : Type _} (l : List α) (i : Int) :
    (∃ a, pyGet l i = .ok a) ↔ -(l.length : Int) ≤ i ∧ i < l.length := by
  simp only [pyGet]
  split
  · rename_i h
    by_cases hl : i < l.length
    · have : i.toNat < l.length := by omega
      simp [this]; omega
    · have : ¬ i.toNat < l.length := by omega
      simp [List.getElem?_eq_none (Nat.le_of_not_lt this)]; omega
  · rename_i h
    by_cases hl : -(l.length : Int) ≤ i
    · have : ((l.length : Int) + i).toNat < l.length := by omega
      simp [hl, this]; omega
    · simp [hl]

theorem pyGet_error {α : Type _} (l : List α) (i : Int)
    (h : ¬ (-(l.length : Int) ≤ i ∧ i < l.length)) : pyGet l i = .error .indexError := by
  cases hg : pyGet l i with
  | ok a => exact absurd ((pyGet_ok_iff l i).1 ⟨a, hg⟩) h
  | error e =>
    simp only [pyGet] at hg
    split at hg
    · split at hg <;> simp_all
    · split at hg
      · split at hg <;> simp_all
      · simp_all

theorem pyGet_mem {α : Type _} (l : List α) (i : Int) (a : α) (h : pyGet l i = .ok a) : a ∈ l := by
  simp only [pyGet] at h
  split at h
  · split at h
    · rename_i h'; injection h with h; subst h; exact List.mem_of_getElem? h'
    · cases h
  · split at h
    · split at h
      · rename_i h'; injection h with h; subst h; exact List.mem_of_getElem? h'
      · cases h
    · cases h

theorem pyGet_nonneg {α : Type _} (l : List α) (i : Int) (a : α) (h0 : 0 ≤ i)
    (h : pyGet l i = .ok a) : l[i.toNat]? = some a := by
  simp only [pyGet, if_pos h0] at h
  split at h <;> simp_all

theorem flatMap_congr_left {α β : Type _} {f g : α → List β} {l : List α}
    (h : ∀ x ∈ l, f x = g x) : l.flatMap f = l.flatMap g := by
  induction l with
  | nil => rfl
  | cons a l ih =>
    rw [List.flatMap_cons, List.flatMap_cons, h a (by simp), ih (fun x hx => h x (by simp [hx]))]

end Verif
