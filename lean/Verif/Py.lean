/-!
# Python basics

Shared pieces of Python semantics used by the model: exceptions as values and list indexing.
-/

namespace Verif

/-- The Python exceptions the modelled code can raise; `diverges` stands for a loop that does not
end. -/
inductive PyErr where
  | valueError
  | keyError
  | indexError
  | typeError
  | attributeError
  | zeroDivisionError
  | nameError
  | diverges
  deriving DecidableEq, Repr

/-- Python result: a value or a raised exception. -/
abbrev Py (α : Type _) := Except PyErr α

/-- Two results are compared by cases (used to `decide` concrete witnesses). -/
instance {α : Type _} [DecidableEq α] : DecidableEq (Py α)
  | .ok a, .ok b => if h : a = b then isTrue (by rw [h]) else isFalse (by intro h'; injection h'; contradiction)
  | .error a, .error b =>
    if h : a = b then isTrue (by rw [h]) else isFalse (by intro h'; injection h'; contradiction)
  | .ok _, .error _ => isFalse (by intro h; injection h)
  | .error _, .ok _ => isFalse (by intro h; injection h)

/-- Python `l[i]` for an integer `i`: negative indices count from the end, `IndexError` outside. -/
def pyGet {α : Type _} (l : List α) (i : Int) : Py α :=
  if 0 ≤ i then
    match l[i.toNat]? with
    | some a => .ok a
    | none => .error .indexError
  else if -(l.length : Int) ≤ i then
    match l[(l.length + i).toNat]? with
    | some a => .ok a
    | none => .error .indexError
  else .error .indexError

/-- Python `range(lo, hi)` on integers. -/
def pyRange (lo hi : Int) : List Int :=
  (List.range (hi - lo).toNat).map (fun n : Nat => lo + (n : Int))

theorem pyRange_length (lo hi : Int) : (pyRange lo hi).length = (hi - lo).toNat := by
  simp [pyRange]

theorem pyRange_getElem? (lo hi : Int) (n : Nat) (h : n < (hi - lo).toNat) :
    (pyRange lo hi)[n]? = some (lo + n) := by
  simp [pyRange, h]

theorem mem_pyRange (lo hi x : Int) : x ∈ pyRange lo hi ↔ lo ≤ x ∧ x < hi := by
  simp only [pyRange, List.mem_map, List.mem_range]
  constructor
  · rintro ⟨n, hn, rfl⟩; omega
  · intro h; exact ⟨(x - lo).toNat, by omega, by omega⟩

theorem pyGet_ofNat {α : Type _} (l : List α) (n : Nat) (a : α) (h : l[n]? = some a) :
    pyGet l (n : Int) = .ok a := by
  simp [pyGet, h]

end Verif
