import Verif.Py

/-!
# Positions of forces

Model of /repo/harmonic_inference/utils/forces.py:34-69 (`convert_score_positions_to_note_indexes`).
Positions, pairs of a measure and a fraction compared in lexicographic order, are elements of a type
`α` with a decidable `<`.
-/

namespace Verif

/-- CPython `bisect.bisect_left(a, x, lo, hi)`. The first argument bounds the number of rounds
(`hi - lo` is enough); an index outside of the list can not occur. -/
def bisectLoop {α : Type} [LT α] [DecidableLT α] (a : List α) (x : α) : Nat → Nat → Nat → Nat
  | 0, lo, _ => lo
  | fuel + 1, lo, hi =>
    if lo < hi then
      let mid := (lo + hi) / 2
      match a[mid]? with
      | some y => if y < x then bisectLoop a x fuel (mid + 1) hi else bisectLoop a x fuel lo mid
      | none => lo
    else lo

/-- `bisect.bisect_left(a, x)`. -/
def bisectLeft {α : Type} [LT α] [DecidableLT α] (a : List α) (x : α) : Nat :=
  bisectLoop a x a.length 0 a.length

/-- forces.py:60-67: one force, a position and possibly an id (`len(force)` is 2 or 3). -/
def convertForce {α : Type} [LT α] [DecidableLT α] [DecidableEq α] (positions : List α)
    (force : α × Option Int) : Py (Nat × Option Int) := do
  let index := bisectLeft positions force.1
  let p ← pyGet positions (index : Int)
  if p ≠ force.1 then .error .valueError else .ok (index, force.2)

/-- forces.py:34-69: all forces in order. -/
def convertForces {α : Type} [LT α] [DecidableLT α] [DecidableEq α] (positions : List α) :
    List (α × Option Int) → Py (List (Nat × Option Int))
  | [] => .ok []
  | f :: fs => do
    let x ← convertForce positions f
    let xs ← convertForces positions fs
    .ok (x :: xs)

end Verif
