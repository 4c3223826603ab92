/-!
# The binary heap of Python's `heapq`

The beams of /repo/harmonic_inference/utils/beam_search_utils.py (lines 951, 956, 1047, 1073, 1081,
1089) and the start queue of /repo/harmonic_inference/models/joint_model.py use `heapq` from the
standard library (Python 3.11, Lib/heapq.py). It is modelled here as the algorithm it is: a list with
a hole that moves up or down. `lt` is the element's `__lt__`.
-/

namespace Verif

section
variable {α : Type} (lt : α → α → Bool)

/-- Lib/heapq.py `_siftdown(heap, 0, pos)`, with `x` (`newitem`) still to be put at `pos`. `fuel`
bounds the number of steps; `pos` is always enough as each step at least halves it. The `none` case
is out of reach as the parent of a position in the list is in the list. -/
def siftdown : Nat → List α → α → Nat → List α
  | 0, heap, x, pos => heap.set pos x
  | fuel + 1, heap, x, pos =>
    if pos > 0 then
      match heap[(pos - 1) / 2]? with
      | some parent =>
        if lt x parent then siftdown fuel (heap.set pos parent) x ((pos - 1) / 2)
        else heap.set pos x
      | none => heap.set pos x
    else heap.set pos x

/-- The choice of the smaller child in Lib/heapq.py `_siftup`. -/
def smallerChild (heap : List α) (childpos : Nat) : Nat :=
  match heap[childpos]?, heap[childpos + 1]? with
  | some l, some r => if lt l r then childpos else childpos + 1
  | _, _ => childpos

/-- Lib/heapq.py `_siftup(heap, 0)` from the loop on, at position `pos`. The length of the list is
always enough fuel, as the position grows. -/
def siftup : Nat → List α → α → Nat → List α
  | 0, heap, x, pos => siftdown lt pos heap x pos
  | fuel + 1, heap, x, pos =>
    match heap[smallerChild lt heap (2 * pos + 1)]? with
    | some c => siftup fuel (heap.set pos c) x (smallerChild lt heap (2 * pos + 1))
    | none => siftdown lt pos heap x pos

/-- Lib/heapq.py `heappush`. -/
def heappush (heap : List α) (x : α) : List α :=
  siftdown lt heap.length (heap ++ [x]) x heap.length

/-- Lib/heapq.py `heappop`; `none` is the `IndexError` of popping from an empty list. -/
def heappop (heap : List α) : Option (α × List α) :=
  match heap.getLast? with
  | none => none
  | some last =>
    match heap.dropLast with
    | [] => some (last, [])
    | first :: rest => some (first, siftup lt (rest.length + 1) (last :: rest) last 0)

/-- Lib/heapq.py `heappushpop`. -/
def heappushpop (heap : List α) (x : α) : α × List α :=
  match heap with
  | [] => (x, [])
  | first :: rest =>
    if lt first x then (first, siftup lt (rest.length + 1) (x :: rest) x 0) else (x, heap)

end

end Verif
