import Verif.Heap
import Verif.Py

/-!
# Beams

Model of /repo/harmonic_inference/utils/beam_search_utils.py:886-1104. A state is an object of a type
`α`; only its comparison `lt` (State.__lt__, 882-883) and its hash (State.get_hash, 862-880) matter to
a beam. Equality of `α` is object identity. A size below zero behaves as zero in the code, so sizes
are natural numbers here.
-/

namespace Verif

/-- Python's `max(iterable)` on a non-empty iterable: the first of the greatest elements. -/
def pyMax {α : Type} (lt : α → α → Bool) : List α → Option α
  | [] => none
  | a :: l => some (l.foldl (fun m x => if lt m x then x else m) a)

/-- beam_search_utils.py:897-907 `Beam.__init__`: the fields of a beam. -/
structure Beam (α : Type) where
  size : Nat
  heap : List α
  deriving DecidableEq

namespace Beam
variable {α : Type} (lt : α → α → Bool)

/-- beam_search_utils.py:897-907 `Beam.__init__`. -/
def new (size : Nat) : Beam α := ⟨size, []⟩

/-- beam_search_utils.py:909-930 `Beam.fits_in_beam`. `self.beam[0]` of an empty beam is an
`IndexError`. -/
def fits (b : Beam α) (s : α) : Py Bool :=
  if b.heap.length < b.size then .ok true
  else match b.heap with
    | [] => .error .indexError
    | top :: _ => .ok (lt top s)

/-- beam_search_utils.py:932-957 `Beam.add`. -/
def add (b : Beam α) (s : α) (force : Bool) : Py (Bool × Beam α) :=
  if force = false ∧ b.size ≤ b.heap.length then
    match b.heap with
    | [] => .error .indexError
    | top :: _ =>
      if lt top s then .ok (true, { b with heap := (heappushpop lt b.heap s).2 })
      else .ok (false, b)
  else .ok (true, { b with heap := heappush lt b.heap s })

/-- beam_search_utils.py:959-969 `Beam.get_top_state`. -/
def topState (b : Beam α) : Option α := pyMax lt b.heap

/-- beam_search_utils.py:971-975 `Beam.empty`. -/
def empty (b : Beam α) : Beam α := { b with heap := [] }

/-- A sequence of adds, each with its `force` flag. -/
def run (b : Beam α) : List (α × Bool) → Py (Beam α)
  | [] => .ok b
  | (s, force) :: rest => do
    let (_, b') ← add lt b s force
    run b' rest

end Beam

/-- beam_search_utils.py:1001-1011 `HashedBeam.__init__`: the fields of a hashed beam. `dict` is
`state_dict` in insertion order; `none` stands for the empty *list* that `empty` puts there.
`invalid` holds the states whose `_valid` flag this beam has cleared (State.invalidate, 133-137). -/
structure HBeam (η α : Type) where
  size : Nat
  heap : List α
  dict : Option (List (η × α))
  invalid : List α
  deriving DecidableEq

namespace HBeam
variable {η α : Type} [DecidableEq η] [DecidableEq α] (lt : α → α → Bool) (hash : α → η)

/-- beam_search_utils.py:1001-1011 `HashedBeam.__init__`. -/
def new (size : Nat) : HBeam η α := ⟨size, [], some [], []⟩

/-- `d[h] = s` on a dictionary: in place if the key is there, at the end if not. -/
def dictSet (d : List (η × α)) (h : η) (s : α) : List (η × α) :=
  if d.any (fun e => decide (e.1 = h)) then d.map (fun e => if e.1 = h then (h, s) else e)
  else d ++ [(h, s)]

/-- `d[h]`, or `none` if `h not in d`. -/
def dictGet (d : List (η × α)) (h : η) : Option α :=
  (d.find? (fun e => decide (e.1 = h))).map (·.2)

/-- `del d[h]`: a `KeyError` if it is not there. -/
def dictDel (d : List (η × α)) (h : η) : Py (List (η × α)) :=
  if d.any (fun e => decide (e.1 = h)) then .ok (d.filter (fun e => !decide (e.1 = h)))
  else .error .keyError

/-- beam_search_utils.py:1103-1104 `HashedBeam.__len__`. -/
def len (b : HBeam η α) : Nat := (b.dict.getD []).length

/-- beam_search_utils.py:1041-1047 `HashedBeam._fix_beam_min`. The fuel is at least the size of the
heap plus one, so it never runs out. -/
def fixMin (invalid : List α) : Nat → List α → Py (List α)
  | 0, heap => .ok heap
  | fuel + 1, heap =>
    match heap with
    | [] => .error .indexError
    | top :: _ =>
      if top ∈ invalid then
        match heappop lt heap with
        | none => .error .indexError
        | some (_, heap') => fixMin invalid fuel heap'
      else .ok heap

/-- beam_search_utils.py:1013-1039 `HashedBeam.fits_in_beam`. `x not in []` is true if `state_dict`
has become an empty list. -/
def fits (b : HBeam η α) (s : α) (checkHash : Bool) : Py Bool := do
  let globalCheck ←
    if b.len < b.size then .ok true
    else match b.heap with
      | [] => .error .indexError
      | top :: _ => .ok (lt top s)
  if globalCheck = true ∧ checkHash = true then
    match b.dict with
    | none => .ok true
    | some d =>
      match dictGet d (hash s) with
      | none => .ok true
      | some old => .ok (lt old s)
  else .ok globalCheck

/-- beam_search_utils.py:1049-1091 `HashedBeam.add`. With `state_dict` an empty list (after `empty`),
`state_dict[hash] = state` is a `TypeError`, as the hash is a tuple. -/
def add (b : HBeam η α) (s : α) (force : Bool) : Py (Bool × HBeam η α) :=
  match b.dict with
  | none =>
    if force = false ∧ b.size ≤ 0 then
      match b.heap with
      | [] => .error .indexError
      | top :: _ => if lt top s then .error .typeError else .ok (false, b)
    else .error .typeError
  | some d =>
    match dictGet d (hash s) with
    | some old =>
      if lt old s then do
        let invalid := old :: b.invalid
        let heap := heappush lt b.heap s
        let heap ← fixMin lt invalid (heap.length + 1) heap
        .ok (true, { b with heap := heap, dict := some (dictSet d (hash s) s), invalid := invalid })
      else .ok (false, b)
    | none =>
      if force = false ∧ b.size ≤ d.length then
        match b.heap with
        | [] => .error .indexError
        | top :: _ =>
          if lt top s then do
            let (removed, heap) := heappushpop lt b.heap s
            let d ← dictDel (dictSet d (hash s) s) (hash removed)
            let heap ← fixMin lt b.invalid (heap.length + 1) heap
            .ok (true, { b with heap := heap, dict := some d })
          else .ok (false, b)
      else
        .ok (true, { b with heap := heappush lt b.heap s, dict := some (dictSet d (hash s) s) })

/-- beam_search_utils.py:1100-1101 `HashedBeam.__iter__`: the states in the beam. A list has no
`values()`, which is an `AttributeError`. -/
def states (b : HBeam η α) : Py (List α) :=
  match b.dict with
  | none => .error .attributeError
  | some d => .ok (d.map (·.2))

/-- beam_search_utils.py:959-969 `Beam.get_top_state` on a hashed beam. -/
def topState (b : HBeam η α) : Py (Option α) :=
  if b.len > 0 then (states b).map (pyMax lt) else .ok none

/-- beam_search_utils.py:1093-1098 `HashedBeam.empty`. -/
def empty (b : HBeam η α) : HBeam η α := { b with heap := [], dict := none }

/-- A sequence of adds, each with its `force` flag. -/
def run (b : HBeam η α) : List (α × Bool) → Py (HBeam η α)
  | [] => .ok b
  | (s, force) :: rest => do
    let (_, b') ← add lt hash b s force
    run b' rest

end HBeam

end Verif
