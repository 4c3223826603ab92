import Verif.Py
import Mathlib.Algebra.Order.Ring.Rat
import Mathlib.Data.Rat.Floor

/-!
# Rhythm

Model of /repo/harmonic_inference/utils/rhythmic_utils.py. A measures DataFrame of one piece is a list
of rows. A missing `next` is `pd.NA` (the column has the type `Int64` after
corpus_utils.py:94 `remove_repeats`).
-/

namespace Verif

/-- A row of a measures DataFrame. -/
structure Measure (δ : Type) where
  mc : Int
  actDur : δ
  offset : δ
  next : Option Int
  deriving DecidableEq

/-- `measures.loc[measures["mc"] == mc]`, first row. -/
def findMeasure {δ : Type} (T : List (Measure δ)) (mc : Int) : Option (Measure δ) :=
  T.find? (fun m => decide (m.mc = mc))

/-- `measures.loc[measures["mc"] == mc, ...].values[0]`. -/
def measureAt {δ : Type} (T : List (Measure δ)) (mc : Int) : Py (Measure δ) :=
  match findMeasure T mc with
  | some m => .ok m
  | none => .error .indexError

/-- rhythmic_utils.py:48-52: the loop. `pd.NA != end_mc` has no truth value: `TypeError`. After as many
rounds as there are rows a row has been met twice, and the loop does not end. -/
def walkMeasures {δ : Type} [Add δ] (T : List (Measure δ)) (endMc : Int) :
    Nat → Option Int → δ → Py δ
  | _, none, _ => .error .typeError
  | fuel, some mc, length =>
    if mc = endMc then .ok length
    else
      match fuel with
      | 0 => .error .diverges
      | fuel + 1 => do
        let m ← measureAt T mc
        walkMeasures T endMc fuel m.next (length + m.actDur)

/-- rhythmic_utils.py:38-58: the length of a range whose start is not after its end. -/
def forwardLength {δ : Type} [Add δ] [Sub δ] (T : List (Measure δ)) (s e : Int × δ) : Py δ :=
  if s.1 = e.1 then .ok (e.2 - s.2)
  else do
    let m ← measureAt T s.1
    let length ← walkMeasures T e.1 T.length m.next (m.actDur + m.offset - s.2)
    let final ← measureAt T e.1
    .ok (length + (e.2 - final.offset))

/-- Python's comparison of pairs, `a > b`. -/
def pairGt {δ : Type} [LT δ] (a b : Int × δ) : Prop := b.1 < a.1 ∨ (a.1 = b.1 ∧ b.2 < a.2)

instance {δ : Type} [LT δ] [DecidableLT δ] (a b : Int × δ) : Decidable (pairGt a b) :=
  inferInstanceAs (Decidable (_ ∨ _))

/-- rhythmic_utils.py:10-60 `get_range_length`. -/
def getRangeLength {δ : Type} [Add δ] [Sub δ] [Neg δ] [LT δ] [DecidableLT δ] (T : List (Measure δ))
    (s e : Int × δ) : Py δ :=
  if pairGt s e then do
    let length ← forwardLength T e s
    .ok (-length)
  else forwardLength T s e

/-- rhythmic_utils.py:63-121 `get_rhythmic_info_as_proportion_of_range` for a note at `(mc, beat)`. -/
def rhythmicInfo (T : List (Measure ℚ)) (note : Int × ℚ) (duration : ℚ) (s e : Int × ℚ)
    (rangeLen : Option ℚ) : Py (ℚ × ℚ × ℚ) := do
  let len ← match rangeLen with
    | some l => .ok l
    | none => getRangeLength T s e
  if len = 0 then Except.error .zeroDivisionError
  else do
    let onset ←
      if (note.1 - s.1).natAbs ≤ (note.1 - e.1).natAbs then do
        let x ← getRangeLength T s note
        .ok (x / len)
      else do
        let x ← getRangeLength T note e
        .ok (1 - x / len)
    .ok (onset, onset + duration / len, duration / len)

/-- rhythmic_utils.py:124-155 `get_metrical_level_lengths`: measure, beat and sub-beat. The time
signature is given as its two numbers; a denominator of 0 raises `ZeroDivisionError`. -/
def metricalLevelLengths (num den : Int) : Py (ℚ × ℚ × ℚ) :=
  if den = 0 then .error .zeroDivisionError
  else if num > 3 ∧ num % 3 = 0 then .ok ((num : ℚ) / den, 1 / (den : ℚ) * 3, 1 / (den : ℚ))
  else .ok ((num : ℚ) / den, 1 / (den : ℚ), 1 / (den : ℚ) / 2)

/-- Python's `a % b` on fractions, `a - b * floor(a / b)`. -/
def fracMod (a b : ℚ) : Py ℚ :=
  if b = 0 then .error .zeroDivisionError else .ok (a - b * ⌊a / b⌋)

/-- rhythmic_utils.py:158-188 `get_metrical_level`. -/
def metricalLevel (beat : ℚ) (num den : Int) : Py Nat := do
  let (measure, beatLength, sub) ← metricalLevelLengths num den
  let a ← fracMod beat measure
  if a = 0 then .ok 3
  else do
    let b ← fracMod beat beatLength
    if b = 0 then .ok 2
    else do
      let c ← fracMod beat sub
      if c = 0 then .ok 1 else .ok 0

end Verif
