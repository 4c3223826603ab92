import Verif.Py
import Verif.Constants

/-!
# Strings and the converters of table columns

Python's `int` and `str.split`, and model of
/repo/harmonic_inference/data/corpus_constants.py:13-73 (`str2inttuple`, `int2bool` and `str2frac`), the functions with
which the columns of the tables of a corpus are read. White space and digits are those of ASCII.
-/

namespace Verif

/-- White space. -/
def isSpace (c : Char) : Bool := c ∈ [' ', '\t', '\n', '\r', '\x0b', '\x0c']

/-- `s.strip()`. -/
def strip (s : Str) : Str := ((s.dropWhile isSpace).reverse.dropWhile isSpace).reverse

/-- The digits of a number, with single `_` between digits; `prev` says whether the last character was a digit. -/
def digitsOk : Bool → Str → Bool
  | prev, [] => prev
  | prev, c :: s => if c.isDigit then digitsOk true s else c == '_' && prev && digitsOk false s

/-- The value of a number without a sign. -/
def natOf (s : Str) : Py Nat :=
  if digitsOk false s then .ok (Nat.ofDigitChars 10 (s.filter Char.isDigit) 0) else .error .valueError

/-- A number with an optional sign. -/
def signedOf : Str → Py Int
  | c :: s =>
    if c = '-' then (natOf s).map fun n => -(n : Int)
    else if c = '+' then (natOf s).map fun n => (n : Int)
    else (natOf (c :: s)).map fun n => (n : Int)
  | [] => .error .valueError

/-- `int(s)`. -/
def parseInt (s : Str) : Py Int := signedOf (strip s)

/-- `s.split(sep)` with a separator that is not empty; the number counts the characters of a separator that are
still to be skipped. -/
def splitSub (sep : Str) : Nat → Str → List Str
  | _, [] => [[]]
  | k + 1, _ :: s => splitSub sep k s
  | 0, c :: s =>
    if sep.isPrefixOf (c :: s) then [] :: splitSub sep (sep.length - 1) s
    else match splitSub sep 0 s with
      | [] => [[c]]
      | w :: ws => (c :: w) :: ws

/-- `s.split(sep)`. -/
def pySplit (sep s : Str) : List Str := splitSub sep 0 s

/-- corpus_constants.py:13-31 `str2inttuple`; every exception gives the empty tuple. -/
def str2inttuple (s : Str) : List Int :=
  if s = [] then []
  else match (pySplit [',', ' '] s).mapM parseInt with
    | .ok l => l
    | .error _ => []

/-- corpus_constants.py:34-53 `int2bool`; `none` is `pd.NA`. -/
def int2bool (s : Str) : Option Bool :=
  match parseInt s with
  | .ok i => some (decide (i ≠ 0))
  | .error _ => none

/-- A sequence of digits that is not empty. -/
def plainNat (s : Str) : Option Nat :=
  if s ≠ [] ∧ s.all Char.isDigit then some (Nat.ofDigitChars 10 s 0) else none

/-- The part of a fraction after its sign: `n/d`, `n.f`, `.f`, `n.` or `n`. -/
def unsignedFrac (s : Str) : Py Rat :=
  match pySplit ['/'] s with
  | [n, d] =>
    match plainNat n, plainNat d with
    | some n, some d => if d = 0 then .error .zeroDivisionError else .ok ((n : Rat) / (d : Rat))
    | _, _ => .error .valueError
  | _ =>
    match pySplit ['.'] s with
    | [n] => match plainNat n with
      | some n => .ok (n : Rat)
      | none => .error .valueError
    | [n, f] =>
      if (n ++ f) ≠ [] ∧ (n ++ f).all Char.isDigit then
        .ok ((Nat.ofDigitChars 10 (n ++ f) 0 : Rat) / (10 ^ f.length : Nat))
      else .error .valueError
    | _ => .error .valueError

/-- `Fraction(s)` for a string. Exponents and `_` within numbers, which tables do not use, are left out. -/
def pyFraction (s : Str) : Py Rat :=
  match strip s with
  | c :: s =>
    if c = '-' then (unsignedFrac s).map fun q => -q
    else if c = '+' then unsignedFrac s
    else unsignedFrac (c :: s)
  | [] => .error .valueError

/-- corpus_constants.py:56-73 `str2frac`; `none` is `pd.NA`. -/
def str2frac (s : Str) : Option Rat :=
  match pyFraction s with
  | .ok q => some q
  | .error _ => none

end Verif
