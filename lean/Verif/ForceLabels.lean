import Verif.Harmonic

/-!
# Forces written into a score

Model of /repo/harmonic_inference/utils/forces.py:19-31 and 71-208 (`extract_forces_from_musescore`). The labels
and the lyrics that `ms3` reads from the score are given. A regular expression is a function from a string to the
list of all ways to match a prefix of it, in the order in which the backtracking matcher of Python tries them; the
first one is the match.
-/

namespace Verif

/-- forces.py:24: `c{0,2}`, greedy: what is matched and what is left. -/
def upToTwo (c : Char) : Str → List (Str × Str)
  | a :: b :: s =>
    if a = c then
      if b = c then [([a, b], s), ([a], b :: s), ([], a :: b :: s)] else [([a], b :: s), ([], a :: b :: s)]
    else [([], a :: b :: s)]
  | [a] => if a = c then [([a], []), ([], [a])] else [([], [a])]
  | [] => [([], [])]

/-- forces.py:24: `[A-Ga-g]`. -/
def noteLetters : List Char := ['A', 'B', 'C', 'D', 'E', 'F', 'G', 'a', 'b', 'c', 'd', 'e', 'f', 'g']

/-- forces.py:24 `PITCH_REGEX`. -/
def pitchMatches : Str → List (Str × Str)
  | c :: s => if c ∈ noteLetters then (upToTwo '#' s ++ upToTwo 'b' s).map (fun m => (c :: m.1, m.2)) else []
  | [] => []

/-- A literal at the beginning of a string: what is left after it. -/
def literal (lit s : Str) : Option Str := if lit.isPrefixOf s then some (s.drop lit.length) else none

/-- harmonic_constants.py:170-186: the values of `CHORD_TYPE_TO_STRING` in the order of the dictionary. -/
def typeNames : List Str :=
  [['M'], ['m'], ['o'], ['+'], ['M', 'M', '7'], ['M', 'm', '7'], ['m', 'M', '7'], ['m', 'm', '7'], ['o', '7'],
   ['%', '7'], ['+', '7'], ['+', 'M', '7']]

/-- forces.py:28: the alternatives of the chord type. -/
def typeMatches (s : Str) : List (Str × Str) :=
  typeNames.filterMap fun name => (literal name s).map fun rest => (name, rest)

/-- forces.py:29: `(_[0-3])?`; `none` is a group that takes no part in the match. -/
def inversionMatches : Str → List (Option Str)
  | a :: d :: _ => if a = '_' ∧ d ∈ ['0', '1', '2', '3'] then [some [a, d], none] else [none]
  | _ => [none]

/-- forces.py:26-30 `CHORD_REGEX` at the beginning of a string: the groups 1, 3 and 4. -/
def chordMatches (s : Str) : List (Str × Str × Option Str) :=
  match literal ['C', '='] s with
  | none => []
  | some s =>
    (pitchMatches s).flatMap fun p =>
      (typeMatches p.2).flatMap fun t => (inversionMatches t.2).map fun i => (p.1, t.1, i)

/-- forces.py:31 `KEY_REGEX` at the beginning of a string. -/
def keyMatches (s : Str) : List (Str × Str) :=
  match literal ['K', '='] s with
  | none => []
  | some s => pitchMatches s

/-- `re.search`: the match at the first position that has one. -/
def search {β : Type} (matches' : Str → List β) : Str → Option β
  | [] => (matches' []).head?
  | c :: s =>
    match (matches' (c :: s)).head? with
    | some m => some m
    | none => search matches' s

/-- `re.search` for a literal, forces.py:20-22. -/
def containsLiteral (lit s : Str) : Bool :=
  (search (fun s => (literal lit s).toList) s).isSome

/-- A row of the table of labels or of lyrics: `(mc, mn_onset)` and the text. -/
structure ScoreLabel (α : Type) where
  pos : α
  label : Str
  deriving DecidableEq, Repr

/-- forces.py:111-113: chords of the score with lyrics. -/
def lyricRows {α : Type} (chords : List (α × Option Str)) : List (ScoreLabel α) :=
  chords.filterMap fun c => c.2.map fun s => ⟨c.1, s⟩

/-- forces.py:115-155: the positions of the rows of both tables that match. -/
def changeRows {α : Type} (contains : Str → Bool) (labels lyrics : List (ScoreLabel α)) : List α :=
  ((labels.filter fun r => contains r.label) ++ (lyrics.filter fun r => contains r.label)).map ScoreLabel.pos

/-- `int(label_df[3][-1])` for a group that took part in the match; `len` of `NaN` is a `TypeError`,
forces.py:171. -/
def inversionOf : Option Str → Py Int
  | none => .error .typeError
  | some s =>
    if s = [] then .ok 0
    else match s.getLast? with
      | some '0' => .ok 0
      | some '1' => .ok 1
      | some '2' => .ok 2
      | some '3' => .ok 3
      | _ => .error .valueError

/-- `STRING_TO_CHORD_TYPE[name]`. -/
def typeOfName (name : Str) : Py ChordType :=
  match chordTypeTable.lookup name with
  | some ct => .ok ct
  | none => .error .keyError

/-- forces.py:164-172: the id of a chord from the groups of the match; arguments are evaluated in order. -/
def forcedChordId (m : Str × Str × Option Str) : Py Int := do
  let ct ← typeOfName m.2.1
  let root ← pitchFromString m.1 .tpc
  let inv ← inversionOf m.2.2
  chordOneHotIndex ct root .tpc inv true false false id

/-- forces.py:158-177: the forced chords of the rows that match. -/
def forcedChordRows {α : Type} : List (ScoreLabel α) → Py (List (α × Int))
  | [] => .ok []
  | r :: rs =>
    match search chordMatches r.label with
    | none => forcedChordRows rs
    | some m => do
      let i ← forcedChordId m
      let rest ← forcedChordRows rs
      .ok ((r.pos, i) :: rest)

/-- forces.py:189-194: the id of a key; the label has more than two characters as the expression is found in it.
`isupper` is modelled for ASCII. -/
def forcedKeyId (label : Str) : Py Int := do
  let c ← pyGet label 2
  let tonic ← pitchFromString (label.drop 2) .tpc
  keyOneHotIndex (if c.isUpper then .major else .minor) tonic .tpc

/-- forces.py:179-196: the forced keys of the rows that match. -/
def forcedKeyRows {α : Type} : List (ScoreLabel α) → Py (List (α × Int))
  | [] => .ok []
  | r :: rs =>
    match search keyMatches r.label with
    | none => forcedKeyRows rs
    | some _ => do
      let i ← forcedKeyId r.label
      let rest ← forcedKeyRows rs
      .ok ((r.pos, i) :: rest)

/-- The six lists of forces.py:198-205. -/
structure ScoreForces (α : Type) where
  chordChanges : List α
  chordNonChanges : List α
  keyChanges : List α
  keyNonChanges : List α
  chords : List (α × Int)
  keys : List (α × Int)
  deriving DecidableEq, Repr

/-- forces.py:71-208 `extract_forces_from_musescore`: `labels` are the labels of the score, `chords` its chords with
their lyrics, if any. Labels are strings (a missing label can not be used in a mask). The four change expressions
are `\!C`, `^\=C`, `\!K` and `\=K`, forces.py:19-22. -/
def extractForces {α : Type} (labels : List (ScoreLabel α)) (scoreChords : List (α × Option Str)) :
    Py (ScoreForces α) := do
  let lyrics := lyricRows scoreChords
  let chords ← forcedChordRows (labels ++ lyrics)
  let keys ← forcedKeyRows (labels ++ lyrics)
  .ok {
    chordChanges := changeRows (containsLiteral ['!', 'C']) labels lyrics
    chordNonChanges := changeRows (fun s => (literal ['=', 'C'] s).isSome) labels lyrics
    keyChanges := changeRows (containsLiteral ['!', 'K']) labels lyrics
    keyNonChanges := changeRows (containsLiteral ['=', 'K']) labels lyrics
    chords := chords
    keys := keys }

end Verif
