import Verif.PyStr
import Verif.Harmonic

/-!
# Files written by `evaluate` and `annotate`

Model of /repo/test.py:325-357 and /repo/annotate.py:172-182. Directories and errors of the operating system are not
modelled; a file is given by the components of its path and contains what was last written to it.
-/

namespace Verif

/-- The components of a path. -/
abbrev FilePath := List Str

/-- test.py:326 and annotate.py:173 `Path(...)`: the components; empty ones and `.` are left out. -/
def pathParts (s : Str) : FilePath := (pySplit ['/'] s).filter fun c => c ≠ [] ∧ c ≠ ['.']

/-- test.py:327: `directory / path`; an absolute path replaces the directory. -/
def pathIn (dir : FilePath) (s : Str) : FilePath :=
  if s.head? = some '/' then pathParts s else dir ++ pathParts s

/-- test.py:326 and annotate.py:173: `name.split(" ")[-1]`. -/
def lastWord (s : Str) : Str := (pySplit [' '] s).getLastD []

/-- annotate.py:174 `PurePath.stem` of the last component: up to the last full stop, unless it is the first or the
last character. -/
def stemOf (n : Str) : Str :=
  match n.reverse.dropWhile (· ≠ '.') with
  | [] => n
  | _ :: before => if before = [] ∨ n.getLast? = some '.' then n else before.reverse

/-- The three tables of a piece, test.py:298-323. -/
structure PieceTables (α : Type) where
  labels : α
  results : α
  midi : α

/-- `"_results.tsv"`, test.py:332. -/
def resultsEnd : Str := ['_', 'r', 'e', 's', 'u', 'l', 't', 's', '.', 't', 's', 'v']

/-- `"_results_midi.tsv"`, test.py:343. -/
def midiEnd : Str := ['_', 'r', 'e', 's', 'u', 'l', 't', 's', '_', 'm', 'i', 'd', 'i', '.', 't', 's', 'v']

/-- test.py:229-231 and 325-357: the files written for a piece, in order. `name[:-4]` is the last component without
four characters. -/
def evaluateWrites {α : Type} (dir : FilePath) (name : Option Str) (tables : Option (PieceTables α)) :
    List (FilePath × α) :=
  match name, tables with
  | some n, some t =>
    let path := pathIn dir (lastWord n)
    let file := path.getLastD []
    let base := file.take (file.length - 4)
    [(path.dropLast ++ [base ++ resultsEnd], t.results), (path.dropLast ++ [base ++ midiEnd], t.midi),
      (path, t.labels)]
  | _, _ => []

/-- test.py:211-360: all files written by `evaluate`, in order. -/
def evaluateFiles {α : Type} (dir : FilePath) (pieces : List (Option Str × Option (PieceTables α))) :
    List (FilePath × α) :=
  pieces.flatMap fun p => evaluateWrites dir p.1 p.2

/-- annotate.py:158-182: the file written for a piece. -/
def annotateWrites {α : Type} (dir : FilePath) (name : Option Str) (table : Option α) : List (FilePath × α) :=
  match name, table with
  | some n, some t => [(dir ++ [stemOf ((pathParts (lastWord n)).getLastD []) ++ ['.', 't', 's', 'v']], t)]
  | _, _ => []

/-- annotate.py:152-185: all files written by `annotate`, in order. -/
def annotateFiles {α : Type} (dir : FilePath) (pieces : List (Option Str × Option α)) : List (FilePath × α) :=
  pieces.flatMap fun p => annotateWrites dir p.1 p.2

/-- The contents of a file after the given writes (test.py:334, 345 and 353, annotate.py:178 `to_csv`): the last
one. -/
def contentOf {α : Type} (writes : List (FilePath × α)) (path : FilePath) : Option α :=
  writes.reverse.lookup path

end Verif
