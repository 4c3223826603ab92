import Mathlib.Data.Rat.Defs
import Mathlib.Data.List.Sort
import Mathlib.Data.Prod.Lex
import Verif.Py

/-!
Merging of tied notes in the corpus frames: `harmonic_inference/utils/corpus_utils.py:389-802`.
-/

namespace Verif

/-- A row of the notes frame with its index and the columns `merge_ties` reads or writes
(`harmonic_inference/utils/corpus_utils.py:394-418`).  `grace` tells whether the `gracenote` column
is not null; `tied = none` is `pd.NA`.  The offset columns are taken to be present and not null, as
`add_note_offsets` leaves them.  Columns that are only carried along are left out. -/
structure TieNote where
  file : Int
  note : Int
  mc : Int
  onset : ℚ
  dur : ℚ
  midi : Int
  voice : Int
  staff : Int
  grace : Bool
  tied : Option Int
  offMc : Int
  offBeat : ℚ
  deriving DecidableEq, Repr

/-- The index of a row, `("file_id", "note_id")` (`corpus_utils.py:397-398`). -/
def TieNote.key (n : TieNote) : Int × Int := (n.file, n.note)

/-- The pair of rows that a row of `merged` consists of: the tied out note and the tied in note
(`corpus_utils.py:681-688`). -/
abbrev TiePair := TieNote × TieNote

/-- Whether two rows agree on the columns of the merge: `left_on=["file_id", "midi", "offset_mc",
"offset_beat"]`, `right_on=["file_id", "midi", "mc", NOTE_ONSET_BEAT]`
(`corpus_utils.py:685-686`, also 467-468 and 752-753). -/
def tieJoins (o i : TieNote) : Bool :=
  o.file == i.file && o.midi == i.midi && o.offMc == i.mc && o.offBeat == i.onset

/-- The inner merge of two frames (`corpus_utils.py:681-688`, 463-470 and 748-755).  The order of
the rows of a merge, and the order of the rows of a frame looked up by a `set` (749, 476), is
whatever `ord` says: the theorems hold for every reordering. -/
def tieMerge (ord : List TiePair → List TiePair) (outs ins : List TieNote) : List TiePair :=
  ord (outs.flatMap fun o => (ins.filter (tieJoins o)).map fun i => (o, i))

/-- `new_tied` of a row of `merged`: `pd.NA`, or the sum of the two values if either of them is `0`
(`add_new_tied_values`, `corpus_utils.py:496-499`; a null in either value gives a null). -/
def newTied : Option Int → Option Int → Option Int
  | some a, some b => if a = 0 ∨ b = 0 then some (b + a) else none
  | _, _ => none

/-- The values a tied out note gets from a row of `merged`: offset columns of the tied in note, the
sum of the durations, and `new_tied` (`corpus_utils.py:494-499` and 618-621). -/
def tieValues (o : TieNote) (p : TiePair) : TieNote :=
  { o with
    offMc := p.2.offMc, offBeat := p.2.offBeat, dur := p.1.dur + p.2.dur,
    tied := newTied p.1.tied p.2.tied }

/-- `frame.drop(indexes)`: a `KeyError` if some index is not in the frame
(`corpus_utils.py:477`, 661). -/
def dropKeys (frame : List TieNote) (ks : List (Int × Int)) : Py (List TieNote) :=
  if ks.all (fun k => decide (k ∈ frame.map TieNote.key)) then
    .ok (frame.filter fun n => decide (n.key ∉ ks))
  else .error .keyError

/-- `frame.loc[indexes]`: a `KeyError` if some index is not in the frame (`corpus_utils.py:476`,
749).  The rows come in the order of the frame; both uses look them up by a `set`. -/
def locKeys (frame : List TieNote) (ks : List (Int × Int)) : Py (List TieNote) :=
  if ks.all (fun k => decide (k ∈ frame.map TieNote.key)) then
    .ok (frame.filter fun n => decide (n.key ∈ ks))
  else .error .keyError

/-- `update_tied_out_notes` (`corpus_utils.py:604-621`): the rows named in `rows` get the new
values; a `KeyError` if one of them is not in the frame. -/
def updateTiedOut (outs : List TieNote) (rows : List TiePair) : Py (List TieNote) :=
  if rows.all (fun p => decide (p.1.key ∈ outs.map TieNote.key)) then
    .ok (outs.map fun o =>
      match rows.find? (fun p => decide (p.1.key = o.key)) with
      | none => o
      | some p => tieValues o p)
  else .error .keyError

/-- The frames `merge_ties` keeps up to date: `tied_out_notes`, `tied_in_notes` and the concatenation
of `finished_notes_dfs` (`corpus_utils.py:670-675`). -/
structure TieState where
  out : List TieNote
  inn : List TieNote
  fin : List TieNote
  deriving DecidableEq, Repr

/-- `remove_finished` (`corpus_utils.py:501-530`): move the rows of the mask from `tied_out_notes` to
the finished notes.  Indexes are dropped, so every row with the index of a finished row goes. -/
def removeFinished (st : TieState) (mask : TieNote → Bool) : TieState :=
  let finished := st.out.filter mask
  { st with
    out := st.out.filter fun o => decide (o.key ∉ finished.map TieNote.key)
    fin := st.fin ++ finished }

/-- `update_step` (`corpus_utils.py:623-663`) with the values and the tied in indexes both taken from
the rows of a merged frame, as in all three calls (708-714, 730-736, 764-770). -/
def updateStep (st : TieState) (rows : List TiePair) : Py TieState := do
  let out ← updateTiedOut st.out rows
  let st1 := removeFinished { st with out := out } (fun o => o.tied.isNone)
  let inn ← dropKeys st1.inn (rows.map fun p => p.2.key)
  return { st1 with inn := inn }

/-- `drop_duplicates(subset)`: keep the first row of every index (`corpus_utils.py:591`, 602). -/
def dropDups {α κ : Type} [DecidableEq κ] (f : α → κ) : List α → List α
  | [] => []
  | x :: xs => x :: (dropDups f xs).filter (fun y => decide (f y ≠ f x))

/-- `naive_duplicate_drop` (`corpus_utils.py:554-602`), without the logging. -/
def naiveDrop (rows : List TiePair) : List TiePair :=
  dropDups (fun p => p.2.key) (dropDups (fun p => p.1.key) rows)

/-- `single_match_both` of a row of `merged`: its tied out index and its tied in index both occur
once (`corpus_utils.py:698-705`). -/
def singleMatch (merged : List TiePair) (p : TiePair) : Bool :=
  merged.countP (fun q => decide (q.1.key = p.1.key)) == 1 &&
    merged.countP (fun q => decide (q.2.key = p.2.key)) == 1

/-- `repopulate_tied_out_notes` (`corpus_utils.py:440-479`), called when `tied_out_notes` is empty:
the tied in notes with `tied == 0` which merge with a tied in note, and with which none of those
merges, become tied out. -/
def repopulate (ord : List TiePair → List TiePair) (st : TieState) : Py TieState := do
  let merged := tieMerge ord (st.inn.filter fun n => n.tied == some 0) st.inn
  let toMove := (merged.map fun p => p.1.key).filter
    (fun k => decide (k ∉ merged.map fun p => p.2.key))
  let out ← locKeys st.inn toMove
  let inn ← dropKeys st.inn toMove
  return { st with out := out, inn := inn }

/-- The force-match of the doubly matched tied out notes that matching by staff and voice left
without a match (`corpus_utils.py:738-770`). -/
def forceStep (ord : List TiePair → List TiePair) (st : TieState) (need : List (Int × Int)) :
    Py TieState :=
  if need = [] then .ok st
  else do
    let outs ← locKeys st.out need
    let toForce := naiveDrop (tieMerge ord outs st.inn)
    if toForce = [] then .ok st else updateStep st toForce

/-- The matching of the doubly matched notes (`corpus_utils.py:716-770`). -/
def doublyStep (ord : List TiePair → List TiePair) (st : TieState) (doubly : List TiePair) :
    Py TieState :=
  if doubly = [] then .ok st
  else do
    let more := naiveDrop (doubly.filter fun p =>
      p.1.staff == p.2.staff && p.1.voice == p.2.voice)
    let st1 ← updateStep st more
    forceStep ord st1 ((doubly.map fun p => p.1.key).filter
      fun k => decide (k ∉ more.map fun p => p.1.key))

/-- `if len(tied_out_notes) == 0: repopulate` (`corpus_utils.py:677-678` and 773-774). -/
def refill (ord : List TiePair → List TiePair) (st : TieState) : Py TieState :=
  if st.out = [] then repopulate ord st else .ok st

/-- One round of the loop of `merge_ties` (`corpus_utils.py:681-774`). -/
def tieRound (ord : List TiePair → List TiePair) (st : TieState) : Py TieState := do
  let merged := tieMerge ord st.out st.inn
  let st1 := removeFinished st (fun o => decide (o.key ∉ merged.map fun p => p.1.key))
  let st2 ← updateStep st1 (merged.filter (singleMatch merged))
  let st3 ← doublyStep ord st2 (merged.filter fun p => !singleMatch merged p)
  refill ord st3

/-- The loop `while len(tied_out_notes) > 0` (`corpus_utils.py:680`); `diverges` if it takes more
rounds than `fuel`. -/
def tieLoop (ord : List TiePair → List TiePair) : Nat → TieState → Py TieState
  | 0, st => if st.out = [] then .ok st else .error .diverges
  | fuel + 1, st => if st.out = [] then .ok st else tieRound ord st >>= tieLoop ord fuel

/-- The mask of the notes that may change: tied and not a grace note
(`changing_notes_mask`, `corpus_utils.py:666`). -/
def tieChanging (n : TieNote) : Bool := !n.grace && n.tied.isSome

/-- Order of the index of the frame, for `sort_index`. -/
def keyLe (a b : TieNote) : Prop := toLex a.key ≤ toLex b.key

instance : DecidableRel keyLe := fun a b =>
  inferInstanceAs (Decidable (toLex a.key ≤ toLex b.key))

/-- `merge_ties` (`corpus_utils.py:389-802`), without the logging at the end (778-800).  The loop is
given a bound on its rounds that grows with the number of notes; `C94_merge` shows it is never
reached. -/
def mergeTies (ord : List TiePair → List TiePair) (fuel : Nat) (notes : List TieNote) :
    Py (List TieNote) := do
  let changing := notes.filter tieChanging
  let unchanging := notes.filter fun n => !tieChanging n
  let st ← refill ord
    { out := changing.filter fun n => n.tied == some 1
      inn := changing.filter fun n => n.tied == some 0 || n.tied == some (-1)
      fin := [] }
  let st' ← tieLoop ord fuel st
  return (unchanging ++ st'.inn ++ st'.fin).insertionSort keyLe

end Verif
