import Verif.Notes
import Verif.Datasets

/-!
# Dictionaries of pieces, and loading of pieces

Model of `to_dict` of notes, chords, keys and pieces (/repo/harmonic_inference/data/note.py, chord.py, key.py,
piece.py:527-578) and of `load_pieces` (/repo/harmonic_inference/utils/data_utils.py:65-197), with the lists of files
of create_h5_data.py:105-121.
-/

namespace Verif

/-- A value of a field. -/
inductive PyVal where
  | int (i : Int)
  | nat (n : Nat)
  | frac (q : ℚ)
  | pos (p : Int × ℚ)
  | mode (m : KeyMode)
  | chordType (t : ChordType)
  | pitchType (t : PitchType)
  | str (s : Option Str)
  deriving DecidableEq

/-- A dictionary of the fields of an object. -/
abbrev FieldDict := List (String × PyVal)

/-- `C(**d)`: an unknown keyword, or a missing one without a default, is a `TypeError`. -/
def checkKwargs (params optional : List String) (d : FieldDict) : Py Unit :=
  if (d.all (fun f => params.contains f.1)) && (params.all (fun p => optional.contains p || (d.lookup p).isSome))
  then .ok () else .error .typeError

/-- The value of a keyword. Python does not check its type; a value of another type does not
occur. -/
def kwInt (d : FieldDict) (k : String) : Py Int :=
  match d.lookup k with
  | some (.int i) => .ok i
  | _ => .error .typeError

/-- As `kwInt`. -/
def kwNat (d : FieldDict) (k : String) : Py Nat :=
  match d.lookup k with
  | some (.nat i) => .ok i
  | _ => .error .typeError

/-- As `kwInt`. -/
def kwFrac (d : FieldDict) (k : String) : Py ℚ :=
  match d.lookup k with
  | some (.frac i) => .ok i
  | _ => .error .typeError

/-- As `kwInt`. -/
def kwPos (d : FieldDict) (k : String) : Py (Int × ℚ) :=
  match d.lookup k with
  | some (.pos i) => .ok i
  | _ => .error .typeError

/-- As `kwInt`. -/
def kwMode (d : FieldDict) (k : String) : Py KeyMode :=
  match d.lookup k with
  | some (.mode i) => .ok i
  | _ => .error .typeError

/-- As `kwInt`. -/
def kwChordType (d : FieldDict) (k : String) : Py ChordType :=
  match d.lookup k with
  | some (.chordType i) => .ok i
  | _ => .error .typeError

/-- As `kwInt`. -/
def kwPitchType (d : FieldDict) (k : String) : Py PitchType :=
  match d.lookup k with
  | some (.pitchType i) => .ok i
  | _ => .error .typeError

/-- note.py:25-36: the parameters of `Note.__init__`. -/
def noteParams : List String :=
  ["pitch_class", "octave", "onset", "onset_level", "duration", "offset", "offset_level", "pitch_type", "mc_onset"]

/-- note.py:304-314 `Note.to_dict`. -/
def NoteObj.toDict (n : NoteObj) : FieldDict :=
  [("pitch_class", .int n.pitchClass), ("octave", .int n.octave), ("onset", .pos n.onset),
   ("onset_level", .nat n.onsetLevel), ("duration", .frac n.duration), ("offset", .pos n.offset),
   ("offset_level", .nat n.offsetLevel), ("pitch_type", .pitchType n.pitchType), ("mc_onset", .frac n.mcOnset)]

/-- piece.py:571: `Note(**note)`. -/
def noteOfDict (d : FieldDict) : Py NoteObj := do
  let _ ← checkKwargs noteParams ["mc_onset"] d
  let pc ← kwInt d "pitch_class"
  let oc ← kwInt d "octave"
  let on ← kwPos d "onset"
  let onl ← kwNat d "onset_level"
  let du ← kwFrac d "duration"
  let off ← kwPos d "offset"
  let offl ← kwNat d "offset_level"
  let pt ← kwPitchType d "pitch_type"
  .ok (mkNote pc oc on onl du off offl pt (orNone (kwFrac d "mc_onset")))

/-- chord.py:41-55: the parameters of `Chord.__init__`. -/
def chordParams : List String :=
  ["root", "bass", "key_tonic", "key_mode", "chord_type", "inversion", "onset", "onset_level", "offset",
   "offset_level", "duration", "pitch_type", "suspension"]

/-- chord.py:377-387 `Chord.to_dict`. -/
def SeriesChord.toDict (c : SeriesChord) : FieldDict :=
  [("root", .int c.chord.root), ("bass", .int c.chord.bass), ("key_tonic", .int c.chord.keyTonic),
   ("key_mode", .mode c.chord.keyMode), ("chord_type", .chordType c.chord.chordType),
   ("inversion", .int c.chord.inversion), ("onset", .pos c.onset), ("onset_level", .int c.chord.onsetLevel),
   ("offset", .pos c.offset), ("offset_level", .int c.chord.offsetLevel), ("duration", .frac c.chord.duration),
   ("pitch_type", .pitchType c.chord.pitchType), ("suspension", .str c.suspension)]

/-- chord.py:54: the default of `suspension` is None. -/
def kwSuspension (d : FieldDict) : Option Str :=
  match d.lookup "suspension" with
  | some (.str s) => s
  | _ => none

/-- piece.py:572: `Chord(**chord)`. -/
def chordOfDict (d : FieldDict) : Py SeriesChord := do
  let _ ← checkKwargs chordParams ["suspension"] d
  let root ← kwInt d "root"
  let bass ← kwInt d "bass"
  let kt ← kwInt d "key_tonic"
  let km ← kwMode d "key_mode"
  let ct ← kwChordType d "chord_type"
  let inv ← kwInt d "inversion"
  let on ← kwPos d "onset"
  let onl ← kwInt d "onset_level"
  let off ← kwPos d "offset"
  let offl ← kwInt d "offset_level"
  let du ← kwFrac d "duration"
  let pt ← kwPitchType d "pitch_type"
  .ok ⟨⟨root, bass, kt, km, ct, inv, onl, offl, du, pt⟩, on, off, kwSuspension d⟩

/-- key.py:31-40: the parameters of `Key.__init__`. -/
def keyParams : List String :=
  ["relative_tonic", "local_tonic", "global_tonic", "relative_mode", "local_mode", "global_mode", "tonic_type"]

/-- key.py:262-272 `Key.to_dict`. -/
def Key.toDict (k : Key) : FieldDict :=
  [("relative_tonic", .int k.relativeTonic), ("local_tonic", .int k.localTonic),
   ("global_tonic", .int k.globalTonic), ("relative_mode", .mode k.relativeMode),
   ("local_mode", .mode k.localMode), ("global_mode", .mode k.globalMode), ("tonic_type", .pitchType k.tonicType)]

/-- piece.py:573: `Key(**key)`. -/
def keyOfDict (d : FieldDict) : Py Key := do
  let _ ← checkKwargs keyParams [] d
  let rt ← kwInt d "relative_tonic"
  let lt ← kwInt d "local_tonic"
  let gt ← kwInt d "global_tonic"
  let rm ← kwMode d "relative_mode"
  let lm ← kwMode d "local_mode"
  let gm ← kwMode d "global_mode"
  let tt ← kwPitchType d "tonic_type"
  .ok ⟨rt, lt, gt, rm, lm, gm, tt⟩

/-- piece.py:372-448: a `ScorePiece`; `μ` is the type of its table of measures. A piece without annotations has
None for its chords and everything after them. -/
structure PieceObj (μ : Type) where
  measures : μ
  notes : List NoteObj
  chords : Option (List SeriesChord)
  keys : Option (List Key)
  chordChanges : Option (List Int)
  chordRanges : Option (List (Int × Int))
  keyChanges : Option (List Int)
  deriving DecidableEq

/-- The dictionary of a piece. -/
structure PieceDict where
  notes : List FieldDict
  chords : List FieldDict
  keys : List FieldDict
  chordChanges : Option (List Int)
  chordRanges : Option (List (Int × Int))
  keyChanges : Option (List Int)
  deriving DecidableEq

/-- A loop over a list or None: None is a `TypeError`. -/
def iterate {α : Type} : Option (List α) → Py (List α)
  | some l => .ok l
  | none => .error .typeError

/-- piece.py:527-544 `ScorePiece.to_dict`. -/
def PieceObj.toDict {μ : Type} (p : PieceObj μ) : Py PieceDict := do
  let chords ← iterate p.chords
  let keys ← iterate p.keys
  .ok ⟨p.notes.map NoteObj.toDict, chords.map SeriesChord.toDict, keys.map Key.toDict, p.chordChanges,
    p.chordRanges, p.keyChanges⟩

/-- piece.py:547-578 `get_score_piece_from_dict`. -/
def pieceOfDict {μ : Type} (measures : μ) (d : PieceDict) : Py (PieceObj μ) := do
  let notes ← d.notes.mapM noteOfDict
  let chords ← d.chords.mapM chordOfDict
  let keys ← d.keys.mapM keyOfDict
  .ok ⟨measures, notes, some chords, some keys, d.chordChanges, d.chordRanges, d.keyChanges⟩

/-! ## Loading -/

/-- The argument `piece_dicts_path`: none, a file that does not exist, or a file with these dictionaries. -/
inductive DictsArg (δ : Type) where
  | none
  | missing
  | found (ds : List δ)

/-- data_utils.py:128-138: `piece_dicts`. If the file does not exist, the variable is never set, and its first use
is an `UnboundLocalError`. `count` is the number of pieces without a path. -/
def pieceDicts {δ : Type} (count : Nat) : DictsArg δ → Py (List (Option δ))
  | .none => .ok (List.replicate count Option.none)
  | .missing => .error .nameError
  | .found ds => .ok (ds.map some)

/-- data_utils.py:125-126: `if not file_ids`. -/
def idsOr {ι : Type} (all : List ι) : Option (List ι) → List ι
  | some (i :: is) => i :: is
  | _ => all

/-- data_utils.py:141-147: only one file. -/
def onlyId {ι δ : Type} [DecidableEq ι] (ids : List ι) (dicts : List (Option δ)) :
    Option ι → Py (List ι × List (Option δ))
  | none => .ok (ids, dicts)
  | some i =>
    if i ∈ ids then do
      let d ← pyGet dicts (ids.idxOf i : Nat)
      .ok ([i], [d])
    else .error .valueError

/-- data_utils.py:121-123, 125-147 and 172-195: `load_pieces` from tables. `all` is the index of `files_df`. The
parts of a piece are looked up by its id: `parse` is `get_score_piece_from_data_frames` of its rows, `measures` its
rows of `measures_df`. The result has the id, which begins the name of the piece. -/
def loadFromTables {ι μ : Type} [DecidableEq ι] (all : List ι) (parse : ι → Py (PieceObj μ)) (measures : ι → Py μ)
    (fileIds : Option (List ι)) (arg : DictsArg PieceDict) (specific : Option ι) : Py (List (ι × PieceObj μ)) := do
  let ids := idsOr all fileIds
  let dicts ← pieceDicts ids.length arg
  let (ids, dicts) ← onlyId ids dicts specific
  (ids.zip dicts).mapM fun x =>
    match x.2 with
    | none => do
      let p ← parse x.1
      .ok (x.1, p)
    | some d => do
      let m ← measures x.1
      let p ← pieceOfDict m d
      .ok (x.1, p)

/-- A score found by `sorted(glob(...))`, and whether its label file exists. -/
structure ScoreFile where
  name : Str
  labelled : Bool
  deriving DecidableEq

/-- create_h5_data.py:108-119: the scores with labels. -/
def labelledScores (files : List ScoreFile) : List Str := (files.filter (·.labelled)).map (·.name)

/-- data_utils.py:107-119: all scores; the labels of those that have some. A label file is called as its
score is. -/
def listScores (files : List ScoreFile) : List Str × List Str :=
  (files.map (·.name), (files.filter (·.labelled)).map (·.name))

/-- data_utils.py:97-119 and 125-171: `load_pieces` from the scores of a directory, given the lists `xmls` and
`csvs`. `parse` is `get_score_piece_from_music_xml` of a score and a label file, `measures` is
`get_measures_df_from_music21_score` of a score. -/
def loadFromScores {μ : Type} (xmls : List Str) (csvs : List (Option Str))
    (parse : Str → Option Str → Py (PieceObj μ)) (measures : Str → Py μ)
    (fileIds : Option (List Int)) (arg : DictsArg PieceDict) (specific : Option Int) :
    Py (List (Int × Str × PieceObj μ)) := do
  let ids := idsOr ((List.range xmls.length).map (fun (i : Nat) => (i : Int))) fileIds
  let dicts ← pieceDicts xmls.length arg
  let (ids, dicts) ← onlyId ids dicts specific
  (ids.zip dicts).mapM fun x => do
    let xml ← pyGet xmls x.1
    match x.2 with
    | none => do
      let csv ← pyGet csvs x.1
      let p ← parse xml csv
      .ok (x.1, xml, p)
    | some d => do
      let m ← measures xml
      let p ← pieceOfDict m d
      .ok (x.1, xml, p)

/-- data_utils.py:97-119: a directory. -/
def loadDirectory {μ : Type} (files : List ScoreFile) (parse : Str → Option Str → Py (PieceObj μ))
    (measures : Str → Py μ) (fileIds : Option (List Int)) (arg : DictsArg PieceDict) (specific : Option Int) :
    Py (List (Int × Str × PieceObj μ)) :=
  loadFromScores (listScores files).1 ((listScores files).2.map some) parse measures fileIds arg specific

/-- data_utils.py:100-103: a single file. -/
def loadFile {μ : Type} (file : Str) (parse : Str → Option Str → Py (PieceObj μ)) (measures : Str → Py μ)
    (fileIds : Option (List Int)) (arg : DictsArg PieceDict) (specific : Option Int) :
    Py (List (Int × Str × PieceObj μ)) :=
  loadFromScores [file] [none] parse measures fileIds arg specific

end Verif
