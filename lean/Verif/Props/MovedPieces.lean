import Verif.TablePiece
import Verif.ChordTraining
import Verif.PitchTraining
import Verif.KeyTraining
import Verif.Props.Renumber
import Verif.Lemmas.Search

/-!
# Pieces in other keys (C155)

The chord sequence and key models see chords relative to their keys. What they learn from a piece does not depend on
the key it is written in.
-/

namespace Verif.MovedPieces

open Verif Renumber SearchData

/-- A chord some fifths higher, with its key. -/
def moveChord (k : Int) (c : Chord ℚ) : Chord ℚ :=
  { c with root := c.root + k, bass := c.bass + k, keyTonic := c.keyTonic + k }

def moveKey (k : Int) (x : Key) : Key :=
  { x with relativeTonic := x.relativeTonic + k, localTonic := x.localTonic + k, globalTonic := x.globalTonic + k }

/-- The chords and keys of a piece some fifths higher. -/
def movePiece (k : Int) (x : KeyedPiece) : KeyedPiece :=
  ⟨x.chords.map (moveChord k), x.keyChanges, x.keys.map (moveKey k)⟩

variable {k : Int}

/-! ## Rows and targets -/

theorem absoluteToRelative_move (p t : Int) (pt : PitchType) (a b : Bool) :
    absoluteToRelative (p + k) (t + k) pt a b = absoluteToRelative p t pt a b := by
  cases pt with
  | midi =>
    simp only [absoluteToRelative, transposePitch]
    rw [show p + k + -(t + k) = p + -t by omega]
  | tpc =>
    simp only [absoluteToRelative]
    rw [show p + k - (t + k) = p - t by omega]

theorem toVec_move (c : Chord ℚ) (x : Option Key) (pad : Bool) (red : Reduction) :
    (moveChord k c).toVec (x.map (moveKey k)) pad red = c.toVec x pad red := by
  cases x <;>
    (simp only [Chord.toVec, Chord.tonicFor, Chord.modeFor, moveChord, moveKey, Option.map_none, Option.map_some,
      absoluteToRelative_move]; rfl)

theorem changeVector_move (x y : Key) : (moveKey k x).changeVector (moveKey k y) = x.changeVector y := by
  simp only [Key.changeVector, moveKey, absoluteToRelative_move]

theorem changeOneHot_move (x y : Key) : (moveKey k x).changeOneHot (moveKey k y) = x.changeOneHot y := by
  simp only [Key.changeOneHot, moveKey, absoluteToRelative_move]

def moveSegment (k : Int) (s : KeySegment) : KeySegment :=
  { s with prev := s.prev.map (moveKey k), key := moveKey k s.key }

theorem sequenceRow_move (c : Chord ℚ) (tt : PitchType) (change : Option (Key × Key)) (pad : Bool) :
    sequenceRow (moveChord k c) tt (change.map fun x => (moveKey k x.1, moveKey k x.2)) pad =
      sequenceRow c tt change pad := by
  have h := toVec_move (k := k) c none pad noReduction
  rw [Option.map_none] at h
  cases change with
  | none => simp only [sequenceRow, Option.map_none, h]
  | some x => simp only [sequenceRow, Option.map_some, h, changeVector_move]

theorem rows_move (s : KeySegment) (chords : List (Chord ℚ)) (tt : PitchType) (pad : Bool) :
    (moveSegment k s).rows (chords.map (moveChord k)) tt pad = s.rows chords tt pad := by
  have hs : slice (chords.map (moveChord k)) s.start s.stop = (slice chords s.start s.stop).map (moveChord k) := by
    simp only [slice, List.map_take, List.map_drop]
  have hc : ∀ j, (moveSegment k s).changeAt j = (s.changeAt j).map fun x => (moveKey k x.1, moveKey k x.2) := by
    intro j
    simp only [KeySegment.changeAt, moveSegment]
    split
    · cases s.prev <;> rfl
    · rfl
  simp only [KeySegment.rows, show (moveSegment k s).start = s.start from rfl,
    show (moveSegment k s).stop = s.stop from rfl, hs, List.isEmpty_map, List.zipIdx_map, hc]
  split
  · rfl
  · exact mapM_shift _ _ _ (fun x => sequenceRow_move (k := k) x.1 tt (s.changeAt x.2) pad) _

theorem replacement_move (s : KeySegment) (chords : List (Chord ℚ)) (tt : PitchType) :
    (moveSegment k s).replacement (chords.map (moveChord k)) tt = s.replacement chords tt := by
  simp only [KeySegment.replacement, show (moveSegment k s).stop = s.stop from rfl,
    show (moveSegment k s).key = moveKey k s.key from rfl, pyGet_map]
  cases pyGet chords s.stop with
  | error e => rfl
  | ok c =>
    simp only [Except.map, Bind.bind, Except.bind]
    have h := toVec_move (k := k) c (some s.key) true noReduction
    rw [Option.map_some] at h
    rw [h]

theorem keySegments_move (prevs : List (Option Key)) (keys : List Key) (a b : List Nat) :
    keySegments (prevs.map (Option.map (moveKey k))) (keys.map (moveKey k)) a b =
      (keySegments prevs keys a b).map (moveSegment k) := by
  simp only [keySegments]
  rw [List.zip_map, List.zip_map_left, List.zip_map_left, List.map_map, List.map_map]
  rfl

theorem prevs_move (keys : List Key) :
    (none :: (keys.map (moveKey k)).map some) = ((none :: keys.map some).map (Option.map (moveKey k))) := by
  simp only [List.map_cons, List.map_map, Option.map_none]
  rfl

theorem oneHotIndex_move (c : Chord ℚ) (useInv pad : Bool) (red : Reduction) :
    (moveChord k c).oneHotIndex true useInv pad red = c.oneHotIndex true useInv pad red := by
  simp only [Chord.oneHotIndex, moveChord, absoluteToRelative_move, ↓reduceIte]

theorem chordPiece_move (x : KeyedPiece) : chordPiece (movePiece k x) = chordPiece x := by
  have hs : keySegments (none :: (movePiece k x).keys.dropLast.map some) (movePiece k x).keys (movePiece k x).keyChanges
        ((movePiece k x).keyChanges.drop 1 ++ [(movePiece k x).chords.length]) =
      (keySegments (none :: x.keys.dropLast.map some) x.keys x.keyChanges
        (x.keyChanges.drop 1 ++ [x.chords.length])).map (moveSegment k) := by
    simp only [movePiece, List.length_map, ← List.map_dropLast]
    rw [prevs_move, keySegments_move]
  simp only [chordPiece, hs]
  simp only [movePiece, pyGet_map]
  cases pyGet x.keys 0 with
  | error e => rfl
  | ok first =>
    simp only [Except.map, Bind.bind, Except.bind]
    rw [mapM_shift _ (moveSegment k) _ (fun s => rows_move s x.chords _ false),
      mapM_shift _ (moveChord k) _ (fun c => oneHotIndex_move c true false noReduction)]
    rfl

/-- C155: the chord sequence model, pitch-based or not, is trained on the same data if each piece is written in another
key. -/
theorem C155_chords (l : List (Int × KeyedPiece)) :
    chordSeqData (l.map fun x => movePiece x.1 x.2) = chordSeqData (l.map Prod.snd) := by
  have hp : ∀ o, (l.map fun x => movePiece x.1 x.2).foldl nextPitchType o = (l.map Prod.snd).foldl nextPitchType o := by
    induction l with
    | nil => intro o; rfl
    | cons x l ih =>
      intro o
      simp only [List.map_cons, List.foldl_cons]
      have : nextPitchType o (movePiece x.1 x.2) = nextPitchType o x.2 := by
        simp only [nextPitchType, movePiece]
        cases x.2.chords <;> rfl
      rw [this]
      exact ih _
  simp only [chordSeqData, hp]
  rw [mapM_shift _ Prod.snd _ (fun x => rfl), mapM_shift _ (fun x : Int × KeyedPiece => movePiece x.1 x.2) _
    (fun x => chordPiece_move x.2)]

/-- C155: so is the key transition model … -/
theorem C155_transitions (x : KeyedPiece) : transitionPiece (movePiece k x) = transitionPiece x := by
  have hs : keySegments (none :: (movePiece k x).keys.dropLast.map some) (movePiece k x).keys (movePiece k x).keyChanges
        ((movePiece k x).keyChanges.drop 1 ++ [(movePiece k x).chords.length]) =
      (keySegments (none :: x.keys.dropLast.map some) x.keys x.keyChanges
        (x.keyChanges.drop 1 ++ [x.chords.length])).map (moveSegment k) := by
    simp only [movePiece, List.length_map, ← List.map_dropLast]
    rw [prevs_move, keySegments_move]
  have hr : ∀ (s : KeySegment) tt rows, (moveSegment k s).replacementOrZeros (x.chords.map (moveChord k)) tt rows =
      s.replacementOrZeros x.chords tt rows := by
    intro s tt rows
    simp only [KeySegment.replacementOrZeros, replacement_move, List.length_map]
    rfl
  simp only [transitionPiece, hs]
  simp only [movePiece, pyGet_map]
  cases pyGet x.keys 0 with
  | error e => rfl
  | ok first =>
    simp only [Except.map, Bind.bind, Except.bind]
    rw [mapM_shift _ (moveSegment k) _ (fun s => rows_move s x.chords _ true)]
    simp only [show (moveKey k first).tonicType = first.tonicType from rfl]
    generalize List.mapM (fun s : KeySegment => s.rows x.chords first.tonicType true) _ = rows
    cases rows with
    | error e => rfl
    | ok rows =>
      simp only
      rw [List.zip_map_left, mapM_shift _ (Prod.map (moveSegment k) id) _ (fun s => hr s.1 _ s.2)]
      simp only [List.length_map]

/-- C155: … and the key sequence model. -/
theorem C155_sequences (x : KeyedPiece) : sequencePiece (movePiece k x) = sequencePiece x := by
  have hs : keySegments (none :: (movePiece k x).keys.dropLast.dropLast.map some) (movePiece k x).keys.dropLast
        (movePiece k x).keyChanges.dropLast ((movePiece k x).keyChanges.drop 1) =
      (keySegments (none :: x.keys.dropLast.dropLast.map some) x.keys.dropLast x.keyChanges.dropLast
        (x.keyChanges.drop 1)).map (moveSegment k) := by
    simp only [movePiece, ← List.map_dropLast]
    rw [prevs_move, keySegments_move]
  simp only [sequencePiece, hs]
  simp only [movePiece, pyGet_map, List.length_map]
  cases pyGet x.keys 0 with
  | error e => rfl
  | ok first =>
    simp only [Except.map, Bind.bind, Except.bind]
    rw [mapM_shift _ (moveSegment k) _ (fun s => rows_move s x.chords _ true),
      mapM_shift _ (moveSegment k) _ (fun s => replacement_move s x.chords _), ← List.map_drop, List.zip_map,
      mapM_shift _ (Prod.map (moveKey k) (moveKey k)) _ (fun s => changeOneHot_move s.1 s.2)]
    rfl

/-! ## Tables -/

/-- A row of the notes some fifths and semitones higher. -/
def moveNoteRow (k m : Int) (r : NoteRow) : NoteRow := { r with tpc := r.tpc + k, midi := r.midi + m }

/-- A row of the chords with another name for its global key. -/
def renameRow (ren : Str → Str) (r : PieceRow) : PieceRow :=
  { r with row := { r.row with key := { r.row.key with globalkey := ren r.row.key.globalkey } } }

/-- `ren` gives the names of the global keys `k` fifths higher, and the keys and chords of the rows stay in the range of
pitches. -/
structure Renames (k : Int) (ren : Str → Str) (red : Reduction) (useInv : Bool) (rows : List PieceRow) : Prop where
  pitch : ∀ r ∈ rows, ∃ t, pitchFromString r.row.key.globalkey .tpc = .ok t ∧
    pitchFromString (ren r.row.key.globalkey) .tpc = .ok (t + k)
  injective : ∀ r ∈ rows, ∀ r' ∈ rows, ren r.row.key.globalkey = ren r'.row.key.globalkey →
    r.row.key.globalkey = r'.row.key.globalkey
  inRange : ∀ r ∈ rows, (∃ h, seriesHarmony r.row .tpc red useInv = .ok h) ↔
    ∃ h, seriesHarmony (renameRow ren r).row .tpc red useInv = .ok h

theorem transposePitch_move {p i q q' : Int} (h : transposePitch p i .tpc = .ok q)
    (h' : transposePitch (p + k) i .tpc = .ok q') : q' = q + k := by
  simp only [transposePitch] at h h'
  split at h
  · cases h
  · split at h'
    · cases h'
    · injection h with h; injection h' with h'; omega

theorem decodeRelativeLoop_move {rs : List Str} {t : Int} {m : KeyMode} {a b : Int × KeyMode}
    (h : decodeRelativeLoop .tpc rs t m = .ok a) (h' : decodeRelativeLoop .tpc rs (t + k) m = .ok b) :
    b = (a.1 + k, a.2) := by
  induction rs generalizing t m with
  | nil =>
    injection h with h; injection h' with h'
    subst h; subst h'; rfl
  | cons r rs ih =>
    simp only [decodeRelativeLoop, Bind.bind] at h h'
    obtain ⟨iv, hiv, h⟩ := bind_ok h
    rw [hiv] at h'
    obtain ⟨q, hq, h⟩ := bind_ok h
    simp only [Except.bind] at h'
    obtain ⟨q', hq', h'⟩ := bind_ok h'
    rw [transposePitch_move hq hq'] at h'
    exact ih h h'

theorem keyOfRow_move {r : KeyRow} {g : Str} {t : Int} {x y : Key} (hg : pitchFromString r.globalkey .tpc = .ok t)
    (hg' : pitchFromString g .tpc = .ok (t + k)) (h : keyOfRow r .tpc = .ok x)
    (h' : keyOfRow { r with globalkey := g } .tpc = .ok y) : y = moveKey k x := by
  simp only [keyOfRow, Bind.bind, hg, hg', Except.bind] at h h'
  obtain ⟨a, ha, h⟩ := bind_ok h
  obtain ⟨b, hb, h'⟩ := bind_ok h'
  have e := decodeRelativeLoop_move ha hb
  subst e
  simp only at h h'
  cases hr : r.relativeroot with
  | none =>
    rw [hr] at h h'
    injection h with h; injection h' with h'
    subst h; subst h'; rfl
  | some rr =>
    rw [hr] at h h'
    simp only at h h'
    obtain ⟨c, hc, h⟩ := bind_ok h
    obtain ⟨d, hd, h'⟩ := bind_ok h'
    have e := decodeRelativeLoop_move hc hd
    subst e
    injection h with h; injection h' with h'
    subst h; subst h'; rfl

def moveHarmony (k : Int) (h : SeriesHarmony) : SeriesHarmony :=
  { h with key := moveKey k h.key, root := h.root + k, bass := h.bass + k }

theorem seriesHarmony_move {r : PieceRow} {ren : Str → Str} {red : Reduction} {useInv : Bool} {t : Int}
    {x y : SeriesHarmony} (hg : pitchFromString r.row.key.globalkey .tpc = .ok t)
    (hg' : pitchFromString (ren r.row.key.globalkey) .tpc = .ok (t + k))
    (h : seriesHarmony r.row .tpc red useInv = .ok x)
    (h' : seriesHarmony (renameRow ren r).row .tpc red useInv = .ok y) : y = moveHarmony k x := by
  simp only [seriesHarmony] at h h'
  cases hk : keyFromSeries r.row.key .tpc with
  | none => rw [hk] at h; cases h
  | some key =>
    cases hk' : keyFromSeries (renameRow ren r).row.key .tpc with
    | none => rw [hk'] at h'; cases h'
    | some key' =>
      have some_ok : ∀ {x : Py Key} {y : Key}, orNone x = some y → x = .ok y := by
        intro x y h
        cases x with
        | error e => cases h
        | ok x => injection h with h; rw [h]
      have e := keyOfRow_move hg hg' (some_ok hk) (some_ok hk')
      subst e
      rw [hk] at h
      rw [hk'] at h'
      simp only [Bind.bind] at h h'
      obtain ⟨root, hroot, h⟩ := bind_ok h
      obtain ⟨root', hroot', h'⟩ := bind_ok h'
      have e := transposePitch_move hroot hroot'
      subst e
      obtain ⟨ct, hct, h⟩ := bind_ok h
      obtain ⟨ct', hct', h'⟩ := bind_ok h'
      have e : (.ok ct : Py ChordType) = .ok ct' := hct.symm.trans hct'
      injection e with e
      subst e
      obtain ⟨inv, hinv, h⟩ := bind_ok h
      obtain ⟨inv', hinv', h'⟩ := bind_ok h'
      have e : (.ok inv : Py Int) = .ok inv' := hinv.symm.trans hinv'
      injection e with e
      subst e
      obtain ⟨bass, hbass, h⟩ := bind_ok h
      obtain ⟨bass', hbass', h'⟩ := bind_ok h'
      obtain ⟨u, -, h⟩ := bind_ok h
      obtain ⟨u', -, h'⟩ := bind_ok h'
      have e : bass' = bass + k := by
        simp only [bassNote, Bind.bind] at hbass hbass'
        obtain ⟨p, hp, hbass⟩ := bind_ok hbass
        rw [hp] at hbass'
        simp only [Except.bind, transposePitch] at hbass hbass'
        split at hbass
        · cases hbass
        · split at hbass'
          · cases hbass'
          · injection hbass with h1; injection hbass' with h2; omega
      subst e
      injection h with h; injection h' with h'
      subst h; subst h'; rfl

def moveSeries (k : Int) (c : SeriesChord) : SeriesChord := { c with chord := moveChord k c.chord }

theorem chordFromSeries_move {r : PieceRow} {ren : Str → Str} {red : Reduction} {useInv : Bool} {t : Int}
    (T : List MeterRow) (useRel : Bool) (cache : Option LevelCache)
    (hg : pitchFromString r.row.key.globalkey .tpc = .ok t)
    (hg' : pitchFromString (ren r.row.key.globalkey) .tpc = .ok (t + k))
    (hr : (∃ h, seriesHarmony r.row .tpc red useInv = .ok h) ↔
      ∃ h, seriesHarmony (renameRow ren r).row .tpc red useInv = .ok h) :
    chordFromSeries T .tpc red useInv useRel cache (renameRow ren r).row =
      ((chordFromSeries T .tpc red useInv useRel cache r.row).1.map (moveSeries k),
        (chordFromSeries T .tpc red useInv useRel cache r.row).2) := by
  simp only [chordFromSeries, show (renameRow ren r).row.numeral = r.row.numeral from rfl]
  split
  · rfl
  · cases h : seriesHarmony r.row .tpc red useInv with
    | error e =>
      cases h' : seriesHarmony (renameRow ren r).row .tpc red useInv with
      | error e => rfl
      | ok y =>
        obtain ⟨x, hx⟩ := hr.mpr ⟨y, h'⟩
        rw [h] at hx; cases hx
    | ok x =>
      obtain ⟨y, h'⟩ := hr.mp ⟨x, h⟩
      have e := seriesHarmony_move hg hg' h h'
      subst e
      rw [h']
      simp only [seriesLevels, show (renameRow ren r).row.mc = r.row.mc from rfl,
        show (renameRow ren r).row.onset = r.row.onset from rfl,
        show (renameRow ren r).row.mcNext = r.row.mcNext from rfl,
        show (renameRow ren r).row.onsetNext = r.row.onsetNext from rfl]
      rcases levelAt T cache r.row.mc r.row.onset with ⟨_ | l1, cache'⟩
      · rfl
      · simp only
        rcases levelAt T cache' r.row.mcNext r.row.onsetNext with ⟨_ | l2, cache''⟩
        · rfl
        · cases useRel <;> rfl

theorem Renames.tail {ren : Str → Str} {red : Reduction} {useInv : Bool} {r : PieceRow} {rows : List PieceRow}
    (h : Renames k ren red useInv (r :: rows)) : Renames k ren red useInv rows :=
  ⟨fun r hr => h.pitch r (List.mem_cons_of_mem _ hr), fun r hr r' hr' =>
    h.injective r (List.mem_cons_of_mem _ hr) r' (List.mem_cons_of_mem _ hr'), fun r hr =>
    h.inRange r (List.mem_cons_of_mem _ hr)⟩

theorem chordsFromTable_move {ren : Str → Str} {red : Reduction} {useInv : Bool} (T : List MeterRow) (useRel : Bool)
    (cache : Option LevelCache) {rows : List PieceRow} (h : Renames k ren red useInv rows) :
    chordsFromTable T .tpc red useInv useRel cache ((rows.map (renameRow ren)).map (·.row)) =
      ((chordsFromTable T .tpc red useInv useRel cache (rows.map (·.row))).1.map (Option.map (moveSeries k)),
        (chordsFromTable T .tpc red useInv useRel cache (rows.map (·.row))).2) := by
  induction rows generalizing cache with
  | nil => rfl
  | cons r rows ih =>
    obtain ⟨t, hg, hg'⟩ := h.pitch r List.mem_cons_self
    have := chordFromSeries_move (k := k) T useRel cache hg hg' (h.inRange r List.mem_cons_self)
    simp only [List.map_cons, chordsFromTable, this, ih _ h.tail]

theorem readChords_move {ren : Str → Str} {red : Reduction} {useInv : Bool} (T : List MeterRow) (useRel : Bool)
    (cache : Option LevelCache) {rows : List PieceRow} (h : Renames k ren red useInv rows) :
    readChords T red useInv useRel cache (rows.map (renameRow ren)) =
      (readChords T red useInv useRel cache rows).map fun x => (moveSeries k x.1, renameRow ren x.2) := by
  simp only [readChords, chordsFromTable_move T useRel cache h]
  rw [List.zip_map, List.filterMap_map, List.map_filterMap]
  congr 1
  funext x
  rcases x with ⟨_ | n, i⟩ <;> rfl

theorem seriesMerge_move (acc : List SeriesChord) (l : List (SeriesChord × Bool)) :
    seriesMerge (acc.map (moveSeries k)) (l.map fun x => (moveSeries k x.1, x.2)) =
      (seriesMerge acc l).map (List.map (moveSeries k)) := by
  induction l generalizing acc with
  | nil => simp [seriesMerge, Except.map]
  | cons x l ih =>
    obtain ⟨c, b⟩ := x
    cases b with
    | true => exact ih (c :: acc)
    | false =>
      cases acc with
      | nil => rfl
      | cons a acc => exact ih (a.mergeWith c :: acc)

theorem isRepeated_move (useInv useSus : Bool) (c d : SeriesChord) :
    SeriesChord.isRepeated useInv useSus (moveSeries k c) (moveSeries k d) =
      SeriesChord.isRepeated useInv useSus c d := by
  simp [SeriesChord.isRepeated, moveSeries, moveChord]; rfl

theorem equals_move (useRel : Bool) (x y : Key) : Key.equals useRel (moveKey k x) (moveKey k y) =
    Key.equals useRel x y := by
  simp [Key.equals, moveKey]; rfl

theorem orNone_some {α : Type} {x : Py α} {y : α} (h : orNone x = some y) : x = .ok y := by
  cases x with
  | error e => cases h
  | ok x => injection h with h; rw [h]

/-- The key of a row whose chord is read is moved. -/
theorem keyFromSeries_move {r : PieceRow} {ren : Str → Str} {red : Reduction} {useInv : Bool} {t : Int}
    (hg : pitchFromString r.row.key.globalkey .tpc = .ok t)
    (hg' : pitchFromString (ren r.row.key.globalkey) .tpc = .ok (t + k))
    (h : ∃ h, seriesHarmony r.row .tpc red useInv = .ok h)
    (h' : ∃ h, seriesHarmony (renameRow ren r).row .tpc red useInv = .ok h) :
    keyFromSeries (renameRow ren r).row.key .tpc = (keyFromSeries r.row.key .tpc).map (moveKey k) := by
  obtain ⟨x, h⟩ := h
  obtain ⟨y, h'⟩ := h'
  simp only [seriesHarmony] at h h'
  cases hk : keyFromSeries r.row.key .tpc with
  | none => rw [hk] at h; cases h
  | some key =>
    cases hk' : keyFromSeries (renameRow ren r).row.key .tpc with
    | none => rw [hk'] at h'; cases h'
    | some key' =>
      have e := keyOfRow_move hg hg' (orNone_some hk) (orNone_some hk')
      rw [e]; rfl

theorem readChords_ok {red : Reduction} {useInv : Bool} {T : List MeterRow} {useRel : Bool}
    {cache : Option LevelCache} {rows : List PieceRow} {x : SeriesChord × PieceRow}
    (h : x ∈ readChords T red useInv useRel cache rows) :
    x.2 ∈ rows ∧ ∃ y, seriesHarmony x.2.row .tpc red useInv = .ok y := by
  induction rows generalizing cache with
  | nil => simp [readChords, chordsFromTable] at h
  | cons r rows ih =>
    simp only [readChords, List.map_cons, chordsFromTable, List.zip_cons_cons, List.filterMap_cons] at h
    have rest : x ∈ readChords T red useInv useRel (chordFromSeries T .tpc red useInv useRel cache r.row).2 rows →
        x.2 ∈ r :: rows ∧ ∃ y, seriesHarmony x.2.row .tpc red useInv = .ok y := fun h =>
      ⟨List.mem_cons_of_mem _ (ih h).1, (ih h).2⟩
    cases hc : (chordFromSeries T .tpc red useInv useRel cache r.row).1 with
    | none =>
      rw [hc] at h
      exact rest h
    | some c =>
      rw [hc] at h
      rcases List.mem_cons.mp h with rfl | h
      · refine ⟨List.mem_cons_self, ?_⟩
        simp only [chordFromSeries] at hc
        split at hc
        · cases hc
        · cases hs : seriesHarmony r.row .tpc red useInv with
          | error e => rw [hs] at hc; cases hc
          | ok y => exact ⟨y, rfl⟩
      · exact rest h

theorem mem_kept {γ : Type} {l : List γ} {mask : List Bool} {x : γ} (h : x ∈ kept l mask) : x ∈ l := by
  simp only [kept, List.mem_map, List.mem_filter] at h
  obtain ⟨y, ⟨hy, -⟩, rfl⟩ := h
  exact (List.of_mem_zip hy).1

theorem mem_npMask {γ : Type} {l l' : List γ} {mask : List Bool} {x : γ} (h : npMask l mask = .ok l') (hx : x ∈ l') :
    x ∈ l := by
  simp only [npMask] at h
  split at h
  · injection h with h; subst h; exact mem_kept hx
  · cases h

theorem changedMask_rename {ren : Str → Str} {rows : List PieceRow}
    (hinj : ∀ r ∈ rows, ∀ r' ∈ rows, ren r.row.key.globalkey = ren r'.row.key.globalkey →
      r.row.key.globalkey = r'.row.key.globalkey) :
    changedMask (rows.map (renameRow ren)) = changedMask rows := by
  cases rows with
  | nil => rfl
  | cons r rows =>
    simp only [List.map_cons, changedMask]
    rw [← List.map_cons, List.zipWith_map]
    congr 1
    have key : ∀ (l l' : List PieceRow), (∀ a ∈ l, a ∈ r :: rows) → (∀ a ∈ l', a ∈ r :: rows) →
        List.zipWith (fun p n => !decide (keyColumns (renameRow ren n) = keyColumns (renameRow ren p))) l l' =
          List.zipWith (fun p n => !decide (keyColumns n = keyColumns p)) l l' := by
      intro l
      induction l with
      | nil => intros; rfl
      | cons a l ih =>
        intro l' h1 h2
        cases l' with
        | nil => rfl
        | cons b l' =>
          simp only [List.zipWith_cons_cons]
          rw [ih l' (fun a ha => h1 a (List.mem_cons_of_mem _ ha)) (fun a ha => h2 a (List.mem_cons_of_mem _ ha))]
          congr 2
          have ha := h1 a List.mem_cons_self
          have hb := h2 b List.mem_cons_self
          rw [decide_eq_decide]
          simp only [keyColumns, renameRow, Prod.mk.injEq]
          constructor
          · rintro ⟨h, rest⟩; exact ⟨hinj b hb a ha h, rest⟩
          · rintro ⟨h, rest⟩; exact ⟨by rw [h], rest⟩
    exact key _ _ (fun a h => h) (fun a h => List.mem_cons_of_mem _ h)

theorem pieceKeys_move {ren : Str → Str} (useRel : Bool) {rows : List PieceRow}
    (hinj : ∀ r ∈ rows, ∀ r' ∈ rows, ren r.row.key.globalkey = ren r'.row.key.globalkey →
      r.row.key.globalkey = r'.row.key.globalkey)
    (hkey : ∀ r ∈ rows, keyFromSeries (renameRow ren r).row.key .tpc = (keyFromSeries r.row.key .tpc).map (moveKey k)) :
    pieceKeys useRel (rows.map (renameRow ren)) =
      (pieceKeys useRel rows).map fun x => (x.1.map (moveKey k), x.2) := by
  simp only [pieceKeys, changedMask_rename hinj, List.length_map, npMask_map]
  cases npMask (List.range rows.length) (changedMask rows) with
  | error e => rfl
  | ok c =>
    cases hl : npMask rows (changedMask rows) with
    | error e => rfl
    | ok l =>
      have hk : (l.map (renameRow ren)).filterMap (fun r => keyFromSeries r.row.key .tpc) =
          (l.filterMap fun r => keyFromSeries r.row.key .tpc).map (moveKey k) := by
        rw [List.filterMap_map, List.map_filterMap]
        refine List.filterMap_congr fun r hr => ?_
        exact hkey r (mem_npMask hl hr)
      simp only [Except.map, Bind.bind, Except.bind, hk, npMask_map]
      rw [reductionMask_map (rep' := Key.equals useRel) (fun a b => equals_move useRel a b)]
      generalize reductionMask _ _ = mask
      cases npMask (l.filterMap fun r => keyFromSeries r.row.key .tpc) mask with
      | error e => rfl
      | ok keys =>
        simp only
        cases npMask c mask <;> rfl

theorem pieceHarmony_move {ren : Str → Str} {red : Reduction} {useInv : Bool} (T : List MeterRow)
    (useRel useSus : Bool) (cache : Option LevelCache) {rows : List PieceRow} (h : Renames k ren red useInv rows) :
    pieceHarmony T red useInv useRel useSus cache (rows.map (renameRow ren)) =
      (pieceHarmony T red useInv useRel useSus cache rows).map
        fun x => ⟨x.chords.map (moveSeries k), x.keys.map (moveKey k), x.keyChanges⟩ := by
  simp only [pieceHarmony, readChords_move T useRel cache h, squeezed_map]
  cases hq : squeezed (readChords T red useInv useRel cache rows) with
  | error e => rfl
  | ok read =>
    have hread : read = readChords T red useInv useRel cache rows := by
      simp only [squeezed] at hq
      split at hq
      · cases hq
      · injection hq with hq; exact hq.symm
    have hm : reductionMask (SeriesChord.isRepeated useInv useSus) (read.map fun x => moveSeries k x.1) =
        reductionMask (SeriesChord.isRepeated useInv useSus) (read.map (·.1)) := by
      have := reductionMask_map (f := moveSeries k) (rep := SeriesChord.isRepeated useInv useSus)
        (rep' := SeriesChord.isRepeated useInv useSus) (isRepeated_move useInv useSus) (read.map (·.1))
      rw [List.map_map] at this
      exact this
    have hz : (read.map fun x => moveSeries k x.1).zip
          (reductionMask (SeriesChord.isRepeated useInv useSus) (read.map (·.1))) =
        ((read.map (·.1)).zip (reductionMask (SeriesChord.isRepeated useInv useSus) (read.map (·.1)))).map
          fun x => (moveSeries k x.1, x.2) := by
      have := List.zip_map_left (l₁ := read.map (·.1)) (l₂ := reductionMask (SeriesChord.isRepeated useInv useSus)
        (read.map (·.1))) (f := moveSeries k)
      rw [List.map_map] at this
      exact this
    have hs := seriesMerge_move (k := k) [] ((read.map (·.1)).zip
      (reductionMask (SeriesChord.isRepeated useInv useSus) (read.map (·.1))))
    have hr : (read.map fun x => renameRow ren x.2) = (read.map (·.2)).map (renameRow ren) := by
      rw [List.map_map]; rfl
    simp only [Except.map, Bind.bind, Except.bind, List.map_map, Function.comp_def, hm, hz] at hs ⊢
    rw [show List.map (moveSeries k) [] = [] from rfl] at hs
    rw [hs, hr, npMask_map]
    generalize seriesMerge [] _ = m
    cases m with
    | error e => rfl
    | ok m =>
      generalize hn : npMask (read.map fun x => x.2) _ = n
      cases n with
      | error e => rfl
      | ok n =>
        have mem : ∀ r ∈ n, r ∈ rows ∧ ∃ y, seriesHarmony r.row .tpc red useInv = .ok y := by
          intro r hr
          obtain ⟨x, hx, rfl⟩ := List.mem_map.mp (mem_npMask hn hr)
          rw [hread] at hx
          exact readChords_ok hx
        have := pieceKeys_move (k := k) (ren := ren) useRel (rows := n)
          (fun r hr r' hr' => h.injective r (mem r hr).1 r' (mem r' hr').1)
          (fun r hr => by
            obtain ⟨t, hg, hg'⟩ := h.pitch r (mem r hr).1
            exact keyFromSeries_move hg hg' (mem r hr).2 ((h.inRange r (mem r hr).1).mp (mem r hr).2))
        simp only [Except.map, this]
        cases pieceKeys useRel n <;> rfl

/-- All pitches of the notes are in the range of pitches, also `k` fifths higher. -/
def NotesInRange (k : Int) (notes : List NoteRow) : Prop :=
  ∀ r ∈ notes, (0 ≤ r.tpc + TPC_C ∧ r.tpc + TPC_C < NUM_PITCHES .tpc) ∧
    0 ≤ r.tpc + k + TPC_C ∧ r.tpc + k + TPC_C < NUM_PITCHES .tpc

theorem notesFromTable_move {m : Int} (T : List MeterRow) (cache : Option LevelCache) {notes : List NoteRow}
    (h : NotesInRange k notes) :
    (notesFromTable T .tpc cache (notes.map (moveNoteRow k m))).2 = (notesFromTable T .tpc cache notes).2 ∧
    (notesFromTable T .tpc cache (notes.map (moveNoteRow k m))).1.map Option.isSome =
      (notesFromTable T .tpc cache notes).1.map Option.isSome := by
  induction notes generalizing cache with
  | nil => exact ⟨rfl, rfl⟩
  | cons r notes ih =>
    obtain ⟨⟨a1, a2⟩, a3, a4⟩ := h r List.mem_cons_self
    have e : (noteFromSeries T .tpc cache (moveNoteRow k m r)).2 = (noteFromSeries T .tpc cache r).2 ∧
        (noteFromSeries T .tpc cache (moveNoteRow k m r)).1.isSome = (noteFromSeries T .tpc cache r).1.isSome := by
      simp only [noteFromSeries, rowPitch]
      rw [if_neg (by simp only [moveNoteRow]; omega), if_neg (by omega)]
      simp only [moveNoteRow]
      rcases levelAt T cache r.mc r.onset with ⟨_ | l1, cache'⟩
      · exact ⟨rfl, rfl⟩
      · simp only
        rcases levelAt T cache' r.offsetMc r.offsetBeat with ⟨_ | l2, cache''⟩ <;> exact ⟨rfl, rfl⟩
    obtain ⟨i1, i2⟩ := ih (noteFromSeries T .tpc cache r).2 (fun r hr => h r (List.mem_cons_of_mem _ hr))
    constructor
    · simp only [List.map_cons, notesFromTable, e.1, i1]
    · simp only [List.map_cons, notesFromTable, e.1, e.2, i2]

theorem readNotes_length {ns ns' : List (Option NoteObj)} (h : ns'.map Option.isSome = ns.map Option.isSome) :
    ((ns'.zip (List.range ns'.length)).filterMap (fun x => x.1.map (fun n => (n, x.2)))).length =
      ((ns.zip (List.range ns.length)).filterMap (fun x => x.1.map (fun n => (n, x.2)))).length := by
  have hlen : ns'.length = ns.length := by
    have := congrArg List.length h
    simpa using this
  rw [hlen]
  generalize List.range ns.length = is
  clear hlen
  induction ns generalizing ns' is with
  | nil =>
    cases ns' with
    | nil => rfl
    | cons a ns' => simp at h
  | cons a ns ih =>
    cases ns' with
    | nil => simp at h
    | cons b ns' =>
      cases is with
      | nil => rfl
      | cons i is =>
        simp only [List.map_cons, List.cons.injEq] at h
        simp only [List.zip_cons_cons, List.filterMap_cons]
        have := ih h.2 is
        cases a <;> cases b <;> simp_all

theorem tableKeyed_move {m : Int} {ren : Str → Str} {red : Reduction} {useInv : Bool} (measures : List MeasureRow)
    (useRel useSus : Bool) {notes : List NoteRow} {chords : List PieceRow} (hn : NotesInRange k notes)
    (hc : Renames k ren red useInv chords) :
    tableKeyed measures (notes.map (moveNoteRow k m)) (chords.map (renameRow ren)) red useInv useRel useSus =
      (tableKeyed measures notes chords red useInv useRel useSus).map (movePiece k) := by
  obtain ⟨h1, h2⟩ := notesFromTable_move (m := m) (measures.map MeasureRow.meter) (some []) hn
  have h3 := readNotes_length h2
  simp only [tableKeyed, pieceNotes, h1, pieceHarmony_move (measures.map MeasureRow.meter) useRel useSus _ hc,
    squeezed, h3]
  split
  · rfl
  · simp only [Bind.bind, Except.bind]
    cases pieceHarmony (measures.map MeasureRow.meter) red useInv useRel useSus
      (notesFromTable (measures.map MeasureRow.meter) .tpc (some []) notes).2 chords with
    | error e => rfl
    | ok x =>
      simp [Except.map, PieceHarmony.keyed, movePiece, moveSeries]

/-- C155: the tables of a piece which is written `k` fifths higher (its notes, and the names of its global keys) are read
as the same chords and keys, `k` fifths higher; and the chord sequence, key transition and key sequence models get the
same rows and targets of it. -/
theorem C155_tables {m : Int} {ren : Str → Str} {red : Reduction} {useInv : Bool} {measures : List MeasureRow}
    {useRel useSus : Bool} {notes : List NoteRow} {chords : List PieceRow} {x : KeyedPiece}
    (hn : NotesInRange k notes) (hc : Renames k ren red useInv chords)
    (h : tableKeyed measures notes chords red useInv useRel useSus = .ok x) :
    ∃ y, tableKeyed measures (notes.map (moveNoteRow k m)) (chords.map (renameRow ren)) red useInv useRel useSus =
        .ok y ∧
      y = movePiece k x ∧ chordPiece y = chordPiece x ∧ transitionPiece y = transitionPiece x ∧
      sequencePiece y = sequencePiece x := by
  refine ⟨movePiece k x, ?_, rfl, chordPiece_move x, C155_transitions x, C155_sequences x⟩
  rw [tableKeyed_move measures useRel useSus hn hc, h]
  rfl

/-! ## A concrete case -/

/-- C major is renamed to A major. -/
def exName (s : Str) : Str := if s = "C".toList then "A".toList else s

/-- C major and G major in C major, and D major in G major. -/
def exChords : List PieceRow :=
  [PieceKeys.chordRow "I".toList 0 0, PieceKeys.chordRow "I".toList 1 1, PieceKeys.chordRow "V".toList 1 2]

theorem exChords_renames : Renames 3 exName noReduction true exChords where
  pitch := by
    intro r hr
    simp only [exChords, List.mem_cons, List.not_mem_nil, or_false] at hr
    rcases hr with rfl | rfl | rfl <;> exact ⟨15, by decide, by decide⟩
  injective := by
    intro r hr r' hr' _
    simp only [exChords, List.mem_cons, List.not_mem_nil, or_false] at hr hr'
    rcases hr with rfl | rfl | rfl <;> rcases hr' with rfl | rfl | rfl <;> rfl
  inRange := by
    intro r hr
    simp only [exChords, List.mem_cons, List.not_mem_nil, or_false] at hr
    rcases hr with rfl | rfl | rfl <;> exact iff_of_true ⟨_, rfl⟩ ⟨_, rfl⟩

theorem exNotes_inRange : NotesInRange 3 TablePiece.exNotes := by
  intro r hr
  simp only [TablePiece.exNotes, List.mem_cons, List.not_mem_nil, or_false] at hr
  rcases hr with rfl | rfl | rfl | rfl <;> decide

/-- The piece in C, and the same in A: A major and E major in A major, B major in E major. -/
example : ((tableKeyed TablePiece.exMeasures TablePiece.exNotes exChords noReduction true true false).map fun x =>
      (x.chords.map fun c => (c.root, c.keyTonic), x.keys.map (·.localTonic))) =
    .ok ([(15, 15), (16, 15), (17, 16)], [15, 16]) := by decide +kernel

example : ((tableKeyed TablePiece.exMeasures (TablePiece.exNotes.map (moveNoteRow 3 (-3))) (exChords.map (renameRow exName))
      noReduction true true false).map fun x => (x.chords.map fun c => (c.root, c.keyTonic), x.keys.map (·.localTonic))) =
    .ok ([(18, 18), (19, 18), (20, 19)], [18, 19]) := by decide +kernel

/-- The targets of the key sequence model: a fifth up to a major key. -/
example : ∃ y d, tableKeyed TablePiece.exMeasures (TablePiece.exNotes.map (moveNoteRow 3 (-3)))
      (exChords.map (renameRow exName)) noReduction true true false = .ok y ∧
    sequencePiece y = .ok (some d) ∧ d.targets = [15] := by
  cases hx : tableKeyed TablePiece.exMeasures TablePiece.exNotes exChords noReduction true true false with
  | error e =>
    have : (tableKeyed TablePiece.exMeasures TablePiece.exNotes exChords noReduction true true false).isOk = true := by
      decide +kernel
    rw [hx] at this; cases this
  | ok x =>
    obtain ⟨y, hy, -, -, -, hs⟩ := C155_tables (m := -3) exNotes_inRange exChords_renames hx
    have ht : ((tableKeyed TablePiece.exMeasures TablePiece.exNotes exChords noReduction true true false).bind
        fun x => (sequencePiece x).map fun d => d.map (·.targets)) = .ok (some [15]) := by decide +kernel
    rw [hx] at ht
    simp only [Except.bind] at ht
    obtain ⟨d, hd, ht⟩ := map_ok ht
    cases d with
    | none => cases ht
    | some d =>
      injection ht with ht
      exact ⟨y, d, hy, hs.trans hd, ht⟩

end Verif.MovedPieces
