import Verif.Props.AnalysedPieces
import Verif.Props.NoteVectors
import Verif.Props.SearchTransposes

/-!
# C162: the analysis of a transposed piece
-/

namespace Verif.TransposedPieces
open Verif State Verif.SearchData Verif.StateInputs Verif.Vectors Verif.SearchTransposes

/-! ## Notes -/

/-- The height of a note with a spelled pitch in semitones: seven for each fifth from C, within its octave. -/
def height (n : NoteObj) : Int := 12 * n.octave + 7 * (n.pitchClass - 15) % 12

/-- A note whose pitch is moved by `i` fifths such that it sounds `k` semitones higher. -/
def moveNote (i k : Int) (n : NoteObj) : NoteObj :=
  { n with pitchClass := n.pitchClass + i, octave := (height n + k) / 12 }

/-- The note has a spelled pitch in the range of all pitches, and so has the moved note. -/
structure CanMove (i k : Int) (n : NoteObj) : Prop where
  spelled : n.pitchType = .tpc
  pitch : 0 ≤ n.pitchClass ∧ n.pitchClass < 35
  moved : 0 ≤ n.pitchClass + i ∧ n.pitchClass + i < 35
  low : 0 ≤ height n ∧ 0 ≤ height n + k
  high : height n < 120 ∧ height n + k < 120

/-- The rows of a note and of the moved note: pitch, octave, octave from the lowest note (any) and height differ. The
rows of padding are all the same. -/
def MovedRow (i k : Int) (v v' : List ℚ) : Prop :=
  (∃ (p h : Int) (r r' : Nat) (mid : List ℚ) (rel : ℚ), 7 * (p - 15) % 12 = h % 12 ∧ (0 ≤ p ∧ p < 35) ∧
    (0 ≤ p + i ∧ p + i < 35) ∧ (0 ≤ h ∧ h < 120) ∧ (0 ≤ h + k ∧ h + k < 120) ∧ mid.length = 14 ∧
    v = hot 35 p.toNat ++ hot 10 (h / 12).toNat ++ mid ++ hot 10 r ++ [(h : ℚ) / 127, rel] ∧
    v' = hot 35 (p + i).toNat ++ hot 10 ((h + k) / 12).toNat ++ mid ++ hot 10 r' ++ [((h + k : Int) : ℚ) / 127, rel]) ∨
  (∃ n, v = List.replicate n 0 ∧ v' = v)

section
variable {i k : Int}

theorem height_move (hk : (7 * i - k) % 12 = 0) (n : NoteObj) : height (moveNote i k n) = height n + k := by
  simp only [height, moveNote]; omega

theorem octave_height (n : NoteObj) : n.octave = height n / 12 := by simp only [height]; omega

theorem midi_height {n : NoteObj} (hp : 0 ≤ n.pitchClass ∧ n.pitchClass < 35) :
    midiNoteNumber n.pitchClass n.octave .tpc = .ok (height n) := by
  obtain ⟨m, h1, rfl⟩ := Verif.NoteVectors.C63_tpc_partial n.pitchClass n.octave hp.1 hp.2
  exact h1

/-- A pitch for the comparison of a window. -/
def movePair (k : Int) (x : Int × Int) : Int × Int := ((x.2 + k) / 12, x.2 + k)

/-- The vectors of a note and of the moved note. The lowest pitches are those of notes below. -/
theorem toVec_move (hk : (7 * i - k) % 12 = 0) {n : NoteObj} (hn : CanMove i k n) (rhythm : ℚ × ℚ × ℚ) (durs : ℚ × ℚ)
    (lo hi : Option (Int × Int))
    (hlo : ∀ x, lo = some x → x.1 = x.2 / 12 ∧ x.2 ≤ height n ∧ 0 ≤ x.2 ∧ 0 ≤ x.2 + k) :
    PyRel (MovedRow i k)
      (NoteVec.toVec ⟨n.pitchClass, n.octave, n.onsetLevel, n.offsetLevel, n.pitchType, rhythm, durs, lo, hi⟩)
      (NoteVec.toVec ⟨(moveNote i k n).pitchClass, (moveNote i k n).octave, (moveNote i k n).onsetLevel,
        (moveNote i k n).offsetLevel, (moveNote i k n).pitchType, rhythm, durs, lo.map (movePair k),
        hi.map (movePair k)⟩) := by
  obtain ⟨h1, h2, h3, h4, h5⟩ := hn
  have h1' : (moveNote i k n).pitchType = .tpc := h1
  have hN : (NUM_PITCHES .tpc).toNat = 35 := rfl
  have hM : 127 / (NUM_PITCHES .midi).toNat = 10 := rfl
  have hmid := midi_height h2
  have hmid' := midi_height (n := moveNote i k n) h3
  rw [height_move hk] at hmid'
  have ho := octave_height n
  have ho' := octave_height (moveNote i k n)
  rw [height_move hk] at ho'
  simp only [NoteVec.toVec, h1, h1', hN, hM, Bind.bind]
  rw [oneHot_ok (n := 35) h2.1 h2.2, oneHot_ok (n := 35) (i := (moveNote i k n).pitchClass) h3.1 h3.2,
    oneHot_ok (n := 10) (i := n.octave) (by omega) (by omega),
    oneHot_ok (n := 10) (i := (moveNote i k n).octave) (by omega) (by omega), hmid, hmid']
  simp only [Except.bind]
  have e1 : (moveNote i k n).onsetLevel = n.onsetLevel := rfl
  have e2 : (moveNote i k n).offsetLevel = n.offsetLevel := rfl
  rw [e1, e2]
  cases ha : oneHot 4 (n.onsetLevel : Int) with
  | error e => exact PyRel.err
  | ok a =>
    simp only
    cases hb : oneHot 4 (n.offsetLevel : Int) with
    | error e => exact PyRel.err
    | ok b =>
      simp only
      have hla : a.length = 4 := AnnotatedRows.oneHot_length ha
      have hlb : b.length = 4 := AnnotatedRows.oneHot_length hb
      cases lo with
      | none =>
        simp only [NoteVec.lowestOctave, Option.map_none]
        rw [oneHot_ok (n := 10) (by omega) (by omega), oneHot_ok (n := 10) (by omega) (by omega)]
        refine .inl ⟨n.pitchClass, height n, (n.octave - 0).toNat, ((moveNote i k n).octave - 0).toNat,
          a ++ b ++ [rhythm.1, rhythm.2.1, rhythm.2.2] ++ [durs.1, durs.2] ++ [0],
          0, ?_, h2, h3, ⟨h4.1, h5.1⟩, ⟨h4.2, h5.2⟩, by simp [hla, hlb], ?_, ?_⟩
        · simp only [height]; omega
        · simp only [NoteVec.isMin, NoteVec.relHeight, ← ho, List.append_assoc]; rfl
        · simp only [NoteVec.isMin, NoteVec.relHeight, ← ho', List.append_assoc]; rfl
      | some x =>
        obtain ⟨hx1, hx2, hx3, hx4⟩ := hlo x rfl
        simp only [NoteVec.lowestOctave, Option.map_some, movePair]
        rw [oneHot_ok (n := 10) (by omega) (by omega), oneHot_ok (n := 10) (by omega) (by omega)]
        refine .inl ⟨n.pitchClass, height n, (n.octave - x.1).toNat, ((moveNote i k n).octave - (x.2 + k) / 12).toNat, a ++ b ++ [rhythm.1, rhythm.2.1, rhythm.2.2] ++ [durs.1, durs.2] ++
          [if height n = x.2 then 1 else 0], NoteVec.relHeight ⟨n.pitchClass, n.octave, n.onsetLevel, n.offsetLevel,
            .tpc, rhythm, durs, some x, hi⟩ (height n), ?_, h2, h3, ⟨h4.1, h5.1⟩, ⟨h4.2, h5.2⟩, by simp [hla, hlb], ?_, ?_⟩
        · simp only [height]; omega
        · simp only [NoteVec.isMin, ← ho, List.append_assoc]; rfl
        · have hr : NoteVec.relHeight ⟨(moveNote i k n).pitchClass, (moveNote i k n).octave, n.onsetLevel, n.offsetLevel,
              .tpc, rhythm, durs, some ((x.2 + k) / 12, x.2 + k), hi.map (movePair k)⟩ (height n + k) =
              NoteVec.relHeight ⟨n.pitchClass, n.octave, n.onsetLevel, n.offsetLevel, .tpc, rhythm, durs, some x, hi⟩
                (height n) := by
            cases hi with
            | none => rfl
            | some y =>
              simp only [NoteVec.relHeight, Option.map_some, movePair]
              rw [show height n + k - (x.2 + k) = height n - x.2 by omega, show y.2 + k - (x.2 + k) = y.2 - x.2 by omega]
          have hmin : (if height n + k = x.2 + k then (1 : ℚ) else 0) = if height n = x.2 then 1 else 0 := by
            by_cases e : height n = x.2
            · rw [if_pos e, if_pos (by omega)]
            · rw [if_neg e, if_neg (by omega)]
          simp only [NoteVec.isMin, hr, hmin, ← ho', List.append_assoc]; rfl

/-! ## Windows -/

theorem pairGt_move {a b : Int × Int} (ha : a.1 = a.2 / 12) (hb : b.1 = b.2 / 12) :
    pairGt (movePair k a) (movePair k b) ↔ pairGt a b := by
  simp only [pairGt, movePair]; omega

theorem minPair_move (l : List (Int × Int)) (hl : ∀ x ∈ l, x.1 = x.2 / 12) :
    minPair (l.map (movePair k)) = (minPair l).map (movePair k) ∧
      ∀ m, minPair l = .ok m → m ∈ l ∧ ∀ x ∈ l, m.2 ≤ x.2 := by
  cases l with
  | nil => exact ⟨rfl, fun m h => by cases h⟩
  | cons a l =>
    simp only [List.map_cons, minPair, Except.map, Except.ok.injEq, forall_eq']
    induction l generalizing a with
    | nil => simp
    | cons b l ih =>
      have ha := hl a (by simp)
      have hb := hl b (by simp)
      simp only [List.map_cons, List.foldl_cons]
      by_cases h : pairGt a b
      · rw [if_pos h, if_pos ((pairGt_move ha hb).2 h)]
        obtain ⟨h1, h2, h3⟩ := ih b (fun x hx => hl x (List.mem_cons_of_mem _ hx))
        refine ⟨h1, List.mem_cons_of_mem _ h2, fun x hx => ?_⟩
        rcases List.mem_cons.1 hx with rfl | hx
        · have := h3 b (by simp)
          simp only [pairGt] at h
          omega
        · exact h3 x hx
      · rw [if_neg h, if_neg (fun h' => h ((pairGt_move ha hb).1 h'))]
        obtain ⟨h1, h2, h3⟩ := ih a (fun x hx => hl x (by rcases List.mem_cons.1 hx with rfl | hx <;> simp_all))
        refine ⟨h1, ?_, fun x hx => ?_⟩
        · rcases List.mem_cons.1 h2 with e | h2
          · rw [e]; exact List.mem_cons_self
          · exact List.mem_cons_of_mem _ (List.mem_cons_of_mem _ h2)
        · rcases List.mem_cons.1 hx with rfl | hx
          · exact h3 x (by simp)
          · rcases List.mem_cons.1 hx with rfl | hx
            · have := h3 a (by simp)
              simp only [pairGt] at h
              omega
            · exact h3 x (by simp [hx])

theorem maxPair_move (l : List (Int × Int)) (hl : ∀ x ∈ l, x.1 = x.2 / 12) :
    maxPair (l.map (movePair k)) = (maxPair l).map (movePair k) := by
  cases l with
  | nil => rfl
  | cons a l =>
    simp only [List.map_cons, maxPair, Except.map, Except.ok.injEq]
    induction l generalizing a with
    | nil => simp
    | cons b l ih =>
      have ha := hl a (by simp)
      have hb := hl b (by simp)
      simp only [List.map_cons, List.foldl_cons]
      by_cases h : pairGt b a
      · rw [if_pos h, if_pos ((pairGt_move hb ha).2 h)]
        exact ih b (fun x hx => hl x (List.mem_cons_of_mem _ hx))
      · rw [if_neg h, if_neg (fun h' => h ((pairGt_move hb ha).1 h'))]
        exact ih a (fun x hx => hl x (by rcases List.mem_cons.1 hx with rfl | hx <;> simp_all))

theorem movedRow_length {v v' : List ℚ} (h : MovedRow i k v v') : v'.length = v.length := by
  rcases h with ⟨p, h, r, r', mid, rel, _, _, _, _, _, _, rfl, rfl⟩ | ⟨n, rfl, rfl⟩
  · simp [hot_length]
  · rfl

theorem stackRows_rel {l l' : List (List ℚ)} (h : List.Forall₂ (MovedRow i k) l l') :
    PyRel (fun x x' => x'.1 = x.1 ∧ List.Forall₂ (MovedRow i k) x.2 x'.2) (stackRows l) (stackRows l') := by
  cases h with
  | nil => exact PyRel.err
  | @cons v v' l l' hv hl =>
    have hlen := movedRow_length hv
    have hall : (l'.all fun w => decide (w.length = v'.length)) = l.all fun w => decide (w.length = v.length) := by
      rw [hlen]
      clear hv
      induction hl with
      | nil => rfl
      | cons h _ ih => rw [List.all_cons, List.all_cons, ih, movedRow_length h]
    simp only [stackRows, hall]
    split
    · exact ⟨hlen, List.Forall₂.cons hv hl⟩
    · exact PyRel.err

theorem movePair_height (hk : (7 * i - k) % 12 = 0) (n : NoteObj) :
    ((moveNote i k n).octave, height (moveNote i k n)) = movePair k (n.octave, height n) := by
  rw [octave_height (moveNote i k n), height_move hk]; rfl

theorem pitches_of {l : List NoteObj} (h : ∀ n ∈ l, 0 ≤ n.pitchClass ∧ n.pitchClass < 35 ∧ n.pitchType = .tpc) :
    (l.mapM fun n => do
      let m ← n.midiNumber
      Except.ok (ε := PyErr) (n.octave, m)) = .ok (l.map fun n => (n.octave, height n)) := by
  refine mapM_ok _ _ _ fun n hn => ?_
  obtain ⟨h1, h2, h3⟩ := h n hn
  simp only [NoteObj.midiNumber, h3, midi_height ⟨h1, h2⟩, Bind.bind, Except.bind]

theorem forall₂_move {α : Type} (R : NoteObj → NoteObj → Prop) (l : List NoteObj) (l2 : List α)
    (h : ∀ n ∈ l, R n (moveNote i k n)) :
    List.Forall₂ (fun x x' : NoteObj × α => x.1 ∈ l ∧ R x.1 x'.1 ∧ x'.1 = moveNote i k x.1 ∧ x'.2 = x.2)
      (l.zip l2) ((l.map (moveNote i k)).zip l2) := by
  rw [List.zip_map_left, List.forall₂_map_right_iff, List.forall₂_same]
  intro x hx
  exact ⟨(List.of_mem_zip hx).1, h _ (List.of_mem_zip hx).1, rfl, rfl⟩

theorem pySlice_mem {α : Type} {l : List α} {a b : Int} {x : α} (h : x ∈ pySlice l a b) : x ∈ l :=
  List.mem_of_mem_take (List.mem_of_mem_drop h)

theorem chordNoteInput_move (hk : (7 * i - k) % 12 = 0) {notes : List NoteObj} (hn : ∀ n ∈ notes, CanMove i k n)
    (T : List (Measure ℚ)) (on off : Int × ℚ) (d : ℚ) (change first last window : Nat) (cache : List ℚ)
    (c : Option ChordSpan) :
    PyRel (List.Forall₂ (MovedRow i k)) (chordNoteInput notes T on off d change first last window cache c)
      (chordNoteInput (notes.map (moveNote i k)) T on off d change first last window cache c) := by
  simp only [chordNoteInput, List.length_map, Renumber.pySlice_map]
  generalize hin : pySlice notes (max ((first : Int) - window) 0) (min ((last : Int) + window) notes.length) = inside
  have hi : ∀ n ∈ inside, CanMove i k n := by
    intro n h
    rw [← hin] at h
    exact hn n (pySlice_mem h)
  rw [pitches_of (fun n h => ⟨(hi n h).pitch.1, (hi n h).pitch.2, (hi n h).spelled⟩), pitches_of (by
    intro n h
    obtain ⟨m, hm, rfl⟩ := List.mem_map.1 h
    exact ⟨(hi m hm).moved.1, (hi m hm).moved.2, (hi m hm).spelled⟩)]
  have hmap : ((inside.map (moveNote i k)).map fun n => (n.octave, height n)) =
      (inside.map fun n => (n.octave, height n)).map (movePair k) := by
    rw [List.map_map, List.map_map]
    exact List.map_congr_left fun n _ => movePair_height hk n
  have hp : ∀ x ∈ inside.map fun n => (n.octave, height n), x.1 = x.2 / 12 := by
    intro x hx
    obtain ⟨n, _, rfl⟩ := List.mem_map.1 hx
    exact octave_height n
  obtain ⟨hmin, hlow⟩ := minPair_move (k := k) _ hp
  rw [hmap]
  simp only [Bind.bind, Except.bind, hmin, maxPair_move _ hp]
  cases hlo : minPair (inside.map fun n => (n.octave, height n)) with
  | error e => exact PyRel.err
  | ok lo =>
    obtain ⟨h1, h2⟩ := hlow lo hlo
    obtain ⟨m, hm, rfl⟩ := List.mem_map.1 h1
    simp only [Except.map]
    cases hhi : maxPair (inside.map fun n => (n.octave, height n)) with
    | error e => exact PyRel.err
    | ok hi' =>
      simp only
      have hnone : ((inside.map (moveNote i k)).map fun _ => (none : Option ℚ)) = inside.map fun _ => none := by
        rw [List.map_map]; rfl
      rw [hnone]
      refine PyRel.bind (R := List.Forall₂ (MovedRow i k))
        (PyRel.mapM (forall₂_move (fun _ _ => True) inside _ fun _ _ => trivial) ?_) fun rows rows' _ _ hrows => ?_
      · rintro ⟨n, y⟩ ⟨n', y'⟩ ⟨hmem, -, e, e'⟩
        simp only at hmem e e'
        subst e e'
        simp only [noteVector, Bind.bind]
        refine PyRel.bind (R := Eq) PyRel.refl fun rh _ _ _ hrh => ?_
        subst hrh
        refine toVec_move hk (hi n hmem) rh _ (some (m.octave, height m)) (some hi') ?_
        intro x hx
        have hx := Option.some.inj hx
        subst hx
        exact ⟨octave_height m, h2 _ (List.mem_map.2 ⟨n, hmem, rfl⟩), (hi m hm).low⟩
      · refine PyRel.bind (stackRows_rel hrows) fun x x' _ _ hx => ?_
        obtain ⟨w, r⟩ := x
        obtain ⟨w', r'⟩ := x'
        obtain ⟨e, hx⟩ := hx
        simp only at e hx ⊢
        subst e
        have hz : ∀ a, List.Forall₂ (MovedRow i k) (List.replicate a (List.replicate w' (0 : ℚ)))
            (List.replicate a (List.replicate w' 0)) := by
          intro a
          rw [List.forall₂_same]
          intro v hv
          exact .inr ⟨w', (List.mem_replicate.1 hv).2, rfl⟩
        exact List.rel_append (List.rel_append (hz _) hx) (hz _)

theorem pieceChordInput_move (hk : (7 * i - k) % 12 = 0) {notes : List NoteObj} (hn : ∀ n ∈ notes, CanMove i k n)
    (T : List (Measure ℚ)) (cache : List ℚ) (last : Int × ℚ) (window : Nat) (range : Nat × Nat) (change : Nat)
    (c : Option ChordSpan) :
    PyRel (List.Forall₂ (MovedRow i k)) (pieceChordInput notes T cache last window range change c)
      (pieceChordInput (notes.map (moveNote i k)) T cache last window range change c) := by
  have e : rangeEnd (notes.map (moveNote i k)) last range.2 = rangeEnd notes last range.2 := by
    simp only [rangeEnd, List.getElem?_map]
    cases notes[range.2]? <;> rfl
  simp only [pieceChordInput, e, pyGet_map]
  cases pyGet notes (change : Int) with
  | error e => exact PyRel.err
  | ok n => exact chordNoteInput_move hk hn _ _ _ _ _ _ _ _ _ _

theorem ctmInputs_move (hk : (7 * i - k) % 12 = 0) {notes : List NoteObj} (hn : ∀ n ∈ notes, CanMove i k n)
    (cache : List ℚ) : PyRel (List.Forall₂ (MovedRow i k)) (ctmInputs notes cache)
      (ctmInputs (notes.map (moveNote i k)) cache) := by
  simp only [ctmInputs, Bind.bind]
  refine PyRel.bind (R := List.Forall₂ (MovedRow i k))
    (PyRel.mapM (forall₂_move (fun _ _ => True) notes _ fun _ _ => trivial) ?_) fun rows rows' _ _ hrows => ?_
  · rintro ⟨n, y⟩ ⟨n', y'⟩ ⟨hmem, -, e, e'⟩
    simp only at hmem e e'
    subst e e'
    exact toVec_move hk (hn n hmem) (0, 0, 0) _ none none (fun x hx => by cases hx)
  · refine PyRel.bind (stackRows_rel hrows) fun x x' _ _ hx => ?_
    exact hx.2

/-- The piece moved by `i` fifths and `k` semitones. -/
def movePiece (i k : Int) (x : Analysed) : Analysed := { x with notes := x.notes.map (moveNote i k) }

theorem last_move (x : Analysed) : (movePiece i k x).last = x.last := by
  have ho : ((movePiece i k x).notes.map fun n => toLex n.offset) = x.notes.map fun n => toLex n.offset := by
    simp only [movePiece, List.map_map]; rfl
  simp only [Analysed.last, ho]
  rfl

theorem cache_move (x : Analysed) : (movePiece i k x).cache = x.cache := by
  have hn : (movePiece i k x).notes.map NoteObj.onset = x.notes.map NoteObj.onset := by
    simp only [movePiece, List.map_map]; rfl
  simp only [Analysed.cache, last_move, hn]
  rfl

theorem times_move (x : Analysed) : (movePiece i k x).times = x.times := by
  simp only [Analysed.times, movePiece, List.map_map]; rfl

theorem caches_move (x : Analysed) (cache : List ℚ) : (movePiece i k x).caches cache = x.caches cache := by
  simp only [Analysed.caches, movePiece, List.zip_map_right, List.map_map]
  rfl

theorem window_move {κ : Type} (x : Analysed) : Analyser.window (κ := κ) (movePiece i k x) = Analyser.window x := by
  funext r
  simp only [Analyser.window, times_move]
  simp only [movePiece, pyGet_map]
  cases pyGet x.notes (r.1 : Int) <;> rfl

theorem chordNoteInputs_move (hk : (7 * i - k) % 12 = 0) {x : Analysed} (hn : ∀ n ∈ x.notes, CanMove i k n)
    (ws : List (Nat × Nat)) (cs : List Nat) :
    PyRel (List.Forall₂ (List.Forall₂ (MovedRow i k))) (chordNoteInputs x.notes x.chords x.measures 2 (some ws) (some cs))
      (chordNoteInputs (movePiece i k x).notes x.chords x.measures 2 (some ws) (some cs)) := by
  have ho : ((movePiece i k x).notes.map fun n => toLex n.offset) = x.notes.map fun n => toLex n.offset := by
    simp only [movePiece, List.map_map]; rfl
  have hn' : (movePiece i k x).notes.map NoteObj.onset = x.notes.map NoteObj.onset := by
    simp only [movePiece, List.map_map]; rfl
  simp only [chordNoteInputs, Option.isNone_some, Bool.or_false, Bind.bind, ho, hn', Except.bind]
  refine PyRel.bind (R := Eq) PyRel.refl fun last _ _ _ e => ?_
  subst e
  refine PyRel.bind (R := Eq) PyRel.refl fun cache _ _ _ e => ?_
  subst e
  refine PyRel.mapM (R := Eq) (List.forall₂_same.2 fun _ _ => rfl) ?_
  rintro y _ rfl
  exact pieceChordInput_move hk hn _ _ _ _ _ _ _

end

/-! ## Forced labels -/

section
variable {f : Int → Int}

/-- Labels moved by `f`. -/
def moveForced (f : Int → Int) (t : ForcedType) : ForcedType := { t with labels := t.labels.map fun l => (l.1, f l.2) }

/-- `f` takes labels to labels. -/
structure Moves (f : Int → Int) (n : Int) : Prop where
  inj : Function.Injective f
  nonneg : ∀ x, 0 ≤ x → 0 ≤ f x
  range : ∀ x, x < 0 ∨ x ≥ n ↔ f x < 0 ∨ f x ≥ n

/-- `f` on what is no label, too. -/
def lift (f : Int → Int) (x : Int) : Int := if x < 0 then x else f x

theorem lift_inj {n : Int} (h : Moves f n) : Function.Injective (lift f) := by
  intro x y e
  unfold lift at e
  split at e <;> split at e
  · exact e
  · have := h.nonneg y (by omega); omega
  · have := h.nonneg x (by omega); omega
  · exact h.inj e

theorem lift_neg : lift f (-1) = -1 := rfl

theorem lift_eq_neg {n : Int} (h : Moves f n) (x : Int) : lift f x = -1 ↔ x = -1 := by
  rw [← lift_neg (f := f)]
  exact (lift_inj h).eq_iff.trans (by rw [lift_neg])

theorem fill_map (g : Int → Int) (ids : List Int) (a b : Nat) (v : Int) :
    Forced.fill (ids.map g) a b (g v) = (Forced.fill ids a b v).map g := by
  refine List.ext_getElem? fun j => ?_
  simp only [Forced.fill, List.getElem?_mapIdx, List.getElem?_map]
  cases ids[j]? with
  | none => rfl
  | some x =>
    simp only [Option.map_some]
    split <;> rfl

theorem loadLabels_move {n : Int} (h : Moves f n) (labels : List ((Int × Int) × Int)) (ids : List Int) :
    Forced.loadLabels n (labels.map fun l => (l.1, f l.2)) (ids.map (lift f)) =
      (Forced.loadLabels n labels ids).map (List.map (lift f)) := by
  induction labels generalizing ids with
  | nil => rfl
  | cons l labels ih =>
    obtain ⟨⟨a, b⟩, v⟩ := l
    simp only [List.map_cons, Forced.loadLabels, List.length_map]
    by_cases hv : v < 0 ∨ v ≥ n
    · rw [if_pos hv, if_pos ((h.range v).1 hv)]; rfl
    · rw [if_neg hv, if_neg (fun e => hv ((h.range v).2 e))]
      have hfv : f v = lift f v := by unfold lift; rw [if_neg (by omega)]
      rw [hfv, fill_map, ih, ← List.map_drop, ← List.map_take, List.all_map]
      have hall : ((fun x => decide (x = -1) || decide (x = lift f v)) ∘ lift f) =
          fun x => decide (x = -1) || decide (x = v) := by
        funext x
        simp only [Function.comp, lift_eq_neg h, (lift_inj h).eq_iff]
      rw [hall]
      split <;> rfl

theorem checkChange_move {n : Int} (h : Moves f n) (ids : List Int) :
    Forced.checkChange (ids.map (lift f)) = Forced.checkChange ids := by
  funext c
  simp only [Forced.checkChange, pyGet_map, Bind.bind]
  cases pyGet ids (c - 1) <;> cases pyGet ids c <;> simp only [Except.map, Except.bind]
  simp only [(lift_inj h).eq_iff, ne_eq, lift_eq_neg h]

theorem checkNonChange_move {n : Int} (h : Moves f n) (ids : List Int) :
    Forced.checkNonChange (ids.map (lift f)) = Forced.checkNonChange ids := by
  funext c
  simp only [Forced.checkNonChange, pyGet_map, Bind.bind, List.length_map, ← List.map_drop, ← List.map_take]
  have hm : ∀ l : List Int, -1 ∈ l.map (lift f) ↔ -1 ∈ l := by
    intro l
    simp only [List.mem_map, lift_eq_neg h, exists_eq_right]
  cases pyGet ids (c - 1) <;> cases pyGet ids c <;> simp only [Except.map, Except.bind]
  simp only [(lift_inj h).eq_iff, ne_eq, hm]

theorem checkChordNonChange_move {n : Int} (h : Moves f n) (ids : List Int) :
    Forced.checkChordNonChange (ids.map (lift f)) = Forced.checkChordNonChange ids := by
  funext c
  simp only [Forced.checkChordNonChange, pyGet_map, Bind.bind]
  cases pyGet ids (c - 1) <;> cases pyGet ids c <;> simp only [Except.map, Except.bind]
  simp only [(lift_inj h).eq_iff, ne_eq]

theorem bind_move {α β γ : Type} (x : Py α) {u : α → Py γ} {v : α → Py β} {w : β → γ} (h : ∀ a, u a = (v a).map w) :
    x.bind u = (x.bind v).map w := by
  cases x with
  | error e => rfl
  | ok a => exact h a

theorem validateType_move {δ : Type} [DecidableEq δ] [Zero δ] (dur : List δ) (t : ForcedType) (h : Moves f t.maxId) :
    Forced.validateType dur (moveForced f t) = (Forced.validateType dur t).map (List.map (lift f)) := by
  have hrep : List.replicate dur.length (-1 : Int) = (List.replicate dur.length (-1)).map (lift f) := by
    rw [List.map_replicate, lift_neg]
  have hl := loadLabels_move h t.labels (List.replicate dur.length (-1))
  rw [← hrep] at hl
  unfold Forced.validateType
  refine bind_move _ fun _ => bind_move _ fun _ => bind_move _ fun _ => bind_move _ fun _ => ?_
  change (Forced.loadLabels t.maxId (t.labels.map fun l => (l.1, f l.2)) (List.replicate dur.length (-1))).bind _ = _
  rw [hl]
  cases Forced.loadLabels t.maxId t.labels (List.replicate dur.length (-1)) with
  | error e => rfl
  | ok ids =>
    change (Forced.forAll (Forced.checkChange (ids.map (lift f))) (Forced.dropZero t.changes)).bind _ =
      ((Forced.forAll (Forced.checkChange ids) (Forced.dropZero t.changes)).bind _).map _
    rw [checkChange_move h]
    refine bind_move _ fun _ => ?_
    change (Forced.forAll (Forced.checkNonChange (ids.map (lift f))) t.nonChanges).bind _ =
      ((Forced.forAll (Forced.checkNonChange ids) t.nonChanges).bind _).map _
    rw [checkNonChange_move h]
    exact bind_move _ fun _ => rfl

theorem validate_move {δ : Type} [DecidableEq δ] [Zero δ] (dur : List δ) (chord key : ForcedType) {g : Int → Int}
    (h : Moves f chord.maxId) (h' : Moves g key.maxId) :
    Forced.validate dur (moveForced f chord) (moveForced g key) =
      (Forced.validate dur chord key).map fun ids => (ids.1.map (lift f), ids.2.map (lift g)) := by
  have hk : ∀ (l : List Int) ids, Forced.checkKeyChange l (ids.map (lift f)) = Forced.checkKeyChange l ids := by
    intro l ids
    funext c
    simp only [Forced.checkKeyChange, checkChange_move h]
  simp only [Forced.validate, validateType_move dur chord h, validateType_move dur key h', Bind.bind]
  cases Forced.validateType dur chord with
  | error e => rfl
  | ok cids =>
    cases Forced.validateType dur key with
    | error e => rfl
    | ok kids =>
      simp only [Except.map, Except.bind, hk, checkChordNonChange_move h']
      simp only [moveForced]
      cases Forced.forAll (Forced.checkKeyChange chord.nonChanges cids) (Forced.dropZero key.changes) <;> simp only
      cases Forced.forAll (Forced.checkChordNonChange kids) chord.nonChanges <;> rfl

/-! ## Ranges -/

theorem addForced_move {n : Int} (h : Moves f n) (s : List Int) (x : Int) :
    addForced (s.map (lift f)) (lift f x) = (addForced s x).map (lift f) := by
  have hm : lift f x ∈ s.map (lift f) ↔ x ∈ s := by
    rw [List.mem_map]
    exact ⟨fun ⟨y, hy, e⟩ => lift_inj h e ▸ hy, fun hx => ⟨x, hx, rfl⟩⟩
  simp only [addForced, ne_eq, lift_eq_neg h, hm]
  split
  · split
    · rfl
    · simp
  · rfl

theorem scan_move {π κ δ : Type} [DecidableEq δ] [Zero δ] [Add δ] [LT δ] [DecidableLT δ] [LE π] [DecidableLE π] [LT π]
    [DecidableLT π] [Add κ] (A : RangeInput π κ δ) {g : Int → Int} {n n' : Int} (h : Moves f n) (h' : Moves g n')
    (start : Nat) : ∀ (fuel index : Nat) (running : κ) (rdur : δ) (fc fk : List Int) (st : RState κ),
    RangeInput.scan { A with forcedChord := fun i => lift f (A.forcedChord i), forcedKey := fun i => lift g (A.forcedKey i) }
      start fuel index running rdur (fc.map (lift f)) (fk.map (lift g)) st =
    RangeInput.scan A start fuel index running rdur fc fk st := by
  intro fuel
  induction fuel with
  | zero => intros; rfl
  | succ fuel ih =>
    intro index running rdur fc fk st
    have hinv : ∀ i, RangeInput.invalid { A with
        forcedChord := fun i => lift f (A.forcedChord i), forcedKey := fun i => lift g (A.forcedKey i) } i =
        A.invalid i := fun _ => rfl
    simp only [RangeInput.scan, hinv, addForced_move h, addForced_move h', List.length_map, ne_eq, lift_eq_neg h,
      lift_eq_neg h', ih]

theorem getChordRanges_move {π κ δ : Type} [DecidableEq δ] [Zero δ] [Add δ] [LT δ] [DecidableLT δ] [LE π] [DecidableLE π]
    [LT π] [DecidableLT π] [Add κ] [Sub κ] [Zero κ] (A : RangeInput π κ δ) {g : Int → Int} {n n' : Int} (h : Moves f n)
    (h' : Moves g n') :
    RangeInput.getChordRanges { A with
      forcedChord := fun i => lift f (A.forcedChord i), forcedKey := fun i => lift g (A.forcedKey i) } =
    A.getChordRanges := by
  have hs : ∀ start st, RangeInput.scanStart { A with
      forcedChord := fun i => lift f (A.forcedChord i), forcedKey := fun i => lift g (A.forcedKey i) } start st =
      A.scanStart start st := by
    intro start st
    exact scan_move A h h' start _ _ _ _ [] [] st
  have hl : ∀ fuel st, RangeInput.loop { A with
      forcedChord := fun i => lift f (A.forcedChord i), forcedKey := fun i => lift g (A.forcedKey i) } fuel st =
      A.loop fuel st := by
    intro fuel
    induction fuel with
    | zero => intros; rfl
    | succ fuel ih =>
      intro st
      simp only [RangeInput.loop, hs, ih]
  simp only [RangeInput.getChordRanges, hl]

theorem rangeInput_move {π κ ρ H P : Type} [Zero π] [One π] (m : Joint π κ ℚ ρ H P) (dur : List ℚ)
    (cids kids : List Int) (changes nonChanges : List Nat) {g : Int → Int} :
    m.rangeInput dur (cids.map (lift f)) (kids.map (lift g)) changes nonChanges =
      { m.rangeInput dur cids kids changes nonChanges with
        forcedChord := fun i => lift f ((m.rangeInput dur cids kids changes nonChanges).forcedChord i)
        forcedKey := fun i => lift g ((m.rangeInput dur cids kids changes nonChanges).forcedKey i) } := by
  have hd : ∀ (f : Int → Int) (l : List Int) (i : Nat), (l.map (lift f)).getD i (-1) = lift f (l.getD i (-1)) := by
    intro f l i
    simp only [List.getD_eq_getElem?_getD, List.getElem?_map]
    cases l[i]? <;> rfl
  simp only [Joint.rangeInput, hd]

end

/-! ## Labels -/

theorem chord_moves (k : Int) : Moves (upChord k) (chordOneHotLength .midi false true false noReduction) where
  inj := upChord_inj k
  nonneg x hx := by
    unfold upChord wrap
    split
    · rename_i h1
      obtain ⟨_, _, _, _, _, _, _, _, b1, _⟩ := upClass_spec k h1.1 h1.2
      exact b1
    · rw [if_neg (by omega)]; exact hx
  range x := by
    unfold upChord wrap
    split
    · rename_i h1
      obtain ⟨_, _, _, _, _, _, _, _, b1, b2⟩ := upClass_spec k h1.1 h1.2
      omega
    · split
      · rename_i h1 h2
        obtain ⟨_, _, _, _, _, _, _, _, b1, b2⟩ := upClass_spec k (c := x + (chordOneHotLength .midi false true false noReduction : Int))
          (by omega) (by omega)
        omega
      · rfl

theorem key_moves (k : Int) : Moves (upKey k) 24 where
  inj := upKey_inj k
  nonneg _ hx := upKey_nonneg hx
  range x := by
    unfold upKey wrap
    split
    · simp only; omega
    · split
      · simp only; omega
      · rfl

theorem fill_mem {ids : List Int} {a b : Nat} {v x : Int} (h : x ∈ Forced.fill ids a b v) : x ∈ ids ∨ x = v := by
  simp only [Forced.fill, List.mem_mapIdx] at h
  obtain ⟨j, hj, e⟩ := h
  split at e
  · exact .inr e.symm
  · exact .inl (e ▸ List.getElem_mem hj)

theorem loadLabels_mem {n : Int} {labels : List ((Int × Int) × Int)} {ids out : List Int}
    (h : Forced.loadLabels n labels ids = .ok out) :
    ∀ x ∈ out, x ∈ ids ∨ ∃ l ∈ labels, l.2 = x ∧ 0 ≤ x := by
  induction labels generalizing ids with
  | nil => exact fun x hx => .inl (Except.ok.inj h ▸ hx)
  | cons l labels ih =>
    obtain ⟨⟨a, b⟩, v⟩ := l
    simp only [Forced.loadLabels] at h
    split at h
    · cases h
    · rename_i hv
      split at h
      · intro x hx
        rcases ih h x hx with h1 | ⟨l, hl, e⟩
        · rcases fill_mem h1 with h1 | h1
          · exact .inl h1
          · exact .inr ⟨_, List.mem_cons_self, h1.symm, by omega⟩
        · exact .inr ⟨l, List.mem_cons_of_mem _ hl, e⟩
      · cases h

theorem loadLabels_first {n : Int} {labels : List ((Int × Int) × Int)} {ids out : List Int}
    (h : Forced.loadLabels n labels ids = .ok out) (hne : 0 < ids.length)
    (h0 : (∃ x, ids[0]? = some x ∧ 0 ≤ x) ∨ ∃ l ∈ labels, l.1.1 = 0 ∧ 0 < l.1.2) : ∃ x, out[0]? = some x ∧ 0 ≤ x := by
  induction labels generalizing ids with
  | nil =>
    rcases h0 with h0 | ⟨_, hl, _⟩
    · exact Except.ok.inj h ▸ h0
    · cases hl
  | cons l labels ih =>
    obtain ⟨⟨a, b⟩, v⟩ := l
    simp only [Forced.loadLabels] at h
    split at h
    · cases h
    · rename_i hv
      split at h
      · refine ih h (by simpa [Forced.fill] using hne) ?_
        have hget : (Forced.fill ids (Forced.sliceIdx ids.length a) (Forced.sliceIdx ids.length b) v)[0]? =
            some (if Forced.sliceIdx ids.length a ≤ 0 ∧ 0 < Forced.sliceIdx ids.length b then v else ids[0]) := by
          simp only [Forced.fill, List.getElem?_mapIdx, List.getElem?_eq_getElem hne, Option.map_some]
        rcases h0 with ⟨x, hx, hx0⟩ | ⟨l, hl, h1, h2⟩
        · left
          refine ⟨_, hget, ?_⟩
          rw [List.getElem?_eq_getElem hne] at hx
          rw [Option.some.inj hx]
          split <;> omega
        · rcases List.mem_cons.1 hl with rfl | hl
          · left
            refine ⟨_, hget, ?_⟩
            simp only at h1 h2
            rw [if_pos]
            · omega
            · simp only [Forced.sliceIdx, h1]
              refine ⟨by simp, ?_⟩
              rw [if_neg (by omega)]
              omega
          · exact .inr ⟨l, hl, h1, h2⟩
      · cases h

theorem validateType_load {δ : Type} [DecidableEq δ] [Zero δ] {dur : List δ} {t : ForcedType} {ids : List Int}
    (h : Forced.validateType dur t = .ok ids) :
    Forced.loadLabels t.maxId t.labels (List.replicate dur.length (-1)) = .ok ids := by
  simp only [Forced.validateType, Bind.bind] at h
  obtain ⟨_, _, h⟩ := SearchData.bind_ok h
  obtain ⟨_, _, h⟩ := SearchData.bind_ok h
  obtain ⟨_, _, h⟩ := SearchData.bind_ok h
  obtain ⟨_, _, h⟩ := SearchData.bind_ok h
  obtain ⟨ids', h1, h⟩ := SearchData.bind_ok h
  obtain ⟨_, _, h⟩ := SearchData.bind_ok h
  obtain ⟨_, _, h⟩ := SearchData.bind_ok h
  rw [h1, Except.ok.inj h]

theorem validate_load {δ : Type} [DecidableEq δ] [Zero δ] {dur : List δ} {chord key : ForcedType}
    {ids : List Int × List Int} (h : Forced.validate dur chord key = .ok ids) :
    Forced.loadLabels chord.maxId chord.labels (List.replicate dur.length (-1)) = .ok ids.1 ∧
    Forced.loadLabels key.maxId key.labels (List.replicate dur.length (-1)) = .ok ids.2 := by
  simp only [Forced.validate, Bind.bind] at h
  obtain ⟨cids, h1, h⟩ := SearchData.bind_ok h
  obtain ⟨kids, h2, h⟩ := SearchData.bind_ok h
  obtain ⟨_, _, h⟩ := SearchData.bind_ok h
  obtain ⟨_, _, h⟩ := SearchData.bind_ok h
  have h := Except.ok.inj h
  subst h
  exact ⟨validateType_load h1, validateType_load h2⟩

/-- All labels that are forced are the same. -/
def OneLabel (t : ForcedType) : Prop := ∀ l ∈ t.labels, ∀ l' ∈ t.labels, l.2 = l'.2

/-- The first note has a label. -/
def FirstLabel (t : ForcedType) : Prop := ∃ l ∈ t.labels, l.1.1 = 0 ∧ 0 < l.1.2

theorem load_facts {t : ForcedType} {n : Nat} {ids : List Int}
    (h : Forced.loadLabels t.maxId t.labels (List.replicate n (-1)) = .ok ids) :
    (∀ x ∈ ids, x = -1 ∨ 0 ≤ x) ∧ (OneLabel t → ∀ x ∈ ids, ∀ y ∈ ids, x ≠ -1 → y ≠ -1 → x = y) ∧
    (∀ f, ids.map (lift f) = ids.map (upForced f)) := by
  have hm := loadLabels_mem h
  have h1 : ∀ x ∈ ids, x = -1 ∨ 0 ≤ x := by
    intro x hx
    rcases hm x hx with h | ⟨l, _, _, h⟩
    · exact .inl (List.mem_replicate.1 h).2
    · exact .inr h
  refine ⟨h1, fun ho x hx y hy hx1 hy1 => ?_, fun f => List.map_congr_left fun x hx => ?_⟩
  · rcases hm x hx with h | ⟨l, hl, e, _⟩
    · exact absurd (List.mem_replicate.1 h).2 hx1
    · rcases hm y hy with h | ⟨l', hl', e', _⟩
      · exact absurd (List.mem_replicate.1 h).2 hy1
      · rw [← e, ← e', ho l hl l' hl']
  · unfold lift upForced
    rcases h1 x hx with rfl | h
    · rfl
    · rw [if_neg (by omega), if_neg (by omega)]

/-! ## The analysis -/

/-- The networks treat a piece that is moved by `i` fifths and `k` semitones like the piece: the chord transition model
gives the same probabilities, and the chord classifier gives each chord moved by `k` semitones that of the chord, in the
same order. -/
structure Equivariant {π κ ρ H P : Type} (N : Analyser π κ ρ H P) (i k : Int) : Prop where
  ctm : ∀ vs vs', List.Forall₂ (MovedRow i k) vs vs' → N.ctm vs' = N.ctm vs
  ccm : ∀ vs vs', List.Forall₂ (MovedRow i k) vs vs' → ∀ c, pyGet (N.ccm vs') (upChord k c) = pyGet (N.ccm vs) c
  order : ∀ vs vs', List.Forall₂ (MovedRow i k) vs vs' →
    N.params.argsort (N.ccm vs') = (N.params.argsort (N.ccm vs)).map (upChord k)
  branch : ∀ vs vs', List.Forall₂ (MovedRow i k) vs vs' → N.params.branch (N.ccm vs') = N.params.branch (N.ccm vs)

theorem forall₂_zip {α β γ : Type} {R : β → γ → Prop} (l : List α) {vs : List β} {vs' : List γ}
    (h : List.Forall₂ R vs vs') :
    List.Forall₂ (fun e e' => e'.1 = e.1 ∧ R e.2 e'.2) (l.zip vs) (l.zip vs') := by
  induction h generalizing l with
  | nil => simp
  | cons h _ ih =>
    cases l with
    | nil => simp
    | cons a l => exact List.Forall₂.cons ⟨rfl, h⟩ (ih l)

section
variable {π κ ρ H : Type} [LE π] [DecidableLE π] [LT π] [DecidableLT π] [Zero π] [One π] [Add κ] [Sub κ] [Zero κ]
    [DecidableEq κ] [DecidableEq H]

/-- C162 (partial: one key is forced, on the first note at least, and at most one chord): the analysis of a piece that is
moved is the moved analysis, if the networks treat the notes like the moved notes. -/
theorem C162_transposes_partial (N : Analyser π κ ρ H (List κ)) {nets : Nets κ ρ H (List κ)} {useInv : Bool}
    {red : Reduction} {i k : Int} (hk : (7 * i - k) % 12 = 0) (hN : Equivariant N i k)
    (hnet : ∀ C, RunsNets (N.search C) nets C useInv red) (hmidi : ∀ C, (N.search C).pitchType = .midi)
    (hp : ∀ C l, l ≠ [] → (N.search C).pick l ∈ l) (x : Analysed) (hx : ∀ n ∈ x.notes, CanMove i k n)
    (chord key : ForcedType) (hcm : chord.maxId = chordOneHotLength .midi false true false noReduction)
    (hkm : key.maxId = 24) (hc1 : OneLabel chord) (hk1 : OneLabel key) (hk0 : FirstLabel key) :
    N.analyse (movePiece i k x) (moveForced (upChord k) chord) (moveForced (upKey k) key) =
      (N.analyse x chord key).map (Option.map (upState k)) := by
  have hcM : Moves (upChord k) chord.maxId := hcm ▸ chord_moves k
  have hkM : Moves (upKey k) key.maxId := hkm ▸ key_moves k
  have hrel : PyRel (fun r r' => r' = Option.map (upState k) r) (N.analyse x chord key)
      (N.analyse (movePiece i k x) (moveForced (upChord k) chord) (moveForced (upKey k) key)) := by
    simp only [Analyser.analyse, cache_move, caches_move, window_move, validate_move _ _ _ hcM hkM, Bind.bind]
    refine PyRel.bind (R := Eq) PyRel.refl fun cache _ _ _ e => ?_
    subst e
    refine PyRel.bind (R := Eq) PyRel.refl fun C _ _ _ e => ?_
    subst e
    refine PyRel.bind (R := fun ids ids' => ids' = (ids.1.map (lift (upChord k)), ids.2.map (lift (upKey k))))
      (by cases Forced.validate cache chord key <;> rfl) fun ids _ hids _ e => ?_
    subst e
    refine PyRel.bind (ctmInputs_move hk hx cache) fun inputs inputs' _ _ hin => ?_
    rw [hN.ctm _ _ hin]
    refine PyRel.bind (R := Eq) PyRel.refl fun changes _ _ _ e => ?_
    subst e
    refine PyRel.bind (R := Eq) PyRel.refl fun nonChanges _ _ _ e => ?_
    subst e
    rw [rangeInput_move, getChordRanges_move _ hcM hkM]
    refine PyRel.bind (R := Eq) PyRel.refl fun rs _ hrs _ e => ?_
    subst e
    refine PyRel.bind (R := Eq) PyRel.refl fun ws _ _ _ e => ?_
    subst e
    refine PyRel.bind (chordNoteInputs_move hk hx ws _) fun vs vs' _ _ hvs => ?_
    obtain ⟨hl1, hl2⟩ := validate_load hids
    obtain ⟨hf1, hf2, hf3⟩ := load_facts hl1
    obtain ⟨hg1, hg2, hg3⟩ := load_facts hl2
    generalize hm : N.withProbs (N.ctm inputs) C = m
    have hms : m.search = N.search C := by rw [← hm]; rfl
    have hma : m.argsort = N.params.argsort := by rw [← hm]; rfl
    have hmb : m.branch = N.params.branch := by rw [← hm]; rfl
    have hlen : (movePiece i k x).notes.length = x.notes.length := by simp [movePiece]
    rw [hlen, hf3, hg3]
    have hT : Transposed k
        (m.searchData x.notes.length (((rs.1.zip rs.2).zip (vs.map N.ccm)).map (Analyser.row m)) ids.1 ids.2)
        (m.searchData x.notes.length (((rs.1.zip rs.2).zip (vs'.map N.ccm)).map (Analyser.row m))
          (ids.1.map (upForced (upChord k))) (ids.2.map (upForced (upKey k)))) := by
      refine ⟨?_, rfl, rfl, rfl, rfl, rfl, rfl, rfl, rfl, rfl, rfl, rfl, rfl, rfl, rfl, ?_, rfl, rfl⟩
      · simp only [Joint.searchData, hms, hmidi, and_self]
      · simp only [Joint.searchData]
        rw [List.forall₂_map_left_iff, List.forall₂_map_right_iff]
        have hccm : List.Forall₂ (fun p p' => N.params.argsort p' = (N.params.argsort p).map (upChord k) ∧
            N.params.branch p' = N.params.branch p ∧ ∀ c, pyGet p' (upChord k c) = pyGet p c) (vs.map N.ccm) (vs'.map N.ccm) := by
          rw [List.forall₂_map_left_iff, List.forall₂_map_right_iff]
          exact hvs.imp fun v v' h => ⟨hN.order v v' h, hN.branch v v' h, hN.ccm v v' h⟩
        refine (forall₂_zip (rs.1.zip rs.2) hccm).imp ?_
        rintro ⟨a, b⟩ ⟨a', b'⟩ ⟨e, h2, h3, h4⟩
        simp only at e h2 h3 h4
        subst e
        simp only [Analyser.row, hma, hmb]
        exact ⟨trivial, trivial, trivial, trivial, h3, h2, h4⟩
    have hruns : ∀ n ranges c q, RunsNets (m.searchData n ranges c q) nets C useInv red := by
      intro n ranges c q
      have h := hnet C
      rw [← hms] at h
      exact { csm := h.csm, ktm := h.ktm, ksm := h.ksm, labels := h.labels, relativeKeys := h.relativeKeys,
              csmCost := h.csmCost }
    have hpick : ∀ l : List Int, l ≠ [] → m.search.pick l ∈ l := by rw [hms]; exact hp C
    have hch := C134_chooses hT hpick hpick hf1 hg1
      (fun e _ x hx y hy => hf2 hc1 x (List.mem_of_mem_take (List.mem_of_mem_drop hx)) y
        (List.mem_of_mem_take (List.mem_of_mem_drop hy))) (hg2 hk1)
    have hfirst : FirstKey (m.searchData x.notes.length
        (((rs.1.zip rs.2).zip (vs.map N.ccm)).map (Analyser.row m)) ids.1 ids.2) := by
      have hne : cache.length ≠ 0 := by
        intro e
        simp only [RangeInput.getChordRanges, Joint.rangeInput, e, if_true] at hrs
        cases hrs
      obtain ⟨v, hv, hv0⟩ := loadLabels_first hl2 (by rw [List.length_replicate]; omega) (.inr hk0)
      exact ⟨v, hv0, by simp only [Joint.searchData, pyGet, le_refl, if_true, Int.toNat_zero, hv]⟩
    have := C134_transposes_partial (hruns _ _ _ _) (hruns _ _ _ _) hT hch hfirst
    rw [this]
    cases (m.searchData x.notes.length (((rs.1.zip rs.2).zip (vs.map N.ccm)).map (Analyser.row m)) ids.1 ids.2).search <;> rfl
  revert hrel
  cases N.analyse x chord key <;>
    cases N.analyse (movePiece i k x) (moveForced (upChord k) chord) (moveForced (upKey k) key) <;> intro hrel <;>
    simp only [PyRel] at hrel
  · rw [hrel]; rfl
  · rw [hrel]; rfl

end

/-- C162: what the networks read of a piece that is moved: rows in which only the pitch, the octaves and the height are
moved. -/
theorem C162_rows {i k : Int} (hk : (7 * i - k) % 12 = 0) (x : Analysed) (hx : ∀ n ∈ x.notes, CanMove i k n) :
    (∀ cache rows, ctmInputs x.notes cache = .ok rows →
      ∃ rows', ctmInputs (movePiece i k x).notes cache = .ok rows' ∧ List.Forall₂ (MovedRow i k) rows rows') ∧
    ∀ ws cs vs, chordNoteInputs x.notes x.chords x.measures 2 (some ws) (some cs) = .ok vs →
      ∃ vs', chordNoteInputs (movePiece i k x).notes x.chords x.measures 2 (some ws) (some cs) = .ok vs' ∧
        List.Forall₂ (List.Forall₂ (MovedRow i k)) vs vs' := by
  refine ⟨fun cache rows h => ?_, fun ws cs vs h => ?_⟩
  · have hr := ctmInputs_move hk hx cache
    rw [h] at hr
    cases h' : ctmInputs (x.notes.map (moveNote i k)) cache with
    | error e => rw [h'] at hr; cases hr
    | ok rows' => rw [h'] at hr; exact ⟨rows', h', hr⟩
  · have hr := chordNoteInputs_move hk hx ws cs
    rw [h] at hr
    cases h' : chordNoteInputs (movePiece i k x).notes x.chords x.measures 2 (some ws) (some cs) with
    | error e => rw [h'] at hr; cases hr
    | ok vs' => rw [h'] at hr; exact ⟨vs', rfl, hr⟩

/-- `o` has the indexes of `p`, those of larger values first. -/
structure IsOrder {κ : Type} [LE κ] (p : List κ) (o : List Int) : Prop where
  mem : ∀ c, c ∈ o ↔ 0 ≤ c ∧ c < p.length
  nodup : o.Nodup
  sorted : o.Pairwise fun a b => ∀ u v, pyGet p a = .ok u → pyGet p b = .ok v → v ≤ u

theorem pyGet_nodup {κ : Type} {p : List κ} (h : p.Nodup) {a b : Int} {u : κ} (ha : 0 ≤ a) (hb : 0 ≤ b)
    (h1 : pyGet p a = .ok u) (h2 : pyGet p b = .ok u) : a = b := by
  unfold pyGet at h1 h2
  rw [if_pos ha] at h1
  rw [if_pos hb] at h2
  cases e1 : p[a.toNat]? with
  | none => rw [e1] at h1; cases h1
  | some u' =>
    cases e2 : p[b.toNat]? with
    | none => rw [e2] at h2; cases h2
    | some v' =>
      rw [e1] at h1
      rw [e2] at h2
      have h1 := Except.ok.inj h1
      have h2 := Except.ok.inj h2
      obtain ⟨l1, g1⟩ := List.getElem?_eq_some_iff.1 e1
      obtain ⟨l2, g2⟩ := List.getElem?_eq_some_iff.1 e2
      have := (List.Nodup.getElem_inj_iff h (hi := l1) (hj := l2)).1 (by rw [g1, g2, h1, h2])
      omega

/-- C162: the order of the chords is moved if there are no ties. -/
theorem C162_order {κ : Type} [PartialOrder κ] {k : Int} {p p' : List κ}
    (hl : (p.length : Int) = chordOneHotLength .midi false true false noReduction) (hl' : p'.length = p.length)
    (h : ∀ c, pyGet p' (upChord k c) = pyGet p c) (hp : p'.Nodup) {o o' : List Int} (ho : IsOrder p o)
    (ho' : IsOrder p' o') : o' = o.map (upChord k) := by
  have hmv := chord_moves k
  have hget : ∀ c : Int, 0 ≤ c → c < (p'.length : Int) → ∃ u, pyGet p' c = .ok u := by
    intro c h0 h1
    refine ⟨p'[c.toNat]'(by omega), ?_⟩
    unfold pyGet
    rw [if_pos h0, List.getElem?_eq_getElem (by omega)]
  have hrange : ∀ c ∈ o.map (upChord k), 0 ≤ c ∧ c < p'.length := by
    intro c hc
    obtain ⟨c', hc', rfl⟩ := List.mem_map.1 hc
    have h1 := (ho.mem c').1 hc'
    have h2 := hmv.range c'
    omega
  have hnd : (o.map (upChord k)).Nodup := ho.nodup.map (upChord_inj k)
  have hperm : o'.Perm (o.map (upChord k)) := by
    have hlen : o'.length = (o.map (upChord k)).length := by
      have hcount : ∀ (q : List κ) (r : List Int), IsOrder q r → r.length = q.length := by
        intro q r hr
        have : r.Perm ((List.range q.length).map fun j : Nat => (j : Int)) := by
          rw [List.perm_ext_iff_of_nodup hr.nodup (List.Nodup.map (f := fun j : Nat => (j : Int)) (fun a b e => by simpa using e) List.nodup_range)]
          intro a
          rw [hr.mem, List.mem_map]
          constructor
          · rintro ⟨h0, h1⟩
            exact ⟨a.toNat, by rw [List.mem_range]; omega, by omega⟩
          · rintro ⟨j, hj, rfl⟩
            rw [List.mem_range] at hj
            omega
        rw [this.length_eq, List.length_map, List.length_range]
      rw [List.length_map, hcount _ _ ho, hcount _ _ ho', hl']
    refine ((List.subperm_of_subset hnd ?_).perm_of_length_le (by omega)).symm
    intro c hc
    exact (ho'.mem c).2 (hrange c hc)
  refine List.Perm.eq_of_pairwise ?_ ho'.sorted ?_ hperm
  · intro a b ha hb h1 h2
    have ra := (ho'.mem a).1 ha
    have rb := hrange b hb
    obtain ⟨u, hu⟩ := hget a ra.1 ra.2
    obtain ⟨v, hv⟩ := hget b rb.1 rb.2
    have := le_antisymm (h1 u v hu hv) (h2 v u hv hu)
    subst this
    exact pyGet_nodup hp ra.1 rb.1 hu hv
  · rw [List.pairwise_map]
    refine ho.sorted.imp fun {a b} hab u v hu hv => hab u v ?_ ?_
    · rw [← h]; exact hu
    · rw [← h]; exact hv

/-! ## A concrete case -/

/-- The semitones of the pitch of a row. -/
def rowRoot (v : List ℚ) : Option Int :=
  match whereOne v with
  | .ok p => some (7 * (p - 15) % 12)
  | .error _ => none

/-- Chords are major chords on the first note of a range: major triads in root position are the first classes, three
for each root. -/
def rootNet (vs : List (List ℚ)) : List Int :=
  match (vs[2]?).bind rowRoot with
  | some s => (List.replicate (chordOneHotLength .midi false true false noReduction).toNat (-2)).set (3 * s).toNat (-1)
  | none => []

/-- The first chord with the prior -1. -/
def firstClass (p : List Int) : List Int :=
  match p.findIdx? fun x => decide (x = -1) with
  | some j => [(j : Int)]
  | none => []

/-- The search of `SearchRuns.netDemo` with the given caches. -/
def movedSearch (C : Caches) : SearchData Int Int Unit (List Int) :=
  { SearchRuns.netDemo .midi true noReduction none 0 [] with
    csm := fun s => (s.csmInput (stdLabels .midi) .midi C).map
      ((SearchRuns.flatNets .midi true noReduction).csm s.node.csmHidden)
    ktm := fun s => (State.ktmInput (stdLabels .midi) .midi C s.node s.prev).map
      ((SearchRuns.flatNets .midi true noReduction).ktm s.node.ktmHidden)
    ksm := fun s => (State.ksmInput (stdLabels .midi) .midi C s.node s.prev).bind fun rows =>
      ksmOutput (SearchRuns.flatNets .midi true noReduction)
        (runNet (SearchRuns.flatNets .midi true noReduction).ksm s.node.ksmHidden rows) }

/-- Each note is a chord. -/
def movedAnalyser : Analyser ℚ Int Int Unit (List Int) where
  params := ⟨4, 1/4, 3/4, fun _ => 0, fun _ => -1, fun _ => -1, fun _ _ => [], firstClass, fun _ => 1, movedSearch ⟨[], []⟩⟩
  ctm inputs := inputs.map fun _ => 1
  ccm := rootNet
  search := movedSearch

open AnalysedPieces in
/-- What is forced: the key `f` on the first note. -/
def firstKey (f : Int) : ForcedType := ⟨[], [], [((0, 1), f)], 24⟩

def noChords : ForcedType := ⟨[], [], [], chordOneHotLength .midi false true false noReduction⟩

/-- The classes of major triads. -/
theorem upChord_major (k : Int) {s : Int} (h0 : 0 ≤ s) (h1 : s < 12) : upChord k (3 * s) = 3 * ((s + k) % 12) := by
  have hd : ∀ r : Fin 12, chordFromOneHotIndex (3 * (r.1 : Int)) .midi true false false noReduction =
      .ok ((r.1 : Int), .major, 0) := by decide +kernel
  have he : ∀ r : Fin 12, chordOneHotIndex .major (r.1 : Int) .midi 0 true false false noReduction =
      .ok (3 * (r.1 : Int)) := by decide +kernel
  have hd' := hd ⟨s.toNat, by omega⟩
  have he' := he ⟨((s + k) % 12).toNat, by omega⟩
  simp only [Int.toNat_of_nonneg h0] at hd'
  simp only [Int.toNat_of_nonneg (Int.emod_nonneg (s + k) (by decide : (12 : Int) ≠ 0))] at he'
  have hl : (36 : Int) ≤ chordOneHotLength .midi false true false noReduction := by decide +kernel
  unfold upChord wrap
  rw [if_pos ⟨by omega, by omega⟩]
  unfold upClass
  rw [hd']
  simp only
  rw [he']

/-- One chord is more likely than all others. -/
def peak (m : Int) : List Int :=
  (List.replicate (chordOneHotLength .midi false true false noReduction).toNat (-2)).set m.toNat (-1)

theorem pyGet_peak {m : Int} (h0 : 0 ≤ m) (c : Int) : pyGet (peak m) c =
    if 0 ≤ c ∧ c < chordOneHotLength .midi false true false noReduction then .ok (if c = m then -1 else -2)
    else if -chordOneHotLength .midi false true false noReduction ≤ c ∧ c < 0 then
      .ok (if c + chordOneHotLength .midi false true false noReduction = m then -1 else -2)
    else .error .indexError := by
  have hl : (36 : Int) ≤ chordOneHotLength .midi false true false noReduction := by decide +kernel
  unfold peak pyGet
  simp only [List.length_set, List.length_replicate, List.getElem?_set, List.getElem?_replicate]
  generalize chordOneHotLength .midi false true false noReduction = n at *
  by_cases hc : 0 ≤ c
  · rw [if_pos hc]
    by_cases hn : c < n
    · rw [if_pos (show 0 ≤ c ∧ c < n from ⟨hc, hn⟩)]
      by_cases hm : c = m
      · subst hm
        rw [if_pos rfl, if_pos (by omega), if_pos rfl]
      · rw [if_neg (by omega), if_pos (by omega), if_neg hm]
    · rw [if_neg (show ¬(0 ≤ c ∧ c < n) by omega), if_neg (show ¬(-n ≤ c ∧ c < 0) by omega)]
      by_cases hm : m.toNat = c.toNat
      · rw [if_pos hm, if_neg (by omega)]
      · rw [if_neg hm, if_neg (by omega)]
  · rw [if_neg hc, if_neg (show ¬(0 ≤ c ∧ c < n) by omega)]
    by_cases hn : -n ≤ c
    · rw [if_pos (by omega), if_pos (show -n ≤ c ∧ c < 0 by omega)]
      by_cases hm : c + n = m
      · rw [if_pos (by omega), if_pos (by omega), if_pos hm]
      · rw [if_neg (by omega), if_pos (by omega), if_neg hm]
    · rw [if_neg (by omega), if_neg (show ¬(-n ≤ c ∧ c < 0) by omega)]

theorem pyGet_peak_move (k : Int) {m m' : Int} (h0 : 0 ≤ m) (h0' : 0 ≤ m')
    (h : upChord k m = m') (c : Int) :
    pyGet (peak m') (upChord k c) = pyGet (peak m) c := by
  have hin : ∀ a, 0 ≤ a → a < chordOneHotLength .midi false true false noReduction →
      (0 ≤ upClass k a ∧ upClass k a < chordOneHotLength .midi false true false noReduction) ∧
      (upClass k a = m' ↔ a = m) := by
    intro a ha ha'
    have hu : upChord k a = upClass k a := by unfold upChord wrap; rw [if_pos ⟨ha, ha'⟩]
    obtain ⟨_, _, _, _, _, _, _, _, b1, b2⟩ := upClass_spec k ha ha'
    refine ⟨⟨b1, b2⟩, ?_⟩
    rw [← hu, ← h]
    exact (upChord_inj k).eq_iff
  rw [pyGet_peak h0, pyGet_peak h0']
  unfold upChord wrap
  by_cases hc : 0 ≤ c ∧ c < chordOneHotLength .midi false true false noReduction
  · obtain ⟨b, e⟩ := hin c hc.1 hc.2
    rw [if_pos hc, if_pos b, if_pos hc]
    simp only [e]
  · rw [if_neg hc, if_neg hc]
    by_cases hn : -chordOneHotLength .midi false true false noReduction ≤ c ∧ c < 0
    · obtain ⟨b, e⟩ := hin (c + chordOneHotLength .midi false true false noReduction) (by omega) (by omega)
      rw [if_pos hn, if_neg (by omega), if_pos (by omega), if_pos hn]
      simp only [Int.sub_add_cancel, e]
    · rw [if_neg hn, if_neg hc, if_neg hn, if_neg hn]

theorem firstClass_peak {m : Int} (h0 : 0 ≤ m) (h1 : m < chordOneHotLength .midi false true false noReduction) :
    firstClass (peak m) = [m] := by
  unfold firstClass
  have : (peak m).findIdx? (fun x => decide (x = -1)) = some m.toNat := by
    rw [List.findIdx?_eq_some_iff_getElem]
    unfold peak
    refine ⟨by simp only [List.length_set, List.length_replicate]; omega, by simp, fun j hj => ?_⟩
    rw [List.getElem_set]
    rw [if_neg (by omega)]
    simp
  rw [this]
  simp only [Int.toNat_of_nonneg h0]

theorem rowRoot_move {i k : Int} (hk : (7 * i - k) % 12 = 0) {v v' : List ℚ} (h : MovedRow i k v v') :
    rowRoot v' = (rowRoot v).map (fun s => (s + k) % 12) ∧ ∀ s, rowRoot v = some s → 0 ≤ s ∧ s < 12 := by
  rcases h with ⟨p, h, r, r', mid, rel, e, hp, hp', hh, hh', hm, rfl, rfl⟩ | ⟨n, rfl, rfl⟩
  · have w : ∀ (q : Int) (rest : List ℚ), 0 ≤ q → q < 35 → rowRoot (hot 35 q.toNat ++ rest) = some (7 * (q - 15) % 12) := by
      intro q rest h0 h1
      unfold rowRoot
      rw [whereOne_hot 35 q.toNat (by omega)]
      simp only [Int.toNat_of_nonneg h0]
    simp only [List.append_assoc]
    rw [w p _ hp.1 hp.2, w (p + i) _ hp'.1 hp'.2]
    refine ⟨?_, fun s hs => ?_⟩
    · simp only [Option.map_some, Option.some.injEq]; omega
    · have := Option.some.inj hs; omega
  · have : rowRoot (List.replicate n (0 : ℚ)) = none := by
      unfold rowRoot whereOne
      rw [List.findIdx?_replicate]
      simp
    rw [this]
    exact ⟨rfl, fun s hs => by cases hs⟩

theorem rootNet_move {i k : Int} (hk : (7 * i - k) % 12 = 0) {vs vs' : List (List ℚ)}
    (h : List.Forall₂ (MovedRow i k) vs vs') :
    (rootNet vs = [] ∧ rootNet vs' = []) ∨
      ∃ s, (0 ≤ s ∧ s < 12) ∧ rootNet vs = peak (3 * s) ∧ rootNet vs' = peak (3 * ((s + k) % 12)) := by
  have hl := h.length_eq
  unfold rootNet
  cases e : vs[2]? with
  | none =>
    have : vs'[2]? = none := by rw [List.getElem?_eq_none_iff] at e ⊢; omega
    rw [this]
    exact .inl ⟨rfl, rfl⟩
  | some v =>
    obtain ⟨hlt, hv⟩ := List.getElem?_eq_some_iff.1 e
    have e' : vs'[2]? = some (vs'[2]'(by omega)) := List.getElem?_eq_getElem (by omega)
    have hm : MovedRow i k v (vs'[2]'(by omega)) := hv ▸ h.get hlt (by omega)
    obtain ⟨h1, h2⟩ := rowRoot_move hk hm
    rw [e']
    simp only [Option.bind_some, h1]
    cases hr : rowRoot v with
    | none => exact .inl ⟨rfl, rfl⟩
    | some s => exact .inr ⟨s, h2 s hr, rfl, rfl⟩

theorem movedAnalyser_moves {i k : Int} (hk : (7 * i - k) % 12 = 0) : Equivariant movedAnalyser i k where
  ctm vs vs' h := by
    have := h.length_eq
    simp only [movedAnalyser, List.map_const', this]
  ccm vs vs' h c := by
    have hl : (36 : Int) ≤ chordOneHotLength .midi false true false noReduction := by decide +kernel
    change pyGet (rootNet vs') (upChord k c) = pyGet (rootNet vs) c
    rcases rootNet_move hk h with ⟨h1, h2⟩ | ⟨s, hs, h1, h2⟩
    · rw [h1, h2]
      have : ∀ a, pyGet ([] : List Int) a = .error .indexError := by
        intro a; unfold pyGet; split <;> simp
      rw [this, this]
    · rw [h1, h2]
      exact pyGet_peak_move k (by omega) (by omega) (upChord_major k hs.1 hs.2) c
  order vs vs' h := by
    have hl : (36 : Int) ≤ chordOneHotLength .midi false true false noReduction := by decide +kernel
    change firstClass (rootNet vs') = (firstClass (rootNet vs)).map (upChord k)
    rcases rootNet_move hk h with ⟨h1, h2⟩ | ⟨s, hs, h1, h2⟩
    · rw [h1, h2]; rfl
    · rw [h1, h2, firstClass_peak (by omega) (by omega), firstClass_peak (by omega) (by omega), List.map_singleton,
        upChord_major k hs.1 hs.2]
  branch _ _ _ := rfl

theorem movedSearch_nets (C : Caches) :
    RunsNets (movedSearch C) (SearchRuns.flatNets .midi true noReduction) C true noReduction where
  csm _ := rfl
  ktm _ := rfl
  ksm _ := rfl
  labels := rfl
  relativeKeys := rfl
  csmCost _ := rfl

open AnalysedPieces

/-- Two notes, C and E. -/
def movedDemo : Analysed := ⟨demoNotes, demoMeasures, none⟩

theorem movedDemo_can : ∀ n ∈ movedDemo.notes, CanMove 1 7 n := by
  intro n hn
  simp only [movedDemo, demoNotes, List.mem_cons, List.not_mem_nil, or_false] at hn
  rcases hn with rfl | rfl <;> constructor <;> decide

/-- What C162_transposes_partial asks for holds for these networks and the two notes, a fifth higher. -/
example : movedAnalyser.analyse (movePiece 1 7 movedDemo) (moveForced (upChord 7) noChords)
    (moveForced (upKey 7) (firstKey 0)) =
      (movedAnalyser.analyse movedDemo noChords (firstKey 0)).map (Option.map (upState 7)) := by
  refine C162_transposes_partial movedAnalyser (by decide) (movedAnalyser_moves (by decide))
    (fun C => movedSearch_nets C) (fun _ => rfl) (fun _ => pickMin_mem) movedDemo movedDemo_can noChords (firstKey 0) rfl rfl
    ?_ ?_ ?_
  · intro l hl; cases hl
  · intro l hl l' hl'
    rw [List.mem_singleton.1 hl, List.mem_singleton.1 hl']
  · exact ⟨_, List.mem_singleton.2 rfl, rfl, by decide⟩

/-- The two chords of the piece, and of the piece a fifth higher. -/
theorem moved_first : (movedAnalyser.analyse movedDemo noChords (firstKey 0)).map
    (Option.map fun s => (getChords s, getKeys s)) = .ok (some (([some 0, some 12], [0, 1, 2]), [0], [0, 2])) := by
  decide +kernel

example : (movedAnalyser.analyse (movePiece 1 7 movedDemo) noChords (firstKey 7)).map
    (Option.map fun s => (getChords s, getKeys s)) = .ok (some (([some 21, some 33], [0, 1, 2]), [7], [0, 2])) := by
  decide +kernel

theorem moved_free : (movedAnalyser.analyse movedDemo noChords ⟨[], [], [], 24⟩).map
    (Option.map fun s => getKeys s) = .ok (some ([0], [0, 2])) := by decide +kernel

theorem moved_free' : (movedAnalyser.analyse (movePiece 1 7 movedDemo) noChords ⟨[], [], [], 24⟩).map
    (Option.map fun s => getKeys s) = .ok (some ([0], [0, 2])) := by decide +kernel

/-- C162 fails if no key is forced: with networks that treat the notes like the moved notes, C and E are in the first key,
C major, and so are G and B. -/
theorem C162_key_fails :
    ∃ (N : Analyser ℚ Int Int Unit (List Int)) (nets : Nets Int Int Unit (List Int)) (x : Analysed)
      (s s' : State Int Unit (List Int)),
      Equivariant N 1 7 ∧ (∀ C, RunsNets (N.search C) nets C true noReduction) ∧ (∀ C, (N.search C).pitchType = .midi) ∧
      (∀ C l, l ≠ [] → (N.search C).pick l ∈ l) ∧ (∀ n ∈ x.notes, CanMove 1 7 n) ∧
      N.analyse x noChords ⟨[], [], [], 24⟩ = .ok (some s) ∧
      N.analyse (movePiece 1 7 x) noChords ⟨[], [], [], 24⟩ = .ok (some s') ∧
      getKeys s = ([0], [0, 2]) ∧ getKeys s' = getKeys s ∧ s' ≠ upState 7 s := by
  have h1 := moved_free
  have h2 := moved_free'
  generalize ha : movedAnalyser.analyse movedDemo noChords ⟨[], [], [], 24⟩ = a at h1
  generalize hb : movedAnalyser.analyse (movePiece 1 7 movedDemo) noChords ⟨[], [], [], 24⟩ = b at h2
  cases a with
  | error e => cases h1
  | ok a =>
    cases b with
    | error e => cases h2
    | ok b =>
      cases a with
      | none => cases Except.ok.inj h1
      | some s =>
        cases b with
        | none => cases Except.ok.inj h2
        | some s' =>
          have h1 : getKeys s = ([0], [0, 2]) := Option.some.inj (Except.ok.inj h1)
          have h2 : getKeys s' = ([0], [0, 2]) := Option.some.inj (Except.ok.inj h2)
          refine ⟨movedAnalyser, _, movedDemo, s, s', movedAnalyser_moves (by decide), movedSearch_nets,
            fun _ => rfl, fun _ => pickMin_mem, movedDemo_can, ha, hb, h1, h2.trans h1.symm, fun e => ?_⟩
          have h3 := (C134_analysis 7 s).2.1
          rw [← e, h2, h1] at h3
          exact absurd (congrArg Prod.fst h3) (by decide)

/-- Three values and their order. -/
example : IsOrder [(1 : Int), 3, 2] [1, 2, 0] := by
  refine ⟨fun c => ?_, by decide, ?_⟩
  · simp only [List.mem_cons, List.not_mem_nil, or_false, List.length_cons, List.length_nil]
    omega
  · simp only [List.pairwise_cons, List.mem_cons, List.not_mem_nil, or_false, forall_eq_or_imp, forall_eq]
    refine ⟨⟨?_, ?_⟩, ?_, ?_⟩
    all_goals first | (intro u v hu hv; have hu := Except.ok.inj hu; have hv := Except.ok.inj hv; omega) | simp

/-- The rows of the two notes are found. -/
example : (ctmInputs movedDemo.notes [1, 1]).toOption.isSome = true := by decide +kernel

end Verif.TransposedPieces
