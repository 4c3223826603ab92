import Verif.TablePiece
import Verif.Props.Notes
import Verif.Props.PieceKeys
import Verif.Props.Rhythm
import Verif.Props.ClassTraining
import Verif.Props.TransitionTraining
import Mathlib.Data.List.Chain

/-!
# C149: what is trained on pieces from tables
-/

namespace Verif.TablePiece

open Verif.FromSeries Verif.Notes Verif.PieceKeys Verif.ChordInputs

/-! ## Positions -/

/-- A position inside of a measure of the chain. -/
def Inside (c : List (Measure ℚ)) (x : Int × ℚ) : Prop :=
  ∃ (k : Nat) (m : Measure ℚ), c[k]? = some m ∧ m.mc = x.1 ∧ m.offset ≤ x.2 ∧ x.2 < m.offset + m.actDur

theorem sum_take_le (c : List (Measure ℚ)) (h : ∀ m ∈ c, 0 ≤ m.actDur) (i j : Nat) (hij : i ≤ j) :
    ((c.take i).map (·.actDur)).sum ≤ ((c.take j).map (·.actDur)).sum := by
  induction c generalizing i j with
  | nil => simp
  | cons m c ih =>
    cases j with
    | zero => rw [Nat.le_zero.1 hij]
    | succ j =>
      have hm := h m (by simp)
      have hc : ∀ m ∈ c, 0 ≤ m.actDur := fun x hx => h x (by simp [hx])
      cases i with
      | zero =>
        have := ih hc 0 j (by omega)
        simp only [List.take_zero, List.map_nil, List.sum_nil, List.take_succ_cons, List.map_cons, List.sum_cons] at this ⊢
        linarith
      | succ i =>
        have := ih hc i j (by omega)
        simp only [List.take_succ_cons, List.map_cons, List.sum_cons]
        linarith

/-- Inside of measures, later means a greater position. -/
theorem at_lt {T c : List (Measure ℚ)} (h : Chain T c) (h0 : ∀ m ∈ c, 0 ≤ m.actDur) {x y : Int × ℚ} {p q : ℚ}
    (hx : Inside c x) (hy : Inside c y) (hp : At c x.1 x.2 p) (hq : At c y.1 y.2 q) (hlt : toLex x < toLex y) :
    p < q := by
  obtain ⟨i, m, hi, hm, rfl⟩ := hp
  obtain ⟨j, n, hj, hn, rfl⟩ := hq
  obtain ⟨i', m', hi', hm', -, hxe⟩ := hx
  obtain ⟨j', n', hj', hn', hys, -⟩ := hy
  have ei := (h.mono i i' m m' hi hi').2.1 (by rw [hm, hm'])
  have ej := (h.mono j j' n n' hj hj').2.1 (by rw [hn, hn'])
  subst ei ej
  rw [hi] at hi'
  rw [hj] at hj'
  injection hi' with hi'
  injection hj' with hj'
  subst hi' hj'
  simp only [chainPos, hi, hj, Option.map_some, Option.getD_some]
  rcases Prod.Lex.toLex_lt_toLex.1 hlt with h1 | ⟨h1, h2⟩
  · have hij := (h.mono i j m n hi hj).1.1 (by rw [hm, hn]; exact h1)
    have hs := sum_take_le c h0 (i + 1) j (by omega)
    rw [List.take_add_one, hi] at hs
    simp only [Option.toList_some, List.map_append, List.map_cons, List.map_nil, List.sum_append, List.sum_cons,
      List.sum_nil, add_zero] at hs
    linarith
  · have hij := (h.mono i j m n hi hj).2.1 (by rw [hm, hn]; exact h1)
    subst hij
    rw [hi] at hj
    injection hj with hj
    subst hj
    linarith

theorem at_unique {T c : List (Measure ℚ)} (h : Chain T c) {x : Int × ℚ} {p q : ℚ}
    (hp : At c x.1 x.2 p) (hq : At c x.1 x.2 q) : p = q := by
  obtain ⟨i, m, hi, hm, rfl⟩ := hp
  obtain ⟨j, n, hj, hn, rfl⟩ := hq
  rw [(h.mono i j m n hi hj).2.1 (by rw [hm, hn])]

theorem at_le {T c : List (Measure ℚ)} (h : Chain T c) (h0 : ∀ m ∈ c, 0 ≤ m.actDur) {x y : Int × ℚ} {p q : ℚ}
    (hx : Inside c x) (hy : Inside c y) (hp : At c x.1 x.2 p) (hq : At c y.1 y.2 q) (hle : toLex x ≤ toLex y) :
    p ≤ q := by
  rcases lt_or_eq_of_le hle with hlt | he
  · exact le_of_lt (at_lt h h0 hx hy hp hq hlt)
  · have : x = y := toLex.injective he
    subst this
    exact le_of_eq (at_unique h hp hq)

theorem inside_at {c : List (Measure ℚ)} {x : Int × ℚ} (h : Inside c x) : ∃ p, At c x.1 x.2 p := by
  obtain ⟨k, m, hk, hm, _⟩ := h
  exact ⟨_, k, m, hk, hm, rfl⟩

/-! ## Tables -/

/-- The measure `mc` is in the table once, with a time signature. -/
def Metered (T : List MeasureRow) (mc : Int) : Prop :=
  ∃ m, (T.map MeasureRow.meter).filter (fun m => decide (m.mc = mc)) = [m] ∧ 1 ≤ m.num ∧ 1 ≤ m.den

theorem level_of {T : List MeasureRow} {mc : Int} (h : Metered T mc) (b : ℚ) :
    ∃ l, LevelOf (T.map MeasureRow.meter) (mc, b) l := by
  obtain ⟨m, hm, h1, h2⟩ := h
  obtain ⟨_, _, _, l, _, hl, _⟩ := C32_levels m.num m.den h1 h2 b
  exact ⟨l, m, hm, hl⟩

theorem level_lt {T : List MeasureRow} {mc : Int} (h : Metered T mc) (b : ℚ) {l : Nat}
    (hl : LevelOf (T.map MeasureRow.meter) (mc, b) l) : l < 4 := by
  obtain ⟨m, hm, h1, h2⟩ := h
  obtain ⟨m', hm', hl⟩ := hl
  have : m' = m := by
    have := hm'.symm.trans hm
    injection this
  subst this
  obtain ⟨_, _, _, l', _, hl', h3, _⟩ := C32_levels m'.num m'.den h1 h2 b
  have hl : metricalLevel b m'.num m'.den = .ok l := hl
  rw [hl] at hl'
  injection hl' with hl'
  omega

/-- Where a chord of a row begins and ends. -/
def rowOnset (r : PieceRow) : Int × ℚ := (r.row.mc, r.row.onset)
def rowOffset (r : PieceRow) : Int × ℚ := (r.row.mcNext, r.row.onsetNext)

/-- Where a note of a row begins. -/
def noteOnset (r : NoteRow) : Int × ℚ := (r.mc, r.onset)

/-- The tables of a piece. `c`: the measures in the order of playing. -/
structure Tables (measures : List MeasureRow) (notes : List NoteRow) (chords : List PieceRow) (red : Reduction)
    (useInv u : Bool) (c : List (Measure ℚ)) : Prop where
  chain : Chain (measures.map (·.measure)) c
  lengths : ∀ m ∈ c, 0 ≤ m.actDur
  /-- at least two notes and chords, see C79 and C91 -/
  twoNotes : 2 ≤ notes.length
  twoChords : 2 ≤ chords.length
  /-- notes are spelled, in ten octaves, and in measures -/
  spelled : ∀ r ∈ notes, -15 ≤ r.tpc ∧ r.tpc < 20
  sounding : ∀ r ∈ notes, 0 ≤ r.midi ∧ r.midi < 120
  metered : ∀ r ∈ notes, Metered measures r.mc ∧ Metered measures r.offsetMc
  inside : ∀ r ∈ notes, Inside c (noteOnset r)
  noteOrder : notes.Pairwise (fun a b => toLex (noteOnset a) ≤ toLex (noteOnset b))
  /-- chords can be read, and begin in measures -/
  readable : ∀ r ∈ chords, ∃ ch, ChordRight (measures.map MeasureRow.meter) .tpc red useInv u r.row ch
  chordInside : ∀ r ∈ chords, Inside c (rowOnset r)
  /-- they follow one another -/
  contiguous : ∀ (k : Nat) r r', chords[k]? = some r → chords[k + 1]? = some r' → rowOffset r = rowOnset r'
  durations : ∀ r ∈ chords, ∃ s t, At c (rowOnset r).1 (rowOnset r).2 s ∧ At c (rowOffset r).1 (rowOffset r).2 t ∧
    r.row.duration = t - s ∧ 0 < r.row.duration
  /-- no note begins after the end of the last chord -/
  ended : ∀ r, chords[chords.length - 1]? = some r → ∀ n ∈ notes, ∀ p t, At c n.mc n.onset p →
    At c (rowOffset r).1 (rowOffset r).2 t → p ≤ t
  /-- no chord begins after all notes -/
  begun : ∀ r ∈ chords, ∃ n ∈ notes, toLex (rowOnset r) ≤ toLex (noteOnset n)

/-! ## Reading -/

/-- Reading a table of which all rows can be read. -/
theorem read_all {R N K : Type} (f : R → Option N) (rows : List R) (h : ∀ r ∈ rows, ∃ n, f r = some n) :
    ∃ ns, List.Forall₂ (fun r n => f r = some n) rows ns ∧ ∀ ks : List K, ks.length = rows.length →
      ((rows.map f).zip ks).filterMap (fun x => x.1.map (fun n => (n, x.2))) = ns.zip ks := by
  induction rows with
  | nil => exact ⟨[], .nil, by simp⟩
  | cons r rows ih =>
    obtain ⟨n, hn⟩ := h r (by simp)
    obtain ⟨ns, h1, h2⟩ := ih (fun r hr => h r (by simp [hr]))
    refine ⟨n :: ns, .cons hn h1, ?_⟩
    intro ks hk
    cases ks with
    | nil => simp at hk
    | cons k ks =>
      have := h2 ks (by simpa using hk)
      simp [hn, this]

theorem notes_read {measures : List MeasureRow} {notes : List NoteRow} {chords : List PieceRow} {red : Reduction}
    {useInv u : Bool} {c : List (Measure ℚ)} (h : Tables measures notes chords red useInv u c) :
    ∃ ns l, (pieceNotes (measures.map MeasureRow.meter) notes).1 = .ok l ∧ l.map (·.1) = ns ∧
      List.Forall₂ (NoteRight (measures.map MeasureRow.meter) .tpc) notes ns := by
  set T := measures.map MeasureRow.meter with hT
  have hone : ∀ r ∈ notes, ∃ n, (noteFromSeries T .tpc none r).1 = some n := by
    intro r hr
    obtain ⟨l1, h1⟩ := level_of (h.metered r hr).1 r.onset
    obtain ⟨l2, h2⟩ := level_of (h.metered r hr).2 r.offsetBeat
    have hm := h.spelled r hr
    exact ⟨⟨r.tpc + 15, r.midi / 12, (r.mc, r.onset), l1, r.duration, (r.offsetMc, r.offsetBeat), l2, .tpc,
      r.mcOnset.getD r.onset⟩, ((C91_row T .tpc none (by rintro c ⟨⟩) r).1 _).2
        ⟨⟨rfl, hm.1, hm.2⟩, by simp only; omega, rfl, rfl, h1, h2, rfl, rfl, rfl⟩⟩
  obtain ⟨ns, h1, h2⟩ := read_all (K := Nat) _ notes hone
  have hl := h1.length_eq
  obtain ⟨a, -⟩ := table_spec T .tpc (some []) (by rintro c ⟨⟩ _ _ _ _ h; cases h) notes
  refine ⟨ns, ns.zip (List.range notes.length), ?_, ?_, ?_⟩
  · have h3 := h2 (List.range notes.length) (by simp)
    have hn : (ns.zip (List.range notes.length)).length ≠ 1 := by
      have := h.twoNotes
      simp only [List.length_zip, List.length_range]; omega
    simp only [pieceNotes, a, List.length_map]
    rw [h3, squeezed, if_neg hn]
  · exact List.map_fst_zip (by simp [hl])
  · exact h1.imp fun r n hr => ((C91_row T .tpc none (by rintro c ⟨⟩) r).1 n).1 hr

theorem cache_right (T : List MeterRow) (notes : List NoteRow) : CacheRight (pieceNotes T notes).2 :=
  (C91_piece_partial T notes).1

theorem chords_read {measures : List MeasureRow} {notes : List NoteRow} {chords : List PieceRow} {red : Reduction}
    {useInv u : Bool} {c : List (Measure ℚ)} (h : Tables measures notes chords red useInv u c)
    (cache : Option LevelCache) (hc : CacheRight cache) :
    ∃ chs, readChords (measures.map MeasureRow.meter) red useInv u cache chords = chs.zip chords ∧
      List.Forall₂ (fun r ch => ChordRight (measures.map MeasureRow.meter) .tpc red useInv u r.row ch) chords chs := by
  set T := measures.map MeasureRow.meter with hT
  have hone : ∀ r ∈ chords, ∃ ch, (chordFromSeries T .tpc red useInv u none r.row).1 = some ch := by
    intro r hr
    obtain ⟨ch, hch⟩ := h.readable r hr
    exact ⟨ch, ((C78_chord T .tpc red useInv u none (by rintro c ⟨⟩) r.row).1 ch).2 hch⟩
  obtain ⟨chs, h1, h2⟩ := read_all (K := PieceRow) _ chords hone
  refine ⟨chs, ?_, h1.imp fun r n hr => ((C78_chord T .tpc red useInv u none (by rintro c ⟨⟩) r.row).1 n).1 hr⟩
  unfold readChords
  rw [C78_table T .tpc red useInv u cache hc, List.map_map]
  exact h2 chords rfl

/-- The chord of a row is unique. -/
theorem right_unique {T : List MeterRow} {red : Reduction} {useInv u : Bool} {row : SeriesRow} {a b : SeriesChord}
    (ha : ChordRight T .tpc red useInv u row a) (hb : ChordRight T .tpc red useInv u row b) : a = b := by
  have h1 := ((C78_chord T .tpc red useInv u none (by rintro c ⟨⟩) row).1 a).2 ha
  have h2 := ((C78_chord T .tpc red useInv u none (by rintro c ⟨⟩) row).1 b).2 hb
  rw [h1] at h2
  injection h2

/-! ## Runs -/

/-- A chord is as long as the distance from its onset to its offset. -/
def Spans (c : List (Measure ℚ)) (ch : SeriesChord) : Prop :=
  ∃ s t, At c ch.onset.1 ch.onset.2 s ∧ At c ch.offset.1 ch.offset.2 t ∧ ch.chord.duration = t - s ∧
    0 < ch.chord.duration

theorem run_spans {T c : List (Measure ℚ)} (hch : Chain T c) (l : List SeriesChord) :
    ∀ a : SeriesChord, (a :: l).IsChain (fun x y => x.offset = y.onset) → (∀ x ∈ a :: l, Spans c x) →
      Spans c (l.foldl SeriesChord.mergeWith a) := by
  induction l with
  | nil => intro a _ h; exact h a (by simp)
  | cons b l ih =>
    intro a hc h
    rw [List.isChain_cons_cons] at hc
    refine ih (a.mergeWith b) ?_ ?_
    · cases l with
      | nil => simp
      | cons d l =>
        rw [List.isChain_cons_cons] at hc ⊢
        exact ⟨hc.2.1, hc.2.2⟩
    · intro x hx
      rcases List.mem_cons.1 hx with rfl | hx
      · obtain ⟨s, t, h1, h2, h3, h4⟩ := h a (by simp)
        obtain ⟨s', t', h1', h2', h3', h4'⟩ := h b (by simp)
        rw [← hc.1] at h1'
        have e := at_unique hch h2 h1'
        refine ⟨s, t', h1, h2', ?_, ?_⟩
        · simp only [SeriesChord.mergeWith, h3, h3', e]; ring
        · simp only [SeriesChord.mergeWith]; linarith
      · exact h x (by simp [hx])

theorem isRun_fold {g : SeriesChord × List SeriesChord} {o : SeriesChord} (h : IsRun g o) :
    o = g.2.foldl SeriesChord.mergeWith g.1 := by
  have := run_fold g.1 g.2
  unfold IsRun at h this
  rw [this, h]

theorem heads_sub {α : Type} (gs : List (α × List α)) :
    (gs.map (·.1)).Sublist (gs.map (fun g => g.1 :: g.2)).flatten := by
  induction gs with
  | nil => simp
  | cons g gs ih =>
    simp only [List.map_cons, List.flatten_cons, List.cons_append]
    exact (ih.trans (List.sublist_append_right _ _)).cons_cons _

/-! ## New chords -/

/-- Row `k` begins a new chord: it is the first row, or its chord is not the chord of the row before it. -/
def NewRow (measures : List MeasureRow) (chords : List PieceRow) (red : Reduction) (useInv u useSusp : Bool) (k : Nat) :
    Prop :=
  k < chords.length ∧ ∀ (j : Nat) r r' ch ch', k = j + 1 → chords[j]? = some r → chords[k]? = some r' →
    ChordRight (measures.map MeasureRow.meter) .tpc red useInv u r.row ch →
    ChordRight (measures.map MeasureRow.meter) .tpc red useInv u r'.row ch' → ¬ SameChord useInv useSusp ch' ch

theorem mem_kept_range (n : Nat) (m : List Bool) (hm : m.length = n) (k : Nat) :
    k ∈ kept (List.range n) m ↔ m[k]? = some true := by
  unfold kept
  rw [List.mem_map]
  constructor
  · rintro ⟨⟨a, b⟩, h1, rfl⟩
    rw [List.mem_filter] at h1
    obtain ⟨h1, h2⟩ := h1
    obtain ⟨i, hi⟩ := List.getElem?_of_mem h1
    rw [List.getElem?_zip_eq_some] at hi
    obtain ⟨hi, hb⟩ := hi
    obtain ⟨hl, he⟩ := List.getElem?_eq_some_iff.1 hi
    rw [List.getElem_range] at he
    simp only at h2 hb he
    rw [← he, hb, h2]
  · intro h
    have hk := (List.getElem?_eq_some_iff.1 h).1
    refine ⟨(k, true), List.mem_filter.2 ⟨?_, rfl⟩, rfl⟩
    refine List.mem_of_getElem? (i := k) ?_
    rw [List.getElem?_zip_eq_some]
    exact ⟨by rw [List.getElem?_range (by omega)], h⟩

theorem kept_range_map {α : Type} (l : List α) (m : List Bool) :
    (kept l m).map some = (kept (List.range l.length) m).map (fun k => l[k]?) := by
  rw [← kept_map, ← kept_map]
  congr 1
  apply List.ext_getElem?
  intro i
  rw [List.getElem?_map, List.getElem?_map]
  by_cases hi : i < l.length
  · rw [List.getElem?_range hi, List.getElem?_eq_getElem hi]; simp [hi]
  · rw [List.getElem?_eq_none (by omega), List.getElem?_eq_none (by simp; omega)]; rfl

theorem fullMask_true {γ : Type} (rep : γ → γ → Bool) (l : List γ) (k : Nat) :
    (fullMask rep l)[k]? = some true ↔
      k < l.length ∧ ∀ (j : Nat) a b, k = j + 1 → l[j]? = some a → l[k]? = some b → rep b a = false := by
  cases l with
  | nil => simp [fullMask]
  | cons x l =>
    cases k with
    | zero => simp [fullMask]
    | succ k =>
      have e : (fullMask rep (x :: l))[k + 1]? = (List.zipWith (fun p n => !rep n p) (x :: l) l)[k]? := rfl
      rw [e, List.getElem?_zipWith]
      constructor
      · intro h
        cases ha : (x :: l)[k]? with
        | none => rw [ha] at h; simp at h
        | some a =>
          cases hb : l[k]? with
          | none => rw [ha, hb] at h; simp at h
          | some b =>
            rw [ha, hb] at h
            refine ⟨by have := (List.getElem?_eq_some_iff.1 hb).1; simp; omega, ?_⟩
            intro j a' b' hj ha' hb'
            have hj : j = k := by omega
            subst hj
            rw [ha] at ha'
            rw [List.getElem?_cons_succ, hb] at hb'
            injection ha' with ha'
            injection hb' with hb'
            subst ha' hb'
            simpa using h
      · rintro ⟨h1, h2⟩
        have hk : k < l.length := by simpa using h1
        have ha : (x :: l)[k]? = some (x :: l)[k] := List.getElem?_eq_getElem (by simp; omega)
        have hb : l[k]? = some l[k] := List.getElem?_eq_getElem hk
        rw [ha, hb]
        have := h2 k _ _ rfl ha (by rw [List.getElem?_cons_succ, hb])
        simp [this]

/-! ## The piece -/

/-- A chord of the piece, which begins with row `k`. -/
def BeginsAt (measures : List MeasureRow) (chords : List PieceRow) (red : Reduction) (useInv u : Bool) (k : Nat)
    (o : ChordSpan × Chord ℚ) : Prop :=
  ∃ r ch, chords[k]? = some r ∧ ChordRight (measures.map MeasureRow.meter) .tpc red useInv u r.row ch ∧
    o.1.onset = rowOnset r ∧ ∃ l d, o.2 = { ch.chord with offsetLevel := l, duration := d }

/-- The piece says what the tables say. -/
structure Loaded (measures : List MeasureRow) (notes : List NoteRow) (chords : List PieceRow) (red : Reduction)
    (useInv u useSusp : Bool) (x : ClassPiece) : Prop where
  bars : x.measures = measures.map (·.measure)
  right : List.Forall₂ (NoteRight (measures.map MeasureRow.meter) .tpc) notes x.notes
  /-- one chord for each row with a new chord -/
  begun : ∃ ks : List Nat, ks.Pairwise (· < ·) ∧ (∀ k, k ∈ ks ↔ NewRow measures chords red useInv u useSusp k) ∧
    List.Forall₂ (BeginsAt measures chords red useInv u) ks x.chords
  /-- which lasts until the next one -/
  abut : x.chords.IsChain (fun a b => a.1.offset = b.1.onset)

theorem flatten_abut (gs : List (SeriesChord × List SeriesChord)) (out : List SeriesChord)
    (h : List.Forall₂ IsRun gs out)
    (hc : (gs.map (fun g => g.1 :: g.2)).flatten.IsChain (fun x y => x.offset = y.onset)) :
    out.IsChain (fun a b => a.offset = b.onset) ∧
      (out.getLast?.map (·.offset) = (gs.map (fun g => g.1 :: g.2)).flatten.getLast?.map (·.offset)) ∧
      (out.head?.map (·.onset) = (gs.map (fun g => g.1 :: g.2)).flatten.head?.map (·.onset)) := by
  induction h with
  | nil => simp
  | @cons g o gs out hg hgs ih =>
    simp only [List.map_cons, List.flatten_cons] at hc ⊢
    obtain ⟨i1, i2, i3⟩ := ih hc.right_of_append
    have hoff : o.offset = ((g.1 :: g.2).getLast (List.cons_ne_nil _ _)).offset := by rw [IsRun] at hg; rw [hg]
    have hon : o.onset = g.1.onset := by rw [IsRun] at hg; rw [hg]
    cases hgs with
    | nil =>
      refine ⟨by simp, ?_, by simp [hon]⟩
      simp only [List.map_nil, List.flatten_nil, List.append_nil]
      rw [List.getLast?_eq_some_getLast (List.cons_ne_nil g.1 g.2), List.getLast?_singleton, Option.map_some, hoff]
      rfl
    | @cons g' o' gs' out' hg' hgs' =>
      refine ⟨?_, ?_, by simp [hon]⟩
      · rw [List.isChain_cons_cons]
        refine ⟨?_, i1⟩
        have hon' : o'.onset = g'.1.onset := by rw [IsRun] at hg'; rw [hg']
        rw [hoff, hon']
        rw [List.isChain_append] at hc
        refine hc.2.2 _ ?_ _ ?_
        · rw [List.getLast?_eq_some_getLast (List.cons_ne_nil g.1 g.2)]; rfl
        · simp
      · have hne : (List.map (fun g => g.1 :: g.2) (g' :: gs')).flatten ≠ [] := by
          rw [List.map_cons, List.flatten_cons]; simp
        rw [List.getLast?_cons_cons, i2, List.getLast?_append (l := g.1 :: g.2), List.getLast?_eq_some_getLast hne]
        rfl

theorem contig {T : List MeterRow} {red : Reduction} {useInv u : Bool} {chords : List PieceRow}
    {chs : List SeriesChord}
    (h : List.Forall₂ (fun r ch => ChordRight T .tpc red useInv u r.row ch) chords chs)
    (hc : ∀ (k : Nat) r r', chords[k]? = some r → chords[k + 1]? = some r' → rowOffset r = rowOnset r') :
    chs.IsChain (fun x y => x.offset = y.onset) := by
  induction h with
  | nil => simp
  | @cons r ch chords chs h1 h2 ih =>
    have := ih (fun k r r' ha hb => hc (k + 1) r r' ha hb)
    cases h2 with
    | nil => simp
    | cons h3 h4 =>
      rw [List.isChain_cons_cons]
      refine ⟨?_, this⟩
      rw [h1.offset, h3.onset]
      exact hc 0 _ _ rfl rfl

theorem forall₂_left {α β : Type} {R : α → β → Prop} {l : List α} {m : List β} (h : List.Forall₂ R l m) (i : Nat) (b : β)
    (hb : m[i]? = some b) : ∃ a, l[i]? = some a ∧ R a b := by
  induction h generalizing i with
  | nil => simp at hb
  | @cons a b' l m h1 h2 ih =>
    cases i with
    | zero =>
      injection hb with hb
      subst hb
      exact ⟨a, rfl, h1⟩
    | succ i => exact ih i hb

theorem forall₂_right {α β : Type} {R : α → β → Prop} {l : List α} {m : List β} (h : List.Forall₂ R l m) (i : Nat) (a : α)
    (ha : l[i]? = some a) : ∃ b, m[i]? = some b ∧ R a b := forall₂_left h.flip i a ha

/-- The chords before they are merged. -/
structure Rows (c : List (Measure ℚ)) (chs : List SeriesChord) : Prop where
  spans : ∀ ch ∈ chs, Spans c ch
  inside : ∀ ch ∈ chs, Inside c ch.onset
  contig : chs.IsChain (fun x y => x.offset = y.onset)

theorem rows_order {T c : List (Measure ℚ)} (hch : Chain T c) (h0 : ∀ m ∈ c, 0 ≤ m.actDur) {chs : List SeriesChord}
    (h : Rows c chs) : chs.Pairwise (fun a b => toLex a.onset < toLex b.onset) := by
  have : IsTrans SeriesChord (fun a b => toLex a.onset < toLex b.onset) := ⟨fun _ _ _ => lt_trans⟩
  rw [← List.isChain_iff_pairwise]
  refine h.contig.imp_of_mem_imp ?_
  intro a b ha hb hab
  by_contra hno
  obtain ⟨s, t, h1, h2, h3, h4⟩ := h.spans a ha
  rw [hab] at h2
  have := at_le hch h0 (h.inside b hb) (h.inside a ha) h2 h1 (not_lt.1 hno)
  linarith

theorem harmony_merge {T : List MeterRow} {red : Reduction} {useInv u useSusp : Bool} {cache : Option LevelCache}
    {rows : List PieceRow} {out : PieceHarmony} (h : pieceHarmony T red useInv u useSusp cache rows = .ok out) :
    out.chords.map core = (kept ((readChords T red useInv u cache rows).map (·.1))
      (fullMask (SeriesChord.isRepeated useInv useSusp) ((readChords T red useInv u cache rows).map (·.1)))).map core := by
  unfold pieceHarmony at h
  simp only [Bind.bind] at h
  obtain ⟨read, h1, h⟩ := Vectors.bind_ok h
  obtain ⟨chs, h2, h⟩ := Vectors.bind_ok h
  obtain ⟨kr, h3, h⟩ := Vectors.bind_ok h
  obtain ⟨kk, h4, h7⟩ := Vectors.bind_ok h
  have hr : read = readChords T red useInv u cache rows := by
    unfold squeezed at h1
    split at h1
    · cases h1
    · injection h1 with h1; exact h1.symm
  subst hr
  rw [reductionMask_eq] at h2
  obtain ⟨o, h5, h6⟩ := merge_all (SeriesChord.isRepeated useInv useSusp) ((readChords T red useInv u cache rows).map (·.1))
  rw [h5] at h2
  injection h2 with h2
  injection h7 with h7
  rw [← h7, ← h2]
  exact h6

/-- C149: the piece which is made from tables says what they say, and can be trained on (C147, C148). Missing: rows of
chords which cannot be read (`C149_unread_fails`). -/
theorem C149_piece_partial {measures : List MeasureRow} {notes : List NoteRow} {chords : List PieceRow} {red : Reduction}
    {useInv u : Bool} {c : List (Measure ℚ)} (h : Tables measures notes chords red useInv u c) (useSusp : Bool) :
    ∃ x, tablePiece measures notes chords red useInv u useSusp = .ok x ∧
      Loaded measures notes chords red useInv u useSusp x ∧
      ∃ last ps pe, ClassTraining.Labelled x c last ps pe ∧ TransitionTraining.Timed x c last ps pe ∧
        (∀ r, chords[chords.length - 1]? = some r → last = rowOffset r) := by
  obtain ⟨ns, l, hl, hln, hns⟩ := notes_read h
  have hcache := cache_right (measures.map MeasureRow.meter) notes
  obtain ⟨chs, hread, hchs⟩ := chords_read h _ hcache
  have hlen := hchs.length_eq
  have hnl := hns.length_eq
  have h2c := h.twoChords
  have h2n := h.twoNotes
  obtain ⟨out, hout, -⟩ := C79_piece_partial (measures.map MeasureRow.meter) red useInv u useSusp _ hcache chords
    (by rw [hread, List.length_zip]; omega)
  obtain ⟨gs, g1, g2, g3, g4⟩ := C79_chords _ _ _ _ _ _ _ _ hout
  have hm := harmony_merge hout
  have hfst : (chs.zip chords).map (·.1) = chs := List.map_fst_zip (by omega)
  rw [hread, hfst] at g1 hm
  have hrow : ∀ ch ∈ chs, ∃ r ∈ chords, ChordRight (measures.map MeasureRow.meter) .tpc red useInv u r.row ch := by
    intro ch hch
    obtain ⟨i, hi⟩ := List.getElem?_of_mem hch
    obtain ⟨r, hr, hR⟩ := forall₂_left hchs i ch hi
    exact ⟨r, List.mem_of_getElem? hr, hR⟩
  have hrows : Rows c chs := by
    refine ⟨?_, ?_, contig hchs h.contiguous⟩
    · intro ch hch
      obtain ⟨r, hr, hR⟩ := hrow ch hch
      obtain ⟨s, t, a1, a2, a3, a4⟩ := h.durations r hr
      refine ⟨s, t, by rw [hR.onset]; exact a1, by rw [hR.offset]; exact a2, by rw [hR.duration]; exact a3,
        by rw [hR.duration]; exact a4⟩
    · intro ch hch
      obtain ⟨r, hr, hR⟩ := hrow ch hch
      rw [hR.onset]
      exact h.chordInside r hr
  have hpair := rows_order h.chain h.lengths hrows
  have hcontig := hrows.contig
  rw [g1] at hcontig hpair
  obtain ⟨b1, b2, b3⟩ := flatten_abut gs out.chords g2 hcontig
  rw [← g1] at b2
  -- the chords of the piece
  have hout1 : ∀ o ∈ out.chords, ∃ g ∈ gs, IsRun g o := by
    intro o ho
    obtain ⟨i, hi⟩ := List.getElem?_of_mem ho
    obtain ⟨g, hg, hR⟩ := forall₂_left g2 i o hi
    exact ⟨g, List.mem_of_getElem? hg, hR⟩
  have hgin : ∀ g ∈ gs, (g.1 :: g.2) <:+: chs := by
    intro g hg
    rw [g1]
    obtain ⟨s, t, rfl⟩ := List.append_of_mem hg
    exact ⟨(s.map (fun g => g.1 :: g.2)).flatten, (t.map (fun g => g.1 :: g.2)).flatten, by simp⟩
  have hspan : ∀ o ∈ out.chords, Spans c o := by
    intro o ho
    obtain ⟨g, hg, hR⟩ := hout1 o ho
    rw [isRun_fold hR]
    exact run_spans h.chain g.2 g.1 (hrows.contig.infix (hgin g hg)) fun x hx => hrows.spans x ((hgin g hg).subset hx)
  have hhead : ∀ o ∈ out.chords, ∃ ch ∈ chs, o.onset = ch.onset ∧
      ∃ l d, o.chord = { ch.chord with offsetLevel := l, duration := d } := by
    intro o ho
    obtain ⟨g, hg, hR⟩ := hout1 o ho
    refine ⟨g.1, (hgin g hg).subset (by simp), ?_, ?_⟩
    · rw [IsRun] at hR; rw [hR]
    · rw [IsRun] at hR; rw [hR]; exact ⟨_, _, rfl⟩
  have honsets : out.chords.map (·.onset) = (gs.map (·.1)).map (·.onset) := by
    generalize out.chords = oc at g2
    clear * - g2
    induction g2 with
    | nil => rfl
    | cons h1 _ ih =>
      rw [IsRun] at h1
      simp only [List.map_cons, ih, h1]
  have horder : out.chords.Pairwise (fun a b => toLex a.onset ≤ toLex b.onset) := by
    have h3 : ((gs.map (·.1)).map (·.onset)).Pairwise (fun a b : Int × ℚ => toLex a ≤ toLex b) :=
      List.pairwise_map.2 ((hpair.sublist (heads_sub gs)).imp fun hab => le_of_lt hab)
    rw [← honsets] at h3
    exact List.pairwise_map.1 h3
  -- the end
  obtain ⟨rl, hrl⟩ : ∃ r, chords[chords.length - 1]? = some r := ⟨_, List.getElem?_eq_getElem (by omega)⟩
  obtain ⟨cl, hcl, hRl⟩ := forall₂_right hchs _ _ hrl
  have hlast : chs.getLast? = some cl := by rw [List.getLast?_eq_getElem?, ← hlen, hcl]
  rw [hlast, Option.map_some] at b2
  obtain ⟨ol, hol, hol'⟩ := Option.map_eq_some_iff.1 b2
  obtain ⟨sl, pe, -, hpe, -⟩ := hrows.spans cl (List.mem_of_getElem? hcl)
  set x : ClassPiece := ⟨ns, measures.map (·.measure), out.chords.map SeriesChord.spanned⟩ with hx
  have hxt : tablePiece measures notes chords red useInv u useSusp = .ok x := by
    simp only [tablePiece, hl, hout, Bind.bind, Except.bind, hln, hx]
  -- the notes
  have hnrow : ∀ n ∈ ns, ∃ r ∈ notes, NoteRight (measures.map MeasureRow.meter) .tpc r n := by
    intro n hn
    obtain ⟨i, hi⟩ := List.getElem?_of_mem hn
    obtain ⟨r, hr, hR⟩ := forall₂_left hns i n hi
    exact ⟨r, List.mem_of_getElem? hr, hR⟩
  obtain ⟨ps, hps⟩ : ∃ ps, List.Forall₂ (fun (o : Int × ℚ) p => At c o.1 o.2 p) (ns.map NoteObj.onset) ps := by
    have : ∀ n ∈ ns, ∃ p, At c n.onset.1 n.onset.2 p := by
      intro n hn
      obtain ⟨r, hr, hR⟩ := hnrow n hn
      rw [hR.onset]
      exact inside_at (h.inside r hr)
    clear * - this
    induction ns with
    | nil => exact ⟨[], .nil⟩
    | cons n ns ih =>
      obtain ⟨p, hp⟩ := this n (by simp)
      obtain ⟨ps, hps⟩ := ih (fun n hn => this n (by simp [hn]))
      exact ⟨p :: ps, .cons hp hps⟩
  have hscore : Score x.measures c x.notes cl.offset ps pe := by
    refine ⟨h.chain, ?_, hps, hpe⟩
    intro n hn
    obtain ⟨r, hr, hR⟩ := hnrow n hn
    have hp := hR.pitch
    have ho := hR.octave
    have hs := h.sounding r hr
    have hm := h.metered r hr
    simp only at hp
    exact ⟨hR.pitchType, by omega, by omega, level_lt hm.1 _ hR.onsetLevel, level_lt hm.2 _ hR.offsetLevel⟩
  have hnotes : x.notes ≠ [] := by
    intro he
    have he : ns = [] := he
    rw [he] at hnl
    simp only [List.length_nil] at hnl
    omega
  have hends : PieceEnd x.notes (some (x.chords.map Prod.fst)) cl.offset := by
    refine ⟨(ol.spanned).1, ?_, hol'⟩
    simp only [hx, List.map_map, List.getLast?_map, hol, Option.map_some, Function.comp]
  have hno : ns.Pairwise (fun a b => toLex a.onset ≤ toLex b.onset) := by
    have e : ns.map (·.onset) = notes.map noteOnset := by
      clear * - hns
      induction hns with
      | nil => rfl
      | cons h1 _ ih => simp only [List.map_cons, ih, h1.onset, noteOnset]
    have : (notes.map noteOnset).Pairwise (fun a b : Int × ℚ => toLex a ≤ toLex b) := List.pairwise_map.2 h.noteOrder
    rw [← e] at this
    exact List.pairwise_map.1 this
  have hninside : ∀ n ∈ ns, Inside c n.onset := by
    intro n hn
    obtain ⟨r, hr, hR⟩ := hnrow n hn
    rw [hR.onset]; exact h.inside r hr
  have hpat : ∀ (i : Nat) p, ps[i]? = some p → ∃ n, ns[i]? = some n ∧ At c n.onset.1 n.onset.2 p := by
    intro i p hp
    obtain ⟨o, ho, hA⟩ := forall₂_left hps i p hp
    rw [List.getElem?_map, Option.map_eq_some_iff] at ho
    obtain ⟨n, hn, rfl⟩ := ho
    exact ⟨n, hn, hA⟩
  refine ⟨x, hxt, ⟨rfl, hns, ?_, ?_⟩, cl.offset, ps, pe, ⟨hscore, hnotes, hends, ?_, ?_, ?_, ?_, ?_⟩,
    ⟨hscore, hnotes, hends, ?_, ?_, ?_, ?_, ?_⟩, ?_⟩
  · -- the rows
    set m := fullMask (SeriesChord.isRepeated useInv useSusp) chs with hmm
    refine ⟨kept (List.range chs.length) m, List.Pairwise.sublist (kept_sub _ _) List.pairwise_lt_range, ?_, ?_⟩
    · intro k
      rw [mem_kept_range _ _ (by rw [hmm, fullMask_length]), hmm, fullMask_true, NewRow, hlen]
      refine and_congr_right fun hk => ⟨?_, ?_⟩
      · intro hq j r r' ch ch' hj hr hr' hR hR' hsame
        obtain ⟨a, ha, hRa⟩ := forall₂_right hchs j r hr
        obtain ⟨b, hb, hRb⟩ := forall₂_right hchs k r' hr'
        have ea := right_unique hRa hR
        have eb := right_unique hRb hR'
        subst ea eb
        have := hq j a b hj ha hb
        rw [(same_iff useInv useSusp b a).2 hsame] at this
        cases this
      · intro hq j a b hj ha hb
        obtain ⟨r, hr, hRa⟩ := forall₂_left hchs j a ha
        obtain ⟨r', hr', hRb⟩ := forall₂_left hchs k b hb
        rw [Bool.eq_false_iff]
        exact fun hs => hq j r r' a b hj hr hr' hRa hRb ((same_iff useInv useSusp b a).1 hs)
    · have e1 := kept_range_map chs m
      have e2 : (out.chords.map core).map some = ((kept (List.range chs.length) m).map (fun k => chs[k]?)).map
          (Option.map core) := by
        rw [← e1, hm, List.map_map, List.map_map]
        rfl
      have e3 : ∀ (ks : List Nat) (os : List SeriesChord), (os.map core).map some =
          (ks.map (fun k => chs[k]?)).map (Option.map core) →
          List.Forall₂ (fun k o => BeginsAt measures chords red useInv u k (SeriesChord.spanned o)) ks os := by
        intro ks
        induction ks with
        | nil => intro os ho; cases os with
          | nil => exact .nil
          | cons o os => simp at ho
        | cons k ks ih =>
          intro os ho
          cases os with
          | nil => simp at ho
          | cons o os =>
            simp only [List.map_cons, List.cons.injEq] at ho
            refine .cons ?_ (ih os ho.2)
            obtain ⟨ch, hch, hcore⟩ := Option.map_eq_some_iff.1 ho.1.symm
            obtain ⟨r, hr, hR⟩ := forall₂_left hchs k ch hch
            have eo := congrArg SeriesChord.onset hcore
            simp only [core] at eo
            have ec := congrArg SeriesChord.chord hcore
            refine ⟨r, ch, hr, hR, ?_, o.chord.offsetLevel, o.chord.duration, ?_⟩
            · show o.onset = _
              rw [← eo, hR.onset]; rfl
            · show o.chord = _
              obtain ⟨⟨⟩, _, _, _⟩ := o
              obtain ⟨⟨⟩, _, _, _⟩ := ch
              simp only [core, Chord.mk.injEq] at ec ⊢
              obtain ⟨c1, c2, c3, c4, c5, c6, c7, c8, c9, c10⟩ := ec
              simp only [*, and_self]
      have := e3 _ _ e2
      exact List.forall₂_map_right_iff.2 this
  · exact (List.isChain_map _).2 b1
  · exact List.pairwise_map.2 hno
  · simp only [hx, List.map_map]
    exact List.pairwise_map.2 horder
  · intro ch hch
    obtain ⟨o, ho, rfl⟩ := List.mem_map.1 hch
    obtain ⟨s, t, a1, a2, a3, a4⟩ := hspan o ho
    exact ⟨s, t, a1, a2, a3, ne_of_gt a4⟩
  · intro ch hch
    obtain ⟨o, ho, rfl⟩ := List.mem_map.1 hch
    obtain ⟨d, hd, -, l', t', he⟩ := hhead o ho
    obtain ⟨r, hr, hR⟩ := hrow d hd
    show o.chord.pitchType = _
    rw [he]; exact hR.pitchType
  · intro ch hch
    obtain ⟨o, ho, rfl⟩ := List.mem_map.1 hch
    obtain ⟨d, hd, -, l', t', he⟩ := hhead o ho
    obtain ⟨r, hr, hR⟩ := hrow d hd
    obtain ⟨p1, -, -, p4, -⟩ := C78_pitches _ _ _ _ _ _ _ hR
    show (0 ≤ o.chord.root ∧ o.chord.root < 35) ∧ 0 ≤ o.chord.inversion ∧
      o.chord.inversion < specInversions o.chord.chordType
    rw [he, specInversions_eq]
    exact ⟨p1, p4⟩
  · exact List.pairwise_map.2 hno
  · simp only [hx, List.map_map]
    exact List.pairwise_map.2 horder
  · rw [List.pairwise_iff_getElem]
    intro i j hi hj hij
    obtain ⟨a, ha, hA⟩ := hpat i _ (List.getElem?_eq_getElem hi)
    obtain ⟨b, hb, hB⟩ := hpat j _ (List.getElem?_eq_getElem hj)
    obtain ⟨ha', ea⟩ := List.getElem?_eq_some_iff.1 ha
    obtain ⟨hb', eb⟩ := List.getElem?_eq_some_iff.1 hb
    have := List.pairwise_iff_getElem.1 hno i j ha' hb' hij
    rw [ea, eb] at this
    exact at_le h.chain h.lengths (hninside a (List.mem_of_getElem? ha)) (hninside b (List.mem_of_getElem? hb)) hA hB this
  · intro p hp
    obtain ⟨i, hi⟩ := List.getElem?_of_mem hp
    obtain ⟨n, hn, hA⟩ := hpat i p hi
    obtain ⟨r, hr, hR⟩ := hnrow n (List.mem_of_getElem? hn)
    rw [hR.onset] at hA
    refine h.ended rl hrl r hr p pe hA ?_
    rw [hRl.offset] at hpe
    exact hpe
  · intro ch hch
    obtain ⟨o, ho, rfl⟩ := List.mem_map.1 hch
    obtain ⟨d, hd, he, -⟩ := hhead o ho
    obtain ⟨r, hr, hR⟩ := hrow d hd
    obtain ⟨n, hn, hle⟩ := h.begun r hr
    obtain ⟨i, hi⟩ := List.getElem?_of_mem hn
    obtain ⟨n', hn', hN⟩ := forall₂_right hns i n hi
    refine ⟨n', List.mem_of_getElem? hn', ?_⟩
    show toLex o.onset ≤ _
    rw [he, hR.onset, hN.onset]
    exact hle
  · intro r hr
    rw [hrl] at hr
    injection hr with hr
    subst hr
    rw [hRl.offset]; rfl

/-! ## Training -/

/-- A new chord begins after note row `m`, and not after note row `n`. -/
def RowBetween (measures : List MeasureRow) (chords : List PieceRow) (red : Reduction) (useInv u useSusp : Bool)
    (m n : NoteRow) : Prop :=
  ∃ (k : Nat) (r : PieceRow), NewRow measures chords red useInv u useSusp k ∧ chords[k]? = some r ∧
    toLex (noteOnset m) < toLex (rowOnset r) ∧ toLex (rowOnset r) ≤ toLex (noteOnset n)

theorem between_iff {measures : List MeasureRow} {notes : List NoteRow} {chords : List PieceRow} {red : Reduction}
    {useInv u useSusp : Bool} {x : ClassPiece} (h : Loaded measures notes chords red useInv u useSusp x)
    {m n : NoteRow} {a b : NoteObj} (ha : a.onset = noteOnset m) (hb : b.onset = noteOnset n) :
    TransitionTraining.BeginsBetween x a b ↔ RowBetween measures chords red useInv u useSusp m n := by
  obtain ⟨ks, -, h2, h3⟩ := h.begun
  constructor
  · rintro ⟨o, ho, h4, h5⟩
    obtain ⟨i, hi⟩ := List.getElem?_of_mem ho
    obtain ⟨k, hk, r, ch, hr, -, he, -⟩ := forall₂_left h3 i o hi
    rw [he, ha] at h4
    rw [he, hb] at h5
    exact ⟨k, r, (h2 k).1 (List.mem_of_getElem? hk), hr, h4, h5⟩
  · rintro ⟨k, r, hk, hr, h4, h5⟩
    obtain ⟨i, hi⟩ := List.getElem?_of_mem ((h2 k).2 hk)
    obtain ⟨o, ho, r', ch, hr', -, he, -⟩ := forall₂_right h3 i k hi
    rw [hr] at hr'
    injection hr' with hr'
    subst hr'
    exact ⟨o, List.mem_of_getElem? ho, by rw [he, ha]; exact h4, by rw [he, hb]; exact h5⟩

/-- The piece is made from tables. -/
def FromTables (x : ClassPiece) : Prop :=
  ∃ measures notes chords red useInv u useSusp c, Tables measures notes chords red useInv u c ∧
    tablePiece measures notes chords red useInv u useSusp = .ok x

theorem loaded {measures : List MeasureRow} {notes : List NoteRow} {chords : List PieceRow} {red : Reduction}
    {useInv u useSusp : Bool} {c : List (Measure ℚ)} {x : ClassPiece} (h : Tables measures notes chords red useInv u c)
    (hx : tablePiece measures notes chords red useInv u useSusp = .ok x) :
    Loaded measures notes chords red useInv u useSusp x ∧
      ∃ last ps pe, ClassTraining.Labelled x c last ps pe ∧ TransitionTraining.Timed x c last ps pe := by
  obtain ⟨x', h1, h2, last, ps, pe, h3, h4, -⟩ := C149_piece_partial h useSusp
  rw [hx] at h1
  injection h1 with h1
  subst h1
  exact ⟨h2, last, ps, pe, h3, h4⟩

/-- C149: what the chord transition model is trained on. The first note of a piece is not measured; another one is
measured if its row has another position than the row before it, and its target is 1 if a row with a new chord is
between them (or at the note), and 0 otherwise. -/
theorem C149_targets (pieces : List ClassPiece) (hp : ∀ x ∈ pieces, FromTables x) (is : List Nat) (hne : is ≠ [])
    (his : ∀ i ∈ is, i < pieces.length) :
    ∃ d batch, ctmData pieces = .ok d ∧ d.batch is = .ok batch ∧ batch.length = is.length ∧
      ∀ (k i : Nat) x, is[k]? = some i → pieces[i]? = some x → ∃ r, batch[k]? = some r ∧
        ∀ measures notes chords red useInv u useSusp c, Tables measures notes chords red useInv u c →
          tablePiece measures notes chords red useInv u useSusp = .ok x →
          r.length = notes.length ∧ r.mask[0]? = some false ∧
          ∀ (j : Nat) m n, notes[j]? = some m → notes[j + 1]? = some n →
            r.mask[j + 1]? = some (decide (noteOnset m ≠ noteOnset n)) ∧
            (noteOnset m ≠ noteOnset n →
              (RowBetween measures chords red useInv u useSusp m n → r.targets[j + 1]? = some 1) ∧
              (¬ RowBetween measures chords red useInv u useSusp m n → r.targets[j + 1]? = some 0)) := by
  obtain ⟨d, batch, L, h1, h2, h3, -, h5⟩ := TransitionTraining.C148_batch_partial pieces (by
    intro x hx
    obtain ⟨measures, notes, chords, red, useInv, u, useSusp, c, hT, hx⟩ := hp x hx
    obtain ⟨-, last, ps, pe, -, h⟩ := loaded hT hx
    exact ⟨c, last, ps, pe, h⟩) is hne his
  refine ⟨d, batch, h1, h2, h3, ?_⟩
  intro k i x hk hi
  obtain ⟨r, hr, hall⟩ := h5 k i x hk hi
  refine ⟨r, hr, ?_⟩
  intro measures notes chords red useInv u useSusp c hT hx
  obtain ⟨hL, last, ps, pe, -, hTimed⟩ := loaded hT hx
  have ht := hall c last ps pe hTimed
  refine ⟨by rw [ht.length, hL.right.length_eq], ht.first, ?_⟩
  intro j m n hm hn
  obtain ⟨a, ha, hRa⟩ := forall₂_right hL.right j m hm
  obtain ⟨b, hb, hRb⟩ := forall₂_right hL.right (j + 1) n hn
  obtain ⟨p, hp, hA⟩ := forall₂_right hTimed.score.onsets j a.onset (by rw [List.getElem?_map, ha]; rfl)
  obtain ⟨q, hq, hB⟩ := forall₂_right hTimed.score.onsets (j + 1) b.onset (by rw [List.getElem?_map, hb]; rfl)
  have hao : a.onset = noteOnset m := hRa.onset
  have hbo : b.onset = noteOnset n := hRb.onset
  rw [hao] at hA
  rw [hbo] at hB
  have hle : toLex (noteOnset m) ≤ toLex (noteOnset n) := by
    obtain ⟨l1, e1⟩ := List.getElem?_eq_some_iff.1 hm
    obtain ⟨l2, e2⟩ := List.getElem?_eq_some_iff.1 hn
    have := List.pairwise_iff_getElem.1 hT.noteOrder j (j + 1) l1 l2 (by omega)
    rw [e1, e2] at this
    exact this
  have hpq : p ≠ q ↔ noteOnset m ≠ noteOnset n := by
    constructor
    · intro hne he
      rw [he] at hA
      exact hne (at_unique hT.chain hA hB)
    · intro hne
      have hlt : toLex (noteOnset m) < toLex (noteOnset n) := lt_of_le_of_ne hle fun he => hne (toLex.injective he)
      exact ne_of_lt (at_lt hT.chain hT.lengths (hT.inside m (List.mem_of_getElem? hm))
        (hT.inside n (List.mem_of_getElem? hn)) hA hB hlt)
  have hmask : r.mask[j + 1]? = some (decide (noteOnset m ≠ noteOnset n)) := by
    rw [ht.measured j p q hp hq]
    exact congrArg some (decide_eq_decide.2 hpq)
  refine ⟨hmask, ?_⟩
  intro hne
  rw [decide_eq_true hne] at hmask
  have := ht.targets j a b ha hb hmask
  rw [between_iff hL hao hbo] at this
  exact this

/-- C149: every row with a new chord after the first note is learned: it is at a measured note with the target 1, which
is the first one that does not begin before it. -/
theorem C149_learned (pieces : List ClassPiece) (hp : ∀ x ∈ pieces, FromTables x) (is : List Nat) (hne : is ≠ [])
    (his : ∀ i ∈ is, i < pieces.length) :
    ∃ d batch, ctmData pieces = .ok d ∧ d.batch is = .ok batch ∧
      ∀ (k i : Nat) x, is[k]? = some i → pieces[i]? = some x → ∃ r, batch[k]? = some r ∧
        ∀ measures notes chords red useInv u useSusp c, Tables measures notes chords red useInv u c →
          tablePiece measures notes chords red useInv u useSusp = .ok x →
          ∀ (q : Nat) row first, NewRow measures chords red useInv u useSusp q → chords[q]? = some row →
            notes[0]? = some first → toLex (noteOnset first) < toLex (rowOnset row) →
            ∃ (j : Nat) (n : NoteRow), notes[j]? = some n ∧ toLex (rowOnset row) ≤ toLex (noteOnset n) ∧
              (∀ (i : Nat) m, i < j → notes[i]? = some m → toLex (noteOnset m) < toLex (rowOnset row)) ∧
              r.mask[j]? = some true ∧ r.targets[j]? = some 1 := by
  obtain ⟨d, batch, h1, h2, -, h4⟩ := C149_targets pieces hp is hne his
  refine ⟨d, batch, h1, h2, ?_⟩
  intro k i x hk hi
  obtain ⟨r, hr, hall⟩ := h4 k i x hk hi
  refine ⟨r, hr, ?_⟩
  intro measures notes chords red useInv u useSusp c hT hx q row first hq hrow hf hlt
  obtain ⟨-, -, ht⟩ := hall measures notes chords red useInv u useSusp c hT hx
  have hex : ∃ j : Nat, ∃ n, notes[j]? = some n ∧ toLex (rowOnset row) ≤ toLex (noteOnset n) := by
    obtain ⟨n, hn, hle⟩ := hT.begun row (List.mem_of_getElem? hrow)
    obtain ⟨j, hj⟩ := List.getElem?_of_mem hn
    exact ⟨j, n, hj, hle⟩
  classical
  obtain ⟨n, hn, hle⟩ := Nat.find_spec hex
  have hmin : ∀ (i : Nat) m, i < Nat.find hex → notes[i]? = some m → toLex (noteOnset m) < toLex (rowOnset row) := by
    intro i m hi hm
    by_contra hno
    exact Nat.find_min hex hi ⟨m, hm, not_lt.1 hno⟩
  generalize Nat.find hex = j at hn hmin
  cases j with
  | zero =>
    rw [hf] at hn
    injection hn with hn
    subst hn
    exact absurd hle (not_le.2 hlt)
  | succ j =>
    obtain ⟨m, hm⟩ : ∃ m, notes[j]? = some m :=
      ⟨_, List.getElem?_eq_getElem (by have := (List.getElem?_eq_some_iff.1 hn).1; omega)⟩
    have hml := hmin j m (by omega) hm
    have hne : noteOnset m ≠ noteOnset n := by
      intro he
      rw [he] at hml
      exact absurd hle (not_le.2 hml)
    obtain ⟨a1, a2⟩ := ht j m n hm hn
    rw [decide_eq_true hne] at a1
    exact ⟨j + 1, n, hn, hle, hmin, a1, (a2 hne).1 ⟨q, row, hq, hrow, hml, hle⟩⟩

/-- C149: what the chord classifier is trained on. Each row with a new chord has an item (with transposition 0) with its
class and bass, and with the notes from two notes before the chord to two notes after it. -/
theorem C149_classes (pieces : List ClassPiece) (hne : pieces ≠ []) (hp : ∀ x ∈ pieces, FromTables x) :
    ∃ d, classDataset pieces = .ok d ∧
      ∀ (p : Nat) x, pieces[p]? = some x → ∀ measures notes chords red useInv u useSusp c,
        Tables measures notes chords red useInv u c → tablePiece measures notes chords red useInv u useSusp = .ok x →
        (∀ ct, red (red ct) = red ct) →
        ∀ (lo hi : Int), lo ≤ 0 → 0 ≤ hi → ∀ (q : Nat) row, NewRow measures chords red useInv u useSusp q →
          chords[q]? = some row → ∃ k o ch y tone a b start rows last ps pe,
            x.chords[k]? = some o ∧ o.1.onset = rowOnset row ∧
            ChordRight (measures.map MeasureRow.meter) .tpc red useInv u row.row ch ∧
            d.item ⟨red, useInv, lo, hi⟩ (ClassTraining.itemOf pieces ⟨red, useInv, lo, hi⟩ p k 0) = .ok y ∧
            ClassTraining.Trained ⟨red, useInv, lo, hi⟩ (ClassTraining.label ch.chord) 0 tone rows y ∧
            ch.chord.bass = ch.chord.root + tone ∧ ClassTraining.Labelled x c last ps pe ∧
            At c (rowOnset row).1 (rowOnset row).2 start ∧ ClassTraining.RowsOf x ps pe o.1 start a b rows ∧
            (pieceChordRanges (x.notes.map (fun n => (toLex n.onset, toLex n.offset)))
              ((x.chords.map Prod.fst).map (fun c => toLex c.onset)))[k]? = some (a, b) := by
  obtain ⟨d, h1, -, h3⟩ := ClassTraining.C147_items_partial pieces hne (by
    intro x hx
    obtain ⟨measures, notes, chords, red, useInv, u, useSusp, c, hT, hx⟩ := hp x hx
    obtain ⟨-, last, ps, pe, h, -⟩ := loaded hT hx
    exact ⟨c, last, ps, pe, h⟩)
  refine ⟨d, h1, ?_⟩
  intro p x hx measures notes chords red useInv u useSusp c hT hxT hred lo hi hlo hhi q row hq hrow
  obtain ⟨hL, last, ps, pe, hLab, -⟩ := loaded hT hxT
  obtain ⟨ks, -, k2, k3⟩ := hL.begun
  obtain ⟨k, hk⟩ := List.getElem?_of_mem ((k2 q).2 hq)
  obtain ⟨o, ho, r', ch, hr', hR, hon, l, dd, he⟩ := forall₂_right k3 k q hk
  rw [hrow] at hr'
  injection hr' with hr'
  subst hr'
  obtain ⟨a, b, start, rows, e1, e2, e3, e4⟩ := h3 p x hx c last ps pe hLab k o ho
  obtain ⟨-, e6⟩ := e4 ⟨red, useInv, lo, hi⟩ 0 hred hlo hhi
  have hlab : ClassTraining.label o.2 = ClassTraining.label ch.chord := by rw [he]; rfl
  have hroot : o.2.root = ch.chord.root := by rw [he]
  have htype : o.2.chordType = ch.chord.chordType := by rw [he]
  obtain ⟨p1, p2, -, p4, p5⟩ := C78_pitches _ _ _ _ _ _ _ hR
  obtain ⟨key, hh, -⟩ := hR.harmony
  obtain ⟨-, -, ⟨t, -, ht⟩, -, n, tone, hn, htone, hb⟩ := hh
  simp only at ht hn htone hb
  have hidem : red ch.chord.chordType = ch.chord.chordType := by rw [ht, hred]
  have n35 : NUM_PITCHES .tpc = 35 := rfl
  obtain ⟨hbass, hb0, hb1⟩ := tpc_range hb
  have hused : ClassData.usedInversion useInv (ClassTraining.label ch.chord) = ch.chord.inversion := by
    cases useInv
    · rw [(p5 rfl).1]; rfl
    · rfl
  have hclass : ClassData.HasClass .tpc red useInv (ClassTraining.label o.2) o.2.root := by
    rw [hlab, hroot]
    refine ⟨⟨p1.1, p1.2⟩, fun _ => ?_⟩
    show 0 ≤ ch.chord.inversion ∧ ch.chord.inversion < specInversions (red ch.chord.chordType)
    rw [hidem, specInversions_eq]
    exact p4
  obtain ⟨-, e7⟩ := e6 hclass
  obtain ⟨y, hy, hy1, -⟩ := e7 (by rw [hroot]; omega) (by rw [hroot]; omega) (fun h => absurd rfl h) tone (by
    simp only [htype, hidem, hlab, hused]
    rw [← hn]
    exact htone)
  rw [hon] at e2
  refine ⟨k, o, ch, y, tone, a, b, start, rows, last, ps, pe, ho, hon, hR, hy, ?_, hbass, hLab, e2, e3, e1⟩
  rw [hlab] at hy1
  exact hy1 (by rw [hroot]; omega)

/-! ## Examples -/

/-- Four measures of 4/4. -/
def exMeasures : List MeasureRow :=
  [⟨⟨0, 1, 0, some 1⟩, 4, 4⟩, ⟨⟨1, 1, 0, some 2⟩, 4, 4⟩, ⟨⟨2, 1, 0, some 3⟩, 4, 4⟩, ⟨⟨3, 1, 0, none⟩, 4, 4⟩]

/-- C, E and G in three measures, and another C together with G. -/
def exNotes : List NoteRow :=
  [⟨60, 0, 0, 0, 1, 0, 1, none⟩, ⟨64, 4, 1, 0, 2, 0, 1, none⟩, ⟨67, 1, 2, 0, 3, 0, 1, none⟩, ⟨60, 0, 2, 0, 3, 0, 1, none⟩]

/-- C major, again C major, and G major. -/
def exRows : List PieceRow := [chordRow "I".toList 0 0, chordRow "I".toList 0 1, chordRow "I".toList 1 2]

theorem ex_at (i : Nat) (hi : i < 4) : At (exMeasures.map (·.measure)) i 0 (i : ℚ) := by
  match i, hi with
  | 0, _ => exact ⟨0, _, rfl, rfl, by simp [chainPos, exMeasures]⟩
  | 1, _ => exact ⟨1, _, rfl, rfl, by simp [chainPos, exMeasures]⟩
  | 2, _ => exact ⟨2, _, rfl, rfl, by simp [chainPos, exMeasures]; norm_num⟩
  | 3, _ => exact ⟨3, _, rfl, rfl, by simp [chainPos, exMeasures]; norm_num⟩

theorem ex_metered (i : Nat) (hi : i < 4) : Metered exMeasures i := by
  match i, hi with
  | 0, _ => exact ⟨⟨0, 4, 4⟩, rfl, by decide, by decide⟩
  | 1, _ => exact ⟨⟨1, 4, 4⟩, rfl, by decide, by decide⟩
  | 2, _ => exact ⟨⟨2, 4, 4⟩, rfl, by decide, by decide⟩
  | 3, _ => exact ⟨⟨3, 4, 4⟩, rfl, by decide, by decide⟩

theorem ex_inside (i : Nat) (hi : i < 4) : Inside (exMeasures.map (·.measure)) (i, 0) := by
  match i, hi with
  | 0, _ => exact ⟨0, _, rfl, rfl, by decide, by decide +kernel⟩
  | 1, _ => exact ⟨1, _, rfl, rfl, by decide, by decide +kernel⟩
  | 2, _ => exact ⟨2, _, rfl, rfl, by decide, by decide +kernel⟩
  | 3, _ => exact ⟨3, _, rfl, rfl, by decide, by decide +kernel⟩

theorem ex_chain : Chain (exMeasures.map (·.measure)) (exMeasures.map (·.measure)) := by
  refine ⟨?_, ?_, by decide⟩
  · intro m hm; simp [exMeasures] at hm; rcases hm with rfl | rfl | rfl | rfl <;> rfl
  · intro k m m' h1 h2
    match k with
    | 0 => simp [exMeasures] at h1 h2; subst h1; subst h2; rfl
    | 1 => simp [exMeasures] at h1 h2; subst h1; subst h2; rfl
    | 2 => simp [exMeasures] at h1 h2; subst h1; subst h2; rfl
    | k + 3 => simp [exMeasures] at h2

theorem ex_tables : Tables exMeasures exNotes exRows noReduction true true (exMeasures.map (·.measure)) where
  chain := ex_chain
  lengths := by decide +kernel
  twoNotes := by decide
  twoChords := by decide
  spelled := by decide
  sounding := by decide
  metered := by
    intro r hr
    simp only [exNotes, List.mem_cons, List.not_mem_nil, or_false] at hr
    rcases hr with rfl | rfl | rfl | rfl
    · exact ⟨ex_metered 0 (by omega), ex_metered 1 (by omega)⟩
    · exact ⟨ex_metered 1 (by omega), ex_metered 2 (by omega)⟩
    · exact ⟨ex_metered 2 (by omega), ex_metered 3 (by omega)⟩
    · exact ⟨ex_metered 2 (by omega), ex_metered 3 (by omega)⟩
  inside := by
    intro r hr
    simp only [exNotes, List.mem_cons, List.not_mem_nil, or_false] at hr
    rcases hr with rfl | rfl | rfl | rfl
    · exact ex_inside 0 (by omega)
    · exact ex_inside 1 (by omega)
    · exact ex_inside 2 (by omega)
    · exact ex_inside 2 (by omega)
  noteOrder := by decide +kernel
  readable := by
    intro r hr
    have : (chordFromSeries (exMeasures.map MeasureRow.meter) .tpc noReduction true true none r.row).1.isSome = true := by
      revert r
      decide +kernel
    obtain ⟨ch, hch⟩ := Option.isSome_iff_exists.1 this
    exact ⟨ch, ((C78_chord _ .tpc noReduction true true none (by rintro c ⟨⟩) r.row).1 ch).1 hch⟩
  chordInside := by
    intro r hr
    simp only [exRows, List.mem_cons, List.not_mem_nil, or_false] at hr
    rcases hr with rfl | rfl | rfl
    · exact ex_inside 0 (by omega)
    · exact ex_inside 1 (by omega)
    · exact ex_inside 2 (by omega)
  contiguous := by
    intro k r r' h1 h2
    match k with
    | 0 => simp [exRows] at h1 h2; subst h1; subst h2; rfl
    | 1 => simp [exRows] at h1 h2; subst h1; subst h2; rfl
    | k + 2 => simp [exRows] at h2
  durations := by
    intro r hr
    simp only [exRows, List.mem_cons, List.not_mem_nil, or_false] at hr
    rcases hr with rfl | rfl | rfl
    · exact ⟨_, _, ex_at 0 (by omega), ex_at 1 (by omega), by norm_num [chordRow], by norm_num [chordRow]⟩
    · exact ⟨_, _, ex_at 1 (by omega), ex_at 2 (by omega), by norm_num [chordRow], by norm_num [chordRow]⟩
    · exact ⟨_, _, ex_at 2 (by omega), ex_at 3 (by omega), by norm_num [chordRow], by norm_num [chordRow]⟩
  ended := by
    intro r hr n hn p t hp ht
    have hu : ∀ {x : Int × ℚ} {p q : ℚ}, At (exMeasures.map (·.measure)) x.1 x.2 p →
        At (exMeasures.map (·.measure)) x.1 x.2 q → p = q := by
      intro x p q hp hq
      exact at_unique ex_chain hp hq
    injection hr with hr
    subst hr
    have et := hu (x := (3, 0)) ht (ex_at 3 (by omega))
    simp only [exNotes, List.mem_cons, List.not_mem_nil, or_false] at hn
    rcases hn with rfl | rfl | rfl | rfl
    · rw [et, hu (x := (0, 0)) hp (ex_at 0 (by omega))]; norm_num
    · rw [et, hu (x := (1, 0)) hp (ex_at 1 (by omega))]; norm_num
    · rw [et, hu (x := (2, 0)) hp (ex_at 2 (by omega))]; norm_num
    · rw [et, hu (x := (2, 0)) hp (ex_at 2 (by omega))]; norm_num
  begun := by
    intro r hr
    simp only [exRows, List.mem_cons, List.not_mem_nil, or_false] at hr
    rcases hr with rfl | rfl | rfl
    · exact ⟨_, List.mem_cons_self, by decide +kernel⟩
    · exact ⟨_, List.mem_cons_of_mem _ List.mem_cons_self, by decide +kernel⟩
    · exact ⟨_, List.mem_cons_of_mem _ (List.mem_cons_of_mem _ List.mem_cons_self), by decide +kernel⟩

/-- The repeated chord is not learned; the new one is. The last note begins together with the one before it. -/
example : ((tablePiece exMeasures exNotes exRows noReduction true true false).bind fun x =>
    (ctmData [x]).bind fun d => (d.batch [0]).map fun l => l.map fun r => (r.targets, r.mask)) =
      .ok [([-100, 0, 1, -100], [false, true, true, false])] := by decide +kernel

/-- Two chords, of the lengths 2 and 1. -/
example : ((tablePiece exMeasures exNotes exRows noReduction true true false).map fun x =>
    x.chords.map fun ch => (ch.1.onset, ch.1.offset, ch.1.duration)) =
      .ok [((0, 0), (2, 0), 2), ((2, 0), (3, 0), 1)] := by decide +kernel

/-- A row without a chord. -/
def noChord (mc : Int) : PieceRow :=
  let r := chordRow "I".toList 0 mc
  { r with row := { r.row with numeral := some "@none".toList } }

/-- C149 does not hold if a row between two rows with the same chord has no chord: they are made one chord, which is said
to be 2 long although it begins at 0 and ends at 3. The places of notes in the chord are divided by 2. -/
theorem C149_unread_fails :
    ((tablePiece exMeasures exNotes [chordRow "I".toList 0 0, noChord 1, chordRow "I".toList 0 2] noReduction true true
      false).map fun x => x.chords.map fun ch => (ch.1.onset, ch.1.offset, ch.1.duration)) =
        .ok [((0, 0), (3, 0), 2)] ∧
    At (exMeasures.map (·.measure)) 0 0 0 ∧ At (exMeasures.map (·.measure)) 3 0 3 :=
  ⟨by decide +kernel, by simpa using ex_at 0 (by omega), by simpa using ex_at 3 (by omega)⟩

end Verif.TablePiece
