import Verif.Notes
import Verif.Props.FromSeries
import Verif.Props.NoteVectors

/-!
# C91: the notes of a piece
-/

namespace Verif.Notes

open Verif.FromSeries

/-! ## Rows of a table -/

/-- The note that a row says. -/
structure NoteRight (T : List MeterRow) (pt : PitchType) (row : NoteRow) (n : NoteObj) : Prop where
  pitch : match pt with
    | .tpc => n.pitchClass = row.tpc + 15 ∧ -15 ≤ row.tpc ∧ row.tpc < 20
    | .midi => n.pitchClass = row.midi % 12
  octave : 12 * n.octave ≤ row.midi ∧ row.midi < 12 * n.octave + 12
  onset : n.onset = (row.mc, row.onset)
  offset : n.offset = (row.offsetMc, row.offsetBeat)
  onsetLevel : LevelOf T (row.mc, row.onset) n.onsetLevel
  offsetLevel : LevelOf T (row.offsetMc, row.offsetBeat) n.offsetLevel
  duration : n.duration = row.duration
  pitchType : n.pitchType = pt
  mcOnset : n.mcOnset = row.mcOnset.getD row.onset

theorem pitch_iff (row : NoteRow) (pt : PitchType) (p : Int) : rowPitch row pt = .ok p ↔
    match pt with
    | .tpc => p = row.tpc + 15 ∧ -15 ≤ row.tpc ∧ row.tpc < 20
    | .midi => p = row.midi % 12 := by
  have n35 : NUM_PITCHES .tpc = 35 := rfl
  have n12 : NUM_PITCHES .midi = 12 := rfl
  have c15 : TPC_C = 15 := rfl
  cases pt
  · simp only [rowPitch, n35, c15]
    split
    · constructor
      · intro h; cases h
      · rintro ⟨_, _, _⟩; omega
    · rw [Except.ok.injEq]; omega
  · simp only [rowPitch, n12, Except.ok.injEq]
    exact eq_comm

/-- C91: with a cache of right levels, and without a cache, `Note.from_series` gives the note that the row
says; it is None only if there is no such note. The cache stays right. -/
theorem C91_row (T : List MeterRow) (pt : PitchType) (cache : Option LevelCache) (hc : CacheRight cache)
    (row : NoteRow) :
    (∀ n, (noteFromSeries T pt cache row).1 = some n ↔ NoteRight T pt row n) ∧
    CacheRight (noteFromSeries T pt cache row).2 := by
  have n12 : NUM_PITCHES .midi = 12 := rfl
  unfold noteFromSeries
  cases hp : rowPitch row pt with
  | error e =>
    refine ⟨fun n => ⟨(by intro h; cases h), fun h => ?_⟩, hc⟩
    have := (pitch_iff row pt n.pitchClass).2 (by have := h.pitch; cases pt <;> exact this)
    rw [hp] at this
    cases this
  | ok p =>
    obtain ⟨a1, a2⟩ := levelAt_spec T cache hc row.mc row.onset
    simp only
    generalize levelAt T cache row.mc row.onset = x at a1 a2
    obtain ⟨r1, cache1⟩ := x
    simp only at a1 a2
    cases r1 with
    | error e =>
      refine ⟨fun n => ⟨(by intro h; cases h), fun h => ?_⟩, a2⟩
      cases (a1 _).2 h.onsetLevel
    | ok l1 =>
      obtain ⟨b1, b2⟩ := levelAt_spec T cache1 a2 row.offsetMc row.offsetBeat
      simp only
      generalize levelAt T cache1 row.offsetMc row.offsetBeat = y at b1 b2
      obtain ⟨r2, cache2⟩ := y
      simp only at b1 b2
      cases r2 with
      | error e =>
        refine ⟨fun n => ⟨(by intro h; cases h), fun h => ?_⟩, b2⟩
        cases (b1 _).2 h.offsetLevel
      | ok l2 =>
        refine ⟨fun n => ⟨?_, fun h => ?_⟩, b2⟩
        · intro h
          simp only [Option.some.injEq] at h
          subst h
          have hp' := (pitch_iff row pt p).1 hp
          refine ⟨?_, ?_, rfl, rfl, (a1 _).1 rfl, (b1 _).1 rfl, rfl, rfl, rfl⟩
          · cases pt <;> exact hp'
          · simp only [mkNote, n12]; omega
        · have hp' := (pitch_iff row pt n.pitchClass).2 (by have := h.pitch; cases pt <;> exact this)
          rw [hp] at hp'
          injection hp' with hp'
          have e1 := (a1 _).2 h.onsetLevel
          have e2 := (b1 _).2 h.offsetLevel
          injection e1 with e1
          injection e2 with e2
          have ho := h.octave
          have ho' : row.midi / 12 = n.octave := by omega
          obtain ⟨pc, oc, on, ol, du, of', fl, pt', mo⟩ := n
          obtain ⟨_, _, h3, h4, _, _, h7, h8, h9⟩ := h
          simp only at *
          subst h3 h4 h7 h8 h9 hp' e1 e2 ho'
          rfl

theorem table_spec (T : List MeterRow) (pt : PitchType) (cache : Option LevelCache) (hc : CacheRight cache)
    (rows : List NoteRow) :
    (notesFromTable T pt cache rows).1 = rows.map (fun row => (noteFromSeries T pt none row).1) ∧
    CacheRight (notesFromTable T pt cache rows).2 := by
  induction rows generalizing cache with
  | nil => exact ⟨rfl, hc⟩
  | cons row rows ih =>
    obtain ⟨a, b⟩ := C91_row T pt cache hc row
    obtain ⟨a', _⟩ := C91_row T pt none (by rintro c ⟨⟩) row
    obtain ⟨i1, i2⟩ := ih _ b
    refine ⟨?_, i2⟩
    simp only [notesFromTable, List.map_cons, i1]
    congr 1
    exact Option.ext fun c => (a c).trans (a' c).symm

theorem zip_index {α β : Type} (f : α → Option β) (l : List α) (n : β) (i : Nat) (k : Nat) :
    (n, i) ∈ ((l.map f).zip (List.range' k l.length)).filterMap (fun x => x.1.map (fun n => (n, x.2))) ↔
      k ≤ i ∧ ∃ a, l[i - k]? = some a ∧ f a = some n := by
  induction l generalizing k with
  | nil => simp
  | cons a l ih =>
    simp only [List.map_cons, List.length_cons, List.range'_succ, List.zip_cons_cons, List.filterMap_cons]
    have ih' := ih (k + 1)
    have hsplit : (k ≤ i ∧ ∃ b, (a :: l)[i - k]? = some b ∧ f b = some n) ↔
        (i = k ∧ f a = some n) ∨ (k + 1 ≤ i ∧ ∃ b, l[i - (k + 1)]? = some b ∧ f b = some n) := by
      constructor
      · rintro ⟨h, b, hb, hf⟩
        by_cases he : i = k
        · subst he
          simp at hb
          exact .inl ⟨rfl, by rw [hb]; exact hf⟩
        · obtain ⟨j, hj⟩ : ∃ j, i - k = j + 1 := ⟨i - k - 1, by omega⟩
          rw [hj] at hb
          have : i - (k + 1) = j := by omega
          exact .inr ⟨by omega, b, by rw [this]; simpa using hb, hf⟩
      · rintro (⟨rfl, hf⟩ | ⟨h, b, hb, hf⟩)
        · exact ⟨le_refl _, a, by simp, hf⟩
        · obtain ⟨j, hj⟩ : ∃ j, i - k = j + 1 := ⟨i - k - 1, by omega⟩
          have : i - (k + 1) = j := by omega
          rw [this] at hb
          exact ⟨by omega, b, by rw [hj]; simpa using hb, hf⟩
    rw [hsplit, ← ih']
    cases hf : f a with
    | none => simp
    | some m =>
      simp only [Option.map_some, List.mem_cons, Prod.mk.injEq, Option.some.injEq]
      constructor
      · rintro (⟨rfl, rfl⟩ | h)
        · exact .inl ⟨rfl, rfl⟩
        · exact .inr h
      · rintro (⟨rfl, rfl⟩ | h)
        · exact .inl ⟨rfl, rfl⟩
        · exact .inr h

theorem zip_sorted {α β : Type} (f : α → Option β) (l : List α) (k : Nat) :
    (((l.map f).zip (List.range' k l.length)).filterMap (fun x => x.1.map (fun n => (n, x.2)))).Pairwise
      (fun a b => a.2 < b.2) := by
  induction l generalizing k with
  | nil => simp
  | cons a l ih =>
    simp only [List.map_cons, List.length_cons, List.range'_succ, List.zip_cons_cons, List.filterMap_cons]
    cases hf : f a with
    | none => simpa using ih (k + 1)
    | some m =>
      simp only [Option.map_some, List.pairwise_cons]
      refine ⟨?_, ih (k + 1)⟩
      rintro ⟨n, i⟩ h
      have := (zip_index f l n i (k + 1)).1 h
      simp only; omega

/-- C91: the notes of a piece are those that its rows say, in their order, each with the number of its row;
the cache that is handed on to the chords is right. What is missing: a piece with exactly one such note, see
`C91_fails_one`. -/
theorem C91_piece_partial (T : List MeterRow) (rows : List NoteRow) :
    CacheRight (pieceNotes T rows).2 ∧
    ∃ l : List (NoteObj × Nat), (l.length ≠ 1 → (pieceNotes T rows).1 = .ok l) ∧
      (l.length = 1 → (pieceNotes T rows).1 = .error .typeError) ∧
      l.Pairwise (fun a b => a.2 < b.2) ∧
      ∀ n (i : Nat), (n, i) ∈ l ↔ ∃ row, rows[i]? = some row ∧ NoteRight T .tpc row n := by
  obtain ⟨a, b⟩ := table_spec T .tpc (some []) (by rintro c ⟨⟩ _ _ _ _ h; cases h) rows
  refine ⟨b, ((rows.map (fun row => (noteFromSeries T .tpc none row).1)).zip
    (List.range' 0 rows.length)).filterMap (fun x => x.1.map (fun n => (n, x.2))), ?_, ?_, zip_sorted _ _ _, ?_⟩
  · intro h
    simp only [pieceNotes, a, List.length_map, List.range_eq_range', squeezed, if_neg h]
  · intro h
    simp only [pieceNotes, a, List.length_map, List.range_eq_range', squeezed, if_pos h]
  · intro n i
    rw [zip_index]
    constructor
    · rintro ⟨_, row, h1, h2⟩
      exact ⟨row, by simpa using h1, ((C91_row T .tpc none (by rintro c ⟨⟩) row).1 n).1 h2⟩
    · rintro ⟨row, h1, h2⟩
      exact ⟨Nat.zero_le _, row, by simpa using h1, ((C91_row T .tpc none (by rintro c ⟨⟩) row).1 n).2 h2⟩

/-- C91: a note whose spelling fits its MIDI pitch has that pitch as its number. -/
theorem C91_number (T : List MeterRow) (row : NoteRow) (n : NoteObj) (h : NoteRight T .tpc row n)
    (hfit : (7 * row.tpc) % 12 = row.midi % 12) : n.midiNumber = .ok row.midi := by
  have hp := h.pitch
  have ho := h.octave
  simp only at hp
  obtain ⟨k, hk, hk'⟩ := NoteVectors.C63_tpc_partial n.pitchClass n.octave (by omega) (by omega)
  unfold NoteObj.midiNumber
  rw [h.pitchType, hk, hk', hp.1]
  congr 1
  omega

/-! ## MusicXML -/

/-- The seven letters with their places in fifths and semitones above C. -/
def letters : List (Char × Int × Int) :=
  [('C', 0, 0), ('D', 2, 2), ('E', 4, 4), ('F', -1, 5), ('G', 1, 7), ('A', 3, 9), ('B', 5, 11)]

/-- What a written pitch says: its place in fifths from C, and the MIDI number at which it sounds (C4 is 60). -/
def Sounds (p : XmlPitch) (fifth number : Int) : Prop :=
  ∃ f s, (p.letter, f, s) ∈ letters ∧ fifth = f + 7 * p.alter ∧ number = 12 * (p.octave + 1) + s + p.alter

/-- C91: the pitch of a note from a MusicXML score is the written one, and the octave is the written octave;
with MIDI pitches it is the class of the sounding pitch. Spellings outside of the 35 raise a `ValueError`. -/
theorem C91_xml (rows : List XmlRow) (mc : Nat) (p : XmlPitch) (fifth number : Int) (hp : Sounds p fifth number)
    (start duration : ℚ) (x : XmlNote) (hx : xmlNote rows mc start duration = .ok x) :
    (∀ n, noteFromMusic21 rows mc .tpc p start duration = .ok n ↔
      (-15 ≤ fifth ∧ fifth < 20) ∧
      n = ⟨fifth + 15, p.octave, x.onset, x.onsetLevel, x.duration, x.offset, x.offsetLevel, .tpc, x.mcOnset⟩) ∧
    noteFromMusic21 rows mc .midi p start duration =
      .ok ⟨number % 12, p.octave, x.onset, x.onsetLevel, x.duration, x.offset, x.offsetLevel, .midi, x.mcOnset⟩ := by
  obtain ⟨f, s, hl, hf, hn⟩ := hp
  have hl' : (p.letter, f) ∈ fifths ∧ (p.letter, s) ∈ semitones := by
    obtain ⟨c, a, o⟩ := p
    simp only [letters, List.mem_cons, Prod.mk.injEq, List.not_mem_nil, or_false] at hl
    rcases hl with h | h | h | h | h | h | h <;> obtain ⟨rfl, rfl, rfl⟩ := h <;> simp only <;> decide
  have h1 := C06_spelling p.letter f hl'.1 p.alter.toNat (-p.alter).toNat
  have h2 := C07_spelling p.letter s hl'.2 p.alter.toNat (-p.alter).toNat
  have ha : ((p.alter.toNat : Nat) : Int) - ((-p.alter).toNat : Nat) = p.alter := by omega
  rw [ha] at h1 h2
  unfold noteFromMusic21 xmlPitchName
  simp only [hx, Bind.bind, Except.bind, h1, h2]
  constructor
  · intro n
    by_cases hr : 0 ≤ 15 + f + 7 * p.alter ∧ 15 + f + 7 * p.alter < 35
    · rw [if_pos hr]
      simp only [Except.ok.injEq, mkNote, Option.getD_some]
      have e : 15 + f + 7 * p.alter = fifth + 15 := by omega
      rw [e]
      constructor
      · intro h; exact ⟨by omega, h.symm⟩
      · rintro ⟨_, h⟩; exact h.symm
    · rw [if_neg hr]
      constructor
      · intro h; cases h
      · rintro ⟨_, _⟩; omega
  · have e : (s + p.alter) % 12 = number % 12 := by omega
    rw [e]; rfl

/-- How many octaves lie between the written octave and the one in which the pitch sounds: 0, unless
accidentals lead across C (B♯ 1, C♭ -1). -/
def Crossed (p : XmlPitch) (k : Int) : Prop :=
  ∃ f s, (p.letter, f, s) ∈ letters ∧ 12 * k ≤ s + p.alter ∧ s + p.alter < 12 * k + 12

/-- C91 fails for MusicXML: the number of a note is an octave too low, and lower by yet another octave
for each octave that its accidentals lead up across C (higher if they lead down). -/
theorem C91_fails_xml (rows : List XmlRow) (mc : Nat) (p : XmlPitch) (fifth number k : Int)
    (hp : Sounds p fifth number) (hk : Crossed p k) (start duration : ℚ) (n : NoteObj)
    (h : noteFromMusic21 rows mc .tpc p start duration = .ok n) :
    n.midiNumber = .ok (number - 12 * (k + 1)) := by
  have h' := h
  unfold noteFromMusic21 at h'
  obtain ⟨x, hx, -⟩ := Vectors.bind_ok h'
  obtain ⟨hr, hn⟩ := ((C91_xml rows mc p fifth number hp start duration x hx).1 n).1 h
  obtain ⟨f, s, hl, hf, hnum⟩ := hp
  obtain ⟨f', s', hl', hk1, hk2⟩ := hk
  have hs : s = s' ∧ (7 * f - s) % 12 = 0 := by
    obtain ⟨c, a, o⟩ := p
    simp only [letters, List.mem_cons, Prod.mk.injEq, List.not_mem_nil, or_false] at hl hl'
    rcases hl with h | h | h | h | h | h | h <;> obtain ⟨rfl, rfl, rfl⟩ := h <;> revert hl' <;> simp
    all_goals (rintro _ rfl; rfl)
  obtain ⟨m, hm, hm'⟩ := NoteVectors.C63_tpc_partial n.pitchClass n.octave (by rw [hn]; simp only; omega)
    (by rw [hn]; simp only; omega)
  unfold NoteObj.midiNumber
  have hpt : n.pitchType = .tpc := by rw [hn]
  rw [hpt, hm, hm', hn]
  congr 1
  simp only
  omega

/-- C91 fails: the same note, once as a row of a table and once in a MusicXML score, gets the same pitch
class, but different octaves, unless its accidentals lead down across C. -/
theorem C91_fails_loaders (T : List MeterRow) (row : NoteRow) (n n' : NoteObj) (h : NoteRight T .tpc row n)
    (rows : List XmlRow) (mc : Nat) (p : XmlPitch) (k : Int) (hp : Sounds p row.tpc row.midi) (hk : Crossed p k)
    (start duration : ℚ) (h' : noteFromMusic21 rows mc .tpc p start duration = .ok n') :
    n.pitchClass = n'.pitchClass ∧ n.octave = n'.octave + 1 + k ∧ (n.octave = n'.octave ↔ k = -1) := by
  have h0 := h'
  unfold noteFromMusic21 at h0
  obtain ⟨x, hx, -⟩ := Vectors.bind_ok h0
  obtain ⟨hr, hn⟩ := ((C91_xml rows mc p row.tpc row.midi hp start duration x hx).1 n').1 h'
  have ho := h.octave
  have hpc := h.pitch
  simp only at hpc
  obtain ⟨f, s, hl, hf, hnum⟩ := hp
  obtain ⟨f', s', hl', hk1, hk2⟩ := hk
  have hs : s = s' := by
    obtain ⟨c, a, o⟩ := p
    simp only [letters, List.mem_cons, Prod.mk.injEq, List.not_mem_nil, or_false] at hl hl'
    rcases hl with h | h | h | h | h | h | h <;> obtain ⟨rfl, rfl, rfl⟩ := h <;> revert hl' <;> simp
    all_goals (rintro _ rfl; rfl)
  rw [hn]
  simp only
  omega

/-! ## Conversion -/

/-- C91: converting a spelled note to MIDI keeps everything but the pitch, which becomes the class of the
sounding pitch. A MIDI note on a black key cannot be converted to a spelled one. -/
theorem C91_convert (n : NoteObj) :
    (n.pitchType = .tpc → n.toPitchType .midi =
      .ok { n with pitchClass := (7 * (n.pitchClass - 15)) % 12, pitchType := .midi }) ∧
    (n.pitchType = .midi → n.pitchClass % 12 ∈ ([1, 3, 6, 8, 10] : List Int) →
      ∃ e, n.toPitchType .tpc = .error e) ∧
    n.toPitchType n.pitchType = .ok n := by
  refine ⟨?_, ?_, ?_⟩
  · intro h
    have hv := C08_value n.pitchClass
    unfold convertPitch at hv
    obtain ⟨s, hs, hf⟩ := Vectors.bind_ok hv
    unfold NoteObj.toPitchType
    rw [if_neg (by rw [h]; decide)]
    simp only [h, hs, hf, Bind.bind, Except.bind]
  · intro h hb
    obtain ⟨s, hs, hi⟩ := pitchString_midi n.pitchClass
    unfold NoteObj.toPitchType
    rw [if_neg (by rw [h]; decide)]
    simp only [h, hs, Bind.bind, Except.bind]
    have : ∃ e, pitchFromString s .tpc = .error e := by
      simp only [List.mem_cons, List.not_mem_nil, or_false] at hb
      rcases hb with e | e | e | e | e <;> rw [e] at hi <;> simp [midiStrings] at hi <;> subst hi <;>
        exact ⟨.keyError, by decide +kernel⟩
    obtain ⟨e, he⟩ := this
    exact ⟨e, by rw [he]⟩
  · unfold NoteObj.toPitchType
    rw [if_pos rfl]

/-! ## Cases -/

/-- B♯3 sounds as middle C; as a row of a table its octave is 5 and its number 60. -/
def bSharp : NoteRow := ⟨60, 12, 0, 1 / 4, 1, 0, 3 / 4, some (1 / 4)⟩

example : (noteFromSeries [⟨0, 4, 4⟩, ⟨1, 4, 4⟩] .tpc (some []) bSharp).1 =
    some ⟨27, 5, (0, 1 / 4), 2, 3 / 4, (1, 0), 3, .tpc, 1 / 4⟩ := by decide +kernel

/-- The second of three rows is left out: its spelling is out of range. -/
example : ((pieceNotes [⟨0, 4, 4⟩, ⟨1, 4, 4⟩] [bSharp, { bSharp with tpc := 20 }, { bSharp with tpc := 0 }]).1.map
      (fun l => l.map (fun x => (x.1.pitchClass, x.1.octave, x.2)))) = .ok [(27, 5, 0), (15, 5, 2)] := by
  decide +kernel

/-- A piece with one note. -/
theorem C91_fails_one : (pieceNotes [⟨0, 4, 4⟩, ⟨1, 4, 4⟩] [bSharp]).1 = .error .typeError := by decide +kernel

/-- The same note in a MusicXML score has the octave 3 and the number 36; C4 has 48. -/
example : ((noteFromMusic21 [⟨1, (4, 4), 0, 1, 0⟩, ⟨2, (4, 4), 1, 1, 0⟩] 0 .tpc ⟨'B', 1, 3⟩ (1 / 4) (3 / 4)).bind
      (fun n => n.midiNumber.map (fun m => (n.pitchClass, n.octave, n.onset, n.offset, m)))) =
    .ok (27, 3, (0, 1 / 4), (1, 0), 36) := by decide +kernel

example : Sounds ⟨'B', 1, 3⟩ 12 60 ∧ Crossed ⟨'B', 1, 3⟩ 1 ∧ Sounds ⟨'C', 0, 4⟩ 0 60 ∧ Crossed ⟨'C', 0, 4⟩ 0 :=
  ⟨⟨5, 11, by decide⟩, ⟨5, 11, by decide⟩, ⟨0, 0, by decide⟩, ⟨0, 0, by decide⟩⟩

end Verif.Notes
