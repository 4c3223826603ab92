import Verif.Printing
import Verif.Lemmas.PyStr
import Verif.Lemmas.Pitch
import Verif.Props.Pitch
import Verif.Props.Vectors
import Mathlib.Data.List.Basic
import Mathlib.Data.Rat.Defs

/-!
# What is printed for notes, chords and keys identifies them (C151)
-/

namespace Verif.Printing

open Verif

/-- What a pitch name tells of a pitch: everything for tonal pitch classes, the pitch class for MIDI. -/
def SamePitch (pt : PitchType) (p q : Int) : Prop :=
  match pt with
  | .tpc => p = q
  | .midi => p % 12 = q % 12

/-! ## Cutting a text at a character -/

/-- A text is cut at the first occurrence of a character. -/
theorem cut {c : Char} {v w x y : Str} (hv : c ∉ v) (hw : c ∉ w) (h : v ++ c :: x = w ++ c :: y) : v = w ∧ x = y := by
  induction v generalizing w with
  | nil =>
    cases w with
    | nil => simpa using h
    | cons d w => simp only [List.nil_append, List.cons_append, List.cons.injEq] at h; exact absurd h.1 fun e => hw (by simp [e])
  | cons a v ih =>
    cases w with
    | nil => simp only [List.nil_append, List.cons_append, List.cons.injEq] at h; exact absurd h.1 fun e => hv (by simp [e])
    | cons d w =>
      simp only [List.cons_append, List.cons.injEq] at h
      obtain ⟨h1, h2⟩ := ih (fun e => hv (List.mem_cons_of_mem _ e)) (fun e => hw (List.mem_cons_of_mem _ e)) h.2
      exact ⟨by rw [h.1, h1], h2⟩

theorem intStr_inj {a b : Int} (h : intStr a = intStr b) : a = b := by
  have := signedOf_intStr a
  rw [h, signedOf_intStr] at this
  injection this with this
  exact this.symm

theorem intStr_free (i : Int) (c : Char) (h1 : c.isDigit = false) (h2 : c ≠ '-') : c ∉ intStr i := by
  intro h
  rcases intStr_chars i c h with h | h
  · rw [h1] at h; exact absurd h (by decide)
  · exact h2 h

/-- Two numbers followed by the same separator. -/
theorem cut_int {c : Char} (h1 : c.isDigit = false) (h2 : c ≠ '-') {a b : Int} {x y : Str}
    (h : intStr a ++ c :: x = intStr b ++ c :: y) : a = b ∧ x = y := by
  obtain ⟨e1, e2⟩ := cut (intStr_free a c h1 h2) (intStr_free b c h1 h2) h
  exact ⟨intStr_inj e1, e2⟩

theorem fracRepr_cut {p q : ℚ} {x y : Str} (h : fracRepr p ++ x = fracRepr q ++ y) : p = q ∧ x = y := by
  simp only [fracRepr, List.append_assoc, List.cons_append, List.nil_append, List.cons.injEq, true_and] at h
  obtain ⟨e1, h⟩ := cut_int (by decide) (by decide) h
  simp only [List.cons.injEq, true_and] at h
  obtain ⟨e2, h⟩ := cut_int (by decide) (by decide) h
  have e3 : p.den = q.den := by exact_mod_cast e2
  exact ⟨Rat.ext e1 e3, h⟩

/-- The text of a position ends where its parenthesis is closed. -/
theorem posStr_cut {p q : Int × ℚ} {x y : Str} (h : posStr p ++ x = posStr q ++ y) : p = q ∧ x = y := by
  simp only [posStr, List.append_assoc, List.cons_append, List.nil_append, List.cons.injEq, true_and] at h
  obtain ⟨e1, h⟩ := cut_int (by decide) (by decide) h
  simp only [List.cons.injEq, true_and] at h
  obtain ⟨e2, h⟩ := fracRepr_cut h
  simp only [List.cons.injEq, true_and] at h
  exact ⟨Prod.ext e1 e2, h⟩

theorem posStr_inj {p q : Int × ℚ} (h : posStr p = posStr q) : p = q :=
  (posStr_cut (x := []) (y := []) (by simpa using h)).1

theorem fracStr_inj {p q : ℚ} (h : fracStr p = fracStr q) : p = q := by
  have slash : ∀ i, '/' ∉ intStr i := fun i => intStr_free i '/' (by decide) (by decide)
  unfold fracStr at h
  split at h <;> split at h
  · rename_i h1 h2
    exact Rat.ext (intStr_inj h) (by rw [h1, h2])
  · exact absurd (show '/' ∈ intStr p.num by rw [h]; simp) (slash _)
  · exact absurd (show '/' ∈ intStr q.num by rw [← h]; simp) (slash _)
  · obtain ⟨e1, e2⟩ := cut_int (by decide) (by decide) h
    have := intStr_inj e2
    exact Rat.ext e1 (by exact_mod_cast this)

/-! ## Pitch names -/

/-- The characters of pitch names. -/
def nameChars : Str := ['A', 'B', 'C', 'D', 'E', 'F', 'G', '#', 'b', '/']

theorem name_chars (p : Int) (pt : PitchType) (s : Str) (h : pitchString p pt = .ok s) : ∀ c ∈ s, c ∈ nameChars := by
  cases pt with
  | tpc =>
    obtain ⟨c, q, a, _, hc, _, _, _, _, e⟩ := pitchString_tpc p
    rw [e] at h; injection h with h; subst h
    intro d hd
    simp only [List.mem_cons, List.mem_append, List.mem_replicate] at hd
    rcases hd with rfl | ⟨_, rfl⟩ | ⟨_, rfl⟩
    · simp only [nameChars, List.mem_cons, List.not_mem_nil, or_false] at hc ⊢
      rcases hc with h | h | h | h | h | h | h <;> simp [h]
    · decide
    · decide
  | midi =>
    obtain ⟨s', e, h'⟩ := pitchString_midi p
    rw [e] at h; injection h with h; subst h
    have : ∀ t ∈ midiStrings, ∀ c ∈ t, c ∈ nameChars := by decide
    exact this s' (List.mem_of_getElem? h')

theorem name_free (p : Int) (pt : PitchType) (s : Str) (h : pitchString p pt = .ok s) (c : Char) (hc : c ∉ nameChars) :
    c ∉ s := fun hm => hc (name_chars p pt s h c hm)

theorem count_sharps (c : Char) (m n : Nat) (hc : c ≠ '#') :
    (c :: (List.replicate m '#' ++ List.replicate n 'b')).count '#' = m := by
  simp [List.count_append, List.count_replicate, hc]

theorem count_flats (c : Char) (m n : Nat) (hc : c ≠ 'b') :
    (c :: (List.replicate m '#' ++ List.replicate n 'b')).count 'b' = n := by
  simp [List.count_append, List.count_replicate, hc]

/-- A pitch name identifies the pitch, also outside of the range of pitches which can be read. -/
theorem pitch_iff (pt : PitchType) (p q : Int) : pitchString p pt = pitchString q pt ↔ SamePitch pt p q := by
  cases pt with
  | tpc =>
    refine ⟨fun h => ?_, fun h => by rw [show p = q from h]⟩
    obtain ⟨c, r, a, hp, hc, _, _, h1, _, e⟩ := pitchString_tpc p
    obtain ⟨d, r', b, hq, hd, _, _, h2, _, e'⟩ := pitchString_tpc q
    rw [e, e'] at h
    injection h with h
    have hs := congrArg (List.count '#') h
    have hf := congrArg (List.count 'b') h
    rw [count_sharps _ _ _ (letters_ne hc).1, count_sharps _ _ _ (letters_ne hd).1] at hs
    rw [count_flats _ _ _ (letters_ne hc).2.2, count_flats _ _ _ (letters_ne hd).2.2] at hf
    injection h with h3 _
    rw [h3, h2] at h1
    injection h1 with h1
    show p = q
    omega
  | midi =>
    obtain ⟨s, e, h1⟩ := C07_round_trip p
    obtain ⟨t, e', h2⟩ := C07_round_trip q
    rw [e, e']
    constructor
    · intro h; injection h with h
      rw [h, h2] at h1
      injection h1 with h1
      exact h1.symm
    · intro h
      have : pitchString p .midi = pitchString q .midi := by
        simp only [pitchString]
        rw [show NUM_PITCHES .midi = 12 from rfl, show p % 12 = q % 12 from h]
      rw [e, e'] at this
      exact this

/-! ## Chord types and inversions -/

theorem chordString_ok (t : ChordType) : ∃ s, chordString t = .ok s ∧ ' ' ∉ s ∧ ';' ∉ s ∧ chordTypeFromString s = .ok t := by
  cases t <;> exact ⟨_, rfl, by decide, by decide, by decide⟩

theorem inversionStr_head (i : Int) : ∃ s t : Str, inversionStr i = s ++ ' ' :: t ∧ ' ' ∉ s ∧ ' ' ∉ t := by
  unfold inversionStr
  split
  · exact ⟨"root".toList, "position".toList, rfl, by decide, by decide⟩
  split
  · exact ⟨"1st".toList, "inversion".toList, rfl, by decide, by decide⟩
  split
  · exact ⟨"2nd".toList, "inversion".toList, rfl, by decide, by decide⟩
  split
  · exact ⟨"3rd".toList, "inversion".toList, rfl, by decide, by decide⟩
  · refine ⟨intStr i ++ "th".toList, "inversion".toList, ?_, ?_, by decide⟩
    · rw [List.append_assoc]; rfl
    · rw [List.mem_append, not_or]
      exact ⟨intStr_free i ' ' (by decide) (by decide), by decide⟩

/-- An inversion above the third is not printed as one of the first four. -/
theorem ordinal_ne (i : Int) (s : Str)
    (hs : s ∈ ["root position".toList, "1st inversion".toList, "2nd inversion".toList, "3rd inversion".toList]) :
    intStr i ++ "th inversion".toList ≠ s := by
  intro h
  have ht : 't' ∈ s := by rw [← h]; simp
  have hi : ∀ c : Char, c.isDigit = false → c ≠ '-' → c ∉ intStr i := intStr_free i
  have key : ∀ u v : Str, 't' ∉ u → s = u ++ 't' :: v → intStr i = u := by
    intro u v hu e
    rw [e] at h
    exact (cut (hi 't' (by decide) (by decide)) hu (show intStr i ++ 't' :: "h inversion".toList = u ++ 't' :: v from h)).1
  simp only [List.mem_cons, List.not_mem_nil, or_false] at hs
  rcases hs with rfl | rfl | rfl | rfl
  · have := key ['r', 'o', 'o'] " position".toList (by decide) rfl
    exact hi 'r' (by decide) (by decide) (by rw [this]; simp)
  · have := key ['1', 's'] " inversion".toList (by decide) rfl
    exact hi 's' (by decide) (by decide) (by rw [this]; simp)
  · exact absurd ht (by decide)
  · exact absurd ht (by decide)

theorem inversionStr_inj {i j : Int} (h : inversionStr i = inversionStr j) : i = j := by
  have four : ∀ k : Int, (k = 0 ∨ k = 1 ∨ k = 2 ∨ k = 3) ∧ inversionStr k ∈
        ["root position".toList, "1st inversion".toList, "2nd inversion".toList, "3rd inversion".toList] ∨
      inversionStr k = intStr k ++ "th inversion".toList := by
    intro k
    by_cases h0 : k = 0
    · subst h0; exact .inl ⟨by simp, by decide⟩
    by_cases h1 : k = 1
    · subst h1; exact .inl ⟨by simp, by decide⟩
    by_cases h2 : k = 2
    · subst h2; exact .inl ⟨by simp, by decide⟩
    by_cases h3 : k = 3
    · subst h3; exact .inl ⟨by simp, by decide⟩
    · right; rw [inversionStr, if_neg h0, if_neg h1, if_neg h2, if_neg h3]
  rcases four i with ⟨hi, hi'⟩ | hi <;> rcases four j with ⟨hj, hj'⟩ | hj
  · rcases hi with rfl | rfl | rfl | rfl <;> rcases hj with rfl | rfl | rfl | rfl <;>
      first | rfl | exact absurd h (by decide)
  · exact absurd (hj.symm.trans h.symm) (ordinal_ne j _ hi')
  · exact absurd (hi.symm.trans h) (ordinal_ne i _ hj')
  · rw [hi, hj] at h
    exact intStr_inj (List.append_cancel_right h)

/-- The text of an inversion, which has one space in it, ends at the next space. -/
theorem inversionStr_cut {i j : Int} {x y : Str} (h : inversionStr i ++ ' ' :: x = inversionStr j ++ ' ' :: y) :
    i = j ∧ x = y := by
  obtain ⟨a, b, e, ha, hb⟩ := inversionStr_head i
  obtain ⟨a', b', e', ha', hb'⟩ := inversionStr_head j
  rw [e, e'] at h
  simp only [List.append_assoc, List.cons_append] at h
  obtain ⟨h1, h⟩ := cut ha ha' h
  obtain ⟨h2, h⟩ := cut hb hb' h
  exact ⟨inversionStr_inj (by rw [e, e', h1, h2]), h⟩

theorem chordString_inj {t u : ChordType} (h : chordString t = chordString u) : t = u := by
  obtain ⟨s, e, _, _, h1⟩ := chordString_ok t
  obtain ⟨s', e', _, _, h2⟩ := chordString_ok u
  rw [e, e'] at h
  injection h with h
  rw [h, h2] at h1
  injection h1 with h1
  exact h1.symm

/-! ## `str` -/

/-- What `str` says of a chord. -/
structure SameChord (c d : SeriesChord) : Prop where
  root : SamePitch c.chord.pitchType c.chord.root d.chord.root
  type : c.chord.chordType = d.chord.chordType
  inversion : c.chord.inversion = d.chord.inversion
  bass : SamePitch c.chord.pitchType c.chord.bass d.chord.bass
  onset : c.onset = d.onset
  offset : c.offset = d.offset

/-- C151: every chord can be printed, and two chords of the same pitch type are printed alike exactly if they have
the same root, type, inversion, bass, onset and offset. -/
theorem C151_chord (c d : SeriesChord) (hpt : c.chord.pitchType = d.chord.pitchType) :
    (∃ s, chordStr c = .ok s) ∧ (chordStr c = chordStr d ↔ SameChord c d) := by
  obtain ⟨r, hr⟩ := pitchString_total c.chord.root c.chord.pitchType
  obtain ⟨r', hr'⟩ := pitchString_total d.chord.root c.chord.pitchType
  obtain ⟨b, hb⟩ := pitchString_total c.chord.bass c.chord.pitchType
  obtain ⟨b', hb'⟩ := pitchString_total d.chord.bass c.chord.pitchType
  obtain ⟨t, ht, ht1, _, _⟩ := chordString_ok c.chord.chordType
  obtain ⟨t', ht', ht1', _, _⟩ := chordString_ok d.chord.chordType
  refine ⟨by simp only [chordStr, hr, hb, ht, Bind.bind, Except.bind]; exact ⟨_, rfl⟩, ?_⟩
  simp only [chordStr, ← hpt, hr, hr', hb, hb', ht, ht', Bind.bind, Except.bind, Except.ok.injEq]
  constructor
  · intro h
    have nc : ':' ∉ nameChars := by decide
    obtain ⟨h1, h⟩ := cut (name_free _ _ _ hr _ nc) (name_free _ _ _ hr' _ nc) h
    obtain ⟨h2, h⟩ := cut ht1 ht1' h
    obtain ⟨h3, h⟩ := inversionStr_cut (x := "BASS=".toList ++ _) (y := "BASS=".toList ++ _) h
    have h := List.append_cancel_left h
    obtain ⟨h4, h⟩ := cut (c := ':') (x := ' ' :: _) (y := ' ' :: _) (name_free _ _ _ hb _ nc) (name_free _ _ _ hb' _ nc) h
    injection h with _ h
    obtain ⟨h5, h⟩ := posStr_cut h
    have h := List.append_cancel_left h
    refine ⟨(pitch_iff _ _ _).mp (by rw [hr, hr', h1]), chordString_inj (by rw [ht, ht', h2]), h3,
      (pitch_iff _ _ _).mp (by rw [hb, hb', h4]), h5, posStr_inj h⟩
  · intro ⟨h1, h2, h3, h4, h5, h6⟩
    have h1 := (pitch_iff _ _ _).mpr h1
    have h4 := (pitch_iff _ _ _).mpr h4
    rw [hr, hr', Except.ok.injEq] at h1
    rw [hb, hb', Except.ok.injEq] at h4
    rw [h2, ht', Except.ok.injEq] at ht
    rw [h1, h4, h3, h5, h6, ht]

/-- What `str` says of a note. -/
structure SameNote (n m : NoteObj) : Prop where
  pitch : SamePitch n.pitchType n.pitchClass m.pitchClass
  octave : n.octave = m.octave
  onset : n.onset = m.onset
  offset : n.offset = m.offset

/-- The name of a pitch ends where the number of the octave begins. -/
theorem octave_cut {v w : Str} (hv : ∀ c ∈ v, c ∈ nameChars) (hw : ∀ c ∈ w, c ∈ nameChars) {i j : Int} {x y : Str}
    (h : v ++ (intStr i ++ ':' :: x) = w ++ (intStr j ++ ':' :: y)) : v = w ∧ i = j ∧ x = y := by
  have first : ∀ i : Int, ∀ z : Str, ∃ c s, intStr i ++ z = c :: s ∧ c ∉ nameChars := by
    intro i z
    cases hs : intStr i with
    | nil => exact absurd hs (intStr_ne_nil i)
    | cons c s =>
      refine ⟨c, s ++ z, rfl, fun hc => ?_⟩
      have := intStr_chars i c (by rw [hs]; simp)
      revert this
      simp only [nameChars, List.mem_cons, List.not_mem_nil, or_false] at hc
      rcases hc with rfl | rfl | rfl | rfl | rfl | rfl | rfl | rfl | rfl | rfl <;> decide
  induction v generalizing w with
  | nil =>
    cases w with
    | nil =>
      obtain ⟨h1, h2⟩ := cut_int (c := ':') (by decide) (by decide) (by simpa using h)
      exact ⟨rfl, h1, h2⟩
    | cons d w =>
      obtain ⟨c, s, e, hc⟩ := first i (':' :: x)
      rw [List.nil_append, e, List.cons_append] at h
      injection h with h _
      exact absurd (hw d (by simp)) (h ▸ hc)
  | cons a v ih =>
    cases w with
    | nil =>
      obtain ⟨c, s, e, hc⟩ := first j (':' :: y)
      rw [List.nil_append, e, List.cons_append] at h
      injection h with h _
      exact absurd (hv a (by simp)) (h ▸ hc)
    | cons d w =>
      simp only [List.cons_append, List.cons.injEq] at h
      obtain ⟨h1, h2⟩ := ih (fun c hc => hv c (List.mem_cons_of_mem _ hc)) (fun c hc => hw c (List.mem_cons_of_mem _ hc)) h.2
      exact ⟨by rw [h.1, h1], h2⟩

/-- C151: every note can be printed, and two notes of the same pitch type are printed alike exactly if they have the
same pitch, octave, onset and offset. -/
theorem C151_note (n m : NoteObj) (hpt : n.pitchType = m.pitchType) :
    (∃ s, noteStr n = .ok s) ∧ (noteStr n = noteStr m ↔ SameNote n m) := by
  obtain ⟨r, hr⟩ := pitchString_total n.pitchClass n.pitchType
  obtain ⟨r', hr'⟩ := pitchString_total m.pitchClass n.pitchType
  refine ⟨by simp only [noteStr, hr, Bind.bind, Except.bind]; exact ⟨_, rfl⟩, ?_⟩
  simp only [noteStr, ← hpt, hr, hr', Bind.bind, Except.bind, Except.ok.injEq]
  constructor
  · intro h
    obtain ⟨h1, h2, h⟩ := octave_cut (x := ' ' :: _) (y := ' ' :: _) (name_chars _ _ _ hr) (name_chars _ _ _ hr') h
    injection h with _ h
    obtain ⟨h3, h⟩ := posStr_cut h
    have h := List.append_cancel_left h
    exact ⟨(pitch_iff _ _ _).mp (by rw [hr, hr', h1]), h2, h3, posStr_inj h⟩
  · intro ⟨h1, h2, h3, h4⟩
    have h1 := (pitch_iff _ _ _).mpr h1
    rw [hr, hr', Except.ok.injEq] at h1
    rw [h1, h2, h3, h4]

/-- C151: every key can be printed, and two keys of the same tonic type are printed alike exactly if they have the
same relative tonic and mode: the key which an applied chord is in is printed, not the local key. -/
theorem C151_key (k l : Key) (hpt : k.tonicType = l.tonicType) :
    (∃ s, keyStr k = .ok s) ∧
      (keyStr k = keyStr l ↔ SamePitch k.tonicType k.relativeTonic l.relativeTonic ∧ k.relativeMode = l.relativeMode) := by
  obtain ⟨r, hr⟩ := pitchString_total k.relativeTonic k.tonicType
  obtain ⟨r', hr'⟩ := pitchString_total l.relativeTonic k.tonicType
  refine ⟨by simp only [keyStr, hr, Bind.bind, Except.bind]; exact ⟨_, rfl⟩, ?_⟩
  simp only [keyStr, ← hpt, hr, hr', Bind.bind, Except.bind, Except.ok.injEq]
  constructor
  · intro h
    have nc : ' ' ∉ nameChars := by decide
    obtain ⟨h1, h⟩ := cut (name_free _ _ _ hr _ nc) (name_free _ _ _ hr' _ nc) h
    refine ⟨(pitch_iff _ _ _).mp (by rw [hr, hr', h1]), ?_⟩
    revert h
    cases k.relativeMode <;> cases l.relativeMode <;> decide
  · intro ⟨h1, h2⟩
    have h1 := (pitch_iff _ _ _).mpr h1
    rw [hr, hr', Except.ok.injEq] at h1
    rw [h1, h2]

/-! ## Lists of chords -/

theorem posStr_free (p : Int × ℚ) : ';' ∉ posStr p := by
  have := fun i => intStr_free i ';' (by decide) (by decide)
  simp [posStr, fracRepr, this]

theorem inversionStr_free (i : Int) : ';' ∉ inversionStr i := by
  have := fun i => intStr_free i ';' (by decide) (by decide)
  unfold inversionStr
  split
  · decide
  split
  · decide
  split
  · decide
  split
  · decide
  · rw [List.mem_append, not_or]; exact ⟨this i, by decide⟩

theorem chordStr_free (c : SeriesChord) (s : Str) (h : chordStr c = .ok s) : ';' ∉ s ∧ s ≠ [] := by
  obtain ⟨r, hr⟩ := pitchString_total c.chord.root c.chord.pitchType
  obtain ⟨b, hb⟩ := pitchString_total c.chord.bass c.chord.pitchType
  obtain ⟨t, ht, _, ht1, _⟩ := chordString_ok c.chord.chordType
  simp only [chordStr, hr, hb, ht, Bind.bind, Except.bind, Except.ok.injEq] at h
  subst h
  have nc : ';' ∉ nameChars := by decide
  have h1 := name_free _ _ _ hr _ nc
  have h2 := name_free _ _ _ hb _ nc
  constructor
  · simp only [List.mem_append, List.mem_cons, not_or]
    exact ⟨h1, by decide, ht1, by decide, inversionStr_free _, by decide, h2, by decide, posStr_free _, by decide,
      posStr_free _⟩
  · simp

theorem joinWith_nil (sep : Str) : joinWith sep [] = [] := rfl

theorem joinWith_one (sep a : Str) : joinWith sep [a] = a := by simp [joinWith, List.intercalate]

theorem joinWith_cons (sep a b : Str) (l : List Str) :
    joinWith sep (a :: b :: l) = a ++ (sep ++ joinWith sep (b :: l)) := by
  simp [joinWith, List.intercalate, List.intersperse]

/-- Texts without the first character of the separator are found again in what is joined. -/
theorem joinWith_inj {c : Char} {sep : Str} {as bs : List Str} (ha : ∀ a ∈ as, c ∉ a ∧ a ≠ []) (hb : ∀ b ∈ bs, c ∉ b ∧ b ≠ [])
    (h : joinWith (c :: sep) as = joinWith (c :: sep) bs) : as = bs := by
  induction as generalizing bs with
  | nil =>
    match bs with
    | [] => rfl
    | [b] => rw [joinWith_nil, joinWith_one] at h; exact absurd h.symm (hb b (by simp)).2
    | b :: b' :: bs => rw [joinWith_nil, joinWith_cons] at h; simp at h
  | cons a as ih =>
    match as, bs with
    | as, [] =>
      match as with
      | [] => rw [joinWith_nil, joinWith_one] at h; exact absurd h (ha a (by simp)).2
      | a' :: as => rw [joinWith_nil, joinWith_cons] at h; simp at h
    | [], [b] => rw [joinWith_one, joinWith_one] at h; rw [h]
    | [], b :: b' :: bs =>
      rw [joinWith_one, joinWith_cons] at h
      exact absurd (show c ∈ a by rw [h]; simp) (ha a (by simp)).1
    | a' :: as, [b] =>
      rw [joinWith_one, joinWith_cons] at h
      exact absurd (show c ∈ b by rw [← h]; simp) (hb b (by simp)).1
    | a' :: as, b :: b' :: bs =>
      rw [joinWith_cons, joinWith_cons] at h
      obtain ⟨h1, h2⟩ := cut (ha a (by simp)).1 (hb b (by simp)).1 h
      have h2 := List.append_cancel_left h2
      rw [h1, ih (fun x hx => ha x (List.mem_cons_of_mem _ hx)) (fun x hx => hb x (List.mem_cons_of_mem _ hx)) h2]

theorem mapM_texts (cs : List SeriesChord) : ∃ ts, cs.mapM chordStr = .ok ts ∧ List.Forall₂ (fun c t => chordStr c = .ok t) cs ts := by
  induction cs with
  | nil => exact ⟨[], rfl, .nil⟩
  | cons c cs ih =>
    obtain ⟨t, ht⟩ := (C151_chord c c rfl).1
    obtain ⟨ts, e, hts⟩ := ih
    refine ⟨t :: ts, ?_, .cons ht hts⟩
    rw [List.mapM_cons, ht, e]; rfl

theorem texts_free {cs : List SeriesChord} {ts : List Str} (h : List.Forall₂ (fun c t => chordStr c = .ok t) cs ts) :
    ∀ t ∈ ts, ';' ∉ t ∧ t ≠ [] := by
  induction h with
  | nil => intro t ht; simp at ht
  | cons hc _ ih =>
    intro t ht
    rcases List.mem_cons.mp ht with rfl | ht
    · exact chordStr_free _ _ hc
    · exact ih t ht

/-- C151: the lists of correct chords in the messages of the joint model can always be printed, and two lists of
chords of the same pitch type are printed alike exactly if they have as many chords, which are printed alike one by
one. -/
theorem C151_chords (cs ds : List SeriesChord) (pt : PitchType) (hc : ∀ c ∈ cs, c.chord.pitchType = pt)
    (hd : ∀ d ∈ ds, d.chord.pitchType = pt) :
    (∃ s, chordsStr cs = .ok s) ∧ (chordsStr cs = chordsStr ds ↔ List.Forall₂ SameChord cs ds) := by
  obtain ⟨ts, e, hts⟩ := mapM_texts cs
  obtain ⟨us, e', hus⟩ := mapM_texts ds
  refine ⟨by simp only [chordsStr, e, Bind.bind, Except.bind]; exact ⟨_, rfl⟩, ?_⟩
  simp only [chordsStr, e, e', Bind.bind, Except.bind, Except.ok.injEq]
  constructor
  · intro h
    have := joinWith_inj (c := ';') (sep := [' ']) (texts_free hts) (texts_free hus) h
    subst this
    clear h e e'
    induction hts generalizing ds with
    | nil => cases hus; exact .nil
    | cons h1 _ ih =>
      cases hus with
      | cons h2 hus =>
        refine .cons ((C151_chord _ _ ?_).2.mp (h1.trans h2.symm)) (ih _ (fun c hc' => hc c (List.mem_cons_of_mem _ hc')) (fun d hd' => hd d (List.mem_cons_of_mem _ hd')) hus)
        rw [hc _ (by simp), hd _ (by simp)]
  · intro h
    congr 1
    clear e e'
    induction h generalizing ts us with
    | nil => cases hts; cases hus; rfl
    | cons h1 _ ih =>
      cases hts with
      | cons a hts =>
        cases hus with
        | cons b hus =>
          have := (C151_chord _ _ (by rw [hc _ (by simp), hd _ (by simp)])).2.mpr h1
          rw [a, b, Except.ok.injEq] at this
          rw [this, ih (fun c hc' => hc c (List.mem_cons_of_mem _ hc')) (fun d hd' => hd d (List.mem_cons_of_mem _ hd')) _ hts _ hus]

/-! ## `repr` -/

/-- Two texts which are told apart before the comma behind them. -/
def Closed (v w : Str) : Prop := ∀ x y : Str, v ++ ',' :: x = w ++ ',' :: y → v = w ∧ x = y

theorem closed_free {v w : Str} (hv : ',' ∉ v) (hw : ',' ∉ w) : Closed v w := fun _ _ h => cut hv hw h

theorem closed_pos (p q : Int × ℚ) : Closed (posStr p) (posStr q) := by
  intro x y h
  obtain ⟨h1, h2⟩ := posStr_cut h
  injection h2 with _ h2
  exact ⟨by rw [h1], h2⟩

theorem fields_inj {fs gs : List (Str × Str)} {f g : Str × Str} (hn : f.1 = g.1)
    (h : List.Forall₂ (fun f g => f.1 = g.1 ∧ Closed f.2 g.2) fs gs)
    (e : joinWith [',', ' '] ((fs ++ [f]).map fieldStr) = joinWith [',', ' '] ((gs ++ [g]).map fieldStr)) :
    fs.map Prod.snd = gs.map Prod.snd ∧ f.2 = g.2 := by
  induction h with
  | nil =>
    simp only [List.nil_append, List.map_cons, List.map_nil, joinWith_one, fieldStr, hn] at e
    have e := List.append_cancel_left e
    injection e with _ e
    exact ⟨rfl, e⟩
  | @cons a b as bs hab _ ih =>
    have two : ∀ (as : List (Str × Str)) (a f : Str × Str), joinWith [',', ' '] ((a :: as ++ [f]).map fieldStr) =
        fieldStr a ++ (',' :: ' ' :: joinWith [',', ' '] ((as ++ [f]).map fieldStr)) := by
      intro as a f
      cases as with
      | nil => simp only [List.cons_append, List.nil_append, List.map_cons, List.map_nil, joinWith_cons]
      | cons b as => simp only [List.cons_append, List.nil_append, List.map_cons, joinWith_cons]
    rw [two, two] at e
    simp only [fieldStr, List.append_assoc, List.cons_append, hab.1] at e
    have e := List.append_cancel_left e
    injection e with _ e
    obtain ⟨h1, h2⟩ := hab.2 _ _ e
    injection h2 with _ h2
    obtain ⟨h3, h4⟩ := ih h2
    exact ⟨by rw [List.map_cons, List.map_cons, h1, h3], h4⟩

theorem repr_inj {cls : Str} {fs gs : List (Str × Str)} {f g : Str × Str}
    (e : reprOf cls (fs ++ [f]) = reprOf cls (gs ++ [g])) (hn : f.1 = g.1)
    (h : List.Forall₂ (fun f g => f.1 = g.1 ∧ Closed f.2 g.2) fs gs) : fs.map Prod.snd = gs.map Prod.snd ∧ f.2 = g.2 := by
  have e := List.append_cancel_left e
  injection e with _ e
  exact fields_inj hn h (List.append_cancel_right e)

theorem int_closed (i j : Int) : Closed (intStr i) (intStr j) :=
  closed_free (intStr_free i ',' (by decide) (by decide)) (intStr_free j ',' (by decide) (by decide))

theorem frac_closed (p q : ℚ) : Closed (fracStr p) (fracStr q) := by
  have : ∀ q, ',' ∉ fracStr q := by
    intro q
    have := fun i => intStr_free i ',' (by decide) (by decide)
    unfold fracStr
    split
    · exact this _
    · simp [this]
  exact closed_free (this p) (this q)

theorem mode_closed (a b : KeyMode) : Closed (keyModeStr a) (keyModeStr b) := by
  have : ∀ m, ',' ∉ keyModeStr m := by intro m; cases m <;> decide
  exact closed_free (this a) (this b)

theorem type_closed (a b : ChordType) : Closed (chordTypeStr a) (chordTypeStr b) := by
  have : ∀ m, ',' ∉ chordTypeStr m := by intro m; cases m <;> decide
  exact closed_free (this a) (this b)

theorem pitchType_closed (a b : PitchType) : Closed (pitchTypeStr a) (pitchTypeStr b) := by
  have : ∀ m, ',' ∉ pitchTypeStr m := by intro m; cases m <;> decide
  exact closed_free (this a) (this b)

theorem mode_inj {a b : KeyMode} (h : keyModeStr a = keyModeStr b) : a = b := by
  revert h; cases a <;> cases b <;> decide

theorem pitchType_inj {a b : PitchType} (h : pitchTypeStr a = pitchTypeStr b) : a = b := by
  revert h; cases a <;> cases b <;> decide

theorem type_inj {a b : ChordType} (h : chordTypeStr a = chordTypeStr b) : a = b := by
  revert h; cases a <;> cases b <;> decide

/-- C151: two chords have the same `repr` exactly if they are equal, except that a suspension which is the text
`None` is not told from no suspension. -/
theorem C151_chord_repr (c d : SeriesChord) :
    chordRepr c = chordRepr d ↔
      c.chord = d.chord ∧ c.onset = d.onset ∧ c.offset = d.offset ∧
        c.suspension.getD "None".toList = d.suspension.getD "None".toList := by
  have hs : ∀ s, suspensionStr s = s.getD "None".toList := by intro s; cases s <;> rfl
  constructor
  · intro h
    unfold chordRepr at h
    obtain ⟨h1, h2⟩ := repr_inj (fs := [_, _, _, _, _, _, _, _, _, _, _, _]) (gs := [_, _, _, _, _, _, _, _, _, _, _, _])
      h rfl
      (.cons ⟨rfl, int_closed _ _⟩ (.cons ⟨rfl, int_closed _ _⟩ (.cons ⟨rfl, int_closed _ _⟩
        (.cons ⟨rfl, mode_closed _ _⟩ (.cons ⟨rfl, type_closed _ _⟩ (.cons ⟨rfl, int_closed _ _⟩
        (.cons ⟨rfl, closed_pos _ _⟩ (.cons ⟨rfl, int_closed _ _⟩ (.cons ⟨rfl, closed_pos _ _⟩
        (.cons ⟨rfl, int_closed _ _⟩ (.cons ⟨rfl, frac_closed _ _⟩ (.cons ⟨rfl, pitchType_closed _ _⟩ .nil))))))))))))
    simp only [List.map_cons, List.map_nil, List.cons.injEq, and_true] at h1
    obtain ⟨a1, a2, a3, a4, a5, a6, a7, a8, a9, a10, a11, a12⟩ := h1
    refine ⟨?_, posStr_inj a7, posStr_inj a9, by rw [← hs, ← hs]; exact h2⟩
    obtain ⟨⟨⟩, _, _, _⟩ := c
    obtain ⟨⟨⟩, _, _, _⟩ := d
    simp only [Chord.mk.injEq]
    exact ⟨intStr_inj a1, intStr_inj a2, intStr_inj a3, mode_inj a4, type_inj a5, intStr_inj a6, intStr_inj a8,
      intStr_inj a10, fracStr_inj a11, pitchType_inj a12⟩
  · rintro ⟨h1, h2, h3, h4⟩
    rw [chordRepr, chordRepr, h1, h2, h3, hs, hs, h4]

/-- C151: `repr` tells notes apart: two notes with the same `repr` are equal (and the converse). -/
theorem C151_note_repr (n m : NoteObj) : noteRepr n = noteRepr m ↔ n = m := by
  refine ⟨fun h => ?_, fun h => by rw [h]⟩
  unfold noteRepr at h
  obtain ⟨h1, h2⟩ := repr_inj (fs := [_, _, _, _, _, _, _, _]) (gs := [_, _, _, _, _, _, _, _])
    h rfl
    (.cons ⟨rfl, int_closed _ _⟩ (.cons ⟨rfl, int_closed _ _⟩ (.cons ⟨rfl, closed_pos _ _⟩
      (.cons ⟨rfl, int_closed _ _⟩ (.cons ⟨rfl, frac_closed _ _⟩ (.cons ⟨rfl, closed_pos _ _⟩
      (.cons ⟨rfl, int_closed _ _⟩ (.cons ⟨rfl, pitchType_closed _ _⟩ .nil))))))))
  simp only [List.map_cons, List.map_nil, List.cons.injEq, and_true] at h1
  obtain ⟨a1, a2, a3, a4, a5, a6, a7, a8⟩ := h1
  obtain ⟨⟩ := n
  obtain ⟨⟩ := m
  simp only [NoteObj.mk.injEq]
  exact ⟨intStr_inj a1, intStr_inj a2, posStr_inj a3, by exact_mod_cast intStr_inj a4, fracStr_inj a5, posStr_inj a6,
    by exact_mod_cast intStr_inj a7, pitchType_inj a8, fracStr_inj h2⟩

/-- C151: `repr` tells keys apart: two keys with the same `repr` are equal (and the converse). -/
theorem C151_key_repr (k l : Key) : keyRepr k = keyRepr l ↔ k = l := by
  refine ⟨fun h => ?_, fun h => by rw [h]⟩
  unfold keyRepr at h
  obtain ⟨h1, h2⟩ := repr_inj (fs := [_, _, _, _, _, _]) (gs := [_, _, _, _, _, _])
    h rfl
    (.cons ⟨rfl, int_closed _ _⟩ (.cons ⟨rfl, int_closed _ _⟩ (.cons ⟨rfl, int_closed _ _⟩
      (.cons ⟨rfl, mode_closed _ _⟩ (.cons ⟨rfl, mode_closed _ _⟩ (.cons ⟨rfl, mode_closed _ _⟩ .nil))))))
  simp only [List.map_cons, List.map_nil, List.cons.injEq, and_true] at h1
  obtain ⟨a1, a2, a3, a4, a5, a6⟩ := h1
  obtain ⟨⟩ := k
  obtain ⟨⟩ := l
  simp only [Key.mk.injEq]
  exact ⟨intStr_inj a1, intStr_inj a2, intStr_inj a3, mode_inj a4, mode_inj a5, mode_inj a6, pitchType_inj h2⟩

/-- C151: `repr` tells chords apart whose suspension, if any, is not the text `None`. -/
theorem C151_chord_repr_eq (c d : SeriesChord) (hc : c.suspension ≠ some "None".toList)
    (hd : d.suspension ≠ some "None".toList) : chordRepr c = chordRepr d ↔ c = d := by
  rw [C151_chord_repr]
  obtain ⟨c, o, f, s⟩ := c
  obtain ⟨d, o', f', s'⟩ := d
  simp only [SeriesChord.mk.injEq]
  simp only [ne_eq] at hc hd
  refine ⟨fun ⟨h1, h2, h3, h4⟩ => ⟨h1, h2, h3, ?_⟩, fun ⟨h1, h2, h3, h4⟩ => ⟨h1, h2, h3, by rw [h4]⟩⟩
  cases s with
  | none =>
    cases s' with
    | none => rfl
    | some t => exact absurd (congrArg some h4.symm) hd
  | some t =>
    cases s' with
    | none => exact absurd (congrArg some h4) hc
    | some u => exact congrArg some h4

/-- The dominant seventh of C major in first inversion, in the second measure. -/
def exChord : SeriesChord := ⟨⟨16, 20, 15, .major, .majMin7, 1, 3, 2, 3 / 4, .tpc⟩, (2, 0), (2, 3 / 4), none⟩

def exNote : NoteObj := ⟨20, -1, (2, 0), 3, 3 / 4, (2, 3 / 4), 2, .tpc, 0⟩

example : chordStr exChord =
    .ok "G:Mm7 1st inversion BASS=B: (2, Fraction(0, 1))--(2, Fraction(3, 4))".toList := by decide +kernel

example : noteStr exNote = .ok "B-1: (2, Fraction(0, 1))--(2, Fraction(3, 4))".toList := by decide +kernel

example : keyStr ⟨22, 15, 15, .minor, .major, .major, .tpc⟩ = .ok "C# KeyMode.MINOR".toList := by decide +kernel

example : keyRepr ⟨22, 15, 15, .minor, .major, .major, .tpc⟩ =
    ("Key(relative_tonic=22, local_tonic=15, global_tonic=15, relative_mode=KeyMode.MINOR, " ++
      "local_mode=KeyMode.MAJOR, global_mode=KeyMode.MAJOR, tonic_type=PitchType.TPC)").toList := by decide +kernel

example : noteRepr exNote =
    ("Note(pitch_class=20, octave=-1, onset=(2, Fraction(0, 1)), onset_level=3, duration=3/4, " ++
      "offset=(2, Fraction(3, 4)), offset_level=2, pitch_type=PitchType.TPC, mc_onset=0)").toList := by decide +kernel

example : chordRepr exChord =
    ("Chord(root=16, bass=20, key_tonic=15, key_mode=KeyMode.MAJOR, chord_type=ChordType.MAJ_MIN7, inversion=1, " ++
      "onset=(2, Fraction(0, 1)), onset_level=3, offset=(2, Fraction(3, 4)), offset_level=2, duration=3/4, " ++
      "pitch_type=PitchType.TPC, suspension=None)").toList := by decide +kernel

example : chordsStr [exChord, exChord] =
    .ok ("G:Mm7 1st inversion BASS=B: (2, Fraction(0, 1))--(2, Fraction(3, 4)); " ++
      "G:Mm7 1st inversion BASS=B: (2, Fraction(0, 1))--(2, Fraction(3, 4))").toList := by decide +kernel

/-- C151: the key is not printed: a chord of two keys is printed alike. Nor is the pitch type: the same text may
stand for a chord of MIDI pitches. And a suspension called `None` has the `repr` of no suspension. -/
theorem C151_untold :
    chordStr exChord = chordStr { exChord with chord := { exChord.chord with keyTonic := 16 } } ∧
      chordStr exChord = chordStr { exChord with chord := { exChord.chord with root := 7, bass := 11, pitchType := .midi } } ∧
      chordRepr exChord = chordRepr { exChord with suspension := some "None".toList } := by
  refine ⟨rfl, by decide +kernel, ?_⟩
  rw [C151_chord_repr]
  exact ⟨rfl, rfl, rfl, rfl⟩

end Verif.Printing
