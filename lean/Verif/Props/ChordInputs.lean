import Verif.ChordInputs
import Verif.Props.NoteVectors
import Verif.Props.Piece

/-!
# C93: inputs of the chord classifier
-/

namespace Verif.ChordInputs

open Verif.Vectors Verif.NoteVectors

/-! ## What the rows should say -/

/-- The number of a spelled note: 12 semitones per octave, 7 per fifth from C. -/
def number (n : NoteObj) : Int := 12 * n.octave + (7 * (n.pitchClass - 15)) % 12

/-- A note of a loaded score: spelled, in one of ten octaves, with metrical levels. -/
structure Sane (n : NoteObj) : Prop where
  spelled : n.pitchType = .tpc
  pitch : 0 ≤ n.pitchClass ∧ n.pitchClass < 35
  octave : 0 ≤ n.octave ∧ n.octave < 10
  onset : n.onsetLevel < 4
  offset : n.offsetLevel < 4

/-- The row of note `n` at position `p`, among the notes `W`, in a chord which begins at `s` and is `D` long;
`before` and `after`: the distances to its neighbours. -/
structure RowRight (W : NoteObj → Prop) (n : NoteObj) (place : ℚ × ℚ × ℚ) (before after : ℚ) (v : List ℚ) :
    Prop where
  length : v.length = 71
  bits : ∀ (i : Nat) y, v[i]? = some y → i < 53 → y = if (i : Int) = n.pitchClass ∨
    (i : Int) = 35 + n.octave ∨ i = 45 + n.onsetLevel ∨ i = 49 + n.offsetLevel then 1 else 0
  place : v[53]? = some place.1 ∧ v[54]? = some place.2.1 ∧ v[55]? = some place.2.2
  before : v[56]? = some before
  after : v[57]? = some after
  lowest : ∃ y, v[58]? = some y ∧ (y = 0 ∨ y = 1) ∧ (y = 1 ↔ ∀ m, W m → number n ≤ number m)
  octave : ∃ m0, W m0 ∧ (∀ m, W m → m0.octave ≤ m.octave) ∧
    ∀ i : Nat, i < 10 → v[59 + i]? = some (if (i : Int) = n.octave - m0.octave then 1 else 0)
  height : v[69]? = some ((number n : ℚ) / 127)
  relative : ∃ m0 m1 y, W m0 ∧ W m1 ∧ (∀ m, W m → number m0 ≤ number m ∧ number m ≤ number m1) ∧
    v[70]? = some y ∧ 0 ≤ y ∧ y ≤ 1 ∧ y * ((number m1 : ℚ) - number m0) = number n - number m0

theorem midi_number {n : NoteObj} (h : Sane n) : n.midiNumber = .ok (number n) := by
  obtain ⟨k, hk, e⟩ := C63_tpc_partial n.pitchClass n.octave h.pitch.1 h.pitch.2
  rw [NoteObj.midiNumber, h.spelled, hk, e, number]

theorem minPair_spec (l : List (Int × Int)) (hl : l ≠ []) :
    ∃ p, minPair l = .ok p ∧ p ∈ l ∧ ∀ x ∈ l, ¬ pairGt p x := by
  cases l with
  | nil => exact absurd rfl hl
  | cons a l =>
    refine ⟨_, rfl, ?_⟩
    clear hl
    induction l generalizing a with
    | nil => exact ⟨by simp, by intro x hx; simp at hx; subst hx; simp [pairGt]⟩
    | cons b l ih =>
      rw [List.foldl_cons]
      obtain ⟨h1, h2⟩ := ih (if pairGt a b then b else a)
      refine ⟨?_, ?_⟩
      · rcases List.mem_cons.1 h1 with h | h
        · rw [h]; split <;> simp
        · exact List.mem_cons_of_mem _ (List.mem_cons_of_mem _ h)
      · have h3 := h2 _ (List.mem_cons_self)
        intro x hx
        rcases List.mem_cons.1 hx with rfl | hx
        · split at h3
          · rename_i hg
            rw [if_pos hg]
            simp only [pairGt] at *
            omega
          · rename_i hg; rw [if_neg hg]; exact h3
        · rcases List.mem_cons.1 hx with rfl | hx
          · split at h3
            · rename_i hg; rw [if_pos hg]; exact h3
            · rename_i hg
              rw [if_neg hg]
              simp only [pairGt] at *
              omega
          · exact h2 x (List.mem_cons_of_mem _ hx)

theorem maxPair_spec (l : List (Int × Int)) (hl : l ≠ []) :
    ∃ p, maxPair l = .ok p ∧ p ∈ l ∧ ∀ x ∈ l, ¬ pairGt x p := by
  cases l with
  | nil => exact absurd rfl hl
  | cons a l =>
    refine ⟨_, rfl, ?_⟩
    clear hl
    induction l generalizing a with
    | nil => exact ⟨by simp, by intro x hx; simp at hx; subst hx; simp [pairGt]⟩
    | cons b l ih =>
      rw [List.foldl_cons]
      obtain ⟨h1, h2⟩ := ih (if pairGt b a then b else a)
      refine ⟨?_, ?_⟩
      · rcases List.mem_cons.1 h1 with h | h
        · rw [h]; split <;> simp
        · exact List.mem_cons_of_mem _ (List.mem_cons_of_mem _ h)
      · have h3 := h2 _ (List.mem_cons_self)
        intro x hx
        rcases List.mem_cons.1 hx with rfl | hx
        · split at h3
          · rename_i hg
            rw [if_pos hg]
            simp only [pairGt] at *
            omega
          · rename_i hg; rw [if_neg hg]; exact h3
        · rcases List.mem_cons.1 hx with rfl | hx
          · split at h3
            · rename_i hg; rw [if_pos hg]; exact h3
            · rename_i hg
              rw [if_neg hg]
              simp only [pairGt] at *
              omega
          · exact h2 x (List.mem_cons_of_mem _ hx)

/-- Notes of lower octaves have lower numbers. -/
theorem number_bounds (n : NoteObj) : 12 * n.octave ≤ number n ∧ number n < 12 * n.octave + 12 := by
  unfold number; omega

/-- The vector of a note, with its place in the chord and the lowest and highest note. -/
theorem vector_right (W : NoteObj → Prop) (n m0 m1 : NoteObj) (hn : Sane n) (hW : W n) (h0 : W m0)
    (h1 : W m1) (hs0 : Sane m0)
    (hlow : ∀ m, W m → ¬ pairGt (m0.octave, number m0) (m.octave, number m))
    (hhigh : ∀ m, W m → ¬ pairGt (m.octave, number m) (m1.octave, number m1))
    (T : List (Measure ℚ)) (s e : Int × ℚ) (D : ℚ) (o prev next : Option ℚ) (place : ℚ × ℚ × ℚ)
    (hr : noteRhythm T n s e D o = .ok place) :
    ∃ v, noteVector T s e D (m0.octave, number m0) (m1.octave, number m1) n o prev next = .ok v ∧
      RowRight W n place (prev.getD 0) (next.getD 0) v := by
  have lo : ∀ m, W m → m0.octave ≤ m.octave ∧ number m0 ≤ number m := by
    intro m hm
    have := hlow m hm
    have a := number_bounds m
    have b := number_bounds m0
    simp only [pairGt] at this
    omega
  have hi : ∀ m, W m → number m ≤ number m1 := by
    intro m hm
    have := hhigh m hm
    have a := number_bounds m
    have b := number_bounds m1
    simp only [pairGt] at this
    omega
  let x : NoteVec := ⟨n.pitchClass, n.octave, n.onsetLevel, n.offsetLevel, n.pitchType, place,
    (prev.getD 0, next.getD 0), some (m0.octave, number m0), some (m1.octave, number m1)⟩
  have ex : noteVector T s e D (m0.octave, number m0) (m1.octave, number m1) n o prev next = x.toVec := by
    simp only [noteVector, hr, Bind.bind, Except.bind, x]
  have hx : InRange x := by
    refine ⟨?_, hn.octave, ?_, ?_, ?_⟩
    · have e : x.pitchType = .tpc := hn.spelled
      rw [e]; exact hn.pitch
    · intro p hp
      have : (m0.octave, number m0) = p := by injection hp
      subst this
      exact ⟨hs0.octave.1, (lo n hW).1⟩
    · have := hn.onset; exact ⟨Int.natCast_nonneg _, by show (n.onsetLevel : Int) < 4; omega⟩
    · have := hn.offset; exact ⟨Int.natCast_nonneg _, by show (n.offsetLevel : Int) < 4; omega⟩
  have ept : specPitches x.pitchType = 35 := by
    have e : x.pitchType = .tpc := hn.spelled
    rw [e]; rfl
  have hm : midiNoteNumber x.pitchClass x.octave x.pitchType = .ok (number n) := midi_number hn
  obtain ⟨v, hv, _, hlen, hbits⟩ := C65_layout_partial x hx
  obtain ⟨v', hv', h5, hmin, hoct, hh, y, hy, hrel, _⟩ :=
    C65_context x hx (number n) m0.octave (.inl ⟨_, rfl, rfl⟩) hm
  have : v' = v := by rw [hv] at hv'; injection hv' with h; exact h.symm
  subst this
  rw [ept] at hlen hbits h5 hmin hoct hh hy
  refine ⟨v', by rw [ex, hv], ?_⟩
  have h5' : ∀ k : Nat, k < 5 → v'[53 + k]? =
      ([place.1, place.2.1, place.2.2, prev.getD 0, next.getD 0] : List ℚ)[k]? := by
    intro k hk
    have : ((v'.drop (35 + 18)).take 5)[k]? = v'[53 + k]? := by
      rw [List.getElem?_take_of_lt hk, List.getElem?_drop]
    rw [← this, h5]
  refine ⟨hlen, ?_, ⟨h5' 0 (by omega), h5' 1 (by omega), h5' 2 (by omega)⟩, h5' 3 (by omega),
    h5' 4 (by omega), ?_, ⟨m0, h0, fun m hm => (lo m hm).1, hoct⟩, hh, ⟨m0, m1, y, h0, h1,
      fun m hm => ⟨(lo m hm).2, hi m hm⟩, hy, ?_⟩⟩
  · intro i y hy hi
    rw [hbits i y hy hi]
    apply if_congr _ rfl rfl
    show ((i : Int) = n.pitchClass ∨ (i : Int) = (35 : Nat) + n.octave ∨
      (i : Int) = (35 : Nat) + 10 + (n.onsetLevel : Int) ∨ (i : Int) = (35 : Nat) + 14 + (n.offsetLevel : Int)) ↔ _
    omega
  · obtain ⟨y, h1, h2, h3⟩ := hmin
    refine ⟨y, h1, h2, h3.trans ?_⟩
    constructor
    · rintro ⟨p, hp, e⟩ m hm
      have : (m0.octave, number m0) = p := by injection hp
      subst this
      rw [← e]; exact (lo m hm).2
    · intro h
      exact ⟨_, rfl, by have := h m0 h0; have := (lo n hW).2; show number m0 = number n; omega⟩
  · obtain ⟨a, b, c⟩ := hrel _ _ rfl rfl (lo n hW).2 (hi n hW)
    exact ⟨a, b, c⟩

/-! ## The matrix of a chord -/

theorem stackRows_ok (l : List (List ℚ)) (hl : l ≠ []) (w : Nat) (h : ∀ v ∈ l, v.length = w) :
    stackRows l = .ok (w, l) := by
  cases l with
  | nil => exact absurd rfl hl
  | cons v l =>
    have hv := h v (by simp)
    rw [stackRows, if_pos, hv]
    rw [List.all_eq_true]
    intro x hx
    simp [h x (by simp [hx]), hv]

/-- The distance from the note before. -/
def Before (ps : List ℚ) (j : Nat) (p : ℚ) (x : ℚ) : Prop :=
  (j = 0 ∧ x = 0) ∨ ∃ q, 0 < j ∧ ps[j - 1]? = some q ∧ x = p - q

/-- The matrix of a chord: a row for each note from `first` to `last`, and for `window` places on both sides. -/
structure InputRight (notes : List NoteObj) (ps : List ℚ) (pe : ℚ) (first last window : Nat)
    (place : NoteObj → ℚ → ℚ × ℚ × ℚ) (rows : List (List ℚ)) : Prop where
  length : rows.length + first = last + 2 * window
  outside : ∀ (r : Nat), r < rows.length → (first + r < window ∨ window + notes.length ≤ first + r) →
    rows[r]? = some (List.replicate 71 0)
  inside : ∀ (r j : Nat) n p, r < rows.length → first + r = window + j → notes[j]? = some n →
    ps[j]? = some p → ∃ v x y, rows[r]? = some v ∧ Before ps j p x ∧ (ps ++ [pe])[j + 1]? = some (y + p) ∧
      RowRight (fun m => ∃ i : Nat, notes[i]? = some m ∧ first ≤ i + window ∧ i < last + window) n
        (place n p) x y v

/-- The matrix, for places in the chord given by `place`. -/
theorem matrix_right (notes : List NoteObj) (hs : ∀ n ∈ notes, Sane n) (T : List (Measure ℚ))
    (ps : List ℚ) (pe : ℚ) (hps : ps.length = notes.length) (cache : List ℚ) (hcl : cache.length = notes.length)
    (hcache : ∀ i a b, (ps ++ [pe])[i]? = some a → (ps ++ [pe])[i + 1]? = some b → cache[i]? = some (b - a))
    (onset offset : Int × ℚ) (D : ℚ) (change first last window : Nat) (chord : Option ChordSpan)
    (hne : first - window < min (last + window) notes.length)
    (place : NoteObj → ℚ → ℚ × ℚ × ℚ)
    (hplace : ∀ (j : Nat) n p, notes[j]? = some n → ps[j]? = some p →
      first - window ≤ j → j < min (last + window) notes.length →
      ∀ o, o = (if spanAligns (chord.map ChordSpan.onset) onset = true then
        (noteOnsets cache change (first - window) (min (last + window) notes.length))[j - (first - window)]?
        else none) →
      noteRhythm T n (spanPlace (chord.map ChordSpan.onset) onset)
        (spanPlace (chord.map ChordSpan.offset) offset) D o = .ok (place n p)) :
    ∃ rows, chordNoteInput notes T onset offset D change first last window cache chord = .ok rows ∧
      InputRight notes ps pe first last window place rows := by
  obtain ⟨A, hA⟩ : ∃ A, A = first - window := ⟨_, rfl⟩
  obtain ⟨B, hB⟩ : ∃ B, B = min (last + window) notes.length := ⟨_, rfl⟩
  rw [← hA, ← hB] at hplace hne
  have h1 : max ((first : Int) - window) 0 = (A : Int) := by omega
  have h2 : min ((last : Int) + window) (notes.length : Int) = (B : Int) := by omega
  have h3 : ((A : Int) - ((first : Int) - window)).toNat = window - first := by omega
  have h4 : (((last : Int) + window) - (B : Int)).toNat = last + window - B := by omega
  have hBn : B ≤ notes.length := by omega
  let W : NoteObj → Prop := fun m => ∃ i : Nat, notes[i]? = some m ∧ first ≤ i + window ∧ i < last + window
  obtain ⟨inside, hin⟩ : ∃ l, l = (notes.take B).drop A := ⟨_, rfl⟩
  have hget : ∀ k : Nat, k < B - A → inside[k]? = notes[A + k]? := by
    intro k hk
    rw [hin, List.getElem?_drop, List.getElem?_take_of_lt (by omega)]
  have hlen : inside.length = B - A := by
    rw [hin, List.length_drop, List.length_take]; omega
  have hmem : ∀ m, m ∈ inside ↔ W m := by
    intro m
    constructor
    · intro h
      obtain ⟨k, hk⟩ := List.mem_iff_getElem?.mp h
      have hkl := (List.getElem?_eq_some_iff.mp hk).1
      rw [hget k (by omega)] at hk
      exact ⟨A + k, hk, by omega, by omega⟩
    · rintro ⟨i, hi, a, b⟩
      have hil := (List.getElem?_eq_some_iff.mp hi).1
      apply List.mem_iff_getElem?.mpr
      refine ⟨i - A, ?_⟩
      rw [hget (i - A) (by omega), show A + (i - A) = i by omega, hi]
  have hsane : ∀ m ∈ inside, Sane m := by
    intro m hm
    rw [hin] at hm
    exact hs m (List.mem_of_mem_take (List.mem_of_mem_drop hm))
  have hne' : inside ≠ [] := by
    intro h; rw [h] at hlen; simp at hlen; omega
  have hp : inside.mapM (fun n => do
      let m ← n.midiNumber
      Except.ok (n.octave, m)) = (.ok (inside.map (fun n => (n.octave, number n))) : Py _) := by
    apply mapM_ok
    intro n hn
    rw [midi_number (hsane n hn)]; rfl
  have hmne : inside.map (fun n => (n.octave, number n)) ≠ [] := by simpa using hne'
  obtain ⟨lo, hlo, hlom, hlow⟩ := minPair_spec _ hmne
  obtain ⟨hi, hhi, him, hhigh⟩ := maxPair_spec _ hmne
  obtain ⟨m0, hm0, rfl⟩ := List.mem_map.1 hlom
  obtain ⟨m1, hm1, rfl⟩ := List.mem_map.1 him
  let onsets : List (Option ℚ) :=
    if spanAligns (chord.map ChordSpan.onset) onset = true then (noteOnsets cache change A B).map some
    else inside.map (fun _ => none)
  have hol : onsets.length = B - A := by
    simp only [onsets]
    split
    · rw [List.length_map, noteOnsets, List.length_map, List.length_range]
    · rw [List.length_map, hlen]
  let prevs : List (Option ℚ) := ((none :: cache.map some).take B).drop A
  let nexts : List (Option ℚ) := ((cache.map some).take B).drop A
  have hpl : prevs.length = B - A := by
    simp only [prevs, List.length_drop, List.length_take, List.length_cons, List.length_map]; omega
  have hnl : nexts.length = B - A := by
    simp only [nexts, List.length_drop, List.length_take, List.length_map]; omega
  obtain ⟨items, hitems⟩ : ∃ l, l = inside.zip (onsets.zip (prevs.zip nexts)) := ⟨_, rfl⟩
  have hil : items.length = B - A := by
    rw [hitems]; simp only [List.length_zip, hlen, hol, hpl, hnl]; omega
  have hitem : ∀ (k : Nat), k < B - A → ∃ n o a b, items[k]? = some (n, o, a, b) ∧ inside[k]? = some n ∧
      onsets[k]? = some o ∧ prevs[k]? = some a ∧ nexts[k]? = some b := by
    intro k hk
    obtain ⟨n, e1⟩ : ∃ n, inside[k]? = some n := ⟨_, List.getElem?_eq_getElem (by omega)⟩
    obtain ⟨o, e2⟩ : ∃ o, onsets[k]? = some o := ⟨_, List.getElem?_eq_getElem (by omega)⟩
    obtain ⟨a, e3⟩ : ∃ a, prevs[k]? = some a := ⟨_, List.getElem?_eq_getElem (by omega)⟩
    obtain ⟨b, e4⟩ : ∃ b, nexts[k]? = some b := ⟨_, List.getElem?_eq_getElem (by omega)⟩
    refine ⟨n, o, a, b, ?_, e1, e2, e3, e4⟩
    rw [hitems]
    simp only [List.getElem?_zip_eq_some]
    exact ⟨e1, e2, e3, e4⟩
  let f : NoteObj × Option ℚ × Option ℚ × Option ℚ → Py (List ℚ) := fun x =>
    noteVector T (spanPlace (chord.map ChordSpan.onset) onset) (spanPlace (chord.map ChordSpan.offset) offset)
      D (m0.octave, number m0) (m1.octave, number m1) x.1 x.2.1 x.2.2.1 x.2.2.2
  have key : ∀ (k : Nat), k < B - A → ∀ n p, notes[A + k]? = some n → ps[A + k]? = some p →
      ∃ it v x y, items[k]? = some it ∧ f it = .ok v ∧ Before ps (A + k) p x ∧
        (ps ++ [pe])[A + k + 1]? = some (y + p) ∧ RowRight W n (place n p) x y v := by
    intro k hk n p hn hpp
    obtain ⟨n', o, a, b, e, e1, e2, e3, e4⟩ := hitem k hk
    rw [hget k hk, hn] at e1
    injection e1 with e1
    subst e1
    have hnm : n ∈ notes := List.mem_of_getElem? hn
    have hWn : W n := ⟨A + k, hn, by omega, by omega⟩
    have hpl' := (List.getElem?_eq_some_iff.mp hpp).1
    have hnx : (ps ++ [pe])[A + k + 1]? = some ((ps ++ [pe])[A + k + 1]'(by simp; omega)) :=
      List.getElem?_eq_getElem _
    obtain ⟨q, hq⟩ : ∃ q, (ps ++ [pe])[A + k + 1]? = some q := ⟨_, hnx⟩
    have hpp' : (ps ++ [pe])[A + k]? = some p := by
      rw [List.getElem?_append_left hpl']; exact hpp
    have hb : b = some (q - p) := by
      have hc := hcache (A + k) p q hpp' hq
      simp only [nexts] at e4
      rw [List.getElem?_drop, List.getElem?_take_of_lt (by omega), List.getElem?_map, hc] at e4
      injection e4 with e4
      exact e4.symm
    have ha : Before ps (A + k) p (a.getD 0) := by
      simp only [prevs] at e3
      rw [List.getElem?_drop, List.getElem?_take_of_lt (by omega)] at e3
      by_cases h0 : A + k = 0
      · rw [h0] at e3 ⊢
        rw [List.getElem?_cons_zero] at e3
        injection e3 with e3
        rw [← e3]
        exact .inl ⟨rfl, rfl⟩
      · obtain ⟨j, hj⟩ : ∃ j, A + k = j + 1 := ⟨A + k - 1, by omega⟩
        rw [hj] at e3 hpp' hpp ⊢
        rw [List.getElem?_cons_succ, List.getElem?_map] at e3
        obtain ⟨z, hjq⟩ : ∃ z, ps[j]? = some z := ⟨_, List.getElem?_eq_getElem (by omega)⟩
        have hjq' : (ps ++ [pe])[j]? = some z := by
          rw [List.getElem?_append_left (by omega)]; exact hjq
        rw [hcache j _ p hjq' hpp'] at e3
        injection e3 with e3
        refine .inr ⟨z, by omega, hjq, ?_⟩
        rw [← e3]; rfl
    have ho : o = (if spanAligns (chord.map ChordSpan.onset) onset = true then
        (noteOnsets cache change A B)[A + k - A]? else none) := by
      simp only [onsets] at e2
      rw [show A + k - A = k by omega]
      split at e2
      · rename_i hal
        rw [if_pos hal]
        rw [List.getElem?_map] at e2
        cases hx : (noteOnsets cache change A B)[k]? with
        | none => rw [hx] at e2; cases e2
        | some z => rw [hx] at e2; injection e2 with e2; exact e2.symm
      · rename_i hal
        rw [if_neg hal]
        rw [List.getElem?_map] at e2
        cases hx : inside[k]? with
        | none => rw [hx] at e2; cases e2
        | some z => rw [hx] at e2; injection e2 with e2; exact e2.symm
    obtain ⟨v, hv, hR⟩ := vector_right W n m0 m1 (hs n hnm) hWn ((hmem m0).1 hm0) ((hmem m1).1 hm1)
      (hsane m0 hm0) (fun m hm => hlow _ (List.mem_map.2 ⟨m, (hmem m).2 hm, rfl⟩))
      (fun m hm => hhigh _ (List.mem_map.2 ⟨m, (hmem m).2 hm, rfl⟩)) T
      (spanPlace (chord.map ChordSpan.onset) onset) (spanPlace (chord.map ChordSpan.offset) offset) D o a b
      (place n p) (hplace (A + k) n p hn hpp (by omega) (by omega) o ho)
    rw [hb] at hR
    refine ⟨_, v, a.getD 0, q - p, e, ?_, ha, ?_, hR⟩
    · simp only [f, hb] at hv ⊢; exact hv
    · rw [hq]; simp
  have hnp : ∀ (k : Nat), k < B - A → ∃ n p, notes[A + k]? = some n ∧ ps[A + k]? = some p := by
    intro k hk
    exact ⟨_, _, List.getElem?_eq_getElem (show A + k < notes.length by omega),
      List.getElem?_eq_getElem (show A + k < ps.length by omega)⟩
  obtain ⟨vs, hvs, hvl, hvget⟩ := mapM_all f items (by
    intro it hit
    obtain ⟨k, hk⟩ := List.mem_iff_getElem?.mp hit
    have hkl := (List.getElem?_eq_some_iff.mp hk).1
    obtain ⟨n, p, hn, hpp⟩ := hnp k (by omega)
    obtain ⟨it', v, _, _, e, hv, _⟩ := key k (by omega) n p hn hpp
    rw [hk] at e
    injection e with e
    exact ⟨v, by rw [e]; exact hv⟩)
  have hv71 : ∀ v ∈ vs, v.length = 71 := by
    intro v hv
    obtain ⟨k, hk⟩ := List.mem_iff_getElem?.mp hv
    have hkl := (List.getElem?_eq_some_iff.mp hk).1
    obtain ⟨n, p, hn, hpp⟩ := hnp k (by omega)
    obtain ⟨it', v', _, _, e, hv', _, _, hR⟩ := key k (by omega) n p hn hpp
    have := hvget k it' v' e hv'
    rw [hk] at this
    injection this with this
    rw [this]; exact hR.length
  have hst := stackRows_ok vs (by intro h; rw [h] at hvl; simp at hvl; omega) 71 hv71
  refine ⟨List.replicate (window - first) (List.replicate 71 0) ++ vs ++
    List.replicate (last + window - B) (List.replicate 71 0), ?_, ⟨?_, ?_, ?_⟩⟩
  · have s1 : pySlice notes (A : Int) (B : Int) = inside := by
      rw [Piece.pySlice_nat notes A B (by omega) (by omega), hin]
    have s2 : pySlice (none :: cache.map some) (A : Int) (B : Int) = prevs := by
      rw [Piece.pySlice_nat _ A B (by simp; omega) (by simp; omega)]
    have s3 : pySlice (cache.map some) (A : Int) (B : Int) = nexts := by
      rw [Piece.pySlice_nat _ A B (by simp; omega) (by simp; omega)]
    simp only [chordNoteInput, h1, h2, h3, h4, s1, s2, s3, Int.toNat_natCast]
    rw [hp]
    simp only [Bind.bind, Except.bind]
    rw [hlo, hhi]
    simp only
    have : (items.mapM f) = (.ok vs : Py _) := hvs
    rw [hitems] at this
    simp only [f, onsets] at this
    rw [this]
    simp only
    rw [hst]
  · simp only [List.length_append, List.length_replicate]; omega
  · intro r hr hout
    simp only [List.length_append, List.length_replicate] at hr
    rcases hout with h | h
    · rw [List.append_assoc, List.getElem?_append_left (by simp; omega), List.getElem?_replicate,
        if_pos (by omega)]
    · rw [List.getElem?_append_right (by simp; omega), List.getElem?_replicate, if_pos]
      simp only [List.length_append, List.length_replicate]; omega
  · intro r j n p hr hj hn hpp
    simp only [List.length_append, List.length_replicate] at hr
    have hjl := (List.getElem?_eq_some_iff.mp hn).1
    have hjB : j < B := by omega
    have hjA : A ≤ j := by omega
    obtain ⟨it, v, x, y, e, hv, hx, hy, hR⟩ := key (j - A) (by omega) n p
      (by rw [show A + (j - A) = j by omega]; exact hn) (by rw [show A + (j - A) = j by omega]; exact hpp)
    rw [show A + (j - A) = j by omega] at hx hy
    refine ⟨v, x, y, ?_, hx, hy, hR⟩
    rw [List.append_assoc, List.getElem?_append_right (by simp; omega), List.length_replicate,
      List.getElem?_append_left (by omega), show r - (window - first) = j - A by omega]
    exact hvget (j - A) it v e hv

/-! ## The chords of a piece -/

/-- The place of a note of the length `n.duration` at `p` in a chord which begins at `s` and is `D` long: where
the note begins and ends, and how long it is, with the chord from 0 to 1. -/
def inChord (s D : ℚ) (n : NoteObj) (p : ℚ) : ℚ × ℚ × ℚ := ((p - s) / D, (p + n.duration - s) / D, n.duration / D)

/-- A loaded score: the measures `c` of the table `T` follow one another, `ps` are the positions of the notes,
and `pe` that of the end of the piece. -/
structure Score (T c : List (Measure ℚ)) (notes : List NoteObj) (last : Int × ℚ) (ps : List ℚ) (pe : ℚ) :
    Prop where
  chain : Chain T c
  sane : ∀ n ∈ notes, Sane n
  onsets : List.Forall₂ (fun o p => At c o.1 o.2 p) (notes.map NoteObj.onset) ps
  last : At c last.1 last.2 pe

theorem Score.at {T c notes last ps pe} (h : Score T c notes last ps pe) (j : Nat) (n : NoteObj) (p : ℚ)
    (hn : notes[j]? = some n) (hp : ps[j]? = some p) : At c n.onset.1 n.onset.2 p := by
  have hl := List.Forall₂.length_eq h.onsets
  have hj := (List.getElem?_eq_some_iff.mp hp).1
  have := h.onsets.get (i := j) (by omega) hj
  obtain ⟨h1, e1⟩ := List.getElem?_eq_some_iff.mp hn
  obtain ⟨h2, e2⟩ := List.getElem?_eq_some_iff.mp hp
  simp only [List.get_eq_getElem, List.getElem_map, e1, e2] at this
  exact this

/-- C93: the input for a chord of the piece, whether it begins with a note or not: every row has the place of
its note in the chord. The duration of the chord is the distance from its onset to its offset, and is not 0. -/
theorem C93_chord {T c notes last ps pe} (h : Score T c notes last ps pe) (cache : List ℚ)
    (hcache : durationCache T (notes.map NoteObj.onset) last = .ok cache) (window first e change : Nat)
    (ch : ChordSpan) (s t : ℚ) (hs : At c ch.onset.1 ch.onset.2 s) (ht : At c ch.offset.1 ch.offset.2 t)
    (hD : ch.duration = t - s) (hD0 : ch.duration ≠ 0) (hchange : change < notes.length)
    (hne : first - window < min (e + window) notes.length) :
    ∃ rows, pieceChordInput notes T cache last window (first, e) change (some ch) = .ok rows ∧
      InputRight notes ps pe first e window (inChord s ch.duration) rows := by
  have hpl : ps.length = notes.length := by
    have := List.Forall₂.length_eq h.onsets; rw [List.length_map] at this; exact this.symm
  obtain ⟨out, ho, hol, hdist, _⟩ := Piece.C35_cache h.chain _ last ps pe h.onsets h.last
  rw [hcache] at ho
  injection ho with ho
  subst ho
  rw [List.length_map] at hol
  obtain ⟨nc, hnc⟩ : ∃ n, notes[change]? = some n := ⟨_, List.getElem?_eq_getElem hchange⟩
  obtain ⟨pc, hpc⟩ : ∃ p, ps[change]? = some p := ⟨_, List.getElem?_eq_getElem (by omega)⟩
  have e1 : pieceChordInput notes T cache last window (first, e) change (some ch) =
      chordNoteInput notes T nc.onset (rangeEnd notes last e) ch.duration
        change first e window cache (some ch) := by
    simp only [pieceChordInput, pyGet_ofNat notes change nc hnc, Bind.bind, Except.bind]
  rw [e1]
  apply matrix_right notes h.sane T ps pe hpl cache hol hdist _ _ _ change first e window (some ch) hne
  intro j n p hn hp hlo hhi o ho
  have hat := h.at j n p hn hp
  by_cases hal : ch.onset = nc.onset
  · have hsp : s = pc := by
      have h1 := h.at change nc pc hnc hpc
      rw [hal] at hs
      obtain ⟨i, m, a1, a2, a3⟩ := hs
      obtain ⟨i', m', b1, b2, b3⟩ := h1
      have := (h.chain.mono i i' m m' a1 b1).2.1 (by rw [a2, b2])
      subst this
      rw [a3, b3]
    have hx : (noteOnsets cache change (first - window) (min (e + window) notes.length))[j - (first - window)]? =
        some (p - pc) := by
      apply Piece.C56_note_onset cache (ps ++ [pe]) hdist change _ _ _ (by omega)
      · rw [List.getElem?_append_left (by omega)]; exact hpc
      · rw [show first - window + (j - (first - window)) = j by omega,
          List.getElem?_append_left (by have := (List.getElem?_eq_some_iff.mp hp).1; omega)]
        exact hp
    have : o = some (p - pc) := by
      rw [ho, if_pos (by simp [spanAligns, hal]), hx]
    rw [this]
    simp only [noteRhythm]
    rw [if_neg hD0, inChord, ← add_div, hsp]
    congr 3
    ring
  · have : o = none := by rw [ho, if_neg (by simp [spanAligns, hal])]
    rw [this]
    simp only [noteRhythm, Option.map_some]
    have p1 : spanPlace (some ch.onset) nc.onset = ch.onset := by
      simp only [spanPlace]; rw [if_neg hal]
    have p2 : ∀ x, spanPlace (some ch.offset) x = ch.offset := by
      intro x; simp only [spanPlace]; split <;> simp_all
    rw [p1, p2]
    obtain ⟨i, m, a1, a2, a3⟩ := hs
    obtain ⟨i', m', b1, b2, b3⟩ := ht
    obtain ⟨k, mn, c1, c2, c3⟩ := hat
    have hlen : chainPos c i' ch.offset.2 - chainPos c i ch.onset.2 = ch.duration := by rw [hD, a3, b3]
    have := C52_proportion h.chain i i' k m m' mn a1 b1 c1 ch.onset.2 ch.offset.2 n.onset.2 n.duration
      (by rw [hlen]; exact hD0) (some ch.duration) (.inr (by rw [hlen]))
    rw [a2, b2, c2] at this
    rw [show n.onset = (n.onset.1, n.onset.2) from rfl, show ch.onset = (ch.onset.1, ch.onset.2) from rfl,
      show ch.offset = (ch.offset.1, ch.offset.2) from rfl, this]
    simp only [hlen, inChord, a3, c3]
    rw [← add_div]
    congr 3
    ring

/-- C93: the input for a chord given by its notes: it begins with note `change` and ends with note `e`, or with
the piece. If no time passes between them, every note gets the place (1, 1, 1). -/
theorem C93_found {T c notes last ps pe} (h : Score T c notes last ps pe) (cache : List ℚ)
    (hcache : durationCache T (notes.map NoteObj.onset) last = .ok cache) (window first e change : Nat)
    (hchange : change < notes.length) (hce : change ≤ e)
    (s t : ℚ) (hs : ps[change]? = some s) (ht : (ps ++ [pe])[e]? = some t)
    (hne : first - window < min (e + window) notes.length) :
    ∃ rows, pieceChordInput notes T cache last window (first, e) change none = .ok rows ∧
      InputRight notes ps pe first e window
        (fun n p => if t - s = 0 then (1, 1, 1) else inChord s (t - s) n p) rows := by
  have hpl : ps.length = notes.length := by
    have := List.Forall₂.length_eq h.onsets; rw [List.length_map] at this; exact this.symm
  obtain ⟨out, ho, hol, hdist, hsum⟩ := Piece.C35_cache h.chain _ last ps pe h.onsets h.last
  rw [hcache] at ho
  injection ho with ho
  subst ho
  rw [List.length_map] at hol
  obtain ⟨nc, hnc⟩ : ∃ n, notes[change]? = some n := ⟨_, List.getElem?_eq_getElem hchange⟩
  have hs' : (ps ++ [pe])[change]? = some s := by rw [List.getElem?_append_left (by omega)]; exact hs
  have e1 : pieceChordInput notes T cache last window (first, e) change none =
      chordNoteInput notes T nc.onset (rangeEnd notes last e) (t - s)
        change first e window cache none := by
    simp only [pieceChordInput, pyGet_ofNat notes change nc hnc, Bind.bind, Except.bind,
      hsum change e s t hce hs' ht]
  rw [e1]
  apply matrix_right notes h.sane T ps pe hpl cache hol hdist _ _ _ change first e window none hne
  intro j n p hn hp hlo hhi o ho
  have hx : (noteOnsets cache change (first - window) (min (e + window) notes.length))[j - (first - window)]? =
      some (p - s) := by
    apply Piece.C56_note_onset cache (ps ++ [pe]) hdist change _ _ _ (by omega)
    · exact hs'
    · rw [show first - window + (j - (first - window)) = j by omega,
        List.getElem?_append_left (by have := (List.getElem?_eq_some_iff.mp hp).1; omega)]
      exact hp
  have : o = some (p - s) := by
    rw [ho, if_pos (by simp [spanAligns]), hx]
  rw [this]
  simp only [noteRhythm]
  split
  · rfl
  · rw [inChord, ← add_div]
    congr 3
    ring

/-! ## All chords -/

theorem foldMax {τ : Type} [LinearOrder τ] (l : List τ) (a : τ) :
    (l.foldl (fun m x => if m < x then x else m) a) ∈ a :: l ∧
      ∀ x ∈ a :: l, x ≤ l.foldl (fun m x => if m < x then x else m) a := by
  induction l generalizing a with
  | nil => simp
  | cons b l ih =>
    rw [List.foldl_cons]
    obtain ⟨h1, h2⟩ := ih (if a < b then b else a)
    refine ⟨?_, ?_⟩
    · rcases List.mem_cons.1 h1 with h | h
      · rw [h]; split <;> simp
      · exact List.mem_cons_of_mem _ (List.mem_cons_of_mem _ h)
    · have h3 := h2 _ List.mem_cons_self
      intro x hx
      rcases List.mem_cons.1 hx with rfl | hx
      · refine le_trans ?_ h3
        split
        · rename_i h; exact h.le
        · exact le_rfl
      · rcases List.mem_cons.1 hx with rfl | hx
        · refine le_trans ?_ h3
          split
          · exact le_rfl
          · rename_i h; exact not_lt.1 h
        · exact h2 x (List.mem_cons_of_mem _ hx)

/-- The end of the piece: the end of its last chord, or the latest end of a note if the piece has no labels. -/
def PieceEnd (notes : List NoteObj) (chords : Option (List ChordSpan)) (x : Int × ℚ) : Prop :=
  match chords with
  | some l => ∃ ch, l.getLast? = some ch ∧ ch.offset = x
  | none => (∃ n ∈ notes, n.offset = x) ∧ ∀ n ∈ notes, toLex n.offset ≤ toLex x

theorem last_end (notes : List NoteObj) (chords : Option (List ChordSpan)) (x : Int × ℚ)
    (h : PieceEnd notes chords x) :
    lastOffset (chords.map (fun l => l.map (fun c => toLex c.offset))) (notes.map (fun n => toLex n.offset)) =
      .ok (toLex x) := by
  cases chords with
  | some l =>
    obtain ⟨ch, hl, rfl⟩ := h
    simp only [lastOffset, Option.map_some]
    have hne : l ≠ [] := by rintro rfl; cases hl
    have hlen : 0 < l.length := List.length_pos_iff.mpr hne
    rw [List.getLast?_eq_getElem?] at hl
    unfold pyGet
    have : (l.map (fun c => toLex c.offset))[l.length - 1]? = some (toLex ch.offset) := by
      rw [List.getElem?_map, hl]; rfl
    simp only [List.length_map]
    rw [if_neg (by omega), if_pos (by omega)]
    have e : ((l.length : Int) + (-1 : Int)).toNat = l.length - 1 := by omega
    rw [e, this]
  | none =>
    obtain ⟨⟨n, hn, rfl⟩, hmax⟩ := h
    simp only [lastOffset, Option.map_none]
    cases hl : notes.map (fun n => toLex n.offset) with
    | nil => rw [List.map_eq_nil_iff] at hl; rw [hl] at hn; cases hn
    | cons a l =>
      simp only [maxTime]
      obtain ⟨h1, h2⟩ := foldMax l a
      rw [← hl] at h1 h2
      obtain ⟨m, hm, em⟩ := List.mem_map.1 h1
      congr 1
      apply le_antisymm
      · rw [← em]; exact hmax m hm
      · exact h2 _ (List.mem_map.2 ⟨n, hn, rfl⟩)

/-- C93: the inputs for given ranges and change indexes (as in the search): one matrix for each. -/
theorem C93_given {T c notes last ps pe} (h : Score T c notes last ps pe)
    (chords : Option (List ChordSpan)) (hend : PieceEnd notes chords last) (window : Nat)
    (ranges : List (Nat × Nat)) (changes : List Nat) (hlen : ranges.length = changes.length)
    (hr : ∀ (k : Nat) a b j, ranges[k]? = some (a, b) → changes[k]? = some j →
      a ≤ j ∧ j < b ∧ b ≤ notes.length) :
    ∃ out, chordNoteInputs notes chords T window (some ranges) (some changes) = .ok out ∧
      out.length = ranges.length ∧
      ∀ (k : Nat) a b j s t, ranges[k]? = some (a, b) → changes[k]? = some j → ps[j]? = some s →
        (ps ++ [pe])[b]? = some t → ∃ rows, out[k]? = some rows ∧
          InputRight notes ps pe a b window
            (fun n p => if t - s = 0 then (1, 1, 1) else inChord s (t - s) n p) rows := by
  have hpl : ps.length = notes.length := by
    have := List.Forall₂.length_eq h.onsets; rw [List.length_map] at this; exact this.symm
  obtain ⟨cache, hcache, _⟩ := Piece.C35_cache h.chain _ last ps pe h.onsets h.last
  let items : List ((Nat × Nat) × Nat × Option ChordSpan) := ranges.zip (changes.zip (ranges.map (fun _ => none)))
  let f : (Nat × Nat) × Nat × Option ChordSpan → Py (List (List ℚ)) := fun x =>
    pieceChordInput notes T cache last window x.1 x.2.1 x.2.2
  have hil : items.length = ranges.length := by
    simp only [items, List.length_zip, List.length_map]; omega
  have hitem : ∀ (k : Nat) it, items[k]? = some it → ∃ a b j, ranges[k]? = some (a, b) ∧
      changes[k]? = some j ∧ it = ((a, b), j, none) := by
    intro k it hit
    obtain ⟨⟨a, b⟩, j, o⟩ := it
    simp only [items, List.getElem?_zip_eq_some, List.getElem?_map] at hit
    obtain ⟨h1, h2, h3⟩ := hit
    rw [h1] at h3
    simp only [Option.map_some, Option.some.injEq] at h3
    exact ⟨a, b, j, h1, h2, by rw [← h3]⟩
  have key : ∀ a b j, a ≤ j → j < b → b ≤ notes.length → ∀ s t, ps[j]? = some s → (ps ++ [pe])[b]? = some t →
      ∃ rows, f ((a, b), j, none) = .ok rows ∧ InputRight notes ps pe a b window
            (fun n p => if t - s = 0 then (1, 1, 1) else inChord s (t - s) n p) rows := by
    intro a b j h1 h2 h3 s t hs ht
    exact C93_found h cache hcache window a b j (by omega) (by omega) s t hs ht (by omega)
  obtain ⟨out, hout, hol, hget⟩ := mapM_all f items (by
    intro it hit
    obtain ⟨k, hk⟩ := List.mem_iff_getElem?.mp hit
    obtain ⟨a, b, j, h1, h2, rfl⟩ := hitem k it hk
    obtain ⟨q1, q2, q3⟩ := hr k a b j h1 h2
    obtain ⟨rows, hrows, _⟩ := key a b j q1 q2 q3 _ _ (List.getElem?_eq_getElem (show j < ps.length by omega))
      (List.getElem?_eq_getElem (show b < (ps ++ [pe]).length by simp; omega))
    exact ⟨rows, hrows⟩)
  refine ⟨out, ?_, by omega, ?_⟩
  · simp only [chordNoteInputs, Option.isNone_some, Bool.or_self, Bind.bind, Except.bind]
    rw [last_end notes chords last hend]
    simp only [ofLex_toLex, hcache]
    exact hout
  · intro k a b j s t h1 h2 hs ht
    obtain ⟨q1, q2, q3⟩ := hr k a b j h1 h2
    obtain ⟨rows, hrows, hR⟩ := key a b j q1 q2 q3 s t hs ht
    refine ⟨rows, hget k ((a, b), j, none) rows ?_ hrows, hR⟩
    simp only [items, List.getElem?_zip_eq_some, List.getElem?_map, h1, h2, Option.map_some, and_self]

/-- C93: the inputs for the labels of a piece (as in the training data): one matrix for each chord, over its
range of notes (C55) and the window around it, which has a note, with the places of the notes in the chord. Notes and
chords are in the order of their onsets, and no chord has the duration 0; what happens otherwise: `C93_fails_zero`. -/
theorem C93_labels_partial {T c notes last ps pe} (h : Score T c notes last ps pe) (hnotes : notes ≠ [])
    (chords : List ChordSpan) (hend : PieceEnd notes (some chords) last) (window : Nat) (hw : 1 ≤ window)
    (hsn : (notes.map (fun n => toLex n.onset)).Pairwise (· ≤ ·))
    (hsc : (chords.map (fun c => toLex c.onset)).Pairwise (· ≤ ·))
    (hch : ∀ ch ∈ chords, ∃ s t, At c ch.onset.1 ch.onset.2 s ∧ At c ch.offset.1 ch.offset.2 t ∧
      ch.duration = t - s ∧ ch.duration ≠ 0) :
    ∃ out, chordNoteInputs notes (some chords) T window none none = .ok out ∧
      out.length = chords.length ∧
      ∀ (k : Nat) ch, chords[k]? = some ch → ∃ a b s rows,
        (pieceChordRanges (notes.map (fun n => (toLex n.onset, toLex n.offset)))
          (chords.map (fun c => toLex c.onset)))[k]? = some (a, b) ∧
        At c ch.onset.1 ch.onset.2 s ∧ out[k]? = some rows ∧
        InputRight notes ps pe a b window (inChord s ch.duration) rows ∧
        a - window < min (b + window) notes.length := by
  have hpl : ps.length = notes.length := by
    have := List.Forall₂.length_eq h.onsets; rw [List.length_map] at this; exact this.symm
  have hnl : 0 < notes.length := List.length_pos_iff.mpr hnotes
  obtain ⟨cache, hcache, _⟩ := Piece.C35_cache h.chain _ last ps pe h.onsets h.last
  obtain ⟨times, htimes⟩ : ∃ l, l = notes.map (fun n => (toLex n.onset, toLex n.offset)) := ⟨_, rfl⟩
  obtain ⟨starts, hstarts⟩ : ∃ l, l = chords.map (fun c => toLex c.onset) := ⟨_, rfl⟩
  have hons : times.map Prod.fst = notes.map (fun n => toLex n.onset) := by
    rw [htimes, List.map_map]; rfl
  have htl : times.length = notes.length := by rw [htimes, List.length_map]
  have hsl : starts.length = chords.length := by rw [hstarts, List.length_map]
  have hsn' : (times.map Prod.fst).Pairwise (· ≤ ·) := by rw [hons]; exact hsn
  have hsc' : starts.Pairwise (· ≤ ·) := by rw [hstarts]; exact hsc
  have hcl := Piece.chordChanges_length (times.map Prod.fst) 0 starts
  obtain ⟨hmono, hfirst⟩ := Piece.C36_first (times.map Prod.fst) starts hsn' hsc'
  have hchangelt : ∀ (k : Nat) j, (chordChanges (times.map Prod.fst) 0 starts)[k]? = some j → j < notes.length := by
    intro k j hj
    rw [Piece.C36_change _ _ hsn' hsc', List.getElem?_map, Option.map_eq_some_iff] at hj
    obtain ⟨x, _, rfl⟩ := hj
    rw [List.length_map, htl]
    omega
  have hrl : (pieceChordRanges times starts).length = chords.length := by
    simp only [pieceChordRanges, List.length_map, List.length_zip, List.length_append, List.length_drop, hcl]
    cases hsz : starts with
    | nil => rw [hsz] at hsl; simp at hsl ⊢; omega
    | cons x xs => rw [hsz] at hsl; simp at hsl ⊢; omega
  -- every chord has a note in its window
  have hwin : ∀ (k : Nat) x, starts[k]? = some x → ∃ a b j, (pieceChordRanges times starts)[k]? = some (a, b) ∧
      (chordChanges (times.map Prod.fst) 0 starts)[k]? = some j ∧ j < notes.length ∧
      a - window < min (b + window) notes.length := by
    intro k x hx
    obtain ⟨b, j, hab, hj, hnext, hlast, hstart⟩ := Piece.C55_ranges times starts hsn' hsc' k x hx
    obtain ⟨hs0, hs1, hs2⟩ := Piece.C55_start x times
    obtain ⟨j', hj', hbefore, hsome, hnone⟩ := hfirst k x hx
    have hj2 : j' = j := by rw [hj] at hj'; injection hj' with hj'; exact hj'.symm
    subst hj2
    have hjl := hchangelt k j' hj
    have hbge : j' ≤ b := by
      by_cases hk : k + 1 = chords.length
      · rw [hlast (by omega), htl]; omega
      · have hkl := (List.getElem?_eq_some_iff.mp hx).1
        obtain ⟨j2, hj2⟩ : ∃ j2, (chordChanges (times.map Prod.fst) 0 starts)[k + 1]? = some j2 :=
          ⟨_, List.getElem?_eq_getElem (by omega)⟩
        rw [hnext j2 hj2]
        obtain ⟨l1, e1⟩ := List.getElem?_eq_some_iff.mp hj
        obtain ⟨l2, e2⟩ := List.getElem?_eq_some_iff.mp hj2
        have := List.pairwise_iff_getElem.mp hmono k (k + 1) l1 l2 (by omega)
        rw [e1, e2] at this
        exact this
    refine ⟨_, b, j', hab, hj, hjl, ?_⟩
    by_cases hex : ∃ n ∈ times, x ≤ n.1
    · have := hstart hex
      omega
    · have : j' = notes.length - 1 := by
        have := hnone (by
          intro y hy
          obtain ⟨n, hn, rfl⟩ := List.mem_map.1 hy
          by_contra hlt
          exact hex ⟨n, hn, not_lt.1 hlt⟩)
        rw [List.length_map, htl] at this
        exact this
      omega
  let items : List ((Nat × Nat) × Nat × Option ChordSpan) := (pieceChordRanges times starts).zip
    ((chordChanges (times.map Prod.fst) 0 starts).zip (chords.map some))
  let f : (Nat × Nat) × Nat × Option ChordSpan → Py (List (List ℚ)) := fun x =>
    pieceChordInput notes T cache last window x.1 x.2.1 x.2.2
  have key : ∀ (k : Nat) ch, chords[k]? = some ch → ∃ a b j s rows,
      (pieceChordRanges times starts)[k]? = some (a, b) ∧ items[k]? = some ((a, b), j, some ch) ∧
      At c ch.onset.1 ch.onset.2 s ∧ f ((a, b), j, some ch) = .ok rows ∧
      InputRight notes ps pe a b window (inChord s ch.duration) rows ∧
      a - window < min (b + window) notes.length := by
    intro k ch hk
    obtain ⟨a, b, j, h1, h2, h3, h4⟩ := hwin k (toLex ch.onset) (by rw [hstarts, List.getElem?_map, hk]; rfl)
    obtain ⟨s, t, hs, ht, hD, hD0⟩ := hch ch (List.mem_of_getElem? hk)
    obtain ⟨rows, hrows, hR⟩ := C93_chord h cache hcache window a b j ch s t hs ht hD hD0 h3 h4
    refine ⟨a, b, j, s, rows, h1, ?_, hs, hrows, hR, h4⟩
    simp only [items, List.getElem?_zip_eq_some, List.getElem?_map, h1, h2, hk, Option.map_some, and_self]
  have hil : items.length = chords.length := by
    simp only [items, List.length_zip, List.length_map, hrl, hcl, hsl, Nat.min_self]
  obtain ⟨out, hout, hol, hget⟩ := mapM_all f items (by
    intro it hit
    obtain ⟨k, hk⟩ := List.mem_iff_getElem?.mp hit
    have hkl := (List.getElem?_eq_some_iff.mp hk).1
    obtain ⟨a, b, j, s, rows, _, hi, _, hf, _⟩ := key k _ (List.getElem?_eq_getElem (by omega))
    rw [hk] at hi
    injection hi with hi
    exact ⟨rows, by rw [hi]; exact hf⟩)
  refine ⟨out, ?_, by omega, ?_⟩
  · have hl := last_end notes (some chords) last hend
    simp only [chordNoteInputs, Option.isNone_none, Bool.or_self, Bind.bind, Except.bind, List.map_map]
    rw [hl]
    simp only [ofLex_toLex, hcache]
    have e : (notes.map ((fun t : (Int × ℚ) × (Int × ℚ) => (toLex t.1, toLex t.2)) ∘
        fun n => (n.onset, n.offset))) = times := by rw [htimes]; rfl
    rw [e]
    have e2 : (notes.map (Prod.fst ∘ (fun t : (Int × ℚ) × (Int × ℚ) => (toLex t.1, toLex t.2)) ∘
        fun n => (n.onset, n.offset))) = times.map Prod.fst := by rw [← e, List.map_map]
    rw [e2, ← hstarts]
    exact hout
  · intro k ch hk
    obtain ⟨a, b, j, s, rows, h1, hi, hs, hf, hR⟩ := key k ch hk
    rw [← htimes, ← hstarts]
    exact ⟨a, b, s, rows, h1, hs, hget k _ rows hi hf, hR⟩

/-- C93 fails for a chord of the duration 0 (the comment at note.py:253 reports them in the tables): if it begins
with a note, every note gets the place (1, 1, 1), but if not, there is an exception, and the piece has no
inputs. -/
theorem C93_fails_zero (T : List (Measure ℚ)) (n : NoteObj) (s e : Int × ℚ) :
    (∀ o, noteRhythm T n s e 0 (some o) = .ok (1, 1, 1)) ∧
    noteRhythm T n s e 0 none = .error .zeroDivisionError := by
  refine ⟨fun o => by simp [noteRhythm], ?_⟩
  simp [noteRhythm, rhythmicInfo, Bind.bind, Except.bind]

/-! ## An example -/

/-- Two measures of 4/4. -/
def exT : List (Measure ℚ) := [⟨1, 1, 0, some 2⟩, ⟨2, 1, 0, none⟩]

/-- C4, E4 and G3 (octaves from 5 and 4), each a half note or a whole note. -/
def exNotes : List NoteObj :=
  [⟨15, 5, (1, 0), 3, 1/2, (1, 1/2), 2, .tpc, 0⟩, ⟨19, 5, (1, 1/2), 2, 1/2, (2, 0), 3, .tpc, 1/2⟩,
    ⟨16, 4, (2, 0), 3, 1, (2, 1), 3, .tpc, 0⟩]

/-- The first chord begins with the first note; the second one begins after the second note. -/
def exChords : List ChordSpan := [⟨(1, 0), (1, 3/4), 3/4⟩, ⟨(1, 3/4), (2, 1), 5/4⟩]

/-- The example is a score, with the end at position 2. -/
theorem ex_score : Score exT exT exNotes (2, 1) [0, 1/2, 1] 2 := by
  have p0 : ∀ b : ℚ, chainPos exT 0 b = b := fun b => by simp [chainPos, exT]
  have p1 : ∀ b : ℚ, chainPos exT 1 b = 1 + b := fun b => by simp [chainPos, exT]
  refine ⟨⟨?_, ?_, by decide⟩, ?_, ?_, ⟨1, _, rfl, rfl, by rw [p1]; norm_num⟩⟩
  · intro m hm; simp [exT] at hm; rcases hm with rfl | rfl <;> rfl
  · intro k m m' h1 h2
    match k with
    | 0 => simp [exT] at h1 h2; subst h1; subst h2; rfl
    | k + 1 => simp [exT] at h2
  · intro n hn
    simp only [exNotes, List.mem_cons, List.not_mem_nil, or_false] at hn
    rcases hn with rfl | rfl | rfl <;> exact ⟨rfl, by decide, by decide, by decide, by decide⟩
  · refine .cons ⟨0, _, rfl, rfl, by rw [p0]⟩ (.cons ⟨0, _, rfl, rfl, by rw [p0]⟩
      (.cons ⟨1, _, rfl, rfl, by rw [p1]; norm_num⟩ .nil))

/-- The places and distances of the notes in the inputs of both chords, with a window of 1, and a row of zeros
before the first note. The second chord begins at 3/4 and is 5/4 long. -/
example : (chordNoteInputs exNotes (some exChords) exT 1 none none).map (fun l => l.map (fun rows =>
      rows.map (fun v => (v.drop 53).take 5))) =
    .ok [[[0, 0, 0, 0, 0], [0, 2/3, 2/3, 0, 1/2], [2/3, 4/3, 2/3, 1/2, 1/2], [4/3, 8/3, 4/3, 1/2, 1]],
      [[-3/5, -1/5, 2/5, 0, 1/2], [-1/5, 1/5, 2/5, 1/2, 1/2], [1/5, 1, 4/5, 1/2, 1], [0, 0, 0, 0, 0]]] := by
  decide +kernel

/-- The second chord with the duration 0: an exception. The first one with the duration 0: ones. -/
example : chordNoteInputs exNotes (some [⟨(1, 0), (1, 3/4), 3/4⟩, ⟨(1, 3/4), (1, 3/4), 0⟩]) exT 1 none none =
      .error .zeroDivisionError ∧
    (chordNoteInputs exNotes (some [⟨(1, 0), (1, 0), 0⟩]) exT 0 none none).map (fun l => l.map (fun rows =>
      rows.map (fun v => (v.drop 53).take 3))) = .ok [[[1, 1, 1], [1, 1, 1], [1, 1, 1]]] := by
  decide +kernel

end Verif.ChordInputs
