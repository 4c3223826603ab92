import Verif.TransitionTraining
import Verif.Props.ClassTraining
import Verif.Props.ChordTraining
import Verif.Props.ModelEval
import Mathlib.Algebra.Order.BigOperators.Group.List

/-!
# C148: what the chord transition model is trained on
-/

namespace Verif.TransitionTraining

open Verif.Vectors Verif.NoteVectors Verif.ChordInputs Verif.Datasets Verif.KeyDatasets

/-! ## The rows of the notes -/

/-- The row of a note: pitch, octave and levels, the distances to its neighbours, its octave once more, and its height.
All other entries are 0. -/
structure NoteRow (n : NoteObj) (before after : ℚ) (v : List ℚ) : Prop where
  length : v.length = 71
  entries : ∀ (i : Nat) y, v[i]? = some y →
    y = if (i : Int) = n.pitchClass ∨ (i : Int) = 35 + n.octave ∨ i = 45 + n.onsetLevel ∨ i = 49 + n.offsetLevel ∨
        (i : Int) = 59 + n.octave then 1
      else if i = 56 then before else if i = 57 then after else if i = 69 then (number n : ℚ) / 127 else 0

theorem plain_right (n : NoteObj) (hn : Sane n) (p q : Option ℚ) :
    ∃ v, plainNoteVector n p q = .ok v ∧ NoteRow n (p.getD 0) (q.getD 0) v := by
  let x : NoteVec := ⟨n.pitchClass, n.octave, n.onsetLevel, n.offsetLevel, n.pitchType, (0, 0, 0),
    (p.getD 0, q.getD 0), none, none⟩
  have h1 := hn.pitch
  have h2 := hn.octave
  have h3 := hn.onset
  have h4 := hn.offset
  have hx : NoteVectors.InRange x := by
    refine ⟨?_, h2, ?_, ?_, ?_⟩
    · have e : x.pitchType = .tpc := hn.spelled
      rw [e]; exact h1
    · intro p hp; cases hp
    · exact ⟨Int.natCast_nonneg _, by show (n.onsetLevel : Int) < 4; omega⟩
    · exact ⟨Int.natCast_nonneg _, by show (n.offsetLevel : Int) < 4; omega⟩
  have ept : specPitches x.pitchType = 35 := by
    have e : x.pitchType = .tpc := hn.spelled
    rw [e]; rfl
  have hm : midiNoteNumber x.pitchClass x.octave x.pitchType = .ok (number n) := midi_number hn
  obtain ⟨v, hv, _, hlen, hbits⟩ := C65_layout_partial x hx
  obtain ⟨v', hv', h5, ⟨y58, e58, f58, g58⟩, hoct, hh, y, hy, _, hrel⟩ :=
    C65_context x hx (number n) 0 (.inr ⟨rfl, rfl⟩) hm
  have : v' = v := by rw [hv] at hv'; injection hv' with h; exact h.symm
  subst this
  rw [ept] at hlen hbits h5 e58 hoct hh hy
  refine ⟨v', hv, hlen, ?_⟩
  have h5' : ∀ k : Nat, k < 5 → v'[53 + k]? = ([0, 0, 0, p.getD 0, q.getD 0] : List ℚ)[k]? := by
    intro k hk
    have : ((v'.drop (35 + 18)).take 5)[k]? = v'[53 + k]? := by
      rw [List.getElem?_take_of_lt hk, List.getElem?_drop]
    rw [← this, h5]
  have hy58 : y58 = 0 := by
    rcases f58 with h | h
    · exact h
    · obtain ⟨p, hp, _⟩ := g58.1 h
      cases hp
  have hy70 : y = 0 := hrel (.inl rfl)
  intro i z hz
  have hil : i < 71 := by
    have := (List.getElem?_eq_some_iff.1 hz).1
    omega
  by_cases a1 : i < 53
  · rw [hbits i z hz a1]
    have hiff : ((i : Int) = x.pitchClass ∨ (i : Int) = (35 : Nat) + x.octave ∨
        (i : Int) = (35 : Nat) + 10 + x.onsetLevel ∨ (i : Int) = (35 : Nat) + 14 + x.offsetLevel) ↔
        ((i : Int) = n.pitchClass ∨ (i : Int) = 35 + n.octave ∨ i = 45 + n.onsetLevel ∨ i = 49 + n.offsetLevel ∨
        (i : Int) = 59 + n.octave) := by
      show ((i : Int) = n.pitchClass ∨ (i : Int) = (35 : Nat) + n.octave ∨
        (i : Int) = (35 : Nat) + 10 + (n.onsetLevel : Int) ∨ (i : Int) = (35 : Nat) + 14 + (n.offsetLevel : Int)) ↔ _
      omega
    by_cases hb : (i : Int) = n.pitchClass ∨ (i : Int) = 35 + n.octave ∨ i = 45 + n.onsetLevel ∨ i = 49 + n.offsetLevel ∨
        (i : Int) = 59 + n.octave
    · rw [if_pos (hiff.2 hb), if_pos hb]
    · rw [if_neg (fun h => hb (hiff.1 h)), if_neg hb, if_neg (by omega), if_neg (by omega), if_neg (by omega)]
  · by_cases a2 : i < 58
    · have := h5' (i - 53) (by omega)
      rw [show 53 + (i - 53) = i by omega, hz] at this
      rw [if_neg (by omega)]
      obtain h | h | h | h | h : i = 53 ∨ i = 54 ∨ i = 55 ∨ i = 56 ∨ i = 57 := by omega
      all_goals
        subst h
        injection this with this
    · by_cases a3 : i = 58
      · subst a3
        rw [e58] at hz
        injection hz with hz
        rw [if_neg (by omega), if_neg (by omega), if_neg (by omega), if_neg (by omega), ← hz, hy58]
      · by_cases a4 : i < 69
        · have := hoct (i - 59) (by omega)
          rw [show 35 + 24 + (i - 59) = i by omega, hz] at this
          injection this with this
          rw [this]
          by_cases e : (i : Int) = 59 + n.octave
          · rw [if_pos (by show ((i - 59 : Nat) : Int) = n.octave - 0; omega), if_pos (by omega)]
          · rw [if_neg (by show ¬ (((i - 59 : Nat) : Int) = n.octave - 0); omega), if_neg (by omega), if_neg (by omega),
              if_neg (by omega), if_neg (by omega)]
        · by_cases a5 : i = 69
          · subst a5
            rw [hh] at hz
            injection hz with hz
            rw [if_neg (by omega), if_neg (by omega), if_neg (by omega), if_pos rfl, ← hz]
          · have : i = 70 := by omega
            subst this
            rw [hy] at hz
            injection hz with hz
            rw [if_neg (by omega), if_neg (by omega), if_neg (by omega), if_neg (by omega), ← hz, hy70]

/-- The row of a note is counted as one. -/
theorem row_positive {n : NoteObj} (hn : Sane n) {before after : ℚ} (hb : 0 ≤ before) (ha : 0 ≤ after) {v : List ℚ}
    (h : NoteRow n before after v) : 0 < v.sum := by
  have h1 := hn.pitch
  have h2 := hn.octave
  have hnum : (0 : ℚ) ≤ (number n : ℚ) / 127 := by
    have := (number_bounds n).1
    have h0 : (0 : Int) ≤ number n := by omega
    have : (0 : ℚ) ≤ (number n : ℚ) := by exact_mod_cast h0
    positivity
  have hnn : ∀ y ∈ v, 0 ≤ y := by
    intro y hy
    obtain ⟨i, hi⟩ := List.getElem?_of_mem hy
    rw [h.entries i y hi]
    split_ifs
    · norm_num
    · exact hb
    · exact ha
    · exact hnum
    · exact le_refl _
  have hi : (35 + n.octave).toNat < v.length := by rw [h.length]; omega
  have hone : v[(35 + n.octave).toNat]? = some 1 := by
    have hg := List.getElem?_eq_getElem hi
    rw [hg, h.entries _ _ hg, if_pos (by omega)]
  have := List.single_le_sum hnn 1 (List.mem_of_getElem? hone)
  linarith

/-! ## Pieces -/

/-- A labelled piece: a score (C93) with notes and chords in the order of their onsets, whose last chord does not end
before a note begins, and in which no chord begins after all notes. `ps`: the positions of the notes; `pe`: the
position of the end. -/
structure Timed (x : ClassPiece) (c : List (Measure ℚ)) (last : Int × ℚ) (ps : List ℚ) (pe : ℚ) : Prop where
  score : Score x.measures c x.notes last ps pe
  notes : x.notes ≠ []
  ends : PieceEnd x.notes (some (x.chords.map Prod.fst)) last
  noteOrder : (x.notes.map (fun n => toLex n.onset)).Pairwise (· ≤ ·)
  chordOrder : (x.chords.map (fun c => toLex c.1.onset)).Pairwise (· ≤ ·)
  rising : ps.Pairwise (· ≤ ·)
  after : ∀ p ∈ ps, p ≤ pe
  begins : ∀ ch ∈ x.chords, ∃ n ∈ x.notes, toLex ch.1.onset ≤ toLex n.onset

/-- A chord begins after note `m`, and not after note `n`. -/
def BeginsBetween (x : ClassPiece) (m n : NoteObj) : Prop :=
  ∃ ch ∈ x.chords, toLex m.onset < toLex ch.1.onset ∧ toLex ch.1.onset ≤ toLex n.onset

/-- What is held of a piece. -/
structure Holds (x : ClassPiece) (ps : List ℚ) (pe : ℚ) (rows : List (List ℚ)) (ts : List Int) : Prop where
  rowsLength : rows.length = x.notes.length
  targetsLength : ts.length = x.notes.length
  rows : ∀ (j : Nat) n p, x.notes[j]? = some n → ps[j]? = some p → ∃ v bx ay, rows[j]? = some v ∧ Before ps j p bx ∧
    (ps ++ [pe])[j + 1]? = some (ay + p) ∧ NoteRow n bx ay v
  first : ts[0]? = some (-100)
  targets : ∀ (j : Nat) m n p q, x.notes[j]? = some m → x.notes[j + 1]? = some n → ps[j]? = some p →
    ps[j + 1]? = some q → (p = q → ts[j + 1]? = some (-100)) ∧
      (p ≠ q → (BeginsBetween x m n → ts[j + 1]? = some 1) ∧ (¬ BeginsBetween x m n → ts[j + 1]? = some 0))

theorem inputs_ok {x : ClassPiece} {c : List (Measure ℚ)} {last : Int × ℚ} {ps : List ℚ} {pe : ℚ}
    (h : Score x.measures c x.notes last ps pe) (hne : x.notes ≠ []) {cache : List ℚ}
    (hl : cache.length = x.notes.length)
    (hc : ∀ (i : Nat) a b, (ps ++ [pe])[i]? = some a → (ps ++ [pe])[i + 1]? = some b → cache[i]? = some (b - a)) :
    ∃ rows, ctmInputs x.notes cache = .ok rows ∧ rows.length = x.notes.length ∧
      ∀ (j : Nat) n p, x.notes[j]? = some n → ps[j]? = some p → ∃ v bx ay, rows[j]? = some v ∧ Before ps j p bx ∧
        (ps ++ [pe])[j + 1]? = some (ay + p) ∧ NoteRow n bx ay v := by
  have hpl : ps.length = x.notes.length := by
    have := List.Forall₂.length_eq h.onsets; rw [List.length_map] at this; exact this.symm
  set l := x.notes.zip ((none :: cache.map some).zip (cache.map some)) with hldef
  have hll : l.length = x.notes.length := by simp [hldef]; omega
  have hall : ∀ y ∈ l, ∃ v, plainNoteVector y.1 y.2.1 y.2.2 = .ok v ∧ v.length = 71 := by
    intro y hy
    have hm : y.1 ∈ x.notes := (List.of_mem_zip (show (y.1, y.2) ∈ _ from hy)).1
    obtain ⟨v, hv, hr⟩ := plain_right y.1 (h.sane _ hm) y.2.1 y.2.2
    exact ⟨v, hv, hr.length⟩
  obtain ⟨rows, e1, e2, e3⟩ := Vectors.mapM_all (fun y : NoteObj × Option ℚ × Option ℚ => plainNoteVector y.1 y.2.1 y.2.2)
    l (fun y hy => let ⟨v, hv, _⟩ := hall y hy; ⟨v, hv⟩)
  have hw : ∀ v ∈ rows, v.length = 71 := by
    intro v hv
    obtain ⟨i, hi⟩ := List.getElem?_of_mem hv
    have hil := (List.getElem?_eq_some_iff.1 hi).1
    obtain ⟨y, hy⟩ : ∃ y, l[i]? = some y := ⟨_, List.getElem?_eq_getElem (by omega)⟩
    obtain ⟨w, hw, hwl⟩ := hall y (List.mem_of_getElem? hy)
    have := e3 i y w hy hw
    rw [hi] at this
    injection this with this
    rw [this]; exact hwl
  have hrl : rows.length = x.notes.length := by omega
  refine ⟨rows, ?_, hrl, ?_⟩
  · have hs := stackRows_ok rows (by
      rintro rfl
      exact hne (List.length_eq_zero_iff.1 (by simpa using hrl.symm))) 71 hw
    simp only [ctmInputs, ← hldef, e1, hs, Bind.bind, Except.bind]
  · intro j n p hn hp
    have hj := (List.getElem?_eq_some_iff.1 hn).1
    have hpp : (ps ++ [pe])[j]? = some p := by rw [List.getElem?_append_left (by omega)]; exact hp
    obtain ⟨q, hq⟩ : ∃ q, (ps ++ [pe])[j + 1]? = some q := ⟨_, List.getElem?_eq_getElem (by simp; omega)⟩
    have hcj := hc j p q hpp hq
    obtain ⟨b, hb1, hb2⟩ : ∃ b, (none :: cache.map some)[j]? = some b ∧ Before ps j p (b.getD 0) := by
      cases j with
      | zero => exact ⟨none, rfl, .inl ⟨rfl, rfl⟩⟩
      | succ k =>
        obtain ⟨o, ho⟩ : ∃ o, ps[k]? = some o := ⟨_, List.getElem?_eq_getElem (by omega)⟩
        have := hc k o p (by rw [List.getElem?_append_left (by omega)]; exact ho) hpp
        refine ⟨some (p - o), by rw [List.getElem?_cons_succ, List.getElem?_map, this]; rfl,
          .inr ⟨o, by omega, by simpa using ho, rfl⟩⟩
    have hlj : l[j]? = some (n, b, some (q - p)) := by
      rw [hldef, List.getElem?_zip_eq_some]
      refine ⟨hn, ?_⟩
      rw [List.getElem?_zip_eq_some]
      exact ⟨hb1, by rw [List.getElem?_map, hcj]; rfl⟩
    obtain ⟨v, hv, hr⟩ := plain_right n (h.sane _ (List.mem_of_getElem? hn)) b (some (q - p))
    exact ⟨v, b.getD 0, q - p, e3 j _ v hlj hv, hb2, by rw [hq, sub_add_cancel], hr⟩

theorem piece_ok {x : ClassPiece} {c : List (Measure ℚ)} {last : Int × ℚ} {ps : List ℚ} {pe : ℚ}
    (h : Timed x c last ps pe) : ∃ rows ts, ctmPiece x = .ok (rows, ts) ∧ Holds x ps pe rows ts := by
  have hlast := last_end x.notes _ last h.ends
  rw [Option.map_some, List.map_map] at hlast
  have hone : x.notes.map NoteObj.onset ≠ [] := by simpa using h.notes
  set ons := x.notes.map (fun n => toLex n.onset) with hons
  have hchg := Piece.C36_change ons (x.chords.map (fun c => toLex c.1.onset)) h.noteOrder h.chordOrder
  have hol : ons.length = x.notes.length := by simp [hons]
  have hnp : 0 < x.notes.length := List.length_pos_iff.2 h.notes
  set chg := chordChanges ons 0 (x.chords.map (fun c => toLex c.1.onset)) with hchgd
  obtain ⟨cache, t, d1, d2, d3, d4, d5⟩ := ModelEval.C112_positions h.score.chain (x.notes.map NoteObj.onset) last ps pe
    h.score.onsets h.score.last hone (chg.map fun (j : Nat) => (j : Int)) (by
      intro y hy
      obtain ⟨j, hj, rfl⟩ := List.mem_map.1 hy
      rw [hchg] at hj
      obtain ⟨z, _, rfl⟩ := List.mem_map.1 hj
      have : (x.notes.map NoteObj.onset).length = x.notes.length := List.length_map _
      omega)
  obtain ⟨cache', f1, f2, f3, _⟩ := Piece.C35_cache h.score.chain (x.notes.map NoteObj.onset) last ps pe
    h.score.onsets h.score.last
  have : cache' = cache := by rw [d1] at f1; injection f1 with f1; exact f1.symm
  subst this
  rw [List.length_map] at d2 d3 f2
  obtain ⟨rows, g1, g2, g3⟩ := inputs_ok h.score h.notes f2 f3
  refine ⟨rows, t, ?_, g2, d3, g3, d4, ?_⟩
  · simp only [ctmPiece, Bind.bind]
    rw [show (x.chords.map fun c => toLex c.1.offset) = x.chords.map ((fun c : ChordSpan => toLex c.offset) ∘ Prod.fst)
      from rfl, hlast]
    simp only [Except.bind, ofLex_toLex, d1, g1]
    rw [g2, ← hons, ← hchgd, d2]
  · intro j m n p q hm hn hp hq
    have hmem : (((j + 1 : Nat) : Int) ∈ chg.map fun (j : Nat) => (j : Int)) ↔ BeginsBetween x m n := by
      have hm' : ons[j]? = some (toLex m.onset) := by rw [hons, List.getElem?_map, hm]; rfl
      have hn' : ons[j + 1]? = some (toLex n.onset) := by rw [hons, List.getElem?_map, hn]; rfl
      have hjn := (List.getElem?_eq_some_iff.1 hn).1
      have key : ∀ ch ∈ x.chords, min (Piece.before ons (toLex ch.1.onset)) (ons.length - 1) = j + 1 ↔
          (toLex m.onset < toLex ch.1.onset ∧ toLex ch.1.onset ≤ toLex n.onset) := by
        intro ch hch
        have b1 := Piece.before_iff ons h.noteOrder (toLex ch.1.onset) _ j hm'
        have b2 := Piece.before_iff ons h.noteOrder (toLex ch.1.onset) _ (j + 1) hn'
        obtain ⟨z, hz, hle⟩ := h.begins ch hch
        obtain ⟨k, hk⟩ := List.getElem?_of_mem hz
        have hk' : ons[k]? = some (toLex z.onset) := by rw [hons, List.getElem?_map, hk]; rfl
        have hkl := (List.getElem?_eq_some_iff.1 hk).1
        have b3 := Piece.before_iff ons h.noteOrder (toLex ch.1.onset) _ k hk'
        have b4 : ¬ k < Piece.before ons (toLex ch.1.onset) := fun hlt => absurd (b3.2 hlt) (not_lt.2 hle)
        rw [← not_lt, b1, b2]
        omega
      constructor
      · intro hx
        obtain ⟨i, hi, e⟩ := List.mem_map.1 hx
        have e : i = j + 1 := by exact_mod_cast e
        rw [hchg] at hi
        obtain ⟨y, hy, e'⟩ := List.mem_map.1 hi
        obtain ⟨ch, hch, rfl⟩ := List.mem_map.1 hy
        exact ⟨ch, hch, (key ch hch).1 (by rw [e', e])⟩
      · rintro ⟨ch, hch, hk⟩
        refine List.mem_map.2 ⟨j + 1, ?_, rfl⟩
        rw [hchg]
        exact List.mem_map.2 ⟨_, List.mem_map.2 ⟨ch, hch, rfl⟩, (key ch hch).2 hk⟩
    have := d5 j p q hp hq
    refine ⟨fun e => by rw [this, if_pos e], fun e => ⟨fun hb => ?_, fun hb => ?_⟩⟩
    · rw [this, if_neg e, if_pos (hmem.2 hb)]
    · rw [this, if_neg e, if_neg (fun hx => hb (hmem.1 hx))]

/-! ## Batches -/

/-- What the model gets of piece `x`, for a batch whose longest piece has `L` notes. -/
structure Trained (x : ClassPiece) (ps : List ℚ) (pe : ℚ) (L : Nat) (r : CtmRow) : Prop where
  length : r.length = x.notes.length
  inputsLength : r.inputs.length = L
  targetsLength : r.targets.length = L
  maskLength : r.mask.length = L
  /-- a row for each note, with the distances to its neighbours -/
  rows : ∀ (j : Nat) n p, x.notes[j]? = some n → ps[j]? = some p → ∃ v bx ay, r.inputs[j]? = some v ∧
    Before ps j p bx ∧ (ps ++ [pe])[j + 1]? = some (ay + p) ∧ NoteRow n bx ay v
  /-- followed by zeros, which are not measured -/
  padding : ∀ j : Nat, x.notes.length ≤ j → j < L → r.inputs[j]? = some (zeros 71) ∧ r.mask[j]? = some false
  /-- the first note is not measured -/
  first : r.mask[0]? = some false
  /-- a note is measured if it does not begin together with the note before it -/
  measured : ∀ (j : Nat) p q, ps[j]? = some p → ps[j + 1]? = some q → r.mask[j + 1]? = some (decide (p ≠ q))
  /-- its target is whether a chord begins after the note before it, and not after it -/
  targets : ∀ (j : Nat) m n, x.notes[j]? = some m → x.notes[j + 1]? = some n → r.mask[j + 1]? = some true →
    (BeginsBetween x m n → r.targets[j + 1]? = some 1) ∧ (¬ BeginsBetween x m n → r.targets[j + 1]? = some 0)

/-- `L` is the number of notes of the longest of the pieces with numbers `is`. -/
def Longest (pieces : List ClassPiece) (is : List Nat) (L : Nat) : Prop :=
  (∀ p ∈ is, ∀ x, pieces[p]? = some x → x.notes.length ≤ L) ∧
  ∃ p ∈ is, ∃ x, pieces[p]? = some x ∧ x.notes.length = L

theorem ctmMask_getElem? (rows : List (List ℚ)) (ts : List Int) (j : Nat) (v : List ℚ) (t : Int)
    (hv : rows[j]? = some v) (ht : ts[j]? = some t) :
    (ctmMask rows ts)[j]? = some (decide (0 < v.sum) && t != -100) := by
  rw [ctmMask, List.getElem?_zipWith, hv, ht]

theorem trained_of_holds {x : ClassPiece} {c : List (Measure ℚ)} {last : Int × ℚ} {ps : List ℚ} {pe : ℚ}
    (h : Timed x c last ps pe) {rows : List (List ℚ)} {ts : List Int} (hh : Holds x ps pe rows ts) {M L : Nat}
    (hL : x.notes.length ≤ L) (hM : L ≤ M) :
    Trained x ps pe L ⟨(padTo (zeros 71) M rows).take L, rows.length, (padTo 0 M ts).take L,
      ctmMask ((padTo (zeros 71) M rows).take L) ((padTo 0 M ts).take L)⟩ := by
  have hrl := hh.rowsLength
  have htl := hh.targetsLength
  have hpl : ps.length = x.notes.length := by
    have := List.Forall₂.length_eq h.score.onsets; rw [List.length_map] at this; exact this.symm
  have hnp : 0 < x.notes.length := List.length_pos_iff.2 h.notes
  have hi : ∀ (j : Nat) v, rows[j]? = some v → ((padTo (zeros 71) M rows).take L)[j]? = some v := by
    intro j v hv
    have hj := (List.getElem?_eq_some_iff.1 hv).1
    rw [List.getElem?_take_of_lt (by omega), padTo_getElem?, if_pos hj, hv]
  have ht : ∀ (j : Nat) t, ts[j]? = some t → ((padTo 0 M ts).take L)[j]? = some t := by
    intro j v hv
    have hj := (List.getElem?_eq_some_iff.1 hv).1
    rw [List.getElem?_take_of_lt (by omega), padTo_getElem?, if_pos hj, hv]
  have hil : ((padTo (zeros 71) M rows).take L).length = L := by
    rw [List.length_take, padTo_length _ _ _ (by omega)]; omega
  have htl' : ((padTo 0 M ts).take L).length = L := by
    rw [List.length_take, padTo_length _ _ _ (by omega)]; omega
  -- the rows of notes are counted
  have hpos : ∀ (j : Nat), j < x.notes.length → ∃ v, rows[j]? = some v ∧ 0 < v.sum := by
    intro j hj
    obtain ⟨n, hn⟩ : ∃ n, x.notes[j]? = some n := ⟨_, List.getElem?_eq_getElem hj⟩
    obtain ⟨p, hp⟩ : ∃ p, ps[j]? = some p := ⟨_, List.getElem?_eq_getElem (by omega)⟩
    obtain ⟨v, bx, ay, a1, a2, a3, a4⟩ := hh.rows j n p hn hp
    refine ⟨v, a1, row_positive (h.score.sane _ (List.mem_of_getElem? hn)) ?_ ?_ a4⟩
    · rcases a2 with ⟨_, e⟩ | ⟨q, h0, hq, e⟩
      · rw [e]
      · have := List.pairwise_iff_getElem.1 h.rising (j - 1) j (by omega) (by omega) (by omega)
        rw [(List.getElem?_eq_some_iff.1 hq).2, (List.getElem?_eq_some_iff.1 hp).2] at this
        linarith
    · have hle : p ≤ ay + p := by
        by_cases hj' : j + 1 < ps.length
        · rw [List.getElem?_append_left hj'] at a3
          have := List.pairwise_iff_getElem.1 h.rising j (j + 1) (by omega) hj' (by omega)
          rw [(List.getElem?_eq_some_iff.1 a3).2, (List.getElem?_eq_some_iff.1 hp).2] at this
          exact this
        · rw [show j + 1 = ps.length by omega, List.getElem?_concat_length] at a3
          injection a3 with a3
          rw [← a3]
          exact h.after p (List.mem_of_getElem? hp)
      linarith
  have hmask : ∀ (j : Nat) t, ts[j]? = some t →
      (ctmMask ((padTo (zeros 71) M rows).take L) ((padTo 0 M ts).take L))[j]? = some (t != -100) := by
    intro j t htj
    have hj := (List.getElem?_eq_some_iff.1 htj).1
    obtain ⟨v, hv, hp⟩ := hpos j (by omega)
    rw [ctmMask_getElem? _ _ j v t (hi j v hv) (ht j t htj), decide_eq_true hp, Bool.true_and]
  refine ⟨hrl, hil, htl', ?_, ?_, ?_, ?_, ?_, ?_⟩
  · rw [ctmMask, List.length_zipWith, hil, htl']; omega
  · intro j n p hn hp
    obtain ⟨v, bx, ay, a1, a2⟩ := hh.rows j n p hn hp
    exact ⟨v, bx, ay, hi j v a1, a2⟩
  · intro j hj hjL
    have h1 : ((padTo (zeros 71) M rows).take L)[j]? = some (zeros 71) := by
      rw [List.getElem?_take_of_lt hjL, padTo_getElem?, if_neg (by omega), if_pos (by omega)]
    have h2 : ((padTo 0 M ts).take L)[j]? = some 0 := by
      rw [List.getElem?_take_of_lt hjL, padTo_getElem?, if_neg (by omega), if_pos (by omega)]
    refine ⟨h1, ?_⟩
    show (ctmMask _ _)[j]? = _
    rw [ctmMask_getElem? _ _ j _ _ h1 h2]
    simp [zeros]
  · show (ctmMask _ _)[0]? = _
    rw [hmask 0 _ hh.first]; rfl
  · intro j p q hp hq
    show (ctmMask _ _)[j + 1]? = _
    have hj := (List.getElem?_eq_some_iff.1 hq).1
    obtain ⟨m, hm⟩ : ∃ m, x.notes[j]? = some m := ⟨_, List.getElem?_eq_getElem (by omega)⟩
    obtain ⟨n, hn⟩ : ∃ n, x.notes[j + 1]? = some n := ⟨_, List.getElem?_eq_getElem (by omega)⟩
    obtain ⟨t1, t2⟩ := hh.targets j m n p q hm hn hp hq
    by_cases e : p = q
    · rw [hmask _ _ (t1 e)]; simp [e]
    · by_cases hb : BeginsBetween x m n
      · rw [hmask _ _ ((t2 e).1 hb)]; simp [e]
      · rw [hmask _ _ ((t2 e).2 hb)]; simp [e]
  · intro j m n hm hn htrue
    have hj := (List.getElem?_eq_some_iff.1 hn).1
    obtain ⟨p, hp⟩ : ∃ p, ps[j]? = some p := ⟨_, List.getElem?_eq_getElem (by omega)⟩
    obtain ⟨q, hq⟩ : ∃ q, ps[j + 1]? = some q := ⟨_, List.getElem?_eq_getElem (by omega)⟩
    obtain ⟨t1, t2⟩ := hh.targets j m n p q hm hn hp hq
    have htrue : (ctmMask ((padTo (zeros 71) M rows).take L) ((padTo 0 M ts).take L))[j + 1]? = some true := htrue
    have e : p ≠ q := by
      intro e
      rw [hmask _ _ (t1 e)] at htrue
      simp at htrue
    exact ⟨fun hb => ht _ _ ((t2 e).1 hb), fun hb => ht _ _ ((t2 e).2 hb)⟩

/-- The pieces, with what is held of them. -/
theorem data_ok (pieces : List ClassPiece) (hp : ∀ x ∈ pieces, ∃ c last ps pe, Timed x c last ps pe) :
    ∃ d, ctmData pieces = .ok d ∧ d.inputs.length = pieces.length ∧ d.targets.length = pieces.length ∧
      d.inputLengths = d.inputs.map List.length ∧ d.targetLengths = d.targets.map List.length ∧
      d.inputs.map List.length = pieces.map (·.notes.length) ∧ d.targets.map List.length = pieces.map (·.notes.length) ∧
      (∀ rows ∈ d.inputs, ∀ v ∈ rows, v.length = 71) ∧
      ∀ (p : Nat) x, pieces[p]? = some x → ∃ rows ts, d.inputs[p]? = some rows ∧ d.targets[p]? = some ts ∧
        ∀ c last ps pe, Timed x c last ps pe → Holds x ps pe rows ts := by
  obtain ⟨l, h1, h2, h3⟩ := Vectors.mapM_all ctmPiece pieces (fun x hx => by
    obtain ⟨c, last, ps, pe, h⟩ := hp x hx
    obtain ⟨rows, ts, e, _⟩ := piece_ok h
    exact ⟨_, e⟩)
  have hone : ∀ (p : Nat) x, pieces[p]? = some x → ∃ y, l[p]? = some y ∧
      ∀ c last ps pe, Timed x c last ps pe → Holds x ps pe y.1 y.2 := by
    intro p x hx
    obtain ⟨c, last, ps, pe, h⟩ := hp x (List.mem_of_getElem? hx)
    obtain ⟨rows, ts, e, _⟩ := piece_ok h
    refine ⟨(rows, ts), h3 p x _ hx e, ?_⟩
    intro c last ps pe h'
    obtain ⟨rows', ts', e', hh'⟩ := piece_ok h'
    rw [e] at e'
    injection e' with e'
    injection e' with ea eb
    rw [ea, eb]
    exact hh'
  have hlen : ∀ f : List (List ℚ) × List Int → Nat, (∀ (p : Nat) x y, pieces[p]? = some x → l[p]? = some y → f y = x.notes.length) →
      l.map f = pieces.map (·.notes.length) := by
    intro f hf
    apply List.ext_getElem?
    intro p
    rw [List.getElem?_map, List.getElem?_map]
    cases hx : pieces[p]? with
    | none => rw [List.getElem?_eq_none (by rw [h2]; exact List.getElem?_eq_none_iff.1 hx)]; rfl
    | some x =>
      obtain ⟨y, hy, _⟩ := hone p x hx
      rw [hy, Option.map_some, Option.map_some, hf p x y hx hy]
  have hholds : ∀ (p : Nat) x y, pieces[p]? = some x → l[p]? = some y → ∃ ps pe, (∃ c last, Timed x c last ps pe) ∧ Holds x ps pe y.1 y.2 := by
    intro p x y hx hy
    obtain ⟨y', hy', hh⟩ := hone p x hx
    rw [hy] at hy'
    injection hy' with hy'
    subst hy'
    obtain ⟨c, last, ps, pe, h⟩ := hp x (List.mem_of_getElem? hx)
    exact ⟨ps, pe, ⟨c, last, h⟩, hh c last ps pe h⟩
  refine ⟨_, by simp only [ctmData, h1, Bind.bind, Except.bind]; rfl, by simp [h2], by simp [h2], by simp, by simp, ?_, ?_, ?_, ?_⟩
  · rw [List.map_map]
    exact hlen _ fun p x y hx hy => let ⟨_, _, _, hh⟩ := hholds p x y hx hy; hh.rowsLength
  · rw [List.map_map]
    exact hlen _ fun p x y hx hy => let ⟨_, _, _, hh⟩ := hholds p x y hx hy; hh.targetsLength
  · intro rows hrows v hv
    obtain ⟨y, hy, rfl⟩ := List.mem_map.1 hrows
    obtain ⟨p, hp'⟩ := List.getElem?_of_mem hy
    have hpl := (List.getElem?_eq_some_iff.1 hp').1
    obtain ⟨ps, pe, ⟨c, last, hT⟩, hh⟩ := hholds p _ y (List.getElem?_eq_getElem (by omega)) hp'
    obtain ⟨j, hj⟩ := List.getElem?_of_mem hv
    have hjl := (List.getElem?_eq_some_iff.1 hj).1
    have hpl' : ps.length = (pieces[p]'(by omega)).notes.length := by
      have := List.Forall₂.length_eq hT.score.onsets; rw [List.length_map] at this; exact this.symm
    rw [hh.rowsLength] at hjl
    obtain ⟨w, _, _, a1, _, _, a4⟩ := hh.rows j _ _ (List.getElem?_eq_getElem hjl) (List.getElem?_eq_getElem (by omega))
    rw [hj] at a1
    injection a1 with a1
    rw [a1]; exact a4.length
  · intro p x hx
    obtain ⟨y, hy, hh⟩ := hone p x hx
    exact ⟨y.1, y.2, by rw [List.getElem?_map, hy]; rfl, by rw [List.getElem?_map, hy]; rfl, hh⟩

/-- C148: a batch of the transition model has a row for each chosen piece: a vector for each note with the distances
to its neighbours, followed by zeros. Measured are the notes which do not begin together with the note before. The
target of a measured note is 1 if a chord begins after the note before it and not after it, and else 0. Missing: pieces
in which a chord begins after all notes (`C148_last_fails`) or a note begins after the end of the last chord
(`C148_end_fails`). -/
theorem C148_batch_partial (pieces : List ClassPiece) (hp : ∀ x ∈ pieces, ∃ c last ps pe, Timed x c last ps pe)
    (is : List Nat) (hne : is ≠ []) (his : ∀ i ∈ is, i < pieces.length) :
    ∃ d batch L, ctmData pieces = .ok d ∧ d.batch is = .ok batch ∧ batch.length = is.length ∧ Longest pieces is L ∧
      ∀ (k i : Nat) x, is[k]? = some i → pieces[i]? = some x → ∃ r, batch[k]? = some r ∧
        ∀ c last ps pe, Timed x c last ps pe → Trained x ps pe L r := by
  obtain ⟨d, hd, e1, e2, e3, e4, e5, e6, e7, e8⟩ := data_ok pieces hp
  set M := maxLength (pieces.map (·.notes.length)) with hM
  have hitem : ∀ (i : Nat) x, pieces[i]? = some x → ∃ rows ts, d.inputs[i]? = some rows ∧ d.targets[i]? = some ts ∧
      rows.length = x.notes.length ∧ ts.length = x.notes.length ∧
      (∀ c last ps pe, Timed x c last ps pe → Holds x ps pe rows ts) ∧
      d.item i = .ok ⟨padTo (zeros 71) M rows, rows.length, padTo 0 M ts, ts.length⟩ := by
    intro i x hx
    obtain ⟨rows, ts, a1, a2, a3⟩ := e8 i x hx
    obtain ⟨c, last, ps, pe, hT⟩ := hp x (List.mem_of_getElem? hx)
    have hh := a3 c last ps pe hT
    have hr : rows ≠ [] := by
      rintro rfl
      exact hT.notes (List.length_eq_zero_iff.1 (by simpa using hh.rowsLength.symm))
    refine ⟨rows, ts, a1, a2, hh.rowsLength, hh.targetsLength, a3, ?_⟩
    have hil : d.inputLengths[i]? = some rows.length := by rw [e3, List.getElem?_map, a1]; rfl
    have htl : d.targetLengths[i]? = some ts.length := by rw [e4, List.getElem?_map, a2]; rfl
    obtain ⟨v, vs, rfl⟩ := List.exists_cons_of_ne_nil hr
    have h0 : pyGet (v :: vs) 0 = .ok v := rfl
    simp only [CtmData.item, Bind.bind, Except.bind, pyGet_ofNat _ _ _ a1, h0, paddedItem, pyGet_ofNat _ _ _ hil,
      pyGet_ofNat _ _ _ a2, pyGet_ofNat _ _ _ htl]
    rw [e7 _ (List.mem_of_getElem? a1) v List.mem_cons_self, e3, e4, e5, e6]
  obtain ⟨items, m1, m2, m3⟩ := Vectors.mapM_all (fun i : Nat => d.item i) is (fun i hi => by
    obtain ⟨rows, ts, _, _, _, _, _, h⟩ := hitem i _ (List.getElem?_eq_getElem (his i hi))
    exact ⟨_, h⟩)
  have hnum : ∀ f : CtmItem → Nat,
      (∀ i x it, pieces[i]? = some x → d.item (i : Nat) = .ok it → f it = x.notes.length) →
      items.map f = is.map (fun i => (pieces[i]?.map (·.notes.length)).getD 0) := by
    intro f hf
    apply List.ext_getElem?
    intro k
    rw [List.getElem?_map, List.getElem?_map]
    cases hi : is[k]? with
    | none => rw [List.getElem?_eq_none (by rw [m2]; exact List.getElem?_eq_none_iff.1 hi)]; rfl
    | some i =>
      have hlt := his i (List.mem_of_getElem? hi)
      have hx := List.getElem?_eq_getElem hlt
      obtain ⟨rows, ts, _, _, _, _, _, h⟩ := hitem i _ hx
      rw [m3 k i _ hi h, Option.map_some, Option.map_some, hf i _ _ hx h, hx]
      rfl
  have hn1 := hnum (·.inputLength) (fun i x it hx hit => by
    obtain ⟨rows, ts, _, _, h1, _, _, h⟩ := hitem i x hx
    rw [hit] at h; injection h with h; rw [h]; exact h1)
  have hn2 := hnum (·.targetLength) (fun i x it hx hit => by
    obtain ⟨rows, ts, _, _, _, h1, _, h⟩ := hitem i x hx
    rw [hit] at h; injection h with h; rw [h]; exact h1)
  set L := maxLength (is.map (fun i => (pieces[i]?.map (·.notes.length)).getD 0)) with hL
  have hLge : ∀ i ∈ is, ∀ x, pieces[i]? = some x → x.notes.length ≤ L := by
    intro i hi x hx
    exact le_maxLength (List.mem_map.2 ⟨i, hi, by rw [hx]; rfl⟩)
  have hLmem : ∃ i ∈ is, ∃ x, pieces[i]? = some x ∧ x.notes.length = L := by
    obtain ⟨i, hi, e⟩ := List.mem_map.1 (maxLength_mem (l := is.map (fun i => (pieces[i]?.map (·.notes.length)).getD 0))
      (by simpa using hne))
    have hx := List.getElem?_eq_getElem (his i hi)
    rw [hx] at e
    exact ⟨i, hi, _, hx, e⟩
  have hLM : L ≤ M := by
    obtain ⟨i, hi, x, hx, e⟩ := hLmem
    rw [← e]
    exact le_maxLength (List.mem_map.2 ⟨x, List.mem_of_getElem? hx, rfl⟩)
  have hsame : sameWidth (items.flatMap (·.inputs)) = true := by
    apply ChordTraining.sameWidth_of (w := 71)
    intro v hv
    obtain ⟨it, hit, hvi⟩ := List.mem_flatMap.1 hv
    obtain ⟨k, hk⟩ := List.getElem?_of_mem hit
    have hkl := (List.getElem?_eq_some_iff.1 hk).1
    have hik : is[k]? = some (is[k]'(by omega)) := List.getElem?_eq_getElem _
    have hx := List.getElem?_eq_getElem (his _ (List.mem_of_getElem? hik))
    obtain ⟨rows, ts, a1, _, _, _, _, h⟩ := hitem _ _ hx
    have := m3 k _ _ hik h
    rw [hk] at this
    injection this with this
    rw [this] at hvi
    have hvi : v ∈ padTo (zeros 71) M rows := hvi
    rw [padTo, List.mem_append] at hvi
    rcases hvi with hvi | hvi
    · exact e7 _ (List.mem_of_getElem? a1) v hvi
    · rw [List.eq_of_mem_replicate hvi, zeros_length]
  have hemp : items.isEmpty = false := by
    cases items with
    | nil => exact absurd (List.length_eq_zero_iff.1 (by simpa using m2.symm)) hne
    | cons a l => rfl
  refine ⟨d, items.map fun it => ⟨it.inputs.take L, it.inputLength, it.targets.take L,
    ctmMask (it.inputs.take L) (it.targets.take L)⟩, L, hd, ?_, ?_, ⟨hLge, hLmem⟩, ?_⟩
  · simp only [CtmData.batch, m1, Bind.bind, Except.bind, ctmBatch, hn1, hn2, hemp, hsame, ← hL]
    rfl
  · rw [List.length_map, m2]
  · intro k i x hk hx
    obtain ⟨rows, ts, _, _, b1, b2, b3, h⟩ := hitem i x hx
    refine ⟨_, by rw [List.getElem?_map, m3 k i _ hk h]; rfl, ?_⟩
    intro c last ps pe hT
    exact trained_of_holds hT (b3 c last ps pe hT) (hLge i (List.mem_of_getElem? hk) x hx) hLM

/-- C148: through an h5 file, the dataset is the same. -/
theorem C148_h5 (pieces : List ClassPiece) (hne : pieces ≠ [])
    (hp : ∀ x ∈ pieces, ∃ c last ps pe, Timed x c last ps pe) (size : Nat) (hs : 0 < size) :
    ∃ d, ctmData pieces = .ok d ∧ d.throughH5 size = .ok d := by
  obtain ⟨d, hd, e1, e2, e3, e4, -, -, -, -⟩ := data_ok pieces hp
  refine ⟨d, hd, ?_⟩
  have hpos : 0 < pieces.length := List.length_pos_iff.2 hne
  have hi : d.inputs ≠ [] := List.length_pos_iff.1 (by omega)
  have ht : d.targets ≠ [] := List.length_pos_iff.1 (by omega)
  have h1 := C66_round_trip_partial (zeros ((d.inputs.flatten.head?.map List.length).getD 0)) d.inputs size hs hi
  have h2 := C66_round_trip_partial 0 d.targets size hs ht
  have hi' : d.inputs.map List.length ≠ [] := by simpa using hi
  have ht' : d.targets.map List.length ≠ [] := by simpa using ht
  simp only [h5RoundTrip, padArray, Bind.bind, if_neg hi', if_neg ht', Except.bind, Option.getD_none] at h1 h2
  injection h1 with h1
  injection h2 with h2
  simp only [CtmData.throughH5, padArray, Bind.bind, if_neg hi', if_neg ht', Except.bind, h1, h2]
  rw [← e3, ← e4]

/-- C148: every chord which begins after the first note is at a measured note with the target 1: the first note which
does not begin before it (if notes with different onsets are at different positions). -/
theorem C148_changes {x : ClassPiece} {c : List (Measure ℚ)} {last : Int × ℚ} {ps : List ℚ} {pe : ℚ}
    (h : Timed x c last ps pe)
    (hd : ∀ (i j : Nat) m n p q, x.notes[i]? = some m → x.notes[j]? = some n → ps[i]? = some p → ps[j]? = some q →
      m.onset ≠ n.onset → p ≠ q) {L : Nat} {r : CtmRow} (hr : Trained x ps pe L r)
    (ch : ChordSpan × Chord ℚ) (hch : ch ∈ x.chords) (first : NoteObj) (hf : x.notes[0]? = some first)
    (hlt : toLex first.onset < toLex ch.1.onset) :
    ∃ (j : Nat) (n : NoteObj), x.notes[j]? = some n ∧ toLex ch.1.onset ≤ toLex n.onset ∧
      (∀ (i : Nat) m, i < j → x.notes[i]? = some m → toLex m.onset < toLex ch.1.onset) ∧
      r.mask[j]? = some true ∧ r.targets[j]? = some 1 := by
  have hpl : ps.length = x.notes.length := by
    have := List.Forall₂.length_eq h.score.onsets; rw [List.length_map] at this; exact this.symm
  have hex : ∃ j : Nat, ∃ n, x.notes[j]? = some n ∧ toLex ch.1.onset ≤ toLex n.onset := by
    obtain ⟨n, hn, hle⟩ := h.begins ch hch
    obtain ⟨j, hj⟩ := List.getElem?_of_mem hn
    exact ⟨j, n, hj, hle⟩
  classical
  obtain ⟨n, hn, hle⟩ := Nat.find_spec hex
  have hmin : ∀ (i : Nat) m, i < Nat.find hex → x.notes[i]? = some m → toLex m.onset < toLex ch.1.onset := by
    intro i m hi hm
    by_contra hno
    exact Nat.find_min hex hi ⟨m, hm, not_lt.1 hno⟩
  generalize Nat.find hex = j at hn hmin
  cases j with
  | zero =>
    rw [hf] at hn
    injection hn with hn
    rw [hn] at hlt
    exact absurd hlt (not_lt.2 hle)
  | succ k =>
    have hk := (List.getElem?_eq_some_iff.1 hn).1
    obtain ⟨m, hm⟩ : ∃ m, x.notes[k]? = some m := ⟨_, List.getElem?_eq_getElem (by omega)⟩
    obtain ⟨p, hp⟩ : ∃ p, ps[k]? = some p := ⟨_, List.getElem?_eq_getElem (by omega)⟩
    obtain ⟨q, hq⟩ : ∃ q, ps[k + 1]? = some q := ⟨_, List.getElem?_eq_getElem (by omega)⟩
    have hml := hmin k m (by omega) hm
    have hne : p ≠ q := hd k (k + 1) m n p q hm hn hp hq fun e => by
      rw [e] at hml
      exact absurd hml (not_lt.2 hle)
    have hmask : r.mask[k + 1]? = some true := by rw [hr.measured k p q hp hq, decide_eq_true hne]
    exact ⟨k + 1, n, hn, hle, hmin, hmask, (hr.targets k m n hm hn hmask).1 ⟨ch, hch, hml, hle⟩⟩

/-! ## Examples -/

open Verif.ClassTraining

theorem ex_timed : Timed exPiece exT (2, 1) [0, 1/2, 1] 2 where
  score := ex_score
  notes := by decide
  ends := ⟨_, rfl, rfl⟩
  noteOrder := by decide +kernel
  chordOrder := by decide +kernel
  rising := by decide +kernel
  after := by decide +kernel
  begins := by decide +kernel

/-- The second chord begins between the second and the third note: targets 0 and 1. The piece with two notes is padded. -/
def exShort : ClassPiece := { exPiece with notes := exNotes.drop 1 }

example : ((ctmData [exShort, exPiece]).bind fun d => (d.batch [1, 0]).map fun l => l.map fun r =>
      (r.length, r.targets, r.mask)) =
    .ok [(3, [-100, 0, 1], [false, true, true]), (2, [-100, 1, 0], [false, true, false])] := by
  decide +kernel

/-- The distances to the notes before and after. -/
example : ((ctmData [exShort, exPiece]).bind fun d => (d.batch [1, 0]).map fun l => l.map fun r =>
      r.inputs.map fun v => (v.drop 56).take 2) =
    .ok [[[0, 1/2], [1/2, 1/2], [1/2, 1]], [[0, 1/2], [1/2, 1], [0, 0]]] := by
  decide +kernel

/-- A batch of the short piece alone is not padded. -/
example : ((ctmData [exShort, exPiece]).bind fun d => (d.batch [0]).map fun l => l.map fun r =>
      (r.length, r.targets, r.mask)) = .ok [(2, [-100, 1], [false, true])] := by
  decide +kernel

/-- Notes of a chord: only the first one is measured. -/
example : (ctmData [{ exPiece with notes := exNotes ++ exNotes.drop 2 ++ exNotes.drop 2 }]).bind (fun d => (d.batch [0]).map fun l =>
      l.map fun r => (r.targets, r.mask)) =
    .ok [([-100, 0, 1, -100, -100], [false, true, true, false, false])] := by
  decide +kernel

/-- The notes of the example, with a chord which begins after all of them. -/
def lateChord : ClassPiece :=
  ⟨exNotes, exT, [(⟨(1, 0), (2, 1/2), 3/2⟩, ⟨15, 15, 15, .major, .major, 0, 3, 2, 3/2, .tpc⟩),
    (⟨(2, 1/2), (2, 1), 1/2⟩, ⟨16, 20, 15, .major, .majMin7, 1, 2, 3, 1/2, .tpc⟩)]⟩

/-- C148 does not hold if a chord begins after all notes: it is said to begin at the last note, at which no chord
begins. -/
theorem C148_last_fails : Score lateChord.measures exT lateChord.notes (2, 1) [0, 1/2, 1] 2 ∧
    (∀ m n, lateChord.notes[1]? = some m → lateChord.notes[2]? = some n → ¬ BeginsBetween lateChord m n) ∧
    ((ctmData [lateChord]).bind fun d => (d.batch [0]).map fun l => l.map fun r => (r.targets, r.mask)) =
      .ok [([-100, 0, 1], [false, true, true])] := by
  refine ⟨ex_score, ?_, by decide +kernel⟩
  intro m n hm hn
  injection hm with hm
  injection hn with hn
  subst hm hn
  unfold BeginsBetween
  decide +kernel

/-- A measure of the length 1, and one of the length 20. -/
def longT : List (Measure ℚ) := [⟨1, 1, 0, some 2⟩, ⟨2, 20, 0, none⟩]

/-- A piece which is labelled up to the second measure only. -/
def earlyEnd : ClassPiece :=
  ⟨[⟨15, 5, (1, 0), 3, 1/2, (1, 1/2), 2, .tpc, 0⟩, ⟨19, 5, (2, 9), 2, 1, (2, 10), 2, .tpc, 1/2⟩,
    ⟨16, 4, (2, 10), 2, 1, (2, 11), 3, .tpc, 0⟩], longT,
    [(⟨(1, 0), (2, 0), 1⟩, ⟨15, 15, 15, .major, .major, 0, 3, 2, 1, .tpc⟩)]⟩

/-- C148 does not hold if the last note begins long after the end of the last chord: the distance to the end is less
than 0, and the note is taken for padding although it begins after the note before it. -/
theorem C148_end_fails : Score earlyEnd.measures longT earlyEnd.notes (2, 0) [0, 10, 11] 1 ∧
    PieceEnd earlyEnd.notes (some (earlyEnd.chords.map Prod.fst)) (2, 0) ∧
    ((ctmData [earlyEnd]).bind fun d => (d.batch [0]).map fun l => l.map fun r => (r.targets, r.mask)) =
      .ok [([-100, 0, 0], [false, true, false])] := by
  have p0 : ∀ b : ℚ, chainPos longT 0 b = b := fun b => by simp [chainPos, longT]
  have p1 : ∀ b : ℚ, chainPos longT 1 b = 1 + b := fun b => by simp [chainPos, longT]
  refine ⟨⟨⟨?_, ?_, by decide⟩, ?_, ?_, ⟨1, _, rfl, rfl, by rw [p1]; norm_num⟩⟩, ⟨_, rfl, rfl⟩, by decide +kernel⟩
  · intro m hm; simp [longT] at hm; rcases hm with rfl | rfl <;> rfl
  · intro k m m' h1 h2
    match k with
    | 0 => simp [longT] at h1 h2; subst h1; subst h2; rfl
    | k + 1 => simp [longT] at h2
  · intro n hn
    simp only [earlyEnd, List.mem_cons, List.not_mem_nil, or_false] at hn
    rcases hn with rfl | rfl | rfl <;> exact ⟨rfl, by decide, by decide, by decide, by decide⟩
  · refine .cons ⟨0, _, rfl, rfl, by rw [p0]⟩ (.cons ⟨1, _, rfl, rfl, by rw [p1]; norm_num⟩
      (.cons ⟨1, _, rfl, rfl, by rw [p1]; norm_num⟩ .nil))

end Verif.TransitionTraining
