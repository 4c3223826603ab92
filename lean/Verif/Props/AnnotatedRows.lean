import Verif.PieceCaches
import Verif.Props.SequenceTables
import Verif.Props.Hidden
import Verif.Props.JointInit

/-!
# C159: what the models see of the annotated analysis in the search, and what they are trained on
-/

namespace Verif.AnnotatedRows
open Verif State Verif.SearchData Verif.StateInputs Verif.ChordTraining Verif.SequenceTables Verif.FromSeries
open Verif.TablePiece
open Verif.KeyDatasets Verif.PieceKeys
open Verif.Hidden

section
variable {κ ρ H P : Type}

/-- What is used of a labelled piece: `x` as the search and the chord models read it, `k` as the chord sequence and key
models do, `T` the time signatures of its measures. -/
structure Annotated (x : ClassPiece) (k : KeyedPiece) (T : List MeterRow) (c : List (Measure ℚ)) (last : Int × ℚ)
    (ps : List ℚ) (pe : ℚ) : Prop where
  labelled : ClassTraining.Labelled x c last ps pe
  chords : k.chords = x.chords.map Prod.snd
  valid : KeyedPiece.Valid k
  keyTypes : ∀ l ∈ k.keys, l.tonicType = .tpc
  abut : x.chords.IsChain (fun a b => a.1.offset = b.1.onset)
  noteLevels : ∀ n ∈ x.notes, LevelOf T n.onset n.onsetLevel
  onsetLevels : ∀ ch ∈ x.chords, ∃ l : Nat, LevelOf T ch.1.onset l ∧ ch.2.onsetLevel = l
  offsetLevels : ∀ ch ∈ x.chords, ∃ l : Nat, LevelOf T ch.1.offset l ∧ ch.2.offsetLevel = l
  durations : ∀ ch ∈ x.chords, ch.1.duration = ch.2.duration
  bass : ∀ ch ∈ x.chords, bassNote ch.2.chordType ch.2.root ch.2.inversion .tpc false = .ok ch.2.bass
  covered : ∀ (i : Nat) o, k.chords[i]? = some o → ∃ l, Eval.Covers k.keys k.keyChanges i l ∧
    (l.relativeTonic, l.relativeMode) = (o.keyTonic, o.keyMode)
  starts : ∀ (i : Nat) o o', k.chords[i]? = some o → k.chords[i + 1]? = some o' →
    (KeyStart k (i + 1) ↔ (o.keyTonic, o.keyMode) ≠ (o'.keyTonic, o'.keyMode))

/-- The nodes `q` and `n` of a state are about chord `i` of the piece: `n` has its chord and its key, `q` the key of the
chord before it; `q` ends with the first note of the chord, and `n` with that of the next chord, or with the piece. -/
structure Follows (x : ClassPiece) (L : Labels) (i : Nat) (q n : Node κ H P) : Prop where
  chord : ∃ ch id, x.chords[i]? = some ch ∧ n.chord = some id ∧
    pyGet L.chord id = .ok (ch.2.root, ch.2.chordType, ch.2.inversion) ∧
    pyGet L.key n.key = .ok (ch.2.keyTonic, ch.2.keyMode) ∧
    (x.notes[q.changeIndex]?).map NoteObj.onset = some ch.1.onset
  order : q.changeIndex < n.changeIndex
  next : ∀ ch, x.chords[i + 1]? = some ch → (x.notes[n.changeIndex]?).map NoteObj.onset = some ch.1.onset
  last : i + 1 = x.chords.length → n.changeIndex = x.notes.length
  first : i = 0 → q.key = n.key
  before : ∀ (j : Nat) ch, i = j + 1 → x.chords[j]? = some ch → pyGet L.key q.key = .ok (ch.2.keyTonic, ch.2.keyMode)
  ids : 0 ≤ q.key ∧ 0 ≤ n.key

/-- If the chord ends the piece: its offset level is that of the last note. -/
def EndsLevel (x : ClassPiece) (i : Nat) : Prop :=
  i + 1 = x.chords.length → ∀ ch n, x.chords[i]? = some ch → x.notes.getLast? = some n → ch.2.offsetLevel = n.offsetLevel

theorem level_unique {T : List MeterRow} {pos : Int × ℚ} {l l' : Nat} (h : LevelOf T pos l) (h' : LevelOf T pos l') :
    l = l' := by
  obtain ⟨m, h1, h2⟩ := h
  obtain ⟨m', h1', h2'⟩ := h'
  rw [h1] at h1'
  injection h1' with h1'
  subst h1'
  rw [h2] at h2'
  injection h2'

/-- What the caches hold. -/
theorem caches_spec {x : ClassPiece} {c : List (Measure ℚ)} {last : Int × ℚ} {ps : List ℚ} {pe : ℚ}
    (h : ClassTraining.Labelled x c last ps pe) {C : Caches} (hC : pieceCaches x = .ok C) :
    (∀ (i j : Nat) a b, i ≤ j → (ps ++ [pe])[i]? = some a → (ps ++ [pe])[j]? = some b →
      ((C.durations.take j).drop i).sum = b - a) ∧
    (∀ (i : Nat) n, x.notes[i]? = some n → C.levels[i]? = some (n.onsetLevel : Int)) ∧
    (∀ n, x.notes.getLast? = some n → C.levels[x.notes.length]? = some (n.offsetLevel : Int)) := by
  have hl := ChordInputs.last_end x.notes _ _ h.ends
  simp only [Option.map_some, List.map_map] at hl
  obtain ⟨out, h1, h2, -, h4⟩ := Piece.C35_cache h.score.chain (x.notes.map NoteObj.onset) last ps pe h.score.onsets
    h.score.last
  rw [List.length_map] at h2
  simp only [pieceCaches, Bind.bind] at hC
  obtain ⟨l', hl', hC⟩ := SearchData.bind_ok hC
  have : l' = toLex last := by
    have e : (some (x.chords.map fun c => toLex c.1.offset) : Option (List (Lex (Int × ℚ)))) =
      some (List.map ((fun c : ChordSpan => toLex c.offset) ∘ Prod.fst) x.chords) := rfl
    rw [e, hl] at hl'
    injection hl' with hl'
    exact hl'.symm
  obtain ⟨o', ho', hC⟩ := SearchData.bind_ok hC
  rw [this, ofLex_toLex, h1] at ho'
  injection ho' with ho'
  subst ho'
  simp only [makeCaches, Bind.bind] at hC
  obtain ⟨z, hz, hC⟩ := SearchData.bind_ok hC
  injection hC with hC
  subst hC
  have e1 : ((out.zip x.notes).map fun p => (p.1, (p.2.onsetLevel : Int), (p.2.offsetLevel : Int))).map (·.1) = out := by
    rw [List.map_map]
    exact List.map_fst_zip (by omega)
  have e2 : ((out.zip x.notes).map fun p => (p.1, (p.2.onsetLevel : Int), (p.2.offsetLevel : Int))).map (·.2.1) =
      x.notes.map fun n => (n.onsetLevel : Int) := by
    rw [List.map_map]
    conv_rhs => rw [← List.map_snd_zip (l₁ := out) (l₂ := x.notes) (by omega)]
    rw [List.map_map]
    rfl
  simp only
  rw [e1, e2]
  refine ⟨h4, ?_, ?_⟩
  · intro i n hn
    have := (List.getElem?_eq_some_iff.1 hn).1
    rw [List.getElem?_append_left (by simpa using this), List.getElem?_map, hn]
    rfl
  · intro n hn
    rw [List.getElem?_append_right (by simp)]
    simp only [List.length_map, Nat.sub_self, List.getElem?_cons_zero, Option.some.injEq]
    have hz' : ((out.zip x.notes).map fun p => (p.1, (p.2.onsetLevel : Int), (p.2.offsetLevel : Int))).getLast? = some z := by
      unfold pyGet at hz
      rw [if_neg (by omega)] at hz
      split at hz
      · rename_i hk
        rw [List.getLast?_eq_getElem?]
        rw [show ∀ m : Nat, ((m : Int) + -1).toNat = m - 1 by omega] at hz
        revert hz
        generalize (List.map (fun p : ℚ × NoteObj => (p.1, (p.2.onsetLevel : Int), (p.2.offsetLevel : Int))) (out.zip x.notes)) = l
        cases l[l.length - 1]? with
        | none => intro h; cases h
        | some y => intro h; injection h with h; rw [h]
      · cases hz
    have hlast : ((out.zip x.notes).map fun p => p.2).getLast? = some n := by
      rw [show ((out.zip x.notes).map fun p => p.2) = x.notes from List.map_snd_zip (by omega)]
      exact hn
    rw [List.getLast?_map] at hz' hlast
    cases hq : (out.zip x.notes).getLast? with
    | none => rw [hq] at hlast; cases hlast
    | some w =>
      rw [hq, Option.map_some] at hz' hlast
      injection hz' with hz'
      injection hlast with hlast
      rw [← hz', ← hlast]

/-- The chord of a node which follows the piece is the chord of the piece. -/
theorem follows_chord {x : ClassPiece} {k : KeyedPiece} {T : List MeterRow} {c : List (Measure ℚ)} {last : Int × ℚ}
    {ps : List ℚ} {pe : ℚ} (h : Annotated x k T c last ps pe) {C : Caches} (hC : pieceCaches x = .ok C) {L : Labels}
    {i : Nat} {q n : Node κ H P} (hf : Follows x L i q n) (he : EndsLevel x i) {o : Chord ℚ} (ho : k.chords[i]? = some o) :
    ChordOf L .tpc C n q o := by
  obtain ⟨c1, c2, c3⟩ := caches_spec h.labelled hC
  obtain ⟨ch, id, a1, a2, a3, a4, a5⟩ := hf.chord
  have hch := List.mem_of_getElem? a1
  rw [h.chords, List.getElem?_map, a1, Option.map_some] at ho
  injection ho with ho
  subst ho
  obtain ⟨n1, hn1, e1⟩ := Option.map_eq_some_iff.1 a5
  have hlen : ps.length = x.notes.length := by
    have := h.labelled.score.onsets.length_eq
    rw [List.length_map] at this
    exact this.symm
  have hq : q.changeIndex < x.notes.length := (List.getElem?_eq_some_iff.1 hn1).1
  have hp1 : ps[q.changeIndex]? = some ps[q.changeIndex] := List.getElem?_eq_getElem (by omega)
  have at1 := h.labelled.score.at _ _ _ hn1 hp1
  rw [e1] at at1
  obtain ⟨s, t, s1, s2, s3, -⟩ := h.labelled.durations ch hch
  have es := at_unique h.labelled.score.chain at1 s1
  obtain ⟨l, hl, el⟩ := h.onsetLevels ch hch
  have hlevel : C.levels[q.changeIndex]? = some ch.2.onsetLevel := by
    rw [c2 _ _ hn1, el]
    have := h.noteLevels n1 (List.mem_of_getElem? hn1)
    rw [e1] at this
    rw [level_unique this hl]
  have hp1' : (ps ++ [pe])[q.changeIndex]? = some s := by
    rw [List.getElem?_append_left (by omega), hp1, es]
  have hdur : ∀ m : Nat, ((C.durations.drop q.changeIndex).take (m - q.changeIndex)).sum =
      ((C.durations.take m).drop q.changeIndex).sum := by
    intro m
    rw [List.drop_take]
  have fin : C.levels[n.changeIndex]? = some ch.2.offsetLevel ∧ (ps ++ [pe])[n.changeIndex]? = some t := by
    rcases Nat.lt_or_ge (i + 1) x.chords.length with hlt | hge
    · obtain ⟨ch', hch'⟩ : ∃ ch', x.chords[i + 1]? = some ch' := ⟨_, List.getElem?_eq_getElem hlt⟩
      obtain ⟨n2, hn2, e2⟩ := Option.map_eq_some_iff.1 (hf.next ch' hch')
      have hab : ch.1.offset = ch'.1.onset := by
        obtain ⟨g1, g2⟩ := List.getElem?_eq_some_iff.1 a1
        obtain ⟨g3, g4⟩ := List.getElem?_eq_some_iff.1 hch'
        have := List.isChain_iff_getElem.1 h.abut i (by omega)
        rw [g2, g4] at this
        exact this
      have hn : n.changeIndex < x.notes.length := (List.getElem?_eq_some_iff.1 hn2).1
      have hp2 : ps[n.changeIndex]? = some ps[n.changeIndex] := List.getElem?_eq_getElem (by omega)
      have at2 := h.labelled.score.at _ _ _ hn2 hp2
      rw [e2, ← hab] at at2
      refine ⟨?_, ?_⟩
      · obtain ⟨l2, hl2, el2⟩ := h.offsetLevels ch hch
        rw [c2 _ _ hn2, el2]
        have := h.noteLevels n2 (List.mem_of_getElem? hn2)
        rw [e2, ← hab] at this
        rw [level_unique this hl2]
      · rw [List.getElem?_append_left (by omega), hp2, at_unique h.labelled.score.chain at2 s2]
    · have hi : i < x.chords.length := (List.getElem?_eq_some_iff.1 a1).1
      have hi1 : i + 1 = x.chords.length := by omega
      have hn := hf.last hi1
      obtain ⟨z, hz⟩ : ∃ z, x.notes.getLast? = some z := ⟨_, List.getLast?_eq_some_getLast h.labelled.notes⟩
      refine ⟨?_, ?_⟩
      · rw [hn, c3 z hz, he hi1 ch z a1 hz]
      · rw [hn, ← hlen, List.getElem?_append_right (by omega), Nat.sub_self, List.getElem?_cons_zero]
        obtain ⟨cl, hcl, ecl⟩ := h.labelled.ends
        rw [List.getLast?_map, List.getLast?_eq_getElem?, show x.chords.length - 1 = i by omega, a1, Option.map_some] at hcl
        injection hcl with hcl
        have := h.labelled.score.last
        rw [← ecl, ← hcl] at this
        rw [at_unique h.labelled.score.chain this s2]
  refine ⟨id, a2, a3, h.bass ch hch, a4, hlevel, fin.1, ?_, h.labelled.spelled ch hch⟩
  rw [← h.durations ch hch, s3]
  exact (((hdur _).trans (c1 _ _ _ _ (Nat.le_of_lt hf.order) hp1' fin.2))).symm

theorem pyGet_inj {α : Type} {l : List α} (hl : l.Nodup) {a b : Int} {v : α} (ha : 0 ≤ a) (hb : 0 ≤ b)
    (h1 : pyGet l a = .ok v) (h2 : pyGet l b = .ok v) : a = b := by
  have get : ∀ {a : Int}, 0 ≤ a → pyGet l a = .ok v → l[a.toNat]? = some v := by
    intro a ha h
    unfold pyGet at h
    rw [if_pos ha] at h
    revert h
    cases l[a.toNat]? with
    | none => intro h; cases h
    | some w => intro h; injection h with h; rw [h]
  obtain ⟨g1, g2⟩ := List.getElem?_eq_some_iff.1 (get ha h1)
  obtain ⟨g3, g4⟩ := List.getElem?_eq_some_iff.1 (get hb h2)
  have := (List.Nodup.getElem_inj_iff hl).1 (g2.trans g4.symm)
  omega

/-- The change of key of a node which follows the piece is written like that of the piece. -/
theorem follows_change {x : ClassPiece} {k : KeyedPiece} {T : List MeterRow} {c : List (Measure ℚ)} {last : Int × ℚ}
    {ps : List ℚ} {pe : ℚ} (h : Annotated x k T c last ps pe) {L : Labels} (hL : L.key.Nodup)
    {i : Nat} {q n : Node κ H P} (hf : Follows x L i q n) {change : Option (Key × Key)}
    (hc : ChangeAt k.keyChanges k.keys i change) :
    ∃ change', ChangeOf L .tpc n q change' ∧
      ∀ (o : Chord ℚ) pad, sequenceRow o .tpc change' pad = sequenceRow o .tpc change pad := by
  obtain ⟨ch, id, a1, a2, a3, a4, a5⟩ := hf.chord
  have hmono : ∀ p q : Nat, ∀ v w, p < q → k.keyChanges[p]? = some v → k.keyChanges[q]? = some w → v < w := by
    intro p q v w hpq hv hw
    obtain ⟨lv, ev⟩ := List.getElem?_eq_some_iff.1 hv
    obtain ⟨lw, ew⟩ := List.getElem?_eq_some_iff.1 hw
    have := List.pairwise_iff_getElem.1 h.valid.increasing p q lv lw hpq
    omega
  have same : q.key = n.key → (∀ j : Nat, k.keyChanges[j + 1]? ≠ some i) → ∃ change', ChangeOf L .tpc n q change' ∧
      ∀ (o : Chord ℚ) pad, sequenceRow o .tpc change' pad = sequenceRow o .tpc change pad := by
    intro hk hno
    refine ⟨none, ⟨fun _ => rfl, fun hne => absurd hk.symm hne⟩, ?_⟩
    intro o pad
    rw [hc.2 hno]
  cases i with
  | zero =>
    refine same (hf.first rfl) ?_
    intro j hj
    have := hmono 0 (j + 1) _ _ (by omega) h.valid.zero hj
    omega
  | succ i =>
    have hlt : i + 1 < x.chords.length := (List.getElem?_eq_some_iff.1 a1).1
    obtain ⟨ch', hch'⟩ : ∃ ch', x.chords[i]? = some ch' := ⟨_, List.getElem?_eq_getElem (by omega)⟩
    have hb := hf.before i ch' rfl hch'
    have k1 : k.chords[i]? = some ch'.2 := by rw [h.chords, List.getElem?_map, hch']; rfl
    have k2 : k.chords[i + 1]? = some ch.2 := by rw [h.chords, List.getElem?_map, a1]; rfl
    have hst := h.starts i _ _ k1 k2
    by_cases hk : (ch'.2.keyTonic, ch'.2.keyMode) = (ch.2.keyTonic, ch.2.keyMode)
    · refine same ?_ ?_
      · rw [hk] at hb
        exact pyGet_inj hL hf.ids.1 hf.ids.2 hb a4
      · intro j hj
        exact hst.1 ⟨j, hj⟩ hk
    · obtain ⟨j, hj⟩ := hst.2 hk
      have hjl : j + 1 < k.keyChanges.length := (List.getElem?_eq_some_iff.1 hj).1
      have hkl := h.valid.keys
      have hp : k.keys[j]? = some k.keys[j] := List.getElem?_eq_getElem (by omega)
      have hp' : k.keys[j + 1]? = some k.keys[j + 1] := List.getElem?_eq_getElem (by omega)
      have hj0 : k.keyChanges[j]? = some k.keyChanges[j] := List.getElem?_eq_getElem (by omega)
      have hle : k.keyChanges.Pairwise (· ≤ ·) := h.valid.increasing.imp fun h => Nat.le_of_lt h
      have lt0 := hmono j (j + 1) _ _ (by omega) hj0 hj
      obtain ⟨l, cv, el⟩ := h.covered i _ k1
      obtain ⟨l', cv', el'⟩ := h.covered (i + 1) _ k2
      have u1 : l = k.keys[j] := by
        refine LabelTable.covers_unique hle cv ⟨j, _, hp, hj0, by omega, ?_⟩
        intro b hb'
        rw [hj] at hb'
        injection hb' with hb'
        omega
      have u2 : l' = k.keys[j + 1] := by
        refine LabelTable.covers_unique hle cv' ⟨j + 1, _, hp', hj, Nat.le_refl _, ?_⟩
        intro b hb'
        exact hmono (j + 1) (j + 2) _ _ (by omega) hj hb'
      rw [hc.1 j _ _ hj hp hp', ← u1, ← u2]
      have t1 : l.tonicType = .tpc := h.keyTypes l (by rw [u1]; exact List.mem_of_getElem? hp)
      injection el with e1 e2
      injection el' with e3 e4
      refine ⟨some (plainKey ch'.2.keyTonic ch'.2.keyMode .tpc, plainKey ch.2.keyTonic ch.2.keyMode .tpc), ⟨?_, ?_⟩, ?_⟩
      · intro he
        rw [he, hb] at a4
        injection a4 with a4
        exact absurd a4 hk
      · intro _
        exact ⟨_, _, _, _, hb, a4, rfl⟩
      · intro o pad
        have hv : (plainKey ch'.2.keyTonic ch'.2.keyMode .tpc).changeVector (plainKey ch.2.keyTonic ch.2.keyMode .tpc) =
            l.changeVector l' := by
          simp only [Key.changeVector, plainKey, t1, e1, e3, e4]
        simp only [sequenceRow, hv]

theorem chordOf_unique {L : Labels} {pt : PitchType} {C : Caches} {n q : Node κ H P} {c c' : Chord ℚ}
    (h : ChordOf L pt C n q c) (h' : ChordOf L pt C n q c') : c = c' := by
  obtain ⟨id, a1, a2, a3, a4, a5, a6, a7, a8⟩ := h
  obtain ⟨id', a1', a2', a3', a4', a5', a6', a7', a8'⟩ := h'
  rw [a1] at a1'; injection a1' with a1'; subst a1'
  rw [a2] at a2'; injection a2' with a2'
  rw [a4] at a4'; injection a4' with a4'
  rw [a5] at a5'; injection a5' with a5'
  rw [a6] at a6'; injection a6' with a6'
  rw [← a7] at a7'
  rw [← a8] at a8'
  injection a2' with r1 a2'; injection a2' with r2 r3
  injection a4' with r4 r5
  rw [← r1, ← r2, ← r3, a3] at a3'; injection a3' with r6
  cases c; cases c'
  simp only at r1 r2 r3 r4 r5 r6 a5' a6' a7' a8'
  simp only [r1, r2, r3, r4, r5, r6, a5', a6', a7', a8']

theorem changeOf_unique {L : Labels} {pt : PitchType} {n q : Node κ H P} {change change' : Option (Key × Key)}
    (h : ChangeOf L pt n q change) (h' : ChangeOf L pt n q change') : change = change' := by
  obtain ⟨b1, b2⟩ := h
  obtain ⟨b1', b2'⟩ := h'
  by_cases hk : n.key = q.key
  · rw [b1 hk, b1' hk]
  · obtain ⟨t, m, t', m', e1, e2, e3⟩ := b2 hk
    obtain ⟨u, l, u', l', f1, f2, f3⟩ := b2' hk
    rw [e1] at f1; injection f1 with f1; injection f1 with f1 f1'
    rw [e2] at f2; injection f2 with f2; injection f2 with f2 f2'
    rw [e3, f3, f1, f1', f2, f2']

/-- The row of the search is that of the datasets. -/
theorem follows_row {x : ClassPiece} {k : KeyedPiece} {T : List MeterRow} {c : List (Measure ℚ)} {last : Int × ℚ}
    {ps : List ℚ} {pe : ℚ} (h : Annotated x k T c last ps pe) {C : Caches} (hC : pieceCaches x = .ok C) {L : Labels}
    (hL : L.key.Nodup) {i : Nat} {q n : Node κ H P} (hf : Follows x L i q n) (he : EndsLevel x i) {o : Chord ℚ}
    (ho : k.chords[i]? = some o) {change : Option (Key × Key)} (hc : ChangeAt k.keyChanges k.keys i change) (pad : Bool)
    (row : List ℚ) : SeqRow L .tpc C pad n q row ↔ sequenceRow o .tpc change pad = .ok row := by
  have h1 := follows_chord h hC hf he ho
  obtain ⟨change', h2, h3⟩ := follows_change h hL hf hc
  constructor
  · rintro ⟨o', ch', g1, g2, g3⟩
    rw [← h3, chordOf_unique h1 g1, changeOf_unique h2 g2]
    exact g3
  · intro hr
    exact ⟨o, change', h1, h2, by rw [h3]; exact hr⟩

/-- The nodes of a chain (newest first) follow the chords of the piece from the first one on. -/
def FollowsAll (x : ClassPiece) (L : Labels) : List (Node κ H P) → Prop
  | n :: q :: rest => Follows x L rest.length q n ∧ FollowsAll x L (q :: rest)
  | _ => True

theorem FollowsAll.drop {x : ClassPiece} {L : Labels} {chain : List (Node κ H P)} (h : FollowsAll x L chain) (t : Nat) :
    FollowsAll x L (chain.drop t) := by
  induction t generalizing chain with
  | zero => exact h
  | succ t ih =>
    cases chain with
    | nil => exact h
    | cons n rest =>
      rw [List.drop_succ_cons]
      refine ih ?_
      cases rest with
      | nil => trivial
      | cons q rest => exact h.2

/-- Row `i` of a list is that of the datasets for chord `i`. -/
def RowsOfPiece (k : KeyedPiece) (pad : Bool) (m : Nat) (rows : List (List ℚ)) : Prop :=
  rows.length = m ∧ ∀ i, i < m → ∃ o row change, k.chords[i]? = some o ∧ rows[i]? = some row ∧
    ChangeAt k.keyChanges k.keys i change ∧ sequenceRow o .tpc change pad = .ok row

theorem changeAt_exists {k : KeyedPiece} (hk : KeyedPiece.Valid k) (i : Nat) :
    ∃ change, ChangeAt k.keyChanges k.keys i change := by
  obtain ⟨chords, changes, keys⟩ := k
  have h1 := hk.keys
  have h2 := hk.zero
  have h3 := hk.increasing
  simp only at h1 h2 h3 ⊢
  cases changes with
  | nil => cases h2
  | cons a cs =>
    cases keys with
    | nil => cases h1
    | cons key ks => exact ⟨_, changeIn_at cs a key ks i (by simpa using h1) h3⟩

theorem follows_rows {x : ClassPiece} {k : KeyedPiece} {T : List MeterRow} {c : List (Measure ℚ)} {last : Int × ℚ}
    {ps : List ℚ} {pe : ℚ} (h : Annotated x k T c last ps pe) {C : Caches} (hC : pieceCaches x = .ok C) {L : Labels}
    (hL : L.key.Nodup) (pad : Bool) (m : Nat) (chain : List (Node κ H P)) (hm : chain.length = m + 1)
    (hf : FollowsAll x L chain) (he : ∀ i, i < m → EndsLevel x i) (rows : List (List ℚ))
    (hr : RecentRows L .tpc C pad m chain rows) : RowsOfPiece k pad m rows := by
  induction m generalizing chain rows with
  | zero =>
    rw [RecentRows] at hr
    subst hr
    exact ⟨rfl, fun i hi => absurd hi (by omega)⟩
  | succ m ih =>
    match chain, hm, hf, hr with
    | n :: q :: rest, hm, hf, hr =>
      obtain ⟨rs, r, h1, h2, h3⟩ := hr
      obtain ⟨i1, i2⟩ := ih (q :: rest) (by simpa using hm) hf.2 (fun i hi => he i (by omega)) rs h1
      have hrest : rest.length = m := by simpa using hm
      have hf1 := hf.1
      rw [hrest] at hf1
      obtain ⟨ch, id, a1, -⟩ := hf1.chord
      have ho : k.chords[m]? = some ch.2 := by rw [h.chords, List.getElem?_map, a1]; rfl
      obtain ⟨change, hc⟩ := changeAt_exists h.valid m
      have := (follows_row h hC hL hf1 (he m (by omega)) ho hc pad r).1 h2
      subst h3
      refine ⟨by simp [i1], ?_⟩
      intro i hi
      rcases Nat.lt_or_ge i m with hlt | hge
      · obtain ⟨o, row, ch', g1, g2, g3⟩ := i2 i hlt
        refine ⟨o, row, ch', g1, ?_, g3⟩
        rw [List.getElem?_append_left (by omega)]
        exact g2
      · have : i = m := by omega
        subst this
        refine ⟨ch.2, r, change, ho, ?_, hc, by assumption⟩
        rw [← i1, List.getElem?_concat_length]

/-- Pieces which are loaded from tables. -/
theorem tables_annotated {measures : List MeasureRow} {notes : List NoteRow} {chords : List PieceRow} {red : Reduction}
    {useInv : Bool} {c : List (Measure ℚ)} (h : Tables measures notes chords red useInv true c) {useSusp : Bool}
    {x : ClassPiece} (hx : tablePiece measures notes chords red useInv true useSusp = .ok x) {k : KeyedPiece}
    (hk : tableKeyed measures notes chords red useInv true useSusp = .ok k) :
    ∃ last ps pe, Annotated x k (measures.map MeasureRow.meter) c last ps pe := by
  have hK := keyed h hk
  obtain ⟨x', hx', hL, last, ps, pe, hlab, -, -⟩ := C149_piece_partial h useSusp
  rw [hx] at hx'
  injection hx' with hx'
  subst hx'
  simp only [tablePiece, Bind.bind] at hx
  obtain ⟨ns, hns, hx⟩ := SearchData.bind_ok hx
  obtain ⟨out, hout, hx⟩ := SearchData.bind_ok hx
  injection hx with hx
  simp only [tableKeyed, hns, hout, Bind.bind, Except.bind] at hk
  injection hk with hk
  have hcache := cache_right (measures.map MeasureRow.meter) notes
  obtain ⟨chs, hread, hchs⟩ := chords_read h _ hcache
  obtain ⟨gs, g1, g2, -, -⟩ := C79_chords _ _ _ _ _ _ _ _ hout
  have hfst : (chs.zip chords).map (·.1) = chs := List.map_fst_zip (by rw [hchs.length_eq])
  rw [hread, hfst] at g1
  have hrow : ∀ ch ∈ chs, ∃ r ∈ chords, ChordRight (measures.map MeasureRow.meter) .tpc red useInv true r.row ch := by
    intro ch hch
    obtain ⟨i, hi⟩ := List.getElem?_of_mem hch
    obtain ⟨r, hr, hR⟩ := forall₂_left hchs i ch hi
    exact ⟨r, List.mem_of_getElem? hr, hR⟩
  have hrun : ∀ ch ∈ x.chords, ∃ g, ∃ r r' : PieceRow, ∃ o, IsRun g o ∧ ch = o.spanned ∧
      ChordRight (measures.map MeasureRow.meter) .tpc red useInv true r.row g.1 ∧
      ChordRight (measures.map MeasureRow.meter) .tpc red useInv true r'.row ((g.1 :: g.2).getLast (List.cons_ne_nil _ _)) := by
    intro ch hch
    rw [← hx] at hch
    obtain ⟨o, ho, rfl⟩ := List.mem_map.1 hch
    obtain ⟨i, hi⟩ := List.getElem?_of_mem ho
    obtain ⟨g, hg, hR⟩ := forall₂_left g2 i o hi
    have hgm : ∀ ch ∈ g.1 :: g.2, ch ∈ chs := by
      intro ch hch
      rw [g1, List.mem_flatten]
      exact ⟨_, List.mem_map.2 ⟨g, List.mem_of_getElem? hg, rfl⟩, hch⟩
    obtain ⟨r, -, h1⟩ := hrow g.1 (hgm _ (by simp))
    obtain ⟨r', -, h2⟩ := hrow _ (hgm _ (List.getLast_mem (List.cons_ne_nil _ _)))
    exact ⟨g, r, r', o, hR, rfl, h1, h2⟩
  refine ⟨last, ps, pe, hlab, ?_, hK.spelled.valid, hK.spelled.keys, hL.abut, ?_, ?_, ?_, ?_, ?_, ?_, hK.starts⟩
  · rw [← hk, ← hx]
    simp only [PieceHarmony.keyed, List.map_map]
    rfl
  · intro n hn
    obtain ⟨i, hi⟩ := List.getElem?_of_mem hn
    obtain ⟨r, hr, hR⟩ := forall₂_left hL.right i n hi
    rw [hR.onset]
    exact hR.onsetLevel
  · intro ch hch
    obtain ⟨g, r, r', o, hR, rfl, h1, h2⟩ := hrun ch hch
    rw [IsRun] at hR
    rw [hR]
    exact h1.onsetLevel
  · intro ch hch
    obtain ⟨g, r, r', o, hR, rfl, h1, h2⟩ := hrun ch hch
    rw [IsRun] at hR
    rw [hR]
    exact h2.offsetLevel
  · intro ch hch
    obtain ⟨g, r, r', o, hR, rfl, h1, h2⟩ := hrun ch hch
    rfl
  · intro ch hch
    obtain ⟨g, r, r', o, hR, rfl, h1, h2⟩ := hrun ch hch
    obtain ⟨ky, hky, -⟩ := h1.harmony
    obtain ⟨n, tone, e1, e2, e3⟩ := hky.bass
    simp only at e1 e2 e3
    rw [IsRun] at hR
    rw [hR]
    simp only [SeriesChord.spanned]
    rw [← e1, C14_bass _ _ n tone _ _ e2]
    exact e3
  · intro i o ho
    obtain ⟨l, h1, h2⟩ := hK.covered i o ho
    exact ⟨l, h1, h2⟩

theorem changeAt_unique {k : KeyedPiece} (hk : KeyedPiece.Valid k) {i : Nat} {c c' : Option (Key × Key)}
    (h : ChangeAt k.keyChanges k.keys i c) (h' : ChangeAt k.keyChanges k.keys i c') : c = c' := by
  by_cases hj : ∃ j : Nat, k.keyChanges[j + 1]? = some i
  · obtain ⟨j, hj⟩ := hj
    have hl := hk.keys
    have hlt : j + 1 < k.keyChanges.length := (List.getElem?_eq_some_iff.1 hj).1
    have h1 : k.keys[j]? = some k.keys[j] := List.getElem?_eq_getElem (by omega)
    have h2 : k.keys[j + 1]? = some k.keys[j + 1] := List.getElem?_eq_getElem (by omega)
    rw [h.1 j _ _ hj h1 h2, h'.1 j _ _ hj h1 h2]
  · push Not at hj
    rw [h.2 hj, h'.2 hj]

/-- The rows of the datasets are unique. -/
theorem rows_unique {k : KeyedPiece} (hk : KeyedPiece.Valid k) {pad : Bool} {m n : Nat} {rows rows' : List (List ℚ)}
    (h : RowsOfPiece k pad m rows) (h' : RowsOfPiece k pad n rows') (hmn : m ≤ n) : rows = rows'.take m := by
  refine List.ext_getElem? ?_
  intro i
  rcases Nat.lt_or_ge i m with hi | hi
  · obtain ⟨o, row, ch, a1, a2, a3, a4⟩ := h.2 i hi
    obtain ⟨o', row', ch', b1, b2, b3, b4⟩ := h'.2 i (by omega)
    rw [a1] at b1
    injection b1 with b1
    subst b1
    rw [changeAt_unique hk a3 b3, b4] at a4
    injection a4 with a4
    rw [List.getElem?_take_of_lt hi, a2, b2, a4]
  · rw [List.getElem?_eq_none (by rw [h.1]; exact hi), List.getElem?_eq_none (by rw [List.length_take]; omega)]

/-! ## The models in the search -/

/-- The annotated analysis of a piece from tables: the chain of nodes follows its chords, in their keys, from note to
note. -/
structure Analysis (measures : List MeasureRow) (notes : List NoteRow) (chords : List PieceRow) (red : Reduction)
    (useInv useSusp : Bool) (c : List (Measure ℚ)) (x : ClassPiece) (k : KeyedPiece) (C : Caches) (L : Labels)
    (chain : List (Node κ H P)) : Prop where
  tables : Tables measures notes chords red useInv true c
  piece : tablePiece measures notes chords red useInv true useSusp = .ok x
  keyed : tableKeyed measures notes chords red useInv true useSusp = .ok k
  caches : pieceCaches x = .ok C
  keys : L.key = keyClasses .tpc false
  follows : FollowsAll x L chain

theorem keys_nodup : (keyClasses .tpc false).Nodup := by decide +kernel

section
variable {measures : List MeasureRow} {notes : List NoteRow} {chords : List PieceRow} {red : Reduction}
    {useInv useSusp : Bool} {c : List (Measure ℚ)} {x : ClassPiece} {k : KeyedPiece} {C : Caches} {L : Labels}
    {chain : List (Node κ H P)}

/-- The number of a chord of the analysis. -/
theorem follows_lt {n q : Node κ H P} {rest : List (Node κ H P)} (hf : FollowsAll x L (n :: q :: rest)) :
    rest.length < x.chords.length := by
  obtain ⟨ch, id, a1, -⟩ := hf.1.chord
  exact (List.getElem?_eq_some_iff.1 a1).1

/-- C159 (partial: chords begin with a note and are loaded with `use_relative`, and for the last one its offset level is that of the last note): what
the search gives to the models for the chords of the annotated analysis are the rows of the datasets. -/
theorem C159_rows_partial (h : Analysis measures notes chords red useInv useSusp c x k C L chain) (t : Nat)
    (n : Node κ H P) (rest : List (Node κ H P)) (ht : chain.drop t = n :: rest) (pad : Bool) (rows : List (List ℚ))
    (he : rest.length = x.chords.length → EndsLevel x (rest.length - 1))
    (hr : RecentRows L .tpc C pad rest.length (n :: rest) rows) : RowsOfPiece k pad rest.length rows := by
  obtain ⟨last, ps, pe, ha⟩ := tables_annotated h.tables h.piece h.keyed
  have hf := h.follows.drop t
  rw [ht] at hf
  refine follows_rows ha h.caches (by rw [h.keys]; exact keys_nodup) pad rest.length (n :: rest) rfl hf ?_ rows hr
  intro i hi h1
  have : rest.length ≤ x.chords.length := by
    cases rest with
    | nil => simp
    | cons q rest => exact follows_lt hf
  have e : rest.length = i + 1 := by omega
  have := he (by omega)
  rw [show rest.length - 1 = i by omega] at this
  exact this h1

variable {ρ : Type} [Add κ] [Sub κ] [Zero κ] [DecidableEq κ] [DecidableEq H] [DecidableEq P] {d : SearchData κ ρ H P} {N : Nets κ ρ H P}

/-- C159 (partial: as in `C159_rows_partial`): if the search finds the annotated analysis, then the KTM has seen of the
first chords the rows it is trained on. -/
theorem C159_ktm_partial (hd : OK d) (hu : UsesNets d N C) (hp : d.pitchType = .tpc) {s : State κ H P}
    (hs : d.search = .ok (some s)) (h : Analysis measures notes chords red useInv useSusp c x k C d.labels (s.node :: s.prev))
    {data : PieceData (List ℚ)} (hdata : transitionPiece k = .ok data) (t : Nat) (n : Node κ H P)
    (rest : List (Node κ H P)) (ht : (s.node :: s.prev).drop t = n :: rest)
    (he : rest.length = x.chords.length → EndsLevel x (rest.length - 1)) :
    n.ktmHidden = after N.ktm (data.rows.take rest.length) := by
  obtain ⟨rows, h1, h2⟩ := C89_ktm hd hu s hs t n rest ht
  rw [h2]
  have hrows : RecentRows d.labels d.pitchType C true rest.length (n :: rest) rows := h1
  rw [hp] at hrows
  have hR := C159_rows_partial h t n rest ht true rows he hrows
  obtain ⟨last, ps, pe, ha⟩ := tables_annotated h.tables h.piece h.keyed
  obtain ⟨k0, hk0, -, hup, -⟩ := C68_transitions k ha.valid data hdata
  rw [ha.keyTypes k0 (List.mem_of_getElem? hk0)] at hup
  have hlen : rest.length ≤ k.chords.length := by
    have hf := h.follows.drop t
    rw [ht] at hf
    rw [ha.chords, List.length_map]
    cases rest with
    | nil => simp
    | cons q rest => exact follows_lt hf
  rw [rows_unique ha.valid hR hup hlen]

/-- C159: if the search finds the annotated analysis, then before each chord but the first one the CSM has seen the rows it is
trained on, and the prior for this chord is its output after them, of which the class of this chord is the target in
training unless the key changes. -/
theorem C159_csm (hd : OK d) (hu : UsesNets d N C) (hp : d.pitchType = .tpc) {s : State κ H P}
    (hs : d.search = .ok (some s)) (h : Analysis measures notes chords red useInv useSusp c x k C d.labels (s.node :: s.prev))
    {pieces : List KeyedPiece} (hpieces : Uniform pieces .tpc .tpc) {data : ChordSeqData}
    (hdata : chordSeqData pieces = .ok data) {settings : CsmSettings} {is : List Nat} {out : List CsmRow}
    (hout : data.batch settings is = .ok out) {b p : Nat} (hb : is[b]? = some p) (hk : pieces[p]? = some k) :
    ∃ r, out[b]? = some r ∧ ∀ (t : Nat) (n : Node κ H P) (rest : List (Node κ H P)), s.prev.drop t = n :: rest →
      n.csmHidden = after N.csm (r.inputs.take rest.length) ∧
      ∀ i, rest.length = i + 1 → ∃ row o, r.inputs[i]? = some row ∧
        n.csmPrior = some (N.csm (after N.csm (r.inputs.take i)) row).1 ∧ k.chords[i + 1]? = some o ∧
        (¬ KeyStart k (i + 1) →
          ∃ target, r.targets[i]? = some target ∧ o.oneHotIndex true settings.outputInv false settings.outputRed = .ok target) := by
  obtain ⟨-, -, -, M, -, hall⟩ := (C129_batch hpieces hdata settings is).1 out hout
  obtain ⟨k', r, e1, e2, hT⟩ := hall b p hb
  rw [hk] at e1
  injection e1 with e1
  subst e1
  refine ⟨r, e2, ?_⟩
  intro t n rest ht
  obtain ⟨rows, h1, h2, h3, -⟩ := (C89_csm hd hu s hs).2 t n rest ht
  have hrows : RecentRows d.labels d.pitchType C false rest.length (n :: rest) rows := h1
  rw [hp] at hrows
  have hlt : rest.length < x.chords.length := by
    have hf := h.follows.drop t
    rw [show (s.node :: s.prev).drop t = (s.node :: s.prev).drop t from rfl] at hf
    cases t with
    | zero =>
      rw [List.drop_zero] at ht hf
      rw [ht] at hf
      exact follows_lt hf
    | succ t =>
      have : ∃ n', (s.node :: s.prev).drop (t + 1) = n' :: n :: rest := by
        rw [List.drop_succ_cons]
        have hl : t < s.prev.length := by
          by_contra hge
          rw [List.drop_eq_nil_of_le (by omega)] at ht
          cases ht
        exact ⟨s.prev[t], by rw [List.drop_eq_getElem_cons hl, ht]⟩
      obtain ⟨n', hn'⟩ := this
      rw [hn'] at hf
      exact follows_lt hf
  have hR := C159_rows_partial h (t + 1) n rest (by rw [List.drop_succ_cons]; exact ht) false rows
    (fun he => absurd he (by omega)) hrows
  obtain ⟨last, ps, pe, ha⟩ := tables_annotated h.tables h.piece h.keyed
  have hkl : k.chords.length = x.chords.length := by rw [ha.chords, List.length_map]
  have hin := hT.inputs.2.1
  have heq : rows = r.inputs.take rest.length := by
    refine List.ext_getElem? ?_
    intro i
    rcases Nat.lt_or_ge i rest.length with hi | hi
    · obtain ⟨o, row, ch, a1, a2, a3, a4⟩ := hR.2 i hi
      obtain ⟨row', ch', b1, b2, b3⟩ := hin i o a1
      rw [changeAt_unique ha.valid a3 b2, b3] at a4
      injection a4 with a4
      rw [List.getElem?_take_of_lt hi, a2, b1, a4]
    · rw [List.getElem?_eq_none (by rw [hR.1]; exact hi), List.getElem?_eq_none (by rw [List.length_take]; omega)]
  refine ⟨by rw [h2, heq], ?_⟩
  intro i hi
  obtain ⟨o, ho⟩ : ∃ o, k.chords[i + 1]? = some o := ⟨_, List.getElem?_eq_getElem (by omega)⟩
  obtain ⟨o', row, ch, a1, a2, -⟩ := hR.2 i (by omega)
  have hrow : r.inputs[i]? = some row := by
    rw [heq, List.getElem?_take_of_lt (by omega)] at a2
    exact a2
  refine ⟨row, o, hrow, ?_, ho, ?_⟩
  · refine h3 (r.inputs.take i) row ?_
    obtain ⟨hl, e⟩ := List.getElem?_eq_some_iff.1 hrow
    rw [heq, hi, List.take_add_one, hrow]
    rfl
  · intro hno
    obtain ⟨target, t1, t2, -⟩ := hT.next i o ho hno
    exact ⟨target, t1, t2⟩

theorem pyGet_norm {α : Type} {l : List α} {i : Int} {v : α} (h : pyGet l i = .ok v) :
    ∃ m : Nat, m < l.length ∧ l[m]? = some v ∧ (i = m ∨ i = m - l.length) := by
  have fin : ∀ {m : Nat}, (match l[m]? with
      | some a => Except.ok a
      | none => Except.error PyErr.indexError) = .ok v → m < l.length ∧ l[m]? = some v := by
    intro m hm
    cases hl : l[m]? with
    | none => rw [hl] at hm; cases hm
    | some a =>
      rw [hl] at hm
      injection hm with hm
      exact ⟨(List.getElem?_eq_some_iff.1 hl).1, by rw [hm]⟩
  unfold pyGet at h
  split at h
  · obtain ⟨h1, h2⟩ := fin h
    exact ⟨_, h1, h2, .inl (by omega)⟩
  · split at h
    · obtain ⟨h1, h2⟩ := fin h
      exact ⟨_, h1, h2, .inr (by omega)⟩
    · cases h

theorem keyClasses_get : ∀ i < 70, (keyClasses .tpc false)[i]? =
    some (((i % 35 : Nat) : Int), if i < 35 then KeyMode.major else .minor) := by decide +kernel

/-- C159 (partial: as in `C159_rows_partial`): if the search finds the annotated analysis, then the cost of each change of key is what
the KSM gives to the class which is the target of this change in training, after the rows it is trained on for this change. -/
theorem C159_ksm_partial (hd : OK d) (hu : UsesNets d N C) (hp : d.pitchType = .tpc)
    (hrel : d.relativeKeys = relativeKeyLabels .tpc) (hN : ∀ hidden row, (N.ksm hidden row).1.length = 58) {s : State κ H P}
    (hs : d.search = .ok (some s)) (h : Analysis measures notes chords red useInv useSusp c x k C d.labels (s.node :: s.prev))
    {data : PieceData (List ℚ)} (hdata : sequencePiece k = .ok (some data)) (t : Nat) (n q : Node κ H P)
    (rest : List (Node κ H P)) (ht : (s.node :: s.prev).drop t = n :: q :: rest) (he : EndsLevel x rest.length)
    (hne : n.key ≠ q.key) :
    ∃ (j : Nat) (r : List ℚ) (target : Nat) (lp : κ), k.keyChanges[j + 1]? = some rest.length ∧
      data.lengths[j]? = some rest.length ∧ data.replacements[j]? = some r ∧ data.targets[j]? = some (target : Int) ∧
      (N.ksm (after N.ksm (data.rows.take rest.length)) r).1[target]? = some lp ∧
      n.ksm = some (d.scale (d.ksmExponent lp) ((n.changeIndex : Int) - q.changeIndex)) := by
  obtain ⟨-, rows, r, rel, lp, mode, interval, tonic, oldMode, h1, h2, h3, h4, h5, h6, h7, h8⟩ :=
    (C89_costs hd hu s hs t n q rest ht).2 hne
  rw [hp] at h2
  have hrows : RecentRows d.labels d.pitchType C true rest.length (q :: rest) rows := h1
  rw [hp] at hrows
  obtain ⟨last, ps, pe, ha⟩ := tables_annotated h.tables h.piece h.keyed
  have hf := h.follows.drop t
  rw [ht] at hf
  have hlt := follows_lt hf
  have hdrop : (s.node :: s.prev).drop (t + 1) = q :: rest := by
    rw [show t + 1 = 1 + t by omega, Nat.add_comm, ← List.drop_drop, ht]
    rfl
  have hR := C159_rows_partial h (t + 1) q rest hdrop true rows (fun he => absurd he (by omega)) hrows
  -- the chord and the keys
  have hf1 := hf.1
  obtain ⟨ch, id, a1, a2, a3, a4, a5⟩ := hf1.chord
  have hL : d.labels.key.Nodup := by rw [h.keys]; exact keys_nodup
  have ho : k.chords[rest.length]? = some ch.2 := by rw [ha.chords, List.getElem?_map, a1]; rfl
  obtain ⟨i, hi⟩ : ∃ i, rest.length = i + 1 := by
    cases hr : rest.length with
    | zero => exact absurd (hf1.first hr).symm hne
    | succ i => exact ⟨i, rfl⟩
  obtain ⟨ch', hch'⟩ : ∃ ch', x.chords[i]? = some ch' := ⟨_, List.getElem?_eq_getElem (by omega)⟩
  have ho' : k.chords[i]? = some ch'.2 := by rw [ha.chords, List.getElem?_map, hch']; rfl
  have hb := hf1.before i ch' hi hch'
  rw [hb] at h5
  injection h5 with h5
  injection h5 with h5 h5'
  rw [hi] at ho
  have hkk : (ch'.2.keyTonic, ch'.2.keyMode) ≠ (ch.2.keyTonic, ch.2.keyMode) := by
    intro e
    rw [e] at hb
    exact hne (pyGet_inj hL hf1.ids.2 hf1.ids.1 a4 hb)
  obtain ⟨j, hj⟩ := (ha.starts i _ _ ho' ho).2 hkk
  have hjl : j + 1 < k.keyChanges.length := (List.getElem?_eq_some_iff.1 hj).1
  have hkl := ha.valid.keys
  have hmono : ∀ p q : Nat, ∀ v w, p < q → k.keyChanges[p]? = some v → k.keyChanges[q]? = some w → v < w := by
    intro p q v w hpq hv hw
    obtain ⟨lv, ev⟩ := List.getElem?_eq_some_iff.1 hv
    obtain ⟨lw, ew⟩ := List.getElem?_eq_some_iff.1 hw
    have := List.pairwise_iff_getElem.1 ha.valid.increasing p q lv lw hpq
    omega
  have hle : k.keyChanges.Pairwise (· ≤ ·) := ha.valid.increasing.imp fun h => Nat.le_of_lt h
  have hj0 : k.keyChanges[j]? = some k.keyChanges[j] := List.getElem?_eq_getElem (by omega)
  have lt0 := hmono j (j + 1) _ _ (by omega) hj0 hj
  obtain ⟨-, hall⟩ := C68_sequences k ha.valid _ hdata
  obtain ⟨k0, lastChange, hk0, hlast, -, hup, -, hitems⟩ := hall data rfl
  rw [ha.keyTypes k0 (List.mem_of_getElem? hk0)] at hup hitems
  obtain ⟨b1, ⟨r', b2, key, o, v, c1, c2, c3, c4⟩, A, B, target, e1, e2, e3, e4⟩ := hitems j _ hj
  rw [e1] at c1
  injection c1 with c1
  subst c1
  rw [ho] at c2
  injection c2 with c2
  subst c2
  obtain ⟨l, cv, el⟩ := ha.covered i _ ho'
  obtain ⟨l', cv', el'⟩ := ha.covered (i + 1) _ ho
  have u1 : l = A := by
    refine LabelTable.covers_unique hle cv ⟨j, _, e1, hj0, by omega, ?_⟩
    intro b hb'
    rw [hj] at hb'
    injection hb' with hb'
    omega
  have u2 : l' = B := by
    refine LabelTable.covers_unique hle cv' ⟨j + 1, _, e2, hj, Nat.le_refl _, ?_⟩
    intro b hb'
    exact hmono (j + 1) (j + 2) _ _ (by omega) hj hb'
  subst u1 u2
  injection el with el1 el2
  injection el' with el3 el4
  have tt : l.tonicType = .tpc := ha.keyTypes l (List.mem_of_getElem? e1)
  -- the row
  have hrow : r = r' := by
    obtain ⟨o, change, g1, g2, g3⟩ := h2
    have hc := follows_chord ha h.caches hf1 he (by rw [hi]; exact ho)
    have hc' : ChordOf d.labels .tpc C { n with key := q.key } q
        { ch.2 with keyTonic := ch'.2.keyTonic, keyMode := ch'.2.keyMode } := by
      obtain ⟨id, z1, z2, z3, z4, z5⟩ := hc
      exact ⟨id, z1, z2, z3, hb, z5⟩
    rw [chordOf_unique g1 hc', g2.1 rfl] at g3
    simp only [sequenceRow, Bind.bind] at g3
    obtain ⟨w, hw, g3⟩ := SearchData.bind_ok g3
    injection g3 with g3
    have hvw : w = v := by
      have : Chord.toVec { ch.2 with keyTonic := ch'.2.keyTonic, keyMode := ch'.2.keyMode } none true noReduction =
          ch.2.toVec (some l) true noReduction := by
        simp only [Chord.toVec, Chord.tonicFor, Chord.modeFor, el1, el2]
        rfl
      rw [this, c3] at hw
      injection hw with hw
      exact hw.symm
    rw [← g3, c4, hvw]
  -- the class
  obtain ⟨m, m1, m2, m3⟩ := pyGet_norm h4
  rw [hrel] at m1 m2 m3
  rw [show (relativeKeyLabels .tpc).length = 58 by decide +kernel] at m1 m3
  rw [JointInit.relativeKeys_tpc m m1] at m2
  injection m2 with m2
  injection m2 with hm1 hm2
  obtain ⟨p, p1, p2, p3⟩ := pyGet_norm h3
  rw [hN] at p1 p3
  have hpm : p = m := by omega
  subst hpm
  obtain ⟨w, w1, w2, w3⟩ := pyGet_norm a4
  rw [h.keys] at w1 w2 w3
  rw [show (keyClasses .tpc false).length = 70 by decide +kernel] at w1 w3
  have hwk : n.key = w := by
    rcases w3 with w3 | w3
    · exact w3
    · have := hf1.ids.2
      omega
  rw [keyClasses_get w w1] at w2
  injection w2 with w2
  injection w2 with hw1 hw2
  have h7' := h7 hp
  rw [hp] at h6
  simp only at h6
  rw [hwk] at h6
  have hmaj : KeyMode.major.value = 0 := rfl
  have hmin : KeyMode.minor.value = 1 := rfl
  have hmode : ch.2.keyMode = mode ∧ ch.2.keyTonic = tonic + interval := by
    cases mode
    · rw [hmaj] at h6
      rw [if_pos (by omega)] at hw2
      exact ⟨hw2.symm, by omega⟩
    · rw [hmin] at h6
      rw [if_neg (by omega)] at hw2
      exact ⟨hw2.symm, by omega⟩
  have htarget : target = (p : Int) := by
    simp only [Key.changeOneHot, Bind.bind, tt, absoluteToRelative, el1, el3, el4, hmode.1, hmode.2, h5] at e3
    obtain ⟨iv, hiv, e3⟩ := SearchData.bind_ok e3
    simp only [MIN_KEY_CHANGE_INTERVAL_TPC, MAX_KEY_CHANGE_INTERVAL_TPC, Bool.not_true, Bool.and_false, Bool.false_eq_true,
      if_true, if_false] at hiv
    split at hiv
    · cases hiv
    · injection hiv with hiv
      injection e3 with e3
      have h29 : numKeyIntervals .tpc = 29 := rfl
      rw [h29] at e3
      revert hm1 e3
      split
      · rintro rfl e3
        rw [hmaj] at e3
        omega
      · rintro rfl e3
        rw [hmin] at e3
        omega
  rw [hi]
  refine ⟨j, r', p, lp, hj, b1, b2, ?_, ?_, h8⟩
  · rw [e4, htarget]
  · have hle : rest.length ≤ lastChange := by
      rw [List.getLast?_eq_getElem?] at hlast
      rcases Nat.lt_or_ge (j + 1) (k.keyChanges.length - 1) with hlt' | hge
      · have := hmono _ _ _ _ hlt' hj hlast
        omega
      · rw [show k.keyChanges.length - 1 = j + 1 by omega, hj] at hlast
        injection hlast with hlast
        omega
    rw [← hi, ← hrow, ← rows_unique ha.valid hR hup hle]
    exact p2

end

end

/-! ## Where the rows differ -/

theorem oneHot_length {n : Nat} {i : Int} {v : List ℚ} (h : oneHot n i = .ok v) : v.length = n := by
  simp only [oneHot, pySet] at h
  split at h
  · injection h with h
    rw [← h]
    simp [zeros]
  · split at h
    · injection h with h
      rw [← h]
      simp [zeros]
    · cases h

/-- The entries of the offset level and of the duration. -/
theorem row_entries {o : Chord ℚ} {change : Option (Key × Key)} {pad : Bool} {row : List ℚ}
    (h : sequenceRow o .tpc change pad = .ok row) : ∃ off, oneHot 4 o.offsetLevel = .ok off ∧
      (row.drop (2 * relPitches o.pitchType pad + 20)).take 5 = off ++ [o.duration] := by
  have hpre : ∃ v rest, o.toVec none pad noReduction = .ok v ∧ row = v ++ rest := by
    simp only [sequenceRow, Bind.bind] at h
    obtain ⟨v, hv, h⟩ := SearchData.bind_ok h
    cases change with
    | none =>
      injection h with h
      exact ⟨v, _, hv, h.symm⟩
    | some p =>
      obtain ⟨kv, -, h⟩ := SearchData.bind_ok h
      split at h
      · cases h
      · injection h with h
        exact ⟨v, _, hv, by rw [← h, List.append_assoc]⟩
  obtain ⟨v, rest, hv, rfl⟩ := hpre
  simp only [Chord.toVec, Bind.bind] at hv
  obtain ⟨r, -, hv⟩ := SearchData.bind_ok hv
  obtain ⟨p1, h1, hv⟩ := SearchData.bind_ok hv
  obtain ⟨p2, h2, hv⟩ := SearchData.bind_ok hv
  obtain ⟨b, -, hv⟩ := SearchData.bind_ok hv
  obtain ⟨p3, h3, hv⟩ := SearchData.bind_ok hv
  obtain ⟨p4, h4, hv⟩ := SearchData.bind_ok hv
  obtain ⟨p5, h5, hv⟩ := SearchData.bind_ok hv
  obtain ⟨p6, h6, hv⟩ := SearchData.bind_ok hv
  injection hv with hv
  refine ⟨p6, h6, ?_⟩
  have l1 := oneHot_length h1
  have l2 := oneHot_length h2
  have l3 := oneHot_length h3
  have l4 := oneHot_length h4
  have l5 := oneHot_length h5
  have l6 := oneHot_length h6
  have l12 : ChordType.all.length = 12 := rfl
  rw [← hv]
  simp only [List.append_assoc]
  rw [← List.append_assoc p1, ← List.append_assoc (p1 ++ p2), ← List.append_assoc (p1 ++ p2 ++ p3),
    ← List.append_assoc (p1 ++ p2 ++ p3 ++ p4)]
  rw [List.drop_left' (by simp only [List.length_append]; omega), ← List.append_assoc,
    List.take_left' (by simp only [List.length_append, List.length_singleton]; omega)]

theorem row_differs {o o' : Chord ℚ} {change change' : Option (Key × Key)} {pad : Bool} {row : List ℚ}
    (h : sequenceRow o .tpc change pad = .ok row) (h' : sequenceRow o' .tpc change' pad = .ok row)
    (hp : o.pitchType = o'.pitchType) : oneHot 4 o.offsetLevel = oneHot 4 o'.offsetLevel ∧ o.duration = o'.duration := by
  obtain ⟨off, a1, a2⟩ := row_entries h
  obtain ⟨off', b1, b2⟩ := row_entries h'
  rw [hp, b2] at a2
  have hl : off'.length = off.length := by rw [oneHot_length a1, oneHot_length b1]
  obtain ⟨e1, e2⟩ := List.append_inj a2 hl
  injection e2 with e2
  exact ⟨by rw [a1, b1, e1], e2.symm⟩

/-- C in the first measure, E after half of the second one, and G and C in the third one. -/
def restNotes : List NoteRow :=
  [⟨60, 0, 0, 0, 1, 0, 1, none⟩, ⟨64, 4, 1, 1/2, 2, 0, 1/2, none⟩, ⟨67, 1, 2, 0, 3, 0, 1, none⟩,
    ⟨60, 0, 2, 0, 3, 0, 1, none⟩]

/-- C, E and G in three measures, and a short C together with G. -/
def shortNotes : List NoteRow :=
  [⟨60, 0, 0, 0, 1, 0, 1, none⟩, ⟨64, 4, 1, 0, 2, 0, 1, none⟩, ⟨67, 1, 2, 0, 3, 0, 1, none⟩,
    ⟨60, 0, 2, 0, 2, 1/2, 1/2, none⟩]

theorem inside_half : Inside (TablePiece.exMeasures.map (·.measure)) (1, 1/2) :=
  ⟨1, _, rfl, rfl, by decide +kernel, by decide +kernel⟩

theorem at_half : At (TablePiece.exMeasures.map (·.measure)) 1 (1/2) (3/2 : ℚ) :=
  ⟨1, _, rfl, rfl, by simp [chainPos, TablePiece.exMeasures]; norm_num⟩

theorem rest_tables : Tables TablePiece.exMeasures restNotes keyedRows noReduction true true
    (TablePiece.exMeasures.map (·.measure)) :=
  { keyed_tables with
    twoNotes := by decide
    spelled := by decide
    sounding := by decide
    metered := by
      intro r hr
      simp only [restNotes, List.mem_cons, List.not_mem_nil, or_false] at hr
      rcases hr with rfl | rfl | rfl | rfl
      · exact ⟨ex_metered 0 (by omega), ex_metered 1 (by omega)⟩
      · exact ⟨ex_metered 1 (by omega), ex_metered 2 (by omega)⟩
      · exact ⟨ex_metered 2 (by omega), ex_metered 3 (by omega)⟩
      · exact ⟨ex_metered 2 (by omega), ex_metered 3 (by omega)⟩
    inside := by
      intro r hr
      simp only [restNotes, List.mem_cons, List.not_mem_nil, or_false] at hr
      rcases hr with rfl | rfl | rfl | rfl
      · exact ex_inside 0 (by omega)
      · exact inside_half
      · exact ex_inside 2 (by omega)
      · exact ex_inside 2 (by omega)
    noteOrder := by decide +kernel
    ended := by
      intro r hr n hn p t hp ht
      by_cases hn' : n ∈ TablePiece.exNotes
      · exact keyed_tables.ended r hr n hn' p t hp ht
      · have hn : n = ⟨64, 4, 1, 1/2, 2, 0, 1/2, none⟩ := by
          simp only [restNotes, List.mem_cons, List.not_mem_nil, or_false] at hn
          rcases hn with rfl | rfl | rfl | rfl
          · exact absurd (by decide +kernel) hn'
          · rfl
          · exact absurd (by decide +kernel) hn'
          · exact absurd (by decide +kernel) hn'
        subst hn
        rw [at_unique (x := (1, 1/2)) ex_chain hp at_half]
        have h2 := keyed_tables.ended r hr ⟨67, 1, 2, 0, 3, 0, 1, none⟩ (by decide +kernel) 2 t (ex_at 2 (by omega)) ht
        have : (3/2 : ℚ) ≤ 2 := by norm_num
        exact this.trans h2
    begun := by
      intro r hr
      obtain ⟨n, hn, h⟩ := keyed_tables.begun r hr
      refine ⟨⟨67, 1, 2, 0, 3, 0, 1, none⟩, by decide +kernel, h.trans ?_⟩
      clear h
      revert n
      decide +kernel }

theorem short_tables : Tables TablePiece.exMeasures shortNotes keyedRows noReduction true true
    (TablePiece.exMeasures.map (·.measure)) :=
  { keyed_tables with
    twoNotes := by decide
    spelled := by decide
    sounding := by decide
    metered := by
      intro r hr
      simp only [shortNotes, List.mem_cons, List.not_mem_nil, or_false] at hr
      rcases hr with rfl | rfl | rfl | rfl
      · exact ⟨ex_metered 0 (by omega), ex_metered 1 (by omega)⟩
      · exact ⟨ex_metered 1 (by omega), ex_metered 2 (by omega)⟩
      · exact ⟨ex_metered 2 (by omega), ex_metered 3 (by omega)⟩
      · exact ⟨ex_metered 2 (by omega), ex_metered 2 (by omega)⟩
    inside := by
      intro r hr
      simp only [shortNotes, List.mem_cons, List.not_mem_nil, or_false] at hr
      rcases hr with rfl | rfl | rfl | rfl
      · exact ex_inside 0 (by omega)
      · exact ex_inside 1 (by omega)
      · exact ex_inside 2 (by omega)
      · exact ex_inside 2 (by omega)
    noteOrder := by decide +kernel
    ended := by
      intro r hr n hn p t hp ht
      have hn' : ∃ n' ∈ TablePiece.exNotes, n'.mc = n.mc ∧ n'.onset = n.onset := by
        clear hp
        revert n
        decide +kernel
      obtain ⟨n', h1, h2, h3⟩ := hn'
      rw [← h2, ← h3] at hp
      exact keyed_tables.ended r hr n' h1 p t hp ht
    begun := by
      intro r hr
      obtain ⟨n, hn, h⟩ := keyed_tables.begun r hr
      refine ⟨⟨67, 1, 2, 0, 3, 0, 1, none⟩, by decide +kernel, h.trans ?_⟩
      clear h
      revert n
      decide +kernel }

/-- C159 does not hold for chords which begin in a rest: no nodes of which the later one ends with the chord give the row of
the datasets to the models. -/
theorem C159_rest_fails : ∃ x k C, Tables TablePiece.exMeasures restNotes keyedRows noReduction true true
      (TablePiece.exMeasures.map (·.measure)) ∧
    tablePiece TablePiece.exMeasures restNotes keyedRows noReduction true true false = .ok x ∧
    tableKeyed TablePiece.exMeasures restNotes keyedRows noReduction true true false = .ok k ∧ pieceCaches x = .ok C ∧
    ∃ ch ∈ x.chords, ∀ (κ H P : Type) (L : Labels) (n q : Node κ H P) (pad : Bool) (row : List ℚ)
      (change : Option (Key × Key)), (x.notes[n.changeIndex]?).map NoteObj.onset = some ch.1.offset →
        SeqRow L .tpc C pad n q row → sequenceRow ch.2 .tpc change pad ≠ .ok row := by
  obtain ⟨x, hx, -⟩ := C149_piece_partial rest_tables false
  obtain ⟨k, hk, -⟩ := C150_piece_partial rest_tables false
  have h1 : ((tablePiece TablePiece.exMeasures restNotes keyedRows noReduction true true false).bind pieceCaches).map
      (fun C => (C.durations, C.levels)) = .ok ([3/2, 1/2, 0, 1], [3, 2, 3, 3, 3]) := by decide +kernel
  have h2 : (tablePiece TablePiece.exMeasures restNotes keyedRows noReduction true true false).map (fun x =>
      (x.notes.map NoteObj.onset, (x.chords[1]?).map fun ch => (ch.1.offset, ch.2.duration, ch.2.pitchType))) =
        .ok ([(0, 0), (1, 1/2), (2, 0), (2, 0)], some ((2, 0), 1, .tpc)) := by decide +kernel
  rw [hx] at h1 h2
  obtain ⟨C, hC, h1⟩ := map_ok h1
  simp only [Except.map, Except.ok.injEq, Prod.mk.injEq] at h2
  obtain ⟨h2, h3⟩ := h2
  injection h1 with h1 h1'
  obtain ⟨ch, hch, h3⟩ := Option.map_eq_some_iff.1 h3
  simp only [Prod.mk.injEq] at h3
  refine ⟨x, k, C, rest_tables, hx, hk, hC, ch, List.mem_of_getElem? hch, ?_⟩
  intro κ H P L n q pad row change hn hrow heq
  obtain ⟨o, change', ⟨id, -, -, -, -, -, -, b1, b2⟩, -, b3⟩ := hrow
  have hd := (row_differs heq b3 (by rw [h3.2.2, b2])).2
  rw [h3.2.1, b1, h1] at hd
  rw [h3.1, ← List.getElem?_map, h2] at hn
  have hi : n.changeIndex = 2 ∨ n.changeIndex = 3 := by
    match hm : n.changeIndex with
    | 0 => rw [hm] at hn; exact absurd hn (by decide)
    | 1 => rw [hm] at hn; exact absurd hn (by decide)
    | 2 => exact .inl rfl
    | 3 => exact .inr rfl
    | m + 4 => rw [hm] at hn; cases hn
  clear b1
  rcases hi with hi | hi <;> rw [hi] at hd <;> revert hd <;> generalize q.changeIndex = j <;> intro hd
  · match j with
    | 0 => exact absurd hd (by decide +kernel)
    | 1 => exact absurd hd (by decide +kernel)
    | m + 2 => rw [show 2 - (m + 2) = 0 by omega] at hd; exact absurd hd (by simp)
  · match j with
    | 0 => exact absurd hd (by decide +kernel)
    | 1 => exact absurd hd (by decide +kernel)
    | 2 => exact absurd hd (by decide +kernel)
    | m + 3 => rw [show 3 - (m + 3) = 0 by omega] at hd; exact absurd hd (by simp)

/-- C159 does not hold for a last chord which ends at another metrical level than the last note. -/
theorem C159_last_fails : ∃ x k C, Tables TablePiece.exMeasures shortNotes keyedRows noReduction true true
      (TablePiece.exMeasures.map (·.measure)) ∧
    tablePiece TablePiece.exMeasures shortNotes keyedRows noReduction true true false = .ok x ∧
    tableKeyed TablePiece.exMeasures shortNotes keyedRows noReduction true true false = .ok k ∧ pieceCaches x = .ok C ∧
    ∃ ch, x.chords.getLast? = some ch ∧ ∀ (κ H P : Type) (L : Labels) (n q : Node κ H P) (pad : Bool) (row : List ℚ)
      (change : Option (Key × Key)), n.changeIndex = x.notes.length →
        SeqRow L .tpc C pad n q row → sequenceRow ch.2 .tpc change pad ≠ .ok row := by
  obtain ⟨x, hx, -⟩ := C149_piece_partial short_tables false
  obtain ⟨k, hk, -⟩ := C150_piece_partial short_tables false
  have h1 : ((tablePiece TablePiece.exMeasures shortNotes keyedRows noReduction true true false).bind pieceCaches).map
      (fun C => (C.durations, C.levels)) = .ok ([1, 1, 0, 1], [3, 3, 3, 3, 2]) := by decide +kernel
  have h2 : (tablePiece TablePiece.exMeasures shortNotes keyedRows noReduction true true false).map (fun x =>
      (x.notes.length, (x.chords.getLast?).map fun ch => (ch.2.offsetLevel, ch.2.pitchType))) =
        .ok (4, some (3, .tpc)) := by decide +kernel
  rw [hx] at h1 h2
  obtain ⟨C, hC, h1⟩ := map_ok h1
  simp only [Except.map, Except.ok.injEq, Prod.mk.injEq] at h2
  obtain ⟨h2, h3⟩ := h2
  injection h1 with h1 h1'
  obtain ⟨ch, hch, h3⟩ := Option.map_eq_some_iff.1 h3
  simp only [Prod.mk.injEq] at h3
  refine ⟨x, k, C, short_tables, hx, hk, hC, ch, hch, ?_⟩
  intro κ H P L n q pad row change hn hrow heq
  obtain ⟨o, change', ⟨id, -, -, -, -, -, b0, -, b2⟩, -, b3⟩ := hrow
  have hd := (row_differs heq b3 (by rw [h3.2, b2])).1
  rw [hn, h2, h1'] at b0
  have b0 : (2 : Int) = o.offsetLevel := by simpa using b0
  rw [h3.1, ← b0] at hd
  exact absurd hd (by decide +kernel)

/-! ## A search which finds the annotated analysis -/

/-- Networks whose hidden state is the number of rows seen. -/
def seenNets : Nets Int Int Nat Nat where
  csm h r := (h.getD 0 + r.length, h.getD 0 + 1)
  ktm h _ := (5, h.getD 0 + 1)
  ksm h _ := ((pyRange 0 58).map fun i => -i - 100 * (h.getD 0 : Int), h.getD 0 + 1)
  order _ := pyRange 0 58
  maxIndex _ := 2

/-- I and V of C major, and VI of G major. -/
def exLabels : Labels := ⟨[(15, .major, 0), (16, .major, 0), (19, .major, 0)], keyClasses .tpc false⟩

/-- The caches of the piece with these chords. -/
def exCaches : Caches := ⟨[1, 1, 0, 1], [3, 3, 3, 3, 3]⟩

/-- The search with the annotated labels. -/
def exSearch : SearchData Int Int Nat Nat where
  labels := exLabels
  relativeKeys := relativeKeyLabels .tpc
  pitchType := .tpc
  beamSize := 10
  hashLength := none
  numInputs := 4
  ranges := [(0, demoRange 1 [0, 1, 2]), (1, demoRange 2 [0, 1, 2]), (2, demoRange 4 [0, 1, 2])]
  forcedChords := [0, 1, 2, 2]
  forcedKeys := [15, 15, 16, 16]
  pick := pickMin
  minChange := 3
  maxNoChange := 7
  leProb a b := decide (a ≤ b)
  zeroProb := 0
  logChange _ := -2
  logNoChange _ := -1
  lt a b := decide (a < b)
  ge a b := decide (b ≤ a)
  scale x n := x * n
  ksmExponent x := x
  icm minor := if minor then 1000 else 2000
  csm s := (s.csmInput exLabels .tpc exCaches).map (seenNets.csm s.node.csmHidden)
  csmCost s := .ok (-(s.node.csmPrior.getD 0 : Int))
  ktm s := (ktmInput exLabels .tpc exCaches s.node s.prev).map (seenNets.ktm s.node.ktmHidden)
  ksm s := (ksmInput exLabels .tpc exCaches s.node s.prev).bind
    fun rows => ksmOutput seenNets (runNet seenNets.ksm s.node.ksmHidden rows)

example : OK exSearch :=
  ⟨by simp [exSearch, demoRange], by simp [exSearch], pickMin_mem⟩

example : UsesNets exSearch seenNets exCaches := ⟨fun _ => rfl, fun _ => rfl, fun _ => rfl⟩

theorem toOption_some {α : Type} {r : Py (Option α)} {a : α} (h : r.toOption.bind id = some a) : r = .ok (some a) := by
  cases r with
  | error e => cases h
  | ok o => exact congrArg Except.ok h

theorem map_three {α β : Type} {f : α → β} {l : List α} {p q r : β} (h : l.map f = [p, q, r]) :
    ∃ a b c, l = [a, b, c] ∧ f a = p ∧ f b = q ∧ f c = r := by
  obtain ⟨a, l, rfl, h1, h⟩ := List.map_eq_cons_iff.1 h
  obtain ⟨b, l, rfl, h2, h⟩ := List.map_eq_cons_iff.1 h
  obtain ⟨c, l, rfl, h3, h⟩ := List.map_eq_cons_iff.1 h
  rw [List.map_eq_nil_iff] at h
  exact ⟨a, b, c, by rw [h], h1, h2, h3⟩

/-- The nodes of the result. -/
theorem ex_found : ∃ s n2 n1 n0, exSearch.search = .ok (some s) ∧ s.prev = [n2, n1, n0] ∧
    (s.node.key, s.node.chord, s.node.changeIndex) = (16, some 2, 4) ∧ (n2.key, n2.chord, n2.changeIndex) = (15, some 1, 2) ∧
    (n1.key, n1.chord, n1.changeIndex) = (15, some 0, 1) ∧ (n0.key, n0.chord, n0.changeIndex) = (15, none, 0) := by
  have h : (exSearch.search.toOption.bind id).map (fun s => ((s.node.key, s.node.chord, s.node.changeIndex),
      s.prev.map fun n => (n.key, n.chord, n.changeIndex))) =
      some ((16, some 2, 4), [(15, some 1, 2), (15, some 0, 1), (15, none, 0)]) := by decide +kernel
  obtain ⟨s, hs, h3⟩ := Option.map_eq_some_iff.1 h
  injection h3 with h3 h4
  obtain ⟨n2, n1, n0, hp, h4⟩ := map_three h4
  exact ⟨s, n2, n1, n0, toOption_some hs, hp, h3, h4⟩

/-- The piece. -/
theorem ex_read : ∃ x a b c d u v w,
    tablePiece TablePiece.exMeasures TablePiece.exNotes keyedRows noReduction true true false = .ok x ∧
    pieceCaches x = .ok exCaches ∧ x.notes = [a, b, c, d] ∧ x.chords = [u, v, w] ∧
    (a.onset = (0, 0) ∧ b.onset = (1, 0) ∧ c.onset = (2, 0) ∧ d.offsetLevel = 3) ∧
    (u.1.onset = (0, 0) ∧ v.1.onset = (1, 0) ∧ w.1.onset = (2, 0) ∧ w.2.offsetLevel = 3) ∧
    (u.2.root, u.2.chordType, u.2.inversion) = (15, .major, 0) ∧ (v.2.root, v.2.chordType, v.2.inversion) = (16, .major, 0) ∧
    (w.2.root, w.2.chordType, w.2.inversion) = (19, .major, 0) ∧ (u.2.keyTonic, u.2.keyMode) = (15, .major) ∧
    (v.2.keyTonic, v.2.keyMode) = (15, .major) ∧ (w.2.keyTonic, w.2.keyMode) = (16, .major) := by
  obtain ⟨x, hx, -⟩ := C149_piece_partial keyed_tables false
  have h1 : ((tablePiece TablePiece.exMeasures TablePiece.exNotes keyedRows noReduction true true false).bind
      pieceCaches).map (fun C => (C.durations, C.levels)) = .ok ([1, 1, 0, 1], [3, 3, 3, 3, 3]) := by decide +kernel
  have h2 : (tablePiece TablePiece.exMeasures TablePiece.exNotes keyedRows noReduction true true false).map (fun x =>
      x.notes.map fun n => (n.onset, n.offsetLevel)) = .ok [((0, 0), 3), ((1, 0), 3), ((2, 0), 3), ((2, 0), 3)] := by
    decide +kernel
  have h3 : (tablePiece TablePiece.exMeasures TablePiece.exNotes keyedRows noReduction true true false).map (fun x =>
      x.chords.map fun ch => (ch.1.onset, ch.2.offsetLevel)) = .ok [((0, 0), 3), ((1, 0), 3), ((2, 0), 3)] := by
    decide +kernel
  have h4 : (tablePiece TablePiece.exMeasures TablePiece.exNotes keyedRows noReduction true true false).map (fun x =>
      x.chords.map fun ch => (ch.2.root, ch.2.chordType, ch.2.inversion)) =
        .ok [(15, .major, 0), (16, .major, 0), (19, .major, 0)] := by decide +kernel
  have h5 : (tablePiece TablePiece.exMeasures TablePiece.exNotes keyedRows noReduction true true false).map (fun x =>
      x.chords.map fun ch => (ch.2.keyTonic, ch.2.keyMode)) = .ok [(15, .major), (15, .major), (16, .major)] := by
    decide +kernel
  rw [hx] at h1 h2 h3 h4 h5
  obtain ⟨C, hC, h1⟩ := map_ok h1
  have hCe : C = exCaches := by
    cases C
    injection h1 with h1 h1'
    simp only at h1 h1'
    rw [h1, h1']
    rfl
  rw [hCe] at hC
  simp only [Except.map, Except.ok.injEq] at h2 h3 h4 h5
  obtain ⟨a, l, hn, ha, h2⟩ := List.map_eq_cons_iff.1 h2
  obtain ⟨b, c, d, rfl, hb, hc, hd⟩ := map_three h2
  obtain ⟨u, v, w, hch, hu, hv, hw⟩ := map_three h3
  rw [hch] at h4 h5
  simp only [List.map_cons, List.map_nil, List.cons.injEq, and_true] at h4 h5
  injection ha with ha _
  injection hb with hb _
  injection hc with hc _
  injection hd with _ hd
  injection hu with hu _
  injection hv with hv _
  injection hw with hw hw'
  exact ⟨x, a, b, c, d, u, v, w, hx, hC, hn, hch, ⟨ha, hb, hc, hd⟩, ⟨hu, hv, hw, hw'⟩, h4.1, h4.2.1, h4.2.2, h5⟩

/-- It finds the annotated analysis. -/
theorem ex_analysis : ∃ s x k, exSearch.search = .ok (some s) ∧
    Analysis TablePiece.exMeasures TablePiece.exNotes keyedRows noReduction true false (TablePiece.exMeasures.map (·.measure))
      x k exCaches exLabels (s.node :: s.prev) ∧ (∀ i, EndsLevel x i) ∧ s.prev.length = 3 := by
  obtain ⟨k, hk, -⟩ := C150_piece_partial keyed_tables false
  obtain ⟨s, n2, n1, n0, hs, hp, e3, e2, e1, e0⟩ := ex_found
  obtain ⟨x, a, b, c, d, u, v, w, hx, hC, hn, hc, ⟨ha, hb, hcc, hd⟩, ⟨hu, hv, hw, hw'⟩, lu, lv, lw, ku, kv, kw⟩ := ex_read
  simp only [Prod.mk.injEq] at e3 e2 e1 e0
  obtain ⟨k3, c3, i3⟩ := e3
  obtain ⟨k2, c2, i2⟩ := e2
  obtain ⟨k1, c1, i1⟩ := e1
  obtain ⟨k0, -, i0⟩ := e0
  refine ⟨s, x, k, hs, ⟨keyed_tables, hx, hk, hC, rfl, ?_⟩, ?_, by rw [hp]; rfl⟩
  · rw [hp]
    refine ⟨⟨⟨w, 2, by rw [hc]; rfl, c3, ?_, ?_, ?_⟩, by omega, ?_, ?_, ?_, ?_, by omega⟩,
      ⟨⟨v, 1, by rw [hc]; rfl, c2, ?_, ?_, ?_⟩, by omega, ?_, ?_, ?_, ?_, by omega⟩,
      ⟨⟨u, 0, by rw [hc]; rfl, c1, ?_, ?_, ?_⟩, by omega, ?_, ?_, ?_, ?_, by omega⟩, trivial⟩
    · rw [lw]; decide
    · rw [kw, k3]; decide +kernel
    · rw [hn, i2, hw, ← hcc]; rfl
    · intro ch hch; rw [hc] at hch; cases hch
    · intro _; rw [i3, hn]; rfl
    · intro h; cases h
    · intro j ch hj hch
      have : j = 1 := by simpa using hj.symm
      subst this
      rw [hc] at hch
      replace hch := Option.some.inj hch
      rw [← hch, kv, k2]; decide +kernel
    · rw [lv]; decide
    · rw [kv, k2]; decide +kernel
    · rw [hn, i1, hv, ← hb]; rfl
    · intro ch hch
      rw [hc] at hch
      replace hch := Option.some.inj hch
      rw [← hch, hn, i2, hw, ← hcc]; rfl
    · intro h; rw [hc] at h; cases h
    · intro h; cases h
    · intro j ch hj hch
      have : j = 0 := by simpa using hj.symm
      subst this
      rw [hc] at hch
      replace hch := Option.some.inj hch
      rw [← hch, ku, k1]; decide +kernel
    · rw [lu]; decide
    · rw [ku, k1]; decide +kernel
    · rw [hn, i0, hu, ← ha]; rfl
    · intro ch hch
      rw [hc] at hch
      replace hch := Option.some.inj hch
      rw [← hch, hn, i1, hv, ← hb]; rfl
    · intro h; rw [hc] at h; cases h
    · intro _; rw [k0, k1]
    · intro j ch hj; cases hj
  · intro i hi ch n hch hl
    rw [hc] at hi hch
    have : i = 2 := by simpa using hi
    subst this
    replace hch := Option.some.inj hch
    rw [hn] at hl
    replace hl := Option.some.inj hl
    have hl : d = n := hl
    rw [← hch, ← hl, hw', hd]
    rfl

/-- The states of the models in its nodes, and the cost of the change of key: class 15 (a fifth up, in major) after two rows,
for two notes. -/
example : (exSearch.search.toOption.bind id).map (fun s => (s.node :: s.prev).map
    fun n => (n.ktmHidden, n.csmHidden, n.ksmHidden, n.ksm)) =
    some [(some 3, some 2, some 3, some (-430)), (some 2, some 2, none, none), (some 1, some 1, none, none),
      (none, none, none, none)] := by decide +kernel

/-- In training the target of this change is class 15, too. -/
example : (tableKeyed TablePiece.exMeasures TablePiece.exNotes keyedRows noReduction true true false).bind (fun k =>
    (sequencePiece k).map fun o => o.map fun data => (data.lengths, data.targets)) = .ok (some ([2], [15])) := by
  decide +kernel

end Verif.AnnotatedRows
