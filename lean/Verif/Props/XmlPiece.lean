import Verif.XmlPiece
import Verif.Props.LabelsCsv
import Verif.Props.PieceKeys
import Verif.Props.Piece
import Verif.Props.KeyChange
import Verif.Props.KeyDatasetRows

/-!
# C84, C85: pieces from MusicXML scores
-/

namespace Verif.XmlPieces

open Verif.Eval (Covers)
open Verif.PieceKeys Verif.MusicXml Verif.LabelsCsv

/-! ## Labels -/

/-- A degree with a `+` that belongs to the type of the chord. -/
def withoutPlus (s : Str) : Str :=
  match s with
  | [d, '+'] => if d ∈ ['1', '2', '3', '4', '5'] then [d] else s
  | _ => s

theorem dropPlus_all (l : CsvLabel) :
    ['1', '2', '3', '4', '5'].foldl dropPlus l = { l with degree := withoutPlus l.degree } := by
  obtain ⟨on, off, key, degree, type, inv⟩ := l
  simp only [List.foldl_cons, List.foldl_nil]
  by_cases h : ∃ d ∈ ['1', '2', '3', '4', '5'], degree = [d, '+']
  · obtain ⟨d, hd, rfl⟩ := h
    simp only [List.mem_cons, List.not_mem_nil, or_false] at hd
    rcases hd with rfl | rfl | rfl | rfl | rfl <;> simp [dropPlus, withoutPlus]
  · have hne : ∀ d ∈ ['1', '2', '3', '4', '5'], degree ≠ [d, '+'] := fun d hd e => h ⟨d, hd, e⟩
    have e : withoutPlus degree = degree := by
      unfold withoutPlus
      split
      · rename_i d
        rw [if_neg (fun hd => hne d hd rfl)]
      · rfl
    simp only [e]
    simp [dropPlus, hne]

/-- C84: the labels that are used are those that have a duration and do not begin before the score, in whole
notes. -/
theorem C84_labels (labels : List CsvLabel) :
    cleanLabels labels = (labels.filter (fun l => decide (0 ≤ l.on ∧ l.on < l.off))).map
      (fun l => ⟨l.on / 4, l.off / 4, l.key, withoutPlus l.degree, l.type, l.inv⟩) := by
  unfold cleanLabels
  simp only [dropPlus_all]
  induction labels with
  | nil => rfl
  | cons l labels ih =>
    simp only [List.map_cons]
    by_cases h : 0 ≤ l.on ∧ l.on < l.off
    · have h1 : 0 ≤ l.on / 4 := by have := h.1; linarith
      have h2 : l.on / 4 < l.off / 4 := by have := h.2; linarith
      have h3 : 0 < l.off / 4 := by linarith
      rw [List.filter_cons_of_pos (by simp [h1, h3]), List.filter_cons_of_pos (by simpa using h2),
        List.filter_cons_of_pos (by simpa using h)]
      simp only [List.map_cons, ih]
    · rw [List.filter_cons_of_neg (p := fun l : CsvLabel => decide (0 ≤ l.on ∧ l.on < l.off)) (by simpa using h)]
      rw [← ih]
      by_cases h1 : 0 ≤ l.on / 4 ∧ 0 < l.off / 4
      · rw [List.filter_cons_of_pos (by simpa using h1), List.filter_cons_of_neg]
        simp only [gt_iff_lt, decide_eq_true_eq]
        intro h2
        exact h ⟨by linarith [h1.1], by linarith⟩
      · rw [List.filter_cons_of_neg (by simpa using h1)]

/-! ## Masks over a range -/

theorem range_covers {γ : Type} {rep : γ → γ → Bool} (h : Equiv rep) (l : List γ) (i : Nat) (x : γ)
    (hx : l[i]? = some x) :
    ∃ y, Covers (kept l (fullMask rep l)) (kept (List.range l.length) (fullMask rep l)) i y ∧ rep x y = true := by
  have hr : ∀ j a : Nat, (List.range l.length)[j]? = some a → a = j := by
    intro j a hj
    have hlt := (List.getElem?_eq_some_iff.1 hj).1
    rw [List.length_range] at hlt
    rw [List.getElem?_range hlt] at hj
    injection hj with hj
    exact hj.symm
  obtain ⟨k, j, a, y, h1, h2, h3, h4, h5, h6⟩ := fullMask_covers h l (List.range l.length) (by simp) i x hx
  obtain rfl := hr j a h4
  refine ⟨y, ⟨k, a, h1, h2, h3, ?_⟩, h5⟩
  intro b hb
  obtain ⟨j, hj, hj'⟩ := h6 b hb
  obtain rfl := hr j b hj'
  exact hj

/-! ## Positions -/

/-- Later times have later positions. -/
theorem label_mono (rows : List XmlRow) {x y : ℚ} {p q : Int × ℚ} {r r' : XmlRow}
    {i j : Nat} (hp : LabelAt rows x p r i) (hq : LabelAt rows y q r' j) (hxy : x ≤ y) : toLex p ≤ toLex q := by
  rw [Prod.Lex.toLex_le_toLex]
  rcases Nat.lt_trichotomy i j with hij | hij | hij
  · left; rw [hp.mc, hq.mc]; exact_mod_cast hij
  · right
    subst hij
    have : r = r' := by
      have := hp.row.symm.trans hq.row
      injection this
    subst this
    refine ⟨by rw [hp.mc, hq.mc], ?_⟩
    rw [hp.beat, hq.beat]
    linarith
  · exfalso
    have := hq.last i r hij hp.row
    have := hp.begun
    linarith

/-! ## The piece -/

/-- How labels are read in `get_score_piece_from_music_xml`. -/
abbrev readLabel (rows : List XmlRow) (l : CsvLabel) : Py SeriesChord := labelChord rows .tpc noReduction true true l

/-- The key of a label does not depend on the global key, which is only put into it. -/
theorem labelKey_global (l : CsvLabel) (k : Key) (h : labelKey l .tpc none = .ok k) (g : Int × KeyMode) :
    labelKey l .tpc (some g) = .ok { k with globalTonic := g.1, globalMode := g.2 } := by
  simp only [labelKey, Bind.bind] at h ⊢
  obtain ⟨t, h1, h⟩ := SearchData.bind_ok h
  obtain ⟨⟨rt, rm⟩, h2, h⟩ := SearchData.bind_ok h
  injection h with h
  subst h
  simp only [h1, h2, Except.bind, Option.getD_some]

theorem labelKey_local (l : CsvLabel) (k : Key) (h : labelKey l .tpc none = .ok k) :
    k.globalTonic = k.localTonic ∧ k.globalMode = k.localMode ∧ k.tonicType = .tpc := by
  simp only [labelKey, Bind.bind] at h
  obtain ⟨t, h1, h⟩ := SearchData.bind_ok h
  obtain ⟨⟨rt, rm⟩, h2, h⟩ := SearchData.bind_ok h
  injection h with h
  subst h
  exact ⟨rfl, rfl, rfl⟩

/-- What has been read of a label that has a chord. -/
theorem read_spec (rows : List XmlRow) (l : CsvLabel) (c : SeriesChord) (h : readLabel rows l = .ok c) :
    ∃ k times, labelKey l .tpc none = .ok k ∧ labelTimes rows l.on l.off = .ok times ∧
      c.chord.keyTonic = k.relativeTonic ∧ c.chord.keyMode = k.relativeMode ∧ c.onset = times.onset := by
  simp only [readLabel, labelChord, Bind.bind] at h
  obtain ⟨k, h1, h⟩ := SearchData.bind_ok h
  obtain ⟨t, h2, h⟩ := SearchData.bind_ok h
  obtain ⟨iv, h3, h⟩ := SearchData.bind_ok h
  obtain ⟨root, h4, h⟩ := SearchData.bind_ok h
  obtain ⟨times, h5, h⟩ := SearchData.bind_ok h
  obtain ⟨bass, h6, h⟩ := SearchData.bind_ok h
  injection h with h
  subst h
  exact ⟨k, times, h1, h5, rfl, rfl, rfl⟩

theorem tryChanges_ok (keys : List Key) : ∃ v, tryChanges keys = .ok v := by
  obtain ⟨v, hv, -⟩ := Vectors.mapM_all (fun p : Key × Key => p.1.changeVector p.2) (keys.zip (keys.drop 1)) (by
    intro p _
    by_cases h : ∃ r, KeyChange.Interval p.1 p.2 r
    · obtain ⟨r, hr⟩ := h
      exact ⟨_, KeyChange.changeVector_in hr⟩
    · exact ⟨_, (KeyChange.changeVector_out h).2⟩)
  exact ⟨v, hv⟩

/-- All labels that are used can be read, and there is one. -/
def Readable (rows : List XmlRow) (labels : List CsvLabel) : Prop :=
  cleanLabels labels ≠ [] ∧ ∀ l ∈ cleanLabels labels, ∃ c, readLabel rows l = .ok c

theorem piece_eq (rows : List XmlRow) (hrows : rows ≠ []) (notes : List ((Int × ℚ) × (Int × ℚ)))
    (labels : List CsvLabel) (h : Readable rows labels) :
    ∃ (chords : List SeriesChord) (first : CsvLabel) (g : Key) (keys : List Key),
      (cleanLabels labels)[0]? = some first ∧ labelKey first .tpc none = .ok g ∧
      chords.length = (cleanLabels labels).length ∧ keys.length = (cleanLabels labels).length ∧
      (∀ (i : Nat) l, (cleanLabels labels)[i]? = some l → ∃ c k, chords[i]? = some c ∧
        readLabel rows l = .ok c ∧ labelKey l .tpc none = .ok k ∧
        keys[i]? = some { k with globalTonic := g.localTonic, globalMode := g.localMode }) ∧
      xmlPiece rows notes labels = .ok ⟨chords, kept keys (fullMask (Key.equals true) keys),
        chordChanges ((notes.map (fun n => (toLex n.1, toLex n.2))).map (·.1)) 0 (chords.map (fun c => toLex c.onset)),
        pieceChordRanges (notes.map (fun n => (toLex n.1, toLex n.2))) (chords.map (fun c => toLex c.onset)),
        kept (List.range keys.length) (fullMask (Key.equals true) keys)⟩ := by
  obtain ⟨hne, hall⟩ := h
  obtain ⟨chords, hc, hclen, hcget⟩ := Vectors.mapM_all (readLabel rows) (cleanLabels labels) hall
  obtain ⟨first, hfirst⟩ : ∃ l, (cleanLabels labels)[0]? = some l := by
    cases hcl : cleanLabels labels with
    | nil => exact absurd hcl hne
    | cons l _ => exact ⟨l, rfl⟩
  have hkey : ∀ l ∈ cleanLabels labels, ∃ k, labelKey l .tpc none = .ok k := by
    intro l hl
    obtain ⟨c, hc⟩ := hall l hl
    obtain ⟨k, _, hk, -⟩ := read_spec rows l c hc
    exact ⟨k, hk⟩
  obtain ⟨g, hg⟩ := hkey first (List.mem_of_getElem? hfirst)
  obtain ⟨e1, e2, -⟩ := labelKey_local _ _ hg
  obtain ⟨keys, hk, hklen, hkget⟩ := Vectors.mapM_all
    (fun r => labelKey r .tpc (some (g.globalTonic, g.globalMode))) (cleanLabels labels) (by
      intro l hl
      obtain ⟨k, hk⟩ := hkey l hl
      exact ⟨_, labelKey_global l k hk _⟩)
  refine ⟨chords, first, g, keys, hfirst, hg, hclen, hklen, ?_, ?_⟩
  · intro i l hl
    obtain ⟨c, hc⟩ := hall l (List.mem_of_getElem? hl)
    obtain ⟨k, hk⟩ := hkey l (List.mem_of_getElem? hl)
    refine ⟨c, k, hcget i l c hl hc, hc, hk, ?_⟩
    rw [hkget i l _ hl (labelKey_global l k hk _), e1, e2]
  · have hlabels : labels ≠ [] := by
      rintro rfl
      exact hne rfl
    obtain ⟨x, hx⟩ := (pyGet_ok_iff labels (-1)).2 (by have := List.length_pos_iff.2 hlabels; omega)
    obtain ⟨y, hy⟩ := (pyGet_ok_iff rows (-1)).2 (by have := List.length_pos_iff.2 hrows; omega)
    have hf : pyGet (cleanLabels labels) 0 = .ok first := by
      simp only [pyGet, le_refl, if_true, Int.toNat_zero, hfirst]
    obtain ⟨v, hv⟩ := tryChanges_ok (kept keys (fullMask (Key.equals true) keys))
    have hm1 : npMask keys (fullMask (Key.equals true) keys) = .ok (kept keys (fullMask (Key.equals true) keys)) := by
      rw [npMask, if_pos (fullMask_length _).symm]
    have hm2 : npMask (List.range keys.length) (fullMask (Key.equals true) keys) =
        .ok (kept (List.range keys.length) (fullMask (Key.equals true) keys)) := by
      rw [npMask, if_pos (by rw [fullMask_length, List.length_range])]
    have hc' : (cleanLabels labels).mapM (labelChord rows .tpc noReduction true true) = .ok chords := hc
    simp only [xmlPiece, Bind.bind, Except.bind, hx, hy, hc', hf, hg, hk, reductionMask_eq, hm1, hm2, hv]

/-- C84: a piece is made exactly if some label is used and every label that is used can be read. -/
theorem C84_made (rows : List XmlRow) (hrows : rows ≠ []) (notes : List ((Int × ℚ) × (Int × ℚ)))
    (labels : List CsvLabel) : (∃ out, xmlPiece rows notes labels = .ok out) ↔ Readable rows labels := by
  constructor
  · rintro ⟨out, h⟩
    simp only [xmlPiece, Bind.bind] at h
    obtain ⟨_, -, h⟩ := SearchData.bind_ok h
    obtain ⟨_, -, h⟩ := SearchData.bind_ok h
    obtain ⟨chords, h1, h⟩ := SearchData.bind_ok h
    obtain ⟨first, h2, h⟩ := SearchData.bind_ok h
    refine ⟨?_, ?_⟩
    · intro e
      rw [e] at h2
      exact absurd h2 (by simp [pyGet])
    · intro l hl
      obtain ⟨i, hi⟩ := List.mem_iff_getElem?.1 hl
      obtain ⟨c, -, hc⟩ := (KeyDatasets.mapM_inv _ _ _ h1).2 i l hi
      exact ⟨c, hc⟩
  · intro h
    obtain ⟨_, _, _, _, -, -, -, -, -, e⟩ := piece_eq rows hrows notes labels h
    exact ⟨_, e⟩

/-- C84: the chords are those of the labels, in order; the keys begin with the first chord, two keys in a row
differ, all have the global key of the first label, and the key in force at a chord is the one the chord was
read with. -/
theorem C84_keys (rows : List XmlRow) (hrows : rows ≠ []) (notes : List ((Int × ℚ) × (Int × ℚ)))
    (labels : List CsvLabel) (out : XmlPiece) (h : xmlPiece rows notes labels = .ok out) :
    out.chords.length = (cleanLabels labels).length ∧ out.keys.length = out.keyChanges.length ∧
    out.keyChanges[0]? = some 0 ∧ out.keyChanges.Pairwise (· < ·) ∧
    (∀ a ∈ out.keyChanges, a < out.chords.length) ∧
    out.keys.IsChain (fun k l => (k.relativeTonic, k.relativeMode) ≠ (l.relativeTonic, l.relativeMode)) ∧
    (∃ first g, (cleanLabels labels)[0]? = some first ∧ labelKey first .tpc none = .ok g ∧
      ∀ k ∈ out.keys, k.globalTonic = g.localTonic ∧ k.globalMode = g.localMode) ∧
    ∀ (i : Nat) l, (cleanLabels labels)[i]? = some l → ∃ c, out.chords[i]? = some c ∧ readLabel rows l = .ok c ∧
      ∃ k, Covers out.keys out.keyChanges i k ∧ k.relativeTonic = c.chord.keyTonic ∧
        k.relativeMode = c.chord.keyMode := by
  have hread := (C84_made rows hrows notes labels).1 ⟨out, h⟩
  obtain ⟨chords, first, g, keys, hfirst, hg, hclen, hklen, hget, he⟩ := piece_eq rows hrows notes labels hread
  rw [h] at he
  injection he with he
  subst he
  have hpos : 0 < (cleanLabels labels).length := List.length_pos_iff.2 hread.1
  have hall : ∀ k ∈ keys, ∃ l, l ∈ cleanLabels labels ∧ ∃ k0, labelKey l .tpc none = .ok k0 ∧
      k = { k0 with globalTonic := g.localTonic, globalMode := g.localMode } := by
    intro k hk
    obtain ⟨i, hi⟩ := List.mem_iff_getElem?.1 hk
    have hlt := (List.getElem?_eq_some_iff.1 hi).1
    rw [hklen] at hlt
    have hl := List.getElem?_eq_getElem hlt
    obtain ⟨c, k0, -, -, hk0, hk1⟩ := hget i _ hl
    rw [hi] at hk1
    injection hk1 with hk1
    exact ⟨_, List.getElem_mem hlt, k0, hk0, hk1⟩
  refine ⟨hclen, ?_, ?_, ?_, ?_, ?_, ⟨first, g, hfirst, hg, ?_⟩, ?_⟩
  · exact kept_length _ _ _ (by simp)
  · cases hk : keys with
    | nil => rw [hk] at hklen; simp only [List.length_nil] at hklen; omega
    | cons k ks =>
      rw [List.length_cons, List.range_succ_eq_map]
      exact fullMask_head k ks 0 _
  · exact (List.pairwise_lt_range).sublist (kept_sub _ _)
  · intro a ha
    have := (kept_sub _ _).subset ha
    rw [List.mem_range, hklen] at this
    simp only
    omega
  · have hch := fullMask_chain (equals_equiv true) keys
    have htype : ∀ k ∈ kept keys (fullMask (Key.equals true) keys), k.tonicType = .tpc := by
      intro k hk
      obtain ⟨l, -, k0, hk0, rfl⟩ := hall k ((kept_sub _ _).subset hk)
      exact (labelKey_local _ _ hk0).2.2
    simp only
    rw [List.isChain_iff_getElem] at hch ⊢
    intro i hi e
    have hf := hch i hi
    have : Key.equals true _ _ = true := (equals_iff true _ _).2
      ⟨(htype _ (List.getElem_mem (Nat.lt_of_succ_lt hi))).trans (htype _ (List.getElem_mem hi)).symm, e⟩
    rw [this] at hf
    cases hf
  · intro k hk
    obtain ⟨l, -, k0, hk0, rfl⟩ := hall k ((kept_sub _ _).subset hk)
    exact ⟨rfl, rfl⟩
  · intro i l hl
    obtain ⟨c, k0, hc, hr, hk0, hki⟩ := hget i l hl
    obtain ⟨k', _, hk', -, e1, e2, -⟩ := read_spec rows l c hr
    rw [hk0] at hk'
    injection hk' with hk'
    subst hk'
    obtain ⟨y, hy, hrep⟩ := range_covers (equals_equiv true) keys i _ hki
    have := ((equals_iff true _ _).1 hrep).2
    simp only [tonicMode, if_true, Prod.mk.injEq] at this
    exact ⟨c, hc, hr, y, hy, by rw [e1, this.1], by rw [e2, this.2]⟩

/-- C84: if the labels are in order, so are the onsets of the chords. -/
theorem C84_order (rows : List XmlRow) (h : rows.IsChain Follows) (hin : ∀ r ∈ rows, OffsetIn r) (r0 : XmlRow)
    (h0 : rows[0]? = some r0) (hstart : r0.start ≤ 0) (notes : List ((Int × ℚ) × (Int × ℚ)))
    (labels : List CsvLabel) (hsorted : labels.Pairwise (fun l l' => l.on ≤ l'.on)) (out : XmlPiece)
    (hout : xmlPiece rows notes labels = .ok out) :
    (out.chords.map (fun c => toLex c.onset)).Pairwise (· ≤ ·) := by
  have hrows : rows ≠ [] := by rintro rfl; simp at h0
  obtain ⟨hlen, -, -, -, -, -, -, hget⟩ := C84_keys rows hrows notes labels out hout
  have hclean : (cleanLabels labels).Pairwise (fun l l' => l.on ≤ l'.on) := by
    rw [C84_labels, List.pairwise_map]
    exact (hsorted.filter _).imp (fun h => by simp only; linarith)
  have hon : ∀ l ∈ cleanLabels labels, 0 ≤ l.on ∧ l.on ≤ l.off := by
    intro l hl
    rw [C84_labels] at hl
    obtain ⟨l', hl', rfl⟩ := List.mem_map.1 hl
    have := (List.mem_filter.1 hl').2
    simp only [decide_eq_true_eq] at this
    exact ⟨by simp only; linarith [this.1], by simp only; linarith [this.2]⟩
  have hat : ∀ (i : Nat) l c, (cleanLabels labels)[i]? = some l → out.chords[i]? = some c →
      ∃ r j, LabelAt rows l.on c.onset r j := by
    intro i l c hl hc
    obtain ⟨c', hc', hr, -⟩ := hget i l hl
    rw [hc] at hc'
    injection hc' with hc'
    subst hc'
    obtain ⟨_, times, -, ht, -, -, e⟩ := read_spec rows l c hr
    have hl' := hon l (List.mem_of_getElem? hl)
    obtain ⟨t, i, j, r, r', ht', hL, -⟩ := C81_label rows h hin r0 h0 l.on l.off (by linarith [hl'.1]) hl'.2
    rw [ht] at ht'
    injection ht' with ht'
    subst ht'
    rw [e]
    exact ⟨r, i, hL⟩
  rw [List.pairwise_map, List.pairwise_iff_getElem]
  intro i j hi hj hij
  have hi' : i < (cleanLabels labels).length := by omega
  have hj' : j < (cleanLabels labels).length := by omega
  obtain ⟨r, a, ha⟩ := hat i _ _ (List.getElem?_eq_getElem hi') (List.getElem?_eq_getElem hi)
  obtain ⟨r', b, hb⟩ := hat j _ _ (List.getElem?_eq_getElem hj') (List.getElem?_eq_getElem hj)
  exact label_mono rows ha hb (List.pairwise_iff_getElem.1 hclean i j hi' hj' hij)

/-- C84: if labels and notes are in order, each chord begins with the first note that does not begin before
it (or with the last note, if all do), and its range begins with the first note that does not begin before it
or still sounds then, and ends where the next chord begins. -/
theorem C84_changes (rows : List XmlRow) (h : rows.IsChain Follows) (hin : ∀ r ∈ rows, OffsetIn r) (r0 : XmlRow)
    (h0 : rows[0]? = some r0) (hstart : r0.start ≤ 0) (notes : List ((Int × ℚ) × (Int × ℚ)))
    (hnotes : (notes.map (fun n => toLex n.1)).Pairwise (· ≤ ·)) (labels : List CsvLabel)
    (hsorted : labels.Pairwise (fun l l' => l.on ≤ l'.on)) (out : XmlPiece)
    (hout : xmlPiece rows notes labels = .ok out) (i : Nat) (c : SeriesChord) (hc : out.chords[i]? = some c) :
    ∃ j s e, out.chordChanges[i]? = some j ∧ out.chordRanges[i]? = some (s, e) ∧
      (∀ (a : Nat) n, notes[a]? = some n → a < j → toLex n.1 < toLex c.onset) ∧
      ((∃ n ∈ notes, toLex c.onset ≤ toLex n.1) → ∃ n, notes[j]? = some n ∧ toLex c.onset ≤ toLex n.1) ∧
      ((∀ n ∈ notes, toLex n.1 < toLex c.onset) → j = notes.length - 1) ∧
      (∀ (a : Nat) n, notes[a]? = some n → a < s → toLex n.1 < toLex c.onset ∧ toLex n.2 ≤ toLex c.onset) ∧
      (∀ n, notes[s]? = some n → toLex c.onset ≤ toLex n.1 ∨ toLex c.onset < toLex n.2) ∧ s ≤ notes.length ∧
      (∀ j', out.chordChanges[i + 1]? = some j' → e = j') ∧ (i + 1 = out.chords.length → e = notes.length) := by
  have hrows : rows ≠ [] := by rintro rfl; simp at h0
  have hord := C84_order rows h hin r0 h0 hstart notes labels hsorted out hout
  obtain ⟨chords, first, g, keys, -, -, -, -, -, he⟩ :=
    piece_eq rows hrows notes labels ((C84_made rows hrows notes labels).1 ⟨out, hout⟩)
  rw [hout] at he
  injection he with he
  subst he
  simp only at hord hc ⊢
  have hn : ((notes.map (fun n => (toLex n.1, toLex n.2))).map (·.1)).Pairwise (· ≤ ·) := by
    rw [List.map_map]; exact hnotes
  have hx : (chords.map (fun c => toLex c.onset))[i]? = some (toLex c.onset) := by
    rw [List.getElem?_map, hc]; rfl
  have hng : ∀ (a : Nat) n, notes[a]? = some n →
      ((notes.map (fun n => (toLex n.1, toLex n.2))).map (·.1))[a]? = some (toLex n.1) := by
    intro a n hn
    rw [List.map_map, List.getElem?_map, hn]; rfl
  obtain ⟨-, hfirst⟩ := Piece.C36_first _ _ hn hord
  obtain ⟨j, hj, j1, j2, j3⟩ := hfirst i _ hx
  obtain ⟨s1, s2, s3⟩ := Piece.C55_start (toLex c.onset) (notes.map (fun n => (toLex n.1, toLex n.2)))
  obtain ⟨e, j', r1, r2, r3, r4, -⟩ := Piece.C55_ranges _ _ hn hord i _ hx
  refine ⟨j, _, e, hj, r1, ?_, ?_, ?_, ?_, ?_, ?_, r3, ?_⟩
  · intro a n hn' hlt
    exact j1 a _ (hng a n hn') hlt
  · rintro ⟨n, hn', hle⟩
    obtain ⟨y, hy, hle'⟩ := j2 ⟨toLex n.1, by rw [List.map_map]; exact List.mem_map.2 ⟨n, hn', rfl⟩, hle⟩
    rw [List.map_map, List.getElem?_map, Option.map_eq_some_iff] at hy
    obtain ⟨n', hn', rfl⟩ := hy
    exact ⟨n', hn', hle'⟩
  · intro hall
    have := j3 (by
      intro y hy
      rw [List.map_map] at hy
      obtain ⟨n, hn', rfl⟩ := List.mem_map.1 hy
      exact hall n hn')
    simpa using this
  · intro a n hn' hlt
    exact s2 a (toLex n.1, toLex n.2) (by rw [List.getElem?_map, hn']; rfl) hlt
  · intro n hn'
    exact s3 (toLex n.1, toLex n.2) (by rw [List.getElem?_map, hn']; rfl)
  · simpa using s1
  · intro hl
    have := r4 (by simpa using hl)
    simpa using this

/-- Labels in quarter notes: one before the score, one without a duration, and four that are used: C major,
G major in C major, the dominant of G major, and G major as a local key. -/
def exLabels : List CsvLabel :=
  [⟨-1, 0, "C".toList, "1".toList, "M".toList, 0⟩, ⟨0, 1, "C".toList, "1".toList, "M".toList, 0⟩,
   ⟨1, 1, "C".toList, "9".toList, "M".toList, 0⟩, ⟨1, 3, "C".toList, "5+".toList, "a".toList, 1⟩,
   ⟨3, 4, "C".toList, "5/5".toList, "D7".toList, 0⟩, ⟨4, 6, "G".toList, "1".toList, "M".toList, 0⟩]

/-- In the score of `exScore`: three notes that begin with the score, in the second and in the third
measure. The chords begin at the notes 0, 1, 2, 2; the second key begins with the third chord. -/
example : (xmlPiece exRows [((0, 1/2), (1, 0)), ((1, 0), (1, 1/2)), ((2, 0), (2, 1/2))] exLabels).map
      (fun out => (out.chords.map (fun c => (c.onset, c.chord.root)), out.chordChanges, out.chordRanges)) =
    .ok ([((0, 1/2), 15), ((1, 0), 16), ((1, 1/2), 17), ((2, 0), 16)], [0, 1, 2, 2],
      [(0, 1), (1, 2), (2, 2), (2, 3)]) := by decide +kernel

example : (xmlPiece exRows [((0, 1/2), (1, 0)), ((1, 0), (1, 1/2)), ((2, 0), (2, 1/2))] exLabels).map
      (fun out => (out.keys.map (fun k => (k.relativeTonic, k.localTonic, k.globalTonic)), out.keyChanges)) =
    .ok ([(15, 15, 15), (16, 15, 15)], [0, 2]) := by decide +kernel

/-- One label that cannot be read loses the piece. -/
example : xmlPiece exRows [((0, 1/2), (1, 0))]
    [⟨0, 1, "C".toList, "1".toList, "M".toList, 0⟩, ⟨1, 2, "C".toList, "1".toList, "X".toList, 0⟩] =
    .error .keyError := by decide +kernel

/-! ## C85: the notes -/

/-- Where the notes of a measure begin and how long they are: in each row of its number. -/
def placed (rows : List XmlRow) (m : XmlMeasureNotes) : List ((Int × ℚ) × ℚ) :=
  (rows.zipIdx.filter (fun p => decide (p.1.mn = m.number))).flatMap
    (fun p => m.notes.map (fun n => (((p.2 : Int), p.1.offset + n.1), n.2)))

theorem placed_at (rows : List XmlRow) (hd : rows.Pairwise (fun r r' => r.mn ≠ r'.mn)) (m : XmlMeasureNotes)
    (i : Nat) (r : XmlRow) (hr : rows[i]? = some r) (hm : r.mn = m.number) :
    placed rows m = m.notes.map (fun n => (((i : Int), r.offset + n.1), n.2)) := by
  unfold placed
  have gen : ∀ (l : List XmlRow) (k i : Nat), l.Pairwise (fun r r' => r.mn ≠ r'.mn) → l[i]? = some r →
      (l.zipIdx k).filter (fun p => decide (p.1.mn = m.number)) = [(r, k + i)] := by
    intro l
    induction l with
    | nil => intro k i _ h; simp at h
    | cons a l ih =>
      intro k i hp h
      rw [List.pairwise_cons] at hp
      rw [List.zipIdx_cons]
      cases i with
      | zero =>
        simp only [List.getElem?_cons_zero, Option.some.injEq] at h
        subst h
        rw [List.filter_cons_of_pos (by simpa using hm), List.filter_eq_nil_iff.2]
        · rfl
        · intro p hp'
          have := List.fst_mem_of_mem_zipIdx hp'
          simp only [decide_eq_true_eq]
          intro e
          exact hp.1 _ this (hm.trans e.symm)
      | succ i =>
        rw [List.getElem?_cons_succ] at h
        rw [List.filter_cons_of_neg, ih _ i hp.2 h]
        · congr 2; omega
        · simp only [decide_eq_true_eq]
          intro e
          exact hp.1 r (List.mem_of_getElem? h) (e.trans hm.symm)
  rw [gen rows 0 i hd hr]
  simp

theorem placed_none (rows : List XmlRow) (m : XmlMeasureNotes) (h : ∀ r ∈ rows, r.mn ≠ m.number) :
    placed rows m = [] := by
  unfold placed
  rw [List.filter_eq_nil_iff.2]
  · rfl
  · intro p hp
    simp only [decide_eq_true_eq]
    exact h _ (List.fst_mem_of_mem_zipIdx hp)

theorem measure_spec (rows : List XmlRow) (h : rows.IsChain Follows) (hin : ∀ r ∈ rows, OffsetIn r)
    (hd : rows.Pairwise (fun r r' => r.mn ≠ r'.mn)) (m : XmlMeasureNotes) :
    ∃ l, measureNotes rows m = .ok l ∧ l.map (fun x => (x.onset, x.duration)) = placed rows m := by
  unfold measureNotes rowOfNumber
  cases hf : rows.findIdx? (fun r => decide (r.mn = m.number)) with
  | none =>
    rw [List.findIdx?_eq_none_iff] at hf
    refine ⟨[], rfl, (placed_none rows m ?_).symm⟩
    intro r hr
    simpa using hf r hr
  | some i =>
    rw [List.findIdx?_eq_some_iff_getElem] at hf
    obtain ⟨hi, hm, -⟩ := hf
    simp only [decide_eq_true_eq] at hm
    have hr := List.getElem?_eq_getElem hi
    rw [placed_at rows hd m i _ hr hm]
    simp only
    obtain ⟨l, hl, hlen, hget⟩ := Vectors.mapM_all (fun n : ℚ × ℚ => xmlNote rows i n.1 n.2) m.notes (by
      intro n _
      obtain ⟨x, _, _, _, hx, -⟩ := note_spec rows h hin i _ hr n.1 n.2
      exact ⟨x, hx⟩)
    refine ⟨l, hl, ?_⟩
    apply List.ext_getElem?
    intro k
    rw [List.getElem?_map, List.getElem?_map]
    cases hk : m.notes[k]? with
    | none =>
      rw [List.getElem?_eq_none_iff] at hk
      rw [List.getElem?_eq_none_iff.2 (by omega)]
      rfl
    | some n =>
      obtain ⟨x, _, _, _, hx, hright, -⟩ := note_spec rows h hin i _ hr n.1 n.2
      rw [hget k n x hk hx]
      simp only [Option.map_some, hright.onset, hright.duration]

/-- C85: if the measures have different numbers, the notes of the score are, in their order, the notes of the
measures in the table, each with its duration and its beat in its own measure. -/
theorem C85_notes_partial (rows : List XmlRow) (h : rows.IsChain Follows) (hin : ∀ r ∈ rows, OffsetIn r)
    (hd : rows.Pairwise (fun r r' => r.mn ≠ r'.mn)) (ms : List XmlMeasureNotes) :
    ∃ out, xmlNotes rows ms = .ok out ∧
      out.map (fun x => (x.onset, x.duration)) = ms.flatMap (placed rows) := by
  obtain ⟨l, hl, hlen, hget⟩ := Vectors.mapM_all (measureNotes rows) ms (by
    intro m _
    obtain ⟨l, hl, -⟩ := measure_spec rows h hin hd m
    exact ⟨l, hl⟩)
  refine ⟨l.flatten, by simp only [xmlNotes, Bind.bind, Except.bind, hl], ?_⟩
  have : l.map (List.map (fun x => (x.onset, x.duration))) = ms.map (placed rows) := by
    apply List.ext_getElem?
    intro k
    rw [List.getElem?_map, List.getElem?_map]
    cases hk : ms[k]? with
    | none =>
      rw [List.getElem?_eq_none_iff] at hk
      rw [List.getElem?_eq_none_iff.2 (by omega)]
      rfl
    | some m =>
      obtain ⟨x, hx, hx'⟩ := measure_spec rows h hin hd m
      rw [hget k m x hk hx]
      simp only [Option.map_some, hx']
  rw [List.map_flatten, this, List.flatMap_def]

/-- C85: if also the measures come in the order of the table and the notes of each are in order, then all the
notes are in order, as C84 needs them. -/
theorem C85_sorted (rows : List XmlRow) (h : rows.IsChain Follows) (hin : ∀ r ∈ rows, OffsetIn r)
    (hd : rows.Pairwise (fun r r' => r.mn ≠ r'.mn)) (ms : List XmlMeasureNotes)
    (hms : (ms.map (·.number)).filter (fun n => decide (n ∈ rows.map (·.mn))) = rows.map (·.mn))
    (hnotes : ∀ m ∈ ms, m.notes.Pairwise (fun n n' => n.1 ≤ n'.1)) :
    ∃ out, xmlNotes rows ms = .ok out ∧ (out.map (fun x => toLex x.onset)).Pairwise (· ≤ ·) := by
  obtain ⟨out, hout, heq⟩ := C85_notes_partial rows h hin hd ms
  refine ⟨out, hout, ?_⟩
  have e : out.map (fun x => toLex x.onset) = (ms.flatMap (placed rows)).map (fun p => toLex p.1) := by
    rw [← heq, List.map_map]; rfl
  rw [e, List.pairwise_map]
  set F := ms.filter (fun m => decide (m.number ∈ rows.map (·.mn))) with hF
  have hFn : F.map (·.number) = rows.map (·.mn) := by
    rw [← hms, List.filter_map]; rfl
  have hflat : ms.flatMap (placed rows) = F.flatMap (placed rows) := by
    rw [hF]
    clear e heq hms hnotes hFn hF hout
    induction ms with
    | nil => rfl
    | cons m ms ih =>
      by_cases hm : m.number ∈ rows.map (·.mn)
      · rw [List.filter_cons_of_pos (by simpa using hm), List.flatMap_cons, List.flatMap_cons]
        rw [ih]
      · rw [List.filter_cons_of_neg (by simpa using hm), List.flatMap_cons, placed_none, List.nil_append]
        · exact ih
        · intro r hr e
          exact hm (List.mem_map.2 ⟨r, hr, e⟩)
  have hat : ∀ (i : Nat) m, F[i]? = some m → ∃ r, rows[i]? = some r ∧
      placed rows m = m.notes.map (fun n => (((i : Int), r.offset + n.1), n.2)) := by
    intro i m hm
    have := congrArg (fun l => l[i]?) hFn
    simp only [List.getElem?_map, hm, Option.map_some] at this
    obtain ⟨r, hr, hrm⟩ := Option.map_eq_some_iff.1 this.symm
    exact ⟨r, hr, placed_at rows hd m i r hr hrm⟩
  rw [hflat, List.pairwise_flatMap]
  constructor
  · intro m hm
    obtain ⟨i, hi⟩ := List.mem_iff_getElem?.1 hm
    obtain ⟨r, -, hp⟩ := hat i m hi
    rw [hp, List.pairwise_map]
    refine (hnotes m (List.mem_filter.1 hm).1).imp ?_
    intro n n' hle
    rw [Prod.Lex.toLex_le_toLex]
    right
    exact ⟨rfl, by simp only; linarith⟩
  · rw [List.pairwise_iff_getElem]
    intro i j hi hj hij x hx y hy
    obtain ⟨r, -, hp⟩ := hat i _ (List.getElem?_eq_getElem hi)
    obtain ⟨r', -, hp'⟩ := hat j _ (List.getElem?_eq_getElem hj)
    rw [hp] at hx
    rw [hp'] at hy
    obtain ⟨n, -, rfl⟩ := List.mem_map.1 hx
    obtain ⟨n', -, rfl⟩ := List.mem_map.1 hy
    rw [Prod.Lex.toLex_le_toLex]
    left
    simp only
    omega

/-- C85: with two measures of the same number this fails: the notes of both are put into the first one, as in a
measure that is divided by a repeat. -/
theorem C85_fails_number :
    (xmlNotes [⟨1, (4, 4), 0, 1/2, 0⟩, ⟨1, (4, 4), 1/2, 1/2, 1/2⟩] [⟨1, [(0, 1/2)]⟩, ⟨1, [(0, 1/2)]⟩]).map
      (fun l => l.map (·.onset)) = .ok [(0, 0), (0, 0)] := by decide +kernel

/-- The score of `exScore`: the notes of the measure in the first ending are left out. -/
example : (xmlNotes exRows [⟨0, [(0, 1/4)]⟩, ⟨1, [(0, 1/4), (1/4, 1/2)]⟩, ⟨2, [(0, 3/4)]⟩, ⟨3, [(1/4, 1/4)]⟩]).map
    (fun l => l.map (·.onset)) = .ok [(0, 1/2), (1, 0), (1, 1/4), (2, 1/4)] := by decide +kernel

end Verif.XmlPieces
