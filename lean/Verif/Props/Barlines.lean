import Verif.Props.AnalysedPieces
import Verif.Props.Rhythm

/-!
# C164: the analysis depends on the places of the notes along the score, not on its measures

The same notes may be written in measures of other lengths, with other numbers or with other beats for their beginnings.
What is left of the measures are the metrical levels of the notes.
-/

namespace Verif.Barlines
open Verif State Verif.SearchData Verif.AnalysedPieces

/-- The position `p` is within its measure of the chain `c`, and `t` after the beginning of the chain. (The end of a
measure belongs to the next one, if there is a next one.) -/
def Placed (c : List (Measure ℚ)) (p : Int × ℚ) (t : ℚ) : Prop :=
  ∃ (i : Nat) (m : Measure ℚ), c[i]? = some m ∧ p.1 = m.mc ∧ m.offset ≤ p.2 ∧
    (i + 1 < c.length → p.2 < m.offset + m.actDur) ∧
    t = ((c.take i).map (·.actDur)).sum + (p.2 - m.offset)

/-- The same note, at the same places of two scores. -/
structure SameNote (c c' : List (Measure ℚ)) (n n' : NoteObj) : Prop where
  pitchClass : n'.pitchClass = n.pitchClass
  octave : n'.octave = n.octave
  pitchType : n'.pitchType = n.pitchType
  duration : n'.duration = n.duration
  onsetLevel : n'.onsetLevel = n.onsetLevel
  offsetLevel : n'.offsetLevel = n.offsetLevel
  onset : ∃ t, Placed c n.onset t ∧ Placed c' n'.onset t
  offset : ∃ t, Placed c n.offset t ∧ Placed c' n'.offset t

/-! ## Places -/

theorem sum_take_mono {c : List (Measure ℚ)} (h0 : ∀ m ∈ c, 0 ≤ m.actDur) {i j : Nat} (hij : i ≤ j) :
    ((c.take i).map (·.actDur)).sum ≤ ((c.take j).map (·.actDur)).sum := by
  induction j with
  | zero => rw [Nat.le_zero.1 hij]
  | succ j ih =>
    rcases Nat.lt_or_ge i (j + 1) with hlt | hge
    · refine (ih (by omega)).trans ?_
      rw [List.take_add_one]
      cases hj : c[j]? with
      | none => simp
      | some m =>
        have := h0 m (List.mem_of_getElem? hj)
        simp only [Option.toList_some, List.map_append, List.map_cons, List.map_nil, List.sum_append, List.sum_cons,
          List.sum_nil]
        linarith
    · rw [show i = j + 1 by omega]

theorem placed_before {T c : List (Measure ℚ)} (h : Chain T c) (h0 : ∀ m ∈ c, 0 ≤ m.actDur) {p q : Int × ℚ} {t u : ℚ}
    (hp : Placed c p t) (hq : Placed c q u) (hlt : p.1 < q.1) : t < u := by
  obtain ⟨i, m, hi, hpm, -, hpe, rfl⟩ := hp
  obtain ⟨j, m', hj, hqm, hqo, -, rfl⟩ := hq
  have hij : i < j := (h.mono i j m m' hi hj).1.1 (by omega)
  have hjl := (List.getElem?_eq_some_iff.1 hj).1
  have h1 := hpe (by omega)
  have h2 := sum_take_mono h0 (show i + 1 ≤ j by omega)
  rw [List.take_add_one, hi] at h2
  simp only [Option.toList_some, List.map_append, List.map_cons, List.map_nil, List.sum_append, List.sum_cons,
    List.sum_nil] at h2
  linarith

theorem placed_lt {T c : List (Measure ℚ)} (h : Chain T c) (h0 : ∀ m ∈ c, 0 ≤ m.actDur) {p q : Int × ℚ} {t u : ℚ}
    (hp : Placed c p t) (hq : Placed c q u) : toLex p < toLex q ↔ t < u := by
  have key : p.1 = q.1 → (p.2 < q.2 ↔ t < u) := by
    intro he
    obtain ⟨i, m, hi, hpm, -, -, rfl⟩ := hp
    obtain ⟨j, m', hj, hqm, -, -, rfl⟩ := hq
    have hij : i = j := (h.mono i j m m' hi hj).2.1 (by omega)
    subst hij
    rw [hi] at hj
    have hm := Option.some.inj hj
    subst hm
    constructor <;> intro <;> linarith
  rw [Prod.Lex.toLex_lt_toLex]
  constructor
  · rintro (hlt | ⟨he, hlt⟩)
    · exact placed_before h h0 hp hq hlt
    · exact (key he).1 hlt
  · intro hlt
    rcases lt_trichotomy p.1 q.1 with h1 | h1 | h1
    · exact .inl h1
    · exact .inr ⟨h1, (key h1).2 hlt⟩
    · exact absurd (placed_before h h0 hq hp h1) (not_lt.2 hlt.le)

theorem placed_le {T c : List (Measure ℚ)} (h : Chain T c) (h0 : ∀ m ∈ c, 0 ≤ m.actDur) {p q : Int × ℚ} {t u : ℚ}
    (hp : Placed c p t) (hq : Placed c q u) : toLex p ≤ toLex q ↔ t ≤ u := by
  rw [← not_lt, ← not_lt, placed_lt h h0 hq hp]

theorem placed_length {T c : List (Measure ℚ)} (h : Chain T c) {p q : Int × ℚ} {t u : ℚ}
    (hp : Placed c p t) (hq : Placed c q u) : getRangeLength T p q = .ok (u - t) := by
  obtain ⟨i, m, hi, hpm, -, -, rfl⟩ := hp
  obtain ⟨j, m', hj, hqm, -, -, rfl⟩ := hq
  have := C31_distance h i j m m' hi hj p.2 q.2
  rw [← hpm, ← hqm] at this
  rw [this]
  simp only [chainPos, hi, hj, Option.map_some, Option.getD_some]

/-! ## What is read of the notes -/

/-- A note without its places. -/
def strip (n : NoteObj) : NoteObj := { n with onset := (0, 0), offset := (0, 0), mcOnset := 0 }

theorem bind_same {α β : Type} {a : Py α} {f g : α → Py β} (h : ∀ v, a = .ok v → f v = g v) : a >>= f = a >>= g := by
  cases a with
  | error e => rfl
  | ok v => exact h v rfl

theorem mapM_strip {α β γ : Type} (f : γ → Py β) (g : α → γ) (l : List α) :
    (l.map g).mapM f = l.mapM fun x => f (g x) := by
  induction l with
  | nil => rfl
  | cons a l ih => simp only [List.map_cons, List.mapM_cons, ih]

theorem mapM_same {α β : Type} {f g : α → Py β} {l : List α} (h : ∀ x ∈ l, f x = g x) : l.mapM f = l.mapM g := by
  induction l with
  | nil => rfl
  | cons a l ih =>
    simp only [List.mapM_cons, h a (by simp), ih fun x hx => h x (List.mem_cons_of_mem _ hx)]

theorem pySlice_strip (l : List NoteObj) (a b : Int) : pySlice (l.map strip) a b = (pySlice l a b).map strip := by
  simp only [pySlice, List.length_map, List.map_drop, List.map_take]

theorem ctmInputs_strip (notes : List NoteObj) (cache : List ℚ) :
    ctmInputs (notes.map strip) cache = ctmInputs notes cache := by
  simp only [ctmInputs]
  rw [List.zip_map_left, mapM_strip]
  rfl

theorem chordNoteInput_strip (notes : List NoteObj) (T : List (Measure ℚ)) (onset offset : Int × ℚ) (duration : ℚ)
    (change first last window : Nat) (cache : List ℚ) :
    chordNoteInput (notes.map strip) [] (0, 0) (0, 0) duration change first last window cache none =
      chordNoteInput notes T onset offset duration change first last window cache none := by
  simp only [chordNoteInput, spanAligns, Option.map_none, if_true, List.length_map, pySlice_strip, mapM_strip]
  congr 1
  funext pitches
  congr 1
  funext lowest
  congr 1
  funext highest
  rw [List.zip_map_left, mapM_strip]
  congr 1
  refine mapM_same fun x hx => ?_
  have h1 := (List.of_mem_zip hx).2
  have h2 := (List.of_mem_zip h1).1
  obtain ⟨o, -, ho⟩ := List.mem_map.1 h2
  obtain ⟨n, o', f, g⟩ := x
  subst ho
  rfl

theorem pieceChordInput_strip (notes : List NoteObj) (T : List (Measure ℚ)) (cache : List ℚ) (last : Int × ℚ)
    (window : Nat) (range : Nat × Nat) (change : Nat) :
    pieceChordInput (notes.map strip) [] cache (0, 0) window range change none =
      pieceChordInput notes T cache last window range change none := by
  simp only [pieceChordInput, pyGet_map]
  cases pyGet notes (change : Int) with
  | error e => rfl
  | ok n =>
    simp only [Except.map, Bind.bind, Except.bind]
    have e1 : rangeEnd (notes.map strip) (0, 0) range.2 = (0, 0) := by
      simp only [rangeEnd, List.getElem?_map]
      cases notes[range.2]? <;> rfl
    rw [e1]
    exact chordNoteInput_strip ..

/-! ## The analysis -/

section
variable {π κ ρ H P : Type} [LE π] [DecidableLE π] [LT π] [DecidableLT π] [Zero π] [One π] [Add κ] [Sub κ] [Zero κ]
    [DecidableEq κ] [DecidableEq H] [DecidableEq P]

omit [LE π] [DecidableLE π] [LT π] [DecidableLT π] [Zero π] [One π] [Add κ] [Sub κ] [Zero κ] [DecidableEq κ]
  [DecidableEq H] [DecidableEq P] in
theorem inputs_strip {z : Analysed} {cache : List ℚ} (hz : z.cache = .ok cache) (ws : List (Nat × Nat)) (cs : List Nat) :
    chordNoteInputs z.notes z.chords z.measures 2 (some ws) (some cs) =
      (ws.zip (cs.zip (ws.map fun _ => (none : Option ChordSpan)))).mapM fun r =>
        pieceChordInput (z.notes.map strip) [] cache (0, 0) 2 r.1 r.2.1 none := by
  simp only [Analysed.cache, Analysed.last, Bind.bind] at hz
  obtain ⟨t, ht, hz⟩ := SearchData.bind_ok hz
  obtain ⟨u, hu, ht⟩ := SearchData.bind_ok ht
  have ht := Except.ok.inj ht
  subst ht
  simp only [chordNoteInputs, Option.isNone_some, Bool.or_false, Bind.bind, Except.bind, hu, hz]
  refine mapM_same fun r hr => ?_
  have h1 := (List.of_mem_zip (List.of_mem_zip hr).2).2
  obtain ⟨w, -, hw⟩ := List.mem_map.1 h1
  rw [← hw]
  exact (pieceChordInput_strip ..).symm

theorem analyse_strip (N : Analyser π κ ρ H P) {x y : Analysed} (hn : y.notes.map strip = x.notes.map strip)
    (hc : y.cache = x.cache) (hw : Analyser.window (κ := κ) y = Analyser.window x) (chord key : ForcedType) :
    N.analyse y chord key = N.analyse x chord key := by
  have hlen : y.notes.length = x.notes.length := by simpa using congrArg List.length hn
  have h2 : ∀ cache, y.caches cache = x.caches cache := by
    have e : ∀ (z : Analysed) cache, z.caches cache = makeCaches ((cache.zip (z.notes.map strip)).map
        fun p => (p.1, (p.2.onsetLevel : Int), (p.2.offsetLevel : Int))) := by
      intro z cache
      simp only [Analysed.caches, List.zip_map_right, List.map_map]
      rfl
    intro cache
    rw [e, e, hn]
  have h3 : ∀ cache, ctmInputs y.notes cache = ctmInputs x.notes cache := by
    intro cache
    rw [← ctmInputs_strip, hn, ctmInputs_strip]
  simp only [Analyser.analyse, h2, h3, hw, hlen, hc]
  refine bind_same fun cache hcx => ?_
  have h6 : ∀ ws cs, chordNoteInputs y.notes y.chords y.measures 2 (some ws) (some cs) =
      chordNoteInputs x.notes x.chords x.measures 2 (some ws) (some cs) := by
    intro ws cs
    rw [inputs_strip (hc.trans hcx), inputs_strip hcx, hn]
  simp only [h6]

theorem same_strip {c c' : List (Measure ℚ)} {l l' : List NoteObj} (h : List.Forall₂ (SameNote c c') l l') :
    l'.map strip = l.map strip := by
  induction h with
  | nil => rfl
  | cons hn _ ih =>
    rw [List.map_cons, List.map_cons, ih]
    simp only [strip, hn.pitchClass, hn.octave, hn.pitchType, hn.duration, hn.onsetLevel, hn.offsetLevel]

theorem mapPy_same {α α' β : Type} {f : α → Py β} {g : α' → Py β} {l : List α} {l' : List α'}
    (h : List.Forall₂ (fun a b => g b = f a) l l') : mapPy g l' = mapPy f l := by
  induction h with
  | nil => rfl
  | cons hab _ ih => simp only [mapPy, hab, ih]

theorem same_cache {T c T' c' : List (Measure ℚ)} (h : Chain T c) (h' : Chain T' c') {l l' : List NoteObj}
    (hn : List.Forall₂ (SameNote c c') l l') {p q : Int × ℚ} {t : ℚ} (hp : Placed c p t) (hq : Placed c' q t) :
    durationCache T' (l'.map NoteObj.onset) q = durationCache T (l.map NoteObj.onset) p := by
  have key : ∀ {a b : List (Int × ℚ)} {a' b' : List (Int × ℚ)},
      List.Forall₂ (fun x x' => ∃ t, Placed c x t ∧ Placed c' x' t) a a' →
      List.Forall₂ (fun x x' => ∃ t, Placed c x t ∧ Placed c' x' t) b b' →
      List.Forall₂ (fun x x' => getRangeLength T' x'.1 x'.2 = getRangeLength T x.1 x.2) (a.zip b) (a'.zip b') := by
    intro a b a' b' ha
    induction ha generalizing b b' with
    | nil => intro _; exact .nil
    | cons hx _ ih =>
      intro hb
      cases hb with
      | nil => exact .nil
      | cons hy hb =>
        refine .cons ?_ (ih hb)
        obtain ⟨t, h1, h2⟩ := hx
        obtain ⟨u, h3, h4⟩ := hy
        exact (placed_length h' h2 h4).trans (placed_length h h1 h3).symm
  have ho : List.Forall₂ (fun x x' => ∃ t, Placed c x t ∧ Placed c' x' t) (l.map NoteObj.onset)
      (l'.map NoteObj.onset) := by
    rw [List.forall₂_map_left_iff, List.forall₂_map_right_iff]
    exact hn.imp fun _ _ h => h.onset
  refine mapPy_same (key ho ?_)
  refine List.rel_append (List.forall₂_drop 1 ho) (.cons ⟨t, hp, hq⟩ .nil)

theorem same_findIdx {α α' : Type} {f : α → Bool} {g : α' → Bool} {l : List α} {l' : List α'}
    (h : List.Forall₂ (fun a b => g b = f a) l l') : l'.findIdx g = l.findIdx f := by
  induction h with
  | nil => rfl
  | cons hab _ ih => simp only [List.findIdx_cons, hab, ih]

/-- C164: the analysis of a piece whose notes are at the same places along the score is the same, whatever its
measures. -/
theorem C164_measures (N : Analyser π κ ρ H P) {x y : Analysed} {c c' : List (Measure ℚ)} (h : Chain x.measures c)
    (h' : Chain y.measures c') (h0 : ∀ m ∈ c, 0 ≤ m.actDur) (h0' : ∀ m ∈ c', 0 ≤ m.actDur)
    (hn : List.Forall₂ (SameNote c c') x.notes y.notes) {p q : Int × ℚ} {t : ℚ} (hx : Ends x.notes x.chords p)
    (hy : Ends y.notes y.chords q) (hp : Placed c p t) (hq : Placed c' q t) (chord key : ForcedType) :
    N.analyse y chord key = N.analyse x chord key := by
  have hlx : x.last = .ok p := last_ends hx
  have hly : y.last = .ok q := last_ends hy
  refine analyse_strip N (same_strip hn) ?_ ?_ chord key
  · simp only [Analysed.cache, hlx, hly, Bind.bind, Except.bind]
    exact same_cache h h' hn hp hq
  · funext r
    simp only [Analyser.window]
    have hlen := hn.length_eq
    by_cases hr : r.1 < x.notes.length
    · have e1 : pyGet x.notes (r.1 : Int) = .ok x.notes[r.1] := by
        simp only [pyGet]
        simp [hr]
      have e2 : pyGet y.notes (r.1 : Int) = .ok (y.notes[r.1]'(hlen ▸ hr)) := by
        simp only [pyGet]
        simp [hlen ▸ hr]
      rw [e1, e2]
      simp only [Bind.bind, Except.bind]
      congr 2
      obtain ⟨u, hu, hu'⟩ := (List.Forall₂.get hn hr (hlen ▸ hr)).onset
      simp only [rangeStart, Analysed.times]
      refine same_findIdx ?_
      rw [List.forall₂_map_left_iff, List.forall₂_map_right_iff]
      refine hn.imp fun n n' hs => ?_
      obtain ⟨v, hv, hv'⟩ := hs.onset
      obtain ⟨w, hw, hw'⟩ := hs.offset
      simp only [List.get_eq_getElem] at hu hu'
      simp only [placed_le h h0 hu hv, placed_le h' h0' hu' hv', placed_lt h h0 hu hw, placed_lt h' h0' hu' hw']
    · have e1 : pyGet x.notes (r.1 : Int) = .error .indexError := by
        simp only [pyGet]
        simp [hr]
      have e2 : pyGet y.notes (r.1 : Int) = .error .indexError := by
        simp only [pyGet]
        simp [hlen ▸ hr]
      rw [e1, e2]
      rfl

end

/-! ## What is learnt from a labelled piece -/

/-- The same chord place, in two scores: its duration is the distance of its ends. -/
structure SameSpan (c c' : List (Measure ℚ)) (s s' : ChordSpan) : Prop where
  duration : s'.duration = s.duration
  places : ∃ t u, Placed c s.onset t ∧ Placed c' s'.onset t ∧ Placed c s.offset u ∧ Placed c' s'.offset u ∧
    s.duration = u - t

/-- The same piece, in measures of its own. -/
structure SamePiece (x y : ClassPiece) : Prop where
  same : ∃ c c', Chain x.measures c ∧ Chain y.measures c' ∧ (∀ m ∈ c, 0 ≤ m.actDur) ∧ (∀ m ∈ c', 0 ≤ m.actDur) ∧
    List.Forall₂ (SameNote c c') x.notes y.notes ∧
    List.Forall₂ (fun s s' => SameSpan c c' s.1 s'.1 ∧ s'.2 = s.2) x.chords y.chords

section
variable {τ σ : Type} [LinearOrder τ] [LinearOrder σ] {R : τ → σ → Prop}

theorem advance_same (hR : ∀ {a a' b b'}, R a a' → R b b' → (a < b ↔ a' < b')) {l : List τ} {l' : List σ}
    (h : List.Forall₂ R l l') {x : τ} {x' : σ} (hx : R x x') (fuel i : Nat) :
    advance l' x' fuel i = advance l x fuel i := by
  have hlen := h.length_eq
  induction fuel generalizing i with
  | zero => rfl
  | succ fuel ih =>
    simp only [advance]
    by_cases hi : i < l.length
    · have hi' : i < l'.length := hlen ▸ hi
      rw [List.getElem?_eq_getElem hi, List.getElem?_eq_getElem hi']
      have := List.Forall₂.get h hi hi'
      simp only [List.get_eq_getElem] at this
      simp only [← hR this hx, hlen, ih]
    · have hi' : ¬i < l'.length := hlen ▸ hi
      rw [List.getElem?_eq_none (by omega), List.getElem?_eq_none (by omega)]

theorem chordChanges_same (hR : ∀ {a a' b b'}, R a a' → R b b' → (a < b ↔ a' < b')) {l : List τ} {l' : List σ}
    (h : List.Forall₂ R l l') {xs : List τ} {xs' : List σ} (hx : List.Forall₂ R xs xs') (i : Nat) :
    chordChanges l' i xs' = chordChanges l i xs := by
  induction hx generalizing i with
  | nil => rfl
  | cons hab _ ih => simp only [chordChanges, advance_same hR h hab, ← h.length_eq, ih]

theorem rangeStart_same (hR : ∀ {a a' b b'}, R a a' → R b b' → (a < b ↔ a' < b')) {l : List (τ × τ)} {l' : List (σ × σ)}
    (h : List.Forall₂ (fun n n' => R n.1 n'.1 ∧ R n.2 n'.2) l l') {x : τ} {x' : σ} (hx : R x x') :
    rangeStart x' l' = rangeStart x l := by
  simp only [rangeStart]
  refine same_findIdx (h.imp fun n n' hn => ?_)
  have h1 := hR hn.1 hx
  have h2 := hR hx hn.2
  have h3 : x' ≤ n'.1 ↔ x ≤ n.1 := by rw [← not_lt, ← not_lt, h1]
  simp only [h3, ← h2]

theorem pieceChordRanges_same (hR : ∀ {a a' b b'}, R a a' → R b b' → (a < b ↔ a' < b')) {l : List (τ × τ)}
    {l' : List (σ × σ)} (h : List.Forall₂ (fun n n' => R n.1 n'.1 ∧ R n.2 n'.2) l l') {xs : List τ} {xs' : List σ}
    (hx : List.Forall₂ R xs xs') : pieceChordRanges l' xs' = pieceChordRanges l xs := by
  have h1 : List.Forall₂ R (l.map (·.1)) (l'.map (·.1)) := by
    rw [List.forall₂_map_left_iff, List.forall₂_map_right_iff]
    exact h.imp fun _ _ h => h.1
  simp only [pieceChordRanges, chordChanges_same hR h1 hx, ← h.length_eq]
  generalize (chordChanges (l.map (·.1)) 0 xs).drop 1 ++ [l.length] = es
  clear h1
  induction hx generalizing es with
  | nil => rfl
  | cons hab _ ih =>
    cases es with
    | nil => rfl
    | cons e es => simp only [List.zip_cons_cons, List.map_cons, rangeStart_same hR h hab, ih]

end

theorem placed_inj {T c : List (Measure ℚ)} (h : Chain T c) (h0 : ∀ m ∈ c, 0 ≤ m.actDur) {p q : Int × ℚ} {t u : ℚ}
    (hp : Placed c p t) (hq : Placed c q u) : p = q ↔ t = u := by
  have h1 := placed_lt h h0 hp hq
  have h2 := placed_lt h h0 hq hp
  constructor
  · rintro rfl
    exact le_antisymm (not_lt.1 (mt h2.2 (lt_irrefl _))) (not_lt.1 (mt h1.2 (lt_irrefl _)))
  · rintro rfl
    exact toLex.injective (le_antisymm (not_lt.1 (mt h2.1 (lt_irrefl _))) (not_lt.1 (mt h1.1 (lt_irrefl _))))

theorem rhythm_same {T c : List (Measure ℚ)} (h : Chain T c) {n p q : Int × ℚ} {v t u d l : ℚ} (hn : Placed c n v)
    (hp : Placed c p t) (hq : Placed c q u) (hl : l = u - t) :
    rhythmicInfo T n d p q (some l) =
      if l = 0 then .error .zeroDivisionError else .ok ((v - t) / l, (v - t) / l + d / l, d / l) := by
  by_cases h0 : l = 0
  · subst h0
    simp [rhythmicInfo, Bind.bind, Except.bind]
  · rw [if_neg h0]
    have hsame : (1 : ℚ) - (u - v) / l = (v - t) / l := by
      rw [eq_div_iff h0, sub_mul, div_mul_cancel₀ _ h0]; linarith
    simp only [rhythmicInfo, Bind.bind, Except.bind, if_neg h0, placed_length h hp hn, placed_length h hn hq, hsame,
      ite_self]

theorem mapM_forall₂ {α α' β : Type} {f : α → Py β} {g : α' → Py β} {l : List α} {l' : List α'}
    (h : List.Forall₂ (fun a b => g b = f a) l l') : l'.mapM g = l.mapM f := by
  induction h with
  | nil => rfl
  | cons hab _ ih => simp only [List.mapM_cons, hab, ih]

theorem zip_same {α α' β : Type} {R : α → α' → Prop} {l : List α} {l' : List α'} (h : List.Forall₂ R l l') (m : List β) :
    List.Forall₂ (fun a b => R a.1 b.1 ∧ b.2 = a.2) (l.zip m) (l'.zip m) := by
  induction h generalizing m with
  | nil => exact .nil
  | cons hab _ ih =>
    cases m with
    | nil => exact .nil
    | cons b m => exact .cons ⟨hab, rfl⟩ (ih m)

theorem pySlice_same {α α' : Type} {R : α → α' → Prop} {l : List α} {l' : List α'} (h : List.Forall₂ R l l') (a b : Int) :
    List.Forall₂ R (pySlice l a b) (pySlice l' a b) := by
  simp only [pySlice, ← h.length_eq]
  exact List.forall₂_drop _ (List.forall₂_take _ h)

theorem chordInput_same {T c T' c' : List (Measure ℚ)} (h : Chain T c) (h' : Chain T' c') (h0 : ∀ m ∈ c, 0 ≤ m.actDur)
    (h0' : ∀ m ∈ c', 0 ≤ m.actDur) {notes notes' : List NoteObj} (hn : List.Forall₂ (SameNote c c') notes notes')
    {s s' : ChordSpan} (hs : SameSpan c c' s s') {on on' : Int × ℚ} (hon : ∃ t, Placed c on t ∧ Placed c' on' t)
    (off off' : Int × ℚ) (change first last window : Nat) (cache : List ℚ) :
    chordNoteInput notes' T' on' off' s'.duration change first last window cache (some s') =
      chordNoteInput notes T on off s.duration change first last window cache (some s) := by
  obtain ⟨t, u, h1, h2, h3, h4, hd⟩ := hs.places
  obtain ⟨v, h5, h6⟩ := hon
  have hal : spanAligns (some s'.onset) on' = spanAligns (some s.onset) on := by
    simp only [spanAligns, placed_inj h h0 h1 h5, placed_inj h' h0' h2 h6]
  have hpl : ∀ (x f : Int × ℚ), spanPlace (some x) f = x := by
    intro x f
    simp only [spanPlace]
    split <;> simp_all
  have hp : ∀ a b, (pySlice notes' a b).mapM (fun n => do
        let m ← n.midiNumber
        Except.ok (n.octave, m)) = (pySlice notes a b).mapM (fun n => do
        let m ← n.midiNumber
        Except.ok (n.octave, m)) := by
    intro a b
    refine mapM_forall₂ ((pySlice_same hn a b).imp fun n n' hn => ?_)
    simp only [NoteObj.midiNumber, hn.pitchClass, hn.octave, hn.pitchType]
  simp only [chordNoteInput, Option.map_some, hal, hpl, ← hn.length_eq, hp]
  refine bind_same fun pitches _ => bind_same fun lowest _ => bind_same fun highest _ => ?_
  have hons : ∀ a b : Int, (if spanAligns (some s.onset) on = true
        then (noteOnsets cache change a.toNat b.toNat).map some else (pySlice notes' a b).map fun _ => (none : Option ℚ)) =
      if spanAligns (some s.onset) on = true
        then (noteOnsets cache change a.toNat b.toNat).map some else (pySlice notes a b).map fun _ => none := by
    intro a b
    split
    · rfl
    · simp only [List.map_const', (pySlice_same hn a b).length_eq]
  rw [hons]
  congr 1
  refine mapM_forall₂ ((zip_same (pySlice_same hn _ _) _).imp fun n n' hnn => ?_)
  obtain ⟨n, o, f, g⟩ := n
  obtain ⟨n', o', f', g'⟩ := n'
  obtain ⟨hnn, he⟩ := hnn
  dsimp only at he hnn
  obtain ⟨rfl, rfl, rfl⟩ : o' = o ∧ f' = f ∧ g' = g := by simpa using he
  obtain ⟨w, h7, h8⟩ := hnn.onset
  have hr : noteRhythm T' n' s'.onset s'.offset s'.duration o' = noteRhythm T n s.onset s.offset s.duration o' := by
    cases o' with
    | some o => simp only [noteRhythm, hs.duration, hnn.duration]
    | none =>
      simp only [noteRhythm, hs.duration, hnn.duration]
      rw [rhythm_same h h7 h1 h3 hd, rhythm_same h' h8 h2 h4 hd]
  simp only [noteVector, hr, hnn.pitchClass, hnn.octave, hnn.onsetLevel, hnn.offsetLevel, hnn.pitchType]

theorem pyGet_same {α α' : Type} {R : α → α' → Prop} {l : List α} {l' : List α'} (h : List.Forall₂ R l l') (i : Int) :
    (∃ a a', pyGet l i = .ok a ∧ pyGet l' i = .ok a' ∧ R a a') ∨ ∃ e, pyGet l i = .error e ∧ pyGet l' i = .error e := by
  have key : ∀ k : Nat, (∃ a a', l[k]? = some a ∧ l'[k]? = some a' ∧ R a a') ∨ (l[k]? = none ∧ l'[k]? = none) := by
    intro k
    by_cases hk : k < l.length
    · have hk' : k < l'.length := h.length_eq ▸ hk
      have := List.Forall₂.get h hk hk'
      exact .inl ⟨_, _, List.getElem?_eq_getElem hk, List.getElem?_eq_getElem hk', this⟩
    · have hk' : ¬k < l'.length := h.length_eq ▸ hk
      exact .inr ⟨List.getElem?_eq_none (by omega), List.getElem?_eq_none (by omega)⟩
  simp only [pyGet, ← h.length_eq]
  have hm : ∀ k : Nat, (∃ a a', (match l[k]? with | some a => Except.ok a | none => .error .indexError : Py α) = .ok a ∧
      (match l'[k]? with | some a => Except.ok a | none => .error .indexError : Py α') = .ok a' ∧ R a a') ∨
      ∃ e, (match l[k]? with | some a => Except.ok a | none => .error .indexError : Py α) = .error e ∧
        (match l'[k]? with | some a => Except.ok a | none => .error .indexError : Py α') = .error e := by
    intro k
    rcases key k with ⟨a, a', h1, h2, h3⟩ | ⟨h1, h2⟩
    · exact .inl ⟨a, a', by rw [h1], by rw [h2], h3⟩
    · exact .inr ⟨.indexError, by rw [h1], by rw [h2]⟩
  split
  · exact hm _
  · split
    · exact hm _
    · exact .inr ⟨_, rfl, rfl⟩

/-- C164: the inputs of the chord classifier for the labels of a piece are the same. -/
theorem C164_inputs {T c T' c' : List (Measure ℚ)} (h : Chain T c) (h' : Chain T' c') (h0 : ∀ m ∈ c, 0 ≤ m.actDur)
    (h0' : ∀ m ∈ c', 0 ≤ m.actDur) {notes notes' : List NoteObj} (hn : List.Forall₂ (SameNote c c') notes notes')
    {l l' : List ChordSpan} (hl : List.Forall₂ (SameSpan c c') l l') (window : Nat) :
    chordNoteInputs notes' (some l') T' window none none = chordNoteInputs notes (some l) T window none none := by
  let R : Lex (Int × ℚ) → Lex (Int × ℚ) → Prop := fun p q => ∃ t, Placed c (ofLex p) t ∧ Placed c' (ofLex q) t
  have hR : ∀ {a a' b b'}, R a a' → R b b' → (a < b ↔ a' < b') := by
    rintro a a' b b' ⟨t, h1, h2⟩ ⟨u, h3, h4⟩
    exact (placed_lt h h0 h1 h3).trans (placed_lt h' h0' h2 h4).symm
  have ht : List.Forall₂ (fun n n' => R n.1 n'.1 ∧ R n.2 n'.2)
      ((notes.map fun n => (n.onset, n.offset)).map fun t => (toLex t.1, toLex t.2))
      ((notes'.map fun n => (n.onset, n.offset)).map fun t => (toLex t.1, toLex t.2)) := by
    simp only [List.forall₂_map_left_iff, List.forall₂_map_right_iff]
    exact hn.imp fun _ _ h => ⟨h.onset, h.offset⟩
  have ht1 : List.Forall₂ R
      (((notes.map fun n => (n.onset, n.offset)).map fun t => (toLex t.1, toLex t.2)).map Prod.fst)
      (((notes'.map fun n => (n.onset, n.offset)).map fun t => (toLex t.1, toLex t.2)).map Prod.fst) := by
    rw [List.forall₂_map_left_iff, List.forall₂_map_right_iff]
    exact ht.imp fun _ _ h => h.1
  have hs : List.Forall₂ R (l.map fun c => toLex c.onset) (l'.map fun c => toLex c.onset) := by
    simp only [List.forall₂_map_left_iff, List.forall₂_map_right_iff]
    refine hl.imp fun _ _ h => ?_
    obtain ⟨t, u, h1, h2, -⟩ := h.places
    exact ⟨t, h1, h2⟩
  simp only [chordNoteInputs, Option.isNone_none, Bool.or_true, Option.map_some, pieceChordRanges_same hR ht hs,
    chordChanges_same hR ht1 hs, Bind.bind, Except.bind, lastOffset]
  have hl2 : List.Forall₂ R (l.map fun c => toLex c.offset) (l'.map fun c => toLex c.offset) := by
    simp only [List.forall₂_map_left_iff, List.forall₂_map_right_iff]
    refine hl.imp fun _ _ h => ?_
    obtain ⟨t, u, -, -, h3, h4, -⟩ := h.places
    exact ⟨u, h3, h4⟩
  rcases pyGet_same hl2 (-1) with ⟨p, q, e1, e2, t, hp, hq⟩ | ⟨e, e1, e2⟩
  · rw [e1, e2]
    dsimp only
    rw [same_cache h h' hn hp hq]
    cases durationCache T (notes.map NoteObj.onset) (ofLex p) with
    | error e => rfl
    | ok cache =>
      dsimp only
      generalize pieceChordRanges (τ := Lex (Int × ℚ)) _ _ = rs
      generalize chordChanges (τ := Lex (Int × ℚ)) _ _ _ = cs
      refine mapM_forall₂ ?_
      have key : ∀ (rs : List (Nat × Nat)) (cs : List Nat), List.Forall₂
          (fun x x' => x'.1 = x.1 ∧ x'.2.1 = x.2.1 ∧ ∃ s s', x.2.2 = some s ∧ x'.2.2 = some s' ∧ SameSpan c c' s s')
          (rs.zip (cs.zip (l.map some))) (rs.zip (cs.zip (l'.map some))) := by
        clear hs hl2 e1 e2
        induction hl with
        | nil => intro rs cs; simp
        | cons hab _ ih =>
          intro rs cs
          cases rs with
          | nil => exact .nil
          | cons r rs =>
            cases cs with
            | nil => exact .nil
            | cons k cs => exact .cons ⟨rfl, rfl, _, _, rfl, rfl, hab⟩ (ih rs cs)
      refine (key rs cs).imp fun x x' hx => ?_
      obtain ⟨r, k, s⟩ := x
      obtain ⟨r', k', s'⟩ := x'
      obtain ⟨h1, h2, s0, s0', h3, h4, h5⟩ := hx
      dsimp only at h1 h2 h3 h4
      subst h1 h2 h3 h4
      simp only [pieceChordInput]
      rcases pyGet_same hn (k' : Int) with ⟨n, n', e1, e2, hnn⟩ | ⟨e, e1, e2⟩
      · rw [e1, e2]
        exact chordInput_same h h' h0 h0' hn h5 hnn.onset _ _ _ _ _ _ _
      · rw [e1, e2]
        rfl
  · rw [e1, e2]

/-- C164: the chord classifier is trained on the same data if the pieces are written in other measures. -/
theorem C164_class {l l' : List ClassPiece} (h : List.Forall₂ SamePiece l l') : classDataset l' = classDataset l := by
  have h1 : l'.mapM (fun x => chordNoteInputs x.notes (some (x.chords.map Prod.fst)) x.measures 2 none none) =
      l.mapM (fun x => chordNoteInputs x.notes (some (x.chords.map Prod.fst)) x.measures 2 none none) := by
    refine mapM_forall₂ (h.imp fun x y hxy => ?_)
    obtain ⟨c, c', h1, h2, h3, h4, hn, hc⟩ := hxy.same
    refine C164_inputs h1 h2 h3 h4 hn ?_ 2
    rw [List.forall₂_map_left_iff, List.forall₂_map_right_iff]
    exact hc.imp fun _ _ h => h.1
  have hc : ∀ {x y : ClassPiece}, SamePiece x y → y.chords.map Prod.snd = x.chords.map Prod.snd := by
    intro x y hxy
    obtain ⟨c, c', -, -, -, -, -, hc⟩ := hxy.same
    generalize x.chords = a, y.chords = b at hc
    induction hc with
    | nil => rfl
    | cons hab _ ih => rw [List.map_cons, List.map_cons, hab.2, ih]
  have e2 : ∀ l : List ClassPiece, (l.flatMap ClassPiece.chords).mapM
      (fun c => c.2.oneHotIndex false true false noReduction) =
      (l.flatMap fun x => x.chords.map Prod.snd).mapM fun c => c.oneHotIndex false true false noReduction := by
    intro l
    rw [← List.map_flatMap, mapM_strip]
  have h2 : (l'.flatMap fun x => x.chords.map Prod.snd) = l.flatMap fun x => x.chords.map Prod.snd := by
    clear h1
    induction h with
    | nil => rfl
    | cons hab _ ih => rw [List.flatMap_cons, List.flatMap_cons, hc hab, ih]
  have h3 : firstPitchType l' = firstPitchType l := by
    cases h with
    | nil => rfl
    | @cons x y _ _ hab _ =>
      have e : ∀ z : ClassPiece, (z.chords.head?.map fun c => c.2.pitchType) =
          (z.chords.map Prod.snd).head?.map Chord.pitchType := by
        intro z
        rw [List.head?_map, Option.map_map]
        rfl
      simp only [firstPitchType, e, hc hab]
  simp only [classDataset, h1, e2, h2, h3]

/-- C164: so is the chord transition model. -/
theorem C164_transition {x y : ClassPiece} (h : SamePiece x y) : ctmPiece y = ctmPiece x := by
  obtain ⟨c, c', h, h', h0, h0', hn, hc⟩ := h.same
  let R : Lex (Int × ℚ) → Lex (Int × ℚ) → Prop := fun p q => ∃ t, Placed c (ofLex p) t ∧ Placed c' (ofLex q) t
  have hR : ∀ {a a' b b'}, R a a' → R b b' → (a < b ↔ a' < b') := by
    rintro a a' b b' ⟨t, h1, h2⟩ ⟨u, h3, h4⟩
    exact (placed_lt h h0 h1 h3).trans (placed_lt h' h0' h2 h4).symm
  have h1 : List.Forall₂ R (x.notes.map fun n => toLex n.onset) (y.notes.map fun n => toLex n.onset) := by
    simp only [List.forall₂_map_left_iff, List.forall₂_map_right_iff]
    exact hn.imp fun _ _ h => h.onset
  have h2 : List.Forall₂ R (x.chords.map fun c => toLex c.1.onset) (y.chords.map fun c => toLex c.1.onset) := by
    simp only [List.forall₂_map_left_iff, List.forall₂_map_right_iff]
    refine hc.imp fun _ _ h => ?_
    obtain ⟨t, u, h1, h2, -⟩ := h.1.places
    exact ⟨t, h1, h2⟩
  have h3 : List.Forall₂ R (x.chords.map fun c => toLex c.1.offset) (y.chords.map fun c => toLex c.1.offset) := by
    simp only [List.forall₂_map_left_iff, List.forall₂_map_right_iff]
    refine hc.imp fun _ _ h => ?_
    obtain ⟨t, u, -, -, h3, h4, -⟩ := h.1.places
    exact ⟨u, h3, h4⟩
  have h4 : ∀ cache, ctmInputs y.notes cache = ctmInputs x.notes cache := by
    intro cache
    rw [← ctmInputs_strip, same_strip hn, ctmInputs_strip]
  simp only [ctmPiece, lastOffset, chordChanges_same hR h1 h2, h4, Bind.bind, Except.bind]
  rcases pyGet_same h3 (-1) with ⟨p, q, e1, e2, t, hp, hq⟩ | ⟨e, e1, e2⟩
  · rw [e1, e2]
    dsimp only
    rw [same_cache h h' hn hp hq]
  · rw [e1, e2]

/-! ## A concrete case -/

/-- The two whole notes of `AnalysedPieces.demoNotes`, after an upbeat of a half note which has the number 7. -/
def otherNotes : List NoteObj :=
  [⟨15, 5, (7, 1/2), 3, 1, (10, 0), 3, .tpc, 1/2⟩, ⟨19, 5, (10, 0), 3, 1, (10, 1), 3, .tpc, 0⟩]

def otherMeasures : List (Measure ℚ) := [⟨7, 1/2, 1/2, some 9⟩, ⟨9, 1/2, 0, some 10⟩, ⟨10, 3/2, 0, none⟩]

theorem demo_chain : Chain demoMeasures demoMeasures := by
  refine ⟨by decide +kernel, ?_, by decide +kernel⟩
  intro k m m' h1 h2
  match k with
  | 0 => simp [demoMeasures, TablePiece.exMeasures] at h1 h2; rw [← h1, ← h2]
  | 1 => simp [demoMeasures, TablePiece.exMeasures] at h1 h2; rw [← h1, ← h2]
  | 2 => simp [demoMeasures, TablePiece.exMeasures] at h1 h2; rw [← h1, ← h2]
  | k + 3 => simp [demoMeasures, TablePiece.exMeasures] at h2

theorem other_chain : Chain otherMeasures otherMeasures := by
  refine ⟨by decide +kernel, ?_, by decide +kernel⟩
  intro k m m' h1 h2
  match k with
  | 0 => simp [otherMeasures] at h1 h2; rw [← h1, ← h2]
  | 1 => simp [otherMeasures] at h1 h2; rw [← h1, ← h2]
  | k + 2 => simp [otherMeasures] at h2

example : ∀ chord key, demoAnalyser.analyse ⟨otherNotes, otherMeasures, none⟩ chord key =
    demoAnalyser.analyse ⟨demoNotes, demoMeasures, none⟩ chord key := by
  have p0 : Placed demoMeasures (0, 0) 0 := ⟨0, _, rfl, rfl, by decide +kernel, fun _ => by decide +kernel, by decide +kernel⟩
  have p1 : Placed demoMeasures (1, 0) 1 := ⟨1, _, rfl, rfl, by decide +kernel, fun _ => by decide +kernel, by decide +kernel⟩
  have p2 : Placed demoMeasures (2, 0) 2 := ⟨2, _, rfl, rfl, by decide +kernel, fun _ => by decide +kernel, by decide +kernel⟩
  have q0 : Placed otherMeasures (7, 1/2) 0 := ⟨0, _, rfl, rfl, by decide +kernel, fun _ => by decide +kernel, by decide +kernel⟩
  have q1 : Placed otherMeasures (10, 0) 1 := ⟨2, _, rfl, rfl, by decide +kernel, fun _ => by decide +kernel, by decide +kernel⟩
  have q2 : Placed otherMeasures (10, 1) 2 := ⟨2, _, rfl, rfl, by decide +kernel, fun _ => by decide +kernel, by decide +kernel⟩
  exact C164_measures demoAnalyser (x := ⟨demoNotes, demoMeasures, none⟩) (y := ⟨otherNotes, otherMeasures, none⟩)
    demo_chain other_chain (by decide +kernel) (by decide +kernel)
    (.cons ⟨rfl, rfl, rfl, rfl, rfl, rfl, ⟨0, p0, q0⟩, ⟨1, p1, q1⟩⟩
      (.cons ⟨rfl, rfl, rfl, rfl, rfl, rfl, ⟨1, p1, q1⟩, ⟨2, p2, q2⟩⟩ .nil))
    (p := (2, 0)) (q := (10, 1)) (t := 2)
    (by simp only [Ends]; decide +kernel) (by simp only [Ends]; decide +kernel) p2 q2

def demoChord : Chord ℚ := ⟨15, 15, 15, .major, .major, 0, 3, 3, 1, .tpc⟩

/-- The two notes, with one chord until the middle of the second note and another one from there. -/
def demoLabels : List (ChordSpan × Chord ℚ) :=
  [(⟨(0, 0), (1, 1/2), 3/2⟩, demoChord), (⟨(1, 1/2), (2, 0), 1/2⟩, demoChord)]

def otherLabels : List (ChordSpan × Chord ℚ) :=
  [(⟨(7, 1/2), (10, 1/2), 3/2⟩, demoChord), (⟨(10, 1/2), (10, 1), 1/2⟩, demoChord)]

/-- The second chord begins within a note, so that places are proportions of its range. -/
example : SamePiece ⟨demoNotes, demoMeasures, demoLabels⟩ ⟨otherNotes, otherMeasures, otherLabels⟩ ∧
    (classDataset [⟨demoNotes, demoMeasures, demoLabels⟩]).isOk ∧ (ctmPiece ⟨demoNotes, demoMeasures, demoLabels⟩).isOk := by
  have p0 : Placed demoMeasures (0, 0) 0 := ⟨0, _, rfl, rfl, by decide +kernel, fun _ => by decide +kernel, by decide +kernel⟩
  have p1 : Placed demoMeasures (1, 0) 1 := ⟨1, _, rfl, rfl, by decide +kernel, fun _ => by decide +kernel, by decide +kernel⟩
  have p3 : Placed demoMeasures (1, 1/2) (3/2) :=
    ⟨1, _, rfl, rfl, by decide +kernel, fun _ => by decide +kernel, by decide +kernel⟩
  have p2 : Placed demoMeasures (2, 0) 2 := ⟨2, _, rfl, rfl, by decide +kernel, fun _ => by decide +kernel, by decide +kernel⟩
  have q0 : Placed otherMeasures (7, 1/2) 0 := ⟨0, _, rfl, rfl, by decide +kernel, fun _ => by decide +kernel, by decide +kernel⟩
  have q1 : Placed otherMeasures (10, 0) 1 := ⟨2, _, rfl, rfl, by decide +kernel, fun _ => by decide +kernel, by decide +kernel⟩
  have q3 : Placed otherMeasures (10, 1/2) (3/2) :=
    ⟨2, _, rfl, rfl, by decide +kernel, fun _ => by decide +kernel, by decide +kernel⟩
  have q2 : Placed otherMeasures (10, 1) 2 := ⟨2, _, rfl, rfl, by decide +kernel, fun _ => by decide +kernel, by decide +kernel⟩
  refine ⟨⟨demoMeasures, otherMeasures, demo_chain, other_chain, by decide +kernel, by decide +kernel,
    .cons ⟨rfl, rfl, rfl, rfl, rfl, rfl, ⟨0, p0, q0⟩, ⟨1, p1, q1⟩⟩
      (.cons ⟨rfl, rfl, rfl, rfl, rfl, rfl, ⟨1, p1, q1⟩, ⟨2, p2, q2⟩⟩ .nil),
    .cons ⟨⟨rfl, 0, 3/2, p0, q0, p3, q3, by decide +kernel⟩, rfl⟩
      (.cons ⟨⟨rfl, 3/2, 2, p3, q3, p2, q2, by decide +kernel⟩, rfl⟩ .nil)⟩, by decide +kernel, by decide +kernel⟩

end Verif.Barlines
