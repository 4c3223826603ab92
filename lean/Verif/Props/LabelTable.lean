import Verif.Props.Results
import Verif.Piece

/-!
# C75: the coloured table of labels
-/

namespace Verif.LabelTable

open Verif.Eval Verif.Results

variable {δ τ : Type}

/-! ## What the table should say -/

/-- A row of the table, with its kind and the input it belongs to. -/
structure Entry (τ : Type) where
  isKey : Bool
  idx : Nat
  row : LabelRow τ

/-- The text of a row that does not name a label. -/
def dash : Str := "--".toList

/-- `e` is the latest entry of the kind `sel` at input `i`. -/
def Latest (l : List (Entry τ)) (sel : Entry τ → Prop) (i : Nat) (e : Entry τ) : Prop :=
  e ∈ l ∧ sel e ∧ e.idx ≤ i ∧ ∀ e' ∈ l, sel e' → e'.idx ≤ i → e'.idx ≤ e.idx

/-- Green: right; yellow: only the tonic is right; red: the tonic is wrong. -/
def KeyColourOK (A : EvalInput δ) (pt : PitchType) (i : Nat) : Colour → Prop
  | .green => KeyRight A pt false i
  | .yellow => ¬ KeyRight A pt false i ∧ KeyRight A pt true i
  | .red => ¬ KeyRight A pt true i

/-- Green: right; yellow: only the root and the triad are right; red: the root or the triad is wrong. -/
def ChordColourOK (A : EvalInput δ) (pt : PitchType) (i : Nat) : Colour → Prop
  | .green => ChordRight A pt true noReduction i
  | .yellow => ¬ ChordRight A pt true noReduction i ∧ ChordRight A pt false triadReduction i
  | .red => ¬ ChordRight A pt false triadReduction i

/-- Input `i` has a duration. -/
def Sounds (A : EvalInput δ) (i : Nat) : Prop := ∃ d, A.cache[i]? = some d ∧ d ≠ 0

/-- `j` is the last input before `i` that has a duration. -/
def SoundsBefore (A : EvalInput δ) (j i : Nat) : Prop :=
  j < i ∧ Sounds A j ∧ ∀ m, m < i → Sounds A m → m ≤ j

/-- The estimated keys of two inputs are the same. -/
def SameEstKey (A : EvalInput δ) (pt : PitchType) (i j : Nat) : Prop :=
  ∃ k k' l, Covers A.estKeys A.estKeyChanges i k ∧ Covers A.estKeys A.estKeyChanges j k' ∧
    pyGet (stdLabels pt).key k = .ok l ∧ pyGet (stdLabels pt).key k' = .ok l

/-- The keys of the piece at two inputs are the same. -/
def SameGtKey (A : EvalInput δ) (i j : Nat) : Prop :=
  ∃ g g', Covers A.gtKeys A.gtKeyChanges i g ∧ Covers A.gtKeys A.gtKeyChanges j g' ∧
    g.relativeTonic = g'.relativeTonic ∧ g.relativeMode = g'.relativeMode

/-- The estimated chords of two inputs are the same. -/
def SameEstChord (A : EvalInput δ) (pt : PitchType) (i j : Nat) : Prop :=
  ∃ c c' l, Covers A.estChords A.estChordChanges i (some c) ∧ Covers A.estChords A.estChordChanges j (some c') ∧
    pyGet (stdLabels pt).chord c = .ok l ∧ pyGet (stdLabels pt).chord c' = .ok l

/-- The chords of the piece at two inputs are the same. -/
def SameGtChord (A : EvalInput δ) (i j : Nat) : Prop :=
  ∃ g g', Covers A.gtChords A.gtChordChanges i g ∧ Covers A.gtChords A.gtChordChanges j g' ∧
    g.root = g'.root ∧ g.chordType = g'.chordType ∧ g.inversion = g'.inversion

/-! ## One kind of row -/

/-- One input: its texts and its colour. -/
structure Pt (τ : Type) where
  idx : Nat
  pos : τ
  gt : Str
  est : Str
  colour : Colour

def Pt.pair (p : Pt τ) : LabelPair := (some p.gt, some p.est)

def emit (b : Bool) (prev : LabelPair) (p : Pt τ) : List (Entry τ) :=
  if p.pair ≠ prev then [⟨b, p.idx, ⟨if some p.est ≠ prev.2 then p.est else dash, p.pos, p.colour⟩⟩]
  else []

def track (b : Bool) : LabelPair → List (Pt τ) → List (Entry τ)
  | _, [] => []
  | prev, p :: rest => emit b prev p ++ track b p.pair rest

theorem mem_emit {b : Bool} {prev : LabelPair} {p : Pt τ} {e : Entry τ} :
    e ∈ emit b prev p ↔ p.pair ≠ prev ∧
      e = ⟨b, p.idx, ⟨if some p.est ≠ prev.2 then p.est else dash, p.pos, p.colour⟩⟩ := by
  rw [emit]
  split <;> simp_all

theorem track_mem {b : Bool} {prev : LabelPair} {pts : List (Pt τ)} {e : Entry τ} (h : e ∈ track b prev pts) :
    e.isKey = b ∧ ∃ p ∈ pts, e.idx = p.idx ∧ e.row.pos = p.pos := by
  induction pts generalizing prev with
  | nil => simp [track] at h
  | cons p rest ih =>
    simp only [track, List.mem_append] at h
    rcases h with h | h
    · obtain ⟨_, rfl⟩ := mem_emit.1 h
      exact ⟨rfl, p, List.mem_cons_self, rfl, rfl⟩
    · obtain ⟨h1, q, hq, h2⟩ := ih h
      exact ⟨h1, q, List.mem_cons_of_mem _ hq, h2⟩

theorem track_colour (b : Bool) (pts : List (Pt τ)) (prev : LabelPair)
    (hs : pts.Pairwise (fun p q => p.idx < q.idx))
    (hc : ∀ p ∈ pts, ∀ q ∈ pts, p.pair = q.pair → p.colour = q.colour) (p : Pt τ) (hp : p ∈ pts) :
    (∃ e, Latest (track b prev pts) (fun _ => True) p.idx e ∧ e.row.colour = p.colour) ∨
    ((∀ e ∈ track b prev pts, ¬ e.idx ≤ p.idx) ∧ prev = p.pair) := by
  induction pts generalizing prev with
  | nil => cases hp
  | cons q rest ih =>
    obtain ⟨s1, s2⟩ := List.pairwise_cons.1 hs
    have late : ∀ e ∈ track b q.pair rest, q.idx < e.idx := by
      intro e he
      obtain ⟨_, r, hr, h, _⟩ := track_mem he
      rw [h]; exact s1 r hr
    -- the head alone
    have head : ∀ p : Pt τ, p.pair = q.pair → p.colour = q.colour → q.idx ≤ p.idx →
        (∀ e ∈ track b q.pair rest, ¬ e.idx ≤ p.idx) →
        (∃ e, Latest (track b prev (q :: rest)) (fun _ => True) p.idx e ∧ e.row.colour = p.colour) ∨
        ((∀ e ∈ track b prev (q :: rest), ¬ e.idx ≤ p.idx) ∧ prev = p.pair) := by
      intro p e1 e2 e3 e4
      by_cases h : q.pair = prev
      · right
        refine ⟨?_, by rw [e1, h]⟩
        intro e he
        simp only [track, List.mem_append] at he
        rcases he with he | he
        · exact absurd h (mem_emit.1 he).1
        · exact e4 e he
      · left
        refine ⟨_, ⟨List.mem_append_left _ (mem_emit.2 ⟨h, rfl⟩), trivial, e3, ?_⟩, e2.symm⟩
        intro e he _ hle
        rcases List.mem_append.1 he with he | he
        · obtain ⟨_, rfl⟩ := mem_emit.1 he
          exact Nat.le_refl _
        · exact absurd hle (e4 e he)
    rcases List.mem_cons.1 hp with rfl | hp'
    · exact head p rfl rfl (Nat.le_refl _) (fun e he => by have := late e he; omega)
    · rcases ih q.pair s2 (fun a ha c hc' => hc a (List.mem_cons_of_mem _ ha) c (List.mem_cons_of_mem _ hc'))
        hp' with ⟨e, ⟨e1, _, e3, e4⟩, e5⟩ | ⟨h1, h2⟩
      · left
        refine ⟨e, ⟨List.mem_append_right _ e1, trivial, e3, ?_⟩, e5⟩
        intro e' he' _ hle
        rcases List.mem_append.1 he' with he' | he'
        · obtain ⟨_, rfl⟩ := mem_emit.1 he'
          exact Nat.le_of_lt (late e e1)
        · exact e4 e' he' trivial hle
      · exact head p h2.symm (hc p hp q List.mem_cons_self h2.symm) (Nat.le_of_lt (s1 p hp')) h1

theorem track_label (b : Bool) (pts : List (Pt τ)) (prev : LabelPair)
    (hs : pts.Pairwise (fun p q => p.idx < q.idx)) (hd : ∀ p ∈ pts, p.est ≠ dash) (p : Pt τ) (hp : p ∈ pts) :
    (∃ e, Latest (track b prev pts) (fun e => e.row.label ≠ dash) p.idx e ∧ e.row.label = p.est) ∨
    ((∀ e ∈ track b prev pts, e.row.label ≠ dash → ¬ e.idx ≤ p.idx) ∧ prev.2 = some p.est) := by
  induction pts generalizing prev with
  | nil => cases hp
  | cons q rest ih =>
    obtain ⟨s1, s2⟩ := List.pairwise_cons.1 hs
    have late : ∀ e ∈ track b q.pair rest, q.idx < e.idx := by
      intro e he
      obtain ⟨_, r, hr, h, _⟩ := track_mem he
      rw [h]; exact s1 r hr
    have head : ∀ p : Pt τ, p.est = q.est → q.idx ≤ p.idx →
        (∀ e ∈ track b q.pair rest, e.row.label ≠ dash → ¬ e.idx ≤ p.idx) →
        (∃ e, Latest (track b prev (q :: rest)) (fun e => e.row.label ≠ dash) p.idx e ∧
          e.row.label = p.est) ∨
        ((∀ e ∈ track b prev (q :: rest), e.row.label ≠ dash → ¬ e.idx ≤ p.idx) ∧ prev.2 = some p.est) := by
      intro p e1 e3 e4
      by_cases h : some q.est = prev.2
      · right
        refine ⟨?_, by rw [e1, h]⟩
        intro e he hl
        simp only [track, List.mem_append] at he
        rcases he with he | he
        · obtain ⟨_, rfl⟩ := mem_emit.1 he
          exact absurd (by simp [h]) hl
        · exact e4 e he hl
      · left
        refine ⟨_, ⟨List.mem_append_left _ (mem_emit.2 ⟨fun hh => h (by rw [← hh]; rfl), rfl⟩), ?_, e3, ?_⟩, ?_⟩
        · simpa [h] using hd q List.mem_cons_self
        · intro e he hl hle
          rcases List.mem_append.1 he with he | he
          · obtain ⟨_, rfl⟩ := mem_emit.1 he
            exact Nat.le_refl _
          · exact absurd hle (e4 e he hl)
        · simp [h, e1]
    rcases List.mem_cons.1 hp with rfl | hp'
    · exact head p rfl (Nat.le_refl _) (fun e he _ => by have := late e he; omega)
    · rcases ih q.pair s2 (fun a ha => hd a (List.mem_cons_of_mem _ ha)) hp' with
        ⟨e, ⟨e1, e2, e3, e4⟩, e5⟩ | ⟨h1, h2⟩
      · left
        refine ⟨e, ⟨List.mem_append_right _ e1, e2, e3, ?_⟩, e5⟩
        intro e' he' hl hle
        rcases List.mem_append.1 he' with he' | he'
        · obtain ⟨_, rfl⟩ := mem_emit.1 he'
          exact Nat.le_of_lt (late e e1)
        · exact e4 e' he' hl hle
      · exact head p (by simpa [Pt.pair] using h2.symm) (Nat.le_of_lt (s1 p hp')) h1

theorem track_first (b : Bool) (pts : List (Pt τ)) (prev : LabelPair)
    (hs : pts.Pairwise (fun p q => p.idx < q.idx)) (hd : ∀ p ∈ pts, p.est ≠ dash) (e : Entry τ)
    (he : e ∈ track b prev pts) (hf : ∀ q ∈ pts, ¬ q.idx < e.idx) :
    ∃ p ∈ pts, p.idx = e.idx ∧ p.pair ≠ prev ∧ (e.row.label = dash ↔ prev.2 = some p.est) := by
  cases pts with
  | nil => simp [track] at he
  | cons p rest =>
    rcases List.mem_append.1 he with he | he
    · obtain ⟨h1, rfl⟩ := mem_emit.1 he
      refine ⟨p, List.mem_cons_self, rfl, h1, ?_⟩
      have := hd p List.mem_cons_self
      by_cases h : some p.est = prev.2
      · simp [h]
      · simp only [ne_eq, h, not_false_eq_true, if_true, this, false_iff]
        exact fun hh => h hh.symm
    · obtain ⟨_, r, hr, h, _⟩ := track_mem he
      exact absurd (by rw [h]; exact (List.pairwise_cons.1 hs).1 r hr) (hf p List.mem_cons_self)

theorem track_minimal (b : Bool) (pts : List (Pt τ)) (prev : LabelPair)
    (hs : pts.Pairwise (fun p q => p.idx < q.idx)) (hd : ∀ p ∈ pts, p.est ≠ dash) (e : Entry τ)
    (he : e ∈ track b prev pts) (q : Pt τ) (hq : q ∈ pts) (hlt : q.idx < e.idx)
    (hl : ∀ q' ∈ pts, q'.idx < e.idx → q'.idx ≤ q.idx) :
    ∃ p ∈ pts, p.idx = e.idx ∧ p.pair ≠ q.pair ∧ (e.row.label = dash ↔ q.est = p.est) := by
  induction pts generalizing prev with
  | nil => cases hq
  | cons p rest ih =>
    obtain ⟨s1, s2⟩ := List.pairwise_cons.1 hs
    have hd' : ∀ p ∈ rest, p.est ≠ dash := fun r hr => hd r (List.mem_cons_of_mem _ hr)
    rcases List.mem_append.1 he with he | he
    · obtain ⟨_, rfl⟩ := mem_emit.1 he
      rcases List.mem_cons.1 hq with rfl | hq
      · exact absurd hlt (Nat.lt_irrefl _)
      · have := s1 q hq
        simp only at hlt
        omega
    · rcases List.mem_cons.1 hq with rfl | hq
      · obtain ⟨r, hr, h1, h2, h3⟩ := track_first b rest q.pair s2 hd' e he (by
          intro q' hq' hlt'
          have h1 := hl q' (List.mem_cons_of_mem _ hq') hlt'
          have h2 := s1 q' hq'
          omega)
        refine ⟨r, List.mem_cons_of_mem _ hr, h1, h2, ?_⟩
        rw [h3]
        simp [Pt.pair]
      · obtain ⟨r, hr, h⟩ := ih _ s2 hd' he hq (fun q' hq' => hl q' (List.mem_cons_of_mem _ hq'))
        exact ⟨r, List.mem_cons_of_mem _ hr, h⟩

/-! ## Both kinds of row -/

def tags : LabelPair → LabelPair → List (Pt τ × Pt τ) → List (Entry τ)
  | _, _, [] => []
  | pk, pc, x :: rest => emit true pk x.1 ++ emit false pc x.2 ++ tags x.1.pair x.2.pair rest

theorem tags_mem_iff (pk pc : LabelPair) (l : List (Pt τ × Pt τ)) (e : Entry τ) :
    e ∈ tags pk pc l ↔ e ∈ track true pk (l.map (·.1)) ∨ e ∈ track false pc (l.map (·.2)) := by
  induction l generalizing pk pc with
  | nil => simp [tags, track]
  | cons x rest ih =>
    simp only [tags, track, List.map_cons, List.mem_append, ih]
    tauto

theorem tags_sorted (pk pc : LabelPair) (l : List (Pt τ × Pt τ)) (hi : ∀ x ∈ l, x.1.idx = x.2.idx)
    (hs : l.Pairwise (fun x y => x.1.idx < y.1.idx)) :
    (tags pk pc l).Pairwise
      (fun a b => a.idx < b.idx ∨ a.idx = b.idx ∧ a.isKey = true ∧ b.isKey = false) := by
  induction l generalizing pk pc with
  | nil => exact .nil
  | cons x rest ih =>
    obtain ⟨s1, s2⟩ := List.pairwise_cons.1 hs
    have hx := hi x List.mem_cons_self
    have late : ∀ e ∈ tags x.1.pair x.2.pair rest, x.1.idx < e.idx := by
      intro e he
      rcases (tags_mem_iff _ _ _ _).1 he with he | he
      · obtain ⟨_, r, hr, h, _⟩ := track_mem he
        obtain ⟨y, hy, rfl⟩ := List.mem_map.1 hr
        rw [h]; exact s1 y hy
      · obtain ⟨_, r, hr, h, _⟩ := track_mem he
        obtain ⟨y, hy, rfl⟩ := List.mem_map.1 hr
        rw [h, ← hi y (List.mem_cons_of_mem _ hy)]; exact s1 y hy
    simp only [tags]
    rw [List.pairwise_append, List.pairwise_append]
    refine ⟨⟨?_, ?_, ?_⟩, ih _ _ (fun y hy => hi y (List.mem_cons_of_mem _ hy)) s2, ?_⟩
    · rw [emit]; split <;> simp
    · rw [emit]; split <;> simp
    · intro a ha c hc
      obtain ⟨_, rfl⟩ := mem_emit.1 ha
      obtain ⟨_, rfl⟩ := mem_emit.1 hc
      exact .inr ⟨hx, rfl, rfl⟩
    · intro a ha c hc
      left
      have := late c hc
      rcases List.mem_append.1 ha with ha | ha
      · obtain ⟨_, rfl⟩ := mem_emit.1 ha
        exact this
      · obtain ⟨_, rfl⟩ := mem_emit.1 ha
        rw [hx] at this
        exact this

theorem labelRow_emit (b : Bool) (col : Py Colour) (c : Colour) (h : col = .ok c) (prev : LabelPair)
    (p : Pt τ) (hp : p.colour = c) :
    labelRow col prev p.pair p.est p.pos = .ok ((emit b prev p).map (·.row)) := by
  obtain ⟨x, y⟩ := prev
  rw [emit, labelRow, h]
  by_cases hx : p.pair = (x, y)
  · rw [if_neg (by rw [← hx]; simp), if_neg (by simpa using hx)]
    rfl
  · rw [if_pos, if_pos hx]
    · simp only [Bind.bind, Except.bind, Pt.pair, List.map_cons, List.map_nil, hp, dash]
      by_cases hy : some p.est = y <;> simp [hy]
    · by_contra hcon
      rw [not_or, Decidable.not_not, Decidable.not_not] at hcon
      exact hx (Prod.ext hcon.1 hcon.2)

/-- What an item of the loop and its two points have to do with each other. -/
structure Describes (rt tt : PitchType) (chordNames keyNames : List Str)
    (x : ℚ × τ × (Int × Int) × (Int × Int)) (i : Nat) (y : ℚ × Pt τ × Pt τ) : Prop where
  dur : y.1 = x.1
  idxK : y.2.1.idx = i
  idxC : y.2.2.idx = i
  posK : y.2.1.pos = x.2.1
  posC : y.2.2.pos = x.2.1
  gtK : pyGet keyNames x.2.2.2.2 = .ok y.2.1.gt
  estK : pyGet keyNames x.2.2.2.1 = .ok y.2.1.est
  gtC : pyGet chordNames x.2.2.1.2 = .ok y.2.2.gt
  estC : pyGet chordNames x.2.2.1.1 = .ok y.2.2.est
  colK : keyColour tt x.2.2.2.1 x.2.2.2.2 = .ok y.2.1.colour
  colC : chordColour rt x.2.2.1.1 x.2.2.1.2 = .ok y.2.2.colour

theorem labelRows_spec (rt tt : PitchType) (chordNames keyNames : List Str)
    (items : List (ℚ × τ × (Int × Int) × (Int × Int)))
    (h : ∀ x ∈ items, ∀ i, ∃ y, Describes rt tt chordNames keyNames x i y) (s : Nat) :
    ∃ full : List (ℚ × Pt τ × Pt τ), full.length = items.length ∧
      (∀ (i : Nat) y, full[i]? = some y →
        ∃ x, items[i]? = some x ∧ Describes rt tt chordNames keyNames x (s + i) y) ∧
      ∀ pk pc, labelRows rt tt chordNames keyNames pk pc items =
        .ok ((tags pk pc ((full.filter fun y => decide (y.1 ≠ 0)).map (·.2))).map (·.row)) := by
  induction items generalizing s with
  | nil => exact ⟨[], rfl, by simp, fun _ _ => rfl⟩
  | cons x rest ih =>
    obtain ⟨full, f1, f2, f3⟩ := ih (fun y hy => h y (List.mem_cons_of_mem _ hy)) (s + 1)
    obtain ⟨y, hy⟩ := h x List.mem_cons_self s
    refine ⟨y :: full, by simp [f1], ?_, ?_⟩
    · intro i z hz
      cases i with
      | zero =>
        simp only [List.getElem?_cons_zero, Option.some.injEq] at hz
        subst hz
        exact ⟨x, rfl, hy⟩
      | succ i =>
        obtain ⟨w, w1, w2⟩ := f2 i z (by simpa using hz)
        exact ⟨w, by simpa using w1, by rw [show s + (i + 1) = s + 1 + i by omega]; exact w2⟩
    · intro pk pc
      obtain ⟨d, pos, ⟨ec, gc⟩, ⟨ek, gk⟩⟩ := x
      obtain ⟨d', k, c⟩ := y
      obtain ⟨y1, y2, y3, y4, y5, y6, y7, y8, y9, y10, y11⟩ := hy
      simp only at y1 y2 y3 y4 y5 y6 y7 y8 y9 y10 y11
      subst y1
      simp only [labelRows]
      by_cases hd : d' = 0
      · rw [if_pos hd, List.filter_cons, if_neg (by simpa using hd), f3]
      · rw [if_neg hd, List.filter_cons, if_pos (by simpa using hd)]
        simp only [Bind.bind, Except.bind, y6, y7, y8, y9, List.map_cons, tags]
        have hk : (some k.gt, some k.est) = k.pair := rfl
        have hc : (some c.gt, some c.est) = c.pair := rfl
        rw [hk, hc]
        by_cases hs : c.pair = pc ∧ k.pair = pk
        · rw [if_pos hs, f3, emit, emit, if_neg (by simpa using hs.2), if_neg (by simpa using hs.1),
            hs.1, hs.2]
          rfl
        · rw [if_neg hs]
          have e1 := labelRow_emit true _ _ y10 pk k rfl
          have e2 := labelRow_emit false _ _ y11 pc c rfl
          rw [y4] at e1
          rw [y5] at e2
          rw [e1, e2]
          simp only [f3, List.map_append]

/-! ## The arrays -/

theorem covers_unique {α : Type} {items : List α} {changes : List Nat} (hs : changes.Pairwise (· ≤ ·))
    {i : Nat} {x y : α} (hx : Covers items changes i x) (hy : Covers items changes i y) : x = y := by
  obtain ⟨k, a, h1, h2, h3, h4⟩ := hx
  obtain ⟨k', a', h1', h2', h3', h4'⟩ := hy
  have key : ∀ (k k' a' : Nat), k < k' → changes[k']? = some a' → a' ≤ i →
      (∀ b, changes[k + 1]? = some b → i < b) → False := by
    intro k k' a' hlt h2' h3' h4
    obtain ⟨hk', e⟩ := List.getElem?_eq_some_iff.1 h2'
    have h5 := h4 _ (List.getElem?_eq_getElem (l := changes) (i := k + 1) (by omega))
    have h6 : changes[k + 1]'(by omega) ≤ changes[k'] := by
      by_cases h : k + 1 = k'
      · simp only [h]; exact Nat.le_refl _
      · exact List.pairwise_iff_getElem.1 hs _ _ _ _ (by omega)
    omega
  rcases Nat.lt_trichotomy k k' with h | h | h
  · exact (key k k' a' h h2' h3' h4).elim
  · subst h
    rw [h1] at h1'
    injection h1'
  · exact (key k' k a h h2 h3 h4').elim

theorem gtFrom_spec {α β : Type} (dflt : β) (enc : α → Py β) (n : Nat) (items : List α)
    (changes : List Nat) (hl : items.length = changes.length) (hne : items ≠ [])
    (hs : changes.Pairwise (· ≤ ·)) (he : ∀ x ∈ items, ∃ v, enc x = .ok v) :
    ∃ arr0 last v a, fillLoop enc items changes (List.replicate n dflt) = .ok arr0 ∧
      pyGet items (-1) = .ok last ∧ enc last = .ok v ∧ pyGet changes (-1) = .ok a ∧
      (assignRange arr0 a n v).length = n ∧
      ∀ (i : Nat) x, i < n → Covers items changes i x →
        ∃ w, enc x = .ok w ∧ (assignRange arr0 a n v)[i]? = some w := by
  have hne' : changes ≠ [] := by
    intro h; rw [h] at hl; exact hne (List.length_eq_zero_iff.1 hl)
  obtain ⟨arr, harr⟩ := fillLoop_total enc items changes (List.replicate n dflt) he
  obtain ⟨v, hv⟩ := he _ (List.getLast_mem hne)
  have hlen := fillLoop_length enc _ _ _ _ harr
  rw [List.length_replicate] at hlen
  refine ⟨arr, _, v, _, harr, pyGet_last _ hne, hv, pyGet_last _ hne',
    by rw [assignRange_length, hlen], ?_⟩
  rintro i x hi ⟨k, a, hx, ha, hai, hb⟩
  have hk : k < items.length := (List.getElem?_eq_some_iff.1 hx).1
  by_cases hlast : k + 1 = items.length
  · have h1 : changes.getLast hne' = a := by
      rw [List.getLast_eq_getElem]
      have := (List.getElem?_eq_some_iff.1 ha).2
      rw [← this]; congr 1; omega
    have h2 : items.getLast hne = x := by
      rw [List.getLast_eq_getElem]
      have := (List.getElem?_eq_some_iff.1 hx).2
      rw [← this]; congr 1; omega
    rw [h1]
    refine ⟨v, by rw [← h2]; exact hv, assignRange_in _ _ _ _ _ ⟨hai, hi⟩ (by omega)⟩
  · have hk1 : k + 1 < changes.length := by omega
    have hq := List.getElem?_eq_getElem hk1
    obtain ⟨w, hw, hw'⟩ := fillLoop_covered enc _ _ _ _ harr hs i k a _ x hx ha hq ⟨hai, hb _ hq⟩
      (by rw [List.length_replicate]; exact hi)
    refine ⟨w, hw, ?_⟩
    rw [assignRange_out _ _ _ _ _ ?_, hw']
    have h3 : changes[k + 1] ≤ changes.getLast hne' := by
      rw [List.getLast_eq_getElem]
      by_cases h4 : k + 1 = changes.length - 1
      · simp only [h4]; exact Nat.le_refl _
      · exact List.pairwise_iff_getElem.1 hs _ _ _ _ (by omega)
    have := hb _ hq
    omega

/-! ## The points of a table -/

/-- All that is known of the key point of input `i`. -/
structure KeyPoint (A : EvalInput δ) (pt : PitchType) (i : Nat) (p : Pt τ) (g : Key) (k tonic : Int)
    (mode : KeyMode) : Prop where
  gt : Covers A.gtKeys A.gtKeyChanges i g
  est : Covers A.estKeys A.estKeyChanges i k
  label : pyGet (stdLabels pt).key k = .ok (tonic, mode)
  gtRange : 0 ≤ g.relativeTonic ∧ g.relativeTonic < NUM_PITCHES pt
  estRange : 0 ≤ tonic ∧ tonic < NUM_PITCHES pt
  gtText : KeyWritten pt g.relativeTonic g.relativeMode p.gt
  estText : KeyWritten pt tonic mode p.est
  colour : p.colour = if keyDistance false (g.relativeTonic, g.relativeMode) (tonic, mode) = 0 then .green
    else if keyDistance true (g.relativeTonic, g.relativeMode) (tonic, mode) ≠ 1 then .yellow else .red

/-- All that is known of the chord point of input `i`. -/
structure ChordPoint (A : EvalInput δ) (pt : PitchType) (i : Nat) (p : Pt τ) (g : Chord δ) (c root : Int)
    (ct : ChordType) (inv : Int) : Prop where
  gt : Covers A.gtChords A.gtChordChanges i g
  est : Covers A.estChords A.estChordChanges i (some c)
  label : pyGet (stdLabels pt).chord c = .ok (root, ct, inv)
  gtRange : 0 ≤ g.root ∧ g.root < NUM_PITCHES pt
  estRange : 0 ≤ root ∧ root < NUM_PITCHES pt
  gtInv : 0 ≤ g.inversion ∧ g.inversion < specInversions g.chordType
  estInv : 0 ≤ inv ∧ inv < specInversions ct
  gtText : ChordWritten pt g.root g.chordType g.inversion p.gt
  estText : ChordWritten pt root ct inv p.est
  colour : p.colour =
    if chordDistance true noReduction (g.root, g.chordType, g.inversion) (root, ct, inv) = 0 then .green
    else if chordDistance false triadReduction (g.root, g.chordType, g.inversion) (root, ct, inv) ≠ 1
      then .yellow else .red

theorem written_ne_dash {t : Str} (h : ':' ∈ t) : t ≠ dash := by
  rintro rfl
  revert h
  decide

theorem chordWritten_ne {pt : PitchType} {root inv : Int} {ct : ChordType} {t : Str}
    (h : ChordWritten pt root ct inv t) : t ≠ dash := by
  obtain ⟨name, _, rfl⟩ := h
  refine written_ne_dash ?_
  rw [specChordLabel, List.append_assoc, List.append_assoc]
  exact List.mem_append_right _ (by simp)

theorem keyWritten_ne {pt : PitchType} {tonic : Int} {mode : KeyMode} {t : Str}
    (h : KeyWritten pt tonic mode t) : t ≠ dash := by
  obtain ⟨name, _, rfl⟩ := h
  refine written_ne_dash ?_
  cases mode
  · exact List.mem_append_right _ (by decide)
  · exact List.mem_append_right _ (by decide)

section Points

variable {A : EvalInput δ} {pt : PitchType} {i j : Nat} {p q : Pt τ}

theorem KeyPoint.colourOK {g : Key} {k tonic : Int} {mode : KeyMode} (hk : KeyTables A pt pt)
    (h : KeyPoint A pt i p g k tonic mode) : KeyColourOK A pt i p.colour := by
  have hr : ∀ b, KeyRight A pt b i ↔
      (g.relativeTonic = tonic ∧ (b = false → g.relativeMode = mode)) := by
    intro b
    constructor
    · rintro ⟨g', k', h1, h2, tonic', mode', h3, h4, h5⟩
      obtain rfl := covers_unique hk.gt.sorted h.gt h1
      obtain rfl := covers_unique hk.est.sorted h.est h2
      have := h.label
      rw [h3] at this
      simp only [Except.ok.injEq, Prod.mk.injEq] at this
      obtain ⟨rfl, rfl⟩ := this
      exact ⟨h4, h5⟩
    · rintro ⟨h1, h2⟩
      exact ⟨g, k, h.gt, h.est, tonic, mode, h.label, h1, h2⟩
  rw [h.colour]
  simp only [keyDistance, if_true, Bool.false_eq_true, if_false]
  by_cases h1 : g.relativeTonic = tonic
  · by_cases h2 : g.relativeMode = mode
    · simp only [h1, h2, and_self, if_true]
      exact (hr false).2 ⟨h1, fun _ => h2⟩
    · simp only [h1, h2, and_false, if_false, if_true]
      refine ⟨fun hh => h2 (((hr false).1 hh).2 rfl), (hr true).2 ⟨h1, fun hh => by cases hh⟩⟩
  · simp only [h1, false_and, if_false]
    exact fun hh => h1 ((hr true).1 hh).1

theorem ChordPoint.colourOK {g : Chord δ} {c root inv : Int} {ct : ChordType} (hk : ChordTables A pt pt)
    (h : ChordPoint A pt i p g c root ct inv) : ChordColourOK A pt i p.colour := by
  have hr : ∀ b red, ChordRight A pt b red i ↔
      (g.root = root ∧ red g.chordType = red ct ∧ (b = true → g.inversion = inv)) := by
    intro b red
    constructor
    · rintro ⟨g', e', h1, h2, c', root', ct', inv', rfl, h3, h4, h5, h6⟩
      obtain rfl := covers_unique hk.gt.sorted h.gt h1
      have e := covers_unique hk.est.sorted h.est h2
      injection e with e
      subst e
      have := h.label
      rw [h3] at this
      simp only [Except.ok.injEq, Prod.mk.injEq] at this
      obtain ⟨rfl, rfl, rfl⟩ := this
      exact ⟨h4, h5, h6⟩
    · rintro ⟨h1, h2, h3⟩
      exact ⟨g, _, h.gt, h.est, c, root, ct, inv, rfl, h.label, h1, h2, h3⟩
  rw [h.colour]
  simp only [chordDistance, if_true, Bool.false_eq_true, if_false, and_true]
  by_cases h1 : g.root = root ∧ noReduction g.chordType = noReduction ct ∧ g.inversion = inv
  · simp only [h1, and_self, if_true]
    exact (hr true noReduction).2 ⟨h1.1, h1.2.1, fun _ => h1.2.2⟩
  · have n1 : ¬ ChordRight A pt true noReduction i := by
      rw [hr]; exact fun hh => h1 ⟨hh.1, hh.2.1, hh.2.2 rfl⟩
    rw [if_neg h1, if_neg (by decide)]
    by_cases h2 : g.root = root ∧ triadReduction g.chordType = triadReduction ct
    · rw [if_pos h2, if_pos (by decide)]
      exact ⟨n1, (hr false triadReduction).2 ⟨h2.1, h2.2, fun hh => by cases hh⟩⟩
    · rw [if_neg h2, if_neg (by decide)]
      exact fun hh => h2 ⟨((hr _ _).1 hh).1, ((hr _ _).1 hh).2.1⟩

theorem KeyPoint.est_eq {g g' : Key} {k k' tonic tonic' : Int} {mode mode' : KeyMode}
    (hk : KeyTables A pt pt) (h : KeyPoint A pt i p g k tonic mode)
    (h' : KeyPoint A pt j q g' k' tonic' mode') : p.est = q.est ↔ SameEstKey A pt i j := by
  rw [keyWritten_inj h.estRange h'.estRange h.estText h'.estText]
  constructor
  · rintro ⟨rfl, rfl⟩
    exact ⟨k, k', _, h.est, h'.est, h.label, h'.label⟩
  · rintro ⟨a, b, l, h1, h2, h3, h4⟩
    obtain rfl := covers_unique hk.est.sorted h.est h1
    obtain rfl := covers_unique hk.est.sorted h'.est h2
    rw [h.label] at h3
    rw [h'.label, ← h3] at h4
    simp only [Except.ok.injEq, Prod.mk.injEq] at h4
    exact ⟨h4.1.symm, h4.2.symm⟩

theorem KeyPoint.gt_eq {g g' : Key} {k k' tonic tonic' : Int} {mode mode' : KeyMode}
    (hk : KeyTables A pt pt) (h : KeyPoint A pt i p g k tonic mode)
    (h' : KeyPoint A pt j q g' k' tonic' mode') : p.gt = q.gt ↔ SameGtKey A i j := by
  rw [keyWritten_inj h.gtRange h'.gtRange h.gtText h'.gtText]
  constructor
  · rintro ⟨e1, e2⟩
    exact ⟨g, g', h.gt, h'.gt, e1, e2⟩
  · rintro ⟨a, b, h1, h2, h3⟩
    obtain rfl := covers_unique hk.gt.sorted h.gt h1
    obtain rfl := covers_unique hk.gt.sorted h'.gt h2
    exact h3

theorem ChordPoint.est_eq {g g' : Chord δ} {c c' root root' inv inv' : Int} {ct ct' : ChordType}
    (hk : ChordTables A pt pt) (h : ChordPoint A pt i p g c root ct inv)
    (h' : ChordPoint A pt j q g' c' root' ct' inv') : p.est = q.est ↔ SameEstChord A pt i j := by
  rw [chordWritten_inj h.estRange h'.estRange h.estInv h'.estInv h.estText h'.estText]
  constructor
  · rintro ⟨rfl, rfl, rfl⟩
    exact ⟨c, c', _, h.est, h'.est, h.label, h'.label⟩
  · rintro ⟨a, b, l, h1, h2, h3, h4⟩
    have e1 := covers_unique hk.est.sorted h.est h1
    have e2 := covers_unique hk.est.sorted h'.est h2
    injection e1 with e1
    injection e2 with e2
    subst e1 e2
    rw [h.label] at h3
    rw [h'.label, ← h3] at h4
    simp only [Except.ok.injEq, Prod.mk.injEq] at h4
    exact ⟨h4.1.symm, h4.2.1.symm, h4.2.2.symm⟩

theorem ChordPoint.gt_eq {g g' : Chord δ} {c c' root root' inv inv' : Int} {ct ct' : ChordType}
    (hk : ChordTables A pt pt) (h : ChordPoint A pt i p g c root ct inv)
    (h' : ChordPoint A pt j q g' c' root' ct' inv') : p.gt = q.gt ↔ SameGtChord A i j := by
  rw [chordWritten_inj h.gtRange h'.gtRange h.gtInv h'.gtInv h.gtText h'.gtText]
  constructor
  · rintro ⟨e1, e2⟩
    exact ⟨g, g', h.gt, h'.gt, e1, e2⟩
  · rintro ⟨a, b, h1, h2, h3⟩
    obtain rfl := covers_unique hk.gt.sorted h.gt h1
    obtain rfl := covers_unique hk.gt.sorted h'.gt h2
    exact h3

theorem KeyPoint.colour_eq {g g' : Key} {k k' tonic tonic' : Int} {mode mode' : KeyMode}
    (h : KeyPoint A pt i p g k tonic mode) (h' : KeyPoint A pt j q g' k' tonic' mode')
    (e : p.pair = q.pair) : p.colour = q.colour := by
  simp only [Pt.pair, Prod.mk.injEq, Option.some.injEq] at e
  obtain ⟨e1, e2⟩ := (keyWritten_inj h.estRange h'.estRange h.estText h'.estText).1 e.2
  obtain ⟨e3, e4⟩ := (keyWritten_inj h.gtRange h'.gtRange h.gtText h'.gtText).1 e.1
  rw [h.colour, h'.colour, e1, e2, e3, e4]

theorem ChordPoint.colour_eq {g g' : Chord δ} {c c' root root' inv inv' : Int} {ct ct' : ChordType}
    (h : ChordPoint A pt i p g c root ct inv) (h' : ChordPoint A pt j q g' c' root' ct' inv')
    (e : p.pair = q.pair) : p.colour = q.colour := by
  simp only [Pt.pair, Prod.mk.injEq, Option.some.injEq] at e
  obtain ⟨e1, e2, e3⟩ := (chordWritten_inj h.estRange h'.estRange h.estInv h'.estInv h.estText h'.estText).1 e.2
  obtain ⟨e4, e5, e6⟩ := (chordWritten_inj h.gtRange h'.gtRange h.gtInv h'.gtInv h.gtText h'.gtText).1 e.1
  rw [h.colour, h'.colour, e1, e2, e3, e4, e5, e6]

end Points

/-! ## The table -/

theorem estRange {pt : PitchType} {c root inv : Int} {ct : ChordType}
    (hl : pyGet (stdLabels pt).chord c = .ok (root, ct, inv)) :
    (0 ≤ root ∧ root < NUM_PITCHES pt) ∧ 0 ≤ inv ∧ inv < specInversions ct := by
  have hm := pyGet_mem _ _ _ hl
  simp only [stdLabels, chordClasses, List.mem_flatMap, List.mem_map, classInversions, if_true] at hm
  obtain ⟨ct', _, r, hr, i, hi, he⟩ := hm
  simp only [Prod.mk.injEq] at he
  obtain ⟨e1, e2, e3⟩ := he
  subst e3
  have e2' : ct' = ct := e2
  subst e2'
  have hr' : r ∈ pyRange 0 (NUM_PITCHES pt) := by simpa [classRoots] using hr
  simp only [pyRange, List.mem_map, List.mem_range] at hr' hi
  obtain ⟨a, a1, a2⟩ := hr'
  obtain ⟨b, b1, b2⟩ := hi
  rw [← e1]
  refine ⟨⟨by omega, by omega⟩, by omega, by rw [specInversions_eq]; omega⟩

/-- The rows of each kind that are in force at input `i`: the last one has the colour of the input, the
last one with a text has the text of the estimated label. -/
structure InForce (A : EvalInput δ) (rt tt : PitchType) (entries : List (Entry τ)) (i : Nat) : Prop where
  keyColour : ∃ e, Latest entries (fun e => e.isKey = true) i e ∧ KeyColourOK A tt i e.row.colour
  keyLabel : ∃ e, Latest entries (fun e => e.isKey = true ∧ e.row.label ≠ dash) i e ∧
    ∃ k, Covers A.estKeys A.estKeyChanges i k ∧ KeyText tt k e.row.label
  chordColour : ∃ e, Latest entries (fun e => e.isKey = false) i e ∧ ChordColourOK A rt i e.row.colour
  chordLabel : ∃ e, Latest entries (fun e => e.isKey = false ∧ e.row.label ≠ dash) i e ∧
    ∃ c, Covers A.estChords A.estChordChanges i (some c) ∧ ChordText rt c e.row.label

/-- A row is there for a reason: the labels of its kind are not those of the sounding input before, and
it names the estimated label exactly if that has changed. -/
def Needed (A : EvalInput δ) (rt tt : PitchType) (e : Entry τ) : Prop :=
  ∀ j, SoundsBefore A j e.idx →
    (e.isKey = true → ¬ (SameGtKey A e.idx j ∧ SameEstKey A tt e.idx j) ∧
      (e.row.label = dash ↔ SameEstKey A tt e.idx j)) ∧
    (e.isKey = false → ¬ (SameGtChord A e.idx j ∧ SameEstChord A rt e.idx j) ∧
      (e.row.label = dash ↔ SameEstChord A rt e.idx j))

/-- C75: the rows of the table can be told apart into key rows and chord rows at sounding inputs, in order,
keys first, such that at every sounding input the rows in force say what is estimated and whether it is
right, and no row is superfluous. Missing: the table itself does not tell the kinds of the rows (see
`C75_ambiguous`), and the chords of the piece have to begin at the first input (see
`C75_before_first_chord`). -/
theorem C75_table_partial (A : EvalInput δ) (positions : List τ) (rt tt : PitchType)
    (hl : A.cache.length = A.inputs) (hp : positions.length = A.inputs)
    (hc : ChordTables A rt rt) (hk : KeyTables A tt tt) :
    ∃ entries : List (Entry τ),
      labelDf A (some A.gtChords) (some A.gtKeys) positions rt tt = .ok (entries.map (·.row)) ∧
      entries.Pairwise (fun a b => a.idx < b.idx ∨ a.idx = b.idx ∧ a.isKey = true ∧ b.isKey = false) ∧
      (∀ e ∈ entries, Sounds A e.idx ∧ positions[e.idx]? = some e.row.pos ∧ Needed A rt tt e) ∧
      ∀ i, Sounds A i → InForce A rt tt entries i := by
  -- the arrays
  have gtEnc : ∀ g ∈ A.gtChords, ∃ v, g.oneHotIndex false true false noReduction = .ok v ∧
      pyGet (stdLabels rt).chord v = .ok (g.root, g.chordType, g.inversion) ∧
      (0 ≤ g.root ∧ g.root < NUM_PITCHES rt) ∧ 0 ≤ g.inversion ∧ g.inversion < specInversions g.chordType := by
    intro g hg
    obtain ⟨h1, ⟨a0, a1⟩, b⟩ := hc.gtClass g hg
    rw [specRoots_abs] at a1
    obtain ⟨v, e1, _, e3⟩ := chord_code a0 a1 (ct := g.chordType) (b rfl)
    exact ⟨v, by simp only [Chord.oneHotIndex, Bool.false_eq_true, if_false, Bind.bind, Except.bind, h1, e1],
      e3, ⟨a0, a1⟩, b rfl⟩
  have gtEncK : ∀ g ∈ A.gtKeys, ∃ v, g.oneHotIndex = .ok v ∧
      pyGet (stdLabels tt).key v = .ok (g.relativeTonic, g.relativeMode) := by
    intro g hg
    obtain ⟨h1, h2⟩ := hk.gtClass g hg
    have h3 := C03_encode_decode g.relativeMode g.relativeTonic tt
    rw [specPitches_eq, if_pos h2] at h3
    obtain ⟨v, hv, _, _, hd⟩ := h3
    exact ⟨v, by rw [Key.oneHotIndex, h1]; exact hv, hd⟩
  obtain ⟨gc0, lastC, vC, aC, a1, a2, a3, a4, a5, a6⟩ := gtFrom_spec (-1)
    (fun c : Chord δ => c.oneHotIndex false true false noReduction) A.inputs A.gtChords A.gtChordChanges
    hc.gt.len hc.gt.ne hc.gt.sorted (fun g hg => (gtEnc g hg).imp fun _ h => h.1)
  generalize hgtC : assignRange gc0 aC A.inputs vC = gtC at a5 a6
  have hgt : gtChordsOrNone A.inputs (some A.gtChords) A.gtChordChanges = .ok gtC := by
    cases hx : A.gtChords with
    | nil => exact absurd hx hc.gt.ne
    | cons c cs =>
      rw [hx] at a1 a2
      simp only [gtChordsOrNone, Bind.bind, Except.bind, a1, a2, a3, a4, hgtC]
  obtain ⟨estC, b1, b2, b3⟩ := estLabels_spec A.inputs _ _ hc.est.len hc.est.sorted (by
    intro x hx
    obtain ⟨c, _, rfl, _⟩ := hc.estClass x hx
    rfl)
  obtain ⟨gtK, d1, d2, d3⟩ := gtLabels_spec Key.oneHotIndex A.inputs _ _ hk.gt.len hk.gt.ne hk.gt.sorted
    (fun g hg => (gtEncK g hg).imp fun _ h => h.1)
  have hgtK : gtKeysOrNone A.inputs (some A.gtKeys) A.gtKeyChanges = .ok gtK := by
    cases hx : A.gtKeys with
    | nil => exact absurd hx hk.gt.ne
    | cons c cs => rw [hx] at d1; exact d1
  obtain ⟨estK, e1, e2, e3⟩ := estLabels_spec A.inputs (A.estKeys.map some) A.estKeyChanges
    (by rw [List.length_map]; exact hk.est.len) hk.est.sorted (by
      intro x hx
      obtain ⟨c, _, rfl⟩ := List.mem_map.1 hx
      rfl)
  obtain ⟨chordNames, n1, _, n3⟩ := C02_labels rt true false none false noReduction
  obtain ⟨keyNames, m1, _, m3⟩ := C03_labels tt false none
  -- one input
  have point : ∀ (i : Nat) x, (A.cache.zip (positions.zip ((estC.zip gtC).zip (estK.zip gtK))))[i]? = some x →
      A.cache[i]? = some x.1 ∧ positions[i]? = some x.2.1 ∧ ∃ g k tonic mode c kc root ct inv,
        Covers A.gtKeys A.gtKeyChanges i g ∧ Covers A.estKeys A.estKeyChanges i k ∧
        pyGet (stdLabels tt).key k = .ok (tonic, mode) ∧
        Covers A.gtChords A.gtChordChanges i c ∧ Covers A.estChords A.estChordChanges i (some kc) ∧
        pyGet (stdLabels rt).chord kc = .ok (root, ct, inv) ∧
        x.2.2.2.1 = k ∧ g.oneHotIndex = .ok x.2.2.2.2 ∧ x.2.2.1.1 = kc ∧
        c.oneHotIndex false true false noReduction = .ok x.2.2.1.2 := by
    intro i x hx
    obtain ⟨z0, z⟩ := zip_some hx
    obtain ⟨zp, z⟩ := zip_some z
    obtain ⟨z1, z2⟩ := zip_some z
    obtain ⟨x1, x2⟩ := zip_some z1
    obtain ⟨x3, x4⟩ := zip_some z2
    have hlt : i < A.inputs := by rw [← hl]; exact (List.getElem?_eq_some_iff.1 z0).1
    obtain ⟨c, hcov⟩ := hc.gt.covers i
    obtain ⟨e, he⟩ := hc.est.covers i hlt
    obtain ⟨kc, ⟨root, ct, inv⟩, rfl, hcl⟩ := hc.estClass e (covers_mem he)
    obtain ⟨g, hg⟩ := hk.gt.covers i
    obtain ⟨k, hkc⟩ := hk.est.covers i hlt
    obtain ⟨⟨tonic, mode⟩, hkl⟩ := hk.estClass k (covers_mem hkc)
    refine ⟨z0, zp, g, k, tonic, mode, c, kc, root, ct, inv, hg, hkc, hkl, hcov, he, hcl, ?_, ?_, ?_, ?_⟩
    · obtain ⟨v, v1, v2⟩ := e3 i (some k) hlt ((covers_map some _ _ i (some k)).2 ⟨k, hkc, rfl⟩)
      injection v1 with v1
      rw [x3] at v2; injection v2 with v2
      rw [v1, v2]
    · obtain ⟨v, v1, v2⟩ := d3 i g hlt hg
      rw [x4] at v2; injection v2 with v2
      rw [v1, v2]
    · obtain ⟨v, v1, v2⟩ := b3 i _ hlt he
      injection v1 with v1
      rw [x1] at v2; injection v2 with v2
      rw [v1, v2]
    · obtain ⟨v, v1, v2⟩ := a6 i c hlt hcov
      rw [x2] at v2; injection v2 with v2
      rw [v1, v2]
  -- its texts and colours
  have text : ∀ (i : Nat) x, (A.cache.zip (positions.zip ((estC.zip gtC).zip (estK.zip gtK))))[i]? = some x →
      (∀ j, ∃ y, Describes rt tt chordNames keyNames x j y) ∧
      ∀ y, Describes rt tt chordNames keyNames x i y →
        (∃ g k tonic mode, KeyPoint A tt i y.2.1 g k tonic mode) ∧
        ∃ c kc root ct inv, ChordPoint A rt i y.2.2 c kc root ct inv := by
    intro i x hx
    obtain ⟨_, _, g, k, tonic, mode, c, kc, root, ct, inv, q1, q2, q3, q4, q5, q6, q7, q8, q9, q10⟩ := point i x hx
    obtain ⟨v, v1, v2, v3, v4⟩ := gtEnc c (covers_mem q4)
    rw [q10] at v1; injection v1 with v1; subst v1
    obtain ⟨w, w1, w2⟩ := gtEncK g (covers_mem q1)
    rw [q8] at w1; injection w1 with w1; subst w1
    obtain ⟨nm1, r1, r1'⟩ := n3 _ _ _ _ v2
    obtain ⟨nm2, r2, r2'⟩ := n3 _ _ _ _ q6
    obtain ⟨nm3, r3, r3'⟩ := m3 _ _ _ w2
    obtain ⟨nm4, r4, r4'⟩ := m3 _ _ _ q3
    have ck : keyColour tt x.2.2.2.1 x.2.2.2.2 = .ok (if keyDistance false (g.relativeTonic, g.relativeMode)
        (tonic, mode) = 0 then .green else if keyDistance true (g.relativeTonic, g.relativeMode)
        (tonic, mode) ≠ 1 then .yellow else .red) := by
      have w2' : keyFromOneHotIndex x.2.2.2.2 tt false = .ok (g.relativeTonic, g.relativeMode) := w2
      have q3' : keyFromOneHotIndex x.2.2.2.1 tt false = .ok (tonic, mode) := by rw [q7]; exact q3
      simp only [keyColour, Bind.bind, Except.bind, w2', q3']
    have cc : chordColour rt x.2.2.1.1 x.2.2.1.2 = .ok (
        if chordDistance true noReduction (c.root, c.chordType, c.inversion) (root, ct, inv) = 0 then .green
        else if chordDistance false triadReduction (c.root, c.chordType, c.inversion) (root, ct, inv) ≠ 1
          then .yellow else .red) := by
      have w2' : chordFromOneHotIndex x.2.2.1.2 rt true false false noReduction =
        .ok (c.root, c.chordType, c.inversion) := v2
      have q3' : chordFromOneHotIndex x.2.2.1.1 rt true false false noReduction = .ok (root, ct, inv) := by
        rw [q9]; exact q6
      simp only [chordColour, Bind.bind, Except.bind, w2', q3']
    have hkr := key_class_range q3
    simp only [pyRange, List.mem_map, List.mem_range] at hkr
    obtain ⟨s1, s2, s3⟩ := hkr
    constructor
    · intro j
      exact ⟨⟨x.1, ⟨j, x.2.1, _, _, _⟩, ⟨j, x.2.1, _, _, _⟩⟩,
        ⟨rfl, rfl, rfl, rfl, rfl, r3', by rw [q7]; exact r4', r1', by rw [q9]; exact r2', ck, cc⟩⟩
    · intro y hy
      have t1 := hy.gtK
      rw [r3'] at t1; injection t1 with t1
      have t2 := hy.estK
      rw [q7, r4'] at t2; injection t2 with t2
      have t3 := hy.gtC
      rw [r1'] at t3; injection t3 with t3
      have t4 := hy.estC
      rw [q9, r2'] at t4; injection t4 with t4
      have t5 := hy.colK
      rw [ck] at t5; injection t5 with t5
      have t6 := hy.colC
      rw [cc] at t6; injection t6 with t6
      exact ⟨⟨g, k, tonic, mode, ⟨q1, q2, q3, (hk.gtClass g (covers_mem q1)).2, ⟨by omega, by omega⟩,
        ⟨nm3, r3, t1.symm⟩, ⟨nm4, r4, t2.symm⟩, t5.symm⟩⟩,
        ⟨c, kc, root, ct, inv, ⟨q4, q5, q6, v3, (estRange q6).1, v4, (estRange q6).2,
        ⟨nm1, r1, t3.symm⟩, ⟨nm2, r2, t4.symm⟩, t6.symm⟩⟩⟩
  obtain ⟨full, f1, f2, f3⟩ := labelRows_spec rt tt chordNames keyNames
    (A.cache.zip (positions.zip ((estC.zip gtC).zip (estK.zip gtK)))) (by
      intro x hx i
      obtain ⟨j, hj⟩ := List.getElem?_of_mem hx
      exact (text j x hj).1 i) 0
  have flen : full.length = A.inputs := by
    rw [f1]; simp [a5, b2, d2, e2, hl, hp]
  -- the points of the sounding inputs
  generalize hpts : (full.filter fun y => decide (y.1 ≠ 0)).map (·.2) = pts at f3
  have facts : ∀ (i : Nat) y, full[i]? = some y → A.cache[i]? = some y.1 ∧ positions[i]? = some y.2.1.pos ∧
      y.2.1.idx = i ∧ y.2.2.idx = i ∧ y.2.2.pos = y.2.1.pos ∧
      (∃ g k tonic mode, KeyPoint A tt i y.2.1 g k tonic mode) ∧
      ∃ c kc root ct inv, ChordPoint A rt i y.2.2 c kc root ct inv := by
    intro i y hy
    obtain ⟨x, hx, hd⟩ := f2 i y hy
    rw [Nat.zero_add] at hd
    obtain ⟨p1, p2, _⟩ := point i x hx
    obtain ⟨t1, t2⟩ := (text i x hx).2 y hd
    exact ⟨by rw [hd.dur]; exact p1, by rw [hd.posK]; exact p2, hd.idxK, hd.idxC,
      by rw [hd.posC, hd.posK], t1, t2⟩
  have ofPt : ∀ z ∈ pts, ∃ i, Sounds A i ∧ positions[i]? = some z.1.pos ∧ z.1.idx = i ∧ z.2.idx = i ∧
      z.2.pos = z.1.pos ∧ (∃ g k tonic mode, KeyPoint A tt i z.1 g k tonic mode) ∧
      ∃ c kc root ct inv, ChordPoint A rt i z.2 c kc root ct inv := by
    intro z hz
    rw [← hpts] at hz
    obtain ⟨y, hy, rfl⟩ := List.mem_map.1 hz
    obtain ⟨hy1, hy2⟩ := List.mem_filter.1 hy
    obtain ⟨i, hi⟩ := List.getElem?_of_mem hy1
    obtain ⟨g1, g2, g3⟩ := facts i y hi
    exact ⟨i, ⟨y.1, g1, by simpa using hy2⟩, g2, g3⟩
  have toPt : ∀ i, Sounds A i → ∃ z ∈ pts, z.1.idx = i ∧ z.2.idx = i := by
    rintro i ⟨d, hd1, hd2⟩
    have hi : i < full.length := by
      rw [flen, ← hl]; exact (List.getElem?_eq_some_iff.1 hd1).1
    have hy := List.getElem?_eq_getElem hi
    obtain ⟨g1, _, g3, g4, _⟩ := facts i _ hy
    rw [hd1] at g1; injection g1 with g1
    refine ⟨full[i].2, ?_, g3, g4⟩
    rw [← hpts]
    refine List.mem_map.2 ⟨full[i], List.mem_filter.2 ⟨List.getElem_mem hi, ?_⟩, rfl⟩
    rw [← g1]; simpa using hd2
  have sorted : pts.Pairwise (fun x y => x.1.idx < y.1.idx) := by
    rw [← hpts, List.pairwise_map]
    refine List.Pairwise.filter _ ?_
    rw [List.pairwise_iff_getElem]
    intro i j hi hj hij
    rw [(facts i _ (List.getElem?_eq_getElem hi)).2.2.1, (facts j _ (List.getElem?_eq_getElem hj)).2.2.1]
    exact hij
  have same : ∀ z ∈ pts, z.1.idx = z.2.idx := by
    intro z hz
    obtain ⟨i, _, _, h1, h2, _⟩ := ofPt z hz
    rw [h1, h2]
  have sortedK : (pts.map (·.1)).Pairwise (fun x y => x.idx < y.idx) := List.pairwise_map.2 sorted
  have sortedC : (pts.map (·.2)).Pairwise (fun x y => x.idx < y.idx) := by
    refine List.pairwise_map.2 (sorted.imp_of_mem ?_)
    intro a b ha hb h
    rw [← same a ha, ← same b hb]; exact h
  have ofK : ∀ p ∈ pts.map (·.1), Sounds A p.idx ∧ positions[p.idx]? = some p.pos ∧
      ∃ g k tonic mode, KeyPoint A tt p.idx p g k tonic mode := by
    intro p hp
    obtain ⟨z, hz, rfl⟩ := List.mem_map.1 hp
    obtain ⟨i, h1, h2, h3, h4, h5, h6, h7⟩ := ofPt z hz
    rw [h3]
    exact ⟨h1, h2, h6⟩
  have ofC : ∀ p ∈ pts.map (·.2), Sounds A p.idx ∧ positions[p.idx]? = some p.pos ∧
      ∃ c kc root ct inv, ChordPoint A rt p.idx p c kc root ct inv := by
    intro p hp
    obtain ⟨z, hz, rfl⟩ := List.mem_map.1 hp
    obtain ⟨i, h1, h2, h3, h4, h5, h6, h7⟩ := ofPt z hz
    rw [h4, h5]
    exact ⟨h1, h2, h7⟩
  have toK : ∀ i, Sounds A i → ∃ p ∈ pts.map (·.1), p.idx = i := by
    intro i hi
    obtain ⟨z, hz, h1, _⟩ := toPt i hi
    exact ⟨z.1, List.mem_map.2 ⟨z, hz, rfl⟩, h1⟩
  have toC : ∀ i, Sounds A i → ∃ p ∈ pts.map (·.2), p.idx = i := by
    intro i hi
    obtain ⟨z, hz, _, h1⟩ := toPt i hi
    exact ⟨z.2, List.mem_map.2 ⟨z, hz, rfl⟩, h1⟩
  have dashK : ∀ p ∈ pts.map (·.1), p.est ≠ dash := by
    intro p hp
    obtain ⟨_, _, g, k, t, m, h⟩ := ofK p hp
    exact keyWritten_ne h.estText
  have dashC : ∀ p ∈ pts.map (·.2), p.est ≠ dash := by
    intro p hp
    obtain ⟨_, _, c, kc, r, ct, inv, h⟩ := ofC p hp
    exact chordWritten_ne h.estText
  have kindK : ∀ e ∈ tags (none, none) (none, none) pts, e.isKey = true →
      e ∈ track true (none, none) (pts.map (·.1)) := by
    intro e he hb
    rcases (tags_mem_iff _ _ _ _).1 he with he | he
    · exact he
    · have := (track_mem he).1
      rw [hb] at this; cases this
  have kindC : ∀ e ∈ tags (none, none) (none, none) pts, e.isKey = false →
      e ∈ track false (none, none) (pts.map (·.2)) := by
    intro e he hb
    rcases (tags_mem_iff _ _ _ _).1 he with he | he
    · have := (track_mem he).1
      rw [hb] at this; cases this
    · exact he
  have mk : ∀ e ∈ track true (none, none) (pts.map (·.1)), e ∈ tags (none, none) (none, none) pts :=
    fun e he => (tags_mem_iff _ _ _ _).2 (.inl he)
  have mc : ∀ e ∈ track false (none, none) (pts.map (·.2)), e ∈ tags (none, none) (none, none) pts :=
    fun e he => (tags_mem_iff _ _ _ _).2 (.inr he)
  refine ⟨tags (none, none) (none, none) pts, ?_, tags_sorted _ _ _ same sorted, ?_, ?_⟩
  · simp only [labelDf, Bind.bind, Except.bind, hgt, b1, hgtK, e1, n1, m1, f3]
  · intro e he
    rcases hb : e.isKey with _ | _
    · have he' := kindC e he hb
      obtain ⟨_, p, hp', h1, h2⟩ := track_mem he'
      obtain ⟨h3, h4, _⟩ := ofC p hp'
      refine ⟨by rw [h1]; exact h3, by rw [h1, h2]; exact h4, ?_⟩
      rintro j ⟨hj1, hj2, hj3⟩
      refine ⟨fun hh => (by rw [hb] at hh; cases hh), fun _ => ?_⟩
      obtain ⟨q, hq, hq'⟩ := toC j hj2
      obtain ⟨r, hr, r1, r2, r3⟩ := track_minimal false _ _ sortedC dashC e he' q hq (by omega) (by
        intro q' hq1 hq2
        rw [hq']
        exact hj3 _ hq2 (ofC q' hq1).1)
      obtain ⟨_, _, c, kc, ro, ct, inv, w⟩ := ofC r hr
      obtain ⟨_, _, c', kc', ro', ct', inv', w'⟩ := ofC q hq
      rw [r1] at w
      rw [hq'] at w'
      rw [r3, ← w.gt_eq hc w', ← w.est_eq hc w']
      refine ⟨fun hh => r2 ?_, eq_comm⟩
      simp [Pt.pair, hh.1, hh.2]
    · have he' := kindK e he hb
      obtain ⟨_, p, hp', h1, h2⟩ := track_mem he'
      obtain ⟨h3, h4, _⟩ := ofK p hp'
      refine ⟨by rw [h1]; exact h3, by rw [h1, h2]; exact h4, ?_⟩
      rintro j ⟨hj1, hj2, hj3⟩
      refine ⟨fun _ => ?_, fun hh => by rw [hb] at hh; cases hh⟩
      obtain ⟨q, hq, hq'⟩ := toK j hj2
      obtain ⟨r, hr, r1, r2, r3⟩ := track_minimal true _ _ sortedK dashK e he' q hq (by omega) (by
        intro q' hq1 hq2
        rw [hq']
        exact hj3 _ hq2 (ofK q' hq1).1)
      obtain ⟨_, _, g, k, t, m, w⟩ := ofK r hr
      obtain ⟨_, _, g', k', t', m', w'⟩ := ofK q hq
      rw [r1] at w
      rw [hq'] at w'
      rw [r3, ← w.gt_eq hk w', ← w.est_eq hk w']
      refine ⟨fun hh => r2 ?_, eq_comm⟩
      simp [Pt.pair, hh.1, hh.2]
  · intro i hi
    obtain ⟨p, hp', hpi⟩ := toK i hi
    obtain ⟨_, _, g, k, t, m, w⟩ := ofK p hp'
    obtain ⟨q, hq', hqi⟩ := toC i hi
    obtain ⟨_, _, c, kc, r, ct, inv, w'⟩ := ofC q hq'
    rw [hpi] at w
    rw [hqi] at w'
    refine ⟨?_, ?_, ?_, ?_⟩
    · rcases track_colour true _ (none, none) sortedK (by
        intro a ha b hb hab
        obtain ⟨_, _, _, _, _, _, wa⟩ := ofK a ha
        obtain ⟨_, _, _, _, _, _, wb⟩ := ofK b hb
        exact wa.colour_eq wb hab) p hp' with ⟨e, ⟨l1, _, l3, l4⟩, l5⟩ | ⟨_, h⟩
      · rw [hpi] at l3 l4
        exact ⟨e, ⟨mk e l1, (track_mem l1).1, l3, fun e' he' hb => l4 e' (kindK e' he' hb) trivial⟩,
          by rw [l5]; exact w.colourOK hk⟩
      · cases h
    · rcases track_label true _ (none, none) sortedK dashK p hp' with ⟨e, ⟨l1, l2, l3, l4⟩, l5⟩ | ⟨_, h⟩
      · rw [hpi] at l3 l4
        refine ⟨e, ⟨mk e l1, ⟨(track_mem l1).1, l2⟩, l3,
          fun e' he' hb => l4 e' (kindK e' he' hb.1) hb.2⟩, k, w.est, ?_⟩
        rw [l5]
        obtain ⟨nm, x1, x2⟩ := w.estText
        exact ⟨_, _, _, w.label, x1, x2⟩
      · cases h
    · rcases track_colour false _ (none, none) sortedC (by
        intro a ha b hb hab
        obtain ⟨_, _, _, _, _, _, _, wa⟩ := ofC a ha
        obtain ⟨_, _, _, _, _, _, _, wb⟩ := ofC b hb
        exact wa.colour_eq wb hab) q hq' with ⟨e, ⟨l1, _, l3, l4⟩, l5⟩ | ⟨_, h⟩
      · rw [hqi] at l3 l4
        exact ⟨e, ⟨mc e l1, (track_mem l1).1, l3, fun e' he' hb => l4 e' (kindC e' he' hb) trivial⟩,
          by rw [l5]; exact w'.colourOK hc⟩
      · cases h
    · rcases track_label false _ (none, none) sortedC dashC q hq' with ⟨e, ⟨l1, l2, l3, l4⟩, l5⟩ | ⟨_, h⟩
      · rw [hqi] at l3 l4
        refine ⟨e, ⟨mc e l1, ⟨(track_mem l1).1, l2⟩, l3,
          fun e' he' hb => l4 e' (kindC e' he' hb.1) hb.2⟩, kc, w'.est, ?_⟩
        rw [l5]
        obtain ⟨nm, x1, x2⟩ := w'.estText
        exact ⟨_, _, _, _, w'.label, x1, x2⟩
      · cases h

/-! ## What the table does not say -/

/-- Two inputs of duration 1; the estimate is C major throughout, in C major. In the piece, the second
chord is `second`, the second key has the tonic `tonic`. -/
def exTable (second : Int) (tonic : Int) : EvalInput ℚ :=
  { cache := [1, 1], inputs := 2,
    gtChords := [⟨15, 15, 15, .major, .major, 0, 0, 0, 1, .tpc⟩,
      ⟨second, second, 15, .major, .major, 0, 1, 1, 1, .tpc⟩], gtChordChanges := [0, 1],
    gtKeys := [⟨15, 15, 15, .major, .major, .major, .tpc⟩, ⟨tonic, tonic, tonic, .major, .major, .major, .tpc⟩],
    gtKeyChanges := [0, 1],
    estChords := [some 45], estChordChanges := [0, 2], estKeys := [15], estKeyChanges := [0, 2] }

def exLabelDf (A : EvalInput ℚ) : Py (List (LabelRow Nat)) :=
  labelDf A (some A.gtChords) (some A.gtKeys) [0, 1] .tpc .tpc

example : exLabelDf (exTable 16 16) =
    .ok [⟨"C:KeyMode.MAJOR".toList, 0, .green⟩, ⟨"C:M, inv:0".toList, 0, .green⟩,
      ⟨"--".toList, 1, .red⟩, ⟨"--".toList, 1, .red⟩] := by
  decide +kernel

/-- C75: a row `--` does not say whether it is about the key or the chord. Two pieces, in one of which only
the estimated chord is wrong at the second input, in the other one only the key, have the same table. -/
theorem C75_ambiguous :
    exLabelDf (exTable 16 15) = exLabelDf (exTable 15 16) ∧
    (∃ rows, exLabelDf (exTable 16 15) = .ok rows) ∧
    evaluateChords (exTable 16 15) .tpc true noReduction = .ok (1 / 2) ∧
    evaluateKeys (exTable 16 15) .tpc false = .ok 1 ∧
    evaluateChords (exTable 15 16) .tpc true noReduction = .ok 1 ∧
    evaluateKeys (exTable 15 16) .tpc false = .ok (1 / 2) := by
  refine ⟨by decide +kernel, ⟨[⟨"C:KeyMode.MAJOR".toList, 0, .green⟩, ⟨"C:M, inv:0".toList, 0, .green⟩,
    ⟨"--".toList, 1, .red⟩], by decide +kernel⟩, ?_, ?_, ?_, ?_⟩ <;> decide +kernel

/-- C75: before the first chord of the piece, the estimate is compared with the last class of all; a piece
that has no chord there, and an estimate of that class, give a green row. -/
theorem C75_before_first_chord :
    ∃ A : EvalInput ℚ, A.gtChordChanges = [1] ∧ (¬ ∃ g, Covers A.gtChords A.gtChordChanges 0 g) ∧
      ∃ t, labelDf A (some A.gtChords) (some A.gtKeys) [0, 1] .tpc .tpc =
        .ok [⟨"C:KeyMode.MAJOR".toList, 0, .green⟩, ⟨t, 0, .green⟩, ⟨"--".toList, 1, .red⟩] := by
  refine ⟨{ exTable 16 15 with
    gtChords := [⟨15, 15, 15, .major, .major, 0, 0, 0, 1, .tpc⟩], gtChordChanges := [1],
    estChords := [some 1539] }, rfl, ?_, "B##:+M7, inv:3".toList, by decide +kernel⟩
  rintro ⟨g, k, a, h1, h2, h3, _⟩
  match k, h2 with
  | 0, h2 => simp at h2; omega
  | k + 1, h2 => simp at h2

/-- C75: a piece without annotations has no table: its chords are None, and `len(None)` fails before the
guard can make a difference. -/
theorem C75_unannotated (A : EvalInput δ) (keys : Option (List Key)) (positions : List τ)
    (rt tt : PitchType) : labelDf A none keys positions rt tt = .error .typeError := rfl

/-- Nor does the guard help a piece with an empty list of chords: its durations need the last chord. -/
theorem C75_no_chords {θ : Type} [LT θ] [DecidableLT θ] (offsets : List θ) :
    lastOffset (some []) offsets = .error .indexError := rfl

end Verif.LabelTable
