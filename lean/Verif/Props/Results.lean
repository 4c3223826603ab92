import Verif.Results
import Verif.Props.Annotation
import Verif.Props.Pitch

/-!
# C74: the table of results
-/

namespace Verif.Results

open Verif.Eval

variable {δ α : Type}

/-! ## What the rows should say -/

/-- A pitch of type `src` as a pitch of type `dst` (from TPC to any type, or between equal types): seven
semitones for each fifth from C. -/
def specConvert (src dst : PitchType) (p : Int) : Int :=
  match src, dst with
  | .tpc, .midi => (7 * (p - 15)) % 12
  | _, _ => p

/-- The conversions that the table needs. -/
def Convertible (src dst : PitchType) : Prop := src = dst ∨ src = .tpc

/-- The text of a chord. -/
def ChordWritten (pt : PitchType) (root : Int) (ct : ChordType) (inv : Int) (t : Str) : Prop :=
  ∃ name, pitchString root pt = .ok name ∧ t = specChordLabel name ct (some inv)

/-- The text of a key. -/
def KeyWritten (pt : PitchType) (tonic : Int) (mode : KeyMode) (t : Str) : Prop :=
  ∃ name, pitchString tonic pt = .ok name ∧ t = specKeyLabel name mode

/-- The items of a piece: sorted changes from the first input on. -/
structure OpenTiles (items : List α) (changes : List Nat) : Prop where
  len : items.length = changes.length
  start : changes[0]? = some 0
  sorted : changes.Pairwise (· ≤ ·)

/-- Chords of the piece of the pitch type `src`, and estimated chords with labels of the pitch type `out`,
which tile all inputs. -/
structure ChordTables (A : EvalInput δ) (src out : PitchType) : Prop where
  gt : OpenTiles A.gtChords A.gtChordChanges
  gtClass : ∀ g ∈ A.gtChords, g.pitchType = src ∧
    specEncodable g.chordType g.root src g.inversion true false false noReduction
  est : Tiles A.estChords A.estChordChanges A.inputs
  estClass : ∀ e ∈ A.estChords, ∃ c l, e = some c ∧ pyGet (stdLabels out).chord c = .ok l

/-- The same for keys. -/
structure KeyTables (A : EvalInput δ) (src out : PitchType) : Prop where
  gt : OpenTiles A.gtKeys A.gtKeyChanges
  gtClass : ∀ g ∈ A.gtKeys, g.tonicType = src ∧ 0 ≤ g.relativeTonic ∧ g.relativeTonic < NUM_PITCHES src
  est : Tiles A.estKeys A.estKeyChanges A.inputs
  estClass : ∀ e ∈ A.estKeys, ∃ l, pyGet (stdLabels out).key e = .ok l

/-! ## Conversions -/

theorem convert_ok {src dst : PitchType} (h : Convertible src dst) {p : Int} (h0 : 0 ≤ p)
    (h1 : p < NUM_PITCHES src) :
    convertPitch p src dst = .ok (specConvert src dst p) ∧ 0 ≤ specConvert src dst p ∧
      specConvert src dst p < NUM_PITCHES dst := by
  cases src <;> cases dst
  · obtain ⟨name, e1, e2⟩ := C06_round_trip p h0 h1
    exact ⟨by simp only [convertPitch, Bind.bind, Except.bind, e1, e2]; rfl, h0, h1⟩
  · refine ⟨C08_value p, ?_, ?_⟩
    · simp only [specConvert]; omega
    · simp only [specConvert]
      have : NUM_PITCHES .midi = 12 := rfl
      omega
  · rcases h with h | h <;> cases h
  · have hm : ∀ q ∈ pyRange 0 12, convertPitch q .midi .midi = .ok q := by decide +kernel
    have h1' : p < 12 := h1
    refine ⟨hm p ?_, h0, h1⟩
    simp only [pyRange, List.mem_map, List.mem_range]
    exact ⟨p.toNat, by omega, by omega⟩

theorem specRoots_abs (pt : PitchType) : specRoots pt false false = NUM_PITCHES pt := by
  cases pt <;> decide

/-- The code of a chord class which exists: its label is that of the class. -/
theorem chord_code {pt : PitchType} {ct : ChordType} {root inv : Int} (h0 : 0 ≤ root)
    (h1 : root < NUM_PITCHES pt) (h2 : 0 ≤ inv ∧ inv < specInversions ct) :
    ∃ v, chordOneHotIndex ct root pt inv true false false noReduction = .ok v ∧ 0 ≤ v ∧
      pyGet (stdLabels pt).chord v = .ok (root, ct, inv) := by
  obtain ⟨v, hv⟩ := (C01_accepts_iff ct root pt inv true false false noReduction).1.2
    ⟨⟨h0, by rw [specRoots_abs]; exact h1⟩, fun _ => h2⟩
  obtain ⟨a, _, b⟩ := C01_encode_decode _ _ _ _ _ _ _ _ _ hv
  refine ⟨v, hv, a, ?_⟩
  have : specDecodedRoot pt false false root = root := by cases pt <;> rfl
  rw [this] at b
  exact b

theorem gtChordCode_ok {src dst : PitchType} (h : Convertible src dst) (g : Chord δ)
    (hp : g.pitchType = src)
    (hg : specEncodable g.chordType g.root src g.inversion true false false noReduction) :
    ∃ v, gtChordCode dst g = .ok v ∧ 0 ≤ v ∧
      pyGet (stdLabels dst).chord v = .ok (specConvert src dst g.root, g.chordType, g.inversion) := by
  obtain ⟨⟨a0, a1⟩, b⟩ := hg
  rw [specRoots_abs] at a1
  obtain ⟨c1, c2, c3⟩ := convert_ok h a0 a1
  obtain ⟨v, e1, e2, e3⟩ := chord_code c2 c3 (ct := g.chordType) (b rfl)
  refine ⟨v, ?_, e2, e3⟩
  by_cases hs : dst = src
  · subst hs
    have : specConvert dst dst g.root = g.root := by cases dst <;> rfl
    rw [this] at e1
    simp only [gtChordCode, Chord.toPitchType, hp, if_true, Bind.bind, Except.bind, Chord.oneHotIndex,
      Bool.false_eq_true, if_false, e1]
  · have hs' : src = .tpc := by
      rcases h with h | h
      · exact absurd h.symm hs
      · exact h
    have hd : dst = .midi := by cases dst <;> simp_all
    subst hs' hd
    simp only [gtChordCode, Chord.toPitchType, hp, hs, if_false, Bind.bind, Except.bind,
      C08_value, Chord.oneHotIndex, Bool.false_eq_true]
    exact e1

theorem estChordCode_ok {out dst : PitchType} (h : Convertible out dst) {c root inv : Int} {ct : ChordType}
    (hl : pyGet (stdLabels out).chord c = .ok (root, ct, inv)) :
    ∃ v, estChordCode out dst (some c) = .ok v ∧ 0 ≤ v ∧
      pyGet (stdLabels dst).chord v = .ok (specConvert out dst root, ct, inv) := by
  have hm := pyGet_mem _ _ _ hl
  simp only [stdLabels, chordClasses, List.mem_flatMap, List.mem_map, classInversions, if_true] at hm
  obtain ⟨ct', _, r, hr, i, hi, he⟩ := hm
  simp only [Prod.mk.injEq] at he
  obtain ⟨rfl, rfl, rfl⟩ := he
  have hr' : r ∈ pyRange 0 (NUM_PITCHES out) := by simpa [classRoots] using hr
  simp only [pyRange, List.mem_map, List.mem_range] at hr' hi
  obtain ⟨a, a1, a2⟩ := hr'
  obtain ⟨b, b1, b2⟩ := hi
  obtain ⟨c1, c2, c3⟩ := convert_ok h (p := r) (by omega) (by omega)
  obtain ⟨v, e1, e2, e3⟩ := chord_code c2 c3 (ct := ct') (inv := i)
    ⟨by omega, by rw [specInversions_eq]; omega⟩
  refine ⟨v, ?_, e2, e3⟩
  have hl' : chordFromOneHotIndex c out true false false noReduction = .ok (r, ct', i) := hl
  simp only [estChordCode, Bind.bind, Except.bind, hl', c1, e1]

theorem gtKeyCode_ok {src dst : PitchType} (h : Convertible src dst) (g : Key)
    (hp : g.tonicType = src) (h0 : 0 ≤ g.relativeTonic) (h1 : g.relativeTonic < NUM_PITCHES src) :
    ∃ v, gtKeyCode dst g = .ok v ∧ 0 ≤ v ∧
      pyGet (stdLabels dst).key v = .ok (specConvert src dst g.relativeTonic, g.relativeMode) := by
  obtain ⟨c1, c2, c3⟩ := convert_ok h h0 h1
  have h3 := C03_encode_decode g.relativeMode (specConvert src dst g.relativeTonic) dst
  rw [specPitches_eq, if_pos ⟨c2, c3⟩] at h3
  obtain ⟨v, e1, e2, _, e3⟩ := h3
  refine ⟨v, ?_, e2, e3⟩
  by_cases hs : dst = src
  · subst hs
    have : specConvert dst dst g.relativeTonic = g.relativeTonic := by cases dst <;> rfl
    rw [this] at e1
    simp only [gtKeyCode, Key.toPitchType, hp, if_true, Bind.bind, Except.bind, Key.oneHotIndex, e1]
  · have hs' : src = .tpc := by
      rcases h with h | h
      · exact absurd h.symm hs
      · exact h
    have hd : dst = .midi := by cases dst <;> simp_all
    subst hs' hd
    simp only [gtKeyCode, Key.toPitchType, hp, hs, if_false, Bind.bind, Except.bind,
      C08_value, Key.oneHotIndex]
    exact e1

theorem estKeyCode_ok {out dst : PitchType} (h : Convertible out dst) {k tonic : Int} {mode : KeyMode}
    (hl : pyGet (stdLabels out).key k = .ok (tonic, mode)) :
    ∃ v, estKeyCode out dst k = .ok v ∧ 0 ≤ v ∧
      pyGet (stdLabels dst).key v = .ok (specConvert out dst tonic, mode) := by
  have hr := key_class_range hl
  simp only [pyRange, List.mem_map, List.mem_range] at hr
  obtain ⟨a, a1, a2⟩ := hr
  obtain ⟨c1, c2, c3⟩ := convert_ok h (p := tonic) (by omega) (by omega)
  have h3 := C03_encode_decode mode (specConvert out dst tonic) dst
  rw [specPitches_eq, if_pos ⟨c2, c3⟩] at h3
  obtain ⟨v, e1, e2, _, e3⟩ := h3
  refine ⟨v, ?_, e2, e3⟩
  have hl' : keyFromOneHotIndex k out false = .ok (tonic, mode) := hl
  simp only [estKeyCode, Bind.bind, Except.bind, hl', c1, e1]

/-! ## Label arrays -/

theorem fill_spec (enc : α → Py Int) (n : Nat) (items : List α) (changes : List Nat)
    (ht : Tiles items changes n) (he : ∀ x ∈ items, ∃ v, enc x = .ok v) :
    ∃ arr, fillLoop enc items changes (List.replicate n 0) = .ok arr ∧ arr.length = n ∧
      ∀ (i : Nat) x, i < n → Covers items changes i x → ∃ v, enc x = .ok v ∧ arr[i]? = some v := by
  obtain ⟨arr, harr⟩ := fillLoop_total enc items changes (List.replicate n 0) he
  have hlen := fillLoop_length enc _ _ _ _ harr
  rw [List.length_replicate] at hlen
  refine ⟨arr, harr, hlen, ?_⟩
  rintro i x hi ⟨k, a, hx, ha, hai, hb⟩
  have hk : k < items.length := (List.getElem?_eq_some_iff.1 hx).1
  have hq := List.getElem?_eq_getElem (l := changes) (i := k + 1) (by have := ht.len; omega)
  exact fillLoop_covered enc _ _ _ _ harr ht.sorted i k a _ x hx ha hq ⟨hai, hb _ hq⟩
    (by rw [List.length_replicate]; exact hi)

theorem OpenTiles.ne {items : List α} {changes : List Nat} (h : OpenTiles items changes) : items ≠ [] := by
  intro h0
  have h1 := (List.getElem?_eq_some_iff.1 h.start).1
  rw [← h.len, h0] at h1
  simp at h1

theorem OpenTiles.covers {items : List α} {changes : List Nat} (h : OpenTiles items changes) (i : Nat) :
    ∃ x, Covers items changes i x :=
  exists_covers items changes i 0 (Nat.le_of_eq h.len) h.ne h.start (Nat.zero_le _) (by
    intro e he
    have := (List.getElem?_eq_some_iff.1 he).1
    rw [h.len] at this
    omega)

theorem covers_mem {items : List α} {changes : List Nat} {i : Nat} {x : α}
    (h : Covers items changes i x) : x ∈ items := by
  obtain ⟨k, _, hk, _⟩ := h
  exact List.mem_of_getElem? hk

/-! ## The loop -/

theorem resultRows_spec (chordNames keyNames : List Str) (items : List (ℚ × (Int × Int) × (Int × Int)))
    (h : ∀ x ∈ items, ∃ a b c d, pyGet keyNames x.2.2.2 = .ok a ∧ pyGet chordNames x.2.1.2 = .ok b ∧
      pyGet keyNames x.2.2.1 = .ok c ∧ pyGet chordNames x.2.1.1 = .ok d) :
    ∃ full : List ResultRow, full.length = items.length ∧
      resultRows chordNames keyNames items = .ok (full.filter fun r => decide (r.duration ≠ 0)) ∧
      ∀ (i : Nat) r, full[i]? = some r → ∃ x, items[i]? = some x ∧ r.duration = x.1 ∧
        pyGet keyNames x.2.2.2 = .ok r.gtKey ∧ pyGet chordNames x.2.1.2 = .ok r.gtChord ∧
        pyGet keyNames x.2.2.1 = .ok r.estKey ∧ pyGet chordNames x.2.1.1 = .ok r.estChord := by
  induction items with
  | nil => exact ⟨[], rfl, rfl, by simp⟩
  | cons x rest ih =>
    obtain ⟨full, f1, f2, f3⟩ := ih (fun y hy => h y (List.mem_cons_of_mem _ hy))
    obtain ⟨a, b, c, d, h1, h2, h3, h4⟩ := h x List.mem_cons_self
    refine ⟨⟨a, b, c, d, x.1⟩ :: full, by simp [f1], ?_, ?_⟩
    · obtain ⟨dur, ⟨ec, gc⟩, ⟨ek, gk⟩⟩ := x
      simp only [resultRows]
      by_cases hd : dur = 0
      · rw [if_pos hd, f2, List.filter_cons, if_neg (by simpa using hd)]
      · rw [if_neg hd, List.filter_cons, if_pos (by simpa using hd)]
        simp only [Bind.bind, Except.bind, h1, h2, h3, h4, f2]
    · intro i r hr
      cases i with
      | zero =>
        simp only [List.getElem?_cons_zero, Option.some.injEq] at hr
        subst hr
        exact ⟨x, rfl, rfl, h1, h2, h3, h4⟩
      | succ i => simpa using f3 i r (by simpa using hr)

/-- What is known of the row of input `i`. -/
structure RowRight (A : EvalInput δ) (src out rootType srcK outK tonicType : PitchType) (i : Nat)
    (r : ResultRow) : Prop where
  duration : A.cache[i]? = some r.duration
  gtChord : ∀ g, Covers A.gtChords A.gtChordChanges i g →
    ChordWritten rootType (specConvert src rootType g.root) g.chordType g.inversion r.gtChord
  estChord : ∀ c root ct inv, Covers A.estChords A.estChordChanges i (some c) →
    pyGet (stdLabels out).chord c = .ok (root, ct, inv) →
    ChordWritten rootType (specConvert out rootType root) ct inv r.estChord
  gtKey : ∀ g, Covers A.gtKeys A.gtKeyChanges i g →
    KeyWritten tonicType (specConvert srcK tonicType g.relativeTonic) g.relativeMode r.gtKey
  estKey : ∀ k tonic mode, Covers A.estKeys A.estKeyChanges i k →
    pyGet (stdLabels outK).key k = .ok (tonic, mode) →
    KeyWritten tonicType (specConvert outK tonicType tonic) mode r.estKey

/-- C74: the table has one row for each input of nonzero duration, in order, with the duration and the
texts of the chords and keys that cover the input, converted to the pitch types asked for. -/
theorem C74_rows (A : EvalInput δ) (src out rootType srcK outK tonicType : PitchType)
    (hl : A.cache.length = A.inputs) (hc : ChordTables A src out) (hk : KeyTables A srcK outK)
    (c1 : Convertible src rootType) (c2 : Convertible out rootType)
    (k1 : Convertible srcK tonicType) (k2 : Convertible outK tonicType) :
    ∃ full : List ResultRow, full.length = A.inputs ∧
      resultsDf A out outK rootType tonicType = .ok (full.filter fun r => decide (r.duration ≠ 0)) ∧
      ∀ (i : Nat) r, full[i]? = some r → RowRight A src out rootType srcK outK tonicType i r := by
  obtain ⟨gtC, a1, a2, a3⟩ := gtLabels_spec (gtChordCode rootType) A.inputs _ _ hc.gt.len hc.gt.ne
    hc.gt.sorted (fun g hg => by
      obtain ⟨p1, p2⟩ := hc.gtClass g hg
      obtain ⟨v, hv, _⟩ := gtChordCode_ok c1 g p1 p2
      exact ⟨v, hv⟩)
  obtain ⟨estC, b1, b2, b3⟩ := fill_spec (estChordCode out rootType) A.inputs _ _ hc.est (fun e he => by
      obtain ⟨c, ⟨root, ct, inv⟩, rfl, hl⟩ := hc.estClass e he
      obtain ⟨v, hv, _⟩ := estChordCode_ok c2 hl
      exact ⟨v, hv⟩)
  obtain ⟨gtK, d1, d2, d3⟩ := gtLabels_spec (gtKeyCode tonicType) A.inputs _ _ hk.gt.len hk.gt.ne
    hk.gt.sorted (fun g hg => by
      obtain ⟨p1, p2, p3⟩ := hk.gtClass g hg
      obtain ⟨v, hv, _⟩ := gtKeyCode_ok k1 g p1 p2 p3
      exact ⟨v, hv⟩)
  obtain ⟨estK, e1, e2, e3⟩ := fill_spec (estKeyCode outK tonicType) A.inputs _ _ hk.est (fun e he => by
      obtain ⟨⟨tonic, mode⟩, hl⟩ := hk.estClass e he
      obtain ⟨v, hv, _⟩ := estKeyCode_ok k2 hl
      exact ⟨v, hv⟩)
  obtain ⟨chordNames, n1, _, n3⟩ := C02_labels rootType true false none false noReduction
  obtain ⟨keyNames, m1, _, m3⟩ := C03_labels tonicType false none
  -- texts of the entries
  have tg : ∀ (i : Nat) v g, i < A.inputs → gtC[i]? = some v → Covers A.gtChords A.gtChordChanges i g →
      ∃ t, pyGet chordNames v = .ok t ∧
        ChordWritten rootType (specConvert src rootType g.root) g.chordType g.inversion t := by
    intro i v g hi hv hg
    obtain ⟨w, hw, hw'⟩ := a3 i g hi hg
    rw [hv] at hw'; injection hw' with hw'; subst hw'
    obtain ⟨p1, p2⟩ := hc.gtClass g (covers_mem hg)
    obtain ⟨w, q1, _, q3⟩ := gtChordCode_ok c1 g p1 p2
    rw [hw] at q1; injection q1 with q1; subst q1
    obtain ⟨name, g1, g2⟩ := n3 _ _ _ _ q3
    exact ⟨_, g2, name, g1, rfl⟩
  have te : ∀ (i : Nat) v c root ct inv, i < A.inputs → estC[i]? = some v →
      Covers A.estChords A.estChordChanges i (some c) →
      pyGet (stdLabels out).chord c = .ok (root, ct, inv) →
      ∃ t, pyGet chordNames v = .ok t ∧
        ChordWritten rootType (specConvert out rootType root) ct inv t := by
    intro i v c root ct inv hi hv he hl
    obtain ⟨w, hw, hw'⟩ := b3 i _ hi he
    rw [hv] at hw'; injection hw' with hw'; subst hw'
    obtain ⟨w, q1, _, q3⟩ := estChordCode_ok c2 hl
    rw [hw] at q1; injection q1 with q1; subst q1
    obtain ⟨name, g1, g2⟩ := n3 _ _ _ _ q3
    exact ⟨_, g2, name, g1, rfl⟩
  have ug : ∀ (i : Nat) v g, i < A.inputs → gtK[i]? = some v → Covers A.gtKeys A.gtKeyChanges i g →
      ∃ t, pyGet keyNames v = .ok t ∧
        KeyWritten tonicType (specConvert srcK tonicType g.relativeTonic) g.relativeMode t := by
    intro i v g hi hv hg
    obtain ⟨w, hw, hw'⟩ := d3 i g hi hg
    rw [hv] at hw'; injection hw' with hw'; subst hw'
    obtain ⟨p1, p2, p3⟩ := hk.gtClass g (covers_mem hg)
    obtain ⟨w, q1, _, q3⟩ := gtKeyCode_ok k1 g p1 p2 p3
    rw [hw] at q1; injection q1 with q1; subst q1
    obtain ⟨name, g1, g2⟩ := m3 _ _ _ q3
    exact ⟨_, g2, name, g1, rfl⟩
  have ue : ∀ (i : Nat) v k tonic mode, i < A.inputs → estK[i]? = some v →
      Covers A.estKeys A.estKeyChanges i k → pyGet (stdLabels outK).key k = .ok (tonic, mode) →
      ∃ t, pyGet keyNames v = .ok t ∧ KeyWritten tonicType (specConvert outK tonicType tonic) mode t := by
    intro i v k tonic mode hi hv he hl
    obtain ⟨w, hw, hw'⟩ := e3 i _ hi he
    rw [hv] at hw'; injection hw' with hw'; subst hw'
    obtain ⟨w, q1, _, q3⟩ := estKeyCode_ok k2 hl
    rw [hw] at q1; injection q1 with q1; subst q1
    obtain ⟨name, g1, g2⟩ := m3 _ _ _ q3
    exact ⟨_, g2, name, g1, rfl⟩
  obtain ⟨full, f1, f2, f3⟩ := resultRows_spec chordNames keyNames
      (A.cache.zip ((estC.zip gtC).zip (estK.zip gtK))) (by
    intro x hx
    obtain ⟨i, hi⟩ := List.getElem?_of_mem hx
    obtain ⟨_, z⟩ := zip_some hi
    obtain ⟨z1, z2⟩ := zip_some z
    obtain ⟨x1, x2⟩ := zip_some z1
    obtain ⟨x3, x4⟩ := zip_some z2
    have hlt : i < A.inputs := by rw [← a2]; exact (List.getElem?_eq_some_iff.1 x2).1
    obtain ⟨g, hg⟩ := hc.gt.covers i
    obtain ⟨e, he⟩ := hc.est.covers i hlt
    obtain ⟨c, ⟨root, ct, inv⟩, rfl, hcl⟩ := hc.estClass e (covers_mem he)
    obtain ⟨g', hg'⟩ := hk.gt.covers i
    obtain ⟨e', he'⟩ := hk.est.covers i hlt
    obtain ⟨⟨tonic, mode⟩, hkl⟩ := hk.estClass e' (covers_mem he')
    obtain ⟨t1, y1, _⟩ := tg i _ g hlt x2 hg
    obtain ⟨t2, y2, _⟩ := te i _ c _ _ _ hlt x1 he hcl
    obtain ⟨t3, y3, _⟩ := ug i _ g' hlt x4 hg'
    obtain ⟨t4, y4, _⟩ := ue i _ e' _ _ hlt x3 he' hkl
    exact ⟨t3, t1, t4, t2, y3, y1, y4, y2⟩)
  refine ⟨full, ?_, ?_, ?_⟩
  · rw [f1]
    simp [a2, b2, d2, e2, hl]
  · simp only [resultsDf, Bind.bind, Except.bind, a1, b1, d1, e1, n1, m1, f2]
  · intro i r hr
    obtain ⟨x, hx, r1, r2, r3, r4, r5⟩ := f3 i r hr
    obtain ⟨z0, z⟩ := zip_some hx
    obtain ⟨z1, z2⟩ := zip_some z
    obtain ⟨x1, x2⟩ := zip_some z1
    obtain ⟨x3, x4⟩ := zip_some z2
    have hlt : i < A.inputs := by rw [← a2]; exact (List.getElem?_eq_some_iff.1 x2).1
    refine ⟨by rw [r1]; exact z0, ?_, ?_, ?_, ?_⟩
    · intro g hg
      obtain ⟨t, y, w⟩ := tg i _ g hlt x2 hg
      rw [r3] at y; injection y with y; rw [y]; exact w
    · intro c root ct inv he hcl
      obtain ⟨t, y, w⟩ := te i _ c _ _ _ hlt x1 he hcl
      rw [r5] at y; injection y with y; rw [y]; exact w
    · intro g hg
      obtain ⟨t, y, w⟩ := ug i _ g hlt x4 hg
      rw [r2] at y; injection y with y; rw [y]; exact w
    · intro k tonic mode he hkl
      obtain ⟨t, y, w⟩ := ue i _ k _ _ hlt x3 he hkl
      rw [r4] at y; injection y with y; rw [y]; exact w

/-! ## Comparing the texts of a row -/

theorem chordWritten_inj {pt : PitchType} {root root' inv inv' : Int} {ct ct' : ChordType} {t t' : Str}
    (h0 : 0 ≤ root ∧ root < NUM_PITCHES pt) (h0' : 0 ≤ root' ∧ root' < NUM_PITCHES pt)
    (hi : 0 ≤ inv ∧ inv < specInversions ct) (hi' : 0 ≤ inv' ∧ inv' < specInversions ct')
    (h : ChordWritten pt root ct inv t) (h' : ChordWritten pt root' ct' inv' t') :
    t = t' ↔ root = root' ∧ ct = ct' ∧ inv = inv' := by
  obtain ⟨name, n1, n2⟩ := h
  obtain ⟨name', n1', n2'⟩ := h'
  constructor
  · rintro rfl
    obtain ⟨v, _, v2, v3⟩ := chord_code h0.1 h0.2 hi
    obtain ⟨v', _, v2', v3'⟩ := chord_code h0'.1 h0'.2 hi'
    have := C59_chord_text pt v v' v2 v2' t ⟨_, _, _, _, v3, n1, n2⟩ ⟨_, _, _, _, v3', n1', n2'⟩
    subst this
    rw [v3] at v3'
    simpa using v3'
  · rintro ⟨rfl, rfl, rfl⟩
    rw [n1] at n1'
    injection n1' with n1'
    rw [n2, n2', n1']

theorem keyWritten_inj {pt : PitchType} {tonic tonic' : Int} {mode mode' : KeyMode} {t t' : Str}
    (h0 : 0 ≤ tonic ∧ tonic < NUM_PITCHES pt) (h0' : 0 ≤ tonic' ∧ tonic' < NUM_PITCHES pt)
    (h : KeyWritten pt tonic mode t) (h' : KeyWritten pt tonic' mode' t') :
    t = t' ↔ tonic = tonic' ∧ mode = mode' := by
  obtain ⟨name, n1, n2⟩ := h
  obtain ⟨name', n1', n2'⟩ := h'
  constructor
  · rintro rfl
    have g := C03_encode_decode mode tonic pt
    rw [specPitches_eq, if_pos h0] at g
    obtain ⟨v, _, v2, _, v3⟩ := g
    have g := C03_encode_decode mode' tonic' pt
    rw [specPitches_eq, if_pos h0'] at g
    obtain ⟨v', _, v2', _, v3'⟩ := g
    have := C59_key_text pt v v' v2 v2' t ⟨_, _, _, v3, n1, n2⟩ ⟨_, _, _, v3', n1', n2'⟩
    subst this
    rw [v3] at v3'
    simpa using v3'
  · rintro ⟨rfl, rfl⟩
    rw [n1] at n1'
    injection n1' with n1'
    rw [n2, n2', n1']

/-- The chord of the piece and the estimated chord at input `i` are of the same type and inversion, and
their roots are the same pitch of type `pt`. -/
def ChordSame (A : EvalInput δ) (src out pt : PitchType) (i : Nat) : Prop :=
  ∃ g c root ct inv, Covers A.gtChords A.gtChordChanges i g ∧
    Covers A.estChords A.estChordChanges i (some c) ∧ pyGet (stdLabels out).chord c = .ok (root, ct, inv) ∧
    specConvert src pt g.root = specConvert out pt root ∧ g.chordType = ct ∧ g.inversion = inv

/-- The same for keys. -/
def KeySame (A : EvalInput δ) (src out pt : PitchType) (i : Nat) : Prop :=
  ∃ g k tonic mode, Covers A.gtKeys A.gtKeyChanges i g ∧ Covers A.estKeys A.estKeyChanges i k ∧
    pyGet (stdLabels out).key k = .ok (tonic, mode) ∧
    specConvert src pt g.relativeTonic = specConvert out pt tonic ∧ g.relativeMode = mode

/-- C74: the two chord texts of a row are equal exactly if the chords are the same, and likewise for
keys. -/
theorem C74_equal (A : EvalInput δ) (src out rootType srcK outK tonicType : PitchType)
    (hc : ChordTables A src out) (hk : KeyTables A srcK outK)
    (c1 : Convertible src rootType) (c2 : Convertible out rootType)
    (k1 : Convertible srcK tonicType) (k2 : Convertible outK tonicType) (i : Nat) (hi : i < A.inputs)
    (r : ResultRow) (h : RowRight A src out rootType srcK outK tonicType i r) :
    (r.estChord = r.gtChord ↔ ChordSame A src out rootType i) ∧
    (r.estKey = r.gtKey ↔ KeySame A srcK outK tonicType i) := by
  have chordRange : ∀ {c root inv : Int} {ct : ChordType},
      pyGet (stdLabels out).chord c = .ok (root, ct, inv) →
      (0 ≤ specConvert out rootType root ∧ specConvert out rootType root < NUM_PITCHES rootType) ∧
      0 ≤ inv ∧ inv < specInversions ct := by
    intro c root inv ct hl
    obtain ⟨v, _, v2, v3⟩ := estChordCode_ok c2 hl
    have hm := pyGet_mem _ _ _ v3
    simp only [stdLabels, chordClasses, List.mem_flatMap, List.mem_map, classInversions, if_true] at hm
    obtain ⟨ct', _, r, hr, i, hi, he⟩ := hm
    simp only [Prod.mk.injEq] at he
    obtain ⟨e1, e2, e3⟩ := he
    subst e3
    have e2' : ct' = ct := e2
    subst e2'
    have hr' : r ∈ pyRange 0 (NUM_PITCHES rootType) := by simpa [classRoots] using hr
    simp only [pyRange, List.mem_map, List.mem_range] at hr' hi
    obtain ⟨a, a1, a2⟩ := hr'
    obtain ⟨b, b1, b2⟩ := hi
    rw [← e1]
    refine ⟨⟨by omega, by omega⟩, by omega, by rw [specInversions_eq]; omega⟩
  have gtRange : ∀ g ∈ A.gtChords,
      (0 ≤ specConvert src rootType g.root ∧ specConvert src rootType g.root < NUM_PITCHES rootType) ∧
      0 ≤ g.inversion ∧ g.inversion < specInversions g.chordType := by
    intro g hg
    obtain ⟨_, ⟨a0, a1⟩, b⟩ := hc.gtClass g hg
    rw [specRoots_abs] at a1
    exact ⟨(convert_ok c1 a0 a1).2, b rfl⟩
  have keyRange : ∀ {k tonic : Int} {mode : KeyMode}, pyGet (stdLabels outK).key k = .ok (tonic, mode) →
      0 ≤ specConvert outK tonicType tonic ∧ specConvert outK tonicType tonic < NUM_PITCHES tonicType := by
    intro k tonic mode hl
    have hr := key_class_range hl
    simp only [pyRange, List.mem_map, List.mem_range] at hr
    obtain ⟨a, a1, a2⟩ := hr
    exact (convert_ok k2 (p := tonic) (by omega) (by omega)).2
  have gtKeyRange : ∀ g ∈ A.gtKeys, 0 ≤ specConvert srcK tonicType g.relativeTonic ∧
      specConvert srcK tonicType g.relativeTonic < NUM_PITCHES tonicType := by
    intro g hg
    obtain ⟨_, a0, a1⟩ := hk.gtClass g hg
    exact (convert_ok k1 a0 a1).2
  constructor
  · constructor
    · intro heq
      obtain ⟨g, hg⟩ := hc.gt.covers i
      obtain ⟨e, he⟩ := hc.est.covers i hi
      obtain ⟨c, ⟨root, ct, inv⟩, rfl, hcl⟩ := hc.estClass e (covers_mem he)
      have w1 := h.gtChord g hg
      have w2 := h.estChord c root ct inv he hcl
      obtain ⟨q1, q2⟩ := gtRange g (covers_mem hg)
      obtain ⟨q3, q4⟩ := chordRange hcl
      obtain ⟨x1, x2, x3⟩ := (chordWritten_inj q1 q3 q2 q4 w1 w2).1 heq.symm
      exact ⟨g, c, root, ct, inv, hg, he, hcl, x1, x2, x3⟩
    · rintro ⟨g, c, root, ct, inv, hg, he, hcl, x1, x2, x3⟩
      have w1 := h.gtChord g hg
      have w2 := h.estChord c root ct inv he hcl
      obtain ⟨q1, q2⟩ := gtRange g (covers_mem hg)
      obtain ⟨q3, q4⟩ := chordRange hcl
      exact ((chordWritten_inj q1 q3 q2 q4 w1 w2).2 ⟨x1, x2, x3⟩).symm
  · constructor
    · intro heq
      obtain ⟨g, hg⟩ := hk.gt.covers i
      obtain ⟨e, he⟩ := hk.est.covers i hi
      obtain ⟨⟨tonic, mode⟩, hkl⟩ := hk.estClass e (covers_mem he)
      obtain ⟨x1, x2⟩ := (keyWritten_inj (gtKeyRange g (covers_mem hg)) (keyRange hkl) (h.gtKey g hg)
        (h.estKey e tonic mode he hkl)).1 heq.symm
      exact ⟨g, e, tonic, mode, hg, he, hkl, x1, x2⟩
    · rintro ⟨g, e, tonic, mode, hg, he, hkl, x1, x2⟩
      exact ((keyWritten_inj (gtKeyRange g (covers_mem hg)) (keyRange hkl) (h.gtKey g hg)
        (h.estKey e tonic mode he hkl)).2 ⟨x1, x2⟩).symm

/-! ## The accuracy -/

/-- The total duration of the rows that satisfy `p`. -/
def durationOf (p : ResultRow → Bool) (rows : List ResultRow) : ℚ := ((rows.filter p).map (·.duration)).sum

theorem durationOf_filter (p : ResultRow → Bool) (full : List ResultRow) :
    durationOf p (full.filter fun r => decide (r.duration ≠ 0)) =
      (full.map fun r => if p r then r.duration else 0).sum := by
  induction full with
  | nil => rfl
  | cons r rest ih =>
    simp only [durationOf] at ih ⊢
    by_cases hd : r.duration = 0
    · rw [List.filter_cons, if_neg (by simpa using hd), ih, List.map_cons, List.sum_cons, hd]
      simp
    · rw [List.filter_cons, if_pos (by simpa using hd), List.filter_cons]
      by_cases hp : p r = true
      · rw [if_pos hp, List.map_cons, List.sum_cons, ih, List.map_cons, List.sum_cons, if_pos hp]
      · rw [if_neg hp, ih, List.map_cons, List.sum_cons, if_neg hp, zero_add]

theorem share_eq (cache : List ℚ) (M : Nat → Prop) (r : ℚ) (hs : IsShare cache M r) (p : ResultRow → Bool)
    (full : List ResultRow) (hl : full.length = cache.length)
    (hf : ∀ (i : Nat) x, full[i]? = some x → cache[i]? = some x.duration ∧ (p x = true ↔ M i)) :
    durationOf p (full.filter fun r => decide (r.duration ≠ 0)) = r * cache.sum ∧
    durationOf (fun _ => true) (full.filter fun r => decide (r.duration ≠ 0)) = cache.sum := by
  obtain ⟨m, hm1, hm2, hm3⟩ := hs
  rw [durationOf_filter, durationOf_filter, hm3]
  have key : ∀ (cache : List ℚ) (m : List Bool) (full : List ResultRow), m.length = cache.length →
      full.length = cache.length →
      (∀ (i : Nat) x b, full[i]? = some x → m[i]? = some b → cache[i]? = some x.duration ∧ (p x = b)) →
      (full.map fun r => if p r then r.duration else 0) =
        ((cache.zip m).map fun q => if q.2 then q.1 else 0) ∧
      (full.map fun r => if (fun _ => true) r = true then r.duration else 0) = cache := by
    intro cache
    induction cache with
    | nil =>
      intro m full _ h2 _
      have : full = [] := List.length_eq_zero_iff.1 h2
      subst this
      simp
    | cons c cache ih =>
      intro m full h1 h2 h3
      cases m with
      | nil => simp at h1
      | cons b m =>
        cases full with
        | nil => simp at h2
        | cons x full =>
          obtain ⟨i1, i2⟩ := ih m full (by simpa using h1) (by simpa using h2)
            (fun i y b' hy hb => by simpa using h3 (i + 1) y b' (by simpa using hy) (by simpa using hb))
          obtain ⟨j1, j2⟩ := h3 0 x b (by simp) (by simp)
          simp only [List.getElem?_cons_zero, Option.some.injEq] at j1
          refine ⟨?_, ?_⟩
          · simp only [List.map_cons, List.zip_cons_cons, i1, j2, j1]
          · simp only [List.map_cons, if_true, ← j1] at i2 ⊢
            rw [i2]
  obtain ⟨a, b⟩ := key cache m full hm1 hl (by
    intro i x b hx hb
    obtain ⟨h1, h2⟩ := hf i x hx
    refine ⟨h1, ?_⟩
    have hlt := (List.getElem?_eq_some_iff.1 h1).1
    cases b with
    | true => exact h2.2 ((hm2 i).1 hb).2
    | false =>
      rw [Bool.eq_false_iff]
      intro hp
      have := (hm2 i).2 ⟨hlt, h2.1 hp⟩
      rw [hb] at this
      cases this)
  rw [a, b]
  exact ⟨rfl, rfl⟩

theorem ChordTables.ok {A : EvalInput δ} {pt : PitchType} (h : ChordTables A pt pt) : ChordsOK A pt where
  gtLen := h.gt.len
  gtStart := h.gt.start
  gtSorted := h.gt.sorted
  gtClass := h.gtClass
  estLen := h.est.len
  estStart := h.est.start
  estEnd := h.est.stop
  estSorted := h.est.sorted
  estClass := h.estClass

theorem KeyTables.ok {A : EvalInput δ} {pt : PitchType} (h : KeyTables A pt pt) : KeysOK A pt where
  gtLen := h.gt.len
  gtStart := h.gt.start
  gtSorted := h.gt.sorted
  gtClass := h.gtClass
  estLen := h.est.len
  estStart := h.est.start
  estEnd := h.est.stop
  estSorted := h.est.sorted
  estClass := h.estClass

theorem chordSame_iff (A : EvalInput δ) (pt : PitchType) (i : Nat) :
    ChordSame A pt pt pt i ↔ ChordRight A pt true noReduction i := by
  have hs : ∀ p, specConvert pt pt p = p := by intro p; cases pt <;> rfl
  constructor
  · rintro ⟨g, c, root, ct, inv, h1, h2, h3, h4, h5, h6⟩
    rw [hs, hs] at h4
    exact ⟨g, some c, h1, h2, c, root, ct, inv, rfl, h3, h4, by rw [h5], fun _ => h6⟩
  · rintro ⟨g, e, h1, h2, c, root, ct, inv, rfl, h3, h4, h5, h6⟩
    exact ⟨g, c, root, ct, inv, h1, h2, h3, by rw [hs, hs]; exact h4, h5, h6 rfl⟩

theorem keySame_iff (A : EvalInput δ) (pt : PitchType) (i : Nat) :
    KeySame A pt pt pt i ↔ KeyRight A pt false i := by
  have hs : ∀ p, specConvert pt pt p = p := by intro p; cases pt <;> rfl
  constructor
  · rintro ⟨g, k, tonic, mode, h1, h2, h3, h4, h5⟩
    rw [hs, hs] at h4
    exact ⟨g, k, h1, h2, tonic, mode, h3, h4, fun _ => h5⟩
  · rintro ⟨g, k, h1, h2, tonic, mode, h3, h4, h5⟩
    exact ⟨g, k, tonic, mode, h1, h2, h3, by rw [hs, hs]; exact h4, h5 rfl⟩

/-- C74: without conversion, the accuracies of `evaluate_chords` (with inversions, without reduction),
`evaluate_keys` and `evaluate_chords_and_keys_jointly` are the shares of the duration of the rows with
equal texts. -/
theorem C74_accuracy (A : EvalInput δ) (rt tt : PitchType) (hd : DurationsOK A)
    (hc : ChordTables A rt rt) (hk : KeyTables A tt tt) :
    ∃ rows c k j, resultsDf A rt tt rt tt = .ok rows ∧
      evaluateChords A rt true noReduction = .ok c ∧
      durationOf (fun r => decide (r.estChord = r.gtChord)) rows = c * durationOf (fun _ => true) rows ∧
      evaluateKeys A tt false = .ok k ∧
      durationOf (fun r => decide (r.estKey = r.gtKey)) rows = k * durationOf (fun _ => true) rows ∧
      evaluateJointly A rt tt true noReduction false = .ok j ∧
      durationOf (fun r => decide (r.estChord = r.gtChord ∧ r.estKey = r.gtKey)) rows =
        j * durationOf (fun _ => true) rows := by
  obtain ⟨full, f1, f2, f3⟩ := C74_rows A rt rt rt tt tt tt hd.1 hc hk (.inl rfl) (.inl rfl) (.inl rfl)
    (.inl rfl)
  obtain ⟨c, c1, c2, _⟩ := C37_chords_partial A rt true noReduction hd hc.ok
  obtain ⟨k, k1, k2, _⟩ := C37_keys_partial A tt false hd hk.ok
  obtain ⟨j, j1, j2, _⟩ := C37_jointly_partial A rt tt true noReduction false hd hc.ok hk.ok
  have hlen : full.length = A.cache.length := by rw [f1, hd.1]
  have heq : ∀ (i : Nat) x, full[i]? = some x → A.cache[i]? = some x.duration ∧
      (x.estChord = x.gtChord ↔ ChordRight A rt true noReduction i) ∧
      (x.estKey = x.gtKey ↔ KeyRight A tt false i) := by
    intro i x hx
    have hi : i < A.inputs := by rw [← f1]; exact (List.getElem?_eq_some_iff.1 hx).1
    have hr := f3 i x hx
    obtain ⟨e1, e2⟩ := C74_equal A rt rt rt tt tt tt hc hk (.inl rfl) (.inl rfl) (.inl rfl) (.inl rfl) i hi
      x hr
    exact ⟨hr.duration, e1.trans (chordSame_iff A rt i), e2.trans (keySame_iff A tt i)⟩
  obtain ⟨s1, s2⟩ := share_eq A.cache _ c c2 (fun r => decide (r.estChord = r.gtChord)) full hlen
    (fun i x hx => ⟨(heq i x hx).1, by rw [decide_eq_true_iff]; exact (heq i x hx).2.1⟩)
  obtain ⟨s3, _⟩ := share_eq A.cache _ k k2 (fun r => decide (r.estKey = r.gtKey)) full hlen
    (fun i x hx => ⟨(heq i x hx).1, by rw [decide_eq_true_iff]; exact (heq i x hx).2.2⟩)
  obtain ⟨s5, _⟩ := share_eq A.cache _ j j2
    (fun r => decide (r.estChord = r.gtChord ∧ r.estKey = r.gtKey)) full hlen
    (fun i x hx => ⟨(heq i x hx).1, by
      rw [decide_eq_true_iff]; exact and_congr (heq i x hx).2.1 (heq i x hx).2.2⟩)
  exact ⟨_, c, k, j, f2, c1, by rw [s1, s2], k1, by rw [s3, s2], j1, by rw [s5, s2]⟩

/-- C74: a chord (key) that is right in a table of TPC pitches is right in the table of MIDI pitches too,
row by row. -/
theorem C74_midi_coarser (A : EvalInput δ) (hl : A.cache.length = A.inputs)
    (hc : ChordTables A .tpc .tpc) (hk : KeyTables A .tpc .tpc) :
    ∃ rows rows', resultsDf A .tpc .tpc .tpc .tpc = .ok rows ∧ resultsDf A .tpc .tpc .midi .midi = .ok rows' ∧
      List.Forall₂ (fun r r' => r.duration = r'.duration ∧ (r.estChord = r.gtChord → r'.estChord = r'.gtChord) ∧
        (r.estKey = r.gtKey → r'.estKey = r'.gtKey)) rows rows' := by
  obtain ⟨full, f1, f2, f3⟩ := C74_rows A .tpc .tpc .tpc .tpc .tpc .tpc hl hc hk (.inl rfl) (.inl rfl)
    (.inl rfl) (.inl rfl)
  obtain ⟨full', g1, g2, g3⟩ := C74_rows A .tpc .tpc .midi .tpc .tpc .midi hl hc hk (.inr rfl) (.inr rfl)
    (.inr rfl) (.inr rfl)
  refine ⟨_, _, f2, g2, ?_⟩
  have key : ∀ (a b : List ResultRow), List.Forall₂ (fun r r' => r.duration = r'.duration ∧
      (r.estChord = r.gtChord → r'.estChord = r'.gtChord) ∧ (r.estKey = r.gtKey → r'.estKey = r'.gtKey)) a b →
      List.Forall₂ (fun r r' => r.duration = r'.duration ∧
      (r.estChord = r.gtChord → r'.estChord = r'.gtChord) ∧ (r.estKey = r.gtKey → r'.estKey = r'.gtKey))
      (a.filter fun r => decide (r.duration ≠ 0)) (b.filter fun r => decide (r.duration ≠ 0)) := by
    intro a b h
    induction h with
    | nil => exact .nil
    | cons h _ ih =>
      rw [List.filter_cons, List.filter_cons, h.1]
      split
      · exact .cons h ih
      · exact ih
  refine key _ _ (List.forall₂_iff_get.2 ⟨by rw [f1, g1], ?_⟩)
  intro i h1 h2
  have r1 := f3 i _ (List.getElem?_eq_getElem h1)
  have r2 := g3 i _ (List.getElem?_eq_getElem h2)
  have hi : i < A.inputs := by omega
  obtain ⟨e1, e2⟩ := C74_equal A _ _ _ _ _ _ hc hk (.inl rfl) (.inl rfl) (.inl rfl) (.inl rfl) i hi _ r1
  obtain ⟨e3, e4⟩ := C74_equal A _ _ _ _ _ _ hc hk (.inr rfl) (.inr rfl) (.inr rfl) (.inr rfl) i hi _ r2
  have d1 := r1.duration
  rw [r2.duration] at d1
  injection d1 with d1
  refine ⟨d1.symm, fun h => e3.2 ?_, fun h => e4.2 ?_⟩
  · obtain ⟨g, c, root, ct, inv, a1, a2, a3, a4, a5⟩ := e1.1 h
    have a4' : g.root = root := a4
    exact ⟨g, c, root, ct, inv, a1, a2, a3, by rw [a4'], a5⟩
  · obtain ⟨g, k, tonic, mode, a1, a2, a3, a4, a5⟩ := e2.1 h
    have a4' : g.relativeTonic = tonic := a4
    exact ⟨g, k, tonic, mode, a1, a2, a3, by rw [a4'], a5⟩

/-! ## A case -/

/-- Two chords (C# major, then G major) and one key in the piece; Db major for both in the estimate, with
the middle input of duration 0. -/
def exRes : EvalInput ℚ :=
  { cache := [1, 0, 2], inputs := 3,
    gtChords := [⟨22, 22, 15, .major, .major, 0, 0, 0, 1, .tpc⟩, ⟨16, 16, 15, .major, .major, 0, 0, 0, 1, .tpc⟩],
    gtChordChanges := [0, 2], gtKeys := [⟨15, 15, 15, .major, .major, .major, .tpc⟩], gtKeyChanges := [0],
    estChords := [some 30], estChordChanges := [0, 3], estKeys := [15], estKeyChanges := [0, 3] }

example : resultsDf exRes .tpc .tpc .tpc .tpc =
    .ok [⟨"C:KeyMode.MAJOR".toList, "C#:M, inv:0".toList, "C:KeyMode.MAJOR".toList, "Db:M, inv:0".toList, 1⟩,
      ⟨"C:KeyMode.MAJOR".toList, "G:M, inv:0".toList, "C:KeyMode.MAJOR".toList, "Db:M, inv:0".toList, 2⟩] := by
  decide +kernel

example : (resultsDf exRes .tpc .tpc .midi .midi).map
    (durationOf fun r => decide (r.estChord = r.gtChord)) = .ok 1 := by
  decide +kernel

example : evaluateKeys exRes .tpc false = .ok 1 ∧ evaluateChords exRes .tpc true noReduction = .ok 0 := by
  decide +kernel

end Verif.Results
