import Verif.LogState
import Verif.Props.LabelTable
import Verif.Props.Vectors
import Mathlib.Algebra.BigOperators.Intervals

/-!
# C116: the logged structure
-/

namespace Verif.LogState

open Verif Verif.Eval Verif.Results Verif.LabelTable

variable {δ τ : Type}

/-! ## What the blocks should say -/

/-- The block of the inputs from `s` to `e`. -/
structure BlockOK (A : EvalInput δ) (notes : List (τ × τ)) (rt tt : PitchType) (s e : Nat) (b : LogBlock τ) : Prop where
  start : (notes[s]?).map (·.1) = some b.start
  next : e < A.inputs → (notes[e]?).map (·.1) = some b.stop
  last : e = A.inputs → (notes.getLast?).map (·.2) = some b.stop
  duration : b.duration = ((A.cache.take e).drop s).sum
  est : ∀ i, s ≤ i → i < e → ∃ c k, Covers A.estChords A.estChordChanges i (some c) ∧ ChordText rt c b.estChord ∧
    Covers A.estKeys A.estKeyChanges i k ∧ KeyText tt k b.estKey
  right : ∀ i, s ≤ i → i < e →
    (b.correct = none ↔ ChordRight A rt true noReduction i ∧ KeyRight A tt false i)
  wrong : ∀ kt ct, b.correct = some (kt, ct) → ∀ i, s ≤ i → i < e → ∃ g k,
    Covers A.gtChords A.gtChordChanges i g ∧ ChordWritten rt g.root g.chordType g.inversion ct ∧
    Covers A.gtKeys A.gtKeyChanges i k ∧ KeyWritten tt k.relativeTonic k.relativeMode kt

/-- The structure that a block says is correct. -/
def LogBlock.gt (b : LogBlock τ) : Str × Str := b.correct.getD (b.estKey, b.estChord)

/-! ## Labels of one input -/

theorem chord_facts (A : EvalInput δ) (pt : PitchType) (h : ChordsOK A pt) (hn : ∀ c, some c ∈ A.estChords → 0 ≤ c)
    (names : List Str) (hnames : chordLabelList pt true false none false noReduction = .ok names) :
    ∃ est gt, chordArrays A = .ok (est, gt) ∧ est.length = A.inputs ∧ gt.length = A.inputs ∧
      ∀ i, i < A.inputs → ∃ g c v tg te, Covers A.gtChords A.gtChordChanges i g ∧
        Covers A.estChords A.estChordChanges i (some c) ∧ gt[i]? = some v ∧ est[i]? = some c ∧
        pyGet names v = .ok tg ∧ pyGet names c = .ok te ∧ 0 ≤ v ∧ 0 ≤ c ∧ ChordText pt v tg ∧ ChordText pt c te ∧
        ChordWritten pt g.root g.chordType g.inversion tg ∧ (tg = te ↔ ChordRight A pt true noReduction i) := by
  have hne : A.gtChords ≠ [] := by
    intro h0
    have h1 := (List.getElem?_eq_some_iff.1 h.gtStart).1
    rw [← h.gtLen, h0] at h1
    simp at h1
  have henc : ∀ g ∈ A.gtChords, ∃ v, g.oneHotIndex false true false noReduction = .ok v := by
    intro g hg
    obtain ⟨h1, h2⟩ := h.gtClass g hg
    obtain ⟨v, hv⟩ := (C01_accepts_iff g.chordType g.root pt g.inversion true false false noReduction).1.2 h2
    exact ⟨v, by simp only [Chord.oneHotIndex, Bool.false_eq_true, if_false, Bind.bind, Except.bind, h1,
      hv]⟩
  obtain ⟨gt, hgt, hgl, hgc⟩ := gtLabels_spec _ A.inputs _ _ h.gtLen hne h.gtSorted henc
  obtain ⟨est, hest, hel, hec⟩ := estLabels_spec A.inputs _ _ h.estLen h.estSorted (by
    intro x hx
    obtain ⟨c, _, rfl, _⟩ := h.estClass x hx
    rfl)
  obtain ⟨names', n1, _, n3⟩ := C02_labels pt true false none false noReduction
  rw [hnames, Except.ok.injEq] at n1
  subst n1
  refine ⟨est, gt, by simp only [chordArrays, Bind.bind, Except.bind, hgt, hest], hel, hgl, ?_⟩
  intro i hi
  obtain ⟨g, hg⟩ := exists_covers A.gtChords A.gtChordChanges i 0 (Nat.le_of_eq h.gtLen) hne h.gtStart
    (Nat.zero_le _) (by
      intro e he
      have := (List.getElem?_eq_some_iff.1 he).1
      rw [h.gtLen] at this
      omega)
  obtain ⟨e, he⟩ := Tiles.covers (n := A.inputs) ⟨h.estLen, h.estStart, h.estEnd, h.estSorted⟩ i hi
  obtain ⟨v, hv, hv'⟩ := hgc i g hi hg
  obtain ⟨c, rfl, hc'⟩ := hec i e hi he
  obtain ⟨_, _, hk, _⟩ := id hg
  obtain ⟨h1, h2⟩ := h.gtClass g (List.mem_of_getElem? hk)
  simp only [Chord.oneHotIndex, Bool.false_eq_true, if_false, Bind.bind, Except.bind, h1] at hv
  obtain ⟨v0, _, hd⟩ := C01_encode_decode _ _ _ _ _ _ _ _ _ hv
  have hd' : chordFromOneHotIndex v pt true false false noReduction = .ok (g.root, g.chordType, g.inversion) := by
    rw [hd]; cases pt <;> rfl
  obtain ⟨_, _, hk', _⟩ := id he
  obtain ⟨c', ⟨root, ct, inv⟩, hcc, hl⟩ := h.estClass _ (List.mem_of_getElem? hk')
  injection hcc with hcc
  subst hcc
  have c0 := hn c (List.mem_of_getElem? hk')
  obtain ⟨name, m1, m2⟩ := n3 v _ _ _ hd'
  obtain ⟨name', m1', m2'⟩ := n3 c _ _ _ hl
  have tv : ChordText pt v (specChordLabel name g.chordType (some g.inversion)) := ⟨_, _, _, name, hd', m1, rfl⟩
  have tc : ChordText pt c (specChordLabel name' ct (some inv)) := ⟨_, _, _, name', hl, m1', rfl⟩
  refine ⟨g, c, v, _, _, hg, he, hv', hc', m2, m2', v0, c0, tv, tc, ⟨name, m1, rfl⟩, ?_⟩
  constructor
  · intro ht
    have hvc := C59_chord_text pt v c v0 c0 _ tv (by rw [if_pos rfl, if_pos rfl] at ht; rw [ht]; exact tc)
    subst hvc
    have hl' : chordFromOneHotIndex v pt true false false noReduction = .ok (root, ct, inv) := hl
    rw [hd'] at hl'
    simp only [Except.ok.injEq, Prod.mk.injEq] at hl'
    exact ⟨g, some v, hg, he, v, root, ct, inv, rfl, hl, hl'.1, by rw [hl'.2.1], fun _ => hl'.2.2⟩
  · rintro ⟨g', e', hg', he', c', root', ct', inv', rfl, hl', r1, r2, r3⟩
    have := covers_unique h.gtSorted hg hg'
    subst this
    have := covers_unique h.estSorted he he'
    injection this with this
    subst this
    rw [hl] at hl'
    simp only [Except.ok.injEq, Prod.mk.injEq] at hl'
    obtain ⟨rfl, rfl, rfl⟩ := hl'
    have r2' : g.chordType = ct := r2
    have r3' := r3 rfl
    have hname : name = name' := by
      have m1x : specRootName pt false none g.root = .ok name := m1
      have m1y : specRootName pt false none root = .ok name' := m1'
      rw [← r1, m1x, Except.ok.injEq] at m1y
      exact m1y
    rw [hname, r2', r3']

theorem key_facts (A : EvalInput δ) (pt : PitchType) (h : KeysOK A pt) (hn : ∀ k ∈ A.estKeys, 0 ≤ k)
    (names : List Str) (hnames : keyLabelList pt false none = .ok names) :
    ∃ est gt, keyArrays A = .ok (est, gt) ∧ est.length = A.inputs ∧ gt.length = A.inputs ∧
      ∀ i, i < A.inputs → ∃ g c v tg te, Covers A.gtKeys A.gtKeyChanges i g ∧
        Covers A.estKeys A.estKeyChanges i c ∧ gt[i]? = some v ∧ est[i]? = some c ∧
        pyGet names v = .ok tg ∧ pyGet names c = .ok te ∧ 0 ≤ v ∧ 0 ≤ c ∧ KeyText pt v tg ∧ KeyText pt c te ∧
        KeyWritten pt g.relativeTonic g.relativeMode tg ∧ (tg = te ↔ KeyRight A pt false i) := by
  have hne : A.gtKeys ≠ [] := by
    intro h0
    have h1 := (List.getElem?_eq_some_iff.1 h.gtStart).1
    rw [← h.gtLen, h0] at h1
    simp at h1
  have henc : ∀ g ∈ A.gtKeys, ∃ v, g.oneHotIndex = .ok v ∧ 0 ≤ v ∧
      keyFromOneHotIndex v pt false = .ok (g.relativeTonic, g.relativeMode) := by
    intro g hg
    obtain ⟨h1, h2⟩ := h.gtClass g hg
    have h3 := C03_encode_decode g.relativeMode g.relativeTonic pt
    rw [specPitches_eq, if_pos h2] at h3
    obtain ⟨v, hv, h0, _, hd⟩ := h3
    exact ⟨v, by rw [Key.oneHotIndex, h1]; exact hv, h0, hd⟩
  obtain ⟨gt, hgt, hgl, hgc⟩ := gtLabels_spec Key.oneHotIndex A.inputs _ _ h.gtLen hne h.gtSorted
    (fun g hg => (henc g hg).imp fun _ h => h.1)
  obtain ⟨est, hest, hel, hec⟩ := estLabels_spec A.inputs (A.estKeys.map some) A.estKeyChanges
    (by rw [List.length_map]; exact h.estLen) h.estSorted (by
      intro x hx
      obtain ⟨c, _, rfl⟩ := List.mem_map.1 hx
      rfl)
  obtain ⟨names', n1, _, n3⟩ := C03_labels pt false none
  rw [hnames, Except.ok.injEq] at n1
  subst n1
  refine ⟨est, gt, by simp only [keyArrays, Bind.bind, Except.bind, hgt, hest], hel, hgl, ?_⟩
  intro i hi
  obtain ⟨g, hg⟩ := exists_covers A.gtKeys A.gtKeyChanges i 0 (Nat.le_of_eq h.gtLen) hne h.gtStart
    (Nat.zero_le _) (by
      intro e he
      have := (List.getElem?_eq_some_iff.1 he).1
      rw [h.gtLen] at this
      omega)
  obtain ⟨c, he⟩ := Tiles.covers (n := A.inputs) ⟨h.estLen, h.estStart, h.estEnd, h.estSorted⟩ i hi
  obtain ⟨v, hv, hv'⟩ := hgc i g hi hg
  obtain ⟨c', hcc, hc'⟩ := hec i (some c) hi ((covers_map some _ _ i (some c)).2 ⟨c, he, rfl⟩)
  injection hcc with hcc
  subst hcc
  obtain ⟨_, _, hk, _⟩ := id hg
  obtain ⟨v', hw, v0, hd'⟩ := henc g (List.mem_of_getElem? hk)
  rw [hv, Except.ok.injEq] at hw
  subst hw
  obtain ⟨_, _, hk', _⟩ := id he
  obtain ⟨⟨tonic, mode⟩, hl⟩ := h.estClass _ (List.mem_of_getElem? hk')
  have c0 := hn c (List.mem_of_getElem? hk')
  obtain ⟨name, m1, m2⟩ := n3 v _ _ hd'
  obtain ⟨name', m1', m2'⟩ := n3 c _ _ hl
  have tv : KeyText pt v (specKeyLabel name g.relativeMode) := ⟨_, _, name, hd', m1, rfl⟩
  have tc : KeyText pt c (specKeyLabel name' mode) := ⟨_, _, name', hl, m1', rfl⟩
  refine ⟨g, c, v, _, _, hg, he, hv', hc', m2, m2', v0, c0, tv, tc, ⟨name, m1, rfl⟩, ?_⟩
  constructor
  · intro ht
    have hvc := C59_key_text pt v c v0 c0 _ tv (by rw [ht]; exact tc)
    subst hvc
    have hl' : keyFromOneHotIndex v pt false = .ok (tonic, mode) := hl
    rw [hd'] at hl'
    simp only [Except.ok.injEq, Prod.mk.injEq] at hl'
    exact ⟨g, v, hg, he, tonic, mode, hl, hl'.1, fun _ => hl'.2⟩
  · rintro ⟨g', e', hg', he', tonic', mode', hl', r1, r3⟩
    have := covers_unique h.gtSorted hg hg'
    subst this
    have := covers_unique h.estSorted he he'
    subst this
    rw [hl] at hl'
    simp only [Except.ok.injEq, Prod.mk.injEq] at hl'
    obtain ⟨rfl, rfl⟩ := hl'
    have r3' := r3 rfl
    have hname : name = name' := by
      have m1x : specRootName pt false none g.relativeTonic = .ok name := m1
      have m1y : specRootName pt false none tonic = .ok name' := m1'
      rw [← r1, m1x, Except.ok.injEq] at m1y
      exact m1y
    rw [hname, r3']

theorem chordText_unique {pt : PitchType} {c : Int} {t t' : Str} (h : ChordText pt c t) (h' : ChordText pt c t') :
    t = t' := by
  obtain ⟨root, ct, inv, name, h1, h2, rfl⟩ := h
  obtain ⟨root', ct', inv', name', h1', h2', rfl⟩ := h'
  rw [h1] at h1'
  simp only [Except.ok.injEq, Prod.mk.injEq] at h1'
  obtain ⟨rfl, rfl, rfl⟩ := h1'
  rw [h2, Except.ok.injEq] at h2'
  rw [h2']

theorem keyText_unique {pt : PitchType} {c : Int} {t t' : Str} (h : KeyText pt c t) (h' : KeyText pt c t') :
    t = t' := by
  obtain ⟨tonic, mode, name, h1, h2, rfl⟩ := h
  obtain ⟨tonic', mode', name', h1', h2', rfl⟩ := h'
  rw [h1] at h1'
  simp only [Except.ok.injEq, Prod.mk.injEq] at h1'
  obtain ⟨rfl, rfl⟩ := h1'
  rw [h2, Except.ok.injEq] at h2'
  rw [h2']

/-! ## Runs -/

/-- The indices where the mask holds. -/
def startsOf (mask : List Bool) : List Nat := (List.range mask.length).filter fun i => mask[i]? == some true

theorem changeMask_length {σ : Type} [DecidableEq σ] (l : List σ) (h : l ≠ []) : (changeMask l).length = l.length := by
  cases l with
  | nil => exact absurd rfl h
  | cons a l => simp [changeMask]

theorem changeMask_succ {σ : Type} [DecidableEq σ] (l : List σ) (i : Nat) (a b : σ) (ha : l[i]? = some a)
    (hb : l[i + 1]? = some b) : (changeMask l)[i + 1]? = some (decide (a ≠ b)) := by
  rw [changeMask, List.getElem?_cons_succ, List.getElem?_map]
  have : (l.zip l.tail)[i]? = some (a, b) := by
    rw [List.getElem?_zip_eq_some]
    exact ⟨ha, by rw [List.getElem?_tail]; exact hb⟩
  rw [this]
  rfl

theorem boolSelect_ok {α : Type} (mask : List Bool) (l : List α) (h : mask.length = l.length) :
    ∃ r, boolSelect mask l = .ok r ∧ r.map some = (startsOf mask).map (fun i => l[i]?) := by
  rw [boolSelect, if_pos h]
  refine ⟨_, rfl, ?_⟩
  have h1 : (mask.zip l).map (fun p => if p.1 then some (some p.2) else none) =
      (List.range mask.length).map (fun i => if mask[i]? == some true then some (l[i]?) else none) := by
    apply List.ext_getElem
    · simp [h]
    · intro i h1 h2
      simp only [List.length_map, List.length_zip, List.length_range] at h1 h2
      have hi : i < mask.length := by omega
      have hj : i < l.length := by omega
      simp [List.getElem_zip, hi, hj]
  have h2 : ∀ {β γ : Type} (f : β → Option γ) (l : List β), l.filterMap f = (l.map f).filterMap id := by
    intro β γ f l; simp [List.filterMap_map]
  rw [List.map_filterMap, h2]
  have h3 : (fun x : Bool × α => Option.map some (if x.1 = true then some x.2 else none)) =
      (fun p : Bool × α => if p.1 then some (some p.2) else none) := by
    funext x; cases x.1 <;> rfl
  rw [h3, h1, List.filterMap_map]
  rw [startsOf, ← List.filterMap_eq_filter, List.map_filterMap]
  apply List.filterMap_congr
  intro i _
  simp only [Function.comp, id, Option.guard]
  split <;> simp_all

theorem boolSelect_range (mask : List Bool) : boolSelect mask (List.range mask.length) = .ok (startsOf mask) := by
  obtain ⟨r, h1, h2⟩ := boolSelect_ok mask (List.range mask.length) (by simp)
  rw [h1]
  congr 1
  have : (startsOf mask).map (fun i => (List.range mask.length)[i]?) = (startsOf mask).map some := by
    apply List.map_congr_left
    intro i hi
    have hlt : i < mask.length := by
      simp only [startsOf, List.mem_filter, List.mem_range] at hi
      exact hi.1
    simp [hlt]
  rw [this] at h2
  exact List.map_injective_iff.2 (Option.some_injective _) h2

/-- The boundaries of the runs. -/
def cutsOf (mask : List Bool) : List Nat := startsOf mask ++ [mask.length]

theorem startsOf_sorted (mask : List Bool) : (startsOf mask).Pairwise (· < ·) :=
  List.pairwise_lt_range.sublist List.filter_sublist

theorem startsOf_mem (mask : List Bool) (i : Nat) : i ∈ startsOf mask ↔ mask[i]? = some true := by
  simp only [startsOf, List.mem_filter, List.mem_range, beq_iff_eq]
  constructor
  · exact fun h => h.2
  · exact fun h => ⟨(List.getElem?_eq_some_iff.1 h).1, h⟩

theorem cutsOf_sorted (mask : List Bool) : (cutsOf mask).Pairwise (· < ·) := by
  rw [cutsOf, List.pairwise_append]
  refine ⟨startsOf_sorted mask, by simp, ?_⟩
  intro a ha b hb
  rw [List.mem_singleton] at hb
  rw [hb]
  rw [startsOf_mem] at ha
  exact (List.getElem?_eq_some_iff.1 ha).1

theorem startsOf_head {σ : Type} [DecidableEq σ] (l : List σ) : (startsOf (changeMask l)).head? = some 0 := by
  simp [startsOf, changeMask, List.range_succ_eq_map]

/-- No boundary is between two neighbouring ones. -/
theorem cutsOf_gap (mask : List Bool) (j s e : Nat) (hs : (cutsOf mask)[j]? = some s)
    (he : (cutsOf mask)[j + 1]? = some e) (t : Nat) (h1 : s < t) (h2 : t < e) : mask[t]? = some false := by
  have hsort := cutsOf_sorted mask
  rw [List.pairwise_iff_getElem] at hsort
  obtain ⟨hj, hs⟩ := List.getElem?_eq_some_iff.1 hs
  obtain ⟨hj', he⟩ := List.getElem?_eq_some_iff.1 he
  have hle : ∀ (m : Nat) (hm : m < (cutsOf mask).length), (cutsOf mask)[m] ≤ mask.length := by
    intro m hm
    have hall : ∀ x ∈ cutsOf mask, mask[x]? = some true ∨ x = mask.length := by
      intro x hx
      rwa [cutsOf, List.mem_append, List.mem_singleton, startsOf_mem] at hx
    rcases hall _ (List.getElem_mem hm) with h | h
    · exact Nat.le_of_lt (List.getElem?_eq_some_iff.1 h).1
    · exact Nat.le_of_eq h
  have hlt : t < mask.length := by
    have := hle _ hj'
    omega
  rw [List.getElem?_eq_getElem hlt, Option.some.injEq]
  by_contra hne
  have ht : t ∈ cutsOf mask := by
    rw [cutsOf, List.mem_append, startsOf_mem, List.getElem?_eq_getElem hlt]
    left
    simpa using hne
  obtain ⟨m, hm, hmt⟩ := List.mem_iff_getElem.1 ht
  rcases Nat.lt_trichotomy m j with h | h | h
  · have := hsort m j hm hj h; omega
  · subst h; omega
  · rcases Nat.lt_trichotomy m (j + 1) with h' | h' | h'
    · omega
    · subst h'; omega
    · have := hsort (j + 1) m hj' hm h'; omega

/-- The list is constant between neighbouring boundaries. -/
theorem const_run {σ : Type} [DecidableEq σ] (l : List σ) (j s e : Nat)
    (hs : (cutsOf (changeMask l))[j]? = some s) (he : (cutsOf (changeMask l))[j + 1]? = some e) (i : Nat) (h1 : s ≤ i)
    (h2 : i < e) (hen : e ≤ l.length) : l[i]? = l[s]? := by
  induction i with
  | zero => have : s = 0 := by omega
            rw [this]
  | succ i ih =>
    rcases Nat.lt_or_ge i s with h | h
    · have : s = i + 1 := by omega
      rw [this]
    · rw [← ih h (by omega)]
      have g := cutsOf_gap _ j s e hs he (i + 1) (by omega) h2
      have ha := List.getElem?_eq_getElem (l := l) (i := i) (by omega)
      have hb := List.getElem?_eq_getElem (l := l) (i := i + 1) (by omega)
      rw [changeMask_succ l i _ _ ha hb] at g
      rw [ha, hb]
      simpa using Eq.symm (by simpa using g.symm)

/-! ## Sums over runs -/

theorem slice_sum (l : List ℚ) (s e : Nat) (he : e ≤ l.length) :
    ((l.take e).drop s).sum = ∑ i ∈ Finset.Ico s e, l.getD i 0 := by
  induction e with
  | zero => simp
  | succ e ih =>
    rcases Nat.lt_or_ge e s with h | h
    · rw [List.drop_eq_nil_of_le (by rw [List.length_take]; omega), Finset.Ico_eq_empty (by omega)]
      rfl
    · rw [Finset.sum_Ico_succ_top h, ← ih (by omega)]
      rw [List.take_succ_eq_append_getElem (by omega), List.drop_append_of_le_length (by
        rw [List.length_take]; omega), List.sum_append]
      simp [List.getD, List.getElem?_eq_getElem (show e < l.length by omega)]

theorem sum_runs (f : Nat → ℚ) (a : Nat) (l : List Nat) (n : Nat) (h : (a :: l).Pairwise (· < ·))
    (hn : (a :: l).getLast? = some n) :
    (((a :: l).zip l).map fun p => ∑ i ∈ Finset.Ico p.1 p.2, f i).sum = ∑ i ∈ Finset.Ico a n, f i := by
  induction l generalizing a with
  | nil =>
    simp only [List.getLast?_singleton, Option.some.injEq] at hn
    simp [hn]
  | cons b l ih =>
    have h' := h
    rw [List.pairwise_cons] at h'
    have hab : a < b := h'.1 b (by simp)
    rw [List.getLast?_cons_cons] at hn
    have hbn : b ≤ n := by
      have hm := List.mem_of_getLast? hn
      have := h'.2
      rw [List.pairwise_cons] at this
      rcases List.mem_cons.1 hm with h | h
      · omega
      · exact Nat.le_of_lt (this.1 n h)
    rw [List.zip_cons_cons, List.map_cons, List.sum_cons, ih b h'.2 hn]
    exact Finset.sum_Ico_consecutive f (Nat.le_of_lt hab) hbn

/-! ## The log -/

theorem map_some_get {α : Type} {r : List α} {l : List Nat} {m : List α} (h : r.map some = l.map (fun i => m[i]?))
    {j s : Nat} (hs : l[j]? = some s) : r[j]? = m[s]? := by
  have h1 : (r.map some)[j]? = (l.map (fun i => m[i]?))[j]? := by rw [h]
  rw [List.getElem?_map, List.getElem?_map, hs, Option.map_some] at h1
  cases hr : r[j]? with
  | none => rw [hr] at h1; cases h1
  | some x => rw [hr] at h1; simpa using h1

/-- C116: `log_state` cuts the inputs into ranges; every block says what is estimated and what is right in its range,
and neighbouring blocks differ. Missing: a piece without annotations (see `C116_unannotated`). -/
theorem C116_blocks_partial (A : EvalInput δ) (notes : List (τ × τ)) (rt tt : PitchType)
    (hi : 0 < A.inputs) (hnotes : notes.length = A.inputs) (hcache : A.cache.length = A.inputs)
    (hc : ChordsOK A rt) (hk : KeysOK A tt) (hc0 : ∀ c, some c ∈ A.estChords → 0 ≤ c)
    (hk0 : ∀ k ∈ A.estKeys, 0 ≤ k) :
    ∃ (bs : List (LogBlock τ)) (cuts : List Nat), logPiece true A notes rt tt = .ok bs ∧ cuts.head? = some 0 ∧ cuts.getLast? = some A.inputs ∧
      cuts.Pairwise (· < ·) ∧ cuts.length = bs.length + 1 ∧
      (∀ (j : Nat) b s e, bs[j]? = some b → cuts[j]? = some s → cuts[j + 1]? = some e →
        BlockOK A notes rt tt s e b) ∧
      bs.IsChain (fun a b => ¬ (a.estKey = b.estKey ∧ a.estChord = b.estChord ∧ LogBlock.gt a = LogBlock.gt b)) := by
  obtain ⟨cn, n1, _, _⟩ := C02_labels rt true false none false noReduction
  obtain ⟨kn, m1, _, _⟩ := C03_labels tt false none
  obtain ⟨estC, gtC, c1, c2, c3, c4⟩ := chord_facts A rt hc hc0 cn n1
  obtain ⟨estK, gtK, k1, k2, k3, k4⟩ := key_facts A tt hk hk0 kn m1
  let S := gtK.zip (gtC.zip (estK.zip estC))
  have hSl : S.length = A.inputs := by simp [S, c2, c3, k2, k3]
  have hSne : S ≠ [] := by intro h; rw [h] at hSl; simp at hSl; omega
  let mask := changeMask S
  have hml : mask.length = A.inputs := by rw [show mask.length = S.length from changeMask_length S hSne, hSl]
  obtain ⟨starts, s1, s2⟩ := boolSelect_ok mask (notes.map (·.1)) (by rw [hml, List.length_map, hnotes])
  obtain ⟨gtC', g1, g2⟩ := boolSelect_ok mask gtC (by rw [hml, c3])
  obtain ⟨estC', e1, e2⟩ := boolSelect_ok mask estC (by rw [hml, c2])
  obtain ⟨gtK', f1, f2⟩ := boolSelect_ok mask gtK (by rw [hml, k3])
  obtain ⟨estK', d1, d2⟩ := boolSelect_ok mask estK (by rw [hml, k2])
  have hnn : notes ≠ [] := by intro h; rw [h] at hnotes; simp at hnotes; omega
  let I := startsOf mask
  have hIlen : ∀ {α : Type} {r : List α} {m : List α}, r.map some = I.map (fun i => m[i]?) → r.length = I.length := by
    intro α r m h
    have := congrArg List.length h
    simpa using this
  let rows := (gtC'.zip (estC'.zip (gtK'.zip estK'))).zip (starts.zip ((starts.tail ++ [(notes.getLast hnn).2]).zip
    (rangeDurations A.cache mask.length I)))
  have hIne : I ≠ [] := by
    intro h
    have := startsOf_head S
    rw [show startsOf (changeMask S) = I from rfl, h] at this
    cases this
  have hIpos : 0 < I.length := List.length_pos_iff.2 hIne
  have hrows : rows.length = I.length := by
    simp only [rows, List.length_zip, rangeDurations, List.length_map, List.length_append, List.length_tail,
      List.length_singleton, hIlen s2, hIlen g2, hIlen e2, hIlen f2, hIlen d2]
    omega
  have hcl : (cutsOf mask).length = I.length + 1 := by simp [cutsOf, I]
  -- the row of each run
  have hrow : ∀ (j s e : Nat), (cutsOf mask)[j]? = some s → (cutsOf mask)[j + 1]? = some e →
      I[j]? = some s ∧ s < A.inputs ∧ s < e ∧ e ≤ A.inputs ∧ ∃ vC c vK k on off,
        gtC[s]? = some vC ∧ estC[s]? = some c ∧ gtK[s]? = some vK ∧ estK[s]? = some k ∧
        (notes[s]?).map (·.1) = some on ∧ (e < A.inputs → (notes[e]?).map (·.1) = some off) ∧
        (e = A.inputs → (notes.getLast?).map (·.2) = some off) ∧
        rows[j]? = some ((vC, c, vK, k), on, off, ((A.cache.take e).drop s).sum) := by
    intro j s e hs he
    have hj1 : j + 1 < (cutsOf mask).length := (List.getElem?_eq_some_iff.1 he).1
    have hj : j < I.length := by omega
    have hIs : I[j]? = some s := by
      rw [cutsOf, List.getElem?_append_left hj] at hs
      exact hs
    have hsn : s < A.inputs := by
      have := (startsOf_mem mask s).1 (List.mem_of_getElem? hIs)
      rw [← hml]
      exact (List.getElem?_eq_some_iff.1 this).1
    have hse : s < e := by
      have := cutsOf_sorted mask
      rw [List.pairwise_iff_getElem] at this
      obtain ⟨q1, q2⟩ := List.getElem?_eq_some_iff.1 hs
      obtain ⟨q3, q4⟩ := List.getElem?_eq_some_iff.1 he
      have := this j (j + 1) q1 q3 (by omega)
      omega
    have hlast : e = A.inputs ∧ j + 1 = I.length ∨ e < A.inputs ∧ I[j + 1]? = some e := by
      rcases Nat.lt_or_ge (j + 1) I.length with h | h
      · right
        rw [cutsOf, List.getElem?_append_left h] at he
        refine ⟨?_, he⟩
        have := (startsOf_mem mask e).1 (List.mem_of_getElem? he)
        rw [← hml]
        exact (List.getElem?_eq_some_iff.1 this).1
      · left
        have hjl : j + 1 = I.length := by omega
        refine ⟨?_, hjl⟩
        rw [cutsOf, List.getElem?_append_right (by exact h)] at he
        have : j + 1 - (startsOf mask).length = 0 := by
          change j + 1 - I.length = 0; omega
        rw [this] at he
        simp only [List.getElem?_cons_zero, Option.some.injEq] at he
        omega
    have hen : e ≤ A.inputs := by rcases hlast with h | h <;> omega
    refine ⟨hIs, hsn, hse, hen, ?_⟩
    have q1 := List.getElem?_eq_getElem (l := gtC) (i := s) (by omega)
    have q2 := List.getElem?_eq_getElem (l := estC) (i := s) (by omega)
    have q3 := List.getElem?_eq_getElem (l := gtK) (i := s) (by omega)
    have q4 := List.getElem?_eq_getElem (l := estK) (i := s) (by omega)
    have q5 := List.getElem?_eq_getElem (l := notes.map (·.1)) (i := s) (by rw [List.length_map]; omega)
    have hdur : (rangeDurations A.cache mask.length I)[j]? = some ((A.cache.take e).drop s).sum := by
      rw [rangeDurations, List.getElem?_map]
      have : (I.zip (I.tail ++ [mask.length]))[j]? = some (s, e) := by
        rw [List.getElem?_zip_eq_some]
        refine ⟨hIs, ?_⟩
        rcases hlast with ⟨h1, h2⟩ | ⟨h1, h2⟩
        · rw [List.getElem?_append_right (by rw [List.length_tail]; omega), List.length_tail,
            show j - (I.length - 1) = 0 by omega, List.getElem?_cons_zero, hml, h1]
        · have := (List.getElem?_eq_some_iff.1 h2).1
          rw [List.getElem?_append_left (by rw [List.length_tail]; omega), List.getElem?_tail]
          exact h2
      rw [this]
      rfl
    have hoff : ∃ off, (starts.tail ++ [(notes.getLast hnn).2])[j]? = some off ∧
        (e < A.inputs → (notes[e]?).map (·.1) = some off) ∧
        (e = A.inputs → (notes.getLast?).map (·.2) = some off) := by
      have hsl := hIlen s2
      rcases hlast with ⟨h1, h2⟩ | ⟨h1, h2⟩
      · refine ⟨(notes.getLast hnn).2, ?_, fun h => by omega, fun _ => ?_⟩
        · rw [List.getElem?_append_right (by rw [List.length_tail]; omega), List.length_tail,
            show j - (starts.length - 1) = 0 by omega, List.getElem?_cons_zero]
        · rw [List.getLast?_eq_getLast_of_ne_nil hnn]; rfl
      · have h3 := (List.getElem?_eq_some_iff.1 h2).1
        have h4 := map_some_get s2 h2
        have q6 := List.getElem?_eq_getElem (l := notes.map (·.1)) (i := e) (by rw [List.length_map]; omega)
        refine ⟨(notes.map (·.1))[e]'(by rw [List.length_map]; omega), ?_, fun _ => ?_, fun h => by omega⟩
        · rw [List.getElem?_append_left (by rw [List.length_tail]; omega), List.getElem?_tail, h4, q6]
        · rw [← List.getElem?_map]; exact q6
    obtain ⟨off, o1, o2, o3⟩ := hoff
    refine ⟨_, _, _, _, _, off, q1, q2, q3, q4, by rw [← List.getElem?_map]; exact q5, o2, o3, ?_⟩
    simp only [rows]
    rw [List.getElem?_zip_eq_some, List.getElem?_zip_eq_some, List.getElem?_zip_eq_some, List.getElem?_zip_eq_some,
      List.getElem?_zip_eq_some, List.getElem?_zip_eq_some]
    refine ⟨⟨?_, ?_, ?_, ?_⟩, ?_, o1, hdur⟩
    · rw [map_some_get g2 hIs]; exact q1
    · rw [map_some_get e2 hIs]; exact q2
    · rw [map_some_get f2 hIs]; exact q3
    · rw [map_some_get d2 hIs]; exact q4
    · rw [map_some_get s2 hIs]; exact q5
  -- each row gives a block
  have hcut : ∀ j, j < I.length → ∃ s e, (cutsOf mask)[j]? = some s ∧ (cutsOf mask)[j + 1]? = some e := fun j hj =>
    ⟨_, _, List.getElem?_eq_getElem (by omega), List.getElem?_eq_getElem (by omega)⟩
  have hblock : ∀ x ∈ rows, ∃ b, logBlock cn kn x = .ok b := by
    intro x hx
    obtain ⟨j, hj⟩ := List.getElem?_of_mem hx
    have hjl := (List.getElem?_eq_some_iff.1 hj).1
    obtain ⟨s, e, hs, he⟩ := hcut j (by omega)
    obtain ⟨_, hsn, _, _, vC, c, vK, k, on, off, q1, q2, q3, q4, _, _, _, q5⟩ := hrow j s e hs he
    obtain ⟨_, _, _, tg, te, _, _, w1, w2, w3, w4, _⟩ := c4 s hsn
    obtain ⟨_, _, _, ug, ue, _, _, y1, y2, y3, y4, _⟩ := k4 s hsn
    rw [q1] at w1; rw [q2] at w2; rw [q3] at y1; rw [q4] at y2
    injection w1 with w1; injection w2 with w2; injection y1 with y1; injection y2 with y2
    subst w1 w2 y1 y2
    rw [hj, Option.some.injEq] at q5
    subst q5
    exact ⟨_, by simp only [logBlock, Bind.bind, Except.bind, w3, w4, y3, y4]; rfl⟩
  obtain ⟨bs, b1, b2, b3⟩ := Vectors.mapM_all (logBlock cn kn) rows hblock
  have hbs : ∀ (j s e : Nat) b, bs[j]? = some b → (cutsOf mask)[j]? = some s → (cutsOf mask)[j + 1]? = some e →
      s < e ∧ e ≤ A.inputs ∧ ∃ g c v tg te kg k w ug ue, Covers A.gtChords A.gtChordChanges s g ∧
        Covers A.estChords A.estChordChanges s (some c) ∧ gtC[s]? = some v ∧ estC[s]? = some c ∧
        0 ≤ v ∧ 0 ≤ c ∧ ChordText rt v tg ∧ ChordText rt c te ∧
        ChordWritten rt g.root g.chordType g.inversion tg ∧
        Covers A.gtKeys A.gtKeyChanges s kg ∧ Covers A.estKeys A.estKeyChanges s k ∧
        gtK[s]? = some w ∧ estK[s]? = some k ∧ 0 ≤ w ∧ 0 ≤ k ∧ KeyText tt w ug ∧ KeyText tt k ue ∧
        KeyWritten tt kg.relativeTonic kg.relativeMode ug ∧
        (notes[s]?).map (·.1) = some b.start ∧ (e < A.inputs → (notes[e]?).map (·.1) = some b.stop) ∧
        (e = A.inputs → (notes.getLast?).map (·.2) = some b.stop) ∧
        b.duration = ((A.cache.take e).drop s).sum ∧ b.estKey = ue ∧ b.estChord = te ∧
        b.correct = if ug ≠ ue ∨ tg ≠ te then some (ug, tg) else none := by
    intro j s e b hb hs he
    obtain ⟨_, hsn, hse, hen, vC, c, vK, k, on, off, q1, q2, q3, q4, q6, q7, q8, q5⟩ := hrow j s e hs he
    obtain ⟨g, c', v', tg, te, z1, z2, w1, w2, w3, w4, z3, z4, z5, z6, z7, _⟩ := c4 s hsn
    obtain ⟨kg, k', w', ug, ue, x1, x2, y1, y2, y3, y4, x3, x4, x5, x6, x7, _⟩ := k4 s hsn
    rw [q1] at w1; rw [q2] at w2; rw [q3] at y1; rw [q4] at y2
    injection w1 with w1; injection w2 with w2; injection y1 with y1; injection y2 with y2
    subst w1 w2 y1 y2
    have hb' := b3 j _ _ q5 (by simp only [logBlock, Bind.bind, Except.bind, w3, w4, y3, y4]; rfl)
    rw [hb, Option.some.injEq] at hb'
    subst hb'
    exact ⟨hse, hen, g, c, vC, tg, te, kg, k, vK, ug, ue, z1, z2, q1, q2, z3, z4, z5, z6, z7, x1, x2, q3, q4, x3, x4,
      x5, x6, x7, q6, q7, q8, rfl, rfl, rfl, rfl⟩
  have hS : ∀ (i : Nat) v c w k, gtC[i]? = some v → estC[i]? = some c → gtK[i]? = some w → estK[i]? = some k →
      S[i]? = some (w, v, k, c) := by
    intro i v c w k h1 h2 h3 h4
    simp only [S]
    rw [List.getElem?_zip_eq_some, List.getElem?_zip_eq_some, List.getElem?_zip_eq_some]
    exact ⟨h3, h1, h4, h2⟩
  refine ⟨bs, cutsOf mask, ?_, ?_, ?_, cutsOf_sorted mask, by rw [hcl, b2, hrows], ?_, ?_⟩
  · have hr : boolSelect mask (List.range mask.length) = .ok I := boolSelect_range mask
    simp only [mask, S] at s1 g1 e1 f1 d1 hr
    rw [logPiece, if_pos rfl]
    simp only [logState, Bind.bind, Except.bind, c1, k1, n1, m1, s1, pyGet_last notes hnn, hr, g1, e1, f1, d1]
    exact b1
  · rw [cutsOf, List.head?_append, show (startsOf mask).head? = some 0 from startsOf_head S]
    rfl
  · rw [cutsOf, List.getLast?_concat, hml]
  · intro j b s e hb hs he
    obtain ⟨hse, hen, g, c, v, tg, te, kg, k, w, ug, ue, z1, z2, q1, q2, z3, z4, z5, z6, z7, x1, x2, q3, q4, x3, x4,
      x5, x6, x7, q6, q7, q8, r1, r2, r3, r4⟩ := hbs j s e b hb hs he
    -- the labels of the other inputs of the range are the same
    have hrun : ∀ i, s ≤ i → i < e → gtC[i]? = some v ∧ estC[i]? = some c ∧ gtK[i]? = some w ∧ estK[i]? = some k := by
      intro i h1 h2
      have := const_run S j s e hs he i h1 h2 (by omega)
      rw [hS s v c w k q1 q2 q3 q4] at this
      simp only [S] at this
      rw [List.getElem?_zip_eq_some, List.getElem?_zip_eq_some, List.getElem?_zip_eq_some] at this
      exact ⟨this.2.1, this.2.2.2, this.1, this.2.2.1⟩
    have htext : ∀ i, s ≤ i → i < e → ∃ g' kg', Covers A.gtChords A.gtChordChanges i g' ∧
        ChordWritten rt g'.root g'.chordType g'.inversion tg ∧ Covers A.gtKeys A.gtKeyChanges i kg' ∧
        KeyWritten tt kg'.relativeTonic kg'.relativeMode ug ∧ Covers A.estChords A.estChordChanges i (some c) ∧
        Covers A.estKeys A.estKeyChanges i k ∧ (tg = te ↔ ChordRight A rt true noReduction i) ∧
        (ug = ue ↔ KeyRight A tt false i) := by
      intro i h1 h2
      obtain ⟨p1, p2, p3, p4⟩ := hrun i h1 h2
      obtain ⟨g', c', v', tg', te', a1, a2, a3, a4, a5, a6, a7, a8, a9, a10, a11, a12⟩ := c4 i (by omega)
      obtain ⟨kg', k', w', ug', ue', l1, l2, l3, l4, l5, l6, l7, l8, l9, l10, l11, l12⟩ := k4 i (by omega)
      rw [p1] at a3; rw [p2] at a4; rw [p3] at l3; rw [p4] at l4
      injection a3 with a3; injection a4 with a4; injection l3 with l3; injection l4 with l4
      subst a3 a4 l3 l4
      have u1 : tg' = tg := chordText_unique a9 z5
      have u2 : te' = te := chordText_unique a10 z6
      have u3 : ug' = ug := keyText_unique l9 x5
      have u4 : ue' = ue := keyText_unique l10 x6
      subst u1 u2 u3 u4
      exact ⟨g', kg', a1, a11, l1, l11, a2, l2, a12, l12⟩
    refine ⟨q6, q7, q8, r1, ?_, ?_, ?_⟩
    · intro i h1 h2
      obtain ⟨_, _, _, _, _, _, t1, t2, _, _⟩ := htext i h1 h2
      exact ⟨c, k, t1, by rw [r3]; exact z6, t2, by rw [r2]; exact x6⟩
    · intro i h1 h2
      obtain ⟨_, _, _, _, _, _, _, _, t1, t2⟩ := htext i h1 h2
      rw [r4, ← t1, ← t2]
      by_cases p1 : tg = te <;> by_cases p2 : ug = ue <;> simp [p1, p2]
    · intro kt ct hcor i h1 h2
      obtain ⟨g', kg', t1, t2, t3, t4, _⟩ := htext i h1 h2
      rw [r4] at hcor
      split at hcor
      · simp only [Option.some.injEq, Prod.mk.injEq] at hcor
        obtain ⟨rfl, rfl⟩ := hcor
        exact ⟨g', kg', t1, t2, t3, t4⟩
      · cases hcor
  · rw [List.isChain_iff_getElem]
    intro j hj hsame
    obtain ⟨s, e, hs, he⟩ := hcut j (by omega)
    obtain ⟨e', f, he', hf⟩ := hcut (j + 1) (by omega)
    rw [he, Option.some.injEq] at he'
    subst he'
    obtain ⟨hse, hen, g, c, v, tg, te, kg, k, w, ug, ue, z1, z2, q1, q2, z3, z4, z5, z6, z7, x1, x2, q3, q4, x3, x4,
      x5, x6, x7, q6, q7, q8, r1, r2, r3, r4⟩ := hbs j s e _ (List.getElem?_eq_getElem (by omega)) hs he
    obtain ⟨hse', hen', g', c', v', tg', te', kg', k', w', ug', ue', z1', z2', q1', q2', z3', z4', z5', z6', z7', x1',
      x2', q3', q4', x3', x4', x5', x6', x7', q6', q7', q8', r1', r2', r3', r4'⟩ :=
      hbs (j + 1) e f _ (List.getElem?_eq_getElem hj) he hf
    obtain ⟨h1, h2, h3⟩ := hsame
    rw [r2, r2'] at h1
    rw [r3, r3'] at h2
    have hgt : ∀ (b : LogBlock τ) ug ue tg te, b.estKey = ue → b.estChord = te →
        b.correct = (if ug ≠ ue ∨ tg ≠ te then some (ug, tg) else none) → LogBlock.gt b = (ug, tg) := by
      intro b ug ue tg te i1 i2 i3
      rw [LogBlock.gt, i3, i1, i2]
      by_cases p1 : tg = te <;> by_cases p2 : ug = ue <;> simp [p1, p2]
    rw [hgt _ _ _ _ _ r2 r3 r4, hgt _ _ _ _ _ r2' r3' r4', Prod.mk.injEq] at h3
    obtain ⟨h3, h4⟩ := h3
    subst h1 h2 h3 h4
    have i1 := C59_chord_text rt v v' z3 z3' _ z5 z5'
    have i2 := C59_chord_text rt c c' z4 z4' _ z6 z6'
    have i3 := C59_key_text tt w w' x3 x3' _ x5 x5'
    have i4 := C59_key_text tt k k' x4 x4' _ x6 x6'
    subst i1 i2 i3 i4
    have hSs := hS s v c w k q1 q2 q3 q4
    have hSe := hS e v c w k q1' q2' q3' q4'
    have hprev := const_run S j s e hs he (e - 1) (by omega) (by omega) (by omega)
    rw [hSs] at hprev
    have hm : mask[e]? = some true := by
      rw [← startsOf_mem]
      exact List.mem_of_getElem? (hrow (j + 1) e f he hf).1
    have := changeMask_succ S (e - 1) _ _ hprev (by rw [show e - 1 + 1 = e by omega]; exact hSe)
    rw [show e - 1 + 1 = e by omega, show (changeMask S)[e]? = some true from hm] at this
    simp at this

theorem list_sum_range (l : List ℚ) : l.sum = ∑ i ∈ Finset.Ico 0 l.length, l.getD i 0 := by
  have := slice_sum l 0 l.length (Nat.le_refl _)
  rwa [List.take_length, List.drop_zero] at this

/-- C116: the durations of the blocks add up to the duration of the piece, and those of the blocks that log no correct
structure to the share that `evaluate_chords_and_keys_jointly` returns. -/
theorem C116_accuracy_partial (A : EvalInput δ) (notes : List (τ × τ)) (rt tt : PitchType)
    (hnotes : notes.length = A.inputs) (hd : DurationsOK A) (hc : ChordsOK A rt) (hk : KeysOK A tt)
    (hc0 : ∀ c, some c ∈ A.estChords → 0 ≤ c) (hk0 : ∀ k ∈ A.estKeys, 0 ≤ k) :
    ∃ bs r, logPiece true A notes rt tt = .ok bs ∧ evaluateJointly A rt tt true noReduction false = .ok r ∧
      (bs.map (·.duration)).sum = A.cache.sum ∧
      ((bs.filter fun b => b.correct.isNone).map (·.duration)).sum = r * A.cache.sum := by
  have hi : 0 < A.inputs := by
    rw [← hd.1]
    have := hd.2.2
    cases hcache : A.cache with
    | nil => rw [hcache] at this; simp at this
    | cons a l => simp
  obtain ⟨bs, cuts, h1, h2, h3, h4, h5, h6, _⟩ := C116_blocks_partial A notes rt tt hi hnotes hd.1 hc hk hc0 hk0
  obtain ⟨r, r1, ⟨m, m1, m2, m3⟩, _⟩ := C37_jointly_partial A rt tt true noReduction false hd hc hk
  -- sums over the blocks are sums over the inputs
  have key : ∀ (f : Nat → ℚ) (F : LogBlock τ → ℚ), (∀ (j : Nat) b s e, bs[j]? = some b → cuts[j]? = some s →
      cuts[j + 1]? = some e → F b = ∑ i ∈ Finset.Ico s e, f i) →
      (bs.map F).sum = ∑ i ∈ Finset.Ico 0 A.inputs, f i := by
    intro f F hF
    cases hcuts : cuts with
    | nil => rw [hcuts] at h2; cases h2
    | cons a l =>
      rw [hcuts] at h2 h3 h4 h5
      simp only [List.head?_cons, Option.some.injEq] at h2
      subst h2
      rw [← sum_runs f 0 l A.inputs h4 h3]
      congr 1
      apply List.ext_getElem
      · simp at h5 ⊢; omega
      · intro j p1 p2
        simp only [List.length_map] at p1
        simp only [List.length_cons] at h5
        simp only [List.getElem_map, List.getElem_zip]
        apply hF j
        · exact List.getElem?_eq_getElem p1
        · rw [hcuts]
          exact List.getElem?_eq_getElem (by simp; omega)
        · rw [hcuts, List.getElem?_cons_succ]
          exact List.getElem?_eq_getElem (by omega)
  have hle : ∀ (j : Nat) e, cuts[j]? = some e → e ≤ A.inputs := by
    intro j e he
    obtain ⟨q1, q2⟩ := List.getElem?_eq_some_iff.1 he
    rw [List.getLast?_eq_getElem?] at h3
    obtain ⟨q3, q4⟩ := List.getElem?_eq_some_iff.1 h3
    rcases Nat.lt_or_ge j (cuts.length - 1) with h | h
    · have := (List.pairwise_iff_getElem.1 h4) j (cuts.length - 1) q1 q3 h
      omega
    · have : j = cuts.length - 1 := by omega
      subst this
      omega
  refine ⟨bs, r, h1, r1, ?_, ?_⟩
  · rw [list_sum_range A.cache, hd.1]
    apply key
    intro j b s e hb hs he
    rw [(h6 j b s e hb hs he).duration, slice_sum _ _ _ (by rw [hd.1]; exact hle _ _ he)]
  · rw [m3, list_sum_range ((A.cache.zip m).map (fun p => if p.2 then p.1 else 0))]
    have hlen : ((A.cache.zip m).map (fun p => if p.2 then p.1 else 0)).length = A.inputs := by
      simp [m1, hd.1]
    rw [hlen]
    have hfilter : ∀ l : List (LogBlock τ), ((l.filter fun b => b.correct.isNone).map (·.duration)).sum =
        (l.map fun b => if b.correct.isNone then b.duration else 0).sum := by
      intro l
      induction l with
      | nil => rfl
      | cons b l ih =>
        rw [List.filter_cons, List.map_cons, List.sum_cons, ← ih]
        split <;> simp
    rw [hfilter]
    apply key
    intro j b s e hb hs he
    have hB := h6 j b s e hb hs he
    have hval : ∀ i, s ≤ i → i < e → ((A.cache.zip m).map (fun p => if p.2 then p.1 else 0)).getD i 0 =
        if b.correct.isNone then A.cache.getD i 0 else 0 := by
      intro i p1 p2
      have hil : i < A.cache.length := by have := hle _ _ he; have := hd.1; omega
      have hmi : m[i]? = some true ↔ b.correct = none := by
        rw [m2 i, hB.right i p1 p2]
        exact ⟨fun h => h.2, fun h => ⟨hil, h⟩⟩
      have hm := List.getElem?_eq_getElem (l := m) (i := i) (by omega)
      have hz : (A.cache.zip m)[i]? = some (A.cache[i], m[i]'(by omega)) := by
        rw [List.getElem?_zip_eq_some]
        exact ⟨List.getElem?_eq_getElem hil, hm⟩
      rw [List.getD, List.getElem?_map, hz, List.getD, List.getElem?_eq_getElem hil]
      simp only [Option.map_some, Option.getD_some]
      rw [hm, Option.some.injEq] at hmi
      by_cases h : b.correct = none
      · rw [if_pos (hmi.2 h), h]; rfl
      · rw [if_neg (fun h' => h (hmi.1 h')), if_neg (by simpa using h)]
    rw [Finset.sum_congr rfl (fun i hi => hval i (Finset.mem_Ico.1 hi).1 (Finset.mem_Ico.1 hi).2)]
    by_cases h : b.correct.isNone
    · simp only [h, if_true]
      rw [hB.duration, slice_sum _ _ _ (by rw [hd.1]; exact hle _ _ he)]
    · simp [h]

/-- C116: a piece without annotations cannot be logged. -/
theorem C116_unannotated (A : EvalInput δ) (notes : List (τ × τ)) (rt tt : PitchType) :
    logPiece false A notes rt tt = .error .typeError := rfl

/-- Four inputs in C major. The estimate has the chord V from the third one on instead of the second one, and the last
input is labelled with a wrong key. -/
def exLog : EvalInput ℚ :=
  { cache := [1, 2, 0, 1 / 2], inputs := 4,
    gtChords := [⟨15, 15, 15, .major, .major, 0, 0, 0, 1, .tpc⟩, ⟨16, 16, 16, .major, .major, 0, 1, 0, 1, .tpc⟩],
    gtChordChanges := [0, 1],
    gtKeys := [⟨15, 15, 15, .major, .major, .major, .tpc⟩], gtKeyChanges := [0],
    estChords := [some 45, some 48], estChordChanges := [0, 2, 4], estKeys := [15, 16], estKeyChanges := [0, 3, 4] }

/-- The notes of the example. -/
def exLogNotes : List (ℚ × ℚ) := [(0, 1), (1, 3), (3, 4), (3, 4)]

example : (logPiece true exLog exLogNotes .tpc .tpc).map (List.map fun b => (b.start, b.stop, b.duration)) =
    .ok [(0, 1, 1), (1, 3, 2), (3, 3, 0), (3, 4, 1 / 2)] := by
  decide +kernel

example : (logPiece true exLog exLogNotes .tpc .tpc).map (List.map fun b => (b.estChord, b.correct)) =
    .ok [("C:M, inv:0".toList, none), ("C:M, inv:0".toList, some ("C:KeyMode.MAJOR".toList, "G:M, inv:0".toList)),
      ("G:M, inv:0".toList, none), ("G:M, inv:0".toList, some ("C:KeyMode.MAJOR".toList, "G:M, inv:0".toList))] := by
  decide +kernel

example : evaluateJointly exLog .tpc .tpc true noReduction false = .ok (2 / 7) := by decide +kernel

end Verif.LogState
