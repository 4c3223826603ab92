import Verif.Props.Eval
import Mathlib.Data.List.Chain

/-!
# C38: written annotations, C59: label strings
-/

namespace Verif.Eval

variable {τ : Type}

/-! ## Reading rows back -/

/-- Key rows end in `MAJOR` or `MINOR`, chord rows in the number of the inversion. -/
def isKeyRow (t : Str) : Bool := t.getLast? == some 'R'

def isChordRow (t : Str) : Bool := !isKeyRow t

/-- The rows of one kind. -/
def rowsOf (kind : Str → Bool) (rows : List (Str × τ)) : List (Str × τ) :=
  rows.filter fun r => kind r.1

/-- The label in force at a position: that of the last row of the kind that is not after it. -/
def inForce [LinearOrder τ] (kind : Str → Bool) (rows : List (Str × τ)) (p : τ) : Option Str :=
  (((rowsOf kind rows).filter fun r => decide (r.2 ≤ p)).getLast?).map (·.1)

/-- The rows that one kind of label gives. -/
def changesOf : Option Str → List (Str × τ) → List (Str × τ)
  | _, [] => []
  | prev, (l, p) :: rest =>
    if some l = prev then changesOf prev rest else (l, p) :: changesOf (some l) rest

theorem changesOf_subset (prev : Option Str) (l : List (Str × τ)) : ∀ r ∈ changesOf prev l, r ∈ l := by
  induction l generalizing prev with
  | nil => simp [changesOf]
  | cons x rest ih =>
    obtain ⟨a, p⟩ := x
    intro r hr
    simp only [changesOf] at hr
    split at hr
    · exact List.mem_cons_of_mem _ (ih _ r hr)
    · rcases List.mem_cons.1 hr with rfl | hr
      · simp
      · exact List.mem_cons_of_mem _ (ih _ r hr)

theorem changesOf_sublist (prev : Option Str) (l : List (Str × τ)) : (changesOf prev l).Sublist l := by
  induction l generalizing prev with
  | nil => simp [changesOf]
  | cons x rest ih =>
    obtain ⟨a, p⟩ := x
    simp only [changesOf]
    split
    · exact (ih _).cons _
    · exact (ih _).cons_cons _

theorem changesOf_chain (prev : Option Str) (l : List (Str × τ)) :
    (changesOf prev l).IsChain (fun a b => a.1 ≠ b.1) ∧
      ∀ r, (changesOf prev l).head? = some r → some r.1 ≠ prev := by
  induction l generalizing prev with
  | nil => simp [changesOf]
  | cons x rest ih =>
    obtain ⟨a, p⟩ := x
    simp only [changesOf]
    split
    · exact ih prev
    · rename_i hne
      refine ⟨?_, by simpa using hne⟩
      rw [List.isChain_cons]
      refine ⟨?_, (ih _).1⟩
      intro y hy h0
      exact (ih (some a)).2 y hy (by rw [← h0])

theorem changesOf_read [LinearOrder τ] (prev : Option Str) (l : List (Str × τ))
    (hs : l.Pairwise (fun a b => a.2 < b.2)) (t : Str) (p : τ) (h : (t, p) ∈ l) :
    ((((changesOf prev l).filter fun r => decide (r.2 ≤ p)).getLast?).map (·.1)).or prev = some t := by
  induction l generalizing prev with
  | nil => cases h
  | cons x rest ih =>
    obtain ⟨a, q⟩ := x
    rw [List.pairwise_cons] at hs
    obtain ⟨h1, h2⟩ := hs
    have hlate : ∀ prev', (changesOf prev' rest).filter (fun r => decide (r.2 ≤ q)) = [] := by
      intro prev'
      rw [List.filter_eq_nil_iff]
      intro r hr
      have := h1 r (changesOf_subset _ _ r hr)
      simpa using this
    rcases List.mem_cons.1 h with h0 | h0
    · simp only [Prod.mk.injEq] at h0
      obtain ⟨rfl, rfl⟩ := h0
      simp only [changesOf]
      split
      · rename_i heq
        rw [hlate, ← heq]; rfl
      · rw [List.filter_cons, hlate]
        simp
    · have hq : q ≤ p := le_of_lt (h1 _ h0)
      simp only [changesOf]
      split
      · exact ih prev h2 h0
      · have := ih (some a) h2 h0
        rw [List.filter_cons, if_pos (by simpa using hq), List.getLast?_cons]
        cases hc : ((changesOf (some a) rest).filter fun r => decide (r.2 ≤ p)).getLast? with
        | none => rw [hc] at this; simpa using this
        | some r => rw [hc] at this; simpa using this

/-! ## The loop -/

/-- The inputs of nonzero duration with their text. -/
def sounding (chordNames keyNames : List Str) :
    List (ℚ × τ × Int × Int) → Py (List (τ × Str × Str))
  | [] => .ok []
  | (d, pos, c, k) :: rest =>
    if d = 0 then sounding chordNames keyNames rest
    else do
      let chord ← pyGet chordNames c
      let key ← pyGet keyNames k
      let more ← sounding chordNames keyNames rest
      .ok ((pos, chord, key) :: more)

theorem annotationLoop_spec (chordNames keyNames : List Str)
    (hc : ∀ t ∈ chordNames, isKeyRow t = false) (hk : ∀ t ∈ keyNames, isKeyRow t = true)
    (items : List (ℚ × τ × Int × Int)) (snd : List (τ × Str × Str))
    (hs : sounding chordNames keyNames items = .ok snd) (prevKey prevChord : Option Str) :
    ∃ rows, annotationLoop chordNames keyNames prevKey prevChord items = .ok rows ∧
      rowsOf isKeyRow rows = changesOf prevKey (snd.map fun x => (x.2.2, x.1)) ∧
      rowsOf isChordRow rows = changesOf prevChord (snd.map fun x => (x.2.1, x.1)) ∧
      ∀ r ∈ rows, ∃ x ∈ snd, r.2 = x.1 := by
  induction items generalizing snd prevKey prevChord with
  | nil =>
    simp only [sounding, Except.ok.injEq] at hs
    subst hs
    exact ⟨[], rfl, rfl, rfl, by simp⟩
  | cons x rest ih =>
    obtain ⟨d, pos, c, k⟩ := x
    simp only [sounding] at hs
    simp only [annotationLoop]
    by_cases hd : d = 0
    · rw [if_pos hd] at hs ⊢
      exact ih snd hs prevKey prevChord
    · rw [if_neg hd] at hs ⊢
      simp only [Bind.bind, Except.bind] at hs ⊢
      cases h1 : pyGet chordNames c with
      | error e => rw [h1] at hs; cases hs
      | ok chord =>
        rw [h1] at hs
        cases h2 : pyGet keyNames k with
        | error e => rw [h2] at hs; cases hs
        | ok key =>
          rw [h2] at hs
          cases h3 : sounding chordNames keyNames rest with
          | error e => rw [h3] at hs; cases hs
          | ok more =>
            rw [h3] at hs
            simp only [Except.ok.injEq] at hs
            subst hs
            have hck := hc _ (pyGet_mem _ _ _ h1)
            have hkk := hk _ (pyGet_mem _ _ _ h2)
            simp only
            by_cases hb : some chord = prevChord ∧ some key = prevKey
            · rw [if_pos hb]
              obtain ⟨rows, r1, r2, r3, r4⟩ := ih more h3 prevKey prevChord
              refine ⟨rows, r1, ?_, ?_, ?_⟩
              · rw [List.map_cons, changesOf, if_pos hb.2, r2]
              · rw [List.map_cons, changesOf, if_pos hb.1, r3]
              · intro r hr
                obtain ⟨y, hy, he⟩ := r4 r hr
                exact ⟨y, List.mem_cons_of_mem _ hy, he⟩
            · rw [if_neg hb]
              obtain ⟨rows, r1, r2, r3, r4⟩ := ih more h3 (some key) (some chord)
              rw [r1]
              refine ⟨_, rfl, ?_, ?_, ?_⟩
              · rw [List.map_cons, changesOf, rowsOf, List.filter_append, List.filter_append]
                rw [rowsOf] at r2
                rw [r2]
                by_cases g1 : some key = prevKey <;> by_cases g2 : some chord = prevChord <;>
                  simp [g1, g2, hck, hkk]
              · rw [List.map_cons, changesOf, rowsOf, List.filter_append, List.filter_append]
                rw [rowsOf] at r3
                rw [r3]
                by_cases g1 : some key = prevKey <;> by_cases g2 : some chord = prevChord <;>
                  simp [g1, g2, isChordRow, hck, hkk]
              · intro r hr
                simp only [List.mem_append] at hr
                rcases hr with (hr | hr) | hr
                · refine ⟨_, List.mem_cons_self, ?_⟩
                  split at hr
                  · cases hr
                  · rw [List.mem_singleton] at hr; rw [hr]
                · refine ⟨_, List.mem_cons_self, ?_⟩
                  split at hr
                  · cases hr
                  · rw [List.mem_singleton] at hr; rw [hr]
                · obtain ⟨y, hy, he⟩ := r4 r hr
                  exact ⟨y, List.mem_cons_of_mem _ hy, he⟩

theorem sounding_total (chordNames keyNames : List Str) (items : List (ℚ × τ × Int × Int))
    (h : ∀ x ∈ items, (∃ t, pyGet chordNames x.2.2.1 = .ok t) ∧ ∃ t, pyGet keyNames x.2.2.2 = .ok t) :
    ∃ snd, sounding chordNames keyNames items = .ok snd := by
  induction items with
  | nil => exact ⟨[], rfl⟩
  | cons x rest ih =>
    obtain ⟨d, pos, c, k⟩ := x
    obtain ⟨snd, hs⟩ := ih (fun y hy => h y (List.mem_cons_of_mem _ hy))
    obtain ⟨⟨t, ht⟩, ⟨u, hu⟩⟩ := h _ List.mem_cons_self
    simp only at ht hu
    simp only [sounding]
    split
    · exact ⟨snd, hs⟩
    · exact ⟨_, by simp only [Bind.bind, Except.bind, ht, hu, hs]; rfl⟩

theorem sounding_mem (chordNames keyNames : List Str) (items : List (ℚ × τ × Int × Int))
    (snd : List (τ × Str × Str)) (hs : sounding chordNames keyNames items = .ok snd)
    (d : ℚ) (pos : τ) (c k : Int) (hx : (d, pos, c, k) ∈ items) (hd : d ≠ 0) :
    ∃ t u, pyGet chordNames c = .ok t ∧ pyGet keyNames k = .ok u ∧ (pos, t, u) ∈ snd := by
  induction items generalizing snd with
  | nil => cases hx
  | cons x rest ih =>
    obtain ⟨d', pos', c', k'⟩ := x
    simp only [sounding] at hs
    by_cases hd' : d' = 0
    · rw [if_pos hd'] at hs
      rcases List.mem_cons.1 hx with h0 | h0
      · simp only [Prod.mk.injEq] at h0
        exact absurd (h0.1.trans hd') hd
      · exact ih snd hs h0
    · rw [if_neg hd'] at hs
      simp only [Bind.bind, Except.bind] at hs
      cases h1 : pyGet chordNames c' with
      | error e => rw [h1] at hs; cases hs
      | ok chord =>
        rw [h1] at hs
        cases h2 : pyGet keyNames k' with
        | error e => rw [h2] at hs; cases hs
        | ok key =>
          rw [h2] at hs
          cases h3 : sounding chordNames keyNames rest with
          | error e => rw [h3] at hs; cases hs
          | ok more =>
            rw [h3] at hs
            simp only [Except.ok.injEq] at hs
            subst hs
            rcases List.mem_cons.1 hx with h0 | h0
            · simp only [Prod.mk.injEq] at h0
              obtain ⟨rfl, rfl, rfl, rfl⟩ := h0
              exact ⟨chord, key, h1, h2, List.mem_cons_self⟩
            · obtain ⟨t, u, a1, a2, a3⟩ := ih more h3 h0
              exact ⟨t, u, a1, a2, List.mem_cons_of_mem _ a3⟩

theorem sounding_sublist (chordNames keyNames : List Str) (items : List (ℚ × τ × Int × Int))
    (snd : List (τ × Str × Str)) (hs : sounding chordNames keyNames items = .ok snd) :
    (snd.map (·.1)).Sublist ((items.filter fun x => decide (x.1 ≠ 0)).map (·.2.1)) := by
  induction items generalizing snd with
  | nil =>
    simp only [sounding, Except.ok.injEq] at hs
    subst hs; simp
  | cons x rest ih =>
    obtain ⟨d', pos', c', k'⟩ := x
    simp only [sounding] at hs
    by_cases hd' : d' = 0
    · rw [if_pos hd'] at hs
      rw [List.filter_cons, if_neg (by simpa using hd')]
      exact ih snd hs
    · rw [if_neg hd'] at hs
      rw [List.filter_cons, if_pos (by simpa using hd')]
      simp only [Bind.bind, Except.bind] at hs
      cases h1 : pyGet chordNames c' with
      | error e => rw [h1] at hs; cases hs
      | ok chord =>
        rw [h1] at hs
        cases h2 : pyGet keyNames k' with
        | error e => rw [h2] at hs; cases hs
        | ok key =>
          rw [h2] at hs
          cases h3 : sounding chordNames keyNames rest with
          | error e => rw [h3] at hs; cases hs
          | ok more =>
            rw [h3] at hs
            simp only [Except.ok.injEq] at hs
            subst hs
            simpa using ih more h3

/-! ## The two kinds of label -/

theorem chordNames_kind (pt : PitchType) (names : List Str)
    (h : chordLabelList pt true false none false noReduction = .ok names) :
    ∀ t ∈ names, isKeyRow t = false := by
  unfold chordLabelList at h
  rw [classRootNames_eq] at h
  simp only [Bind.bind, Except.bind, Except.ok.injEq, if_true] at h
  subst h
  intro t ht
  simp only [List.mem_flatMap, List.mem_map] at ht
  obtain ⟨ct, _, root, _, inv, ⟨i, hi, rfl⟩, rfl⟩ := ht
  have hi' : i ∈ [(0 : Int), 1, 2, 3] := by
    cases ct <;> revert hi <;> revert i <;> decide
  have : ∃ c, intStr i = [c] ∧ c ≠ 'R' := by
    simp only [List.mem_cons, List.not_mem_nil, or_false] at hi'
    rcases hi' with rfl | rfl | rfl | rfl
    · exact ⟨'0', by decide, by decide⟩
    · exact ⟨'1', by decide, by decide⟩
    · exact ⟨'2', by decide, by decide⟩
    · exact ⟨'3', by decide, by decide⟩
  obtain ⟨c, h1, h2⟩ := this
  have : (chordLabel root ct (some i)).getLast? = some c := by
    rw [chordLabel, h1, ← List.append_assoc, List.getLast?_concat]
  rw [isKeyRow, this]
  simpa using h2

theorem keyNames_kind (pt : PitchType) (names : List Str) (h : keyLabelList pt false none = .ok names) :
    ∀ t ∈ names, isKeyRow t = true := by
  unfold keyLabelList at h
  rw [keyTonicNames_eq] at h
  simp only [Bind.bind, Except.bind, Except.ok.injEq] at h
  subst h
  intro t ht
  simp only [List.mem_flatMap, List.mem_map] at ht
  obtain ⟨mode, _, tonic, _, rfl⟩ := ht
  cases mode <;> simp [isKeyRow, keyLabel, keyModeString]

/-- Changes from 0 to the number of inputs, in order. -/
structure Tiles {α : Type} (items : List α) (changes : List Nat) (n : Nat) : Prop where
  len : changes.length = items.length + 1
  start : changes[0]? = some 0
  stop : changes[items.length]? = some n
  sorted : changes.Pairwise (· ≤ ·)

/-- What the chord class `c` is written as. -/
def ChordText (pt : PitchType) (c : Int) (t : Str) : Prop :=
  ∃ root ct inv name, pyGet (stdLabels pt).chord c = .ok (root, ct, inv) ∧
    pitchString root pt = .ok name ∧ t = specChordLabel name ct (some inv)

/-- What the key class `k` is written as. -/
def KeyText (pt : PitchType) (k : Int) (t : Str) : Prop :=
  ∃ tonic mode name, pyGet (stdLabels pt).key k = .ok (tonic, mode) ∧
    pitchString tonic pt = .ok name ∧ t = specKeyLabel name mode

theorem Tiles.covers {α : Type} {items : List α} {changes : List Nat} {n : Nat} (h : Tiles items changes n)
    (i : Nat) (hi : i < n) : ∃ x, Covers items changes i x := by
  have hne : items ≠ [] := by
    intro h0
    have h1 := h.stop
    rw [h0, List.length_nil, h.start] at h1
    injection h1 with h1
    omega
  exact exists_covers items changes i 0 (by have := h.len; omega) hne h.start (Nat.zero_le _) (by
    intro b hb
    rw [h.stop] at hb
    injection hb with hb
    omega)

/-- C38: `get_annotation_df` succeeds; at the position of every input of nonzero duration, the label in
force is that of the estimated chord (key) of the input; and no row repeats the label in force. -/
theorem C38_read_back [LinearOrder τ] (A : EvalInput δ) (positions : List τ) (rt tt : PitchType)
    (hc : Tiles A.estChords A.estChordChanges A.inputs) (hk : Tiles A.estKeys A.estKeyChanges A.inputs)
    (cc : ∀ e ∈ A.estChords, ∃ c l, e = some c ∧ pyGet (stdLabels rt).chord c = .ok l)
    (ck : ∀ e ∈ A.estKeys, ∃ l, pyGet (stdLabels tt).key e = .ok l)
    (hpos : ∀ (i j : Nat) d p q, i < j → A.cache[i]? = some d → d ≠ 0 → positions[i]? = some p →
      positions[j]? = some q → p < q) :
    ∃ rows, annotationDf A positions rt tt = .ok rows ∧
      (∀ (i : Nat) d p c, i < A.inputs → A.cache[i]? = some d → d ≠ 0 → positions[i]? = some p →
        Covers A.estChords A.estChordChanges i (some c) →
        ∃ t, ChordText rt c t ∧ inForce isChordRow rows p = some t) ∧
      (∀ (i : Nat) d p k, i < A.inputs → A.cache[i]? = some d → d ≠ 0 → positions[i]? = some p →
        Covers A.estKeys A.estKeyChanges i k →
        ∃ t, KeyText tt k t ∧ inForce isKeyRow rows p = some t) ∧
      (rowsOf isChordRow rows).IsChain (fun a b => a.1 ≠ b.1) ∧
      (rowsOf isKeyRow rows).IsChain (fun a b => a.1 ≠ b.1) := by
  obtain ⟨estC, e1, e2, e3⟩ := estLabels_spec A.inputs _ _ hc.len hc.sorted (by
    intro x hx
    obtain ⟨c, _, rfl, _⟩ := cc x hx
    rfl)
  obtain ⟨estK, f1, f2, f3⟩ := estLabels_spec A.inputs (A.estKeys.map some) A.estKeyChanges
    (by rw [List.length_map]; exact hk.len) hk.sorted (by simp)
  obtain ⟨chordNames, n1, _, n3⟩ := C02_labels rt true false none false noReduction
  obtain ⟨keyNames, m1, _, m3⟩ := C03_labels tt false none
  -- the text of an entry of the arrays
  have tc : ∀ (i : Nat) v, estC[i]? = some v → ∃ t, ChordText rt v t ∧ pyGet chordNames v = .ok t := by
    intro i v hv
    have hi : i < A.inputs := by rw [← e2]; exact (List.getElem?_eq_some_iff.1 hv).1
    obtain ⟨x, hx⟩ := hc.covers i hi
    obtain ⟨w, rfl, hw⟩ := e3 i x hi hx
    rw [hv] at hw; injection hw with hw; subst hw
    obtain ⟨k, _, hk', _⟩ := hx
    obtain ⟨c, ⟨root, ct, inv⟩, hc', hl⟩ := cc _ (List.mem_of_getElem? hk')
    injection hc' with hc'; subst hc'
    obtain ⟨name, g1, g2⟩ := n3 v root ct inv hl
    exact ⟨_, ⟨root, ct, inv, name, hl, g1, rfl⟩, g2⟩
  have tk : ∀ (i : Nat) v, estK[i]? = some v → ∃ t, KeyText tt v t ∧ pyGet keyNames v = .ok t := by
    intro i v hv
    have hi : i < A.inputs := by rw [← f2]; exact (List.getElem?_eq_some_iff.1 hv).1
    obtain ⟨x, hx⟩ := hk.covers i hi
    obtain ⟨w, hw', hw⟩ := f3 i (some x) hi ((covers_map some _ _ _ _).2 ⟨x, hx, rfl⟩)
    injection hw' with hw'
    rw [hv] at hw; injection hw with hw; subst hw; subst hw'
    obtain ⟨k, _, hk', _⟩ := hx
    obtain ⟨⟨tonic, mode⟩, hl⟩ := ck _ (List.mem_of_getElem? hk')
    obtain ⟨name, g1, g2⟩ := m3 x tonic mode hl
    exact ⟨_, ⟨tonic, mode, name, hl, g1, rfl⟩, g2⟩
  have hitems : ∀ x ∈ A.cache.zip (positions.zip (estC.zip estK)),
      (∃ t, pyGet chordNames x.2.2.1 = .ok t) ∧ ∃ t, pyGet keyNames x.2.2.2 = .ok t := by
    intro x hx
    obtain ⟨i, hi⟩ := List.getElem?_of_mem hx
    obtain ⟨_, b⟩ := zip_some hi
    obtain ⟨_, b⟩ := zip_some b
    obtain ⟨b1, b2⟩ := zip_some b
    obtain ⟨t, _, ht⟩ := tc i _ b1
    obtain ⟨u, _, hu⟩ := tk i _ b2
    exact ⟨⟨t, ht⟩, ⟨u, hu⟩⟩
  obtain ⟨snd, hs⟩ := sounding_total chordNames keyNames _ hitems
  obtain ⟨rows, r1, r2, r3, _⟩ := annotationLoop_spec chordNames keyNames (chordNames_kind rt _ n1)
    (keyNames_kind tt _ m1) _ snd hs none none
  -- positions of the sounding inputs increase
  have hinc : (snd.map (·.1)).Pairwise (· < ·) := by
    refine List.Pairwise.sublist (sounding_sublist _ _ _ _ hs) ?_
    rw [List.pairwise_map, List.pairwise_filter, List.pairwise_iff_getElem]
    intro i j hi hj hij g1 _
    have a := List.getElem?_eq_getElem hi
    have b := List.getElem?_eq_getElem hj
    obtain ⟨a1, a2⟩ := zip_some a
    obtain ⟨a2, _⟩ := zip_some a2
    obtain ⟨_, b2⟩ := zip_some b
    obtain ⟨b2, _⟩ := zip_some b2
    exact hpos i j _ _ _ hij a1 (by simpa using g1) a2 b2
  have hmem : ∀ (i : Nat) d p c k, A.cache[i]? = some d → d ≠ 0 → positions[i]? = some p →
      estC[i]? = some c → estK[i]? = some k →
      ∃ t u, pyGet chordNames c = .ok t ∧ pyGet keyNames k = .ok u ∧ (p, t, u) ∈ snd := by
    intro i d p c k h1 h2 h3 h4 h5
    refine sounding_mem chordNames keyNames _ snd hs d p c k ?_ h2
    apply List.mem_of_getElem? (i := i)
    rw [List.getElem?_zip_eq_some, List.getElem?_zip_eq_some, List.getElem?_zip_eq_some]
    exact ⟨h1, h3, h4, h5⟩
  have hC : ∀ i, i < A.inputs → ∃ v, estC[i]? = some v := fun i hi =>
    ⟨_, List.getElem?_eq_getElem (by rw [e2]; exact hi)⟩
  have hK : ∀ i, i < A.inputs → ∃ v, estK[i]? = some v := fun i hi =>
    ⟨_, List.getElem?_eq_getElem (by rw [f2]; exact hi)⟩
  refine ⟨rows, ?_, ?_, ?_, ?_, ?_⟩
  · simp only [annotationDf, Bind.bind, Except.bind, e1, f1, n1, m1, r1]
  · intro i d p c hi h1 h2 h3 h4
    obtain ⟨w, hw, hw'⟩ := e3 i _ hi h4
    injection hw with hw; subst hw
    obtain ⟨v, hv⟩ := hK i hi
    obtain ⟨t, ht, ht'⟩ := tc i c hw'
    obtain ⟨t', u, g1, g2, g3⟩ := hmem i d p c v h1 h2 h3 hw' hv
    rw [ht'] at g1; injection g1 with g1; subst g1
    refine ⟨t, ht, ?_⟩
    have := changesOf_read none (snd.map fun x => (x.2.1, x.1)) (by
      rw [List.pairwise_map] at hinc ⊢; exact hinc) t p
      (List.mem_map.2 ⟨_, g3, rfl⟩)
    rw [inForce, r3]
    simpa using this
  · intro i d p k hi h1 h2 h3 h4
    obtain ⟨w, hw, hw'⟩ := f3 i (some k) hi ((covers_map some _ _ _ _).2 ⟨k, h4, rfl⟩)
    injection hw with hw; subst hw
    obtain ⟨v, hv⟩ := hC i hi
    obtain ⟨t, ht, ht'⟩ := tk i k hw'
    obtain ⟨u, t', g1, g2, g3⟩ := hmem i d p v k h1 h2 h3 hv hw'
    rw [ht'] at g2; injection g2 with g2; subst g2
    refine ⟨t, ht, ?_⟩
    have := changesOf_read none (snd.map fun x => (x.2.2, x.1)) (by
      rw [List.pairwise_map] at hinc ⊢; exact hinc) t p
      (List.mem_map.2 ⟨_, g3, rfl⟩)
    rw [inForce, r2]
    simpa using this
  · rw [r3]; exact (changesOf_chain _ _).1
  · rw [r2]; exact (changesOf_chain _ _).1

/-- Three inputs, the second of duration 0; the chord changes at the last one, the key does not. -/
def exAnn : EvalInput ℚ :=
  { cache := [1, 0, 2], inputs := 3, gtChords := [], gtChordChanges := [], gtKeys := [], gtKeyChanges := [],
    estChords := [some 0, some 22], estChordChanges := [0, 2, 3], estKeys := [12], estKeyChanges := [0, 3] }

example : annotationDf exAnn [(0 : ℚ), 1, 1] .midi .midi =
    .ok [("c:KeyMode.MINOR".toList, 0), ("C:M, inv:0".toList, 0), ("G:M, inv:1".toList, 1)] := by
  decide +kernel

/-! ## C59 -/

theorem split_at {c : Char} {a a' b b' : Str} (h1 : c ∉ a) (h2 : c ∉ a') (h : a ++ c :: b = a' ++ c :: b') :
    a = a' ∧ b = b' := by
  induction a generalizing a' with
  | nil =>
    cases a' with
    | nil => simpa using h
    | cons x xs =>
      simp only [List.nil_append, List.cons_append, List.cons.injEq] at h
      exact absurd (h.1 ▸ List.mem_cons_self) h2
  | cons x xs ih =>
    cases a' with
    | nil =>
      simp only [List.nil_append, List.cons_append, List.cons.injEq] at h
      exact absurd (h.1 ▸ List.mem_cons_self) h1
    | cons y ys =>
      simp only [List.cons_append, List.cons.injEq] at h
      obtain ⟨rfl, h⟩ := h
      obtain ⟨rfl, rfl⟩ := ih (fun hm => h1 (List.mem_cons_of_mem _ hm))
        (fun hm => h2 (List.mem_cons_of_mem _ hm)) h
      exact ⟨rfl, rfl⟩

/-- Facts about the names of the pitches, by looking at all of them. -/
theorem names_table (pt : PitchType) : ∀ p ∈ pyRange 0 (NUM_PITCHES pt),
    ':' ∉ rootNameD pt false none p ∧ ':' ∉ (rootNameD pt false none p).map Char.toLower ∧
    ∀ q ∈ pyRange 0 (NUM_PITCHES pt), (rootNameD pt false none p).map Char.toLower =
      (rootNameD pt false none q).map Char.toLower → p = q := by
  cases pt <;> decide +kernel

theorem nameD {pt : PitchType} {p : Int} {s : Str} (h : pitchString p pt = .ok s) :
    s = rootNameD pt false none p := by
  have h' := rootNameD_eq pt false none p
  simp only [specRootName] at h'
  rw [h'] at h
  injection h with h
  exact h.symm

theorem chordTypeString_inj {a b : ChordType} {i j : Int} (hi : i ∈ [(0 : Int), 1, 2, 3])
    (hj : j ∈ [(0 : Int), 1, 2, 3])
    (h : chordTypeString a ++ (", inv:".toList ++ (toString i).toList) =
      chordTypeString b ++ (", inv:".toList ++ (toString j).toList)) : a = b ∧ i = j := by
  have hl : ∀ c : ChordType, ',' ∉ chordTypeString c := by intro c; cases c <;> decide
  obtain ⟨h1, h2⟩ := split_at (b := " inv:".toList ++ (toString i).toList)
    (b' := " inv:".toList ++ (toString j).toList) (hl a) (hl b) h
  refine ⟨?_, ?_⟩
  · have : ∀ a b, chordTypeString a = chordTypeString b → a = b := by
      intro a b; cases a <;> cases b <;> decide
    exact this a b h1
  · have h3 := List.append_cancel_left h2
    have : ∀ i ∈ [(0 : Int), 1, 2, 3], ∀ j ∈ [(0 : Int), 1, 2, 3],
      (toString i).toList = (toString j).toList → i = j := by decide
    exact this i hi j hj h3

theorem chord_class_range {pt : PitchType} {c root inv : Int} {ct : ChordType}
    (h : pyGet (stdLabels pt).chord c = .ok (root, ct, inv)) :
    root ∈ pyRange 0 (NUM_PITCHES pt) ∧ inv ∈ [(0 : Int), 1, 2, 3] := by
  have hm := pyGet_mem _ _ _ h
  simp only [stdLabels, chordClasses, List.mem_flatMap, List.mem_map, classInversions, if_true] at hm
  obtain ⟨ct', _, r, hr, i, hi, he⟩ := hm
  simp only [Prod.mk.injEq] at he
  obtain ⟨rfl, rfl, rfl⟩ := he
  refine ⟨by simpa [classRoots] using hr, ?_⟩
  have : ∀ ct, ∀ i ∈ pyRange 0 (inversionCount ct : Int), i ∈ [(0 : Int), 1, 2, 3] := by
    intro ct; cases ct <;> decide
  exact this _ _ hi

theorem key_class_range {pt : PitchType} {k tonic : Int} {mode : KeyMode}
    (h : pyGet (stdLabels pt).key k = .ok (tonic, mode)) : tonic ∈ pyRange 0 (NUM_PITCHES pt) := by
  have hm := pyGet_mem _ _ _ h
  simp only [stdLabels, keyClasses, List.mem_flatMap, List.mem_map] at hm
  obtain ⟨_, _, t, ht, he⟩ := hm
  simp only [Prod.mk.injEq] at he
  obtain ⟨rfl, rfl⟩ := he
  simpa [keyTonics] using ht

/-- C59: different chord classes are written differently. -/
theorem C59_chord_text (pt : PitchType) (c c' : Int) (h0 : 0 ≤ c) (h0' : 0 ≤ c') (t : Str)
    (h : ChordText pt c t) (h' : ChordText pt c' t) : c = c' := by
  obtain ⟨root, ct, inv, name, h1, h2, h3⟩ := h
  obtain ⟨root', ct', inv', name', h1', h2', h3'⟩ := h'
  obtain ⟨r1, i1⟩ := chord_class_range h1
  obtain ⟨r1', i1'⟩ := chord_class_range h1'
  rw [nameD h2] at h3
  rw [nameD h2'] at h3'
  obtain ⟨n1, _, n3⟩ := names_table pt root r1
  obtain ⟨n1', _, _⟩ := names_table pt root' r1'
  rw [h3] at h3'
  simp only [specChordLabel, List.append_assoc] at h3'
  obtain ⟨e1, e2⟩ := split_at (c := ':') n1 n1' h3'
  obtain ⟨rfl, rfl⟩ := chordTypeString_inj i1 i1' e2
  have := n3 root' r1' (by rw [e1])
  subst this
  have enc : ∀ x : Int, 0 ≤ x → pyGet (stdLabels pt).chord x = .ok (root, ct, inv) →
      chordOneHotIndex ct root pt inv true false false noReduction = .ok x := by
    intro x hx hg
    have hlt : x < chordOneHotLength pt false true false noReduction := by
      rw [chordOneHotLength_eq]
      obtain ⟨a, ha⟩ := (pyGet_ok_iff _ x).1 ⟨_, hg⟩
      exact ha
    obtain ⟨r, u, v, d1, d2⟩ := C02_decode_encode x pt true false false noReduction hx hlt
    have d1' : pyGet (stdLabels pt).chord x = .ok (specDecodedRoot pt false false r, noReduction u, v) := d1
    rw [hg] at d1'
    simp only [Except.ok.injEq, Prod.mk.injEq] at d1'
    obtain ⟨q1, q2, q3⟩ := d1'
    have : specDecodedRoot pt false false r = r := by cases pt <;> rfl
    rw [this] at q1
    rw [q1, q2, q3]
    exact d2
  have a := enc c h0 h1
  have b := enc c' h0' h1'
  rw [a] at b
  injection b

/-- C59: different key classes are written differently. -/
theorem C59_key_text (pt : PitchType) (k k' : Int) (h0 : 0 ≤ k) (h0' : 0 ≤ k') (t : Str)
    (h : KeyText pt k t) (h' : KeyText pt k' t) : k = k' := by
  obtain ⟨tonic, mode, name, h1, h2, h3⟩ := h
  obtain ⟨tonic', mode', name', h1', h2', h3'⟩ := h'
  have r1 := key_class_range h1
  have r1' := key_class_range h1'
  rw [nameD h2] at h3
  rw [nameD h2'] at h3'
  obtain ⟨n1, n2, n3⟩ := names_table pt tonic r1
  obtain ⟨n1', n2', _⟩ := names_table pt tonic' r1'
  rw [h3] at h3'
  have hmt : mode = mode' ∧ tonic = tonic' := by
    cases mode <;> cases mode' <;> simp only [specKeyLabel] at h3'
    · exact ⟨rfl, n3 tonic' r1' (by rw [(split_at (c := ':') n1 n1' h3').1])⟩
    · exact absurd (split_at (c := ':') n1 n2' h3').2 (by decide)
    · exact absurd (split_at (c := ':') n2 n1' h3').2 (by decide)
    · exact ⟨rfl, n3 tonic' r1' (split_at (c := ':') n2 n2' h3').1⟩
  obtain ⟨rfl, rfl⟩ := hmt
  have enc : ∀ x : Int, 0 ≤ x → pyGet (stdLabels pt).key x = .ok (tonic, mode) →
      keyOneHotIndex mode tonic pt = .ok x := by
    intro x hx hg
    have hlt : x < 2 * specPitches pt := by
      obtain ⟨a, ha⟩ := (pyGet_ok_iff _ x).1 ⟨_, hg⟩
      have : ((stdLabels pt).key.length : Int) = 2 * specPitches pt := by cases pt <;> decide
      omega
    obtain ⟨u, v, d1, _, _, d2⟩ := C03_decode_encode x pt hx hlt
    have d1' : pyGet (stdLabels pt).key x = .ok (u, v) := d1
    rw [hg] at d1'
    simp only [Except.ok.injEq, Prod.mk.injEq] at d1'
    obtain ⟨q1, q2⟩ := d1'
    rw [q1, q2]
    exact d2
  have a := enc k h0 h1
  have b := enc k' h0' h1'
  rw [a] at b
  injection b

example : ChordText .tpc 100 "E##:M, inv:1".toList := by
  refine ⟨_, _, _, _, by rfl, by rfl, by decide +kernel⟩
example : KeyText .tpc 40 "ebb:KeyMode.MINOR".toList := by
  refine ⟨_, _, _, by rfl, by rfl, by decide +kernel⟩

end Verif.Eval
