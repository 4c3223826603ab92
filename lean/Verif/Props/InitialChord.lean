import Verif.InitialChord
import Verif.Props.ChordIndex
import Verif.Props.Labels
import Verif.Props.KeyDatasetRows
import Mathlib.Tactic.Linarith
import Mathlib.Tactic.Ring
import Mathlib.Tactic.FieldSimp

/-!
# C46, C69 and C70: the initial chord model
-/

namespace Verif.InitialChord
open Verif.Datasets

/-- The number of training chords of a mode with a given relative chord. -/
def occurrences (chords : List (Chord ℚ)) (mode : KeyMode) (i : Int) : Nat :=
  chords.countP fun c => decide (c.keyMode = mode ∧ c.oneHotIndex true true false noReduction = .ok i)

/-- The number of training chords of a mode. -/
def ofMode (chords : List (Chord ℚ)) (mode : KeyMode) : Nat := chords.countP fun c => decide (c.keyMode = mode)

theorem getD_lt {v : List ℚ} {n : Nat} (h : n < v.length) : v.getD n 0 = v[n] := by
  rw [List.getD_eq_getElem?_getD, List.getElem?_eq_getElem h]; rfl

theorem addAt_inv {v w : List ℚ} {i : Int} {x : ℚ} (h : addAt v i x = .ok w) :
    0 ≤ i ∧ i < v.length ∧ w.length = v.length ∧ w.sum = v.sum + x ∧
      ∀ j : Nat, w.getD j 0 = v.getD j 0 + if (j : Int) = i then x else 0 := by
  rw [addAt] at h
  split at h
  · rename_i hi
    injection h with h
    subst h
    obtain ⟨n, rfl⟩ : ∃ n : Nat, i = n := ⟨i.toNat, by omega⟩
    have hn : n < v.length := by omega
    simp only [Int.toNat_natCast]
    refine ⟨hi.1, hi.2, by simp, ?_, ?_⟩
    · rw [getD_lt hn]
      clear hi
      induction v generalizing n with
      | nil => simp at hn
      | cons a v ih =>
        cases n with
        | zero => simp; ring
        | succ n =>
          have := ih n (by simpa using hn)
          simp only [List.set_cons_succ, List.getElem_cons_succ, List.sum_cons, this]
          ring
    · intro j
      by_cases hj : j = n
      · subst hj
        rw [if_pos rfl, getD_lt (show j < (v.set j (v.getD j 0 + x)).length by simpa using hn)]
        simp
      · rw [if_neg (by omega), add_zero]
        simp only [List.getD_eq_getElem?_getD]
        rw [List.getElem?_set_ne (by omega)]
  · cases h

theorem mode_cases (m : KeyMode) : m = .major ∨ m = .minor := by cases m <;> simp

theorem count_inv (chords : List (Chord ℚ)) (a b a' b' : List ℚ)
    (h : chords.foldlM countChord (a, b) = (.ok (a', b') : Py (List ℚ × List ℚ))) :
    a'.length = a.length ∧ b'.length = b.length ∧
    a'.sum = a.sum + ofMode chords .major ∧ b'.sum = b.sum + ofMode chords .minor ∧
    (∀ j : Nat, a'.getD j 0 = a.getD j 0 + occurrences chords .major j) ∧
    (∀ j : Nat, b'.getD j 0 = b.getD j 0 + occurrences chords .minor j) ∧
    ∀ c ∈ chords, ∃ i, c.oneHotIndex true true false noReduction = .ok i ∧ 0 ≤ i ∧
      (c.keyMode = .major → i < a.length) ∧ (c.keyMode = .minor → i < b.length) := by
  induction chords generalizing a b with
  | nil =>
    have h' : (.ok (a, b) : Py (List ℚ × List ℚ)) = .ok (a', b') := h
    injection h' with h'
    injection h' with h1 h2
    subst h1 h2
    simp [ofMode, occurrences]
  | cons c chords ih =>
    rw [List.foldlM_cons] at h
    obtain ⟨acc, hacc, h⟩ := bind_ok h
    obtain ⟨v, w⟩ := acc
    rw [countChord] at hacc
    obtain ⟨i, hi, hacc⟩ := bind_ok hacc
    obtain ⟨g1, g2, g3, g4, g5, g6, g7⟩ := ih v w h
    have cnt : ∀ (m : KeyMode) (j : Nat), occurrences (c :: chords) m j =
        occurrences chords m j + if c.keyMode = m ∧ (j : Int) = i then 1 else 0 := by
      intro m j
      rw [occurrences, List.countP_cons, occurrences]
      congr 1
      rw [hi]
      simp only [decide_eq_true_eq, Except.ok.injEq]
      exact if_congr (and_congr Iff.rfl eq_comm) rfl rfl
    have tot : ∀ m : KeyMode, ofMode (c :: chords) m =
        ofMode chords m + if c.keyMode = m then 1 else 0 := by
      intro m
      rw [ofMode, List.countP_cons, ofMode]
      simp
    by_cases hm : c.keyMode = .major
    · rw [if_pos hm] at hacc
      obtain ⟨v', hv, hacc⟩ := bind_ok hacc
      injection hacc with hacc
      injection hacc with e1 e2
      subst e1 e2
      obtain ⟨k1, k2, k3, k4, k5⟩ := addAt_inv hv
      have hnm : c.keyMode ≠ .minor := by rw [hm]; decide
      refine ⟨by rw [g1, k3], g2, ?_, ?_, ?_, ?_, ?_⟩
      · rw [g3, k4, tot, if_pos hm]; push_cast; ring
      · rw [g4, tot, if_neg hnm]; simp
      · intro j
        rw [g5, k5, cnt]
        by_cases hj : (j : Int) = i
        · rw [if_pos hj, if_pos ⟨hm, hj⟩]; push_cast; ring
        · rw [if_neg hj, if_neg (by simp [hj])]; simp
      · intro j
        rw [g6, cnt, if_neg (by simp [hnm])]; simp
      · intro c' hc'
        rcases List.mem_cons.1 hc' with rfl | hc'
        · exact ⟨i, hi, k1, fun _ => k2, fun h => absurd h hnm⟩
        · obtain ⟨i', q1, q2, q3, q4⟩ := g7 c' hc'
          exact ⟨i', q1, q2, by rw [k3] at q3; exact q3, q4⟩
    · have hnm : c.keyMode = .minor := (mode_cases c.keyMode).resolve_left hm
      rw [if_neg hm] at hacc
      obtain ⟨v', hv, hacc⟩ := bind_ok hacc
      injection hacc with hacc
      injection hacc with e1 e2
      subst e1 e2
      obtain ⟨k1, k2, k3, k4, k5⟩ := addAt_inv hv
      refine ⟨g1, by rw [g2, k3], ?_, ?_, ?_, ?_, ?_⟩
      · rw [g3, tot, if_neg hm]; simp
      · rw [g4, k4, tot, if_pos hnm]; push_cast; ring
      · intro j
        rw [g5, cnt, if_neg (by simp [hm])]; simp
      · intro j
        rw [g6, k5, cnt]
        by_cases hj : (j : Int) = i
        · rw [if_pos hj, if_pos ⟨hnm, hj⟩]; push_cast; ring
        · rw [if_neg hj, if_neg (by simp [hj])]; simp
      · intro c' hc'
        rcases List.mem_cons.1 hc' with rfl | hc'
        · exact ⟨i, hi, k1, fun h => absurd h hm, fun _ => k2⟩
        · obtain ⟨i', q1, q2, q3, q4⟩ := g7 c' hc'
          exact ⟨i', q1, q2, q3, by rw [k3] at q4; exact q4⟩

/-- The prior of a mode in the file. -/
def priorOf (d : ICMData) : KeyMode → List ℚ
  | .major => d.major
  | .minor => d.minor

/-- The number of relative chords. -/
def numChords (pt : PitchType) : Nat := (chordOneHotLength pt true true false noReduction).toNat

theorem numChords_pos (pt : PitchType) : 0 < numChords pt := by cases pt <;> decide

theorem sum_replicate (n : Nat) (x : ℚ) : (List.replicate n x).sum = n * x := by
  induction n with
  | zero => simp
  | succ n ih => rw [List.replicate_succ, List.sum_cons, ih]; push_cast; ring

theorem normalised_inv (v : List ℚ) (n : Nat) (s T : ℚ) (occ : Nat → Nat) (hs : 0 < s) (hT : 0 ≤ T)
    (hlen : v.length = n) (hsum : v.sum = s + T) (hv : ∀ j : Nat, j < n → v.getD j 0 = s / n + occ j) :
    (normalised v).length = n ∧ (normalised v).sum = 1 ∧
      ∀ j p, (normalised v)[j]? = some p → p = (s / n + occ j) / (s + T) := by
  have hpos : s + T ≠ 0 := by linarith
  refine ⟨by simp [normalised, hlen], ?_, ?_⟩
  · have : ∀ (l : List ℚ) (c : ℚ), (l.map (· / c)).sum = l.sum / c := by
      intro l c
      induction l with
      | nil => simp
      | cons a l ih => simp [ih, add_div]
    rw [normalised, this, div_self]
    rw [hsum]; exact hpos
  · intro j p hp
    rw [normalised, List.getElem?_map, Option.map_eq_some_iff] at hp
    obtain ⟨x, hx, rfl⟩ := hp
    have hj : j < n := by
      have := (List.getElem?_eq_some_iff.1 hx).1
      omega
    have := hv j hj
    rw [List.getD_eq_getElem?_getD, hx] at this
    simp only [Option.getD_some] at this
    rw [this, hsum]

theorem train_inv (chords : List (Chord ℚ)) (s : ℚ) (hs : 0 < s) (d : ICMData)
    (h : trainICM chords s = .ok d) :
    ∃ first, chords[0]? = some first ∧ d.pitchType = first.pitchType ∧ d.inversionsPresent = true ∧
      d.reductionPresent = none ∧
      (∀ mode, (priorOf d mode).length = numChords first.pitchType ∧ (priorOf d mode).sum = 1 ∧
        ∀ (j : Nat) p, (priorOf d mode)[j]? = some p →
          p = (s / numChords first.pitchType + occurrences chords mode j) / (s + ofMode chords mode)) ∧
      ∀ c ∈ chords, ∃ i, c.oneHotIndex true true false noReduction = .ok i ∧ 0 ≤ i ∧
        i < numChords first.pitchType := by
  rw [trainICM] at h
  obtain ⟨first, hf, h⟩ := bind_ok h
  obtain ⟨acc, hacc, h⟩ := bind_ok h
  obtain ⟨a', b'⟩ := acc
  injection h with h
  subst h
  have hf' := pyGet_nonneg _ _ _ (by omega) hf
  have hn := numChords_pos first.pitchType
  have hn' : (numChords first.pitchType : ℚ) ≠ 0 := by
    have : (0 : ℚ) < numChords first.pitchType := by exact_mod_cast hn
    linarith
  obtain ⟨g1, g2, g3, g4, g5, g6, g7⟩ := count_inv chords _ _ a' b' hacc
  have hsum : (List.replicate (numChords first.pitchType) (s / (numChords first.pitchType : ℚ))).sum = s := by
    rw [sum_replicate]
    field_simp
  have hget : ∀ j, j < numChords first.pitchType →
      (List.replicate (numChords first.pitchType) (s / (numChords first.pitchType : ℚ))).getD j 0 =
        s / numChords first.pitchType := by
    intro j hj
    rw [List.getD_eq_getElem?_getD, List.getElem?_replicate, if_pos hj]; rfl
  refine ⟨first, by simpa using hf', rfl, rfl, rfl, ?_, ?_⟩
  · intro mode
    have h0 : (0 : ℚ) ≤ (ofMode chords mode : ℚ) := by exact_mod_cast Nat.zero_le _
    cases mode with
    | major =>
      exact normalised_inv a' _ s _ (fun j => occurrences chords .major j) hs h0
        (by rw [g1, List.length_replicate]; rfl) (by rw [g3]; congr 1)
        (fun j hj => by rw [g5]; congr 1; exact hget j hj)
    | minor =>
      exact normalised_inv b' _ s _ (fun j => occurrences chords .minor j) hs h0
        (by rw [g2, List.length_replicate]; rfl) (by rw [g4]; congr 1)
        (fun j hj => by rw [g6]; congr 1; exact hget j hj)
  · intro c hc
    obtain ⟨i, q1, q2, q3, q4⟩ := g7 c hc
    refine ⟨i, q1, q2, ?_⟩
    simp only [List.length_replicate] at q3 q4
    rcases mode_cases c.keyMode with hm | hm
    · exact q3 hm
    · exact q4 hm

/-- C46: for each mode, all probabilities are positive and they sum to one; the probability of a chord is
its count and its part of the smoothing mass, over the number of chords of the mode and that mass. A chord
is more probable than another one if and only if it is more frequent. -/
theorem C46_distribution (chords : List (Chord ℚ)) (s : ℚ) (hs : 0 < s) (d : ICMData)
    (h : trainICM chords s = .ok d) (mode : KeyMode) :
    (priorOf d mode).length = numChords d.pitchType ∧ (priorOf d mode).sum = 1 ∧
    (∀ (j : Nat) p, (priorOf d mode)[j]? = some p → 0 < p ∧
      p * (s + ofMode chords mode) = s / numChords d.pitchType + occurrences chords mode j) ∧
    ∀ (i j : Nat) p q, (priorOf d mode)[i]? = some p → (priorOf d mode)[j]? = some q →
      (p ≤ q ↔ occurrences chords mode i ≤ occurrences chords mode j) := by
  obtain ⟨first, _, h2, _, _, h3, _⟩ := train_inv chords s hs d h
  obtain ⟨k1, k2, k3⟩ := h3 mode
  rw [h2]
  have hn : (0 : ℚ) < numChords first.pitchType := by exact_mod_cast numChords_pos _
  have hT : (0 : ℚ) ≤ ofMode chords mode := by exact_mod_cast Nat.zero_le _
  have hden : 0 < s + (ofMode chords mode : ℚ) := by linarith
  have hsn : 0 < s / (numChords first.pitchType : ℚ) := div_pos hs hn
  refine ⟨k1, k2, ?_, ?_⟩
  · intro j p hp
    have hocc : (0 : ℚ) ≤ occurrences chords mode j := by exact_mod_cast Nat.zero_le _
    rw [k3 j p hp]
    refine ⟨div_pos (by linarith) hden, ?_⟩
    rw [div_mul_cancel₀ _ hden.ne']
  · intro i j p q hp hq
    rw [k3 i p hp, k3 j q hq, div_le_div_iff_of_pos_right hden]
    constructor
    · intro h
      have : (occurrences chords mode i : ℚ) ≤ occurrences chords mode j := by linarith
      exact_mod_cast this
    · intro h
      have : (occurrences chords mode i : ℚ) ≤ occurrences chords mode j := by exact_mod_cast h
      linarith

/-- C46: there is a result for any non-empty list of chords of one pitch type that all have a relative
chord. -/
theorem C46_ok (chords : List (Chord ℚ)) (s : ℚ) (pt : PitchType) (hne : chords ≠ [])
    (hpt : ∀ c ∈ chords, c.pitchType = pt)
    (hi : ∀ c ∈ chords, ∃ i, c.oneHotIndex true true false noReduction = .ok i) :
    ∃ d, trainICM chords s = .ok d := by
  have hfold : ∀ (l : List (Chord ℚ)) (a b : List ℚ), (∀ c ∈ l, c ∈ chords) → a.length = numChords pt →
      b.length = numChords pt → ∃ r, l.foldlM countChord (a, b) = (.ok r : Py (List ℚ × List ℚ)) := by
    intro l
    induction l with
    | nil => intro a b _ _ _; exact ⟨(a, b), rfl⟩
    | cons c l ih =>
      intro a b hl ha hb
      obtain ⟨i, hci⟩ := hi c (hl c (by simp))
      have hrange : 0 ≤ i ∧ i < (numChords pt : Int) := by
        have hci' := hci
        rw [Chord.oneHotIndex] at hci'
        obtain ⟨root, _, hci'⟩ := bind_ok hci'
        have := C01_encode_decode _ _ _ _ _ _ _ _ _ hci'
        rw [hpt c (hl c (by simp))] at this
        refine ⟨this.1, ?_⟩
        have h2 := this.2.1
        rw [numChords]
        omega
      have hadd : ∀ v : List ℚ, v.length = numChords pt → ∃ w, addAt v i 1 = .ok w ∧ w.length = numChords pt := by
        intro v hv
        refine ⟨_, if_pos ⟨hrange.1, by omega⟩, by simp [hv]⟩
      rw [List.foldlM_cons]
      simp only [countChord, Bind.bind, hci, Except.bind]
      by_cases hm : c.keyMode = .major
      · obtain ⟨w, hw, hwl⟩ := hadd a ha
        simp only [hm, if_true, hw]
        exact ih w b (fun x hx => hl x (by simp [hx])) hwl hb
      · obtain ⟨w, hw, hwl⟩ := hadd b hb
        simp only [hm, if_false, hw]
        exact ih a w (fun x hx => hl x (by simp [hx])) ha hwl
  obtain ⟨first, rest, rfl⟩ := List.exists_cons_of_ne_nil hne
  have hfp : first.pitchType = pt := hpt first (by simp)
  obtain ⟨r, hr⟩ := hfold (first :: rest)
    (List.replicate (numChords pt) (s / numChords pt)) (List.replicate (numChords pt) (s / numChords pt))
    (fun c hc => hc) (by simp) (by simp)
  have hfirst : pyGet (first :: rest) 0 = .ok first := rfl
  simp only [numChords] at hr
  simp only [trainICM, Bind.bind, hfirst, Except.bind, hfp, hr]
  exact ⟨_, rfl⟩

/-! ## C69 -/

/-- C69: loaded with inversions and without a reduction, the model has the probabilities of the file. -/
theorem C69_default_partial (data : ICMData) :
    ∃ m, ICM.init data true none = .ok m ∧ m.majorPrior = data.major ∧ m.minorPrior = data.minor ∧
      m.useInversions = data.inversionsPresent ∧
      ∀ t, m.reduction t = data.reductionPresent.elim t (fun r => r t) := by
  refine ⟨_, rfl, rfl, rfl, by simp, ?_⟩
  intro t
  cases h : data.reductionPresent <;> rfl

/-- C69 fails: no model can be loaded with a reduction or without inversions. -/
theorem C69_reduced (data : ICMData) (useInversions : Bool) (reduction : Option Reduction)
    (h : useInversions = false ∨ reduction ≠ none) :
    ICM.init data useInversions reduction = .error .typeError := by
  have hc : reduction.isSome = true ∨ useInversions = false := by
    rcases h with h | h
    · exact Or.inr h
    · cases reduction with
      | none => exact absurd rfl h
      | some r => exact Or.inl rfl
  obtain ⟨labels, hl, _⟩ := C02_labels data.pitchType useInversions true none false (reduction.getD noReduction)
  simp only [ICM.init]
  rw [if_pos hc, hl]
  rfl

/-! ## C70 -/

theorem argmaxFrom_spec {L : Type} [LinearOrder L] (l : List L) (best : L) (at_ pos : Nat) (full : Nat → Option L)
    (hat : full at_ = some best) (hfull : ∀ j : Nat, full (pos + j) = l[j]?)
    (hbest : ∀ j x, j < pos → full j = some x → x ≤ best) :
    ∃ x, full (argmaxFrom best at_ pos l) = some x ∧ ∀ j y, full j = some y → y ≤ x := by
  induction l generalizing best at_ pos with
  | nil =>
    refine ⟨best, hat, ?_⟩
    intro j y hy
    by_cases hj : j < pos
    · exact hbest j y hj hy
    · have := hfull (j - pos)
      rw [show pos + (j - pos) = j by omega, hy] at this
      simp at this
  | cons a l ih =>
    have ha : full pos = some a := by simpa using hfull 0
    have htail : ∀ j : Nat, full (pos + 1 + j) = l[j]? := by
      intro j
      have := hfull (j + 1)
      rw [List.getElem?_cons_succ] at this
      rw [← this]; congr 1; omega
    rw [argmaxFrom]
    split
    · rename_i hlt
      refine ih a pos (pos + 1) ha htail ?_
      intro j x hj hx
      rcases Nat.lt_succ_iff_lt_or_eq.1 hj with hj | hj
      · exact (hbest j x hj hx).trans hlt.le
      · subst hj
        rw [ha] at hx
        injection hx with hx
        exact hx.symm.le
    · rename_i hlt
      refine ih best at_ (pos + 1) hat htail ?_
      intro j x hj hx
      rcases Nat.lt_succ_iff_lt_or_eq.1 hj with hj | hj
      · exact hbest j x hj hx
      · subst hj
        rw [ha] at hx
        injection hx with hx
        rw [← hx]
        exact not_lt.1 hlt

theorem argmax_spec {L : Type} [LinearOrder L] (l : List L) (hne : l ≠ []) :
    ∃ i x, argmax l = .ok i ∧ l[i]? = some x ∧ ∀ (j : Nat) y, l[j]? = some y → y ≤ x := by
  obtain ⟨a, l, rfl⟩ := List.exists_cons_of_ne_nil hne
  obtain ⟨x, h1, h2⟩ := argmaxFrom_spec l a 0 1 (fun j => (a :: l)[j]?) rfl
    (by intro j; rw [Nat.add_comm, List.getElem?_cons_succ])
    (by
      intro j x hj hx
      have : j = 0 := by omega
      subst this
      simp only [List.getElem?_cons_zero, Option.some.injEq] at hx
      exact hx.symm.le)
  exact ⟨_, x, rfl, h1, h2⟩

/-- The number of pieces that a guess for each mode gets right. -/
def guessed (pieces : List Opening) (guess : KeyMode → Int) : Nat :=
  pieces.countP fun o => decide (o.chord.oneHotIndex true true false noReduction = .ok (guess o.mode))

theorem guessed_eq (pieces : List Opening) (hm : ∀ o ∈ pieces, o.mode = o.chord.keyMode) (guess : KeyMode → Int) :
    guessed pieces guess = occurrences (pieces.map (·.chord)) .major (guess .major) +
      occurrences (pieces.map (·.chord)) .minor (guess .minor) := by
  induction pieces with
  | nil => rfl
  | cons o pieces ih =>
    have ho := hm o (by simp)
    have := ih fun x hx => hm x (by simp [hx])
    simp only [guessed, occurrences, List.map_cons, List.countP_cons] at this ⊢
    rw [this]
    rcases mode_cases o.chord.keyMode with hk | hk
    · rw [ho, hk]; simp; omega
    · rw [ho, hk]; simp; omega

/-- C70: on the pieces whose first chords it was trained with, the model is right at least as often as any
fixed guess for each mode. -/
theorem C70_majority {L : Type} [LinearOrder L] (log : ℚ → L) (hlog : ∀ p q : ℚ, 0 < p → p < q → log p < log q)
    (pieces : List Opening) (hne : pieces ≠ []) (hm : ∀ o ∈ pieces, o.mode = o.chord.keyMode)
    (s : ℚ) (hs : 0 < s) (d : ICMData) (h : trainICM (pieces.map (·.chord)) s = .ok d) (m : ICM)
    (hload : ICM.init d true none = .ok m) :
    ∃ acc, m.accuracy log pieces = .ok acc ∧
      (∃ guess, acc = 100 * (guessed pieces guess : ℚ) / pieces.length) ∧
      ∀ guess, 100 * (guessed pieces guess : ℚ) / pieces.length ≤ acc := by
  have hd := C46_distribution _ s hs d h
  obtain ⟨first, _, hpt, _, _, _, hidx⟩ := train_inv _ s hs d h
  obtain ⟨m', hm', e1, e2, _, _⟩ := C69_default_partial d
  rw [hload] at hm'
  injection hm' with hm'
  subst hm'
  have hprior : ∀ mode, m.prior (decide (mode ≠ KeyMode.major)) = priorOf d mode := by
    intro mode
    cases mode
    · simp [ICM.prior, priorOf, e1]
    · simp [ICM.prior, priorOf, e2]
  -- the argmax for each mode is a most frequent chord
  have hbest : ∀ mode, ∃ i, argmax ((priorOf d mode).map log) = .ok i ∧ i < numChords d.pitchType ∧
      ∀ j : Int, occurrences (pieces.map (·.chord)) mode j ≤ occurrences (pieces.map (·.chord)) mode (i : Nat) := by
    intro mode
    obtain ⟨k1, _, k3, k4⟩ := hd mode
    have hne' : (priorOf d mode).map log ≠ [] := by
      intro h
      have := congrArg List.length h
      rw [List.length_map, k1] at this
      have := numChords_pos d.pitchType
      simp at *
      omega
    obtain ⟨i, x, a1, a2, a3⟩ := argmax_spec _ hne'
    rw [List.getElem?_map, Option.map_eq_some_iff] at a2
    obtain ⟨p, hp, rfl⟩ := a2
    refine ⟨i, a1, by rw [← k1]; exact (List.getElem?_eq_some_iff.1 hp).1, ?_⟩
    intro j
    by_cases hj : 0 ≤ j ∧ j < numChords d.pitchType
    · obtain ⟨n, rfl⟩ : ∃ n : Nat, j = n := ⟨j.toNat, by omega⟩
      have hn : n < (priorOf d mode).length := by omega
      have hq := List.getElem?_eq_getElem hn
      apply (k4 n i _ p hq hp).1
      have hle := a3 n (log (priorOf d mode)[n]) (by rw [List.getElem?_map, hq]; rfl)
      by_contra hlt
      exact absurd (hlog p _ (k3 i p hp).1 (not_le.1 hlt)) (not_lt.2 hle)
    · have : occurrences (pieces.map (·.chord)) mode j = 0 := by
        rw [occurrences, List.countP_eq_zero]
        intro c hc hcj
        simp only [decide_eq_true_eq] at hcj
        obtain ⟨i', q1, q2, q3⟩ := hidx c hc
        rw [hcj.2] at q1
        injection q1 with q1
        rw [← hpt] at q3
        omega
      omega
  obtain ⟨iMaj, hMaj, hMajLt, hMajBest⟩ := hbest .major
  obtain ⟨iMin, hMin, hMinLt, hMinBest⟩ := hbest .minor
  let guess : KeyMode → Int := fun mode => if mode = .major then iMaj else iMin
  have hcorrect : ∀ o ∈ pieces, ICM.correctFor iMaj iMin o m.prior =
      .ok (if decide (o.chord.oneHotIndex true true false noReduction = .ok (guess o.mode)) then 1 else 0) := by
    intro o ho
    obtain ⟨i, q1, q2, q3⟩ := hidx o.chord (List.mem_map_of_mem ho)
    rw [← hpt] at q3
    have hget : ∃ x, pyGet (m.prior (decide (o.mode ≠ KeyMode.major))) i = .ok x := by
      rw [hprior]
      obtain ⟨n, rfl⟩ : ∃ n : Nat, i = n := ⟨i.toNat, by omega⟩
      have hn : n < (priorOf d o.mode).length := by rw [(hd o.mode).1]; omega
      exact ⟨_, Verif.KeyDatasets.pyGet_of (List.getElem?_eq_getElem hn)⟩
    obtain ⟨x, hx⟩ := hget
    simp only [ICM.correctFor, Bind.bind, q1, Except.bind, hx, guess, Except.ok.injEq, decide_eq_true_eq]
    by_cases hmm : o.mode = .major <;> simp [hmm]
  have hmapM := mapM_ok (fun o => ICM.correctFor iMaj iMin o m.prior) _ pieces hcorrect
  have hsum : ∀ l : List Opening, (l.map fun o =>
      if decide (o.chord.oneHotIndex true true false noReduction = .ok (guess o.mode)) then 1 else 0).sum =
        guessed l guess := by
    intro l
    induction l with
    | nil => rfl
    | cons o l ih => rw [List.map_cons, List.sum_cons, ih, guessed, guessed, List.countP_cons]; omega
  have hp1 : m.prior false = priorOf d .major := by simpa using hprior .major
  have hp2 : m.prior true = priorOf d .minor := by simpa using hprior .minor
  refine ⟨100 * (guessed pieces guess : ℚ) / pieces.length, ?_, ⟨guess, rfl⟩, ?_⟩
  · simp only [ICM.accuracy, Bind.bind, hp1, hp2, hMaj, hMin, Except.bind]
    rw [hmapM]
    simp only [hsum, if_neg hne]
  · intro g
    have hlen : (0 : ℚ) < pieces.length := by exact_mod_cast List.length_pos_iff.2 hne
    rw [div_le_div_iff_of_pos_right hlen]
    have : guessed pieces g ≤ guessed pieces guess := by
      rw [guessed_eq pieces hm, guessed_eq pieces hm]
      have h1 := hMajBest (g .major)
      have h2 := hMinBest (g .minor)
      simp only [guess]
      simp only [reduceCtorEq, if_true, if_false]
      omega
    have : (guessed pieces g : ℚ) ≤ guessed pieces guess := by exact_mod_cast this
    linarith

/-- C major: I and V; D major: I; A minor: i. -/
def demoChords : List (Chord ℚ) :=
  [⟨0, 0, 0, .major, .major, 0, 3, 2, 1, .midi⟩, ⟨7, 7, 0, .major, .major, 0, 3, 2, 1, .midi⟩,
   ⟨2, 2, 2, .major, .major, 0, 3, 2, 1, .midi⟩, ⟨9, 9, 9, .minor, .minor, 0, 3, 2, 1, .midi⟩]

/-- The tonic occurs two times of three, the dominant once; 528 chords in total. -/
example : ((trainICM demoChords 1).map fun d => (d.major.length, d.major[0]?, d.major[21]?, d.major[1]?)) =
    .ok (528, some ((1 / 528 + 2) / 4), some ((1 / 528 + 1) / 4), some (1 / 528 / 4)) := by decide +kernel

end Verif.InitialChord
