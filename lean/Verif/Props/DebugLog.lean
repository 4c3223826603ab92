import Verif.DebugLog
import Verif.Props.Piece
import Verif.Props.ModelEval
import Verif.Lemmas.Lists
import Mathlib.Data.List.Sort

/-!
# Properties of the debug messages (C120 to C124)
-/

namespace Verif.DebugLog

/-! ## C120 -/

/-- Input `i` counts: it is not the first one, and not at the position of the previous one. -/
def Judged (cache : List ℚ) (i : Nat) : Bool := decide (0 < i) && decide (cache[i - 1]? ≠ some 0)

/-- The inputs which count, and satisfy a condition. -/
def judged (cache : List ℚ) (P : Nat → Bool) : List Nat :=
  (List.range cache.length).filter (fun i => Judged cache i && P i)

/-- The piece changes chord at input `i`. -/
def Changes (changes : Option (List Int)) (i : Nat) : Bool := changes.any (fun l => decide ((i : Int) ∈ l))

theorem step_fold (changes : Option (List Int)) (f : Nat → ℚ × Bool) (is : List Nat) (r : ChangeCounts) :
    (is.map fun i => (f i, i)).foldl (changeStep changes) r =
      { changeCorrect := r.changeCorrect +
          (is.filter fun i => !(f i).2 && (Changes changes i && !decide ((f i).1 < 1 / 2))).length
        changeTotal := r.changeTotal + (is.filter fun i => !(f i).2 && Changes changes i).length
        noChangeCorrect := r.noChangeCorrect +
          (is.filter fun i => !(f i).2 && (!Changes changes i && !decide (1 / 2 < (f i).1))).length
        noChangeTotal := r.noChangeTotal + (is.filter fun i => !(f i).2 && !Changes changes i).length
        missed := r.missed ++ is.filter fun i => !(f i).2 && (Changes changes i && decide ((f i).1 < 1 / 2))
        spurious := r.spurious ++
          is.filter fun i => !(f i).2 && (!Changes changes i && decide (1 / 2 < (f i).1)) } := by
  induction is generalizing r with
  | nil => simp
  | cons i is ih =>
    rw [List.map_cons, List.foldl_cons, ih]
    have hc : (changes.any fun l => decide (((i : Nat) : Int) ∈ l)) = Changes changes i := rfl
    simp only [changeStep, hc, List.filter_cons]
    clear ih
    generalize (1 / 2 : ℚ) = half
    cases h1 : (f i).2 <;> cases h2 : Changes changes i <;>
      by_cases h3 : (f i).1 < half <;> by_cases h4 : half < (f i).1 <;>
      simp [h3, h4, Nat.add_assoc, Nat.add_comm 1]

theorem zip_range (probs : List ℚ) (inv : List Bool) (h : probs.length = inv.length) :
    (probs.zip inv).zipIdx = (List.range inv.length).map fun i => ((probs.getD i 0, inv.getD i true), i) := by
  apply List.ext_getElem
  · simp [h]
  · intro i h1 h2
    simp at h1 h2
    simp [h1, h]

theorem invalid_ok (cache : List ℚ) (hn : cache ≠ []) :
    ∃ inv, debugInvalid cache = .ok inv ∧ inv.length = cache.length ∧
      ∀ i, i < cache.length → inv.getD i true = !Judged cache i := by
  cases cache with
  | nil => exact absurd rfl hn
  | cons a l =>
    refine ⟨_, rfl, by simp [rollOne]; omega, ?_⟩
    intro i hi
    cases i with
    | zero => simp [Judged, rollOne]
    | succ i =>
      have h1 : (rollOne ((a :: l).map fun d => decide (d = 0)))[i + 1]? = ((a :: l).map fun d => decide (d = 0))[i]? :=
        ModelEval.rollOne_get _ i (by simpa using hi)
      rw [List.getD_eq_getElem?_getD, List.getElem?_set_ne (by omega), h1, List.getElem?_map,
        List.getElem?_eq_getElem (by omega : i < (a :: l).length)]
      simp only [Judged, Nat.add_sub_cancel, List.getElem?_eq_getElem (by omega : i < (a :: l).length)]
      simp

/-- The counters and messages as they should be. -/
def specCounts (changes : Option (List Int)) (cache probs : List ℚ) : ChangeCounts :=
  { changeCorrect := (judged cache fun i => Changes changes i && !decide (probs.getD i 0 < 1 / 2)).length
    changeTotal := (judged cache (Changes changes)).length
    noChangeCorrect := (judged cache fun i => !Changes changes i && !decide (1 / 2 < probs.getD i 0)).length
    noChangeTotal := (judged cache fun i => !Changes changes i).length
    missed := judged cache fun i => Changes changes i && decide (probs.getD i 0 < 1 / 2)
    spurious := judged cache fun i => !Changes changes i && decide (1 / 2 < probs.getD i 0) }

theorem counts_eq (changes : Option (List Int)) (cache probs : List ℚ) (hp : probs.length = cache.length)
    (hn : cache ≠ []) :
    ∃ inv, debugInvalid cache = .ok inv ∧
      (probs.zip inv).zipIdx.foldl (changeStep changes) ⟨0, 0, 0, 0, [], []⟩ = specCounts changes cache probs := by
  obtain ⟨inv, h1, h2, h3⟩ := invalid_ok cache hn
  refine ⟨inv, h1, ?_⟩
  rw [zip_range probs inv (by omega), step_fold]
  have key (P : Nat → Bool) : (List.range inv.length).filter (fun i => !inv.getD i true && P i) = judged cache P := by
    rw [judged, h2]
    apply List.filter_congr
    intro i hi
    rw [h3 i (by simpa using hi), Bool.not_not]
  simp only [key, Nat.zero_add, List.nil_append]
  rfl

/-- C120: the counters of the chord transition model are those of the inputs which count, an input is reported
if and only if its probability contradicts the annotation, and both accuracies are the quotients, provided that some
input which counts has a chord change, and some has none. -/
theorem C120_counts_partial (changes : List Int) (cache probs : List ℚ) (hp : probs.length = cache.length)
    (h1 : ∃ i, 0 < i ∧ i < cache.length ∧ cache[i - 1]? ≠ some 0 ∧ (i : Int) ∈ changes)
    (h2 : ∃ i, 0 < i ∧ i < cache.length ∧ cache[i - 1]? ≠ some 0 ∧ (i : Int) ∉ changes) :
    ∃ r a b, debugChangeProbs (some changes) cache probs = .ok (r, some (a, b)) ∧
      r = specCounts (some changes) cache probs ∧
      a * r.changeTotal = r.changeCorrect ∧ b * r.noChangeTotal = r.noChangeCorrect ∧
      0 < r.changeTotal ∧ 0 < r.noChangeTotal := by
  obtain ⟨i1, p1, l1, c1, m1⟩ := h1
  obtain ⟨i2, p2, l2, c2, m2⟩ := h2
  have hn : cache ≠ [] := by rintro rfl; simp at l1
  obtain ⟨inv, e1, e2⟩ := counts_eq (some changes) cache probs hp hn
  have t1 : 0 < (specCounts (some changes) cache probs).changeTotal := by
    refine List.length_pos_of_mem (a := i1) (List.mem_filter.mpr ⟨by simpa using l1, ?_⟩)
    simp [Judged, Changes, p1, c1, m1]
  have t2 : 0 < (specCounts (some changes) cache probs).noChangeTotal := by
    refine List.length_pos_of_mem (a := i2) (List.mem_filter.mpr ⟨by simpa using l2, ?_⟩)
    simp [Judged, Changes, p2, c2, m2]
  refine ⟨specCounts (some changes) cache probs,
    ((specCounts (some changes) cache probs).changeCorrect : ℚ) / (specCounts (some changes) cache probs).changeTotal,
    ((specCounts (some changes) cache probs).noChangeCorrect : ℚ) /
      (specCounts (some changes) cache probs).noChangeTotal, ?_, rfl, ?_, ?_, t1, t2⟩
  · simp only [debugChangeProbs, e1, e2, Bind.bind, Except.bind, countRatio]
    rw [if_neg (by omega), if_neg (by omega)]
  · exact div_mul_cancel₀ _ (by exact_mod_cast (by omega))
  · exact div_mul_cancel₀ _ (by exact_mod_cast (by omega))

/-- C120: for a piece with inputs, debug messages raise if and only if the piece is annotated, and all inputs which
count have a chord change, or none of them has one. -/
theorem C120_raises (changes : Option (List Int)) (cache probs : List ℚ) (hp : probs.length = cache.length)
    (hn : cache ≠ []) :
    (∃ e, debugChangeProbs changes cache probs = .error e) ↔
      ∃ l, changes = some l ∧
        ((∀ i, 0 < i → i < cache.length → cache[i - 1]? ≠ some 0 → (i : Int) ∉ l) ∨
          (∀ i, 0 < i → i < cache.length → cache[i - 1]? ≠ some 0 → (i : Int) ∈ l)) := by
  obtain ⟨inv, e1, e2⟩ := counts_eq changes cache probs hp hn
  cases changes with
  | none => simp [debugChangeProbs, e1, Bind.bind, Except.bind]
  | some l =>
    constructor
    · rintro ⟨e, he⟩
      refine ⟨l, rfl, ?_⟩
      by_contra hcon
      push Not at hcon
      obtain ⟨r, a, b, h, _⟩ := C120_counts_partial l cache probs hp hcon.1
        (by obtain ⟨i, h1, h2, h3, h4⟩ := hcon.2; exact ⟨i, h1, h2, h3, h4⟩)
      rw [h] at he; simp at he
    · rintro ⟨l', hl, h⟩
      injection hl with hl; subst hl
      simp only [debugChangeProbs, e1, e2, Bind.bind, Except.bind, countRatio]
      rcases h with h | h
      · have : (specCounts (some l) cache probs).changeTotal = 0 := by
          refine List.length_eq_zero_iff.mpr (List.filter_eq_nil_iff.mpr ?_)
          intro i hi
          have := h i
          simp only [List.mem_range] at hi
          simp only [Judged, Changes, Option.any_some, Bool.and_eq_true, decide_eq_true_eq]
          tauto
        rw [if_pos this]; exact ⟨_, rfl⟩
      · have : (specCounts (some l) cache probs).noChangeTotal = 0 := by
          refine List.length_eq_zero_iff.mpr (List.filter_eq_nil_iff.mpr ?_)
          intro i hi
          have := h i
          simp only [List.mem_range] at hi
          simp only [Judged, Changes, Option.any_some, Bool.and_eq_true, Bool.not_eq_true', decide_eq_true_eq,
            decide_eq_false_iff_not]
          tauto
        split
        · exact ⟨_, rfl⟩
        · simp only [if_pos this]; exact ⟨_, rfl⟩

/-- C120 fails: with debug messages, the estimate of a piece which is annotated with one chord raises, whatever the
probabilities are. -/
theorem C120_fails (cache probs : List ℚ) (hp : probs.length = cache.length) (hn : cache ≠ []) :
    debugChangeProbs (some [0]) cache probs = .error .zeroDivisionError := by
  obtain ⟨inv, e1, e2⟩ := counts_eq (some [0]) cache probs hp hn
  simp only [debugChangeProbs, e1, e2, Bind.bind, Except.bind, countRatio]
  have : (specCounts (some [0]) cache probs).changeTotal = 0 := by
    refine List.length_eq_zero_iff.mpr (List.filter_eq_nil_iff.mpr ?_)
    intro i hi
    simp only [Judged, Changes, Option.any_some, Bool.and_eq_true, decide_eq_true_eq, List.mem_singleton]
    omega
  rw [if_pos this]

/-- Four notes, the first two together; chords at notes 0, 2. The change at note 2 is missed, and one at note 3 is
spurious; note 1 does not count. -/
example : debugChangeProbs (some [0, 2]) [0, 1, 1, 1, 1] [1, 1, 1/4, 3/4, 1/2] =
    .ok (⟨0, 1, 1, 2, [2], [3]⟩, some (0, 1/2)) := by decide +kernel

/-- Without annotation nothing is divided; every probable change is reported. -/
example : debugChangeProbs none [0, 1, 1] [1, 1, 3/4] = .ok (⟨0, 0, 0, 1, [], [2]⟩, none) ∧
    debugChangeProbs (some []) [] [] = .error .indexError := by decide +kernel

/-! ## C121 -/

/-- What is known of `np.argsort` of the negated values: a permutation of the indices in order of decreasing values. -/
def IsArgsort (argsort : List ℚ → List Nat) : Prop :=
  ∀ l, (argsort l).Perm (List.range l.length) ∧
    (argsort l).Pairwise (fun i j => ∀ p q, l[i]? = some p → l[j]? = some q → q ≤ p)

/-- The range is exactly the one of chord `i`, which is not the last one. -/
def OneChord (changes : List Int) (range : Int × Int) (i : Nat) : Prop :=
  changes[i]? = some range.1 ∧ changes[i + 1]? = some range.2

instance (changes : List Int) (range : Int × Int) (i : Nat) : Decidable (OneChord changes range i) :=
  inferInstanceAs (Decidable (_ ∧ _))

theorem rank_index (argsort : List ℚ → List Nat) (hs : IsArgsort argsort) (p : List ℚ) (id : Nat)
    (h : id < p.length) : listIndex (argsort p) id = .ok ((argsort p).idxOf id) := by
  have : id ∈ argsort p := (hs p).1.mem_iff.mpr (by simpa using h)
  simp only [listIndex, if_pos this]

theorem idxOf_zero (l : List Nat) (x : Nat) (h : x ∈ l) : l.idxOf x = 0 ↔ l[0]? = some x := by
  cases l with
  | nil => simp at h
  | cons a l =>
    by_cases ha : a = x
    · simp [ha]
    · simp [ha]

theorem found_spec {γ : Type} (chords : List γ) (changes : List Int) (hlen : chords.length = changes.length)
    (hs : changes.Pairwise (· < ·)) (a b : Int) (hab : a < b) (hfirst : ∃ c, changes[0]? = some c ∧ c ≤ a) :
    ∃ found, chordsWithinRange chords changes a (some b) = .ok found ∧ (∀ c ∈ found, c ∈ chords) ∧
      (rangeCorrect (some (chords, changes)) (a, b) found = true ↔ ∃ i, OneChord changes (a, b) i) ∧
      ∀ i c, OneChord changes (a, b) i → chords[i]? = some c → found = [c] := by
  obtain ⟨p, q, e, hpq⟩ := Piece.C54_within_partial chords changes hlen (hs.imp (fun h => Int.le_of_lt h)) a (some b)
    (by intro e he; injection he with he; omega) hfirst
  have mono (i j : Nat) (x y : Int) (hx : changes[i]? = some x) (hy : changes[j]? = some y) (hij : i < j) : x < y := by
    obtain ⟨h1, rfl⟩ := List.getElem?_eq_some_iff.mp hx
    obtain ⟨h2, rfl⟩ := List.getElem?_eq_some_iff.mp hy
    exact List.pairwise_iff_getElem.mp hs i j h1 h2 hij
  have single (i : Nat) (c : γ) (hi : OneChord changes (a, b) i) (hc : chords[i]? = some c) :
      (chords.take q).drop p = [c] := by
    obtain ⟨h1, h2⟩ := hi
    simp only at h1 h2
    have hil : i + 1 < changes.length := (List.getElem?_eq_some_iff.mp h2).1
    have s1 := (hpq i (by omega)).mpr
      ⟨a, h1, by intro e he; injection he with he; omega, .inl (Int.le_refl _)⟩
    have s2 : ¬ (p ≤ i + 1 ∧ i + 1 < q) := by
      rw [hpq (i + 1) (by omega)]
      rintro ⟨c', hc', hlt, _⟩
      rw [h2] at hc'; injection hc' with hc'
      have := hlt b rfl; omega
    have hq : q = i + 1 := by omega
    have hp : p = i := by
      by_contra hne
      have hpi : p ≤ i - 1 ∧ i - 1 < q := by omega
      rw [hpq (i - 1) (by omega)] at hpi
      obtain ⟨c', hc', _, h⟩ := hpi
      rcases h with h | h
      · have := mono (i - 1) i c' a hc' h1 (by omega); omega
      · have := h a (by rw [show i - 1 + 1 = i by omega]; exact h1); omega
    subst hq hp
    obtain ⟨hl, rfl⟩ := List.getElem?_eq_some_iff.mp hc
    rw [List.drop_take]
    rw [show p + 1 - p = 1 by omega, List.drop_eq_getElem_cons hl]; rfl
  refine ⟨_, e, fun c hc => List.mem_of_mem_take (List.mem_of_mem_drop hc), ?_, single⟩
  simp only [rangeCorrect, Option.any_some, Bool.and_eq_true, decide_eq_true_eq]
  constructor
  · rintro ⟨h1, h2, h3⟩
    obtain ⟨i, hi⟩ := List.getElem?_of_mem h2
    obtain ⟨j, hj⟩ := List.getElem?_of_mem h3
    have hil := (List.getElem?_eq_some_iff.mp hi).1
    have hjl := (List.getElem?_eq_some_iff.mp hj).1
    have hij : i < j := by
      rcases Nat.lt_trichotomy i j with h | h | h
      · exact h
      · subst h; rw [hi] at hj; injection hj with hj; omega
      · have := mono j i b a hj hi h; omega
    rcases Nat.lt_or_eq_of_le (show i + 1 ≤ j from hij) with h | h
    · exfalso
      have hm := List.getElem?_eq_getElem (show i + 1 < changes.length by omega)
      have s1 := (hpq i (by omega)).mpr ⟨a, hi, by intro e he; injection he with he; omega, .inl (Int.le_refl _)⟩
      have s2 := (hpq (i + 1) (by omega)).mpr ⟨_, hm, by
        intro e he; injection he with he; subst he
        exact mono (i + 1) j _ _ hm hj h, .inl (Int.le_of_lt (mono i (i + 1) _ _ hi hm (by omega)))⟩
      rw [List.length_drop, List.length_take] at h1
      omega
    · subst h; exact ⟨i, hi, hj⟩
  · rintro ⟨i, hi⟩
    have hil : i + 1 < changes.length := (List.getElem?_eq_some_iff.mp hi.2).1
    have hc := List.getElem?_eq_getElem (show i < chords.length by omega)
    rw [single i _ hi hc]
    exact ⟨rfl, List.mem_of_getElem? hi.1, List.mem_of_getElem? hi.2⟩

/-- The range of some chord but the last one. -/
def counted (changes : List Int) (x : (Int × Int) × List ℚ) : Bool :=
  decide (∃ i, i < changes.length ∧ OneChord changes x.1 i)

/-- The range of a chord, whose class `cid` is the first one in the ranking. -/
def rightly {γ : Type} (argsort : List ℚ → List Nat) (cid : γ → Nat) (chords : List γ) (changes : List Int)
    (x : (Int × Int) × List ℚ) : Bool :=
  decide (∃ i, i < changes.length ∧ OneChord changes x.1 i ∧ (argsort x.2)[0]? = chords[i]?.map cid)

/-- The message about a range: the class of its chord, with its probability and rank, and the classes down to it,
but not more than `maxPrint`. -/
def IsMessage {γ : Type} (argsort : List ℚ → List Nat) (cid : γ → Nat) (maxPrint : Nat) (chords : List γ)
    (changes : List Int) (x : (Int × Int) × List ℚ) (m : ClassMessage) : Prop :=
  ∃ i c k p, OneChord changes x.1 i ∧ chords[i]? = some c ∧ (argsort x.2)[k]? = some (cid c) ∧ 0 < k ∧
    x.2[cid c]? = some p ∧ m = ⟨x.1, [cid c], [p], [k], (argsort x.2).take (min maxPrint (k + 1))⟩

theorem class_step {γ : Type} (argsort : List ℚ → List Nat) (ha : IsArgsort argsort) (chordId : γ → Py Nat)
    (cid : γ → Nat) (maxPrint : Nat) (chords : List γ) (changes : List Int) (hlen : chords.length = changes.length)
    (hs : changes.Pairwise (· < ·)) (hid : ∀ c ∈ chords, chordId c = .ok (cid c)) (r : ClassCounts)
    (x : (Int × Int) × List ℚ) (hx : x.1.1 < x.1.2) (hfirst : ∃ c, changes[0]? = some c ∧ c ≤ x.1.1)
    (hp : ∀ c ∈ chords, cid c < x.2.length) :
    ∃ ms, classStep argsort chordId maxPrint (some (chords, changes)) r x = .ok
      { correctRanges := r.correctRanges ++ if counted changes x then [x.1] else []
        correctChords := r.correctChords ++ if rightly argsort cid chords changes x then [x.1] else []
        messages := r.messages ++ ms } ∧
      ms.map (·.range) = (if counted changes x && !rightly argsort cid chords changes x then [x.1] else []) ∧
      ∀ m ∈ ms, IsMessage argsort cid maxPrint chords changes x m := by
  obtain ⟨⟨a, b⟩, p⟩ := x
  obtain ⟨found, e, hsub, hcorr, hone⟩ := found_spec chords changes hlen hs a b hx hfirst
  have e1 := mapM_ok chordId cid found (fun c hc => hid c (hsub c hc))
  have e2 : (found.map cid).mapM (fun i : Nat => pyGet p (i : Int)) =
      (.ok ((found.map cid).map fun i => p.getD i 0) : Py (List ℚ)) := by
    refine mapM_ok _ _ _ ?_
    intro i hi
    obtain ⟨c, hc, rfl⟩ := List.mem_map.mp hi
    have := hp c (hsub c hc)
    simp only at this
    rw [pyGet, if_pos (by omega), Int.toNat_natCast, List.getD_eq_getElem?_getD, List.getElem?_eq_getElem this]; rfl
  have e3 : (found.map cid).mapM (listIndex (argsort p)) =
      (.ok ((found.map cid).map fun i => (argsort p).idxOf i) : Py (List Nat)) := by
    refine mapM_ok _ _ _ ?_
    intro i hi
    obtain ⟨c, hc, rfl⟩ := List.mem_map.mp hi
    exact rank_index argsort ha p _ (hp c (hsub c hc))
  have hcount : rangeCorrect (some (chords, changes)) (a, b) found = counted changes ((a, b), p) := by
    apply Bool.eq_iff_iff.mpr
    rw [hcorr, counted, decide_eq_true_eq]
    constructor
    · rintro ⟨i, hi⟩; exact ⟨i, (List.getElem?_eq_some_iff.mp hi.1).1, hi⟩
    · rintro ⟨i, _, hi⟩; exact ⟨i, hi⟩
  simp only [classStep, debugChordsOf, e, e1, e2, e3, Bind.bind, Except.bind]
  rw [hcount]
  cases hc : counted changes ((a, b), p) with
  | false =>
    have hr : rightly argsort cid chords changes ((a, b), p) = false := by
      rw [rightly, decide_eq_false_iff_not]
      rintro ⟨i, h1, h2, _⟩
      rw [counted, decide_eq_false_iff_not] at hc
      exact hc ⟨i, h1, h2⟩
    refine ⟨[], ?_, by simp [hr], by simp⟩
    simp [classUpdate, hr]
  | true =>
    obtain ⟨i, hil, hi⟩ := of_decide_eq_true hc
    have hci := List.getElem?_eq_getElem (show i < chords.length by omega)
    have hfound := hone i _ hi hci
    have hmem : cid chords[i] ∈ argsort p :=
      (ha p).1.mem_iff.mpr (by simpa using hp _ (List.getElem_mem (show i < chords.length by omega)))
    have huniq (j : Nat) (hj : OneChord changes (a, b) j) : j = i := by
      by_contra hne
      obtain ⟨h1, h2⟩ := List.getElem?_eq_some_iff.mp hi.1
      obtain ⟨h3, h4⟩ := List.getElem?_eq_some_iff.mp hj.1
      simp only at h2 h4
      have hpw := List.pairwise_iff_getElem.mp hs
      rcases Nat.lt_or_gt_of_ne hne with h | h
      · have := hpw j i h3 h1 h; omega
      · have := hpw i j h1 h3 h; omega
    have hr : rightly argsort cid chords changes ((a, b), p) = decide ((argsort p).idxOf (cid chords[i]) = 0) := by
      apply Bool.eq_iff_iff.mpr
      rw [rightly, decide_eq_true_eq, decide_eq_true_eq, idxOf_zero _ _ hmem]
      constructor
      · rintro ⟨j, _, h2, h3⟩
        rw [huniq j h2, hci] at h3; simpa using h3
      · intro h; exact ⟨i, hil, hi, by rw [hci]; simpa using h⟩
    rw [hr, hfound]
    by_cases hz : (argsort p).idxOf (cid chords[i]) = 0
    · exact ⟨[], by simp [classUpdate, hz], by simp [hz], by simp⟩
    · have hlt := hp _ (List.getElem_mem (show i < chords.length by omega))
      simp only at hlt
      refine ⟨[⟨(a, b), [cid chords[i]], [p[cid chords[i]]], [(argsort p).idxOf (cid chords[i])],
        (argsort p).take (min maxPrint ((argsort p).idxOf (cid chords[i]) + 1))⟩], ?_, by simp [hz], ?_⟩
      · simp only [classUpdate, List.map_cons, List.map_nil]
        rw [if_neg (by simp; omega)]
        simp [hz, hlt]
      · intro m hm
        rw [List.mem_singleton] at hm
        refine ⟨i, _, (argsort p).idxOf (cid chords[i]), _, hi, hci, ?_, by omega, List.getElem?_eq_getElem hlt, hm⟩
        have hx := List.idxOf_lt_length_of_mem hmem
        rw [List.getElem?_eq_getElem hx, List.getElem_idxOf hx]

theorem class_fold {γ : Type} (argsort : List ℚ → List Nat) (ha : IsArgsort argsort) (chordId : γ → Py Nat)
    (cid : γ → Nat) (maxPrint : Nat) (chords : List γ) (changes : List Int) (hlen : chords.length = changes.length)
    (hs : changes.Pairwise (· < ·)) (hid : ∀ c ∈ chords, chordId c = .ok (cid c))
    (xs : List ((Int × Int) × List ℚ)) (hx : ∀ x ∈ xs, x.1.1 < x.1.2)
    (hfirst : ∀ x ∈ xs, ∃ c, changes[0]? = some c ∧ c ≤ x.1.1)
    (hp : ∀ x ∈ xs, ∀ c ∈ chords, cid c < x.2.length) (r : ClassCounts) :
    ∃ ms, xs.foldlM (classStep argsort chordId maxPrint (some (chords, changes))) r = .ok
      { correctRanges := r.correctRanges ++ (xs.filter (counted changes)).map (·.1)
        correctChords := r.correctChords ++ (xs.filter (rightly argsort cid chords changes)).map (·.1)
        messages := r.messages ++ ms } ∧
      ms.map (·.range) =
        (xs.filter fun x => counted changes x && !rightly argsort cid chords changes x).map (·.1) ∧
      ∀ m ∈ ms, ∃ x ∈ xs, IsMessage argsort cid maxPrint chords changes x m := by
  induction xs generalizing r with
  | nil => exact ⟨[], by simp [Pure.pure, Except.pure], rfl, by simp⟩
  | cons x xs ih =>
    obtain ⟨m1, e1, h1, g1⟩ := class_step argsort ha chordId cid maxPrint chords changes hlen hs hid r x
      (hx x (by simp)) (hfirst x (by simp)) (hp x (by simp))
    obtain ⟨m2, e2, h2, g2⟩ := ih (fun y hy => hx y (by simp [hy])) (fun y hy => hfirst y (by simp [hy]))
      (fun y hy => hp y (by simp [hy])) _
    refine ⟨m1 ++ m2, ?_, ?_, ?_⟩
    rotate_left 2
    · intro m hm
      rcases List.mem_append.mp hm with hm | hm
      · exact ⟨x, by simp, g1 m hm⟩
      · obtain ⟨y, hy, h⟩ := g2 m hm
        exact ⟨y, by simp [hy], h⟩
    · rw [List.foldlM_cons, e1]
      simp only [Bind.bind, Except.bind]
      rw [e2]
      cases hc : counted changes x <;> cases hr : rightly argsort cid chords changes x <;>
        simp [hc, hr]
    · rw [List.map_append, h1, h2]
      cases hc : counted changes x <;> cases hr : rightly argsort cid chords changes x <;>
        simp [hc, hr]

section
variable {γ : Type} (argsort : List ℚ → List Nat) (ha : IsArgsort argsort) (chordId : γ → Py Nat) (cid : γ → Nat)
  (maxPrint : Nat) (chords : List γ) (changes : List Int) (hlen : chords.length = changes.length)
  (hs : changes.Pairwise (· < ·)) (hid : ∀ c ∈ chords, chordId c = .ok (cid c)) (ranges : List (Int × Int))
  (probs : List (List ℚ)) (hx : ∀ x ∈ ranges, x.1 < x.2)
  (hfirst : ∀ x ∈ ranges, ∃ c, changes[0]? = some c ∧ c ≤ x.1) (hp : ∀ p ∈ probs, ∀ c ∈ chords, cid c < p.length)
include ha hlen hs hid hx hfirst hp

theorem class_all :
    ∃ ms, (ranges.zip probs).foldlM (classStep argsort chordId maxPrint (some (chords, changes))) ⟨[], [], []⟩ = .ok
      { correctRanges := ((ranges.zip probs).filter (counted changes)).map (·.1)
        correctChords := ((ranges.zip probs).filter (rightly argsort cid chords changes)).map (·.1)
        messages := ms } ∧
      ms.map (·.range) = ((ranges.zip probs).filter
        fun x => counted changes x && !rightly argsort cid chords changes x).map (·.1) ∧
      ∀ m ∈ ms, ∃ x ∈ ranges.zip probs, IsMessage argsort cid maxPrint chords changes x m := by
  have h := class_fold argsort ha chordId cid maxPrint chords changes hlen hs hid (ranges.zip probs)
    (fun x h => hx x.1 (List.of_mem_zip h).1) (fun x h => hfirst x.1 (List.of_mem_zip h).1)
    (fun x h => hp x.2 (List.of_mem_zip h).2) ⟨[], [], []⟩
  simpa only [List.nil_append] using h

/-- C121: of the ranges which are classified, those are counted which belong to a chord other than the last one;
of these, those are counted as correct for which the class of the chord is the first one in the ranking, and there is
a message for each of the others. The accuracy is the quotient, provided that a range is counted, that no two chords
begin at the same input, and that no range begins before the first chord. -/
theorem C121_counts_partial (hne : ∃ x ∈ ranges.zip probs, ∃ i, OneChord changes x.1 i) :
    ∃ r a, debugClassifications argsort chordId maxPrint (some (chords, changes)) ranges probs = .ok (r, some a) ∧
      r.correctRanges = ((ranges.zip probs).filter (counted changes)).map (·.1) ∧
      r.correctChords = ((ranges.zip probs).filter (rightly argsort cid chords changes)).map (·.1) ∧
      r.messages.map (·.range) = ((ranges.zip probs).filter
        fun x => counted changes x && !rightly argsort cid chords changes x).map (·.1) ∧
      (∀ m ∈ r.messages, ∃ x ∈ ranges.zip probs, IsMessage argsort cid maxPrint chords changes x m) ∧
      a * r.correctRanges.length = r.correctChords.length := by
  obtain ⟨ms, e, hm, hi⟩ := class_all argsort ha chordId cid maxPrint chords changes hlen hs hid ranges probs hx hfirst hp
  have hpos : ((ranges.zip probs).filter (counted changes)).length ≠ 0 := by
    obtain ⟨x, hx, i, hi⟩ := hne
    have := List.length_pos_of_mem (List.mem_filter.mpr ⟨hx, (by
      rw [counted, decide_eq_true_eq]
      exact ⟨i, (List.getElem?_eq_some_iff.mp hi.1).1, hi⟩ : counted changes x = true)⟩)
    omega
  refine ⟨⟨((ranges.zip probs).filter (counted changes)).map (·.1),
    ((ranges.zip probs).filter (rightly argsort cid chords changes)).map (·.1), ms⟩,
    ((ranges.zip probs).filter (rightly argsort cid chords changes)).length /
      ((ranges.zip probs).filter (counted changes)).length, ?_, rfl, rfl, hm, hi, ?_⟩
  · simp only [debugClassifications, e, Bind.bind, Except.bind, countRatio, List.length_map]
    rw [if_neg hpos]
  · simp only [List.length_map]
    exact div_mul_cancel₀ _ (by exact_mod_cast hpos)

/-- C121: without such a range, debug messages raise. -/
theorem C121_raises (hne : ∀ x ∈ ranges.zip probs, ∀ i, ¬ OneChord changes x.1 i) :
    debugClassifications argsort chordId maxPrint (some (chords, changes)) ranges probs =
      .error .zeroDivisionError := by
  obtain ⟨ms, e, hm, hi⟩ := class_all argsort ha chordId cid maxPrint chords changes hlen hs hid ranges probs hx hfirst hp
  have hz : (ranges.zip probs).filter (counted changes) = [] := by
    rw [List.filter_eq_nil_iff]
    intro x hx h
    obtain ⟨i, _, hi⟩ := of_decide_eq_true h
    exact hne x hx i hi
  simp only [debugClassifications, e, Bind.bind, Except.bind, countRatio, hz]
  rfl

end

/-- C121: a class which is the first one in the ranking is one of the most probable classes, and a class which is more
probable than all others is the first one in the ranking. -/
theorem C121_first (argsort : List ℚ → List Nat) (ha : IsArgsort argsort) (p : List ℚ) (i : Nat) (x : ℚ)
    (hx : p[i]? = some x) :
    ((argsort p)[0]? = some i → ∀ (j : Nat) (y : ℚ), p[j]? = some y → y ≤ x) ∧
    ((∀ (j : Nat) (y : ℚ), p[j]? = some y → j ≠ i → y < x) → (argsort p)[0]? = some i) := by
  obtain ⟨hperm, hpw⟩ := ha p
  have mem (j : Nat) (y : ℚ) (h : p[j]? = some y) : j ∈ argsort p :=
    hperm.mem_iff.mpr (by simpa using (List.getElem?_eq_some_iff.mp h).1)
  cases hl : argsort p with
  | nil => have := mem i x hx; simp [hl] at this
  | cons k l =>
    rw [hl] at hpw
    constructor
    · intro h j y hj
      simp at h; subst h
      have hm := mem j y hj
      rw [hl] at hm
      rcases List.mem_cons.mp hm with rfl | hm
      · rw [hx] at hj; injection hj with hj; exact le_of_eq hj.symm
      · exact (List.pairwise_cons.mp hpw).1 j hm x y hx hj
    · intro h
      by_contra hne
      have hki : k ≠ i := by simpa using hne
      have hk : k < p.length := by
        have : k ∈ List.range p.length := hperm.mem_iff.mp (by simp [hl])
        simpa using this
      have h1 := h k _ (List.getElem?_eq_getElem hk) hki
      have hm := mem i x hx
      rw [hl] at hm
      rcases List.mem_cons.mp hm with rfl | hm
      · exact hki rfl
      · have := (List.pairwise_cons.mp hpw).1 i hm _ x (List.getElem?_eq_getElem hk) hx
        exact absurd h1 (not_lt.mpr this)

/-- C121 fails for the last chord: a range which ends after all chord changes, as the one of the last chord does, is
not the range of a chord in this sense; it is neither counted nor reported. -/
theorem C121_last_fails {γ : Type} (chords : List γ) (changes : List Int) (a b : Int)
    (hb : ∀ c ∈ changes, c < b) (found : List γ) : rangeCorrect (some (chords, changes)) (a, b) found = false := by
  have : b ∉ changes := fun h => absurd (hb b h) (by omega)
  simp [rangeCorrect, this]

/-- C121 fails: with debug messages, the estimate of a piece which is annotated with one chord raises. -/
theorem C121_fails {γ : Type} (argsort : List ℚ → List Nat) (ha : IsArgsort argsort) (chordId : γ → Py Nat) (id : Nat)
    (maxPrint : Nat) (c : γ) (hid : chordId c = .ok id) (ranges : List (Int × Int)) (probs : List (List ℚ))
    (hx : ∀ x ∈ ranges, 0 ≤ x.1 ∧ x.1 < x.2) (hp : ∀ p ∈ probs, id < p.length) :
    debugClassifications argsort chordId maxPrint (some ([c], [0])) ranges probs = .error .zeroDivisionError := by
  refine C121_raises argsort ha chordId (fun _ => id) maxPrint [c] [0] rfl (by simp) (by simpa using hid) ranges probs
    (fun x h => (hx x h).2) (fun x h => ⟨0, rfl, (hx x h).1⟩) (fun p h _ _ => hp p h) ?_
  rintro x _ i ⟨_, h⟩
  simp at h

/-- A stable ranking, for the examples. -/
def rank (l : List ℚ) : List Nat := (List.range l.length).insertionSort (fun i j => l.getD j 0 ≤ l.getD i 0)

theorem rank_argsort : IsArgsort rank := by
  intro l
  refine ⟨List.perm_insertionSort _ _, ?_⟩
  have : Std.Total (fun i j : Nat => l.getD j 0 ≤ l.getD i 0) := ⟨fun i j => le_total _ _⟩
  have : IsTrans Nat (fun i j : Nat => l.getD j 0 ≤ l.getD i 0) := ⟨fun i j k h1 h2 => le_trans h2 h1⟩
  refine (List.pairwise_insertionSort (fun i j : Nat => l.getD j 0 ≤ l.getD i 0) _).imp ?_
  intro i j h p q hp hq
  simpa [List.getD_eq_getElem?_getD, hp, hq] using h

/-- Chords of classes 2, 0, 1 at inputs 0, 2, 3 of a piece with five inputs. The range of the first chord is
classified correctly, that of the second is not; those of two chords, of a part of a chord, and of the last chord are
not counted. -/
example : debugClassifications rank (fun c : Nat => .ok c) 2 (some ([2, 0, 1], [0, 2, 3]))
    [(0, 2), (2, 3), (0, 3), (0, 1), (3, 5)]
    [[1/4, 1/4, 1/2], [1/4, 1/2, 1/4], [1/4, 1/4, 1/2], [1/4, 1/4, 1/2], [1/4, 1/2, 1/4]] =
    .ok (⟨[(0, 2), (2, 3)], [(0, 2)], [⟨(2, 3), [0], [1/4], [1], [1, 0]⟩]⟩, some (1/2)) := by decide +kernel

/-! ## C122 -/

theorem bisect_at (l : List Int) (hs : l.Pairwise (· ≤ ·)) (x : Int) (i : Nat) (hi : l[i]? = some x)
    (hb : ∀ j y, j < i → l[j]? = some y → y < x) : bisectLeft l x = i := by
  obtain ⟨h0, h1, h2⟩ := bisectLeft_spec l x hs
  have hil := (List.getElem?_eq_some_iff.mp hi).1
  rcases Nat.lt_trichotomy (bisectLeft l x) i with h | h | h
  · have hlt := List.getElem?_eq_getElem (show bisectLeft l x < l.length by omega)
    have := hb _ _ h hlt
    have := h2 _ _ hlt (Nat.le_refl _)
    omega
  · exact h
  · have := h1 i x hi h; omega

/-- The last entry before `x` is the `j`th one. -/
def Before (l : List Int) (x : Int) (j : Nat) : Prop :=
  (∃ c, l[j]? = some c ∧ c < x) ∧ ∀ c, l[j + 1]? = some c → x ≤ c

theorem bisect_before (l : List Int) (hs : l.Pairwise (· ≤ ·)) (x : Int) (j : Nat) (hb : Before l x j) :
    bisectLeft l x = j + 1 := by
  obtain ⟨h0, h1, h2⟩ := bisectLeft_spec l x hs
  obtain ⟨⟨c, hc, hlt⟩, hn⟩ := hb
  have g1 : ¬ bisectLeft l x ≤ j := fun h => by have := h2 j c hc h; omega
  have g2 : ¬ j + 1 < bisectLeft l x := fun h => by
    have hl := List.getElem?_eq_getElem (show j + 1 < l.length by omega)
    have := hn _ hl
    have := h1 _ _ hl h
    omega
  omega

/-- The chord and key changes are in order, and each key begins at a chord. -/
structure Ordered {γ κ : Type} (A : Annotation γ κ) : Prop where
  chords : A.chordChanges.Pairwise (· ≤ ·)
  keys : A.keyChanges.Pairwise (· ≤ ·)
  bound : ∀ i ∈ A.keyChanges, 0 ≤ i ∧ i < A.chordChanges.length

/-- Key `j` begins at input `c`. -/
def KeyAt {γ κ : Type} (A : Annotation γ κ) (j : Nat) (c : Int) : Prop :=
  ∃ i : Nat, A.keyChanges[j]? = some (i : Int) ∧ A.chordChanges[i]? = some c

/-- The last key which begins before input `x` is the `j`th one. -/
def KeyBefore {γ κ : Type} (A : Annotation γ κ) (x : Int) (j : Nat) : Prop :=
  (∃ c, KeyAt A j c ∧ c < x) ∧ ∀ c, KeyAt A (j + 1) c → x ≤ c

theorem keyInputs_ok {γ κ : Type} (A : Annotation γ κ) (h : Ordered A) :
    ∃ kc, keyInputs A = .ok kc ∧ kc.Pairwise (· ≤ ·) ∧ ∀ j c, kc[j]? = some c ↔ KeyAt A j c := by
  have e := mapM_ok (fun i => pyGet A.chordChanges i) (fun i : Int => A.chordChanges.getD i.toNat 0) A.keyChanges (by
    intro i hi
    obtain ⟨h1, h2⟩ := h.bound i hi
    have hlt : i.toNat < A.chordChanges.length := by omega
    simp only [pyGet, if_pos h1, List.getD_eq_getElem?_getD, List.getElem?_eq_getElem hlt, Option.getD_some])
  refine ⟨_, e, ?_, ?_⟩
  · rw [List.pairwise_map]
    refine h.keys.imp_of_mem ?_
    intro i j hi hj hij
    obtain ⟨a1, a2⟩ := h.bound i hi
    obtain ⟨b1, b2⟩ := h.bound j hj
    have c1 : i.toNat < A.chordChanges.length := by omega
    have c2 : j.toNat < A.chordChanges.length := by omega
    simp only [List.getD_eq_getElem?_getD, List.getElem?_eq_getElem c1, List.getElem?_eq_getElem c2, Option.getD_some]
    rcases Nat.lt_or_eq_of_le (show i.toNat ≤ j.toNat by omega) with h' | h'
    · exact List.pairwise_iff_getElem.mp h.chords _ _ c1 c2 h'
    · simp [h']
  · intro j c
    rw [List.getElem?_map]
    constructor
    · intro hj
      obtain ⟨i, hi, hc⟩ := Option.map_eq_some_iff.mp hj
      obtain ⟨a1, a2⟩ := h.bound i (List.mem_of_getElem? hi)
      have c1 : i.toNat < A.chordChanges.length := by omega
      refine ⟨i.toNat, by rw [hi, Int.toNat_of_nonneg a1], ?_⟩
      rw [List.getElem?_eq_getElem c1, ← hc, List.getD_eq_getElem?_getD, List.getElem?_eq_getElem c1]; rfl
    · rintro ⟨i, hi, hc⟩
      rw [hi, Option.map_some, Int.toNat_natCast, List.getD_eq_getElem?_getD, hc]; rfl

theorem pyGet_at {α : Type} (l : List α) (i : Nat) (a : α) (h : l[i]? = some a) : pyGet l (i : Int) = .ok a := by
  simp only [pyGet, if_pos (Int.natCast_nonneg i), Int.toNat_natCast, h]

/-- The key changes at input `x`. -/
def KeyChange {γ κ : Type} (A : Annotation γ κ) (x : Int) : Prop := ∃ j, KeyAt A j x

theorem change_flag {γ κ : Type} (A : Annotation γ κ) (kc : List Int) (hk : kc.Pairwise (· ≤ ·))
    (ha : ∀ j c, kc[j]? = some c ↔ KeyAt A j c) (x : Int) : kc[bisectLeft kc x]? = some x ↔ KeyChange A x := by
  constructor
  · intro h; exact ⟨_, (ha _ _).mp h⟩
  · rintro ⟨j, hj⟩
    obtain ⟨h0, h1, h2⟩ := bisectLeft_spec kc x hk
    have hj' := (ha j x).mpr hj
    have hjl := (List.getElem?_eq_some_iff.mp hj').1
    have hle : bisectLeft kc x ≤ j := by
      by_contra h; have := h1 j x hj' (by omega); omega
    have hlt := List.getElem?_eq_getElem (show bisectLeft kc x < kc.length by omega)
    have g1 := h2 _ _ hlt (Nat.le_refl _)
    have g2 : kc[bisectLeft kc x]'(by omega) ≤ x := by
      rcases Nat.lt_or_eq_of_le hle with h | h
      · obtain ⟨_, e⟩ := List.getElem?_eq_some_iff.mp hj'
        have := List.pairwise_iff_getElem.mp hk _ _ (by omega) hjl h
        omega
      · obtain ⟨_, e⟩ := List.getElem?_eq_some_iff.mp hj'
        simp only [h]; omega
    rw [hlt]; congr 1; omega

theorem ktm_expected {γ κ : Type} (A : Annotation γ κ) (h : Ordered A) (x : Int) (i j : Nat) (c : γ) (k : κ)
    (hi : Before A.chordChanges x i) (hc : A.chords[i]? = some c) (hj : KeyBefore A x j) (hk : A.keys[j]? = some k) :
    ∃ b : Bool, ktmExpected A x = .ok ⟨k, c, b⟩ ∧ (b = true ↔ KeyChange A x) := by
  obtain ⟨kc, e1, e2, e3⟩ := keyInputs_ok A h
  have hb : Before kc x j := by
    obtain ⟨⟨d, hd, hlt⟩, hn⟩ := hj
    exact ⟨⟨d, (e3 _ _).mpr hd, hlt⟩, fun d hd => hn d ((e3 _ _).mp hd)⟩
  have b1 := bisect_before kc e2 x j hb
  have b2 := bisect_before A.chordChanges h.chords x i hi
  have hil : i < A.chordChanges.length := by
    obtain ⟨⟨d, hd, _⟩, _⟩ := hi; exact (List.getElem?_eq_some_iff.mp hd).1
  refine ⟨decide (kc[bisectLeft kc x]? = some x), ?_, ?_⟩
  · simp only [ktmExpected, e1, Bind.bind, Except.bind, ktmChord]
    rw [b1, b2, if_neg (by omega), show (((j + 1 : Nat) : Int) - 1) = (j : Int) by omega,
      show (((i + 1 : Nat) : Int) - 1) = (i : Int) by omega, pyGet_at _ _ _ hk, pyGet_at _ _ _ hc]
  · rw [decide_eq_true_eq]; exact change_flag A kc e2 e3 x

theorem ktm_fold {γ κ : Type} (keyId : κ → Py Nat) (chordId : γ → Py Nat) (E : Expected γ κ) (kid cid : Nat)
    (hk : keyId E.key = .ok kid) (hc : chordId E.chord = .ok cid) (xs : List (ℚ × DState))
    (hp : ∀ x ∈ xs, x.2.prevChord ≠ none) (r : KtmReport) :
    xs.foldlM (ktmStep keyId chordId (some E)) r = .ok
      ⟨r.counted ++ (xs.filter fun x => decide (x.2.key = kid ∧ x.2.chord = cid)).map (·.2),
       r.correct ++ (xs.filter fun x => decide (x.2.key = kid ∧ x.2.chord = cid) && ktmRight E.changes x.1).map
        (·.2)⟩ := by
  induction xs generalizing r with
  | nil => simp [Pure.pure, Except.pure]
  | cons x xs ih =>
    have hx := hp x (by simp)
    have ih' := fun r => ih (fun y hy => hp y (by simp [hy])) r
    rw [List.foldlM_cons]
    simp only [ktmStep, hk, hc, Bind.bind, Except.bind] at ih' ⊢
    by_cases h1 : kid = x.2.key
    · by_cases h2 : cid = x.2.chord
      · rw [if_neg (by simpa using h1), if_neg (by simpa using h2)]
        cases h3 : ktmRight E.changes x.1 <;>
          simp only [countState, recentChords, if_neg hx, Bind.bind, Except.bind, if_true, Bool.false_eq_true, if_false,
            ih', List.filter_cons, h1, h2, h3] <;> simp
      · rw [if_neg (by simpa using h1), if_pos (by simpa using h2)]
        simp only [ih', List.filter_cons]
        simp [Ne.symm h2]
    · rw [if_pos (by simpa using h1)]
      simp only [ih', List.filter_cons]
      simp [Ne.symm h1]

/-- The probability of a key change is on the right side of one half. -/
def RightSide (change : Prop) (p : ℚ) : Prop := (change → 1 / 2 < p) ∧ (¬ change → p < 1 / 2)

/-- C122: at a change index, those states are counted whose key and chord are the annotated ones before the
index, and of them those as correct whose probability of a key change is on the right side of one half. The claim wants
the annotated chord at the index. -/
theorem C122_counts_partial {γ κ : Type} (keyId : κ → Py Nat) (chordId : γ → Py Nat) (A : Annotation γ κ)
    (h : Ordered A) (x : Int) (i j : Nat) (c : γ) (k : κ) (hi : Before A.chordChanges x i) (hc : A.chords[i]? = some c)
    (hj : KeyBefore A x j) (hk : A.keys[j]? = some k) (kid cid : Nat) (hkid : keyId k = .ok kid)
    (hcid : chordId c = .ok cid) (probs : List ℚ) (s : DState) (states : List DState) (hs : s.prevChange = x)
    (hlen : probs.length = (s :: states).length) (hp : ∀ t ∈ s :: states, t.prevChord ≠ none) :
    ∃ r, debugKeyTransitions keyId chordId (some A) probs (s :: states) = .ok (some r) ∧
      r.counted = (s :: states).filter (fun t => decide (t.key = kid ∧ t.chord = cid)) ∧
      ∃ rs : List (ℚ × DState), r.correct = rs.map (·.2) ∧ rs.Sublist (probs.zip (s :: states)) ∧
        ∀ (n : Nat) p t, probs[n]? = some p → (s :: states)[n]? = some t →
          ((p, t) ∈ rs ↔ t ∈ r.counted ∧ RightSide (KeyChange A x) p) := by
  subst hs
  obtain ⟨b, e, hb⟩ := ktm_expected A h s.prevChange i j c k hi hc hj hk
  have hf := ktm_fold keyId chordId ⟨k, c, b⟩ kid cid hkid hcid (probs.zip (s :: states))
    (fun t ht => hp _ (List.of_mem_zip ht).2) ⟨[], []⟩
  refine ⟨⟨((probs.zip (s :: states)).filter fun x => decide (x.2.key = kid ∧ x.2.chord = cid)).map (·.2),
    ((probs.zip (s :: states)).filter
      fun x => decide (x.2.key = kid ∧ x.2.chord = cid) && ktmRight b x.1).map (·.2)⟩, ?_, ?_, ?_⟩
  · simp only [debugKeyTransitions, ktmExpectedOf, e, Bind.bind, Except.bind]
    rw [hf]; simp
  · have hz : (s :: states) = (probs.zip (s :: states)).map (·.2) := by
      rw [List.map_snd_zip (by omega)]
    conv_rhs => rw [hz, List.filter_map]
    rfl
  · refine ⟨_, rfl, List.filter_sublist, ?_⟩
    intro n p t hn ht
    have hmem : (p, t) ∈ probs.zip (s :: states) := by
      refine List.mem_of_getElem? (i := n) ?_
      rw [List.getElem?_zip_eq_some]; exact ⟨hn, ht⟩
    have hr : ktmRight b p = true ↔ RightSide (KeyChange A s.prevChange) p := by
      rw [RightSide, ← hb]
      cases b <;> simp [ktmRight]
    rw [List.mem_filter, Bool.and_eq_true, hr, List.mem_map]
    constructor
    · rintro ⟨h1, h2, h3⟩
      exact ⟨⟨(p, t), List.mem_filter.mpr ⟨h1, h2⟩, rfl⟩, h3⟩
    · rintro ⟨⟨y, hy, hyt⟩, h3⟩
      refine ⟨hmem, ?_, h3⟩
      have := (List.mem_filter.mp hy).2
      rw [hyt] at this; exact this

/-- C122 fails: where the piece changes chord (to a chord of another class), a state with the annotated chord at the
index is not counted. -/
theorem C122_fails {γ κ : Type} (keyId : κ → Py Nat) (chordId : γ → Py Nat) (A : Annotation γ κ)
    (h : Ordered A) (x : Int) (i j : Nat) (c c' : γ) (k : κ) (hi : Before A.chordChanges x i)
    (_hx : A.chordChanges[i + 1]? = some x) (hc : A.chords[i]? = some c) (_hc' : A.chords[i + 1]? = some c')
    (hj : KeyBefore A x j) (hk : A.keys[j]? = some k) (kid cid cid' : Nat) (hkid : keyId k = .ok kid)
    (hcid : chordId c = .ok cid) (_hcid' : chordId c' = .ok cid') (hne : cid ≠ cid') (probs : List ℚ)
    (s : DState) (states : List DState) (hs : s.prevChange = x)
    (hlen : probs.length = (s :: states).length) (hp : ∀ t ∈ s :: states, t.prevChord ≠ none) :
    ∃ r, debugKeyTransitions keyId chordId (some A) probs (s :: states) = .ok (some r) ∧
      ∀ t ∈ s :: states, t.key = kid → t.chord = cid' → t ∉ r.counted := by
  obtain ⟨r, e, h1, _⟩ := C122_counts_partial keyId chordId A h x i j c k hi hc hj hk kid cid hkid hcid probs s states
    hs hlen hp
  refine ⟨r, e, ?_⟩
  intro t _ _ ht hm
  rw [h1] at hm
  have := of_decide_eq_true (List.mem_filter.mp hm).2
  omega

/-- Chords of classes 0, 1, 2 at inputs 0, 2, 4, in key 7, then key 8 from the last chord on. At index 4, a
state with chord 2, as annotated, is not counted, and one with chord 1 is. -/
example : debugKeyTransitions (fun k : Nat => .ok k) (fun c : Nat => .ok c)
    (some ⟨[0, 1, 2], [0, 2, 4], [7, 8], [0, 2]⟩) [3/4, 3/4, 1/4]
    [⟨7, 2, some 1, 4⟩, ⟨7, 1, some 0, 4⟩, ⟨7, 1, some 2, 4⟩] =
    .ok (some ⟨[⟨7, 1, some 0, 4⟩, ⟨7, 1, some 2, 4⟩], [⟨7, 1, some 0, 4⟩]⟩) := by decide +kernel

/-- C122 fails for states whose previous change is not that of the first state, as those are which go on with a
chord: the second state, which began at index 2 with the chord before, is judged at index 4 of the first
state. -/
theorem C122_first_state_fails :
    ∃ (A : Annotation Nat Nat) (s t : DState), Before A.chordChanges t.prevChange 0 ∧ A.chords[0]? = some t.chord ∧
      KeyBefore A t.prevChange 0 ∧ A.keys[0]? = some t.key ∧
      debugKeyTransitions (fun k => .ok k) (fun c => .ok c) (some A) [1/4, 1/4] [s, t] = .ok (some ⟨[], []⟩) ∧
      debugKeyTransitions (fun k => .ok k) (fun c => .ok c) (some A) [1/4] [t] = .ok (some ⟨[t], [t]⟩) := by
  refine ⟨⟨[0, 1, 2], [0, 2, 4], [7], [0]⟩, ⟨7, 2, some 1, 4⟩, ⟨7, 0, some 1, 2⟩,
    ⟨⟨0, rfl, by decide⟩, ?_⟩, rfl, ⟨⟨0, ⟨0, rfl, rfl⟩, by decide⟩, ?_⟩, rfl, by decide +kernel, by decide +kernel⟩
  · intro c hc; simp at hc; subst hc; decide
  · rintro c ⟨i, hi, _⟩; simp at hi

/-! ## C123 -/

/-- Key `j` is the first one which begins at input `x`. -/
def FirstKeyAt {γ κ : Type} (A : Annotation γ κ) (x : Int) (j : Nat) : Prop :=
  KeyAt A j x ∧ ∀ j' y, j' < j → KeyAt A j' y → y < x

/-- Chord `i` is the first one which begins at input `x`. -/
def FirstChordAt (l : List Int) (x : Int) (i : Nat) : Prop :=
  l[i]? = some x ∧ ∀ j y, j < i → l[j]? = some y → y < x

theorem ksm_expected {γ κ : Type} (A : Annotation γ κ) (h : Ordered A) (x : Int) (i j : Nat) (c : γ) (k k' : κ)
    (hi : FirstChordAt A.chordChanges x i) (hc : A.chords[i]? = some c) (hj : FirstKeyAt A x (j + 1))
    (hk : A.keys[j]? = some k) (hk' : A.keys[j + 1]? = some k') :
    ksmExpected A x = .ok (some (k, k', c)) := by
  obtain ⟨kc, e1, e2, e3⟩ := keyInputs_ok A h
  have b1 := bisect_at kc e2 x (j + 1) ((e3 _ _).mpr hj.1) (fun a y ha hy => hj.2 a y ha ((e3 _ _).mp hy))
  have b2 := bisect_at A.chordChanges h.chords x i hi.1 hi.2
  have hil := (List.getElem?_eq_some_iff.mp hc).1
  simp only [ksmExpected, e1, Bind.bind, Except.bind, ksmExpected.chordAt]
  rw [b1, b2, if_neg (by simpa using (e3 _ _).mpr hj.1), show (((j + 1 : Nat) : Int) - 1) = (j : Int) by omega,
    pyGet_at _ _ _ hk, pyGet_at _ _ _ hk', pyGet_at _ _ _ hi.1]
  simp only [if_true]
  rw [if_neg (by omega), pyGet_at _ _ _ hc]

theorem ksm_fold {γ κ : Type} (argsort : List ℚ → List Nat) (ha : IsArgsort argsort) (keyId : κ → Py Nat)
    (chordId : γ → Py Nat) (k : κ) (c : γ) (kid cid ch : Nat) (hk : keyId k = .ok kid) (hc : chordId c = .ok cid)
    (xs : List (DState × List ℚ)) (hp : ∀ x ∈ xs, x.1.prevChord ≠ none) (hl : ∀ x ∈ xs, ch < x.2.length)
    (r : KsmReport) :
    xs.foldlM (ksmStep argsort keyId chordId (some (k, ch, c))) r = .ok
      ⟨r.total ++ (xs.filter fun x => decide (x.1.key = kid)).map (·.1),
       r.totalCorrect ++ (xs.filter fun x => decide (x.1.key = kid ∧ (argsort x.2)[0]? = some ch)).map (·.1),
       r.chord ++ (xs.filter fun x => decide (x.1.key = kid ∧ x.1.chord = cid)).map (·.1),
       r.chordCorrect ++ (xs.filter fun x =>
        decide (x.1.key = kid ∧ x.1.chord = cid ∧ (argsort x.2)[0]? = some ch)).map (·.1)⟩ := by
  induction xs generalizing r with
  | nil => simp [Pure.pure, Except.pure]
  | cons x xs ih =>
    have hx := hp x (by simp)
    have hlx := hl x (by simp)
    have ih' := fun r => ih (fun y hy => hp y (by simp [hy])) (fun y hy => hl y (by simp [hy])) r
    have hmem : ch ∈ argsort x.2 := (ha x.2).1.mem_iff.mpr (by simpa using hlx)
    rw [List.foldlM_cons]
    simp only [ksmStep, hk, hc, Bind.bind, Except.bind] at ih' ⊢
    rw [pyGet_at _ _ _ (List.getElem?_eq_getElem hlx), rank_index argsort ha x.2 ch hlx]
    by_cases h1 : kid = x.1.key
    · rw [if_neg (by simpa using h1)]
      simp only [idxOf_zero _ _ hmem, eq_comm (a := cid)]
      by_cases h2 : x.1.chord = cid <;> by_cases h3 : (argsort x.2)[0]? = some ch <;>
        simp only [ksmCount, recentChords, if_neg hx, Bind.bind, Except.bind, if_true, Bool.false_eq_true, if_false,
          ih', List.filter_cons, h1, h2, h3, decide_true, decide_false] <;> simp
    · rw [if_pos (by simpa using h1)]
      simp only [ih', List.filter_cons]
      simp [Ne.symm h1]

/-- C123: at a key change which is not the first one, those states are counted whose key is the annotated one before
the change, once more if their chord is the annotated one at the change, and each is correct if and only if the
annotated key change is the first one in the ranking of the prior of the state. -/
theorem C123_counts_partial {γ κ : Type} (argsort : List ℚ → List Nat) (ha : IsArgsort argsort) (keyId : κ → Py Nat)
    (chordId : γ → Py Nat) (changeId : κ → κ → Py Nat) (A : Annotation γ κ) (h : Ordered A) (x : Int) (i j : Nat)
    (c : γ) (k k' : κ) (hi : FirstChordAt A.chordChanges x i) (hc : A.chords[i]? = some c)
    (hj : FirstKeyAt A x (j + 1)) (hk : A.keys[j]? = some k) (hk' : A.keys[j + 1]? = some k') (kid cid ch : Nat)
    (hkid : keyId k = .ok kid) (hcid : chordId c = .ok cid) (hch : changeId k k' = .ok ch) (priors : List (List ℚ))
    (s : DState) (states : List DState) (hs : s.prevChange = x) (hp : ∀ t ∈ s :: states, t.prevChord ≠ none)
    (hl : ∀ p ∈ priors, ch < p.length) :
    ∃ r, debugKeySequences argsort keyId chordId changeId (some A) priors (s :: states) = .ok (some r) ∧
      r.total = (((s :: states).zip priors).filter fun y => decide (y.1.key = kid)).map (·.1) ∧
      r.totalCorrect = (((s :: states).zip priors).filter fun y =>
        decide (y.1.key = kid ∧ (argsort y.2)[0]? = some ch)).map (·.1) ∧
      r.chord = (((s :: states).zip priors).filter fun y => decide (y.1.key = kid ∧ y.1.chord = cid)).map (·.1) ∧
      r.chordCorrect = (((s :: states).zip priors).filter fun y =>
        decide (y.1.key = kid ∧ y.1.chord = cid ∧ (argsort y.2)[0]? = some ch)).map (·.1) := by
  subst hs
  have e := ksm_expected A h s.prevChange i j c k k' hi hc hj hk hk'
  have hf := ksm_fold argsort ha keyId chordId k c kid cid ch hkid hcid ((s :: states).zip priors)
    (fun t ht => hp _ (List.of_mem_zip ht).1) (fun t ht => hl _ (List.of_mem_zip ht).2) ⟨[], [], [], []⟩
  simp only [List.nil_append] at hf
  refine ⟨⟨_, _, _, _⟩, ?_, rfl, rfl, rfl, rfl⟩
  simp only [debugKeySequences, debugKeySequences.run, e, hch, Bind.bind, Except.bind]
  rw [hf]

/-- C123: at an index without a key change of the piece, there is no message. -/
theorem C123_silent {γ κ : Type} (argsort : List ℚ → List Nat) (keyId : κ → Py Nat)
    (chordId : γ → Py Nat) (changeId : κ → κ → Py Nat) (A : Annotation γ κ) (h : Ordered A) (priors : List (List ℚ))
    (s : DState) (states : List DState) (hx : ¬ KeyChange A s.prevChange) :
    debugKeySequences argsort keyId chordId changeId (some A) priors (s :: states) = .ok none := by
  obtain ⟨kc, e1, e2, e3⟩ := keyInputs_ok A h
  have := mt (change_flag A kc e2 e3 s.prevChange).mp hx
  simp only [debugKeySequences, ksmExpected, e1, Bind.bind, Except.bind]
  rw [if_pos (by simpa using this)]

/-- C123 fails for the first chord: if a state with the first chord of the estimate is to change key, as a forced key
within the first range makes it do, debug messages of a piece without annotation raise. -/
theorem C123_fails {γ κ : Type} (argsort : List ℚ → List Nat) (keyId : κ → Py Nat)
    (chordId : γ → Py Nat) (changeId : κ → κ → Py Nat) (priors : List (List ℚ)) (states : List DState)
    (hlen : states.length ≤ priors.length) (hx : ∃ t ∈ states, t.prevChord = none) :
    debugKeySequences argsort keyId chordId changeId (none : Option (Annotation γ κ)) priors states =
      .error .typeError := by
  have hf : ∀ (states : List DState) (priors : List (List ℚ)) (r : KsmReport), states.length ≤ priors.length →
      (∃ t ∈ states, t.prevChord = none) →
      (states.zip priors).foldlM (ksmStep argsort keyId chordId (none : Option (κ × Nat × γ))) r =
        .error .typeError := by
    intro states
    induction states with
    | nil => rintro _ _ _ ⟨t, ht, _⟩; simp at ht
    | cons s states ih =>
      intro priors r hl ht
      cases priors with
      | nil => simp at hl
      | cons p priors =>
        rw [List.zip_cons_cons, List.foldlM_cons]
        simp only [ksmStep, ksmCount, recentChords, Bind.bind, Except.bind, Bool.false_eq_true, if_false]
        by_cases hn : s.prevChord = none
        · rw [if_pos hn]
        · rw [if_neg hn]
          refine ih priors _ (by simpa using hl) ?_
          obtain ⟨t, ht, h⟩ := ht
          rcases List.mem_cons.mp ht with rfl | ht
          · exact absurd h hn
          · exact ⟨t, ht, h⟩
  cases states with
  | nil => obtain ⟨t, ht, _⟩ := hx; simp at ht
  | cons s states =>
    simp only [debugKeySequences, debugKeySequences.run, hf (s :: states) priors ⟨[], [], [], []⟩ hlen hx, Bind.bind,
      Except.bind]

/-- Key 7, then key 8 from the last chord on, where the class of the change is 1. Of three states in key 7, two rank
it first, one of them with chord 2. The state in key 8 does not count. -/
example : debugKeySequences rank (fun k : Nat => .ok k) (fun c : Nat => .ok c) (fun k k' => .ok (k' - k))
    (some ⟨[0, 1, 2], [0, 2, 4], [7, 8], [0, 2]⟩) [[1/4, 3/4], [1/4, 3/4], [3/4, 1/4], [1/4, 3/4]]
    [⟨7, 2, some 1, 4⟩, ⟨7, 1, some 0, 4⟩, ⟨7, 2, some 0, 4⟩, ⟨8, 2, some 1, 4⟩] =
    .ok (some ⟨[⟨7, 2, some 1, 4⟩, ⟨7, 1, some 0, 4⟩, ⟨7, 2, some 0, 4⟩], [⟨7, 2, some 1, 4⟩, ⟨7, 1, some 0, 4⟩],
      [⟨7, 2, some 1, 4⟩, ⟨7, 2, some 0, 4⟩], [⟨7, 2, some 1, 4⟩]⟩) := by decide +kernel

/-! ## C124 -/

theorem csm_fold (argsort : List ℚ → List Nat) (ha : IsArgsort argsort) (key next last : Nat) (prevIds : List Nat)
    (hl : pyGet prevIds (-1) = .ok last) (xs : List (DState × List ℚ)) (hn : ∀ x ∈ xs, next < x.2.length)
    (r : KtmReport) :
    xs.foldlM (csmStep argsort key next prevIds) r = .ok
      ⟨r.counted ++ (xs.filter fun x => decide (x.1.prevChord = some last ∧ x.1.key = key)).map (·.1),
       r.correct ++ (xs.filter fun x => decide ((x.1.prevChord = some last ∧ x.1.key = key) ∧
        (argsort x.2)[0]? = some next)).map (·.1)⟩ := by
  induction xs generalizing r with
  | nil => simp [Pure.pure, Except.pure]
  | cons x xs ih =>
    have hlx := hn x (by simp)
    have ih' := fun r => ih (fun y hy => hn y (by simp [hy])) r
    have hmem : next ∈ argsort x.2 := (ha x.2).1.mem_iff.mpr (by simpa using hlx)
    rw [List.foldlM_cons]
    simp only [csmStep, hl, Bind.bind, Except.bind] at ih' ⊢
    rw [pyGet_at _ _ _ (List.getElem?_eq_getElem hlx), rank_index argsort ha x.2 next hlx]
    simp only [idxOf_zero _ _ hmem]
    by_cases h1 : x.1.prevChord = some last
    · by_cases h2 : x.1.key = key
      · rw [if_neg (by simpa using h1), if_neg (by simpa using h2)]
        by_cases h3 : (argsort x.2)[0]? = some next <;>
          simp only [ih', List.filter_cons, h1, h2, h3] <;> simp
      · rw [if_neg (by simpa using h1), if_pos (by simpa using h2)]
        simp only [ih', List.filter_cons]
        simp [h2]
    · rw [if_pos (by simpa using h1)]
      simp only [ih', List.filter_cons]
      simp [h1]

theorem last_prev {γ : Type} (chordId : γ → Py Nat) (cid : γ → Nat) (chords : List γ)
    (hid : ∀ c ∈ chords, chordId c = .ok (cid c)) (i : Nat) (c : γ) (hc : chords[i]? = some c) :
    ∃ ids, (pySlice chords (max 0 (((i + 1 : Nat) : Int) - 5)) ((i + 1 : Nat) : Int)).mapM chordId = .ok ids ∧
      pyGet ids (-1) = .ok (cid c) := by
  have hil := (List.getElem?_eq_some_iff.mp hc).1
  have hm : max 0 (((i + 1 : Nat) : Int) - 5) = ((i + 1 - 5 : Nat) : Int) := by omega
  rw [hm, Piece.pySlice_nat chords _ _ (by omega) (by omega)]
  refine ⟨_, mapM_ok chordId cid _ (fun c hc => hid c (List.mem_of_mem_take (List.mem_of_mem_drop hc))), ?_⟩
  have hlen : ((chords.take (i + 1)).drop (i + 1 - 5)).length = i + 1 - (i + 1 - 5) := by
    rw [List.length_drop, List.length_take]; omega
  rw [pyGet, if_neg (by omega), if_pos (by rw [List.length_map, hlen]; omega)]
  have ht : ((((chords.take (i + 1)).drop (i + 1 - 5)).map cid).length + (-1 : Int)).toNat =
      i - (i + 1 - 5) := by rw [List.length_map, hlen]; omega
  rw [ht, List.getElem?_map, List.getElem?_drop, show i + 1 - 5 + (i - (i + 1 - 5)) = i by omega,
    List.getElem?_take_of_lt (by omega), hc]
  rfl

/-- C124: at a chord change of the piece (not the first chord) without a key change, those states are counted
whose previous chord and key are the annotated ones before the index, and of them those as correct for which the
annotated chord at the index is the first one in the ranking of the prior of the state. -/
theorem C124_counts {γ κ : Type} (argsort : List ℚ → List Nat) (ha : IsArgsort argsort) (keyId : κ → Py Nat)
    (chordId relId : γ → Py Nat) (cid : γ → Nat) (A : Annotation γ κ) (h : Ordered A)
    (hid : ∀ c ∈ A.chords, chordId c = .ok (cid c)) (x : Int) (hx0 : x ≠ 0) (i j : Nat) (c c' : γ) (k : κ)
    (hi : FirstChordAt A.chordChanges x (i + 1)) (hc : A.chords[i]? = some c) (hc' : A.chords[i + 1]? = some c')
    (hnk : ¬ KeyChange A x) (hj : KeyBefore A x j) (hk : A.keys[j]? = some k) (kid next : Nat)
    (hkid : keyId k = .ok kid) (hnext : relId c' = .ok next) (s : DState × List ℚ) (states : List (DState × List ℚ))
    (hs : s.1.prevChange = x) (hl : ∀ t ∈ s :: states, next < t.2.length) :
    ∃ r, debugChordPriors argsort keyId chordId relId A (s :: states) = .ok (some r) ∧
      r.counted = ((s :: states).filter fun t => decide (t.1.prevChord = some (cid c) ∧ t.1.key = kid)).map (·.1) ∧
      r.correct = ((s :: states).filter fun t => decide ((t.1.prevChord = some (cid c) ∧ t.1.key = kid) ∧
        (argsort t.2)[0]? = some next)).map (·.1) := by
  subst hs
  obtain ⟨kc, e1, e2, e3⟩ := keyInputs_ok A h
  have hb : Before kc s.1.prevChange j := by
    obtain ⟨⟨d, hd, hlt⟩, hn⟩ := hj
    exact ⟨⟨d, (e3 _ _).mpr hd, hlt⟩, fun d hd => hn d ((e3 _ _).mp hd)⟩
  have b1 := bisect_before kc e2 s.1.prevChange j hb
  have b2 := bisect_at A.chordChanges h.chords s.1.prevChange (i + 1) hi.1 hi.2
  have hf := mt (change_flag A kc e2 e3 s.1.prevChange).mp hnk
  obtain ⟨ids, m1, m2⟩ := last_prev chordId cid A.chords hid i c hc
  have hfold := csm_fold argsort ha kid next (cid c) ids m2 (s :: states) hl ⟨[], []⟩
  simp only [List.nil_append] at hfold
  refine ⟨⟨_, _⟩, ?_, rfl, rfl⟩
  simp only [debugChordPriors, csmExpected, e1, Bind.bind, Except.bind]
  rw [if_neg hx0, b2, if_neg (by simpa using hi.1), if_neg hf, b1,
    show (((j + 1 : Nat) : Int) - 1) = (j : Int) by omega, pyGet_at _ _ _ hk, pyGet_at _ _ _ hc']
  simp only [hkid, hnext, m1]
  rw [hfold]

/-- C124: there are no messages at the first input, where the piece does not change chord, and where it changes
key. -/
theorem C124_silent {γ κ : Type} (argsort : List ℚ → List Nat) (keyId : κ → Py Nat) (chordId relId : γ → Py Nat)
    (A : Annotation γ κ) (h : Ordered A) (s : DState × List ℚ) (states : List (DState × List ℚ))
    (hx : s.1.prevChange = 0 ∨ s.1.prevChange ∉ A.chordChanges ∨ KeyChange A s.1.prevChange) :
    debugChordPriors argsort keyId chordId relId A (s :: states) = .ok none := by
  obtain ⟨kc, e1, e2, e3⟩ := keyInputs_ok A h
  simp only [debugChordPriors, csmExpected, e1, Bind.bind, Except.bind]
  by_cases h0 : s.1.prevChange = 0
  · rw [if_pos h0]
  · rw [if_neg h0]
    by_cases hm : A.chordChanges[bisectLeft A.chordChanges s.1.prevChange]? = some s.1.prevChange
    · rw [if_neg (by simpa using hm)]
      have hk : KeyChange A s.1.prevChange := by
        rcases hx with hx | hx | hx
        · exact absurd hx h0
        · exact absurd (List.mem_of_getElem? hm) hx
        · exact hx
      rw [if_pos ((change_flag A kc e2 e3 s.1.prevChange).mpr hk)]
    · rw [if_pos (by simpa using hm)]

/-- C124: if there are as many chords as chord changes and as many keys as key changes, the first key begins with the
first chord, and all classes exist, then the messages do not raise, whatever the states are. In particular, the list of
previous chords is never empty when its last entry is read. -/
theorem C124_total {γ κ : Type} (argsort : List ℚ → List Nat) (ha : IsArgsort argsort) (keyId : κ → Py Nat)
    (chordId relId : γ → Py Nat) (cid rid : γ → Nat) (kid : κ → Nat) (A : Annotation γ κ) (h : Ordered A)
    (hcl : A.chords.length = A.chordChanges.length) (hkl : A.keys.length = A.keyChanges.length)
    (hk0 : A.keyChanges[0]? = some 0)
    (hid : ∀ c ∈ A.chords, chordId c = .ok (cid c)) (hrid : ∀ c ∈ A.chords, relId c = .ok (rid c))
    (hkid : ∀ k ∈ A.keys, keyId k = .ok (kid k)) (states : List (DState × List ℚ))
    (hl : ∀ t ∈ states, ∀ c ∈ A.chords, rid c < t.2.length) :
    ∃ r, debugChordPriors argsort keyId chordId relId A states = .ok r := by
  cases states with
  | nil => exact ⟨none, rfl⟩
  | cons s states =>
    by_cases hx : s.1.prevChange = 0 ∨ s.1.prevChange ∉ A.chordChanges ∨ KeyChange A s.1.prevChange
    · exact ⟨_, C124_silent argsort keyId chordId relId A h s states hx⟩
    · push Not at hx
      obtain ⟨h0, hm, hnk⟩ := hx
      obtain ⟨g0, g1, g2⟩ := bisectLeft_spec A.chordChanges s.1.prevChange h.chords
      -- the first chord at the index
      obtain ⟨m, hm'⟩ := List.getElem?_of_mem hm
      have hml := (List.getElem?_eq_some_iff.mp hm').1
      have hble : bisectLeft A.chordChanges s.1.prevChange ≤ m := by
        by_contra hcon; have := g1 m _ hm' (by omega); omega
      have hbl : bisectLeft A.chordChanges s.1.prevChange < A.chordChanges.length := by omega
      have hbx : A.chordChanges[bisectLeft A.chordChanges s.1.prevChange]? = some s.1.prevChange := by
        have q1 := g2 _ _ (List.getElem?_eq_getElem hbl) (Nat.le_refl _)
        obtain ⟨_, q2⟩ := List.getElem?_eq_some_iff.mp hm'
        rw [List.getElem?_eq_getElem hbl]
        congr 1
        rcases Nat.lt_or_eq_of_le hble with hlt | heq
        · have := List.pairwise_iff_getElem.mp h.chords _ _ hbl hml hlt; omega
        · simp only [heq]; exact q2
      cases hb : bisectLeft A.chordChanges s.1.prevChange with
      | zero =>
        exfalso
        rw [hb] at hbx
        exact hnk ⟨0, 0, hk0, hbx⟩
      | succ i =>
        rw [hb] at hbx hbl
        have hc := List.getElem?_eq_getElem (show i < A.chords.length by omega)
        have hc' := List.getElem?_eq_getElem (show i + 1 < A.chords.length by omega)
        -- the key before the index
        obtain ⟨kc, e1, e2, e3⟩ := keyInputs_ok A h
        obtain ⟨f0, f1, f2⟩ := bisectLeft_spec kc s.1.prevChange e2
        have hkey0 : KeyAt A 0 (A.chordChanges[0]'(by omega)) :=
          ⟨0, hk0, List.getElem?_eq_getElem (by omega)⟩
        have hlt0 : A.chordChanges[0]'(by omega) < s.1.prevChange :=
          g1 0 _ (List.getElem?_eq_getElem (by omega)) (by omega)
        cases hkb : bisectLeft kc s.1.prevChange with
        | zero =>
          exfalso
          have := f2 0 _ ((e3 _ _).mpr hkey0) (by omega)
          omega
        | succ j =>
          have hkcl : kc.length = A.keyChanges.length := by
            rcases Nat.lt_trichotomy kc.length A.keyChanges.length with hlt | heq | hgt
            · exfalso
              obtain ⟨b1, b2⟩ := h.bound _ (List.getElem_mem hlt)
              have : KeyAt A kc.length (A.chordChanges[(A.keyChanges[kc.length]).toNat]'(by omega)) :=
                ⟨(A.keyChanges[kc.length]).toNat,
                  by rw [List.getElem?_eq_getElem hlt, Int.toNat_of_nonneg b1], List.getElem?_eq_getElem _⟩
              have := (List.getElem?_eq_some_iff.mp ((e3 _ _).mpr this)).1
              omega
            · exact heq
            · exfalso
              obtain ⟨i, hi, _⟩ := (e3 _ _).mp (List.getElem?_eq_getElem hgt)
              have := (List.getElem?_eq_some_iff.mp hi).1
              omega
          have hjl : j < A.keys.length := by omega
          have hjk := List.getElem?_eq_getElem (show j < kc.length by omega)
          have hbefore : KeyBefore A s.1.prevChange j := by
            refine ⟨⟨_, (e3 _ _).mp hjk, f1 j _ hjk (by omega)⟩, ?_⟩
            intro d hd
            exact f2 (j + 1) d ((e3 _ _).mpr hd) (by omega)
          obtain ⟨r, hr, _⟩ := C124_counts argsort ha keyId chordId relId cid A h hid s.1.prevChange h0 i j _ _ _
            ⟨hbx, fun a y ha hy => g1 a y hy (by omega)⟩ hc hc' hnk hbefore (List.getElem?_eq_getElem hjl) _ _
            (hkid _ (List.getElem_mem hjl)) (hrid _ (List.getElem_mem _)) s states rfl
            (fun t ht => hl t ht _ (List.getElem_mem _))
          exact ⟨_, hr⟩

/-- Chord 1 at input 2 after chord 0, in key 7. The first state ranks chord 1 first, the second does not; the third has
another previous chord. There is no message at input 4, where the key changes. -/
example : debugChordPriors rank (fun k : Nat => .ok k) (fun c : Nat => .ok c) (fun c => .ok c)
    ⟨[0, 1, 2], [0, 2, 4], [7, 8], [0, 2]⟩
    [(⟨7, 1, some 0, 2⟩, [1/4, 1/2, 1/4]), (⟨7, 2, some 0, 2⟩, [1/4, 1/4, 1/2]), (⟨7, 1, some 2, 2⟩, [1/4, 1/2, 1/4])] =
    .ok (some ⟨[⟨7, 1, some 0, 2⟩, ⟨7, 2, some 0, 2⟩], [⟨7, 1, some 0, 2⟩]⟩) ∧
    debugChordPriors rank (fun k : Nat => .ok k) (fun c : Nat => .ok c) (fun c => .ok c)
      ⟨[0, 1, 2], [0, 2, 4], [7, 8], [0, 2]⟩ [(⟨7, 1, some 0, 4⟩, [1/4, 1/2, 1/4])] = .ok none := by decide +kernel

/-- C124: the message about the first chord has its probability and its rank. -/
theorem C124_initial {γ κ : Type} (argsort : List ℚ → List Nat) (ha : IsArgsort argsort) (relId : γ → Py Nat)
    (A : Annotation γ κ) (c : γ) (hc : A.chords[0]? = some c) (hk : A.keys ≠ []) (prior : List ℚ) (id : Nat)
    (hid : relId c = .ok id) (p : ℚ) (hp : prior[id]? = some p) :
    ∃ n, debugInitialPrior argsort relId A prior = .ok (p, n) ∧ (argsort prior)[n]? = some id := by
  have hlt := (List.getElem?_eq_some_iff.mp hp).1
  have hmem : id ∈ argsort prior := (ha prior).1.mem_iff.mpr (by simpa using hlt)
  obtain ⟨k, hk⟩ : ∃ k, A.keys[0]? = some k := by
    cases h : A.keys with
    | nil => exact absurd h hk
    | cons k l => exact ⟨k, rfl⟩
  have h1 := pyGet_at _ 0 _ hc
  have h2 := pyGet_at _ 0 _ hk
  simp only [Int.natCast_zero] at h1 h2
  refine ⟨(argsort prior).idxOf id, ?_, ?_⟩
  · simp only [debugInitialPrior, h1, h2, hid, pyGet_at _ _ _ hp, rank_index argsort ha prior id hlt, Bind.bind,
      Except.bind]
  · have hx := List.idxOf_lt_length_of_mem hmem
    rw [List.getElem?_eq_getElem hx, List.getElem_idxOf hx]

example : debugInitialPrior rank (fun c : Nat => .ok c) (⟨[2], [0], [7], [0]⟩ : Annotation Nat Nat)
    [1/4, 1/2, 1/8, 1/8] = .ok (1/8, 2) := by decide +kernel

end Verif.DebugLog
