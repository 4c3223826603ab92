import Verif.Eval
import Verif.Props.ChordIndex
import Verif.Props.Labels
import Verif.Props.State
import Mathlib.Algebra.Order.Field.Rat
import Mathlib.Algebra.Order.BigOperators.Group.List
import Mathlib.Tactic.Linarith
import Mathlib.Tactic.FieldSimp
import Mathlib.Tactic.Ring

/-!
# C37: evaluation accuracies
-/

namespace Verif.Eval

variable {α : Type}

/-- Item `x` covers input `i`: its change index is not after `i`, that of the next item is (the last item
goes on if there is no further change index). -/
def Covers (items : List α) (changes : List Nat) (i : Nat) (x : α) : Prop :=
  ∃ k a : Nat, items[k]? = some x ∧ changes[k]? = some a ∧ a ≤ i ∧
    ∀ b, changes[k + 1]? = some b → i < b

/-! ## Label arrays -/

variable {β : Type}

theorem assignRange_length (a : List β) (s t : Nat) (v : β) :
    (assignRange a s t v).length = a.length := by
  simp [assignRange]

theorem assignRange_in (a : List β) (s t : Nat) (v : β) (i : Nat) (h : s ≤ i ∧ i < t)
    (hi : i < a.length) : (assignRange a s t v)[i]? = some v := by
  simp [assignRange, hi, h]

theorem assignRange_out (a : List β) (s t : Nat) (v : β) (i : Nat) (h : ¬ (s ≤ i ∧ i < t)) :
    (assignRange a s t v)[i]? = a[i]? := by
  simp only [assignRange, List.getElem?_mapIdx, h, if_false]
  cases a[i]? <;> rfl

theorem fillLoop_length (enc : α → Py β) (items : List α) (changes : List Nat) (arr arr' : List β)
    (h : fillLoop enc items changes arr = .ok arr') : arr'.length = arr.length := by
  induction items generalizing changes arr with
  | nil => simp only [fillLoop, Except.ok.injEq] at h; rw [← h]
  | cons x xs ih =>
    match changes with
    | [] => simp only [fillLoop, Except.ok.injEq] at h; rw [← h]
    | [_] => simp only [fillLoop, Except.ok.injEq] at h; rw [← h]
    | a :: b :: rest =>
      simp only [fillLoop] at h
      cases hv : enc x with
      | error e => rw [hv] at h; cases h
      | ok v =>
        rw [hv] at h
        rw [ih _ _ h, assignRange_length]

theorem fillLoop_untouched (enc : α → Py β) (items : List α) (changes : List Nat) (arr arr' : List β)
    (h : fillLoop enc items changes arr = .ok arr') (i : Nat)
    (hi : ∀ (k p q : Nat), k < items.length → changes[k]? = some p → changes[k + 1]? = some q →
      ¬ (p ≤ i ∧ i < q)) : arr'[i]? = arr[i]? := by
  induction items generalizing changes arr with
  | nil => simp only [fillLoop, Except.ok.injEq] at h; rw [← h]
  | cons x xs ih =>
    match changes with
    | [] => simp only [fillLoop, Except.ok.injEq] at h; rw [← h]
    | [_] => simp only [fillLoop, Except.ok.injEq] at h; rw [← h]
    | a :: b :: rest =>
      simp only [fillLoop] at h
      cases hv : enc x with
      | error e => rw [hv] at h; cases h
      | ok v =>
        rw [hv] at h
        rw [ih _ _ h (fun k p q hk hp hq => hi (k + 1) p q (by simpa using hk) (by simpa using hp)
          (by simpa using hq))]
        exact assignRange_out _ _ _ _ _ (hi 0 a b (by simp) (by simp) (by simp))

theorem fillLoop_covered (enc : α → Py β) (items : List α) (changes : List Nat) (arr arr' : List β)
    (h : fillLoop enc items changes arr = .ok arr') (hs : changes.Pairwise (· ≤ ·)) (i k p q : Nat)
    (x : α) (hx : items[k]? = some x) (hp : changes[k]? = some p) (hq : changes[k + 1]? = some q)
    (hi : p ≤ i ∧ i < q) (hl : i < arr.length) : ∃ v, enc x = .ok v ∧ arr'[i]? = some v := by
  induction items generalizing changes arr k with
  | nil => simp at hx
  | cons y ys ih =>
    match changes, hp, hq with
    | [], hp, _ => simp at hp
    | [_], hp, hq => simp at hq
    | a :: b :: rest, hp, hq =>
      simp only [fillLoop] at h
      cases hv : enc y with
      | error e => rw [hv] at h; cases h
      | ok v =>
        rw [hv] at h
        cases k with
        | zero =>
          simp only [List.getElem?_cons_zero, Option.some.injEq] at hx hp
          simp only [Nat.zero_add, List.getElem?_cons_succ, List.getElem?_cons_zero,
            Option.some.injEq] at hq
          subst hx hp hq
          refine ⟨v, hv, ?_⟩
          rw [fillLoop_untouched enc _ _ _ _ h i, assignRange_in _ _ _ _ _ hi hl]
          intro k' p' q' _ hp' _ hc
          have hs2 := (List.pairwise_cons.1 hs).2
          have hm : p' ∈ b :: rest := List.mem_of_getElem? hp'
          rcases List.mem_cons.1 hm with rfl | hm
          · omega
          · have := (List.pairwise_cons.1 hs2).1 p' hm
            omega
        | succ k =>
          exact ih (b :: rest) _ h (List.pairwise_cons.1 hs).2 k (by simpa using hx) (by simpa using hp)
            (by simpa using hq) (by rw [assignRange_length]; exact hl)

theorem fillLoop_total (enc : α → Py β) (items : List α) (changes : List Nat) (arr : List β)
    (h : ∀ x ∈ items, ∃ v, enc x = .ok v) : ∃ arr', fillLoop enc items changes arr = .ok arr' := by
  induction items generalizing changes arr with
  | nil => exact ⟨arr, by simp [fillLoop]⟩
  | cons x xs ih =>
    match changes with
    | [] => exact ⟨arr, by simp [fillLoop]⟩
    | [_] => exact ⟨arr, by simp [fillLoop]⟩
    | a :: b :: rest =>
      obtain ⟨v, hv⟩ := h x (by simp)
      simp only [fillLoop, hv]
      exact ih _ _ (fun y hy => h y (by simp [hy]))

theorem pyGet_last (l : List α) (h : l ≠ []) : pyGet l (-1) = .ok (l.getLast h) := by
  have hl : 0 < l.length := List.length_pos_iff.2 h
  simp only [pyGet]
  rw [if_neg (by omega), if_pos (by omega)]
  have : ((l.length : Int) + -1).toNat = l.length - 1 := by omega
  rw [this, ← List.getLast?_eq_getElem?, List.getLast?_eq_some_getLast h]

theorem gtLabels_spec (enc : α → Py Int) (n : Nat) (items : List α) (changes : List Nat)
    (hl : items.length = changes.length) (hne : items ≠ []) (hs : changes.Pairwise (· ≤ ·))
    (he : ∀ x ∈ items, ∃ v, enc x = .ok v) :
    ∃ arr, gtLabels enc n items changes = .ok arr ∧ arr.length = n ∧
      ∀ (i : Nat) x, i < n → Covers items changes i x → ∃ v, enc x = .ok v ∧ arr[i]? = some v := by
  have hne' : changes ≠ [] := by
    intro h; rw [h] at hl; exact hne (List.length_eq_zero_iff.1 hl)
  obtain ⟨arr, harr⟩ := fillLoop_total enc items changes (List.replicate n 0) he
  obtain ⟨v, hv⟩ := he _ (List.getLast_mem hne)
  have hlen := fillLoop_length enc _ _ _ _ harr
  rw [List.length_replicate] at hlen
  refine ⟨assignRange arr (changes.getLast hne') n v, ?_, by rw [assignRange_length, hlen], ?_⟩
  · simp only [gtLabels, Bind.bind, Except.bind, harr, pyGet_last _ hne, pyGet_last _ hne', hv]
  · rintro i x hi ⟨k, a, hx, ha, hai, hb⟩
    have hk : k < items.length := (List.getElem?_eq_some_iff.1 hx).1
    by_cases hlast : k + 1 = items.length
    · have h1 : changes.getLast hne' = a := by
        rw [List.getLast_eq_getElem]
        have := (List.getElem?_eq_some_iff.1 ha).2
        rw [← this]; congr 1; omega
      have h2 : items.getLast hne = x := by
        rw [List.getLast_eq_getElem]
        have := (List.getElem?_eq_some_iff.1 hx).2
        rw [← this]; congr 1; omega
      rw [h1]
      refine ⟨v, by rw [← h2]; exact hv, assignRange_in _ _ _ _ _ ⟨hai, hi⟩ (by omega)⟩
    · have hk1 : k + 1 < changes.length := by omega
      have hq := List.getElem?_eq_getElem hk1
      obtain ⟨w, hw, hw'⟩ := fillLoop_covered enc _ _ _ _ harr hs i k a _ x hx ha hq ⟨hai, hb _ hq⟩
        (by rw [List.length_replicate]; exact hi)
      refine ⟨w, hw, ?_⟩
      rw [assignRange_out _ _ _ _ _ ?_, hw']
      have h3 : changes[k + 1] ≤ changes.getLast hne' := by
        rw [List.getLast_eq_getElem]
        by_cases h4 : k + 1 = changes.length - 1
        · simp only [h4]; exact Nat.le_refl _
        · exact List.pairwise_iff_getElem.1 hs _ _ _ _ (by omega)
      have := hb _ hq
      omega

theorem estLabels_spec (n : Nat) (items : List (Option Int)) (changes : List Nat)
    (hl : changes.length = items.length + 1) (hs : changes.Pairwise (· ≤ ·))
    (he : ∀ x ∈ items, x.isSome) :
    ∃ arr, estLabels n items changes = .ok arr ∧ arr.length = n ∧
      ∀ (i : Nat) x, i < n → Covers items changes i x → ∃ v, x = some v ∧ arr[i]? = some v := by
  have he' : ∀ x ∈ items, ∃ v, stateLabel x = .ok v := by
    intro x hx
    obtain ⟨c, rfl⟩ := Option.isSome_iff_exists.1 (he x hx)
    exact ⟨c, rfl⟩
  obtain ⟨arr, harr⟩ := fillLoop_total stateLabel items changes (List.replicate n 0) he'
  have hlen := fillLoop_length stateLabel _ _ _ _ harr
  rw [List.length_replicate] at hlen
  refine ⟨arr, harr, hlen, ?_⟩
  rintro i x hi ⟨k, a, hx, ha, hai, hb⟩
  have hk : k < items.length := (List.getElem?_eq_some_iff.1 hx).1
  have hq := List.getElem?_eq_getElem (l := changes) (i := k + 1) (by omega)
  obtain ⟨w, hw, hw'⟩ := fillLoop_covered stateLabel _ _ _ _ harr hs i k a _ x hx ha hq ⟨hai, hb _ hq⟩
    (by rw [List.length_replicate]; exact hi)
  refine ⟨w, ?_, hw'⟩
  cases x with
  | none => cases hw
  | some c => simp only [stateLabel, Except.ok.injEq] at hw; rw [hw]

/-- Every input from the first change index on is covered, up to the end of the change indices. -/
theorem exists_covers (items : List α) (changes : List Nat) (i first : Nat)
    (hl : items.length ≤ changes.length) (hne : items ≠ []) (h0 : changes[0]? = some first)
    (hi : first ≤ i) (hend : ∀ e, changes[items.length]? = some e → i < e) :
    ∃ x, Covers items changes i x := by
  induction items generalizing changes first with
  | nil => exact absurd rfl hne
  | cons x xs ih =>
    match changes, h0 with
    | [], h0 => simp at h0
    | a :: rest, h0 =>
      simp only [List.getElem?_cons_zero, Option.some.injEq] at h0
      subst h0
      by_cases hn : ∃ b, rest[0]? = some b ∧ b ≤ i
      · obtain ⟨b, hb, hbi⟩ := hn
        by_cases hx : xs = []
        · subst hx
          have := hend b (by simpa using hb)
          omega
        · obtain ⟨y, k, c, h1, h2, h3, h4⟩ := ih rest b (by simpa using hl) hx hb hbi
            (fun e he => hend e (by simpa using he))
          exact ⟨y, k + 1, c, by simpa using h1, by simpa using h2, h3, by simpa using h4⟩
      · refine ⟨x, 0, a, rfl, rfl, hi, ?_⟩
        intro b hb
        by_contra hlt
        exact hn ⟨b, by simpa using hb, by omega⟩

/-! ## Accumulation -/

/-- The value of a similarity, 0 for an error. -/
def simVal (sim : α → Py ℚ) (x : α) : ℚ :=
  match sim x with
  | .ok s => s
  | .error _ => 0

theorem accumulate_ok (sim : α → Py ℚ) (l : List (ℚ × α)) (acc r : ℚ)
    (h : accumulate sim l acc = .ok r) :
    r = acc + (l.map (fun p => simVal sim p.2 * p.1)).sum ∧
      ∀ p ∈ l, p.1 ≠ 0 → ∃ s, sim p.2 = .ok s := by
  induction l generalizing acc with
  | nil => simp only [accumulate, Except.ok.injEq] at h; simp [h]
  | cons p rest ih =>
    obtain ⟨d, x⟩ := p
    simp only [accumulate] at h
    by_cases hd : d = 0
    · rw [if_pos hd] at h
      obtain ⟨h1, h2⟩ := ih _ h
      refine ⟨by simp [h1, hd], ?_⟩
      intro p hp hp0
      rcases List.mem_cons.1 hp with rfl | hp
      · exact absurd hd hp0
      · exact h2 p hp hp0
    · rw [if_neg hd] at h
      cases hs : sim x with
      | error e => rw [hs] at h; cases h
      | ok s =>
        rw [hs] at h
        obtain ⟨h1, h2⟩ := ih _ h
        refine ⟨?_, ?_⟩
        · simp only [List.map_cons, List.sum_cons, simVal, hs] at h1 ⊢
          rw [h1]; ring
        · intro p hp hp0
          rcases List.mem_cons.1 hp with rfl | hp
          · exact ⟨s, hs⟩
          · exact h2 p hp hp0

theorem accumulate_total (sim : α → Py ℚ) (l : List (ℚ × α)) (acc : ℚ)
    (h : ∀ p ∈ l, ∃ s, sim p.2 = .ok s) : ∃ r, accumulate sim l acc = .ok r := by
  induction l generalizing acc with
  | nil => exact ⟨acc, rfl⟩
  | cons p rest ih =>
    obtain ⟨d, x⟩ := p
    obtain ⟨s, hs⟩ := h (d, x) (by simp)
    simp only [accumulate]
    split
    · exact ih _ (fun q hq => h q (by simp [hq]))
    · rw [hs]; exact ih _ (fun q hq => h q (by simp [hq]))

theorem average_ok (acc : ℚ) (cache : List ℚ) (r : ℚ) (h : average acc cache = .ok r) :
    cache.sum ≠ 0 ∧ r * cache.sum = acc := by
  simp only [average] at h
  split at h
  · cases h
  · rename_i h0
    simp only [Except.ok.injEq] at h
    exact ⟨h0, by rw [← h]; field_simp⟩

/-- `r` is the share of the total duration taken by the inputs which satisfy `M`. -/
def IsShare (cache : List ℚ) (M : Nat → Prop) (r : ℚ) : Prop :=
  ∃ m : List Bool, m.length = cache.length ∧ (∀ i, m[i]? = some true ↔ i < cache.length ∧ M i) ∧
    r * cache.sum = ((cache.zip m).map (fun p => if p.2 then p.1 else 0)).sum

theorem share_sum_le (cache : List ℚ) (m : List Bool) (hl : m.length = cache.length)
    (hn : ∀ d ∈ cache, 0 ≤ d) :
    0 ≤ ((cache.zip m).map (fun p => if p.2 then p.1 else 0)).sum ∧
    ((cache.zip m).map (fun p => if p.2 then p.1 else 0)).sum ≤ cache.sum ∧
    (((cache.zip m).map (fun p => if p.2 then p.1 else 0)).sum = cache.sum ↔
      ∀ (i : Nat) d, cache[i]? = some d → 0 < d → m[i]? = some true) := by
  induction cache generalizing m with
  | nil => simp
  | cons d cache ih =>
    cases m with
    | nil => simp at hl
    | cons b m =>
      obtain ⟨i1, i2, i3⟩ := ih m (by simpa using hl) (fun x hx => hn x (by simp [hx]))
      have hd := hn d (by simp)
      simp only [List.zip_cons_cons, List.map_cons, List.sum_cons]
      have hsplit : (∀ (i : Nat) x, (d :: cache)[i]? = some x → 0 < x → (b :: m)[i]? = some true) ↔
          (0 < d → b = true) ∧ ∀ (i : Nat) x, cache[i]? = some x → 0 < x → m[i]? = some true := by
        constructor
        · intro h
          exact ⟨fun h0 => by simpa using h 0 d (by simp) h0,
            fun i x hx h0 => by simpa using h (i + 1) x (by simpa using hx) h0⟩
        · rintro ⟨h1, h2⟩ i x hx h0
          cases i with
          | zero => simp only [List.getElem?_cons_zero, Option.some.injEq] at hx ⊢; subst hx; exact h1 h0
          | succ i => simpa using h2 i x (by simpa using hx) h0
      rw [hsplit, ← i3]
      cases b with
      | true =>
        simp only [if_true]
        exact ⟨by linarith, by linarith, by constructor
                                            · intro h; exact ⟨fun _ => trivial, by linarith⟩
                                            · intro h; linarith [h.2]⟩
      | false =>
        simp only [Bool.false_eq_true, if_false, imp_false]
        refine ⟨by linarith, by linarith, ?_⟩
        constructor
        · intro h; exact ⟨by linarith, by linarith⟩
        · intro h; linarith [h.1, h.2, not_lt.1 h.1]

theorem IsShare.bounds {cache : List ℚ} {M : Nat → Prop} {r : ℚ} (h : IsShare cache M r)
    (hn : ∀ d ∈ cache, 0 ≤ d) (hp : 0 < cache.sum) :
    0 ≤ r ∧ r ≤ 1 ∧ (r = 1 ↔ ∀ (i : Nat) d, cache[i]? = some d → 0 < d → M i) := by
  obtain ⟨m, hl, hm, hr⟩ := h
  obtain ⟨h1, h2, h3⟩ := share_sum_le cache m hl hn
  rw [← hr] at h1 h2 h3
  refine ⟨?_, ?_, ?_⟩
  · by_contra hc
    have := mul_neg_of_neg_of_pos (not_le.1 hc) hp
    linarith
  · by_contra hc
    have := mul_lt_mul_of_pos_right (not_le.1 hc) hp
    linarith
  · have h4 : r = 1 ↔ r * cache.sum = cache.sum := by
      constructor
      · intro h; rw [h, one_mul]
      · intro h; exact mul_right_cancel₀ hp.ne' (by rw [h, one_mul])
    rw [h4, h3]
    constructor
    · intro h i d hd h0; exact ((hm i).1 (h i d hd h0)).2
    · intro h i d hd h0
      exact (hm i).2 ⟨(List.getElem?_eq_some_iff.1 hd).1, h i d hd h0⟩

theorem isShare_of (sim : α → Py ℚ) (cache : List ℚ) (xs : List α) (hl : xs.length = cache.length)
    (acc r : ℚ) (ha : accumulate sim (cache.zip xs) 0 = .ok acc) (hr : r * cache.sum = acc)
    (M : Nat → Prop)
    (hM : ∀ (i : Nat) x, xs[i]? = some x → ∃ s, sim x = .ok s ∧ (s = 1 ∨ s = 0) ∧ (s = 1 ↔ M i)) :
    IsShare cache M r := by
  refine ⟨xs.map (fun x => decide (simVal sim x = 1)), by simp [hl], ?_, ?_⟩
  · intro i
    simp only [List.getElem?_map, Option.map_eq_some_iff, decide_eq_true_eq]
    constructor
    · rintro ⟨x, hx, h1⟩
      obtain ⟨s, hs, _, h2⟩ := hM i x hx
      simp only [simVal, hs] at h1
      exact ⟨by rw [← hl]; exact (List.getElem?_eq_some_iff.1 hx).1, h2.1 h1⟩
    · rintro ⟨hi, hm⟩
      have hx := List.getElem?_eq_getElem (l := xs) (i := i) (by omega)
      obtain ⟨s, hs, _, h2⟩ := hM i _ hx
      exact ⟨_, hx, by simp only [simVal, hs]; exact h2.2 hm⟩
  · rw [hr, (accumulate_ok sim _ _ _ ha).1, zero_add]
    have key : ∀ (cache : List ℚ) (xs : List α),
        (∀ x ∈ xs, ∃ s, sim x = .ok s ∧ (s = 1 ∨ s = 0)) →
        ((cache.zip xs).map (fun p => simVal sim p.2 * p.1)) =
        ((cache.zip (xs.map (fun x => decide (simVal sim x = 1)))).map
          (fun p => if p.2 then p.1 else 0)) := by
      intro cache
      induction cache with
      | nil => intro xs _; simp
      | cons d cache ih =>
        intro xs h
        cases xs with
        | nil => simp
        | cons x xs =>
          obtain ⟨s, hs, h01⟩ := h x (by simp)
          have hv : simVal sim x = s := by simp only [simVal, hs]
          simp only [List.map_cons, List.zip_cons_cons, ih xs (fun y hy => h y (by simp [hy])),
            List.cons.injEq, and_true, hv]
          rcases h01 with rfl | rfl <;> simp
    rw [key cache xs]
    intro x hx
    obtain ⟨i, hi⟩ := List.mem_iff_getElem?.1 hx
    obtain ⟨s, hs, h01, _⟩ := hM i x hi
    exact ⟨s, hs, h01⟩

/-! ## The accuracies -/

variable {δ : Type}

/-- The estimated chord with index `e` is the chord `g`, up to the reduction and possibly the
inversion. -/
def ChordMatch (pt : PitchType) (useInv : Bool) (red : Reduction) (g : Chord δ) (e : Option Int) : Prop :=
  ∃ c root ct inv, e = some c ∧ pyGet (stdLabels pt).chord c = .ok (root, ct, inv) ∧ g.root = root ∧
    red g.chordType = red ct ∧ (useInv = true → g.inversion = inv)

/-- The estimated key with index `e` is the key `g`, possibly up to the mode. -/
def KeyMatch (pt : PitchType) (tonicOnly : Bool) (g : Key) (e : Int) : Prop :=
  ∃ tonic mode, pyGet (stdLabels pt).key e = .ok (tonic, mode) ∧ g.relativeTonic = tonic ∧
    (tonicOnly = false → g.relativeMode = mode)

/-- Input `i` is labelled with the right chord. -/
def ChordRight (A : EvalInput δ) (pt : PitchType) (useInv : Bool) (red : Reduction) (i : Nat) : Prop :=
  ∃ g e, Covers A.gtChords A.gtChordChanges i g ∧ Covers A.estChords A.estChordChanges i e ∧
    ChordMatch pt useInv red g e

/-- Input `i` is labelled with the right key. -/
def KeyRight (A : EvalInput δ) (pt : PitchType) (tonicOnly : Bool) (i : Nat) : Prop :=
  ∃ g e, Covers A.gtKeys A.gtKeyChanges i g ∧ Covers A.estKeys A.estKeyChanges i e ∧
    KeyMatch pt tonicOnly g e

/-- Durations are not negative, one for each input, and there is a positive one. -/
def DurationsOK (A : EvalInput δ) : Prop :=
  A.cache.length = A.inputs ∧ (∀ d ∈ A.cache, 0 ≤ d) ∧ 0 < A.cache.sum

/-- The chords of the piece: sorted changes from the first input on, chords with a class of the pitch
type. The estimated chords: sorted changes from 0 to the end, indices of chord labels. -/
structure ChordsOK (A : EvalInput δ) (pt : PitchType) : Prop where
  gtLen : A.gtChords.length = A.gtChordChanges.length
  gtStart : A.gtChordChanges[0]? = some 0
  gtSorted : A.gtChordChanges.Pairwise (· ≤ ·)
  gtClass : ∀ g ∈ A.gtChords, g.pitchType = pt ∧
    specEncodable g.chordType g.root pt g.inversion true false false noReduction
  estLen : A.estChordChanges.length = A.estChords.length + 1
  estStart : A.estChordChanges[0]? = some 0
  estEnd : A.estChordChanges[A.estChords.length]? = some A.inputs
  estSorted : A.estChordChanges.Pairwise (· ≤ ·)
  estClass : ∀ e ∈ A.estChords, ∃ c l, e = some c ∧ pyGet (stdLabels pt).chord c = .ok l

/-- The same for keys. -/
structure KeysOK (A : EvalInput δ) (pt : PitchType) : Prop where
  gtLen : A.gtKeys.length = A.gtKeyChanges.length
  gtStart : A.gtKeyChanges[0]? = some 0
  gtSorted : A.gtKeyChanges.Pairwise (· ≤ ·)
  gtClass : ∀ g ∈ A.gtKeys, g.tonicType = pt ∧ 0 ≤ g.relativeTonic ∧ g.relativeTonic < NUM_PITCHES pt
  estLen : A.estKeyChanges.length = A.estKeys.length + 1
  estStart : A.estKeyChanges[0]? = some 0
  estEnd : A.estKeyChanges[A.estKeys.length]? = some A.inputs
  estSorted : A.estKeyChanges.Pairwise (· ≤ ·)
  estClass : ∀ e ∈ A.estKeys, ∃ l, pyGet (stdLabels pt).key e = .ok l

theorem zip_some {β : Type} {l : List α} {m : List β} {i : Nat} {x : α × β}
    (h : (l.zip m)[i]? = some x) : l[i]? = some x.1 ∧ m[i]? = some x.2 := by
  rw [List.getElem?_zip_eq_some] at h
  exact h

theorem chord_point (A : EvalInput δ) (pt : PitchType) (h : ChordsOK A pt) :
    ∃ est gt, chordArrays A = .ok (est, gt) ∧ est.length = A.inputs ∧ gt.length = A.inputs ∧
      ∀ (useInv : Bool) (red : Reduction) (i : Nat) (x : Int × Int), (est.zip gt)[i]? = some x →
        ∃ s, chordSim pt useInv red x = .ok s ∧ (s = 1 ∨ s = 0) ∧
          (s = 1 ↔ ChordRight A pt useInv red i) := by
  have hne : A.gtChords ≠ [] := by
    intro h0
    have h1 := (List.getElem?_eq_some_iff.1 h.gtStart).1
    rw [← h.gtLen, h0] at h1
    simp at h1
  have henc : ∀ g ∈ A.gtChords, ∃ v, g.oneHotIndex false true false noReduction = .ok v := by
    intro g hg
    obtain ⟨h1, h2⟩ := h.gtClass g hg
    obtain ⟨v, hv⟩ := (C01_accepts_iff g.chordType g.root pt g.inversion true false false noReduction).1.2 h2
    exact ⟨v, by simp only [Chord.oneHotIndex, Bool.false_eq_true, if_false, Bind.bind, Except.bind, h1,
      hv]⟩
  obtain ⟨gt, hgt, hgl, hgc⟩ := gtLabels_spec _ A.inputs _ _ h.gtLen hne h.gtSorted henc
  obtain ⟨est, hest, hel, hec⟩ := estLabels_spec A.inputs _ _ h.estLen h.estSorted (by
    intro x hx
    obtain ⟨c, _, rfl, _⟩ := h.estClass x hx
    rfl)
  refine ⟨est, gt, by simp only [chordArrays, Bind.bind, Except.bind, hgt, hest], hel, hgl, ?_⟩
  intro useInv red i x hx
  obtain ⟨hx1, hx2⟩ := zip_some hx
  have hi : i < A.inputs := by rw [← hel]; exact (List.getElem?_eq_some_iff.1 hx1).1
  -- the decoded labels of a covering pair
  have hdec : ∀ g e, Covers A.gtChords A.gtChordChanges i g → Covers A.estChords A.estChordChanges i e →
      chordFromOneHotIndex x.2 pt true false false noReduction = .ok (g.root, g.chordType, g.inversion) ∧
      e = some x.1 := by
    intro g e hg he
    obtain ⟨v, hv, hv'⟩ := hgc i g hi hg
    obtain ⟨w, hw, hw'⟩ := hec i e hi he
    rw [hx2] at hv'; rw [hx1] at hw'
    injection hv' with hv'; injection hw' with hw'
    refine ⟨?_, by rw [hw, hw']⟩
    obtain ⟨k, _, hk, _⟩ := hg
    obtain ⟨h1, h2⟩ := h.gtClass g (List.mem_of_getElem? hk)
    simp only [Chord.oneHotIndex, Bool.false_eq_true, if_false, Bind.bind, Except.bind, h1] at hv
    have := (C01_encode_decode _ _ _ _ _ _ _ _ _ hv).2.2
    rw [hv', this]
    cases pt <;> rfl
  obtain ⟨g, hg⟩ := exists_covers A.gtChords A.gtChordChanges i 0 (Nat.le_of_eq h.gtLen) hne h.gtStart
    (Nat.zero_le _) (by
      intro e he
      have := (List.getElem?_eq_some_iff.1 he).1
      rw [h.gtLen] at this
      omega)
  have hne2 : A.estChords ≠ [] := by
    intro h0
    have h1 := h.estEnd
    rw [h0, List.length_nil, h.estStart] at h1
    injection h1 with h1
    omega
  obtain ⟨e, he⟩ := exists_covers A.estChords A.estChordChanges i 0 (by have := h.estLen; omega) hne2
    h.estStart (Nat.zero_le _) (by
      intro b hb
      rw [h.estEnd] at hb
      injection hb with hb
      omega)
  obtain ⟨d1, d2⟩ := hdec g e hg he
  obtain ⟨k, _, hk, _⟩ := id he
  obtain ⟨c, ⟨root, ct, inv⟩, hc, hl⟩ := h.estClass e (List.mem_of_getElem? hk)
  rw [d2] at hc
  injection hc with hc
  have hl' : chordFromOneHotIndex x.1 pt true false false noReduction = .ok (root, ct, inv) := by
    rw [hc]; exact hl
  refine ⟨_, by simp only [chordSim, Bind.bind, Except.bind, d1, hl']; rfl, ?_, ?_⟩
  · cases useInv <;> simp only [chordDistance, if_true, Bool.false_eq_true, if_false] <;> split <;> simp
  · have hiff : (1 - chordDistance useInv red (g.root, g.chordType, g.inversion) (root, ct, inv) = 1) ↔
        (g.root = root ∧ red g.chordType = red ct ∧ (useInv = true → g.inversion = inv)) := by
      simp only [chordDistance]
      cases useInv <;> simp only [if_true, Bool.false_eq_true, if_false, false_implies, true_implies,
        and_true] <;> split <;> simp_all
    rw [hiff]
    constructor
    · rintro ⟨r1, r2, r3⟩
      exact ⟨g, e, hg, he, c, root, ct, inv, by rw [d2, hc], hl, r1, r2, r3⟩
    · rintro ⟨g', e', hg', he', c', root', ct', inv', hc', hl2, r1, r2, r3⟩
      obtain ⟨d1', d2'⟩ := hdec g' e' hg' he'
      rw [d1] at d1'
      simp only [Except.ok.injEq, Prod.mk.injEq] at d1'
      rw [hc'] at d2'
      injection d2' with d2'
      rw [d2', hc, hl] at hl2
      simp only [Except.ok.injEq, Prod.mk.injEq] at hl2
      obtain ⟨l1, l2, l3⟩ := hl2
      obtain ⟨m1, m2, m3⟩ := d1'
      rw [m1, m2, m3, l1, l2, l3]
      exact ⟨r1, r2, r3⟩

theorem covers_map {β : Type} (f : α → β) (items : List α) (changes : List Nat) (i : Nat) (y : β) :
    Covers (items.map f) changes i y ↔ ∃ x, Covers items changes i x ∧ f x = y := by
  constructor
  · rintro ⟨k, a, h1, h2⟩
    rw [List.getElem?_map, Option.map_eq_some_iff] at h1
    obtain ⟨x, hx, rfl⟩ := h1
    exact ⟨x, ⟨k, a, hx, h2⟩, rfl⟩
  · rintro ⟨x, ⟨k, a, h1, h2⟩, rfl⟩
    exact ⟨k, a, by rw [List.getElem?_map, h1]; rfl, h2⟩

theorem key_point (A : EvalInput δ) (pt : PitchType) (h : KeysOK A pt) :
    ∃ est gt, keyArrays A = .ok (est, gt) ∧ est.length = A.inputs ∧ gt.length = A.inputs ∧
      ∀ (tonicOnly : Bool) (i : Nat) (x : Int × Int), (est.zip gt)[i]? = some x →
        ∃ s, keySim pt tonicOnly x = .ok s ∧ (s = 1 ∨ s = 0) ∧ (s = 1 ↔ KeyRight A pt tonicOnly i) := by
  have hne : A.gtKeys ≠ [] := by
    intro h0
    have h1 := (List.getElem?_eq_some_iff.1 h.gtStart).1
    rw [← h.gtLen, h0] at h1
    simp at h1
  have henc : ∀ g ∈ A.gtKeys, ∃ v, g.oneHotIndex = .ok v ∧
      keyFromOneHotIndex v pt false = .ok (g.relativeTonic, g.relativeMode) := by
    intro g hg
    obtain ⟨h1, h2⟩ := h.gtClass g hg
    have h3 := C03_encode_decode g.relativeMode g.relativeTonic pt
    rw [specPitches_eq, if_pos h2] at h3
    obtain ⟨v, hv, _, _, hd⟩ := h3
    exact ⟨v, by rw [Key.oneHotIndex, h1]; exact hv, hd⟩
  obtain ⟨gt, hgt, hgl, hgc⟩ := gtLabels_spec Key.oneHotIndex A.inputs _ _ h.gtLen hne h.gtSorted
    (fun g hg => (henc g hg).imp fun _ h => h.1)
  obtain ⟨est, hest, hel, hec⟩ := estLabels_spec A.inputs (A.estKeys.map some) A.estKeyChanges
    (by rw [List.length_map]; exact h.estLen) h.estSorted (by
      intro x hx
      obtain ⟨c, _, rfl⟩ := List.mem_map.1 hx
      rfl)
  refine ⟨est, gt, by simp only [keyArrays, Bind.bind, Except.bind, hgt, hest], hel, hgl, ?_⟩
  intro tonicOnly i x hx
  obtain ⟨hx1, hx2⟩ := zip_some hx
  have hi : i < A.inputs := by rw [← hel]; exact (List.getElem?_eq_some_iff.1 hx1).1
  have hdec : ∀ g e, Covers A.gtKeys A.gtKeyChanges i g → Covers A.estKeys A.estKeyChanges i e →
      keyFromOneHotIndex x.2 pt false = .ok (g.relativeTonic, g.relativeMode) ∧ e = x.1 := by
    intro g e hg he
    obtain ⟨v, hv, hv'⟩ := hgc i g hi hg
    obtain ⟨w, hw, hw'⟩ := hec i (some e) hi ((covers_map some _ _ i (some e)).2 ⟨e, he, rfl⟩)
    rw [hx2] at hv'; rw [hx1] at hw'
    injection hv' with hv'; injection hw' with hw'; injection hw with hw
    refine ⟨?_, by rw [hw, hw']⟩
    obtain ⟨k, _, hk, _⟩ := hg
    obtain ⟨v', h1, h2⟩ := henc g (List.mem_of_getElem? hk)
    rw [hv] at h1
    injection h1 with h1
    rw [hv', h1]; exact h2
  obtain ⟨g, hg⟩ := exists_covers A.gtKeys A.gtKeyChanges i 0 (Nat.le_of_eq h.gtLen) hne h.gtStart
    (Nat.zero_le _) (by
      intro e he
      have := (List.getElem?_eq_some_iff.1 he).1
      rw [h.gtLen] at this
      omega)
  have hne2 : A.estKeys ≠ [] := by
    intro h0
    have h1 := h.estEnd
    rw [h0, List.length_nil, h.estStart] at h1
    injection h1 with h1
    omega
  obtain ⟨e, he⟩ := exists_covers A.estKeys A.estKeyChanges i 0 (by have := h.estLen; omega) hne2
    h.estStart (Nat.zero_le _) (by
      intro b hb
      rw [h.estEnd] at hb
      injection hb with hb
      omega)
  obtain ⟨d1, d2⟩ := hdec g e hg he
  obtain ⟨k, _, hk, _⟩ := id he
  obtain ⟨⟨tonic, mode⟩, hl⟩ := h.estClass e (List.mem_of_getElem? hk)
  have hl' : keyFromOneHotIndex x.1 pt false = .ok (tonic, mode) := by
    rw [← d2]; exact hl
  refine ⟨_, by simp only [keySim, Bind.bind, Except.bind, d1, hl']; rfl, ?_, ?_⟩
  · simp only [keyDistance]; split <;> split <;> simp
  · have hiff : (1 - keyDistance tonicOnly (g.relativeTonic, g.relativeMode) (tonic, mode) = 1) ↔
        (g.relativeTonic = tonic ∧ (tonicOnly = false → g.relativeMode = mode)) := by
      simp only [keyDistance]
      cases tonicOnly <;> simp only [if_true, Bool.false_eq_true, if_false, Bool.true_eq_false,
        false_implies, true_implies, and_true] <;> split <;> simp_all
    rw [hiff]
    constructor
    · rintro ⟨r1, r2⟩
      exact ⟨g, e, hg, he, tonic, mode, hl, r1, r2⟩
    · rintro ⟨g', e', hg', he', tonic', mode', hl2, r1, r2⟩
      obtain ⟨d1', d2'⟩ := hdec g' e' hg' he'
      rw [d1] at d1'
      simp only [Except.ok.injEq, Prod.mk.injEq] at d1'
      rw [d2', ← d2, hl] at hl2
      simp only [Except.ok.injEq, Prod.mk.injEq] at hl2
      obtain ⟨l1, l2⟩ := hl2
      obtain ⟨m1, m2⟩ := d1'
      rw [m1, m2, l1, l2]
      exact ⟨r1, r2⟩

theorem average_total (A : EvalInput δ) (hd : DurationsOK A) (acc : ℚ) :
    ∃ r, average acc A.cache = .ok r := by
  refine ⟨acc / A.cache.sum, ?_⟩
  rw [average, if_neg hd.2.2.ne']

/-- C37: `evaluate_chords` returns the share of the total duration where the chord covering the input is
right. It is in [0, 1], and 1 exactly if the chord is right at all inputs of positive duration. -/
theorem C37_chords_partial (A : EvalInput δ) (pt : PitchType) (useInv : Bool) (red : Reduction)
    (hd : DurationsOK A) (hc : ChordsOK A pt) :
    ∃ r, evaluateChords A pt useInv red = .ok r ∧ IsShare A.cache (ChordRight A pt useInv red) r ∧
      0 ≤ r ∧ r ≤ 1 ∧
      (r = 1 ↔ ∀ (i : Nat) d, A.cache[i]? = some d → 0 < d → ChordRight A pt useInv red i) := by
  obtain ⟨est, gt, h1, h2, h3, h4⟩ := chord_point A pt hc
  have hl : (est.zip gt).length = A.cache.length := by simp [h2, h3, hd.1]
  obtain ⟨acc, ha⟩ := accumulate_total (chordSim pt useInv red) (A.cache.zip (est.zip gt)) 0 (by
    intro p hp
    obtain ⟨i, hi⟩ := List.mem_iff_getElem?.1 (List.of_mem_zip (show (p.1, p.2) ∈ _ from hp)).2
    exact (h4 useInv red i _ hi).imp fun _ h => h.1)
  obtain ⟨r, hr⟩ := average_total A hd acc
  have hs := isShare_of _ _ _ hl acc r ha (average_ok _ _ _ hr).2 (ChordRight A pt useInv red)
    (fun i x hx => h4 useInv red i x hx)
  refine ⟨r, by simp only [evaluateChords, Bind.bind, Except.bind, h1, ha, hr], hs, ?_⟩
  exact hs.bounds hd.2.1 hd.2.2

/-- C37: the same for `evaluate_keys`. -/
theorem C37_keys_partial (A : EvalInput δ) (pt : PitchType) (tonicOnly : Bool)
    (hd : DurationsOK A) (hk : KeysOK A pt) :
    ∃ r, evaluateKeys A pt tonicOnly = .ok r ∧ IsShare A.cache (KeyRight A pt tonicOnly) r ∧
      0 ≤ r ∧ r ≤ 1 ∧
      (r = 1 ↔ ∀ (i : Nat) d, A.cache[i]? = some d → 0 < d → KeyRight A pt tonicOnly i) := by
  obtain ⟨est, gt, h1, h2, h3, h4⟩ := key_point A pt hk
  have hl : (est.zip gt).length = A.cache.length := by simp [h2, h3, hd.1]
  obtain ⟨acc, ha⟩ := accumulate_total (keySim pt tonicOnly) (A.cache.zip (est.zip gt)) 0 (by
    intro p hp
    obtain ⟨i, hi⟩ := List.mem_iff_getElem?.1 (List.of_mem_zip (show (p.1, p.2) ∈ _ from hp)).2
    exact (h4 tonicOnly i _ hi).imp fun _ h => h.1)
  obtain ⟨r, hr⟩ := average_total A hd acc
  have hs := isShare_of _ _ _ hl acc r ha (average_ok _ _ _ hr).2 (KeyRight A pt tonicOnly)
    (fun i x hx => h4 tonicOnly i x hx)
  refine ⟨r, by simp only [evaluateKeys, Bind.bind, Except.bind, h1, ha, hr], hs, ?_⟩
  exact hs.bounds hd.2.1 hd.2.2

/-- The similarity of the joint evaluation. -/
def jointSim (rootType tonicType : PitchType) (useInv : Bool) (red : Reduction) (tonicOnly : Bool)
    (x : (Int × Int) × (Int × Int)) : Py ℚ :=
  (chordSim rootType useInv red x.1).bind fun c => (keySim tonicType tonicOnly x.2).bind fun k =>
    .ok (c * k)

/-- C37: the joint evaluation returns the share where both the chord and the key are right. -/
theorem C37_jointly_partial (A : EvalInput δ) (rootType tonicType : PitchType) (useInv : Bool) (red : Reduction)
    (tonicOnly : Bool) (hd : DurationsOK A) (hc : ChordsOK A rootType) (hk : KeysOK A tonicType) :
    ∃ r, evaluateJointly A rootType tonicType useInv red tonicOnly = .ok r ∧
      IsShare A.cache (fun i => ChordRight A rootType useInv red i ∧ KeyRight A tonicType tonicOnly i) r ∧
      0 ≤ r ∧ r ≤ 1 ∧
      (r = 1 ↔ ∀ (i : Nat) d, A.cache[i]? = some d → 0 < d →
        ChordRight A rootType useInv red i ∧ KeyRight A tonicType tonicOnly i) := by
  obtain ⟨est, gt, h1, h2, h3, h4⟩ := chord_point A rootType hc
  obtain ⟨est', gt', k1, k2, k3, k4⟩ := key_point A tonicType hk
  have hl : ((est.zip gt).zip (est'.zip gt')).length = A.cache.length := by
    simp [h2, h3, k2, k3, hd.1]
  have hp : ∀ (i : Nat) x, ((est.zip gt).zip (est'.zip gt'))[i]? = some x →
      ∃ s, jointSim rootType tonicType useInv red tonicOnly x = .ok s ∧ (s = 1 ∨ s = 0) ∧
        (s = 1 ↔ ChordRight A rootType useInv red i ∧ KeyRight A tonicType tonicOnly i) := by
    intro i x hx
    obtain ⟨x1, x2⟩ := zip_some hx
    obtain ⟨s, a1, a2, a3⟩ := h4 useInv red i _ x1
    obtain ⟨t, b1, b2, b3⟩ := k4 tonicOnly i _ x2
    refine ⟨s * t, by simp only [jointSim, a1, b1, Except.bind], ?_, ?_⟩
    · rcases a2 with rfl | rfl <;> rcases b2 with rfl | rfl <;> simp
    · rw [← a3, ← b3]
      rcases a2 with rfl | rfl <;> rcases b2 with rfl | rfl <;> simp
  obtain ⟨acc, ha⟩ := accumulate_total (jointSim rootType tonicType useInv red tonicOnly)
    (A.cache.zip ((est.zip gt).zip (est'.zip gt'))) 0 (by
    intro p hpm
    obtain ⟨i, hi⟩ := List.mem_iff_getElem?.1 (List.of_mem_zip (show (p.1, p.2) ∈ _ from hpm)).2
    exact (hp i _ hi).imp fun _ h => h.1)
  obtain ⟨r, hr⟩ := average_total A hd acc
  have hs := isShare_of _ _ _ hl acc r ha (average_ok _ _ _ hr).2 _ hp
  refine ⟨r, ?_, hs, hs.bounds hd.2.1 hd.2.2⟩
  have ha' := ha
  unfold jointSim at ha'
  simp only [evaluateJointly, Bind.bind, Except.bind, h1, k1] at ha' ⊢
  rw [ha']
  exact hr

/-! ## Comparisons -/

theorem sum_le (sim sim' : α → Py ℚ) (l : List (ℚ × α)) (acc acc' : ℚ)
    (hn : ∀ p ∈ l, 0 ≤ p.1)
    (hle : ∀ x s s', sim x = .ok s → sim' x = .ok s' → s ≤ s')
    (h : accumulate sim l 0 = .ok acc) (h' : accumulate sim' l 0 = .ok acc') : acc ≤ acc' := by
  obtain ⟨e1, o1⟩ := accumulate_ok sim l 0 acc h
  obtain ⟨e2, o2⟩ := accumulate_ok sim' l 0 acc' h'
  rw [e1, e2, zero_add, zero_add]
  clear h h' e1 e2
  induction l with
  | nil => simp
  | cons p l ih =>
    simp only [List.map_cons, List.sum_cons]
    have h1 := ih (fun q hq => hn q (by simp [hq])) (fun q hq => o1 q (by simp [hq]))
      (fun q hq => o2 q (by simp [hq]))
    have h2 : simVal sim p.2 * p.1 ≤ simVal sim' p.2 * p.1 := by
      by_cases h0 : p.1 = 0
      · rw [h0, mul_zero, mul_zero]
      · obtain ⟨s, hs⟩ := o1 p (by simp) h0
        obtain ⟨s', hs'⟩ := o2 p (by simp) h0
        simp only [simVal, hs, hs']
        exact mul_le_mul_of_nonneg_right (hle _ _ _ hs hs') (hn p (by simp))
    linarith

theorem average_le (cache : List ℚ) (hn : ∀ d ∈ cache, 0 ≤ d) (acc acc' r r' : ℚ) (h : acc ≤ acc')
    (hr : average acc cache = .ok r) (hr' : average acc' cache = .ok r') : r ≤ r' := by
  obtain ⟨h0, h1⟩ := average_ok _ _ _ hr
  obtain ⟨_, h2⟩ := average_ok _ _ _ hr'
  have hp : 0 < cache.sum := lt_of_le_of_ne (List.sum_nonneg hn) (Ne.symm h0)
  by_contra hc
  have := mul_lt_mul_of_pos_right (not_le.1 hc) hp
  linarith

theorem zip_nonneg (cache : List ℚ) (hn : ∀ d ∈ cache, 0 ≤ d) (xs : List α) :
    ∀ p ∈ cache.zip xs, 0 ≤ p.1 :=
  fun p hp => hn _ (List.of_mem_zip (show (p.1, p.2) ∈ _ from hp)).1

theorem evaluateChords_ok {A : EvalInput δ} {pt : PitchType} {useInv : Bool} {red : Reduction} {r : ℚ}
    (h : evaluateChords A pt useInv red = .ok r) :
    ∃ est gt acc, chordArrays A = .ok (est, gt) ∧
      accumulate (chordSim pt useInv red) (A.cache.zip (est.zip gt)) 0 = .ok acc ∧
      average acc A.cache = .ok r := by
  simp only [evaluateChords, Bind.bind, Except.bind] at h
  cases h1 : chordArrays A with
  | error e => rw [h1] at h; cases h
  | ok x =>
    obtain ⟨est, gt⟩ := x
    rw [h1] at h
    simp only at h
    cases h2 : accumulate (chordSim pt useInv red) (A.cache.zip (est.zip gt)) 0 with
    | error e => rw [h2] at h; cases h
    | ok acc => rw [h2] at h; exact ⟨est, gt, acc, rfl, h2, h⟩

theorem evaluateKeys_ok {A : EvalInput δ} {pt : PitchType} {tonicOnly : Bool} {r : ℚ}
    (h : evaluateKeys A pt tonicOnly = .ok r) :
    ∃ est gt acc, keyArrays A = .ok (est, gt) ∧
      accumulate (keySim pt tonicOnly) (A.cache.zip (est.zip gt)) 0 = .ok acc ∧
      average acc A.cache = .ok r := by
  simp only [evaluateKeys, Bind.bind, Except.bind] at h
  cases h1 : keyArrays A with
  | error e => rw [h1] at h; cases h
  | ok x =>
    obtain ⟨est, gt⟩ := x
    rw [h1] at h
    simp only at h
    cases h2 : accumulate (keySim pt tonicOnly) (A.cache.zip (est.zip gt)) 0 with
    | error e => rw [h2] at h; cases h
    | ok acc => rw [h2] at h; exact ⟨est, gt, acc, rfl, h2, h⟩

theorem evaluateJointly_ok {A : EvalInput δ} {rootType tonicType : PitchType} {useInv : Bool}
    {red : Reduction} {tonicOnly : Bool} {r : ℚ}
    (h : evaluateJointly A rootType tonicType useInv red tonicOnly = .ok r) :
    ∃ est gt est' gt' acc, chordArrays A = .ok (est, gt) ∧ keyArrays A = .ok (est', gt') ∧
      accumulate (jointSim rootType tonicType useInv red tonicOnly)
        (A.cache.zip ((est.zip gt).zip (est'.zip gt'))) 0 = .ok acc ∧ average acc A.cache = .ok r := by
  simp only [evaluateJointly, Bind.bind] at h
  cases h1 : chordArrays A with
  | error e => rw [h1] at h; cases h
  | ok x =>
    obtain ⟨est, gt⟩ := x
    rw [h1] at h
    cases h3 : keyArrays A with
    | error e => rw [h3] at h; cases h
    | ok y =>
      obtain ⟨est', gt'⟩ := y
      rw [h3] at h
      cases h2 : accumulate (jointSim rootType tonicType useInv red tonicOnly)
          (A.cache.zip ((est.zip gt).zip (est'.zip gt'))) 0 with
      | error e =>
        unfold jointSim at h2
        simp only [Except.bind] at h h2
        rw [h2] at h; cases h
      | ok acc =>
        refine ⟨est, gt, est', gt', acc, rfl, rfl, h2, ?_⟩
        unfold jointSim at h2
        simp only [Except.bind] at h h2
        rw [h2] at h; exact h

theorem chordSim_ok {pt : PitchType} {useInv : Bool} {red : Reduction} {x : Int × Int} {s : ℚ}
    (h : chordSim pt useInv red x = .ok s) :
    ∃ gt est, chordFromOneHotIndex x.2 pt true false false noReduction = .ok gt ∧
      chordFromOneHotIndex x.1 pt true false false noReduction = .ok est ∧
      s = 1 - chordDistance useInv red gt est := by
  simp only [chordSim, Bind.bind, Except.bind] at h
  cases h1 : chordFromOneHotIndex x.2 pt true false false noReduction with
  | error e => rw [h1] at h; cases h
  | ok gt =>
    rw [h1] at h
    cases h2 : chordFromOneHotIndex x.1 pt true false false noReduction with
    | error e => rw [h2] at h; cases h
    | ok est =>
      rw [h2] at h
      simp only [Except.ok.injEq] at h
      exact ⟨gt, est, rfl, rfl, h.symm⟩

theorem keySim_ok {pt : PitchType} {tonicOnly : Bool} {x : Int × Int} {s : ℚ}
    (h : keySim pt tonicOnly x = .ok s) :
    ∃ gt est, keyFromOneHotIndex x.2 pt false = .ok gt ∧ keyFromOneHotIndex x.1 pt false = .ok est ∧
      s = 1 - keyDistance tonicOnly gt est := by
  simp only [keySim, Bind.bind, Except.bind] at h
  cases h1 : keyFromOneHotIndex x.2 pt false with
  | error e => rw [h1] at h; cases h
  | ok gt =>
    rw [h1] at h
    cases h2 : keyFromOneHotIndex x.1 pt false with
    | error e => rw [h2] at h; cases h
    | ok est =>
      rw [h2] at h
      simp only [Except.ok.injEq] at h
      exact ⟨gt, est, rfl, rfl, h.symm⟩

/-- C37: ignoring inversions or reducing the chord types further never lowers the accuracy of chords. -/
theorem C37_coarser_chords (A : EvalInput δ) (pt : PitchType) (useInv useInv' : Bool)
    (red red' : Reduction) (hi : useInv' = true → useInv = true)
    (hred : ∀ t u, red t = red u → red' t = red' u) (hn : ∀ d ∈ A.cache, 0 ≤ d) (r r' : ℚ)
    (h : evaluateChords A pt useInv red = .ok r) (h' : evaluateChords A pt useInv' red' = .ok r') :
    r ≤ r' := by
  obtain ⟨est, gt, acc, h1, h2, h3⟩ := evaluateChords_ok h
  obtain ⟨est', gt', acc', h1', h2', h3'⟩ := evaluateChords_ok h'
  rw [h1] at h1'
  simp only [Except.ok.injEq, Prod.mk.injEq] at h1'
  obtain ⟨rfl, rfl⟩ := h1'
  refine average_le _ hn _ _ _ _ (sum_le _ _ _ _ _ (zip_nonneg _ hn _) ?_ h2 h2') h3 h3'
  intro x s s' hs hs'
  obtain ⟨g, e, g1, g2, rfl⟩ := chordSim_ok hs
  obtain ⟨g', e', g1', g2', rfl⟩ := chordSim_ok hs'
  rw [g1] at g1'; rw [g2] at g2'
  injection g1' with g1'; injection g2' with g2'
  subst g1' g2'
  have : chordDistance useInv' red' g e ≤ chordDistance useInv red g e := by
    simp only [chordDistance]
    by_cases hm : g.1 = e.1 ∧ red g.2.1 = red e.2.1 ∧
        (if useInv then g.2.2 else 0) = (if useInv then e.2.2 else 0)
    · rw [if_pos hm, if_pos]
      refine ⟨hm.1, hred _ _ hm.2.1, ?_⟩
      cases hu : useInv' with
      | false => rfl
      | true =>
        have := hm.2.2
        rw [hi hu] at this
        simpa using this
    · rw [if_neg hm]
      split <;> split <;> norm_num
  linarith

/-- C37: ignoring the mode never lowers the accuracy of keys. -/
theorem C37_coarser_keys (A : EvalInput δ) (pt : PitchType) (hn : ∀ d ∈ A.cache, 0 ≤ d) (r r' : ℚ)
    (h : evaluateKeys A pt false = .ok r) (h' : evaluateKeys A pt true = .ok r') : r ≤ r' := by
  obtain ⟨est, gt, acc, h1, h2, h3⟩ := evaluateKeys_ok h
  obtain ⟨est', gt', acc', h1', h2', h3'⟩ := evaluateKeys_ok h'
  rw [h1] at h1'
  simp only [Except.ok.injEq, Prod.mk.injEq] at h1'
  obtain ⟨rfl, rfl⟩ := h1'
  refine average_le _ hn _ _ _ _ (sum_le _ _ _ _ _ (zip_nonneg _ hn _) ?_ h2 h2') h3 h3'
  intro x s s' hs hs'
  obtain ⟨g, e, g1, g2, rfl⟩ := keySim_ok hs
  obtain ⟨g', e', g1', g2', rfl⟩ := keySim_ok hs'
  rw [g1] at g1'; rw [g2] at g2'
  injection g1' with g1'; injection g2' with g2'
  subst g1' g2'
  have : keyDistance true g e ≤ keyDistance false g e := by
    simp only [keyDistance, if_true, Bool.false_eq_true, if_false]
    by_cases h1 : g.1 = e.1 <;> by_cases h2 : g.2 = e.2 <;> simp [h1, h2]
  linarith

theorem chordSim_range {pt : PitchType} {useInv : Bool} {red : Reduction} {x : Int × Int} {s : ℚ}
    (h : chordSim pt useInv red x = .ok s) : s = 1 ∨ s = 0 := by
  obtain ⟨g, e, _, _, rfl⟩ := chordSim_ok h
  by_cases hm : g.1 = e.1 ∧ red g.2.1 = red e.2.1 ∧
    (if useInv then g.2.2 else 0) = (if useInv then e.2.2 else 0)
  · left; simp only [chordDistance, if_pos hm, sub_zero]
  · right; simp only [chordDistance, if_neg hm, sub_self]

theorem keySim_range {pt : PitchType} {tonicOnly : Bool} {x : Int × Int} {s : ℚ}
    (h : keySim pt tonicOnly x = .ok s) : s = 1 ∨ s = 0 := by
  obtain ⟨g, e, _, _, rfl⟩ := keySim_ok h
  simp only [keyDistance]
  by_cases h1 : g.1 = e.1 <;> by_cases h2 : g.2 = e.2 <;> cases tonicOnly <;> simp [h1, h2]

theorem jointSim_ok {rootType tonicType : PitchType} {useInv : Bool} {red : Reduction} {tonicOnly : Bool}
    {x : (Int × Int) × (Int × Int)} {s : ℚ}
    (h : jointSim rootType tonicType useInv red tonicOnly x = .ok s) :
    ∃ c k, chordSim rootType useInv red x.1 = .ok c ∧ keySim tonicType tonicOnly x.2 = .ok k ∧
      s = c * k := by
  simp only [jointSim, Except.bind] at h
  cases h1 : chordSim rootType useInv red x.1 with
  | error e => rw [h1] at h; cases h
  | ok c =>
    rw [h1] at h
    cases h2 : keySim tonicType tonicOnly x.2 with
    | error e => rw [h2] at h; cases h
    | ok k =>
      rw [h2] at h
      simp only [Except.ok.injEq] at h
      exact ⟨c, k, rfl, rfl, h.symm⟩

/-- Arrays of labels have the length of the inputs. -/
theorem gtLabels_length {enc : α → Py Int} {n : Nat} {items : List α} {changes : List Nat}
    {arr : List Int} (h : gtLabels enc n items changes = .ok arr) : arr.length = n := by
  simp only [gtLabels, Bind.bind, Except.bind] at h
  cases h1 : fillLoop enc items changes (List.replicate n 0) with
  | error e => rw [h1] at h; cases h
  | ok a =>
    have hl := fillLoop_length _ _ _ _ _ h1
    rw [h1] at h; simp only at h
    cases h2 : pyGet items (-1) with
    | error e => rw [h2] at h; cases h
    | ok x =>
      rw [h2] at h; simp only at h
      cases h3 : enc x with
      | error e => rw [h3] at h; cases h
      | ok v =>
        rw [h3] at h; simp only at h
        cases h4 : pyGet changes (-1) with
        | error e => rw [h4] at h; cases h
        | ok p =>
          rw [h4] at h
          simp only [Except.ok.injEq] at h
          rw [← h, assignRange_length, hl, List.length_replicate]

theorem chordArrays_length {A : EvalInput δ} {est gt : List Int} (h : chordArrays A = .ok (est, gt)) :
    est.length = A.inputs ∧ gt.length = A.inputs := by
  simp only [chordArrays, Bind.bind, Except.bind] at h
  cases h1 : gtLabels (fun c : Chord δ => c.oneHotIndex false true false noReduction) A.inputs A.gtChords
      A.gtChordChanges with
  | error e => rw [h1] at h; cases h
  | ok g =>
    rw [h1] at h
    cases h2 : estLabels A.inputs A.estChords A.estChordChanges with
    | error e => rw [h2] at h; cases h
    | ok a =>
      rw [h2] at h
      simp only [Except.ok.injEq, Prod.mk.injEq] at h
      obtain ⟨rfl, rfl⟩ := h
      refine ⟨?_, gtLabels_length h1⟩
      rw [fillLoop_length _ _ _ _ _ h2, List.length_replicate]

theorem keyArrays_length {A : EvalInput δ} {est gt : List Int} (h : keyArrays A = .ok (est, gt)) :
    est.length = A.inputs ∧ gt.length = A.inputs := by
  simp only [keyArrays, Bind.bind, Except.bind] at h
  cases h1 : gtLabels Key.oneHotIndex A.inputs A.gtKeys A.gtKeyChanges with
  | error e => rw [h1] at h; cases h
  | ok g =>
    rw [h1] at h
    cases h2 : estLabels A.inputs (A.estKeys.map some) A.estKeyChanges with
    | error e => rw [h2] at h; cases h
    | ok a =>
      rw [h2] at h
      simp only [Except.ok.injEq, Prod.mk.injEq] at h
      obtain ⟨rfl, rfl⟩ := h
      refine ⟨?_, gtLabels_length h1⟩
      rw [fillLoop_length _ _ _ _ _ h2, List.length_replicate]

/-- Accumulating over pairs a similarity of the first (second) component. -/
theorem accumulate_fst {β : Type} (sim : α → Py ℚ) (cache : List ℚ) (xs : List α) (ys : List β)
    (hl : xs.length = ys.length) (acc : ℚ) :
    accumulate (fun p : α × β => sim p.1) (cache.zip (xs.zip ys)) acc =
      accumulate sim (cache.zip xs) acc := by
  induction cache generalizing xs ys acc with
  | nil => simp [accumulate]
  | cons d cache ih =>
    cases xs with
    | nil => cases ys <;> simp_all [accumulate]
    | cons x xs =>
      cases ys with
      | nil => simp at hl
      | cons y ys =>
        simp only [List.zip_cons_cons, accumulate]
        simp only [List.length_cons, Nat.add_right_cancel_iff] at hl
        split
        · exact ih xs ys hl acc
        · cases sim x with
          | error e => rfl
          | ok s => exact ih xs ys hl _

theorem accumulate_snd {β : Type} (sim : β → Py ℚ) (cache : List ℚ) (xs : List α) (ys : List β)
    (hl : xs.length = ys.length) (acc : ℚ) :
    accumulate (fun p : α × β => sim p.2) (cache.zip (xs.zip ys)) acc =
      accumulate sim (cache.zip ys) acc := by
  induction cache generalizing xs ys acc with
  | nil => simp [accumulate]
  | cons d cache ih =>
    cases xs with
    | nil => cases ys <;> simp_all [accumulate]
    | cons x xs =>
      cases ys with
      | nil => simp at hl
      | cons y ys =>
        simp only [List.zip_cons_cons, accumulate]
        simp only [List.length_cons, Nat.add_right_cancel_iff] at hl
        split
        · exact ih xs ys hl acc
        · cases sim y with
          | error e => rfl
          | ok s => exact ih xs ys hl _

theorem share_and_ge (cache : List ℚ) (m m1 m2 : List Bool) (h0 : m.length = cache.length)
    (h1 : m1.length = cache.length) (h2 : m2.length = cache.length) (hn : ∀ d ∈ cache, 0 ≤ d)
    (h : ∀ i : Nat, m1[i]? = some true → m2[i]? = some true → m[i]? = some true) :
    ((cache.zip m1).map (fun p => if p.2 then p.1 else 0)).sum +
        ((cache.zip m2).map (fun p => if p.2 then p.1 else 0)).sum ≤
      ((cache.zip m).map (fun p => if p.2 then p.1 else 0)).sum + cache.sum := by
  induction cache generalizing m m1 m2 with
  | nil => simp
  | cons d cache ih =>
    cases m with
    | nil => simp at h0
    | cons b m =>
    cases m1 with
    | nil => simp at h1
    | cons b1 m1 =>
    cases m2 with
    | nil => simp at h2
    | cons b2 m2 =>
      have hi := ih m m1 m2 (by simpa using h0) (by simpa using h1) (by simpa using h2)
        (fun x hx => hn x (by simp [hx])) (fun i => by simpa using h (i + 1))
      have hd := hn d (by simp)
      have hb := h 0
      simp only [List.zip_cons_cons, List.map_cons, List.sum_cons]
      simp only [List.getElem?_cons_zero, Option.some.injEq] at hb
      cases b <;> cases b1 <;> cases b2 <;> simp at hb ⊢ <;> linarith

/-- C37: chords and keys can be wrong at different places only: what is lost in the joint accuracy is at most what is
lost in both. -/
theorem C37_joint_ge (A : EvalInput δ) (rootType tonicType : PitchType) (useInv : Bool) (red : Reduction)
    (tonicOnly : Bool) (hd : DurationsOK A) (hc : ChordsOK A rootType) (hk : KeysOK A tonicType) :
    ∃ r c k, evaluateJointly A rootType tonicType useInv red tonicOnly = .ok r ∧
      evaluateChords A rootType useInv red = .ok c ∧ evaluateKeys A tonicType tonicOnly = .ok k ∧
      (1 - r) ≤ (1 - c) + (1 - k) := by
  obtain ⟨r, hr, ⟨m, m1, m2, m3⟩, _⟩ := C37_jointly_partial A rootType tonicType useInv red tonicOnly hd hc hk
  obtain ⟨c, hcc, ⟨n, n1, n2, n3⟩, _⟩ := C37_chords_partial A rootType useInv red hd hc
  obtain ⟨k, hkk, ⟨l, l1, l2, l3⟩, _⟩ := C37_keys_partial A tonicType tonicOnly hd hk
  refine ⟨r, c, k, hr, hcc, hkk, ?_⟩
  have hs := share_and_ge A.cache m n l m1 n1 l1 hd.2.1 (fun i h1 h2 =>
    (m2 i).2 ⟨((n2 i).1 h1).1, ((n2 i).1 h1).2, ((l2 i).1 h2).2⟩)
  rw [← m3, ← n3, ← l3] at hs
  have hp := hd.2.2
  have : (c + k - r - 1) * A.cache.sum ≤ 0 := by linarith
  have : c + k - r - 1 ≤ 0 := by
    by_contra hno
    have := mul_pos (not_le.1 hno) hp
    linarith
  linarith

/-- C37: the joint accuracy is at most the accuracy of chords and at most that of keys. -/
theorem C37_joint_le (A : EvalInput δ) (rootType tonicType : PitchType) (useInv : Bool) (red : Reduction)
    (tonicOnly : Bool) (hn : ∀ d ∈ A.cache, 0 ≤ d) (r c k : ℚ)
    (h : evaluateJointly A rootType tonicType useInv red tonicOnly = .ok r)
    (hc : evaluateChords A rootType useInv red = .ok c)
    (hk : evaluateKeys A tonicType tonicOnly = .ok k) : r ≤ c ∧ r ≤ k := by
  obtain ⟨est, gt, est', gt', acc, h1, h2, h3, h4⟩ := evaluateJointly_ok h
  obtain ⟨e, g, a, c1, c2, c3⟩ := evaluateChords_ok hc
  obtain ⟨e', g', a', k1, k2, k3⟩ := evaluateKeys_ok hk
  rw [h1] at c1
  rw [h2] at k1
  simp only [Except.ok.injEq, Prod.mk.injEq] at c1 k1
  obtain ⟨rfl, rfl⟩ := c1
  obtain ⟨rfl, rfl⟩ := k1
  have l1 := chordArrays_length h1
  have l2 := keyArrays_length h2
  have hl : (est.zip gt).length = (est'.zip gt').length := by simp [l1.1, l1.2, l2.1, l2.2]
  rw [← accumulate_fst _ _ _ _ hl] at c2
  rw [← accumulate_snd _ _ _ _ hl] at k2
  constructor
  · refine average_le _ hn _ _ _ _ (sum_le _ _ _ _ _ (zip_nonneg _ hn _) ?_ h3 c2) h4 c3
    intro x s s' hs hs'
    obtain ⟨u, v, hu, hv, rfl⟩ := jointSim_ok hs
    rw [hu] at hs'
    injection hs' with hs'
    subst hs'
    rcases chordSim_range hu with rfl | rfl <;> rcases keySim_range hv with rfl | rfl <;> norm_num
  · refine average_le _ hn _ _ _ _ (sum_le _ _ _ _ _ (zip_nonneg _ hn _) ?_ h3 k2) h4 k3
    intro x s s' hs hs'
    obtain ⟨u, v, hu, hv, rfl⟩ := jointSim_ok hs
    rw [hv] at hs'
    injection hs' with hs'
    subst hs'
    rcases chordSim_range hu with rfl | rfl <;> rcases keySim_range hv with rfl | rfl <;> norm_num

theorem share_range (sim : α → Py ℚ) (hs : ∀ x s, sim x = .ok s → 0 ≤ s ∧ s ≤ 1) (cache : List ℚ)
    (hn : ∀ d ∈ cache, 0 ≤ d) (xs : List α) (acc r : ℚ) (h : accumulate sim (cache.zip xs) 0 = .ok acc)
    (hr : average acc cache = .ok r) : 0 ≤ r ∧ r ≤ 1 := by
  have e1 := (accumulate_ok sim _ 0 acc h).1
  rw [zero_add] at e1
  have hv : ∀ x, 0 ≤ simVal sim x ∧ simVal sim x ≤ 1 := by
    intro x
    unfold simVal
    cases hx : sim x with
    | error e => norm_num
    | ok s => exact hs x s hx
  have h01 : 0 ≤ acc ∧ acc ≤ cache.sum := by
    rw [e1]
    clear e1 h hr
    induction cache generalizing xs with
    | nil => simp
    | cons d ds ih =>
      have hd := hn d (by simp)
      cases xs with
      | nil => simpa using List.sum_nonneg hn
      | cons x xs =>
        obtain ⟨i1, i2⟩ := ih (fun y hy => hn y (by simp [hy])) xs
        obtain ⟨v0, v1⟩ := hv x
        simp only [List.zip_cons_cons, List.map_cons, List.sum_cons]
        have a := mul_nonneg v0 hd
        have b := mul_le_mul_of_nonneg_right v1 hd
        constructor <;> linarith
  obtain ⟨h0, h1⟩ := average_ok _ _ _ hr
  have hp : 0 < cache.sum := lt_of_le_of_ne (List.sum_nonneg hn) (Ne.symm h0)
  constructor
  · by_contra hc
    have := mul_neg_of_neg_of_pos (not_le.1 hc) hp
    linarith [h01.1]
  · by_contra hc
    have := mul_lt_mul_of_pos_right (not_le.1 hc) hp
    linarith [h01.2]

/-- C37: whatever the labels, an accuracy is between 0 and 1. -/
theorem C37_range (A : EvalInput δ) (rootType tonicType : PitchType) (useInv : Bool) (red : Reduction)
    (tonicOnly : Bool) (hn : ∀ d ∈ A.cache, 0 ≤ d) (r : ℚ)
    (h : evaluateChords A rootType useInv red = .ok r ∨ evaluateKeys A tonicType tonicOnly = .ok r ∨
      evaluateJointly A rootType tonicType useInv red tonicOnly = .ok r) : 0 ≤ r ∧ r ≤ 1 := by
  rcases h with h | h | h
  · obtain ⟨est, gt, acc, _, h2, h3⟩ := evaluateChords_ok h
    refine share_range _ ?_ _ hn _ _ _ h2 h3
    intro x s hs
    rcases chordSim_range hs with rfl | rfl <;> norm_num
  · obtain ⟨est, gt, acc, _, h2, h3⟩ := evaluateKeys_ok h
    refine share_range _ ?_ _ hn _ _ _ h2 h3
    intro x s hs
    rcases keySim_range hs with rfl | rfl <;> norm_num
  · obtain ⟨est, gt, est', gt', acc, _, _, h2, h3⟩ := evaluateJointly_ok h
    refine share_range _ ?_ _ hn _ _ _ h2 h3
    intro x s hs
    obtain ⟨u, v, hu, hv, rfl⟩ := jointSim_ok hs
    rcases chordSim_range hu with rfl | rfl <;> rcases keySim_range hv with rfl | rfl <;> norm_num

/-! ## The estimates of the search -/

section Search
variable {κ H P : Type} [Add κ] [Sub κ] [Zero κ]

open State

theorem reach_labels {L : Labels} {pt : PitchType} {g : Int} {h : Option Nat}
    (hh : ∀ k, h = some k → 1 ≤ k) {s : State κ H P} (hr : Reach L pt g h s) :
    (∀ n ∈ s.node :: s.prev, ∀ c, n.chord = some c → ∃ l, pyGet L.chord c = .ok l) ∧
    (s.prev ≠ [] → ∀ n ∈ s.node :: s.prev, ∃ l, pyGet L.key n.key = .ok l) := by
  induction hr with
  | init prior =>
    refine ⟨?_, fun h0 => absurd rfl h0⟩
    intro n hn c hc
    simp only [State.initial, List.mem_singleton] at hn
    subst hn; cases hc
  | chord s s' c i lp hr _ ht ih =>
    obtain ⟨root, ct, inv, bass, k, h1, h2, h3, h4, h5, rfl⟩ := chordTransition_some ht
    have hk := (C49_key_object L pt g h hh s hr k h3).1
    constructor
    · intro n hn c' hc'
      simp only [List.mem_cons] at hn
      rcases hn with rfl | rfl | hn
      · simp only [Option.some.injEq] at hc'; subst hc'; exact ⟨_, h1⟩
      · exact ih.1 s.node (by simp) c' hc'
      · exact ih.1 n (by simp [hn]) c' hc'
    · intro _ n hn
      simp only [List.mem_cons] at hn
      rcases hn with rfl | rfl | hn
      · exact ⟨_, hk⟩
      · exact ⟨_, hk⟩
      · exact ih.2 (List.ne_nil_of_mem hn) n (by simp [hn])
  | key s s' k lp hr ht ih =>
    obtain ⟨c, root, ct, inv, bass, tonic, mode, p, ps, hc, h1, h2, h3, h4, h5, hp, rfl⟩ :=
      keyTransition_some ht
    constructor
    · intro n hn c' hc'
      simp only [List.mem_cons] at hn
      rcases hn with rfl | hn
      · exact ih.1 s.node (by simp) c' hc'
      · exact ih.1 n (by simp [hn]) c' hc'
    · intro _ n hn
      simp only [List.mem_cons] at hn
      rcases hn with rfl | hn
      · exact ⟨_, h3⟩
      · exact ih.2 (List.ne_nil_of_mem hn) n (by simp [hn])
  | rejoin s s' i lp hr _ ht ih =>
    obtain ⟨c, root, ct, inv, bass, tonic, mode, p, ps, hc, h1, h2, hp, h3, rfl⟩ := rejoin_ok ht
    constructor
    · intro n hn c' hc'
      simp only [List.mem_cons] at hn
      rcases hn with rfl | hn
      · exact ih.1 s.node (by simp) c' hc'
      · exact ih.1 n (by simp [hn]) c' hc'
    · intro _ n hn
      simp only [List.mem_cons] at hn
      rcases hn with rfl | hn
      · exact ⟨_, h3⟩
      · exact ih.2 (List.ne_nil_of_mem hn) n (by simp [hn])
  | ktm s lp hr ih => exact node_congr ih rfl rfl rfl
  | csm s lp hr ih => exact node_congr ih rfl rfl rfl
  | copy s hr ih => exact node_congr ih rfl rfl rfl
  | hidden s a b c d hr ih => exact node_congr ih rfl rfl rfl
where
  node_congr {L : Labels} {s t : State κ H P}
      (ih : (∀ n ∈ s.node :: s.prev, ∀ c, n.chord = some c → ∃ l, pyGet L.chord c = .ok l) ∧
        (s.prev ≠ [] → ∀ n ∈ s.node :: s.prev, ∃ l, pyGet L.key n.key = .ok l))
      (h1 : t.node.chord = s.node.chord) (h2 : t.node.key = s.node.key) (h3 : t.prev = s.prev) :
      (∀ n ∈ t.node :: t.prev, ∀ c, n.chord = some c → ∃ l, pyGet L.chord c = .ok l) ∧
        (t.prev ≠ [] → ∀ n ∈ t.node :: t.prev, ∃ l, pyGet L.key n.key = .ok l) := by
    rw [h3]
    constructor
    · intro n hn c hc
      rcases List.mem_cons.1 hn with rfl | hn
      · exact ih.1 s.node (by simp) c (h1 ▸ hc)
      · exact ih.1 n (by simp [hn]) c hc
    · intro h0 n hn
      rcases List.mem_cons.1 hn with rfl | hn
      · rw [h2]; exact ih.2 h0 s.node (by simp)
      · exact ih.2 h0 n (by simp [hn])

omit [Add κ] [Sub κ] [Zero κ] in
theorem mem_getChords (n : Node κ H P) (ps : List (Node κ H P)) (c : Option Int)
    (h : c ∈ (getChordsAux n ps).1) : ∃ m ∈ n :: ps, m.chord = c := by
  induction ps generalizing n with
  | nil => simp [getChordsAux] at h
  | cons p ps ih =>
    simp only [getChordsAux, List.mem_append, List.mem_singleton] at h
    rcases h with h | rfl
    · obtain ⟨m, hm, hc⟩ := ih p h
      exact ⟨m, List.mem_cons_of_mem _ hm, hc⟩
    · exact ⟨n, by simp, rfl⟩

omit [Add κ] [Sub κ] [Zero κ] in
theorem mem_getKeys (n : Node κ H P) (ps : List (Node κ H P)) (k : Int)
    (h : k ∈ (getKeysAux n ps).1) : ps ≠ [] ∧ ∃ m ∈ n :: ps, m.key = k := by
  induction ps generalizing n with
  | nil => simp [getKeysAux] at h
  | cons p ps ih =>
    refine ⟨by simp, ?_⟩
    simp only [getKeysAux] at h
    split at h
    · simp only [List.mem_append, List.mem_singleton] at h
      rcases h with h | rfl
      · obtain ⟨_, m, hm, hc⟩ := ih p h
        exact ⟨m, List.mem_cons_of_mem _ hm, hc⟩
      · exact ⟨n, by simp, rfl⟩
    · obtain ⟨_, m, hm, hc⟩ := ih p h
      exact ⟨m, List.mem_cons_of_mem _ hm, hc⟩

theorem getElem?_last {l : List Nat} {n x : Nat} (h : l.getLast? = some x) (hl : l.length = n + 1) :
    l[n]? = some x := by
  rw [List.getLast?_eq_getElem?, hl, Nat.add_sub_cancel] at h
  exact h

/-- C37: the hypotheses on the estimate hold for every state that the search can reach and that covers
the whole piece. -/
theorem C37_search_estimates (pt : PitchType) (g : Int) (h : Option Nat)
    (hh : ∀ k, h = some k → 1 ≤ k) (s : State κ H P) (hr : Reach (stdLabels pt) pt g h s)
    (A : EvalInput δ) (hn : A.inputs = s.node.changeIndex)
    (hc : A.estChords = (getChords s).1) (hcc : A.estChordChanges = (getChords s).2)
    (hk : A.estKeys = (getKeys s).1) (hkc : A.estKeyChanges = (getKeys s).2)
    (g1 : A.gtChords.length = A.gtChordChanges.length) (g2 : A.gtChordChanges[0]? = some 0)
    (g3 : A.gtChordChanges.Pairwise (· ≤ ·))
    (g4 : ∀ g ∈ A.gtChords, g.pitchType = pt ∧
      specEncodable g.chordType g.root pt g.inversion true false false noReduction)
    (k1 : A.gtKeys.length = A.gtKeyChanges.length) (k2 : A.gtKeyChanges[0]? = some 0)
    (k3 : A.gtKeyChanges.Pairwise (· ≤ ·))
    (k4 : ∀ g ∈ A.gtKeys, g.tonicType = pt ∧ 0 ≤ g.relativeTonic ∧ g.relativeTonic < NUM_PITCHES pt) :
    ChordsOK A pt ∧ KeysOK A pt := by
  obtain ⟨c1, c2, c3, c4, c5⟩ := C20_tiles _ pt g h hh s hr
  obtain ⟨i1, i2, i3, i4, i5, i6⟩ := C21_runs _ pt g h hh s hr
  obtain ⟨l1, l2⟩ := reach_labels hh hr
  have c3' : (getChords s).2.Pairwise (· ≤ ·) := c3.imp (fun h => Nat.le_of_lt h)
  constructor
  · refine ⟨g1, g2, g3, g4, by rw [hc, hcc]; exact c1, by rw [hcc, ← List.head?_eq_getElem?]; exact c2, ?_,
      by rw [hcc]; exact c3', ?_⟩
    · rw [hc, hcc, hn]; exact getElem?_last c4 c1
    · rw [hc]
      intro e he
      obtain ⟨c, rfl⟩ := Option.isSome_iff_exists.1 (c5 e he)
      obtain ⟨m, hm, hmc⟩ := mem_getChords _ _ _ he
      obtain ⟨l, hl⟩ := l1 m hm c hmc
      exact ⟨c, l, rfl, hl⟩
  · refine ⟨k1, k2, k3, k4, by rw [hk, hkc]; exact i1,
      by rw [hkc, ← List.head?_eq_getElem?, i4]; exact c2, ?_, by rw [hkc]; exact c3'.sublist i3, ?_⟩
    · rw [hk, hkc, hn]; exact getElem?_last (i5.trans c4) i1
    · rw [hk]
      intro e he
      obtain ⟨hp, m, hm, rfl⟩ := mem_getKeys _ _ _ he
      exact l2 hp m hm

end Search

/-! ## Concrete cases -/

/-- C major for two inputs, then G major in first inversion; the estimate has G major in root position
from input 1 on. Durations 1, 2, 0, 3. -/
def exInput : EvalInput ℚ :=
  { cache := [1, 2, 0, 3], inputs := 4,
    gtChords := [⟨0, 0, 0, .major, .major, 0, 0, 0, 1, .midi⟩, ⟨7, 11, 0, .major, .major, 1, 0, 0, 1, .midi⟩],
    gtChordChanges := [0, 2],
    gtKeys := [⟨0, 0, 0, .major, .major, .major, .midi⟩], gtKeyChanges := [0],
    estChords := [some 0, some 21], estChordChanges := [0, 1, 4],
    estKeys := [0, 12], estKeyChanges := [0, 1, 4] }

example : evaluateChords exInput .midi true noReduction = .ok (1 / 6) ∧
    evaluateChords exInput .midi false noReduction = .ok (4 / 6) ∧
    evaluateKeys exInput .midi false = .ok (1 / 6) ∧ evaluateKeys exInput .midi true = .ok 1 ∧
    evaluateJointly exInput .midi .midi false noReduction false = .ok (1 / 6) := by
  decide +kernel

example : DurationsOK exInput ∧ ChordsOK exInput .midi ∧ KeysOK exInput .midi := by
  refine ⟨by unfold DurationsOK; decide +kernel, ⟨by decide, by decide, by decide, ?_, by decide, by decide, by decide,
    by decide, ?_⟩, ⟨by decide, by decide, by decide, by decide, by decide, by decide, by decide, by decide,
    ?_⟩⟩
  · simp only [exInput, List.mem_cons, List.not_mem_nil, or_false, forall_eq_or_imp, forall_eq]
    refine ⟨⟨trivial, ?_⟩, ⟨trivial, ?_⟩⟩ <;> simp [specEncodable, specRoots, specInversions, noReduction]
  · simp only [exInput, List.mem_cons, List.not_mem_nil, or_false, forall_eq_or_imp, forall_eq]
    exact ⟨⟨0, _, rfl, rfl⟩, ⟨21, _, rfl, rfl⟩⟩
  · simp only [exInput, List.mem_cons, List.not_mem_nil, or_false, forall_eq_or_imp, forall_eq]
    exact ⟨⟨_, rfl⟩, ⟨_, rfl⟩⟩

/-- C37: inputs before the first chord of the piece are compared with the first chord class. Here the
piece has a chord (D major) from input 1 on, and calling input 0 C major counts as right. -/
theorem C37_before_first_chord :
    ∃ A : EvalInput ℚ, A.gtChordChanges = [1] ∧ (∀ g, ¬ Covers A.gtChords A.gtChordChanges 0 g) ∧
      evaluateChords A .midi true noReduction = .ok 1 := by
  refine ⟨{ cache := [1, 1], inputs := 2,
            gtChords := [⟨2, 2, 0, .major, .major, 0, 0, 0, 1, .midi⟩], gtChordChanges := [1],
            gtKeys := [], gtKeyChanges := [], estChords := [some 0, some 6], estChordChanges := [0, 1, 2],
            estKeys := [], estKeyChanges := [] }, rfl, ?_, by decide +kernel⟩
  rintro g ⟨k, a, _, ha, h0, _⟩
  simp only [List.getElem?_cons, List.getElem?_nil] at ha
  split at ha <;> simp_all

end Verif.Eval
