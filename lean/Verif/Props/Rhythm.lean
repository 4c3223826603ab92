import Verif.Lemmas.Rhythm
import Mathlib.Algebra.Order.Monoid.Defs
import Mathlib.Tactic.FieldSimp
import Mathlib.Tactic.Ring
import Mathlib.Tactic.Linarith

/-!
# C31, C32, C52: lengths of ranges and metrical levels
-/

namespace Verif

/-! ## C31 -/

/-- C31: the length of a range is the difference of the positions of its ends, in either order. -/
theorem C31_distance {δ : Type} [AddCommGroup δ] [LinearOrder δ] {T c : List (Measure δ)}
    (h : Chain T c) (i j : Nat) (m m' : Measure δ) (hi : c[i]? = some m) (hj : c[j]? = some m')
    (b b' : δ) :
    getRangeLength T (m.mc, b) (m'.mc, b') = .ok (chainPos c j b' - chainPos c i b) := by
  rw [getRangeLength]
  split
  · rename_i hgt
    have hji : j ≤ i := by
      rcases hgt with hlt | ⟨heq, _⟩
      · have := ((h.mono j i m' m hj hi).1.1 hlt); omega
      · have := ((h.mono i j m m' hi hj).2.1 heq); omega
    rw [forward_chain h j i hji m' m hj hi]
    simp only [Bind.bind, Except.bind]
    congr 1; abel
  · rename_i hgt
    have hij : i ≤ j := by
      apply Nat.not_lt.mp
      intro hlt
      exact hgt (.inl ((h.mono j i m' m hj hi).1.2 hlt))
    exact forward_chain h i j hij m m' hi hj b b'

/-- C31: swapping the ends changes the sign. -/
theorem C31_antisymmetric {δ : Type} [AddCommGroup δ] [LinearOrder δ] {T c : List (Measure δ)}
    (h : Chain T c) (p q : Int × δ) (hp : ∃ m ∈ c, m.mc = p.1) (hq : ∃ m ∈ c, m.mc = q.1) :
    ∃ x, getRangeLength T p q = .ok x ∧ getRangeLength T q p = .ok (-x) := by
  obtain ⟨p1, b⟩ := p
  obtain ⟨q1, b'⟩ := q
  obtain ⟨m, hm, rfl⟩ := hp
  obtain ⟨m', hm', rfl⟩ := hq
  obtain ⟨i, hi⟩ := List.mem_iff_getElem?.mp hm
  obtain ⟨j, hj⟩ := List.mem_iff_getElem?.mp hm'
  exact ⟨_, C31_distance h i j m m' hi hj b b', by
    rw [C31_distance h j i m' m hj hi b' b]; congr 1; abel⟩

/-- C31: lengths add up over any point between or beyond. -/
theorem C31_additive {δ : Type} [AddCommGroup δ] [LinearOrder δ] {T c : List (Measure δ)}
    (h : Chain T c) (p q r : Int × δ) (hp : ∃ m ∈ c, m.mc = p.1) (hq : ∃ m ∈ c, m.mc = q.1)
    (hr : ∃ m ∈ c, m.mc = r.1) :
    ∃ x y, getRangeLength T p q = .ok x ∧ getRangeLength T q r = .ok y ∧
      getRangeLength T p r = .ok (x + y) := by
  obtain ⟨p1, b⟩ := p
  obtain ⟨q1, b'⟩ := q
  obtain ⟨r1, b''⟩ := r
  obtain ⟨m, hm, rfl⟩ := hp
  obtain ⟨m', hm', rfl⟩ := hq
  obtain ⟨m'', hm'', rfl⟩ := hr
  obtain ⟨i, hi⟩ := List.mem_iff_getElem?.mp hm
  obtain ⟨j, hj⟩ := List.mem_iff_getElem?.mp hm'
  obtain ⟨k, hk⟩ := List.mem_iff_getElem?.mp hm''
  exact ⟨_, _, C31_distance h i j m m' hi hj b b', C31_distance h j k m' m'' hj hk b' b'', by
    rw [C31_distance h i k m m'' hi hk b b'']; congr 1; abel⟩

theorem countP_lt {α : Type} (l : List α) (p q : α → Bool) (hpq : ∀ x ∈ l, p x = true → q x = true)
    (m : α) (hm : m ∈ l) (h1 : q m = true) (h2 : p m = false) : l.countP p + 1 ≤ l.countP q := by
  induction l with
  | nil => cases hm
  | cons a l ih =>
    have hle : l.countP p ≤ l.countP q :=
      List.countP_mono_left (fun x hx => hpq x (List.mem_cons_of_mem _ hx))
    rw [List.countP_cons, List.countP_cons]
    rcases List.mem_cons.mp hm with rfl | hm
    · simp only [h1, h2, if_true]; simp; omega
    · have := ih (fun x hx => hpq x (List.mem_cons_of_mem _ hx)) hm
      have ha := hpq a (List.mem_cons_self ..)
      cases hpa : p a
      · simp; omega
      · simp [ha hpa]; omega

/-- C31: the code ends, with a result or an exception, if all links go forward. -/
theorem C31_ends {δ : Type} [AddCommGroup δ] [LinearOrder δ] (T : List (Measure δ))
    (hfw : ∀ m ∈ T, ∀ n, m.next = some n → m.mc < n) (p q : Int × δ) :
    getRangeLength T p q ≠ .error .diverges := by
  have step : ∀ (mc : Int) (m : Measure δ) (n : Int), findMeasure T mc = some m → m.next = some n →
      T.countP (fun r => decide (n ≤ r.mc)) + 1 ≤ T.countP (fun r => decide (mc ≤ r.mc)) := by
    intro mc m n hm hn
    have hmem := List.mem_of_find?_eq_some hm
    have hmc : m.mc = mc := by simpa using List.find?_some hm
    have hlt := hfw m hmem n hn
    apply countP_lt T _ _ _ m hmem
    · simp only [decide_eq_true_eq]; omega
    · simp only [decide_eq_false_iff_not]; omega
    · intro x _ hx; simp only [decide_eq_true_eq] at hx ⊢; omega
  have walk : ∀ (fuel : Nat) (e : Int) (cur : Option Int) (len : δ),
      (∀ mc, cur = some mc → T.countP (fun r => decide (mc ≤ r.mc)) + 1 ≤ fuel) →
      walkMeasures T e fuel cur len ≠ .error .diverges := by
    intro fuel
    induction fuel with
    | zero =>
      intro e cur len hc
      cases cur with
      | none => rw [walkMeasures.eq_def]; simp
      | some mc => have := hc mc rfl; omega
    | succ fuel ih =>
      intro e cur len hc
      cases cur with
      | none => rw [walkMeasures.eq_def]; simp
      | some mc =>
        rw [walkMeasures.eq_def]
        simp only [measureAt]
        split
        · simp
        · cases hm : findMeasure T mc with
          | none => simp [Bind.bind, Except.bind]
          | some m =>
            simp only [Bind.bind, Except.bind]
            apply ih
            intro n hn
            have := step mc m n hm hn
            have := hc mc rfl
            omega
  have fwd : ∀ p q : Int × δ, forwardLength T p q ≠ .error .diverges := by
    intro p q
    rw [forwardLength]
    split
    · simp
    · simp only [measureAt]
      cases hm : findMeasure T p.1 with
      | none => simp [Bind.bind, Except.bind]
      | some m =>
        simp only [Bind.bind, Except.bind]
        have hw := walk T.length q.1 m.next (m.actDur + m.offset - p.2) (by
          intro n hn
          have := step p.1 m n hm hn
          have := List.countP_le_length (p := fun r : Measure δ => decide (p.1 ≤ r.mc)) (l := T)
          omega)
        cases hw' : walkMeasures T q.1 T.length m.next (m.actDur + m.offset - p.2) with
        | error e => rw [hw'] at hw; simpa using hw
        | ok x => cases findMeasure T q.1 <;> simp
  rw [getRangeLength]
  split
  · have := fwd q p
    cases hq : forwardLength T q p with
    | error e => rw [hq] at this; simpa [Bind.bind, Except.bind] using this
    | ok x => simp [Bind.bind, Except.bind]
  · exact fwd p q

/-- Three measures: a pickup of 1/4 (offset 3/4), a full measure and a short one. -/
def exMeasures : List (Measure ℚ) :=
  [⟨1, 1/4, 3/4, some 2⟩, ⟨2, 1, 0, some 3⟩, ⟨3, 3/4, 0, none⟩]

theorem exMeasures_chain : Chain exMeasures exMeasures := by
  refine ⟨by decide +kernel, ?_, by decide +kernel⟩
  intro k m m' h1 h2
  match k with
  | 0 => simp [exMeasures] at h1 h2; rw [← h1, ← h2]
  | 1 => simp [exMeasures] at h1 h2; rw [← h1, ← h2]
  | k + 2 => simp [exMeasures] at h2

/-- From the pickup to the middle of the last measure and back. -/
example : getRangeLength exMeasures (1, 3/4) (3, 1/2) = .ok (7/4) ∧
    getRangeLength exMeasures (3, 1/2) (1, 3/4) = .ok (-7/4) ∧
    chainPos exMeasures 2 (1/2) = 7/4 ∧ chainPos exMeasures 0 (3/4) = 0 := by decide +kernel

/-- A measure outside of the chain: the missing link has no truth value. -/
example : getRangeLength exMeasures (1, 3/4) (7, 0) = .error .typeError := by decide +kernel

/-- The links of the three measures go forward; with a link backwards the loop may not end. -/
example : (∀ m ∈ exMeasures, ∀ n, m.next = some n → m.mc < n) ∧
    getRangeLength [(⟨1, 1, 0, some 2⟩ : Measure ℚ), ⟨2, 1, 0, some 1⟩, ⟨3, 1, 0, none⟩] (1, 0) (3, 0) =
      .error .diverges := by
  refine ⟨?_, by decide +kernel⟩
  intro m hm n hn
  simp only [exMeasures, List.mem_cons, List.not_mem_nil, or_false] at hm
  rcases hm with rfl | rfl | rfl <;> simp at hn <;> subst hn <;> decide

/-! ## C52 -/

/-- C52: the onset, offset and duration of a note as proportions of a range, whichever end of the range
is nearer, and whether the length of the range is given or not. -/
theorem C52_proportion {T c : List (Measure ℚ)} (h : Chain T c) (i j k : Nat) (m m' n : Measure ℚ)
    (hi : c[i]? = some m) (hj : c[j]? = some m') (hk : c[k]? = some n) (b b' x d : ℚ)
    (hlen : chainPos c j b' - chainPos c i b ≠ 0) (given : Option ℚ)
    (hg : given = none ∨ given = some (chainPos c j b' - chainPos c i b)) :
    rhythmicInfo T (n.mc, x) d (m.mc, b) (m'.mc, b') given =
      let len := chainPos c j b' - chainPos c i b
      let onset := (chainPos c k x - chainPos c i b) / len
      .ok (onset, onset + d / len, d / len) := by
  have hsame : (1 : ℚ) - (chainPos c j b' - chainPos c k x) / (chainPos c j b' - chainPos c i b) =
      (chainPos c k x - chainPos c i b) / (chainPos c j b' - chainPos c i b) := by
    rw [eq_div_iff hlen, sub_mul, div_mul_cancel₀ _ hlen]; ring
  rcases hg with rfl | rfl
  · rw [rhythmicInfo.eq_def]
    simp only [Bind.bind, Except.bind, C31_distance h i j m m' hi hj b b',
      C31_distance h i k m n hi hk b x, C31_distance h k j n m' hk hj x b', if_neg hlen, hsame, ite_self]
  · rw [rhythmicInfo.eq_def]
    simp only [Bind.bind, Except.bind,
      C31_distance h i k m n hi hk b x, C31_distance h k j n m' hk hj x b', if_neg hlen, hsame, ite_self]

/-- C52: an empty range has no proportions. -/
theorem C52_empty_range {T c : List (Measure ℚ)} (h : Chain T c) (i j : Nat) (m m' : Measure ℚ)
    (hi : c[i]? = some m) (hj : c[j]? = some m') (b b' d : ℚ) (note : Int × ℚ)
    (hlen : chainPos c j b' = chainPos c i b) :
    rhythmicInfo T note d (m.mc, b) (m'.mc, b') none = .error .zeroDivisionError := by
  rw [rhythmicInfo]
  simp only [C31_distance h i j m m' hi hj b b', Bind.bind, Except.bind, hlen, sub_self, if_true]

/-- A quarter note on the second quarter of measure 2, in the range of all three measures. -/
example : rhythmicInfo exMeasures (2, 1/4) (1/4) (1, 3/4) (3, 3/4) none =
    .ok (1/4, 3/8, 1/8) := by decide +kernel

/-! ## C32 -/

theorem fracMod_zero_iff (a b : ℚ) (hb : b ≠ 0) :
    ∃ r, fracMod a b = .ok r ∧ (r = 0 ↔ ∃ k : ℤ, a = k * b) := by
  refine ⟨_, if_neg hb, ?_⟩
  constructor
  · intro h
    exact ⟨⌊a / b⌋, by rw [sub_eq_zero] at h; rw [mul_comm]; exact h⟩
  · rintro ⟨k, rfl⟩
    rw [mul_div_assoc, div_self hb, mul_one, Int.floor_intCast]; ring

/-- C32: the lengths of the levels: the measure is a whole number of beats, and the beat is two or three
sub-beats. -/
theorem C32_nested (num den : Int) (hn : 1 ≤ num) (hd : 1 ≤ den) :
    ∃ measure beat sub : ℚ, metricalLevelLengths num den = .ok (measure, beat, sub) ∧
      measure = (num : ℚ) / den ∧ 0 < sub ∧
      (∃ k : ℤ, 1 ≤ k ∧ measure = k * beat) ∧ (beat = 2 * sub ∨ beat = 3 * sub) := by
  have hd0 : (den : ℚ) ≠ 0 := by exact_mod_cast (by omega : den ≠ 0)
  have hdp : (0 : ℚ) < den := by exact_mod_cast (by omega : 0 < den)
  rw [metricalLevelLengths, if_neg (by omega)]
  split
  · rename_i hc
    refine ⟨_, _, _, rfl, rfl, by positivity, ⟨num / 3, by omega, ?_⟩, .inr (by ring)⟩
    have h3 : (num : ℚ) = ((num / 3 : ℤ) : ℚ) * 3 := by
      have : num = num / 3 * 3 := by omega
      exact_mod_cast this
    rw [h3]
    field_simp
  · exact ⟨_, _, _, rfl, rfl, by positivity, ⟨num, hn, by ring⟩, .inl (by ring)⟩

/-- C32: in a compound meter (two or more groups of three) the beat is three units of the time signature and
the sub-beat is one; in all other meters, 3/4 among them, the beat is one unit. -/
theorem C32_beat (num den : Int) (hd : 1 ≤ den) :
    ∃ measure beat sub : ℚ, metricalLevelLengths num den = .ok (measure, beat, sub) ∧
      ((∃ k : ℤ, 2 ≤ k ∧ num = 3 * k) → beat * den = 3 ∧ sub * den = 1) ∧
      ((¬ ∃ k : ℤ, 2 ≤ k ∧ num = 3 * k) → beat * den = 1 ∧ sub * den = 1 / 2) := by
  have hd0 : (den : ℚ) ≠ 0 := by exact_mod_cast (by omega : den ≠ 0)
  rw [metricalLevelLengths, if_neg (by omega)]
  split
  · rename_i hc
    refine ⟨_, _, _, rfl, fun _ => ⟨by field_simp, by field_simp⟩, fun h => ?_⟩
    exact absurd ⟨num / 3, by omega, by omega⟩ h
  · rename_i hc
    refine ⟨_, _, _, rfl, ?_, fun _ => ⟨by field_simp, by field_simp⟩⟩
    rintro ⟨k, hk, rfl⟩
    exact absurd ⟨by omega, by omega⟩ hc

/-- A position is a multiple of a length. -/
def IsMultiple (a b : ℚ) : Prop := ∃ k : ℤ, a = k * b

/-- C32: the level is 3 on multiples of the measure length, at least 2 on multiples of the beat length, at
least 1 on multiples of the sub-beat length, for the lengths of the time signature. -/
theorem C32_levels (num den : Int) (hn : 1 ≤ num) (hd : 1 ≤ den) (x : ℚ) :
    ∃ (measure beat sub : ℚ) (level : Nat),
      metricalLevelLengths num den = .ok (measure, beat, sub) ∧
      metricalLevel x num den = .ok level ∧ level ≤ 3 ∧
      (level = 3 ↔ IsMultiple x measure) ∧ (2 ≤ level ↔ IsMultiple x beat) ∧
      (1 ≤ level ↔ IsMultiple x sub) := by
  obtain ⟨measure, beat, sub, hl, -, hsub, ⟨k, hk, hmeasure⟩, hbeat⟩ := C32_nested num den hn hd
  have hb : 0 < beat := by rcases hbeat with h | h <;> rw [h] <;> positivity
  have hk' : (0 : ℚ) < k := by exact_mod_cast (by omega : 0 < k)
  have hm : 0 < measure := by rw [hmeasure]; positivity
  obtain ⟨r3, e3, i3⟩ := fracMod_zero_iff x measure hm.ne'
  obtain ⟨r2, e2, i2⟩ := fracMod_zero_iff x beat hb.ne'
  obtain ⟨r1, e1, i1⟩ := fracMod_zero_iff x sub hsub.ne'
  have h32 : IsMultiple x measure → IsMultiple x beat := by
    rintro ⟨l, rfl⟩; exact ⟨l * k, by rw [hmeasure]; push_cast; ring⟩
  have h21 : IsMultiple x beat → IsMultiple x sub := by
    rintro ⟨l, rfl⟩
    rcases hbeat with h | h
    · exact ⟨l * 2, by rw [h]; push_cast; ring⟩
    · exact ⟨l * 3, by rw [h]; push_cast; ring⟩
  have i3' : r3 = 0 ↔ IsMultiple x measure := i3
  have i2' : r2 = 0 ↔ IsMultiple x beat := i2
  have i1' : r1 = 0 ↔ IsMultiple x sub := i1
  have hlev : metricalLevel x num den =
      .ok (if r3 = 0 then 3 else if r2 = 0 then 2 else if r1 = 0 then 1 else 0) := by
    rw [metricalLevel, hl]
    simp only [Bind.bind, Except.bind, e3, e2, e1]
    split_ifs <;> rfl
  rw [← i3', ← i2'] at h32
  rw [← i2', ← i1'] at h21
  refine ⟨measure, beat, sub, _, hl, hlev, by split_ifs <;> omega, ?_, ?_, ?_⟩
  · rw [← i3']; clear * - h32 h21; by_cases a : r3 = 0 <;> by_cases b : r2 = 0 <;> by_cases c : r1 = 0 <;>
      simp_all
  · rw [← i2']; clear * - h32 h21; by_cases a : r3 = 0 <;> by_cases b : r2 = 0 <;> by_cases c : r1 = 0 <;>
      simp_all
  · rw [← i1']; clear * - h32 h21; by_cases a : r3 = 0 <;> by_cases b : r2 = 0 <;> by_cases c : r1 = 0 <;>
      simp_all

/-- C32: the level has the period of the measure. -/
theorem C32_periodic (num den : Int) (hn : 1 ≤ num) (hd : 1 ≤ den) (x : ℚ) (k : ℤ) :
    metricalLevel (x + k * ((num : ℚ) / den)) num den = metricalLevel x num den := by
  obtain ⟨measure, beat, sub, hl, hmeas, hsub, ⟨q, hq, hmeasure⟩, hbeat⟩ := C32_nested num den hn hd
  obtain ⟨_, _, _, l, h1, h2, h3, a3, a2, a1⟩ := C32_levels num den hn hd x
  obtain ⟨_, _, _, l', h1', h2', h3', b3, b2, b1⟩ := C32_levels num den hn hd (x + k * ((num : ℚ) / den))
  rw [hl] at h1 h1'
  simp only [Except.ok.injEq, Prod.mk.injEq] at h1 h1'
  obtain ⟨rfl, rfl, rfl⟩ := h1
  obtain ⟨rfl, rfl, rfl⟩ := h1'
  have shift : ∀ b : ℚ, (∃ z : ℤ, measure = z * b) →
      (IsMultiple (x + k * ((num : ℚ) / den)) b ↔ IsMultiple x b) := by
    rintro b ⟨z, hz⟩
    rw [← hmeas]
    constructor
    · rintro ⟨y, hy⟩
      exact ⟨y - k * z, by push_cast; rw [sub_mul, ← hy, mul_assoc, ← hz]; ring⟩
    · rintro ⟨y, hy⟩
      exact ⟨y + k * z, by push_cast; rw [add_mul, ← hy, mul_assoc, ← hz]⟩
  have s3 := shift measure ⟨1, by push_cast; ring⟩
  have s2 := shift beat ⟨q, hmeasure⟩
  have s1 := shift sub (by
    rcases hbeat with h | h
    · exact ⟨q * 2, by rw [hmeasure, h]; push_cast; ring⟩
    · exact ⟨q * 3, by rw [hmeasure, h]; push_cast; ring⟩)
  have e3 : l' = 3 ↔ l = 3 := b3.trans (s3.trans a3.symm)
  have e2 : 2 ≤ l' ↔ 2 ≤ l := b2.trans (s2.trans a2.symm)
  have e1 : 1 ≤ l' ↔ 1 ≤ l := b1.trans (s1.trans a1.symm)
  rw [h2, h2']
  congr 1
  omega

/-- 6/8 is compound, 3/4 is simple; levels in 6/8. -/
example : metricalLevelLengths 6 8 = .ok (3/4, 3/8, 1/8) ∧ metricalLevelLengths 3 4 = .ok (3/4, 1/4, 1/8) ∧
    metricalLevel (9/8) 6 8 = .ok 2 ∧ metricalLevel (3/2) 6 8 = .ok 3 ∧ metricalLevel (1/4) 6 8 = .ok 1 ∧
    metricalLevel (1/16) 6 8 = .ok 0 := by decide +kernel

end Verif
