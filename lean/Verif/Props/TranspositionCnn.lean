import Verif.TranspositionCnn
import Mathlib.Data.List.Rotate
import Mathlib.Tactic.Ring

/-!
# C139: the transposition invariant classifier
-/

namespace Verif.TranspositionCnn

theorem pad_length {p : Nat} {x y : List ℚ} (h : circularPad p x = .ok y) : y.length = x.length + 2 * p := by
  unfold circularPad at h
  split at h
  · cases h
    simp only [List.length_append, List.length_drop, List.length_take]
    omega
  · cases h

theorem slide_length (k : List ℚ × ℚ) (x : List ℚ) : (slide k x).length = x.length + 1 - k.1.length := by
  simp [slide]

/-- The place of a value of a vector padded with itself on both sides. -/
theorem pad_self {x y : List ℚ} (h : circularPad x.length x = .ok y) (j : Nat) (hj : j < 3 * x.length) :
    y[j]? = x[j % x.length]? := by
  unfold circularPad at h
  rw [if_pos le_rfl, Nat.sub_self, List.drop_zero, List.take_length] at h
  cases h
  by_cases h1 : j < x.length
  · rw [List.append_assoc, List.getElem?_append_left h1, Nat.mod_eq_of_lt h1]
  · by_cases h2 : j < 2 * x.length
    · rw [List.append_assoc, List.getElem?_append_right (by omega), List.getElem?_append_left (by omega)]
      rw [Nat.mod_eq_sub_mod (by omega), Nat.mod_eq_of_lt (by omega)]
    · rw [List.getElem?_append_right (by simp; omega)]
      rw [Nat.mod_eq_sub_mod (by omega), Nat.mod_eq_sub_mod (by omega), Nat.mod_eq_of_lt (by omega)]
      congr 1
      simp only [List.length_append]
      omega

/-- A place of a convolution is that of another vector which agrees with it there. -/
theorem kernelAt_congr : ∀ (w x y : List ℚ), (∀ i : Nat, i < w.length → x[i]? = y[i]?) → kernelAt w x = kernelAt w y
  | [], _, _, _ => by simp [kernelAt]
  | a :: w, x, y, h => by
    have h0 := h 0 (by simp)
    cases x with
    | nil =>
      cases y with
      | nil => rfl
      | cons d y => simp at h0
    | cons c x =>
      cases y with
      | nil => simp at h0
      | cons d y =>
        have hc : c = d := by simpa using h0
        have := kernelAt_congr w x y fun i hi => by
          simpa using h (i + 1) (by simpa using hi)
        simp only [kernelAt, List.zipWith_cons_cons, List.sum_cons] at this ⊢
        rw [this, hc]

/-- C139: the convolution alone treats all transpositions alike: if the vector is rotated by `k` pitches then so are all
channels. (Each of them has every pitch twice and the first one three times.) -/
theorem C139_conv_partial (net : InvariantCnn) (hn : net.Shaped) (x : List ℚ) (hx : x.length = net.pitchVectorLength)
    (k : Nat) : ∃ y z, net.conv x = .ok y ∧ net.conv (x.rotate k) = .ok z ∧ y.length = net.kernels.length ∧
      z.length = net.kernels.length ∧ ∀ (c : Nat) (r s : List ℚ), y[c]? = some r → z[c]? = some s →
        r.length = 2 * net.pitchVectorLength + 1 ∧ s.length = 2 * net.pitchVectorLength + 1 ∧
        ∀ j : Nat, j ≤ 2 * net.pitchVectorLength → 0 < net.pitchVectorLength →
          s[j]? = r[(j + k) % net.pitchVectorLength]? := by
  have hr : (x.rotate k).length = net.pitchVectorLength := by rw [List.length_rotate, hx]
  obtain ⟨a, ha⟩ : ∃ a, circularPad x.length x = .ok a := by
    unfold circularPad
    rw [if_pos le_rfl]
    exact ⟨_, rfl⟩
  obtain ⟨b, hb⟩ : ∃ b, circularPad (x.rotate k).length (x.rotate k) = .ok b := by
    unfold circularPad
    rw [if_pos le_rfl]
    exact ⟨_, rfl⟩
  have hal := pad_length ha
  have hbl := pad_length hb
  refine ⟨net.kernels.map fun k => slide k a, net.kernels.map fun k => slide k b, ?_, ?_, by simp, by simp, ?_⟩
  · unfold InvariantCnn.conv
    rw [← hx, ha]
    rfl
  · unfold InvariantCnn.conv
    rw [← hr, hb]
    rfl
  · intro c r s hr' hs'
    rw [List.getElem?_map, Option.map_eq_some_iff] at hr' hs'
    obtain ⟨w, hw, rfl⟩ := hr'
    obtain ⟨w', hw', rfl⟩ := hs'
    obtain rfl : w = w' := by rw [hw] at hw'; exact Option.some.inj hw'
    have hwl := hn w (List.mem_of_getElem? hw)
    refine ⟨by rw [slide_length, hal, hwl]; omega, by rw [slide_length, hbl, hwl]; omega, ?_⟩
    intro j hj hpos
    have hm : (j + k) % net.pitchVectorLength < net.pitchVectorLength := Nat.mod_lt _ hpos
    unfold slide
    rw [List.getElem?_map, List.getElem?_map, List.getElem?_range (by omega), List.getElem?_range (by omega)]
    simp only [Option.map_some, Option.some.injEq]
    congr 1
    apply kernelAt_congr
    intro i hi
    rw [List.getElem?_drop, List.getElem?_drop, pad_self hb _ (by omega), pad_self ha _ (by omega)]
    rw [hr, hx, List.getElem?_rotate (by rw [hx]; exact Nat.mod_lt _ hpos), hx]
    congr 1
    rw [Nat.mod_add_mod, Nat.mod_add_mod]
    congr 1
    omega

theorem convs_length (net : InvariantCnn) (hn : net.Shaped) : ∀ data : List (List ℚ),
    (∀ x ∈ data, x.length = net.pitchVectorLength) → ∃ convs, data.mapM net.conv = .ok convs ∧
      convs.flatten.flatten.length = data.length * (net.kernels.length * (2 * net.pitchVectorLength + 1))
  | [], _ => ⟨[], rfl, by simp⟩
  | x :: data, h => by
    obtain ⟨convs, h1, h2⟩ := convs_length net hn data fun y hy => h y (List.mem_cons_of_mem _ hy)
    obtain ⟨y, _, hy, _, hl, _⟩ := C139_conv_partial net hn x (h x List.mem_cons_self) 0
    refine ⟨y :: convs, by rw [List.mapM_cons, hy, h1]; rfl, ?_⟩
    rw [List.flatten_cons, List.flatten_append, List.length_append, h2]
    have h3 : y.flatten.length = net.kernels.length * (2 * net.pitchVectorLength + 1) := by
      unfold InvariantCnn.conv at hy
      cases hp : circularPad net.pitchVectorLength x with
      | error e => rw [hp] at hy; cases hy
      | ok a =>
        rw [hp] at hy
        cases hy
        rw [List.length_flatten, List.map_map]
        have : net.kernels.map (List.length ∘ fun k => slide k a) =
            net.kernels.map fun _ => 2 * net.pitchVectorLength + 1 := by
          apply List.map_congr_left
          intro w hw
          rw [Function.comp, slide_length, pad_length hp, hn w hw, h x List.mem_cons_self]
          omega
        rw [this]
        simp
    rw [h3, List.length_cons]
    ring

/-- C139: on vectors of all pitches, the rows for the parallel layers can never be made: the convolution has one place too
many for them to have one column for each channel. -/
theorem C139_rows_fails (net : InvariantCnn) (hn : net.Shaped) (hk : net.kernels ≠ []) (data : List (List ℚ))
    (hd : ∀ x ∈ data, x.length = net.pitchVectorLength) :
    net.parallelIn (.rows data) = .error .valueError ∧ net.forward (.rows data) = .error .valueError := by
  have h : net.parallelIn (.rows data) = .error .valueError := by
    obtain ⟨convs, h1, h2⟩ := convs_length net hn data hd
    unfold InvariantCnn.parallelIn
    simp only [h1, Bind.bind, Except.bind]
    unfold reshapeRows
    rw [List.length_map, h2]
    by_cases hz : data.length * 12 = 0 ∨
        data.length * (net.kernels.length * (2 * net.pitchVectorLength + 1)) % (data.length * 12) ≠ 0
    · rw [if_pos hz]
    · rw [if_neg hz]
      push Not at hz
      have hpos : 0 < data.length := by omega
      have hC : 0 < net.kernels.length := List.length_pos_iff.mpr hk
      rw [Nat.mul_div_mul_left _ _ hpos]
      simp only
      rw [if_neg]
      intro hall
      rw [List.all_eq_true] at hall
      have h3 := hall _ (List.mem_map.mpr ⟨0, List.mem_range.mpr (by omega), rfl⟩)
      simp only [Nat.zero_mul, List.drop_zero, List.length_take, List.length_map, decide_eq_true_eq, h2] at h3
      have h4 : 12 ∣ net.kernels.length * (2 * net.pitchVectorLength + 1) := by
        have := Nat.dvd_of_mod_eq_zero hz.2
        exact (Nat.mul_dvd_mul_iff_left hpos).mp this
      obtain ⟨q, hq⟩ := h4
      rw [hq, Nat.mul_div_cancel_left _ (by decide)] at h3
      have h5 : q ≤ data.length * (12 * q) := Nat.le_trans (by omega : q ≤ 12 * q) (Nat.le_mul_of_pos_left _ hpos)
      rw [Nat.min_eq_left h5] at h3
      rw [h3] at hq
      have h6 : 2 * net.pitchVectorLength + 1 = 12 := by
        have : net.kernels.length * (2 * net.pitchVectorLength + 1) = net.kernels.length * 12 := by rw [hq]; ring
        exact Nat.eq_of_mul_eq_mul_left hC this
      omega
  refine ⟨h, ?_⟩
  unfold InvariantCnn.forward
  rw [h]
  rfl

theorem conv_error (net : InvariantCnn) : ∀ data : List (List ℚ),
    (∃ convs, data.mapM net.conv = .ok convs) ∨ data.mapM net.conv = .error .valueError
  | [] => Or.inl ⟨[], rfl⟩
  | x :: data => by
    rw [List.mapM_cons]
    have hx : (∃ y, net.conv x = .ok y) ∨ net.conv x = .error .valueError := by
      unfold InvariantCnn.conv circularPad
      split
      · exact Or.inl ⟨_, rfl⟩
      · exact Or.inr rfl
    rcases hx with ⟨y, hy⟩ | hy
    · rcases conv_error net data with ⟨ys, h⟩ | h
      · exact Or.inl ⟨y :: ys, by rw [hy, h]; rfl⟩
      · exact Or.inr (by rw [hy, h]; rfl)
    · exact Or.inr (by rw [hy]; rfl)

/-- C139: the classifier gives no output for any data, of any shape and with any settings. -/
theorem C139_forward_fails (net : InvariantCnn) (data : CnnData) :
    net.forward data = .error .valueError ∨ net.forward data = .error .typeError := by
  unfold InvariantCnn.forward
  cases data with
  | channels l => exact Or.inl rfl
  | rows data =>
    unfold InvariantCnn.parallelIn
    rcases conv_error net data with ⟨convs, h⟩ | h
    · simp only [h, Bind.bind, Except.bind]
      unfold reshapeRows
      by_cases hz : data.length * 12 = 0 ∨ (convs.flatten.flatten.map relu).length % (data.length * 12) ≠ 0
      · rw [if_pos hz]
        exact Or.inl rfl
      · rw [if_neg hz]
        simp only
        by_cases hall : (((List.range (data.length * 12)).map fun i : Nat =>
            ((convs.flatten.flatten.map relu).drop
              (i * ((convs.flatten.flatten.map relu).length / (data.length * 12)))).take
              ((convs.flatten.flatten.map relu).length / (data.length * 12))).all
            fun r => decide (r.length = net.kernels.length)) = true
        · rw [if_pos hall]
          exact Or.inr rfl
        · rw [if_neg hall]
          exact Or.inl rfl
    · simp only [h, Bind.bind, Except.bind]
      exact Or.inl trivial

/-- A classifier with one kernel of three pitches, and data of the two rotations of a vector. -/
def smallNet : InvariantCnn := ⟨3, [([1, 2, 4], 1)], id⟩

example : smallNet.Shaped := by
  intro k hk
  simp only [smallNet, List.mem_singleton] at hk
  rw [hk]
  rfl

example : smallNet.conv [1, 0, 0] = .ok [[2, 5, 3, 2, 5, 3, 2]] ∧
    smallNet.conv ([1, 0, 0].rotate 1) = .ok [[5, 3, 2, 5, 3, 2, 5]] := by decide +kernel

example : smallNet.forward (.rows [[1, 0, 0], [0, 1, 0]]) = .error .valueError := by decide +kernel

/-- Twelve places: a kernel of five pitches and vectors of six. Then the last `reshape` raises. -/
example : (⟨5, [([1, 0, 0, 0, 0], 0)], id⟩ : InvariantCnn).forward (.rows [[1, 2, 3, 4, 5, 6]]) = .error .typeError := by
  decide +kernel

end Verif.TranspositionCnn
