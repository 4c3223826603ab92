import Verif.Harmonic

/-! # Lemmas on accidentals, pitch names and intervals -/

namespace Verif

theorem replicate_append_cons_same {α : Type _} (n : Nat) (c : α) (l : List α) :
    List.replicate n c ++ c :: l = c :: (List.replicate n c ++ l) := by
  induction n with
  | zero => rfl
  | succ n ih => rw [List.replicate_succ, List.cons_append, ih, List.cons_append]

/-! ## Accidental stripping -/

theorem stripFlats_replicate (n : Nat) (c : Char) (rest : Str) (h : c ≠ 'b' ∨ rest = []) :
    stripFlats (List.replicate n 'b' ++ c :: rest) = (-(n : Int), c :: rest) := by
  induction n with
  | zero =>
    cases rest with
    | nil => simp [stripFlats]
    | cons d ds =>
      have hc : c ≠ 'b' := by rcases h with h | h <;> simp_all
      simp [stripFlats, hc]
  | succ n ih =>
    have : ∃ d ds, List.replicate n 'b' ++ c :: rest = d :: ds := by
      cases n <;> simp [List.replicate_succ]
    obtain ⟨d, ds, hd⟩ := this
    rw [hd] at ih
    simp only [List.replicate_succ, List.cons_append, hd, stripFlats, if_true, ih]
    simp; omega

theorem stripSharps_replicate (n : Nat) (c : Char) (rest : Str) (h : c ≠ '#') :
    stripSharps (List.replicate n '#' ++ c :: rest) = .ok ((n : Int), c :: rest) := by
  induction n with
  | zero => simp [stripSharps, h]
  | succ n ih =>
    simp only [List.replicate_succ, List.cons_append, stripSharps, if_true, ih,
      Bind.bind, Except.bind]
    simp

theorem stripSharps_all (n : Nat) :
    stripSharps (List.replicate n '#') = .error .indexError := by
  induction n with
  | zero => rfl
  | succ n ih => simp [List.replicate_succ, stripSharps, ih, Bind.bind, Except.bind]

theorem stripFlats_then_sharps (n m : Nat) :
    stripFlats (List.replicate n 'b' ++ List.replicate (m + 1) '#') =
      (-(n : Int), List.replicate (m + 1) '#') := by
  rw [List.replicate_succ]
  exact stripFlats_replicate n '#' _ (Or.inl (by decide))

/-- Every non-empty string is flats followed by a rest on which stripping stops. -/
theorem exists_flats : ∀ s : Str, s ≠ [] →
    ∃ n c rest, s = List.replicate n 'b' ++ c :: rest ∧ (c ≠ 'b' ∨ rest = [])
  | [], h => absurd rfl h
  | [c], _ => ⟨0, c, [], rfl, Or.inr rfl⟩
  | c :: d :: rest, _ => by
    by_cases hc : c = 'b'
    · obtain ⟨n, c', r', h1, h2⟩ := exists_flats (d :: rest) (by simp)
      exact ⟨n + 1, c', r', by rw [h1, hc]; rfl, h2⟩
    · exact ⟨0, c, d :: rest, rfl, Or.inl hc⟩

/-- Every string is sharps followed by nothing or by a different character. -/
theorem exists_sharps : ∀ s : Str,
    (∃ n, s = List.replicate n '#') ∨
      ∃ n c rest, s = List.replicate n '#' ++ c :: rest ∧ c ≠ '#'
  | [] => Or.inl ⟨0, rfl⟩
  | c :: rest => by
    by_cases hc : c = '#'
    · rcases exists_sharps rest with ⟨n, h⟩ | ⟨n, c', r', h, h'⟩
      · exact Or.inl ⟨n + 1, by rw [h, hc]; rfl⟩
      · exact Or.inr ⟨n + 1, c', r', by rw [h, hc]; rfl, h'⟩
    · exact Or.inr ⟨0, c, rest, rfl, hc⟩

theorem accidental_front (n m : Nat) (c : Char) (rest : Str) (hc : c ≠ '#')
    (hb : m ≠ 0 ∨ c ≠ 'b' ∨ rest = []) :
    accidentalAdjustment (List.replicate n 'b' ++ (List.replicate m '#' ++ c :: rest)) true =
      .ok ((m : Int) - n, c :: rest) := by
  unfold accidentalAdjustment
  rw [if_neg (by simp), if_pos rfl]
  cases m with
  | zero =>
    simp only [List.replicate_zero, List.nil_append]
    rw [stripFlats_replicate n c rest (by simpa using hb)]
    have := stripSharps_replicate 0 c rest hc
    simp only [List.replicate_zero, List.nil_append] at this
    simp only [this, Bind.bind, Except.bind]
    simp
  | succ m =>
    rw [List.replicate_succ, List.cons_append]
    rw [stripFlats_replicate n '#' _ (Or.inl (by decide)), ← List.cons_append, ← List.replicate_succ]
    simp only [stripSharps_replicate _ c rest hc, Bind.bind, Except.bind]
    congr 2; omega

theorem accidental_behind_eq (s : Str) :
    accidentalAdjustment s false =
      (accidentalAdjustment s.reverse true).map (fun p => (p.1, p.2.reverse)) := by
  unfold accidentalAdjustment
  by_cases hs : s = []
  · subst hs; rfl
  · have hs' : ¬ s.reverse = [] := by simpa using hs
    simp only [if_neg hs, if_neg hs', Bool.false_eq_true, if_false, if_true]
    cases stripSharps (stripFlats s.reverse).2 <;>
      simp [Bind.bind, Except.bind, Except.map]

/-- Accidentals written after a base of one character. -/
theorem accidental_behind (n m : Nat) (c : Char) (hc : c ≠ '#') :
    accidentalAdjustment (c :: (List.replicate m '#' ++ List.replicate n 'b')) false =
      .ok ((m : Int) - n, [c]) := by
  rw [accidental_behind_eq]
  have : (c :: (List.replicate m '#' ++ List.replicate n 'b')).reverse =
      List.replicate n 'b' ++ (List.replicate m '#' ++ c :: []) := by
    simp
  rw [this, accidental_front n m c [] hc (Or.inr (Or.inr rfl))]
  rfl

/-! ## Pitch names -/

theorem raiseLoop_done : ∀ (n : Nat) (p a : Int), (14 - p).toNat ≤ n →
    14 ≤ (raiseLoop n p a).1 ∧ (14 ≤ p → raiseLoop n p a = (p, a)) ∧
    (p < 14 → (raiseLoop n p a).1 ≤ 20) ∧
    (raiseLoop n p a).1 = p + 7 * (a - (raiseLoop n p a).2)
  | 0, p, a, h => by
    exact ⟨by simp only [raiseLoop]; omega, fun _ => rfl, fun h => absurd h (by omega),
      by simp only [raiseLoop]; omega⟩
  | n + 1, p, a, h => by
    unfold raiseLoop
    by_cases hp : p < 14
    · rw [if_pos hp]
      obtain ⟨h1, h2, h3, h4⟩ := raiseLoop_done n (p + 7) (a - 1) (by omega)
      refine ⟨h1, by omega, fun _ => ?_, by rw [h4]; omega⟩
      by_cases hq : p + 7 < 14
      · exact h3 hq
      · rw [h2 (by omega)]; simp only; omega
    · rw [if_neg hp]
      exact ⟨by simp only; omega, fun _ => rfl, fun h => absurd h (by omega), by simp only; omega⟩

theorem lowerLoop_done : ∀ (n : Nat) (p a : Int), (p - 20).toNat ≤ n →
    (lowerLoop n p a).1 ≤ 20 ∧ (p ≤ 20 → lowerLoop n p a = (p, a)) ∧
    (20 < p → 14 ≤ (lowerLoop n p a).1) ∧
    (lowerLoop n p a).1 = p + 7 * (a - (lowerLoop n p a).2)
  | 0, p, a, h => by
    exact ⟨by simp only [lowerLoop]; omega, fun _ => rfl, fun h => absurd h (by omega),
      by simp only [lowerLoop]; omega⟩
  | n + 1, p, a, h => by
    unfold lowerLoop
    by_cases hp : p > 20
    · rw [if_pos hp]
      obtain ⟨h1, h2, h3, h4⟩ := lowerLoop_done n (p - 7) (a + 1) (by omega)
      refine ⟨h1, by omega, fun _ => ?_, by rw [h4]; omega⟩
      by_cases hq : 20 < p - 7
      · exact h3 hq
      · rw [h2 (by omega)]; simp only; omega
    · rw [if_neg hp]
      exact ⟨by simp only; omega, fun _ => rfl, fun h => absurd h (by omega), by simp only; omega⟩

/-- The seven natural pitches and their letters. -/
theorem tpcStrings_letter (q : Int) (h0 : 14 ≤ q) (h1 : q ≤ 20) :
    ∃ c, tpcStrings q = some [c] ∧ c ∈ ['A', 'B', 'C', 'D', 'E', 'F', 'G'] ∧
      stringToPitch .tpc [c] = some q ∧
      stringToPitch .midi [c] = some ((7 * (q - 15)) % 12) := by
  have : q = 14 ∨ q = 15 ∨ q = 16 ∨ q = 17 ∨ q = 18 ∨ q = 19 ∨ q = 20 := by omega
  rcases this with h | h | h | h | h | h | h <;> subst h
  · exact ⟨'F', by decide⟩
  · exact ⟨'C', by decide⟩
  · exact ⟨'G', by decide⟩
  · exact ⟨'D', by decide⟩
  · exact ⟨'A', by decide⟩
  · exact ⟨'E', by decide⟩
  · exact ⟨'B', by decide⟩

/-- The name of a TPC pitch: a natural letter and a number of accidentals. -/
theorem pitchString_tpc (p : Int) :
    ∃ (c : Char) (q a : Int), p = q + 7 * a ∧ c ∈ ['A', 'B', 'C', 'D', 'E', 'F', 'G'] ∧
      14 ≤ q ∧ q ≤ 20 ∧
      stringToPitch .tpc [c] = some q ∧
      stringToPitch .midi [c] = some ((7 * (q - 15)) % 12) ∧
      pitchString p .tpc =
        .ok (c :: (List.replicate a.toNat '#' ++ List.replicate (-a).toNat 'b')) := by
  obtain ⟨h1, h2, h3, h4⟩ := raiseLoop_done (14 - p).toNat p 0 (Nat.le_refl _)
  generalize hr : raiseLoop (14 - p).toNat p 0 = x at *
  obtain ⟨q, a⟩ := x
  simp only at *
  obtain ⟨g1, g2, g3, g4⟩ := lowerLoop_done (q - 20).toNat q a (Nat.le_refl _)
  generalize hl : lowerLoop (q - 20).toNat q a = y at *
  obtain ⟨q', a'⟩ := y
  simp only at *
  have hq : 14 ≤ q' ∧ q' ≤ 20 := by
    refine ⟨?_, g1⟩
    by_cases hh : q ≤ 20
    · have := g2 hh; simp only [Prod.mk.injEq] at this; omega
    · exact g3 (by omega)
  obtain ⟨c, hc1, hc2, hc3, hc4⟩ := tpcStrings_letter q' hq.1 hq.2
  refine ⟨c, q', a', by omega, hc2, hq.1, hq.2, hc3, hc4, ?_⟩
  simp only [pitchString, hr, hl, hc1]
  by_cases ha : a' < 0
  · rw [if_pos ha]
    have : a'.toNat = 0 := by omega
    simp [this]
  · rw [if_neg ha]
    have : (-a').toNat = 0 := by omega
    simp [this]

theorem pitchString_midi (p : Int) :
    ∃ s, pitchString p .midi = .ok s ∧ midiStrings[(p % 12).toNat]? = some s := by
  have h0 : 0 ≤ p % 12 := by omega
  have h1 : p % 12 < 12 := by omega
  have hlt : (p % 12).toNat < midiStrings.length := by
    have : midiStrings.length = 12 := by decide
    omega
  refine ⟨midiStrings[(p % 12).toNat], ?_, by simp [hlt]⟩
  simp [pitchString, pyGet, NUM_PITCHES, h0, hlt]

theorem pitchString_total (p : Int) (pt : PitchType) : ∃ s, pitchString p pt = .ok s := by
  cases pt
  · obtain ⟨c, _, a, _, _, _, _, _, _, h⟩ := pitchString_tpc p; exact ⟨_, h⟩
  · obtain ⟨s, h, _⟩ := pitchString_midi p; exact ⟨s, h⟩

/-- Reading a letter followed by accidentals as MIDI. -/
theorem pitchFromString_letter_midi (c : Char) (m n : Nat) (hc : c ≠ '#')
    (hs : c ≠ '/') (q : Int) (hq : stringToPitch .midi [c] = some q) :
    pitchFromString (c :: (List.replicate m '#' ++ List.replicate n 'b')) .midi =
      .ok ((q + ((m : Int) - n)) % 12) := by
  unfold pitchFromString
  have hno : ¬ ('/' ∈ c :: (List.replicate m '#' ++ List.replicate n 'b')) := by
    simp [hs.symm, List.mem_replicate]
  simp only [hno, and_false, if_false, accidental_behind n m c hc, Bind.bind, Except.bind, hq,
    accidentalUnit, NUM_PITCHES, Int.mul_one]

/-- Reading a letter followed by accidentals as TPC. -/
theorem pitchFromString_letter_tpc (c : Char) (m n : Nat) (hc : c ≠ '#')
    (q : Int) (hq : stringToPitch .tpc [c] = some q) :
    pitchFromString (c :: (List.replicate m '#' ++ List.replicate n 'b')) .tpc =
      if 0 ≤ q + 7 * ((m : Int) - n) ∧ q + 7 * ((m : Int) - n) < 35
      then .ok (q + 7 * ((m : Int) - n)) else .error .valueError := by
  unfold pitchFromString
  simp only [reduceCtorEq, false_and, if_false, accidental_behind n m c hc, Bind.bind, Except.bind,
    hq]
  have hu : accidentalUnit .tpc = 7 := rfl
  have hN : NUM_PITCHES .tpc = 35 := rfl
  by_cases h : 0 ≤ q + 7 * ((m : Int) - n) ∧ q + 7 * ((m : Int) - n) < 35
  · rw [if_pos h, if_neg (by rw [hu, hN]; omega)]; congr 1; rw [hu]; omega
  · rw [if_neg h, if_pos (by rw [hu, hN]; omega)]

end Verif
