import Verif.PyStr
import Verif.Harmonic

/-!
# Numbers as text

`str` of an integer and `int` of a text are inverse; texts joined by a separator are split again.
-/

namespace Verif

/-- `str(i)`: a sign for negative numbers and decimal digits. -/
theorem intStr_eq (i : Int) :
    intStr i = if i < 0 then '-' :: Nat.toDigits 10 i.natAbs else Nat.toDigits 10 i.natAbs := by
  cases i with
  | ofNat n =>
    have h : ¬ (Int.ofNat n < 0) := by simp
    rw [if_neg h]
    simp only [intStr, Int.toString_eq_repr, Int.repr_eq_if]
    rw [if_pos (by simp)]
    simp [Nat.toList_repr]
  | negSucc n =>
    have h : Int.negSucc n < 0 := Int.negSucc_lt_zero n
    rw [if_pos h]
    simp only [intStr, Int.toString_eq_repr, Int.repr_eq_if]
    rw [if_neg (by omega)]
    simp only [String.toList_append, Nat.toList_repr]
    have : (-(Int.negSucc n)).toNat = (Int.negSucc n).natAbs := by omega
    rw [this]; rfl

theorem digit_toDigits (n : Nat) (c : Char) (h : c ∈ Nat.toDigits 10 n) : c.isDigit = true :=
  Nat.isDigit_of_mem_toDigits (by decide) (by decide) h

theorem digitsOk_all (s : Str) (h : ∀ c ∈ s, c.isDigit = true) (prev : Bool) (hp : prev = true ∨ s ≠ []) :
    digitsOk prev s = true := by
  induction s generalizing prev with
  | nil => simpa [digitsOk] using hp
  | cons c s ih =>
    rw [digitsOk, if_pos (h c (by simp))]
    exact ih (fun d hd => h d (List.mem_cons_of_mem _ hd)) true (.inl rfl)

theorem natOf_digits (s : Str) (h : ∀ c ∈ s, c.isDigit = true) (hs : s ≠ []) :
    natOf s = .ok (Nat.ofDigitChars 10 s 0) := by
  rw [natOf, if_pos (digitsOk_all s h false (.inr hs))]
  rw [List.filter_eq_self.mpr h]

theorem natOf_toDigits (n : Nat) : natOf (Nat.toDigits 10 n) = .ok n := by
  rw [natOf_digits _ (digit_toDigits n) Nat.toDigits_ne_nil, Nat.ofDigitChars_ten_toDigits]

theorem toDigits_head (n : Nat) : ∃ c s, Nat.toDigits 10 n = c :: s ∧ c.isDigit = true := by
  cases h : Nat.toDigits 10 n with
  | nil => exact absurd h Nat.toDigits_ne_nil
  | cons c s => exact ⟨c, s, rfl, digit_toDigits n c (by rw [h]; simp)⟩

theorem signedOf_intStr (i : Int) : signedOf (intStr i) = .ok i := by
  rw [intStr_eq]
  by_cases h : i < 0
  · rw [if_pos h, signedOf, if_pos rfl, natOf_toDigits]
    exact congrArg Except.ok (by simp only []; omega)
  · rw [if_neg h]
    obtain ⟨c, s, hs, hc⟩ := toDigits_head i.natAbs
    have h1 : c ≠ '-' := by rintro rfl; exact absurd hc (by decide)
    have h2 : c ≠ '+' := by rintro rfl; exact absurd hc (by decide)
    rw [hs, signedOf, if_neg h1, if_neg h2, ← hs, natOf_toDigits]
    exact congrArg Except.ok (by simp only []; omega)

/-- No character of a written number is white space, a comma, a parenthesis, a point or a slash. -/
theorem intStr_chars (i : Int) (c : Char) (h : c ∈ intStr i) : c.isDigit = true ∨ c = '-' := by
  rw [intStr_eq] at h
  by_cases hi : i < 0
  · rw [if_pos hi, List.mem_cons] at h
    exact h.symm.imp (digit_toDigits _ c) id
  · rw [if_neg hi] at h; exact .inl (digit_toDigits _ c h)

theorem intStr_ne_nil (i : Int) : intStr i ≠ [] := by
  rw [intStr_eq]
  by_cases hi : i < 0
  · rw [if_pos hi]; simp
  · rw [if_neg hi]; exact Nat.toDigits_ne_nil

theorem space_not_digit (c : Char) (h : c.isDigit = true ∨ c = '-') : isSpace c = false := by
  rcases h with h | rfl
  · cases hs : isSpace c with
    | false => rfl
    | true =>
      simp only [isSpace, List.mem_cons, List.not_mem_nil, or_false, decide_eq_true_eq] at hs
      rcases hs with rfl | rfl | rfl | rfl | rfl | rfl <;> exact absurd h (by decide)
  · decide

theorem dropWhile_spaces (sp s : Str) (hsp : ∀ c ∈ sp, isSpace c = true)
    (hs : ∀ c ∈ s.head?, isSpace c = false) : (sp ++ s).dropWhile isSpace = s := by
  induction sp with
  | nil =>
    cases s with
    | nil => rfl
    | cons c s => simp [hs c (by simp)]
  | cons a sp ih =>
    rw [List.cons_append, List.dropWhile_cons, if_pos (hsp a (by simp))]
    exact ih fun c hc => hsp c (List.mem_cons_of_mem _ hc)

/-- White space around a text is removed. -/
theorem strip_spaces (sp s sq : Str) (hsp : ∀ c ∈ sp, isSpace c = true) (hsq : ∀ c ∈ sq, isSpace c = true)
    (hne : s ≠ []) (hs : ∀ c ∈ s, isSpace c = false) : strip (sp ++ s ++ sq) = s := by
  rw [strip, List.append_assoc, dropWhile_spaces sp (s ++ sq) hsp, List.reverse_append,
    dropWhile_spaces, List.reverse_reverse]
  · intro c hc; exact hsq c (by simpa using hc)
  · intro c hc
    rw [List.head?_reverse] at hc
    exact hs c (List.mem_of_mem_getLast? hc)
  · intro c hc
    cases s with
    | nil => exact absurd rfl hne
    | cons a s => simp only [List.cons_append, List.head?_cons, Option.mem_some_iff] at hc; exact hs c (by simp [hc])

/-- `int(" … str(i) … ")`. -/
theorem parseInt_intStr (i : Int) (sp sq : Str) (hsp : ∀ c ∈ sp, isSpace c = true)
    (hsq : ∀ c ∈ sq, isSpace c = true) : parseInt (sp ++ intStr i ++ sq) = .ok i := by
  rw [parseInt, strip_spaces sp _ sq hsp hsq (intStr_ne_nil i)
    (fun c hc => space_not_digit c (intStr_chars i c hc)), signedOf_intStr]

theorem splitSub_skip (sep t s : Str) : splitSub sep t.length (t ++ s) = splitSub sep 0 s := by
  induction t with
  | nil => rfl
  | cons c t ih => simpa [splitSub] using ih

/-- A text without the first character of the separator, the separator, and the rest. -/
theorem pySplit_cons (a : Char) (t w rest : Str) (h : a ∉ w) :
    pySplit (a :: t) (w ++ (a :: t) ++ rest) = w :: pySplit (a :: t) rest := by
  simp only [pySplit]
  induction w with
  | nil =>
    have hp : (a :: t).isPrefixOf (a :: (t ++ rest)) = true := by
      rw [List.isPrefixOf_iff_prefix]; exact ⟨rest, by simp⟩
    rw [List.nil_append, List.cons_append, splitSub, if_pos hp]
    simp [splitSub_skip]
  | cons c w ih =>
    simp only [List.mem_cons, not_or] at h
    have hp : ¬ (a :: t).isPrefixOf (c :: (w ++ a :: t ++ rest)) = true := by
      simp [List.isPrefixOf, h.1]
    rw [List.cons_append, List.cons_append, splitSub, if_neg hp, ih h.2]

/-- A text without the first character of the separator. -/
theorem pySplit_word (a : Char) (t w : Str) (h : a ∉ w) : pySplit (a :: t) w = [w] := by
  simp only [pySplit]
  induction w with
  | nil => rfl
  | cons c w ih =>
    simp only [List.mem_cons, not_or] at h
    have hp : ¬ (a :: t).isPrefixOf (c :: w) = true := by simp [List.isPrefixOf, h.1]
    rw [splitSub, if_neg hp, ih h.2]

/-- `sep.join(words)`. -/
def pyJoin (sep : Str) : List Str → Str
  | [] => []
  | [w] => w
  | w :: ws => w ++ sep ++ pyJoin sep ws

/-- Splitting what was joined. -/
theorem pySplit_join (a : Char) (t : Str) (ws : List Str) (h : ∀ w ∈ ws, a ∉ w) (hne : ws ≠ []) :
    pySplit (a :: t) (pyJoin (a :: t) ws) = ws := by
  induction ws with
  | nil => exact absurd rfl hne
  | cons w ws ih =>
    cases ws with
    | nil => exact pySplit_word a t w (h w (by simp))
    | cons v vs =>
      rw [pyJoin, pySplit_cons a t w _ (h w (by simp)), ih (fun x hx => h x (List.mem_cons_of_mem _ hx)) (by simp)]
      simp

end Verif
