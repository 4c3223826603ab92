import Verif.Lemmas.PyStr
import Verif.Lemmas.Lists
import Mathlib.Data.Rat.Defs
import Mathlib.Data.Rat.Lemmas
import Mathlib.Tactic.FieldSimp
import Mathlib.Tactic.Ring

/-!
# C105: columns of tables are read as they are written
-/

namespace Verif.PyStrings

/-- `str(q)` of a `Fraction`: the denominator is left out if it is 1. -/
def fracText (q : Rat) : Str :=
  if q.den = 1 then intStr q.num else intStr q.num ++ ['/'] ++ intStr (q.den : Int)

theorem mapM_parse (l : List Int) : (l.map intStr).mapM parseInt = .ok l := by
  induction l with
  | nil => rfl
  | cons i l ih =>
    have h := parseInt_intStr i [] [] (by simp) (by simp)
    simp only [List.nil_append, List.append_nil] at h
    rw [List.map_cons, List.mapM_cons, h, ih]; rfl

theorem comma_free (i : Int) : ',' ∉ intStr i := by
  intro h
  rcases intStr_chars i ',' h with h | h <;> exact absurd h (by decide)

theorem join_ne_nil (l : List Int) (h : l ≠ []) : pyJoin [',', ' '] (l.map intStr) ≠ [] := by
  cases l with
  | nil => exact absurd rfl h
  | cons i l =>
    have hi := intStr_ne_nil i
    cases l with
    | nil => simpa [pyJoin] using hi
    | cons j l => simp [pyJoin]

/-- C105: a tuple of integers, written with `", "` between them, is read as the same tuple; nothing is read as the
empty tuple. -/
theorem C105_tuple (l : List Int) : str2inttuple (pyJoin [',', ' '] (l.map intStr)) = l := by
  by_cases h : l = []
  · subst h; rfl
  · rw [str2inttuple, if_neg (join_ne_nil l h), pySplit_join ',' [' '] _ _ (by simpa using h), mapM_parse]
    intro w hw
    obtain ⟨i, _, rfl⟩ := List.mem_map.mp hw
    exact comma_free i

/-- C105: a tuple with something else than an integer in it is read as the empty tuple. -/
theorem C105_tuple_bad (s w : Str) (hw : w ∈ pySplit [',', ' '] s) (e : PyErr) (he : parseInt w = .error e) :
    str2inttuple s = [] := by
  rw [str2inttuple]
  by_cases h : s = []
  · rw [if_pos h]
  · rw [if_neg h]
    have : ∀ ws : List Str, w ∈ ws → ∃ e, ws.mapM parseInt = .error e := by
      intro ws
      induction ws with
      | nil => intro h; cases h
      | cons v ws ih =>
        intro hm
        rw [List.mapM_cons]
        cases hv : parseInt v with
        | error e => exact ⟨e, rfl⟩
        | ok x =>
          rcases List.mem_cons.mp hm with rfl | hm
          · rw [hv] at he; cases he
          · obtain ⟨e', he'⟩ := ih hm
            exact ⟨e', by simp [he', Bind.bind, Except.bind]⟩
    obtain ⟨e', he'⟩ := this _ hw
    rw [he']

/-- C105: a written integer is read as whether it is not zero. -/
theorem C105_bool (i : Int) : int2bool (intStr i) = some (decide (i ≠ 0)) := by
  have h := parseInt_intStr i [] [] (by simp) (by simp)
  simp only [List.nil_append, List.append_nil] at h
  rw [int2bool, h]

theorem plainNat_toDigits (n : Nat) : plainNat (Nat.toDigits 10 n) = some n := by
  rw [plainNat, if_pos ⟨Nat.toDigits_ne_nil, List.all_eq_true.mpr (digit_toDigits n)⟩,
    Nat.ofDigitChars_ten_toDigits]

theorem digits_free (n : Nat) (c : Char) (hc : c.isDigit = false) : c ∉ Nat.toDigits 10 n := by
  intro h; rw [digit_toDigits n c h] at hc; cases hc

theorem unsigned_int (n : Nat) : unsignedFrac (Nat.toDigits 10 n) = .ok (n : Rat) := by
  rw [unsignedFrac, pySplit_word '/' [] _ (digits_free n '/' (by decide))]
  simp only
  rw [pySplit_word '.' [] _ (digits_free n '.' (by decide))]
  simp only [plainNat_toDigits]

theorem unsigned_frac (n d : Nat) (hd : d ≠ 0) :
    unsignedFrac (Nat.toDigits 10 n ++ ['/'] ++ Nat.toDigits 10 d) = .ok ((n : Rat) / (d : Rat)) := by
  rw [unsignedFrac, pySplit_cons '/' [] _ _ (digits_free n '/' (by decide)),
    pySplit_word '/' [] _ (digits_free d '/' (by decide))]
  simp only [plainNat_toDigits, if_neg hd]

theorem frac_signed (i : Int) (rest : Str) (q : Rat) (hr : ∀ c ∈ rest, isSpace c = false)
    (h : unsignedFrac (Nat.toDigits 10 i.natAbs ++ rest) = .ok q) :
    str2frac (intStr i ++ rest) = some (if i < 0 then -q else q) := by
  have hs : strip (intStr i ++ rest) = intStr i ++ rest := by
    have := strip_spaces [] (intStr i ++ rest) [] (by simp) (by simp) (by simp [intStr_ne_nil])
      (by
        intro c hc
        rcases List.mem_append.mp hc with hc | hc
        · exact space_not_digit c (intStr_chars i c hc)
        · exact hr c hc)
    simpa using this
  rw [str2frac, pyFraction, hs, intStr_eq]
  by_cases hi : i < 0
  · simp only [if_pos hi, List.cons_append, h, Except.map, if_true]
  · obtain ⟨c, s, hcs, hc⟩ := toDigits_head i.natAbs
    have h1 : c ≠ '-' := by rintro rfl; exact absurd hc (by decide)
    have h2 : c ≠ '+' := by rintro rfl; exact absurd hc (by decide)
    rw [hcs] at h
    simp only [if_neg hi, hcs, List.cons_append, if_neg h1, if_neg h2]
    rw [List.cons_append] at h
    rw [h]

theorem natAbs_cast (i : Int) : (if i < 0 then -((i.natAbs : Nat) : Rat) else ((i.natAbs : Nat) : Rat)) = (i : Rat) := by
  cases i with
  | ofNat n => rw [if_neg (by simp)]; simp
  | negSucc n =>
    rw [if_pos (Int.negSucc_lt_zero n), Int.cast_negSucc]
    rfl

/-- C105: every fraction is read as it is written. -/
theorem C105_fraction (q : Rat) : str2frac (fracText q) = some q := by
  rw [fracText]
  by_cases hd : q.den = 1
  · rw [if_pos hd]
    have h := frac_signed q.num [] (q.num.natAbs : Rat) (by simp) (by simpa using unsigned_int q.num.natAbs)
    rw [List.append_nil] at h
    rw [h, natAbs_cast]
    congr 1
    exact (Rat.den_eq_one_iff q).mp hd
  · rw [if_neg hd]
    have hden : intStr (q.den : Int) = Nat.toDigits 10 q.den := by
      rw [intStr_eq, if_neg (by omega)]; rfl
    have h := frac_signed q.num (['/'] ++ intStr (q.den : Int)) ((q.num.natAbs : Rat) / (q.den : Rat))
      (by
        intro c hc
        rcases List.mem_append.mp hc with hc | hc
        · simp only [List.mem_singleton] at hc; subst hc; decide
        · exact space_not_digit c (intStr_chars _ c hc))
      (by rw [hden, ← List.append_assoc]; exact unsigned_frac _ _ q.den_nz)
    rw [List.append_assoc, h]
    congr 1
    have hc := natAbs_cast q.num
    by_cases hn : q.num < 0
    · rw [if_pos hn] at hc ⊢
      rw [← neg_div, hc]; exact Rat.num_div_den q
    · rw [if_neg hn] at hc ⊢
      rw [hc]; exact Rat.num_div_den q

/-- C105: a decimal number is read exactly: `digits.digits` is the number without the point, divided by a power of
ten. -/
theorem C105_decimal (n : Nat) (ds : Str) (hds : ∀ c ∈ ds, c.isDigit = true) :
    str2frac (Nat.toDigits 10 n ++ ['.'] ++ ds) =
      some ((n : Rat) + (Nat.ofDigitChars 10 ds 0 : Rat) / ((10 ^ ds.length : Nat) : Rat)) := by
  have hn : intStr (n : Int) = Nat.toDigits 10 n := by
    rw [intStr_eq, if_neg (by omega)]; rfl
  have hpt : ∀ c ∈ (Nat.toDigits 10 n ++ ['.'] ++ ds), c ≠ '/' := by
    rintro c hc rfl
    simp only [List.mem_append, List.mem_singleton] at hc
    rcases hc with (hc | hc) | hc
    · exact digits_free n '/' (by decide) hc
    · exact absurd hc (by decide)
    · exact absurd (hds _ hc) (by decide)
  have hdot : '.' ∉ ds := fun h => absurd (hds _ h) (by decide)
  have hu : unsignedFrac (Nat.toDigits 10 n ++ ['.'] ++ ds) =
      .ok ((Nat.ofDigitChars 10 (Nat.toDigits 10 n ++ ds) 0 : Rat) / (10 ^ ds.length : Nat)) := by
    rw [unsignedFrac, pySplit_word '/' [] _ (fun h => hpt _ h rfl)]
    simp only
    rw [pySplit_cons '.' [] _ _ (digits_free n '.' (by decide)), pySplit_word '.' [] _ hdot]
    simp only
    rw [if_pos]
    refine ⟨by simp [Nat.toDigits_ne_nil], List.all_eq_true.mpr fun c hc => ?_⟩
    rcases List.mem_append.mp hc with hc | hc
    · exact digit_toDigits n c hc
    · exact hds c hc
  have h := frac_signed (n : Int) (['.'] ++ ds) _
    (by
      intro c hc
      rcases List.mem_append.mp hc with hc | hc
      · simp only [List.mem_singleton] at hc; subst hc; decide
      · exact space_not_digit c (.inl (hds c hc)))
    (by rw [← List.append_assoc]; exact hu)
  rw [hn, if_neg (by omega), ← List.append_assoc] at h
  rw [h, Nat.ofDigitChars_append, Nat.ofDigitChars_ten_toDigits, Nat.ofDigitChars_eq_ofDigitChars_zero]
  congr 1
  have hp : ((10 ^ ds.length : Nat) : Rat) ≠ 0 := by
    have : 0 < 10 ^ ds.length := Nat.pow_pos (by decide)
    exact_mod_cast this.ne'
  push_cast at hp ⊢
  field_simp

/-- C105: an empty cell is a missing value, or the empty tuple. -/
theorem C105_empty : str2inttuple [] = [] ∧ int2bool [] = none ∧ str2frac [] = none := by decide +kernel

/-- C105: a denominator of zero is a missing value, for every numerator. -/
theorem C105_zero_denominator (n : Nat) : str2frac (Nat.toDigits 10 n ++ ['/', '0']) = none := by
  have hn : intStr (n : Int) = Nat.toDigits 10 n := by
    rw [intStr_eq, if_neg (by omega)]; rfl
  have hs : strip (Nat.toDigits 10 n ++ ['/', '0']) = Nat.toDigits 10 n ++ ['/', '0'] := by
    have := strip_spaces [] (Nat.toDigits 10 n ++ ['/', '0']) [] (by simp) (by simp) (by simp)
      (by
        intro c hc
        rcases List.mem_append.mp hc with hc | hc
        · exact space_not_digit c (.inl (digit_toDigits n c hc))
        · simp only [List.mem_cons, List.not_mem_nil, or_false] at hc
          rcases hc with rfl | rfl <;> decide)
    simpa using this
  have hu : unsignedFrac (Nat.toDigits 10 n ++ ['/', '0']) = .error .zeroDivisionError := by
    have h0 : pySplit ['/'] (Nat.toDigits 10 n ++ ['/'] ++ ['0']) = Nat.toDigits 10 n :: pySplit ['/'] ['0'] :=
      pySplit_cons '/' [] _ _ (digits_free n '/' (by decide))
    have h1 : pySplit ['/'] ['0'] = [['0']] := by decide
    rw [h1, List.append_assoc] at h0
    have h2 : plainNat ['0'] = some 0 := by decide
    rw [unsignedFrac, show ['/', '0'] = ['/'] ++ ['0'] from rfl, h0]
    simp only [plainNat_toDigits, h2, if_true]
  obtain ⟨c, s, hcs, hc⟩ := toDigits_head n
  have h1 : c ≠ '-' := by rintro rfl; exact absurd hc (by decide)
  have h2 : c ≠ '+' := by rintro rfl; exact absurd hc (by decide)
  rw [hcs] at hs hu
  rw [str2frac, pyFraction, hcs, hs]
  simp only [List.cons_append, if_neg h1, if_neg h2] at hu ⊢
  rw [hu]

example : str2inttuple ['1', ',', ' ', '-', '2', '0'] = [1, -20] := by decide +kernel
example : str2inttuple ['1', ',', '2'] = [] := by decide +kernel
example : str2frac ['-', '3', '/', '4'] = some (-3 / 4) := by decide +kernel
example : str2frac ['1', '.', '2', '5'] = some (5 / 4) := by decide +kernel
example : int2bool ['T', 'r', 'u', 'e'] = none := by decide +kernel
example : parseInt ['x'] = .error .valueError ∧ ['x'] ∈ pySplit [',', ' '] ['1', ',', ' ', 'x'] := by decide +kernel

/-- Digits, then groups of digits, each after an underscore. -/
def Groups (s : Str) : Prop :=
  ∃ (d : Str) (gs : List Str), (∀ c ∈ d, c.isDigit = true) ∧ (∀ g ∈ gs, g ≠ [] ∧ ∀ c ∈ g, c.isDigit = true) ∧
    s = d ++ gs.flatMap fun g => '_' :: g

theorem digitsOk_false (s : Str) :
    digitsOk false s = true ↔ ∃ c s', s = c :: s' ∧ c.isDigit = true ∧ digitsOk true s' = true := by
  cases s with
  | nil => simp [digitsOk]
  | cons c s =>
    rw [digitsOk]
    by_cases h : c.isDigit = true
    · rw [if_pos h]
      constructor
      · intro h1; exact ⟨c, s, rfl, h, h1⟩
      · rintro ⟨c', s', e, _, h1⟩
        injection e with e1 e2
        rw [e2]; exact h1
    · rw [if_neg h]
      constructor
      · intro h1; simp at h1
      · rintro ⟨c', s', e, h1, _⟩
        injection e with e1 e2
        rw [e1] at h; exact absurd h1 h

theorem digitsOk_true (n : Nat) : ∀ s : Str, s.length ≤ n → (digitsOk true s = true ↔ Groups s) := by
  induction n with
  | zero =>
    intro s hs
    have : s = [] := List.length_eq_zero_iff.1 (by omega)
    subst this
    exact ⟨fun _ => ⟨[], [], by simp, by simp, rfl⟩, fun _ => rfl⟩
  | succ n ih =>
    intro s hs
    cases s with
    | nil => exact ⟨fun _ => ⟨[], [], by simp, by simp, rfl⟩, fun _ => rfl⟩
    | cons c s =>
      have hlen : s.length ≤ n := by simp at hs; omega
      rw [digitsOk]
      by_cases h : c.isDigit = true
      · rw [if_pos h, ih s hlen]
        constructor
        · rintro ⟨d, gs, h1, h2, rfl⟩
          refine ⟨c :: d, gs, ?_, h2, rfl⟩
          intro x hx
          rcases List.mem_cons.1 hx with rfl | hx
          · exact h
          · exact h1 x hx
        · rintro ⟨d, gs, h1, h2, e⟩
          cases d with
          | nil =>
            cases gs with
            | nil => cases e
            | cons g gs =>
              simp only [List.nil_append, List.flatMap_cons, List.cons_append] at e
              injection e with e1 e2
              subst e1
              exact absurd h (by decide)
          | cons x d =>
            injection e with e1 e2
            exact ⟨d, gs, fun y hy => h1 y (by simp [hy]), h2, e2⟩
      · rw [if_neg h]
        simp only [Bool.and_true, Bool.and_eq_true, beq_iff_eq]
        rw [digitsOk_false]
        constructor
        · rintro ⟨rfl, c, s', rfl, hc, h1⟩
          obtain ⟨d, gs, q1, q2, rfl⟩ := (ih s' (by simp at hlen; omega)).1 h1
          refine ⟨[], (c :: d) :: gs, by simp, ?_, by simp⟩
          intro g hg
          rcases List.mem_cons.1 hg with rfl | hg
          · refine ⟨by simp, ?_⟩
            intro y hy
            rcases List.mem_cons.1 hy with rfl | hy
            · exact hc
            · exact q1 y hy
          · exact q2 g hg
        · rintro ⟨d, gs, h1, h2, e⟩
          cases d with
          | cons x d =>
            injection e with e1 e2
            subst e1
            exact absurd (h1 c (by simp)) h
          | nil =>
            cases gs with
            | nil => cases e
            | cons g gs =>
              simp only [List.nil_append, List.flatMap_cons, List.cons_append] at e
              injection e with e1 e2
              refine ⟨e1, ?_⟩
              obtain ⟨hne, hg⟩ := h2 g (by simp)
              cases g with
              | nil => exact absurd rfl hne
              | cons x g =>
                refine ⟨x, g ++ gs.flatMap fun g => '_' :: g, e2, hg x (by simp), ?_⟩
                rw [ih _ (by rw [e2] at hlen; simp at hlen ⊢; omega)]
                exact ⟨g, gs, fun y hy => hg y (by simp [hy]), fun g' hg' => h2 g' (by simp [hg']), rfl⟩

/-- C105: `int` accepts exactly groups of digits joined by single underscores, with an optional sign and white space
around; what is read is the number of all digits. -/
theorem C105_integer (s : Str) (i : Int) :
    parseInt s = .ok i ↔ ∃ (sign g : Str) (gs : List Str), strip s = sign ++ (g ++ gs.flatMap fun g => '_' :: g) ∧
      (sign = [] ∨ sign = ['+'] ∨ sign = ['-']) ∧ (∀ g' ∈ g :: gs, g' ≠ [] ∧ ∀ c ∈ g', c.isDigit = true) ∧
      i = (if sign = ['-'] then -1 else 1) * (Nat.ofDigitChars 10 (g ++ gs.flatten) 0 : Nat) := by
  have key : ∀ (t : Str) (n : Nat), natOf t = .ok n ↔ ∃ (g : Str) (gs : List Str),
      t = g ++ (gs.flatMap fun g => '_' :: g) ∧ (∀ g' ∈ g :: gs, g' ≠ [] ∧ ∀ c ∈ g', c.isDigit = true) ∧
      n = Nat.ofDigitChars 10 (g ++ gs.flatten) 0 := by
    intro t n
    have hfil : ∀ (g : Str) (gs : List Str), (∀ g' ∈ g :: gs, g' ≠ [] ∧ ∀ c ∈ g', c.isDigit = true) →
        (g ++ gs.flatMap fun g => '_' :: g).filter Char.isDigit = g ++ gs.flatten := by
      intro g gs hg
      rw [List.filter_append, List.filter_eq_self.2 (hg g (by simp)).2]
      congr 1
      replace hg : ∀ g' ∈ gs, ∀ c ∈ g', c.isDigit = true := fun g' h => (hg g' (by simp [h])).2
      induction gs with
      | nil => rfl
      | cons a gs ih =>
        rw [List.flatMap_cons, List.filter_append, ih fun g' h => hg g' (by simp [h]), List.flatten_cons]
        congr 1
        rw [List.filter_cons_of_neg (by decide), List.filter_eq_self.2 (hg a (by simp))]
    have hok : digitsOk false t = true ↔ ∃ (g : Str) (gs : List Str),
        t = g ++ (gs.flatMap fun g => '_' :: g) ∧ (∀ g' ∈ g :: gs, g' ≠ [] ∧ ∀ c ∈ g', c.isDigit = true) := by
      rw [digitsOk_false]
      constructor
      · rintro ⟨c, s', rfl, hc, h⟩
        obtain ⟨d, gs, h1, h2, rfl⟩ := (digitsOk_true _ s' (Nat.le_refl _)).1 h
        refine ⟨c :: d, gs, rfl, ?_⟩
        intro g hg
        rcases List.mem_cons.1 hg with rfl | hg
        · refine ⟨by simp, ?_⟩
          intro y hy
          rcases List.mem_cons.1 hy with rfl | hy
          · exact hc
          · exact h1 y hy
        · exact h2 g hg
      · rintro ⟨g, gs, rfl, h⟩
        obtain ⟨hne, hg⟩ := h g (by simp)
        cases g with
        | nil => exact absurd rfl hne
        | cons x g =>
          exact ⟨x, _, rfl, hg x (by simp), (digitsOk_true _ _ (Nat.le_refl _)).2
            ⟨g, gs, fun y hy => hg y (by simp [hy]), fun g' hg' => h g' (by simp [hg']), rfl⟩⟩
    rw [natOf]
    by_cases h : digitsOk false t = true
    · rw [if_pos h]
      obtain ⟨g, gs, e, hg⟩ := hok.1 h
      constructor
      · intro hn
        injection hn with hn
        refine ⟨g, gs, e, hg, ?_⟩
        rw [← hn, e, hfil g gs hg]
      · rintro ⟨g, gs, rfl, hg, rfl⟩
        rw [hfil g gs hg]
    · rw [if_neg h]
      constructor
      · intro hn; cases hn
      · rintro ⟨g, gs, e, hg, _⟩
        exact absurd (hok.2 ⟨g, gs, e, hg⟩) h
  have hmap : ∀ (t : Str) (f : Int → Int), (do let a ← natOf t; pure (a : Int) : Py Int).map f = .ok i ↔
      ∃ n : Nat, natOf t = .ok n ∧ i = f n := by
    intro t f
    cases natOf t with
    | error e => simp [Except.map, Bind.bind, Except.bind]
    | ok n => simp [Except.map, Bind.bind, Except.bind, Pure.pure, Except.pure, eq_comm]
  rw [parseInt]
  generalize strip s = t
  constructor
  · intro h
    cases t with
    | nil => cases h
    | cons c t =>
      rw [signedOf] at h
      split at h
      · rename_i hc
        obtain ⟨n, h1, h2⟩ := (hmap _ _).1 h
        obtain ⟨g, gs, e1, e2, e3⟩ := (key _ _).1 h1
        exact ⟨['-'], g, gs, by rw [hc, e1]; rfl, by simp, e2, by rw [h2, e3]; simp⟩
      · split at h
        · rename_i hc
          obtain ⟨n, h1, h2⟩ := (hmap _ _).1 h
          obtain ⟨g, gs, e1, e2, e3⟩ := (key _ _).1 h1
          exact ⟨['+'], g, gs, by rw [hc, e1]; rfl, by simp, e2, by rw [h2, e3]; simp⟩
        · obtain ⟨n, h1, h2⟩ := (hmap _ _).1 h
          obtain ⟨g, gs, e1, e2, e3⟩ := (key _ _).1 h1
          exact ⟨[], g, gs, by rw [e1]; rfl, by simp, e2, by rw [h2, e3]; simp⟩
  · rintro ⟨sign, g, gs, rfl, hsign, hg, hi⟩
    have hn := (key _ _).2 ⟨g, gs, rfl, hg, rfl⟩
    rcases hsign with rfl | rfl | rfl
    · obtain ⟨hne, hd⟩ := hg g (by simp)
      cases g with
      | nil => exact absurd rfl hne
      | cons x g =>
        have hx := hd x (by simp)
        have h1 : x ≠ '-' := by rintro rfl; exact absurd hx (by decide)
        have h2 : x ≠ '+' := by rintro rfl; exact absurd hx (by decide)
        rw [List.nil_append, List.cons_append, signedOf, if_neg h1, if_neg h2, hmap]
        exact ⟨_, hn, by rw [hi]; simp⟩
    · show signedOf ('+' :: _) = _
      rw [signedOf, if_neg (by decide), if_pos rfl, hmap]
      exact ⟨_, hn, by rw [hi]; simp⟩
    · show signedOf ('-' :: _) = _
      rw [signedOf, if_pos rfl, hmap]
      exact ⟨_, hn, by rw [hi]; simp⟩

/-- Groups of digits; an underscore at the end, two in a row, or no digits at all. -/
example : parseInt [' ', '-', '1', '_', '0', ' '] = .ok (-10) ∧ parseInt ['1', '_'] = .error .valueError ∧
    parseInt ['1', '_', '_', '0'] = .error .valueError ∧ parseInt ['+'] = .error .valueError ∧
    parseInt ['_', '1'] = .error .valueError := by decide +kernel

end Verif.PyStrings
