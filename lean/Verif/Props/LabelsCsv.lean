import Verif.LabelsCsv
import Verif.Lemmas.Search
import Verif.Props.FromSeries
import Verif.Props.MusicXml

/-!
# C83: keys and chords from labels
-/

namespace Verif.LabelsCsv

open Verif.FromSeries Verif.MusicXml

/-- The scale degrees, from 1 to 7, as they are written. -/
def digits : List Char := ['1', '2', '3', '4', '5', '6', '7']

/-- The scales of labels in fifths: the major scale and the harmonic minor scale. -/
def labelScale : KeyMode → List Int
  | .major => [0, 2, 4, -1, 1, 3, 5]
  | .minor => [0, 2, -3, -1, 1, -4, 5]

/-- A degree with `n` flats or `m` sharps. -/
def degreeStr (n m : Nat) (c : Char) : Str := List.replicate n '-' ++ (List.replicate m '+' ++ [c])

/-- The same in the notation of the project. -/
def plainStr (n m : Nat) (c : Char) : Str := List.replicate n 'b' ++ (List.replicate m '#' ++ [c])

theorem digit_plain {d : Nat} {c : Char} (h : digits[d]? = some c) :
    c ≠ '-' ∧ c ≠ '+' ∧ c ≠ '/' ∧ c ≠ '#' ∧ c ≠ 'b' ∧ (c = '7' ↔ d = 6) ∧ (c = '6' ↔ d = 5) ∧ d < 7 := by
  have hd := (List.getElem?_eq_some_iff.1 h).1
  have : d = 0 ∨ d = 1 ∨ d = 2 ∨ d = 3 ∨ d = 4 ∨ d = 5 ∨ d = 6 := by
    have : digits.length = 7 := rfl
    omega
  rcases this with rfl | rfl | rfl | rfl | rfl | rfl | rfl <;>
    (simp only [digits, List.getElem?_cons_succ, List.getElem?_cons_zero, Option.some.injEq] at h
     subst h
     decide)

theorem unAscii_degree (n m : Nat) (c : Char) (h1 : c ≠ '-') (h2 : c ≠ '+') :
    unAscii (degreeStr n m c) = plainStr n m c := by
  simp [unAscii, degreeStr, plainStr, h1, h2]

theorem splitSlash_none (s : Str) (h : '/' ∉ s) : splitSlash s = [s] := by
  induction s with
  | nil => rfl
  | cons c s ih =>
    simp only [List.mem_cons, not_or] at h
    rw [splitSlash, if_neg (fun e => h.1 e.symm), ih h.2]

theorem splitSlash_append (s t : Str) (h : '/' ∉ s) : splitSlash (s ++ '/' :: t) = s :: splitSlash t := by
  induction s with
  | nil => simp [splitSlash]
  | cons c s ih =>
    simp only [List.mem_cons, not_or] at h
    rw [List.cons_append, splitSlash, if_neg (fun e => h.1 e.symm), ih h.2]

theorem plain_slash (n m : Nat) (c : Char) (h : c ≠ '/') : '/' ∉ plainStr n m c := by
  simp [plainStr, List.mem_replicate, h.symm]

/-! ### Repairs of degrees -/

theorem seven_mem (n m : Nat) (c : Char) : '7' ∈ plainStr n m c ↔ c = '7' := by
  simp only [plainStr, List.mem_append, List.mem_replicate, List.mem_singleton]
  constructor
  · rintro (⟨_, h⟩ | ⟨_, h⟩ | h)
    · exact absurd h (by decide)
    · exact absurd h (by decide)
    · exact h.symm
  · intro h; exact .inr (.inr h.symm)

theorem fixSeven_other (n m : Nat) (c : Char) (mode : KeyMode) (h : mode = .major ∨ c ≠ '7') :
    fixSeven mode (plainStr n m c) = plainStr n m c := by
  unfold fixSeven
  rw [if_neg]
  rintro ⟨h1, h2⟩
  rw [seven_mem] at h2
  rcases h with h | h
  · rw [h] at h1; cases h1
  · exact h h2

theorem fixSeven_flats (n : Nat) : fixSeven .minor (plainStr (n + 1) 0 '7') = plainStr n 0 '7' := by
  unfold fixSeven
  rw [if_pos ⟨rfl, (seven_mem _ _ _).2 rfl⟩]
  simp [plainStr, List.replicate_succ]

theorem fixSeven_sharps (m : Nat) : fixSeven .minor (plainStr 0 m '7') = plainStr 0 (m + 1) '7' := by
  unfold fixSeven
  rw [if_pos ⟨rfl, (seven_mem _ _ _).2 rfl⟩]
  cases m <;> simp [plainStr, List.replicate_succ]

theorem contains_mem (old s : Str) (x : Char) (hx : x ∈ old) (h : containsSub old s = true) : x ∈ s := by
  induction s with
  | nil =>
    cases old with
    | nil => simp at hx
    | cons => simp [containsSub] at h
  | cons c s ih =>
    simp only [containsSub, Bool.or_eq_true] at h
    rcases h with h | h
    · exact (List.isPrefixOf_iff_prefix.1 h).subset hx
    · exact List.mem_cons_of_mem _ (ih h)

theorem fixSix_other (old new : Str) (mode : KeyMode) (n m : Nat) (c : Char) (ho : '6' ∈ old)
    (h : mode = .major ∨ c ≠ '6') : fixSix old new mode (plainStr n m c) = plainStr n m c := by
  unfold fixSix
  rw [if_neg]
  rintro ⟨h1, h2⟩
  have := contains_mem _ _ _ ho h2
  simp only [plainStr, List.mem_append, List.mem_replicate, List.mem_singleton] at this
  rcases h with h | h
  · rw [h] at h1; cases h1
  · rcases this with ⟨_, e⟩ | ⟨_, e⟩ | e
    · exact absurd e (by decide)
    · exact absurd e (by decide)
    · exact h e.symm

/-- `k` sharps too many are found from the first place on, and one of them is removed. -/
theorem six_sharps (old : Str) (new : Str) (k : Nat) (hold : old = List.replicate (k + 1) '#' ++ ['6'])
    (hnew : new = List.replicate k '#' ++ ['6']) (m : Nat) :
    (containsSub old (List.replicate m '#' ++ ['6']) = decide (k + 1 ≤ m)) ∧
    (k + 1 ≤ m → replaceSub old new 0 (List.replicate m '#' ++ ['6']) = List.replicate (m - 1) '#' ++ ['6']) := by
  have hpre : ∀ m, old.isPrefixOf (List.replicate m '#' ++ ['6']) = decide (m = k + 1) := by
    intro m
    rw [Bool.eq_iff_iff, List.isPrefixOf_iff_prefix, decide_eq_true_eq, hold]
    constructor
    · rintro ⟨t, ht⟩
      have h6 : ∀ a b : Nat, ∀ t : Str, List.replicate a '#' ++ '6' :: t = List.replicate b '#' ++ ['6'] → b = a := by
        intro a
        induction a with
        | zero =>
          intro b t h
          cases b with
          | zero => rfl
          | succ b => simp [List.replicate_succ] at h
        | succ a ih =>
          intro b t h
          cases b with
          | zero => simp [List.replicate_succ] at h
          | succ b =>
            simp only [List.replicate_succ, List.cons_append, List.cons.injEq, true_and] at h
            rw [ih b t h]
      exact h6 (k + 1) m t (by simpa using ht)
    · rintro rfl
      exact List.prefix_refl _
  induction m with
  | zero =>
    have h0 := hpre 0
    simp only [List.replicate_zero, List.nil_append] at h0 ⊢
    refine ⟨?_, by omega⟩
    simp only [containsSub, h0]
    have : old.isEmpty = false := by rw [hold]; simp [List.replicate_succ]
    rw [this]
    simp
  | succ m ih =>
    obtain ⟨i1, i2⟩ := ih
    have h0 := hpre (m + 1)
    simp only [List.replicate_succ, List.cons_append] at h0 ⊢
    refine ⟨?_, fun h => ?_⟩
    · simp only [containsSub, h0, i1]
      rw [Bool.eq_iff_iff]
      simp only [Bool.or_eq_true, decide_eq_true_eq]
      omega
    · rw [replaceSub, h0]
      by_cases hm : m + 1 = k + 1
      · rw [if_pos (by simpa using hm)]
        have hmk : m = k := by omega
        subst hmk
        have hskip : ∀ (j : Nat) (l : Str), j = l.length → replaceSub old new j l = [] := by
          intro j
          induction j with
          | zero => intro l hl; cases l with
            | nil => rfl
            | cons => simp at hl
          | succ j ihj => intro l hl; cases l with
            | nil => rfl
            | cons c l => rw [replaceSub]; exact ihj l (by simpa using hl)
        rw [hskip _ _ (by rw [hold]; simp), hnew]
        simp
      · rw [if_neg (by simpa using hm), i2 (by omega)]
        obtain ⟨m', rfl⟩ : ∃ m', m = m' + 1 := ⟨m - 1, by omega⟩
        simp [List.replicate_succ]

theorem fixSix_sharps (k : Nat) (old new : Str) (hold : old = List.replicate (k + 1) '#' ++ ['6'])
    (hnew : new = List.replicate k '#' ++ ['6']) (m : Nat) :
    fixSix old new .minor (plainStr 0 m '6') = plainStr 0 (if k + 1 ≤ m then m - 1 else m) '6' := by
  obtain ⟨h1, h2⟩ := six_sharps old new k hold hnew m
  have e : ∀ m, plainStr 0 m '6' = List.replicate m '#' ++ ['6'] := by intro m; simp [plainStr]
  unfold fixSix
  rw [e, e]
  by_cases h : k + 1 ≤ m
  · rw [if_pos ⟨rfl, by rw [h1]; simpa using h⟩, h2 h, if_pos h]
  · rw [if_neg, if_neg h]
    rintro ⟨_, e⟩
    rw [h1] at e
    exact h (by simpa using e)

theorem fixSix_flats (k : Nat) (old new : Str) (hold : old = List.replicate (k + 1) '#' ++ ['6']) (n : Nat) :
    fixSix old new .minor (plainStr n 0 '6') = plainStr n 0 '6' := by
  unfold fixSix
  rw [if_neg]
  rintro ⟨_, e⟩
  have := contains_mem old _ '#' (by rw [hold]; simp) e
  simp [plainStr, List.mem_replicate] at this

/-! ### Intervals of degrees -/

theorem plain_interval (n m : Nat) (c : Char) (d : Nat) (hd : digits[d]? = some c) (mode : KeyMode) :
    ∃ i, (scaleIntervals mode .tpc)[d + 1]? = some i ∧
      intervalFromScaleDegree (plainStr n m c) true mode .tpc = .ok (i + 7 * ((m : Int) - n)) := by
  have u7 : accidentalUnit .tpc = 7 := rfl
  obtain ⟨h1, h2, h3, h4, h5, h6, h7, h8⟩ := digit_plain hd
  have hacc : accidentalAdjustment (plainStr n m c) true = .ok ((m : Int) - n, [c]) :=
    accidental_front n m c [] h4 (.inr (.inr rfl))
  have hnum : scaleDegreeToNumber [c] = some (d + 1) := by
    have : d = 0 ∨ d = 1 ∨ d = 2 ∨ d = 3 ∨ d = 4 ∨ d = 5 ∨ d = 6 := by omega
    rcases this with rfl | rfl | rfl | rfl | rfl | rfl | rfl <;>
      (simp only [digits, List.getElem?_cons_succ, List.getElem?_cons_zero, Option.some.injEq] at hd
       subst hd
       decide)
  have hlen : (scaleIntervals mode .tpc).length = 8 := by cases mode <;> rfl
  have hget : (scaleIntervals mode .tpc)[d + 1]? = some (scaleIntervals mode .tpc)[d + 1] :=
    List.getElem?_eq_getElem (by omega)
  refine ⟨_, hget, ?_⟩
  simp only [intervalFromScaleDegree, Bind.bind, Except.bind, hacc, hnum, u7]
  rw [pyGet_ofNat _ _ _ hget]
  simp only [Except.ok.injEq]
  ring

/-- The scale of labels is the scale of the project, but with the raised seventh in minor keys. -/
theorem scale_label (mode : KeyMode) (d : Nat) (i : Int) (h : (scaleIntervals mode .tpc)[d + 1]? = some i)
    (hd : d < 7) :
    (labelScale mode)[d]? = some (if mode = .minor ∧ d = 6 then i + 7 else i) := by
  have : d = 0 ∨ d = 1 ∨ d = 2 ∨ d = 3 ∨ d = 4 ∨ d = 5 ∨ d = 6 := by omega
  rcases this with rfl | rfl | rfl | rfl | rfl | rfl | rfl <;> cases mode <;>
    (simp only [scaleIntervals, List.getElem?_cons_succ, List.getElem?_cons_zero, Option.some.injEq] at h
     subst h
     decide)

/-- What is taken off a sharpened sixth in a minor key, if it has more than `k` sharps. -/
def sixthFix (k : Nat) (mode : KeyMode) (d m : Nat) : Int := if mode = .minor ∧ d = 5 ∧ k < m then 7 else 0

theorem fixed_interval (k : Nat) (old new : Str) (hold : old = List.replicate (k + 1) '#' ++ ['6'])
    (hnew : new = List.replicate k '#' ++ ['6']) (mode : KeyMode) (d : Nat) (c : Char) (i : Int)
    (hd : digits[d]? = some c) (hi : (labelScale mode)[d]? = some i) (n m : Nat) (hnm : n = 0 ∨ m = 0) :
    ∃ n' m', fixSix old new mode (fixSeven mode (plainStr n m c)) = plainStr n' m' c ∧ n + m ≤ n' + m' + 1 ∧
      intervalFromScaleDegree (plainStr n' m' c) true mode .tpc =
        .ok (i + 7 * ((m : Int) - n) - sixthFix k mode d m) := by
  have hdp := digit_plain hd
  obtain ⟨h1, h2, h3, h4, h5, h6, h7, h8⟩ := hdp
  have h6old : '6' ∈ old := by rw [hold]; simp
  have key : ∀ n' m', ∃ j, (scaleIntervals mode .tpc)[d + 1]? = some j ∧
      (i = if mode = .minor ∧ d = 6 then j + 7 else j) ∧
      intervalFromScaleDegree (plainStr n' m' c) true mode .tpc = .ok (j + 7 * ((m' : Int) - n')) := by
    intro n' m'
    obtain ⟨j, hj, e⟩ := plain_interval n' m' c d hd mode
    have := scale_label mode d j hj h8
    rw [hi] at this
    injection this with this
    exact ⟨j, hj, this, e⟩
  cases mode with
  | major =>
    rw [fixSeven_other _ _ _ _ (.inl rfl), fixSix_other _ _ _ _ _ _ h6old (.inl rfl)]
    obtain ⟨j, _, e1, e2⟩ := key n m
    refine ⟨n, m, rfl, by omega, ?_⟩
    rw [if_neg (by simp)] at e1
    rw [e2, e1]
    simp [sixthFix]
  | minor =>
    by_cases hc7 : c = '7'
    · have hd6 := h6.1 hc7
      subst hc7
      subst hd6
      have hs : sixthFix k .minor 6 m = 0 := by simp [sixthFix]
      rw [hs]
      rcases n with _ | n
      · rw [fixSeven_sharps, fixSix_other _ _ _ _ _ _ h6old (.inr (by decide))]
        obtain ⟨j, _, e1, e2⟩ := key 0 (m + 1)
        refine ⟨0, m + 1, rfl, by omega, ?_⟩
        rw [if_pos ⟨rfl, rfl⟩] at e1
        rw [e2, e1]
        push_cast
        congr 1
        ring
      · have hm : m = 0 := by omega
        subst hm
        rw [fixSeven_flats, fixSix_other _ _ _ _ _ _ h6old (.inr (by decide))]
        obtain ⟨j, _, e1, e2⟩ := key n 0
        refine ⟨n, 0, rfl, by omega, ?_⟩
        rw [if_pos ⟨rfl, rfl⟩] at e1
        rw [e2, e1]
        push_cast
        congr 1
        ring
    · rw [fixSeven_other _ _ _ _ (.inr hc7)]
      have hd6 : d ≠ 6 := fun e => hc7 (h6.2 e)
      by_cases hc6 : c = '6'
      · have hd5 := h7.1 hc6
        subst hc6
        subst hd5
        rcases n with _ | n
        · rw [fixSix_sharps k old new hold hnew]
          obtain ⟨j, _, e1, e2⟩ := key 0 (if k + 1 ≤ m then m - 1 else m)
          refine ⟨0, _, rfl, by split <;> omega, ?_⟩
          rw [if_neg (by simp)] at e1
          rw [e2, e1]
          unfold sixthFix
          by_cases hk : k + 1 ≤ m
          · rw [if_pos hk, if_pos ⟨rfl, rfl, hk⟩]
            congr 1
            push_cast [show 1 ≤ m by omega]
            ring
          · rw [if_neg hk, if_neg (by omega)]
            simp
        · have hm : m = 0 := by omega
          subst hm
          rw [fixSix_flats k old new hold]
          obtain ⟨j, _, e1, e2⟩ := key (n + 1) 0
          refine ⟨n + 1, 0, rfl, by omega, ?_⟩
          rw [if_neg (by simp)] at e1
          rw [e2, e1]
          simp [sixthFix]
      · rw [fixSix_other _ _ _ _ _ _ h6old (.inr hc6)]
        obtain ⟨j, _, e1, e2⟩ := key n m
        refine ⟨n, m, rfl, by omega, ?_⟩
        rw [if_neg (by omega)] at e1
        rw [e2, e1]
        have hs : sixthFix k .minor d m = 0 := by
          unfold sixthFix
          rw [if_neg]
          rintro ⟨_, e, _⟩
          exact hc6 (h7.2 e)
        rw [hs]
        congr 1
        ring

/-- C83: the root of a label is on the degree of the major or harmonic minor scale of the key, raised or
lowered by its accidentals; only a sixth in a minor key with two or more sharps loses one of them. -/
theorem C83_degree (mode : KeyMode) (d : Nat) (c : Char) (i : Int) (hd : digits[d]? = some c)
    (hi : (labelScale mode)[d]? = some i) (n m : Nat) (hnm : n = 0 ∨ m = 0) (rest : Str)
    (hrest : rest = [] ∨ ∃ r, rest = '/' :: r) :
    intervalFromScaleDegree (labelDegree mode (degreeStr n m c ++ rest)) true mode .tpc =
      .ok (i + 7 * ((m : Int) - n) - if mode = .minor ∧ d = 5 ∧ 2 ≤ m then 7 else 0) := by
  obtain ⟨h1, h2, h3, h4, h5, h6, h7, h8⟩ := digit_plain hd
  have hhead : (splitSlash (unAscii (degreeStr n m c ++ rest))).headD [] = plainStr n m c := by
    have hun : ∀ a b : Str, unAscii (a ++ b) = unAscii a ++ unAscii b := by
      intro a b; simp [unAscii]
    rw [hun, unAscii_degree n m c h1 h2]
    rcases hrest with rfl | ⟨r, rfl⟩
    · rw [show unAscii [] = [] from rfl, List.append_nil, splitSlash_none _ (plain_slash n m c h3)]
      rfl
    · rw [show unAscii ('/' :: r) = '/' :: unAscii r by simp [unAscii],
        splitSlash_append _ _ (plain_slash n m c h3)]
      rfl
  obtain ⟨n', m', e1, -, e2⟩ := fixed_interval 1 "##6".toList "#6".toList rfl rfl mode d c i hd hi n m hnm
  unfold labelDegree
  rw [hhead, e1, e2]
  rfl

/-! ### Keys -/

/-- The modes on relative roots: mode of the key, accidentals, degree (from 0) and the mode. -/
def rootModes : List ((KeyMode × Int × Nat) × KeyMode) :=
  [((.major, 0, 0), .major), ((.major, 1, 0), .minor), ((.major, -1, 1), .major), ((.major, 0, 1), .minor),
   ((.major, -1, 2), .major), ((.major, 0, 2), .minor), ((.major, -1, 3), .minor), ((.major, 0, 3), .major),
   ((.major, 1, 3), .major), ((.major, 0, 4), .major), ((.major, 1, 4), .major), ((.major, 0, 5), .minor),
   ((.major, -1, 6), .major), ((.major, 0, 6), .minor),
   ((.minor, -1, 0), .major), ((.minor, 0, 0), .minor), ((.minor, -1, 1), .major), ((.minor, 0, 1), .minor),
   ((.minor, 0, 2), .major), ((.minor, -1, 3), .minor), ((.minor, 0, 3), .minor), ((.minor, -1, 4), .minor),
   ((.minor, 0, 4), .minor), ((.minor, 0, 5), .major), ((.minor, 1, 5), .major), ((.minor, -2, 6), .minor),
   ((.minor, -1, 6), .major), ((.minor, 0, 6), .major)]

theorem lookup_long (l : List (Str × KeyMode)) (h : ∀ p ∈ l, p.1.length ≤ 2) (s : Str) (hs : 3 ≤ s.length) :
    l.lookup s = none := by
  rw [List.lookup_eq_none_iff]
  intro p hp
  have := h p hp
  rw [bne_iff_ne]
  rintro rfl
  omega

theorem root_mode (mode : KeyMode) (d : Nat) (c : Char) (hd : digits[d]? = some c) (n m : Nat)
    (hnm : n = 0 ∨ m = 0) :
    relativeMode mode (relativeRoot mode (plainStr n m c)) =
      match rootModes.lookup (mode, (m : Int) - n, d) with
      | some m' => .ok m'
      | none => .error .valueError := by
  obtain ⟨h1, h2, h3, h4, h5, h6, h7, h8⟩ := digit_plain hd
  by_cases hbig : 3 ≤ n + m
  · have hi : ∃ i, (labelScale mode)[d]? = some i := by
      have : (labelScale mode).length = 7 := by cases mode <;> rfl
      exact ⟨_, List.getElem?_eq_getElem (by omega)⟩
    obtain ⟨i, hi⟩ := hi
    obtain ⟨n', m', e1, e2, -⟩ := fixed_interval 0 "#6".toList "6".toList rfl rfl mode d c i hd hi n m hnm
    have hnone : rootModes.lookup (mode, (m : Int) - n, d) = none := by
      rw [List.lookup_eq_none_iff]
      intro p hp
      rw [bne_iff_ne]
      intro e
      have : ∀ p ∈ rootModes, -2 ≤ p.1.2.1 ∧ p.1.2.1 ≤ 2 := by decide
      have := this _ hp
      rw [← e] at this
      simp only at this
      omega
    rw [hnone]
    unfold relativeRoot relativeMode
    rw [e1, lookup_long _ _ _ (by simp [plainStr]; omega)]
    cases mode <;> decide
  · have hn : n = 0 ∨ n = 1 ∨ n = 2 := by omega
    have hm : m = 0 ∨ m = 1 ∨ m = 2 := by omega
    have hd' : d = 0 ∨ d = 1 ∨ d = 2 ∨ d = 3 ∨ d = 4 ∨ d = 5 ∨ d = 6 := by omega
    rcases hd' with rfl | rfl | rfl | rfl | rfl | rfl | rfl <;>
      (simp only [digits, List.getElem?_cons_succ, List.getElem?_cons_zero, Option.some.injEq] at hd
       subst hd
       rcases hn with rfl | rfl | rfl <;> rcases hm with rfl | rfl | rfl <;> first | omega | (cases mode <;> decide))

/-- The name of a key: a letter, sharps and flats. -/
def keyName (c : Char) (m n : Nat) : Str := c :: (List.replicate m '+' ++ List.replicate n '-')

theorem local_key (c : Char) (f : Int) (hf : (c, f) ∈ fifths) (m n : Nat) (mode : KeyMode)
    (hmode : mode = .major ↔ c ∈ ['A', 'B', 'C', 'D', 'E', 'F', 'G']) :
    labelMode (unAscii (keyName c m n)) = mode ∧
    pitchFromString (unAscii (keyName c m n)) .tpc =
      if 0 ≤ 15 + f + 7 * ((m : Int) - n) ∧ 15 + f + 7 * ((m : Int) - n) < 35
      then .ok (15 + f + 7 * ((m : Int) - n)) else .error .valueError := by
  have hc : c ≠ '-' ∧ c ≠ '+' ∧ (c.isUpper = true ↔ c ∈ ['A', 'B', 'C', 'D', 'E', 'F', 'G']) := by
    revert hf; simp only [fifths, List.mem_cons, Prod.mk.injEq, List.not_mem_nil, or_false]
    intro hf
    rcases hf with h | h | h | h | h | h | h | h | h | h | h | h | h | h <;>
      obtain ⟨rfl, rfl⟩ := h <;> decide
  have e : unAscii (keyName c m n) = c :: (List.replicate m '#' ++ List.replicate n 'b') := by
    simp [unAscii, keyName, hc.1, hc.2.1]
  rw [e, C06_spelling c f hf m n]
  refine ⟨?_, rfl⟩
  unfold labelMode
  simp only
  by_cases hu : c.isUpper = true
  · rw [if_pos hu]
    exact (hmode.2 (hc.2.2.1 hu)).symm
  · rw [if_neg hu]
    cases mode
    · exact absurd (hc.2.2.2 (hmode.1 rfl)) hu
    · rfl

theorem slash_unAscii (s : Str) : '/' ∈ unAscii s ↔ '/' ∈ s := by
  simp only [unAscii, List.mem_map]
  constructor
  · rintro ⟨c, hc, h⟩
    split at h
    · exact absurd h (by decide)
    · split at h
      · exact absurd h (by decide)
      · rw [← h]; exact hc
  · intro h
    exact ⟨'/', h, by decide⟩

/-- C83: the key of a label without a relative root is the key it names, upper case letters for major keys. -/
theorem C83_key (c : Char) (f : Int) (hf : (c, f) ∈ fifths) (m n : Nat) (mode : KeyMode)
    (hmode : mode = .major ↔ c ∈ ['A', 'B', 'C', 'D', 'E', 'F', 'G']) (row : CsvLabel)
    (hrow : row.key = keyName c m n) (hdeg : '/' ∉ row.degree) (g : Option (Int × KeyMode)) :
    labelKey row .tpc g =
      if 0 ≤ 15 + f + 7 * ((m : Int) - n) ∧ 15 + f + 7 * ((m : Int) - n) < 35 then
        .ok ⟨15 + f + 7 * ((m : Int) - n), 15 + f + 7 * ((m : Int) - n),
          (g.getD (15 + f + 7 * ((m : Int) - n), mode)).1, mode, mode,
          (g.getD (15 + f + 7 * ((m : Int) - n), mode)).2, .tpc⟩
      else .error .valueError := by
  obtain ⟨h1, h2⟩ := local_key c f hf m n mode hmode
  simp only [labelKey, Bind.bind, Except.bind, hrow, h1, h2]
  rw [splitSlash_none _ (fun e => hdeg ((slash_unAscii _).1 e))]
  split
  · rename_i hx
    split at hx
    · cases hx
    · rw [if_neg (by assumption)]; injection hx with hx; rw [hx]
  · rename_i hx
    split at hx
    · rw [if_pos (by assumption)]
      injection hx with hx
      subst hx
      rfl
    · cases hx

/-- C83: with a relative root, the relative tonic is on that degree of the local key, and its mode is the one
listed for it; roots that are not listed are rejected. -/
theorem C83_relative (c : Char) (f : Int) (hf : (c, f) ∈ fifths) (m n : Nat) (mode : KeyMode)
    (hmode : mode = .major ↔ c ∈ ['A', 'B', 'C', 'D', 'E', 'F', 'G']) (row : CsvLabel)
    (hrow : row.key = keyName c m n) (first : Str) (hfirst : '/' ∉ first)
    (d : Nat) (x : Char) (i : Int) (hd : digits[d]? = some x) (hi : (labelScale mode)[d]? = some i)
    (n' m' : Nat) (hnm : n' = 0 ∨ m' = 0) (hdeg : row.degree = first ++ '/' :: degreeStr n' m' x)
    (g : Option (Int × KeyMode)) (t r : Int) (ht : t = 15 + f + 7 * ((m : Int) - n))
    (hr : r = t + i + 7 * ((m' : Int) - n') - if mode = .minor ∧ d = 5 ∧ 1 ≤ m' then 7 else 0) :
    labelKey row .tpc g =
      match rootModes.lookup (mode, (m' : Int) - n', d) with
      | some rm =>
        if (0 ≤ t ∧ t < 35) ∧ (0 ≤ r ∧ r < 35) then
          .ok ⟨r, t, (g.getD (t, mode)).1, rm, mode, (g.getD (t, mode)).2, .tpc⟩
        else .error .valueError
      | none => .error .valueError := by
  have n35 : NUM_PITCHES .tpc = 35 := rfl
  obtain ⟨h1, h2⟩ := local_key c f hf m n mode hmode
  obtain ⟨k1, k2, k3, k4, k5, k6, k7, k8⟩ := digit_plain hd
  have hun : ∀ a b : Str, unAscii (a ++ b) = unAscii a ++ unAscii b := by
    intro a b; simp [unAscii]
  have hsplit : splitSlash (unAscii row.degree) = [unAscii first, plainStr n' m' x] := by
    rw [hdeg, hun, show unAscii ('/' :: degreeStr n' m' x) = '/' :: unAscii (degreeStr n' m' x) by simp [unAscii],
      unAscii_degree n' m' x k1 k2, splitSlash_append _ _ (fun e => hfirst ((slash_unAscii _).1 e)),
      splitSlash_none _ (plain_slash n' m' x k3)]
  obtain ⟨a, b, e1, -, e2⟩ := fixed_interval 0 "#6".toList "6".toList rfl rfl mode d x i hd hi n' m' hnm
  have hiv : intervalFromScaleDegree (relativeRoot mode (plainStr n' m' x)) true mode .tpc = .ok (r - t) := by
    unfold relativeRoot
    rw [e1, e2, hr]
    unfold sixthFix
    congr 1
    by_cases hs : mode = .minor ∧ d = 5 ∧ 0 < m'
    · rw [if_pos hs, if_pos (show mode = .minor ∧ d = 5 ∧ 1 ≤ m' from hs)]; ring
    · rw [if_neg hs, if_neg (show ¬ (mode = .minor ∧ d = 5 ∧ 1 ≤ m') from hs)]; ring
  have hrm := root_mode mode d x hd n' m' hnm
  rw [← ht] at h2
  by_cases ha : 0 ≤ t ∧ t < 35
  · rw [if_pos ha] at h2
    by_cases hb : 0 ≤ r ∧ r < 35
    · have htr : transposePitch t (r - t) .tpc = .ok r := by
        simp only [transposePitch, n35]
        rw [if_neg (by omega)]
        congr 1; ring
      simp only [labelKey, Bind.bind, Except.bind, hrow, h1, h2, hsplit, relativeOrLocal, relativeKeyOf, hiv, htr, hrm]
      cases rootModes.lookup (mode, (m' : Int) - n', d) with
      | none => rfl
      | some rm => simp only; rw [if_pos ⟨ha, hb⟩]
    · have htr : transposePitch t (r - t) .tpc = .error .valueError := by
        simp only [transposePitch, n35]
        rw [if_pos (by omega)]
      simp only [labelKey, Bind.bind, Except.bind, hrow, h1, h2, hsplit, relativeOrLocal, relativeKeyOf, hiv, htr]
      cases rootModes.lookup (mode, (m' : Int) - n', d) with
      | none => rfl
      | some rm => simp only; rw [if_neg (fun h => hb h.2)]
  · rw [if_neg ha] at h2
    simp only [labelKey, Bind.bind, Except.bind, hrow, h2]
    cases rootModes.lookup (mode, (m' : Int) - n', d) with
    | none => rfl
    | some rm => simp only; rw [if_neg (fun h => ha h.1)]

/-! ### Chords -/

/-- The chord types of labels: the three augmented sixth chords are major chords. -/
def specType : Str → Option ChordType := fun s =>
  if s = "M".toList ∨ s = "Gr+6".toList ∨ s = "Fr+6".toList ∨ s = "It+6".toList then some .major
  else if s = "m".toList then some .minor
  else if s = "d".toList then some .diminished
  else if s = "a".toList then some .augmented
  else if s = "D7".toList then some .majMin7
  else if s = "M7".toList then some .majMaj7
  else if s = "m7".toList then some .minMin7
  else if s = "h7".toList then some .halfDim7
  else if s = "d7".toList then some .dim7
  else none

theorem type_spec (s : Str) : labelType s = match specType s with
    | some t => .ok t
    | none => .error .keyError := by
  by_cases h : ∃ t, (s, t) ∈ labelTypes
  · obtain ⟨t, h⟩ := h
    simp only [labelTypes, List.mem_cons, Prod.mk.injEq, List.not_mem_nil, or_false] at h
    rcases h with h | h | h | h | h | h | h | h | h | h | h | h <;> obtain ⟨rfl, rfl⟩ := h <;> decide
  · have hne : ∀ p ∈ labelTypes, s ≠ p.1 := fun p hp e => h ⟨p.2, by rw [e]; exact hp⟩
    have h1 : labelTypes.lookup s = none := by
      rw [List.lookup_eq_none_iff]
      intro p hp
      rw [bne_iff_ne]
      exact hne p hp
    have h2 : specType s = none := by
      simp only [labelTypes, List.forall_mem_cons] at hne
      obtain ⟨a1, a2, a3, a4, a5, a6, a7, a8, a9, a10, a11, a12, -⟩ := hne
      unfold specType
      rw [if_neg (by rintro (e | e | e | e) <;> contradiction), if_neg a7, if_neg a4, if_neg a5, if_neg a1,
        if_neg a3, if_neg a8, if_neg a12, if_neg a6]
    simp only [labelType, h1, h2]

/-- The inversion of a label: none for augmented sixth chords, otherwise as given, counted modulo the number of
tones of the type. -/
def specInversion (row : CsvLabel) (t : ChordType) : Int :=
  (if row.type = "Gr+6".toList ∨ row.type = "Fr+6".toList ∨ row.type = "It+6".toList then 0 else row.inv) %
    ((inversionCount t : Nat) : Int)

theorem inversion_spec (row : CsvLabel) (t : ChordType) : labelInversion row t = specInversion row t := by
  unfold labelInversion specInversion
  rw [FromSeries.pitches_length]
  simp only [List.mem_cons, List.not_mem_nil, or_false]

/-- C83: the chord of a label, given its key and degree: its root is the interval above the tonic, its bass the
tone given by the inversion; it is given if both are pitches. Positions, levels and duration are those of
C81. -/
theorem C83_chord (rows : List XmlRow) (h : rows.IsChain Follows) (hin : ∀ r ∈ rows, OffsetIn r) (r0 : XmlRow)
    (h0 : rows[0]? = some r0) (red : Reduction) (useInv useRelative : Bool) (row : CsvLabel)
    (hon : r0.start ≤ row.on) (hoff : row.on ≤ row.off) (k : Key) (hk : labelKey row .tpc none = .ok k)
    (i : Int) (hi : intervalFromScaleDegree (labelDegree k.relativeMode row.degree) true k.relativeMode .tpc = .ok i)
    (t : ChordType) (ht : specType row.type = some t) :
    ∃ j tone, specInversion row t = (j : Nat) ∧ (specTones .tpc t)[j]? = some tone ∧
      ((∃ p, (p = k.relativeTonic + i ∨ p = k.relativeTonic + i + tone) ∧ ¬ (0 ≤ p ∧ p < 35)) ∧
        labelChord rows .tpc red useInv useRelative row = .error .valueError ∨
      ∃ c times, labelChord rows .tpc red useInv useRelative row = .ok c ∧
        labelTimes rows row.on row.off = .ok times ∧
        c.chord.root = k.relativeTonic + i ∧ c.chord.bass = c.chord.root + tone ∧
        (0 ≤ c.chord.root ∧ c.chord.root < 35) ∧ (0 ≤ c.chord.bass ∧ c.chord.bass < 35) ∧
        c.chord.chordType = red t ∧ c.chord.inversion = (if useInv = true then specInversion row t else 0) ∧
        c.chord.keyTonic = (if useRelative = true then k.relativeTonic else k.localTonic) ∧
        c.chord.keyMode = (if useRelative = true then k.relativeMode else k.localMode) ∧
        c.onset = times.onset ∧ c.offset = times.offset ∧ c.chord.onsetLevel = times.onsetLevel ∧
        c.chord.offsetLevel = times.offsetLevel ∧ c.chord.duration = row.off - row.on ∧
        c.chord.pitchType = .tpc ∧ c.suspension = none) := by
  have n35 : NUM_PITCHES .tpc = 35 := rfl
  obtain ⟨times, _, _, _, _, htimes, -, -, -, -, hdur, -⟩ := C81_label rows h hin r0 h0 row.on row.off hon hoff
  have hpos := inversion_pos t
  obtain ⟨j, hj⟩ : ∃ j : Nat, specInversion row t = j :=
    ⟨(specInversion row t).toNat, by
      have : 0 ≤ specInversion row t := Int.emod_nonneg _ (by omega)
      omega⟩
  have hlt : specInversion row t < inversionCount t := Int.emod_lt_of_pos _ (by omega)
  have hjl : j < (specTones .tpc t).length := by rw [specTones_length]; omega
  have htone := List.getElem?_eq_getElem hjl
  refine ⟨j, _, hj, htone, ?_⟩
  generalize (specTones .tpc t)[j] = tone at *
  have htype : labelType row.type = .ok t := by rw [type_spec, ht]
  have hbass : ∀ root, bassNote t root (specInversion row t) .tpc true = transposePitch root tone .tpc := by
    intro root
    rw [hj]
    exact C14_bass t root j tone .tpc true htone
  by_cases hr : 0 ≤ k.relativeTonic + i ∧ k.relativeTonic + i < 35
  · have htr : transposePitch k.relativeTonic i .tpc = .ok (k.relativeTonic + i) := by
      simp only [transposePitch, n35]
      rw [if_neg (by omega)]
    by_cases hb : 0 ≤ k.relativeTonic + i + tone ∧ k.relativeTonic + i + tone < 35
    · right
      have htb : transposePitch (k.relativeTonic + i) tone .tpc = .ok (k.relativeTonic + i + tone) := by
        simp only [transposePitch, n35]
        rw [if_neg (by omega)]
      have hres : labelChord rows .tpc red useInv useRelative row =
          .ok ⟨⟨k.relativeTonic + i, k.relativeTonic + i + tone,
            if useRelative = true then k.relativeTonic else k.localTonic,
            if useRelative = true then k.relativeMode else k.localMode, red t,
            if useInv = true then specInversion row t else 0, times.onsetLevel, times.offsetLevel,
            times.duration, .tpc⟩, times.onset, times.offset, none⟩ := by
        simp only [labelChord, Bind.bind, Except.bind, hk, htype, hi, htr, htimes, inversion_spec, hbass, htb]
      exact ⟨_, times, hres, htimes, rfl, rfl, hr, hb, rfl, rfl, rfl, rfl, rfl, rfl, rfl, rfl, hdur, rfl, rfl⟩
    · left
      have htb : transposePitch (k.relativeTonic + i) tone .tpc = .error .valueError := by
        simp only [transposePitch, n35]
        rw [if_pos (by omega)]
      refine ⟨⟨_, .inr rfl, hb⟩, ?_⟩
      simp only [labelChord, Bind.bind, Except.bind, hk, htype, hi, htr, htimes, inversion_spec, hbass, htb]
  · left
    have htr : transposePitch k.relativeTonic i .tpc = .error .valueError := by
      simp only [transposePitch, n35]
      rw [if_pos (by omega)]
    refine ⟨⟨_, .inl rfl, hr⟩, ?_⟩
    simp only [labelChord, Bind.bind, Except.bind, hk, htype, hi, htr]

/-- C83: without a reduction and with inversions, the bass is the tone of the chord that its inversion says,
as everywhere in the project. -/
theorem C83_bass_partial (rows : List XmlRow) (useRelative : Bool) (row : CsvLabel) (pt : PitchType)
    (c : SeriesChord) (h : labelChord rows pt noReduction true useRelative row = .ok c) :
    bassNote c.chord.chordType c.chord.root c.chord.inversion pt false = .ok c.chord.bass := by
  simp only [labelChord, Bind.bind] at h
  obtain ⟨k, _, h⟩ := SearchData.bind_ok h
  obtain ⟨t, _, h⟩ := SearchData.bind_ok h
  obtain ⟨iv, _, h⟩ := SearchData.bind_ok h
  obtain ⟨root, _, h⟩ := SearchData.bind_ok h
  obtain ⟨times, _, h⟩ := SearchData.bind_ok h
  obtain ⟨bass, hb, h⟩ := SearchData.bind_ok h
  injection h with h
  subst h
  simp only [noReduction, if_true]
  rw [C14_bass_modulo] at hb
  rw [← hb, inversion_spec]
  congr 1
  unfold specInversion
  rw [Int.emod_emod]

/-- A row for a label in the first measure of 4/4. -/
def oneMeasure : List XmlRow := [⟨1, (4, 4), 0, 1, 0⟩]

/-- C83: without inversions this fails: C major over E has the inversion 0 and the bass E. -/
theorem C83_fails_inversion :
    labelChord oneMeasure .tpc noReduction false true ⟨0, 1/2, "C".toList, "1".toList, "M".toList, 1⟩ =
      .ok ⟨⟨15, 19, 15, .major, .major, 0, 3, 2, 1/2, .tpc⟩, (0, 0), (0, 1/2), none⟩ := by decide +kernel

/-- C83: with a reduction to triads the inversion may not exist: G7 over F is a triad in third inversion, for
which there is no class. -/
theorem C83_fails_reduction (red : Reduction) (hred : red .majMin7 = .major) :
    ∃ c, labelChord oneMeasure .tpc red true true ⟨0, 1/2, "C".toList, "5".toList, "D7".toList, 3⟩ = .ok c ∧
      c.chord.chordType = .major ∧ c.chord.inversion = 3 ∧ c.chord.root = 16 ∧ c.chord.bass = 14 ∧
      ∀ n : Nat, (specTones .tpc c.chord.chordType)[n]? ≠ some (c.chord.bass - c.chord.root) := by
  have e : labelChord oneMeasure .tpc noReduction true true ⟨0, 1/2, "C".toList, "5".toList, "D7".toList, 3⟩ =
      .ok ⟨⟨16, 14, 15, .major, .majMin7, 3, 3, 2, 1/2, .tpc⟩, (0, 0), (0, 1/2), none⟩ := by decide +kernel
  refine ⟨⟨⟨16, 14, 15, .major, .major, 3, 3, 2, 1/2, .tpc⟩, (0, 0), (0, 1/2), none⟩, ?_, rfl, rfl, rfl, rfl, ?_⟩
  · simp only [labelChord, Bind.bind] at e ⊢
    obtain ⟨k, h1, e⟩ := SearchData.bind_ok e
    obtain ⟨t, h2, e⟩ := SearchData.bind_ok e
    obtain ⟨iv, h3, e⟩ := SearchData.bind_ok e
    obtain ⟨root, h4, e⟩ := SearchData.bind_ok e
    obtain ⟨times, h5, e⟩ := SearchData.bind_ok e
    obtain ⟨bass, h6, e⟩ := SearchData.bind_ok e
    simp only [Except.bind, h1, h2, h3, h4, h5, h6]
    simp only [Except.ok.injEq, SeriesChord.mk.injEq, Chord.mk.injEq, noReduction] at e ⊢
    obtain ⟨⟨a1, a2, a3, a4, a5, a6⟩, a7⟩ := e
    exact ⟨⟨a1, a2, a3, a4, by rw [show t = .majMin7 from a5]; exact hred, a6⟩, a7⟩
  · intro n
    have : specTones .tpc .major = [0, 4, 1] := rfl
    simp only [this]
    rcases n with _ | _ | _ | n <;> simp

/-- C83: a chord read with MIDI pitches is the chord read with TPC pitches, converted. -/
theorem C83_midi (rows : List XmlRow) (red : Reduction) (useInv useRelative : Bool) (row : CsvLabel)
    (c : SeriesChord) (h : labelChord rows .tpc red useInv useRelative row = .ok c) :
    ∃ c', c.chord.toPitchType .midi = .ok c'.chord ∧ c'.onset = c.onset ∧ c'.offset = c.offset ∧
      c'.suspension = c.suspension ∧ labelChord rows .midi red useInv useRelative row = .ok c' := by
  simp only [labelChord, Bind.bind] at h
  obtain ⟨k, h1, h⟩ := SearchData.bind_ok h
  obtain ⟨t, h2, h⟩ := SearchData.bind_ok h
  obtain ⟨iv, h3, h⟩ := SearchData.bind_ok h
  obtain ⟨root, h4, h⟩ := SearchData.bind_ok h
  obtain ⟨times, h5, h⟩ := SearchData.bind_ok h
  obtain ⟨bass, h6, h⟩ := SearchData.bind_ok h
  injection h with h
  subst h
  -- the key
  have hkey : labelKey row .midi none = .ok ⟨pitchClass k.relativeTonic, pitchClass k.localTonic,
      pitchClass k.globalTonic, k.relativeMode, k.localMode, k.globalMode, .midi⟩ := by
    simp only [labelKey, Bind.bind] at h1 ⊢
    obtain ⟨lt, g1, h1⟩ := SearchData.bind_ok h1
    obtain ⟨⟨rt, rm⟩, g2, h1⟩ := SearchData.bind_ok h1
    injection h1 with h1
    subst h1
    obtain ⟨_, _, g1'⟩ := pitch_midi _ _ g1
    have g2' : relativeOrLocal (pitchClass lt) (labelMode (unAscii row.key)) (splitSlash (unAscii row.degree)) .midi =
        .ok (pitchClass rt, rm) := by
      revert g2
      unfold relativeOrLocal
      split
      · intro g2
        unfold relativeKeyOf at g2 ⊢
        simp only [Bind.bind] at g2 ⊢
        obtain ⟨i, f1, g2⟩ := SearchData.bind_ok g2
        obtain ⟨p, f2, g2⟩ := SearchData.bind_ok g2
        obtain ⟨m, f3, g2⟩ := SearchData.bind_ok g2
        injection g2 with g2
        simp only [Prod.mk.injEq] at g2
        obtain ⟨j, f1', hj⟩ := interval_midi _ _ _ _ f1
        obtain ⟨_, _, _, f2'⟩ := transpose_midi _ _ _ j f2 hj
        simp only [Except.bind, f1', f2', f3, g2.1, g2.2]
      · intro g2
        injection g2 with g2
        simp only [Prod.mk.injEq] at g2
        rw [g2.1, g2.2]
      · intro g2; cases g2
    simp only [Except.bind, g1', g2', Option.getD_none]
  -- the root and the bass
  obtain ⟨j, h3', hj⟩ := interval_midi _ _ _ _ h3
  obtain ⟨_, _, _, h4'⟩ := transpose_midi _ _ _ j h4 hj
  have hinv : 0 ≤ labelInversion row t ∧ labelInversion row t < inversionCount t := by
    have hpos := inversion_pos t
    rw [inversion_spec]
    exact ⟨Int.emod_nonneg _ (by omega), Int.emod_lt_of_pos _ (by omega)⟩
  obtain ⟨n, hn⟩ : ∃ n : Nat, labelInversion row t = n := ⟨(labelInversion row t).toNat, by omega⟩
  have hlt : n < (specTones .tpc t).length := by rw [specTones_length]; omega
  have htone := List.getElem?_eq_getElem hlt
  generalize (specTones .tpc t)[n] = tone at *
  have htone' : (specTones .midi t)[n]? = some (7 * tone % 12) := by
    change (semitoneTones t)[n]? = _
    rw [← C14_tables, List.getElem?_map]
    change Option.map _ (specTones .tpc t)[n]? = _
    rw [htone]; rfl
  rw [hn, C14_bass t root n tone .tpc true htone] at h6
  obtain ⟨_, _, _, h6'⟩ := transpose_midi _ _ _ (7 * tone % 12) h6 (by omega)
  refine ⟨⟨⟨pitchClass root, pitchClass bass,
      pitchClass (if useRelative = true then k.relativeTonic else k.localTonic),
      if useRelative = true then k.relativeMode else k.localMode, red t,
      if useInv = true then labelInversion row t else 0, times.onsetLevel, times.offsetLevel, times.duration,
      .midi⟩, times.onset, times.offset, none⟩, ?_, rfl, rfl, rfl, ?_⟩
  · rw [Chord.toPitchType, if_neg (by simp)]
    simp only [C08_value, Bind.bind, Except.bind]
    rfl
  · simp only [labelChord, Bind.bind, Except.bind, hkey, h2, h3', h4', h5, hn,
      C14_bass t (pitchClass root) n _ .midi true htone', h6', Except.ok.injEq, SeriesChord.mk.injEq, Chord.mk.injEq]
    cases useRelative <;> simp

/-- The seventh degree of A minor is G sharp; applied to it, a dominant seventh chord on the fifth is D sharp 7;
its bass in first inversion is the third, a double sharp. -/
example : labelChord oneMeasure .tpc noReduction true true ⟨0, 1/4, "a".toList, "5/7".toList, "D7".toList, 1⟩ =
    .ok ⟨⟨24, 28, 23, .major, .majMin7, 1, 3, 2, 1/4, .tpc⟩, (0, 0), (0, 1/4), none⟩ := by decide +kernel

/-- The lowered seventh degree of E flat minor is D flat. -/
example : (labelChord oneMeasure .midi noReduction true true ⟨0, 1/4, "e-".toList, "-7".toList, "M".toList, 0⟩).map
    (fun c => c.chord.root) = .ok 1 := by decide +kernel

end Verif.LabelsCsv
