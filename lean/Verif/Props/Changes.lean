import Verif.Changes
import Verif.Props.Results
import Mathlib.Data.List.Nodup
import Mathlib.Tactic.IntervalCases

/-!
# C76: changes of chords
-/

namespace Verif.Changes

/-! ## Changes -/

/-- The mark in front of a change. -/
inductive Mark
  | unmarked | plus | up | down
  deriving DecidableEq

/-- A change: a mark, sharps (positive) or flats (negative), a number. -/
structure Change where
  mark : Mark
  acc : Int
  num : Nat
  deriving DecidableEq

def markStr : Mark → Str
  | .unmarked => []
  | .plus => ['+']
  | .up => ['^']
  | .down => ['v']

def accStr (acc : Int) : Str := List.replicate acc.natAbs (if acc < 0 then 'b' else '#')

def numStr (n : Nat) : Str := if n < 10 then digitStr n else ['1', Char.ofNat (48 + (n - 10))]

/-- How the change is written. -/
def Change.text (c : Change) : Str := markStr c.mark ++ (accStr c.acc ++ numStr c.num)

/-- The step of a pitch in the scale C D E F G A B: each fifth is four steps up. -/
def step (p : Int) : Int := (4 * (p - 15)) % 7

/-- The major and the natural minor scale, in fifths from the tonic. -/
def InScale (tonic : Int) (mode : KeyMode) (p : Int) : Prop :=
  match mode with
  | .major => -1 ≤ p - tonic ∧ p - tonic ≤ 5
  | .minor => -4 ≤ p - tonic ∧ p - tonic ≤ 2

/-- `p` is a tone of the chord. -/
def IsTone (root : Int) (ct : ChordType) (p : Int) : Prop := ∃ q ∈ chordPitches .tpc ct, p = q + (root - 15)

/-- The tone that a change replaces, if any: the one above (`true`) or below (`false`). A second, fourth or
sixth replaces its neighbour below, with sharps the one above; a mark decides otherwise. A raised sixth is
an addition to a triad. -/
def Change.replaces (triad : Bool) (c : Change) : Option Bool :=
  match c.mark with
  | .plus => none
  | .up => some true
  | .down => some false
  | .unmarked =>
    if c.num = 2 ∨ c.num = 4 ∨ c.num = 6 then
      if 0 < c.acc then (if c.acc = 1 ∧ c.num = 6 ∧ triad = true then none else some true)
      else some false
    else none

def isTriad (ct : ChordType) : Bool := decide ((chordPitches .tpc ct).length = 3)

/-- Numbers 2 to 19; marked changes are seconds, fourths or sixths; a tone above the sixth is there only in
a seventh chord. -/
def Change.Valid (ct : ChordType) (c : Change) : Prop :=
  2 ≤ c.num ∧ c.num ≤ 19 ∧
  (c.mark = .up ∨ c.mark = .down → c.num = 2 ∨ c.num = 4 ∨ c.num = 6) ∧
  (c.replaces (isTriad ct) = some true → c.num = 6 → isTriad ct = false)

/-- The added pitch: `num - 1` steps above the root, in the scale of the key but for the accidentals, and in
an upper octave from the eighth on. -/
def AddedRight (root tonic : Int) (mode : KeyMode) (c : Change) (a : Bool × Int) : Prop :=
  step a.2 = (step root + (c.num - 1)) % 7 ∧ InScale tonic mode (a.2 - 7 * c.acc) ∧
  (a.1 = true ↔ 8 ≤ c.num)

/-- The removed pitch: the tone of the chord one step above or below the added one. -/
def RemovedRight (root : Int) (ct : ChordType) (c : Change) (r : Option Int) : Prop :=
  match c.replaces (isTriad ct) with
  | none => r = none
  | some b => ∃ p, r = some p ∧ IsTone root ct p ∧
      step p = (step root + (c.num - 1) + (if b then 1 else -1)) % 7

/-- The tone that a change replaces, in steps from the root. -/
def Change.target (triad : Bool) (c : Change) : Option Int :=
  (c.replaces triad).map fun b => ((c.num - 1 : Int) + (if b then 1 else -1)) % 7

/-- C76: the step and the key determine the pitch. -/
theorem C76_added_unique (root tonic : Int) (mode : KeyMode) (c : Change) (a b : Bool × Int)
    (ha : AddedRight root tonic mode c a) (hb : AddedRight root tonic mode c b) : a = b := by
  obtain ⟨a0, a⟩ := a
  obtain ⟨b0, b⟩ := b
  obtain ⟨h1, h2, h3⟩ := ha
  obtain ⟨h1', h2', h3'⟩ := hb
  simp only [step] at h1 h1'
  have e0 : a0 = b0 := by
    rw [Bool.eq_iff_iff]; exact h3.trans h3'.symm
  subst e0
  have : a = b := by
    cases mode <;> simp only [InScale] at h2 h2' <;> omega
  rw [this]

/-! ## Reading the text -/

variable (isNum : Char → Bool)

/-- `str.isnumeric` on the characters of changes. -/
structure Numeric : Prop where
  digits : ∀ n < 10, isNum (Char.ofNat (48 + n)) = true
  marks : ∀ c ∈ ['+', '^', 'v', 'b', '#'], isNum c = false

example : Numeric Char.isDigit := ⟨by decide, by decide⟩

theorem go_append (pre rest : Str) (h : ∀ c ∈ pre, isNum c = false) (n : Nat) :
    firstChangeLength.go isNum (pre ++ rest) n = firstChangeLength.go isNum rest (n + pre.length) := by
  induction pre generalizing n with
  | nil => rfl
  | cons c cs ih =>
    rw [List.cons_append, firstChangeLength.go, if_neg (by rw [h c List.mem_cons_self]; decide),
      ih (fun d hd => h d (List.mem_cons_of_mem _ hd))]
    congr 1
    simp only [List.length_cons]; omega

theorem numStr_cases {n : Nat} (h1 : 2 ≤ n) (h2 : n ≤ 19) :
    (∃ d : Char, numStr n = [d] ∧ d ≠ '1' ∧ ∃ k < 10, d = Char.ofNat (48 + k)) ∨
    (∃ d : Char, numStr n = ['1', d] ∧ ∃ k < 10, d = Char.ofNat (48 + k)) := by
  by_cases h : n < 10
  · left
    refine ⟨Char.ofNat (48 + n), by rw [numStr, if_pos h, digitStr], ?_, n, h, rfl⟩
    interval_cases n <;> decide
  · right
    exact ⟨_, by rw [numStr, if_neg h], n - 10, by omega, rfl⟩

theorem text_ne (c : Change) (h1 : 2 ≤ c.num) (h2 : c.num ≤ 19) : c.text ≠ [] := by
  unfold Change.text
  rcases numStr_cases h1 h2 with ⟨d, h, _⟩ | ⟨d, h, _⟩ <;> rw [h] <;> simp

theorem pre_marks (c : Change) : ∀ x ∈ markStr c.mark ++ accStr c.acc, x ∈ ['+', '^', 'v', 'b', '#'] := by
  intro x hx
  rcases List.mem_append.1 hx with hx | hx
  · cases hm : c.mark <;> rw [hm] at hx <;> simp_all [markStr]
  · have := List.eq_of_mem_replicate hx
    split at this <;> simp [this]

theorem firstLength (hn : Numeric isNum) (c : Change) (h1 : 2 ≤ c.num) (h2 : c.num ≤ 19) (rest : Str) :
    firstChangeLength isNum (c.text ++ rest) = .ok c.text.length := by
  have hne : c.text ++ rest ≠ [] := by simp [text_ne c h1 h2]
  obtain ⟨x, xs, hx⟩ := List.exists_cons_of_ne_nil hne
  have : firstChangeLength isNum (c.text ++ rest) = firstChangeLength.go isNum (c.text ++ rest) 0 := by
    rw [hx]; rfl
  rw [this]
  have e : c.text ++ rest = (markStr c.mark ++ accStr c.acc) ++ (numStr c.num ++ rest) := by
    simp [Change.text]
  rw [e, go_append isNum _ _ (fun x hx => hn.marks x (pre_marks c x hx))]
  rcases numStr_cases h1 h2 with ⟨d, h, h3, k, hk, rfl⟩ | ⟨d, h, k, hk, rfl⟩
  · rw [h, List.cons_append, firstChangeLength.go, if_pos (hn.digits k hk), if_neg h3]
    simp [Change.text, h]; omega
  · rw [h, List.cons_append, firstChangeLength.go, if_pos (hn.digits 1 (by decide)), if_pos rfl]
    simp [Change.text, h]; omega

theorem split_texts (hn : Numeric isNum) (cs : List Change) (h : ∀ c ∈ cs, 2 ≤ c.num ∧ c.num ≤ 19)
    (fuel : Nat) (hf : (cs.map Change.text).flatten.length < fuel) :
    splitChangesLoop isNum fuel (cs.map Change.text).flatten = .ok (cs.map Change.text) := by
  induction cs generalizing fuel with
  | nil =>
    cases fuel with
    | zero => simp at hf
    | succ n => rfl
  | cons c cs ih =>
    obtain ⟨h1, h2⟩ := h c List.mem_cons_self
    have hpos := List.length_pos_iff.2 (text_ne c h1 h2)
    cases fuel with
    | zero => simp at hf
    | succ n =>
      simp only [List.map_cons, List.flatten_cons, splitChangesLoop, Bind.bind, Except.bind]
      rw [firstLength isNum hn c h1 h2]
      simp only
      rw [if_neg (by omega), List.drop_left, List.take_left,
        ih (fun d hd => h d (List.mem_cons_of_mem _ hd)) n (by
          simp only [List.map_cons, List.flatten_cons, List.length_append] at hf; omega)]

theorem stripMarks_text (c : Change) (h1 : 2 ≤ c.num) (h2 : c.num ≤ 19) :
    stripMarks c.text = .ok (accStr c.acc ++ numStr c.num) := by
  have key : ∀ t : Str, (∃ x xs, t = x :: xs ∧ x ≠ 'v' ∧ x ≠ '^' ∧ x ≠ '+') → stripMarks t = .ok t := by
    rintro t ⟨x, xs, rfl, a, b, d⟩
    rw [stripMarks, if_neg (by simp [a, b, d])]
  have hd : ∃ x xs, accStr c.acc ++ numStr c.num = x :: xs ∧ x ≠ 'v' ∧ x ≠ '^' ∧ x ≠ '+' := by
    rw [accStr]
    cases hk : c.acc.natAbs with
    | zero =>
      simp only [List.replicate_zero, List.nil_append]
      rcases numStr_cases h1 h2 with ⟨d, h, _, k, hk, rfl⟩ | ⟨d, h, k, hk, rfl⟩
      · refine ⟨_, _, h, ?_, ?_, ?_⟩ <;> interval_cases k <;> decide
      · exact ⟨_, _, h, by decide, by decide, by decide⟩
    | succ n =>
      rw [List.replicate_succ, List.cons_append]
      refine ⟨_, _, rfl, ?_, ?_, ?_⟩ <;> split <;> decide
  rw [Change.text]
  cases c.mark <;> simp only [markStr, List.nil_append, List.cons_append, stripMarks]
  · exact key _ hd
  all_goals simp only [true_or, or_true, if_true]; exact key _ hd

theorem stripFlats_rep (k : Nat) (x : Char) (xs : Str) (h : x ≠ 'b') :
    stripFlats (List.replicate k 'b' ++ x :: xs) = (-(k : Int), x :: xs) := by
  induction k with
  | zero =>
    cases xs with
    | nil => rfl
    | cons y ys => simp [stripFlats, h]
  | succ k ih =>
    rw [List.replicate_succ, List.cons_append]
    cases k with
    | zero => simp_all [stripFlats]
    | succ k =>
      rw [List.replicate_succ, List.cons_append] at ih ⊢
      rw [stripFlats, if_pos rfl, ih]
      simp only [Prod.mk.injEq, and_true]
      omega

theorem stripSharps_rep (k : Nat) (x : Char) (xs : Str) (h : x ≠ '#') :
    stripSharps (List.replicate k '#' ++ x :: xs) = .ok ((k : Int), x :: xs) := by
  induction k with
  | zero => simp [stripSharps, h]
  | succ k ih =>
    rw [List.replicate_succ, List.cons_append, stripSharps, if_pos rfl, ih]
    simp only [Bind.bind, Except.bind, Except.ok.injEq, Prod.mk.injEq, and_true]
    omega

theorem accidental_rep (acc : Int) (x : Char) (xs : Str) (h : x ≠ 'b') (h' : x ≠ '#') :
    accidentalAdjustment (accStr acc ++ x :: xs) true = .ok (acc, x :: xs) := by
  rw [accidentalAdjustment, if_neg (by simp), if_pos rfl, accStr]
  by_cases ha : acc < 0
  · rw [if_pos ha, stripFlats_rep _ _ _ h]
    have := stripSharps_rep 0 x xs h'
    simp only [List.replicate_zero, List.nil_append] at this
    simp only [this, Bind.bind, Except.bind, Except.ok.injEq, Prod.mk.injEq, and_true]
    omega
  · rw [if_neg ha]
    have h0 : stripFlats (List.replicate acc.natAbs '#' ++ x :: xs) =
        (0, List.replicate acc.natAbs '#' ++ x :: xs) := by
      cases hk : acc.natAbs with
      | zero => exact stripFlats_rep 0 x xs h
      | succ k =>
        rw [List.replicate_succ, List.cons_append]
        exact stripFlats_rep 0 '#' _ (by decide)
    rw [h0]
    simp only [stripSharps_rep _ _ _ h', Bind.bind, Except.bind, Except.ok.injEq, Prod.mk.injEq, and_true]
    omega

theorem accidental_text (acc : Int) {n : Nat} (h1 : 2 ≤ n) (h2 : n ≤ 19) :
    accidentalAdjustment (accStr acc ++ numStr n) true = .ok (acc, numStr n) := by
  rcases numStr_cases h1 h2 with ⟨d, h, _, k, hk, rfl⟩ | ⟨d, h, k, hk, rfl⟩
  · rw [h]
    refine accidental_rep _ _ _ ?_ ?_ <;> interval_cases k <;> decide
  · rw [h]
    exact accidental_rep _ _ _ (by decide) (by decide)

theorem pyInt_numStr {n : Nat} (h1 : 2 ≤ n) (h2 : n ≤ 19) : pyInt (numStr n) = .ok n := by
  interval_cases n <;> decide

/-- The scale of a mode, by degree. -/
def scaleAt (mode : KeyMode) (d : Int) : Int :=
  match mode with
  | .major => (2 * (d - 1) + 1) % 7 - 1
  | .minor => (2 * (d - 1) + 4) % 7 - 4

theorem interval_degree (acc d : Int) (mode : KeyMode) (h1 : 1 ≤ d) (h2 : d ≤ 7) :
    intervalFromScaleDegree (accStr acc ++ digitStr d.toNat) true mode .tpc =
      .ok (scaleAt mode d + 7 * acc) := by
  have hd : ∃ k : Nat, d = k ∧ 1 ≤ k ∧ k ≤ 7 := ⟨d.toNat, by omega, by omega, by omega⟩
  obtain ⟨k, rfl, k1, k2⟩ := hd
  rw [intervalFromScaleDegree, digitStr, accidental_rep _ _ _
    (by simp only [Int.toNat_natCast]; interval_cases k <;> decide)
    (by simp only [Int.toNat_natCast]; interval_cases k <;> decide)]
  simp only [Int.toNat_natCast, Bind.bind, Except.bind, accidentalUnit]
  have : ∀ mode, ∀ k : Nat, 1 ≤ k → k ≤ 7 → scaleDegreeToNumber [Char.ofNat (48 + k)] = some k ∧
      pyGet (scaleIntervals mode .tpc) (k : Int) = .ok (scaleAt mode k) := by
    intro mode k k1 k2
    interval_cases k <;> cases mode <;> decide
  rw [(this mode k k1 k2).1]
  simp only [(this mode k k1 k2).2]
  congr 1
  omega

theorem take_acc (acc : Int) (t : Str) : (accStr acc ++ t).take acc.natAbs = accStr acc := by
  rw [List.take_left' (by simp [accStr])]

theorem addedPitch_text (degree : Nat) (tonic : Int) (mode : KeyMode) (c : Change) (h1 : 2 ≤ c.num)
    (h2 : c.num ≤ 19) : addedPitch degree tonic mode c.text =
      .ok (decide (8 ≤ c.num), scaleAt mode (((c.num : Int) + degree - 2) % 7 + 1) + 7 * c.acc + tonic) := by
  simp only [addedPitch, Bind.bind, Except.bind, stripMarks_text c h1 h2, accidental_text c.acc h1 h2,
    pyInt_numStr h1 h2, take_acc]
  rw [interval_degree _ _ _ (by omega) (by omega)]

/-! ## The degree of the root -/

theorem findDegree_table : ∀ mode : KeyMode, ∀ root ∈ pyRange 0 35, ∀ tonic ∈ pyRange 0 35,
    ∃ d ∈ List.range' 1 7, (do
      let c ← firstLetter root
      findDegree c tonic mode 7 (List.range' 1 7)) = .ok d ∧
      step root = (step tonic + ((d : Int) - 1)) % 7 := by
  intro mode
  cases mode <;> decide +kernel

/-! ## The tones of the chord -/

/-- All tones of the chord are pitches. -/
def Fits (root : Int) (ct : ChordType) : Prop := ∀ q ∈ chordPitches .tpc ct, 0 ≤ q + (root - 15) ∧ q + (root - 15) < 35

instance (root : Int) (ct : ChordType) : Decidable (Fits root ct) := by unfold Fits; infer_instance

theorem ascending_table (ct : ChordType) : ∀ mode ∈ KeyMode.all, ∀ root ∈ pyRange 0 35, Fits root ct →
    ascendingChord root ct mode = .ok ((chordPitches .tpc ct).map (· + (root - 15))) := by
  cases ct <;> decide +kernel

theorem tones_step (ct : ChordType) : ∀ (k : Nat) (h : k < (chordPitches .tpc ct).length),
    step (chordPitches .tpc ct)[k] = 2 * k := by
  cases ct <;> decide

theorem tones_length (ct : ChordType) : (chordPitches .tpc ct).length = if isTriad ct = true then 3 else 4 := by
  cases ct <;> decide

theorem root_fits {root : Int} {ct : ChordType} (h : Fits root ct) : root ∈ pyRange 0 35 := by
  have : (15 : Int) ∈ chordPitches .tpc ct := by cases ct <;> decide
  have := h 15 this
  rw [mem_pyRange]
  omega

theorem tone_at (root : Int) (ct : ChordType) (k : Nat) (h : k < if isTriad ct = true then 3 else 4) :
    ∃ p, pyGet ((chordPitches .tpc ct).map (· + (root - 15))) (k : Int) = .ok p ∧ IsTone root ct p ∧
      step p = (step root + 2 * k) % 7 := by
  rw [← tones_length] at h
  refine ⟨(chordPitches .tpc ct)[k] + (root - 15), ?_, ⟨_, List.getElem_mem h, rfl⟩, ?_⟩
  · refine pyGet_ofNat _ _ _ ?_
    rw [List.getElem?_map, List.getElem?_eq_getElem h]
    rfl
  · have := tones_step ct k h
    simp only [step] at this ⊢
    omega

theorem first_char (c : Change) (h1 : 2 ≤ c.num) (h2 : c.num ≤ 19) : ∃ x, pyGet c.text 0 = .ok x ∧
    (x = '+' ↔ c.mark = .plus) ∧ (x = '^' ↔ c.mark = .up) ∧ (x = 'v' ↔ c.mark = .down) ∧
    (x = '#' ↔ c.mark = .unmarked ∧ 0 < c.acc) := by
  have hd : ∃ x xs, accStr c.acc ++ numStr c.num = x :: xs ∧ x ≠ 'v' ∧ x ≠ '^' ∧ x ≠ '+' ∧
      (x = '#' ↔ 0 < c.acc) := by
    rw [accStr]
    cases hk : c.acc.natAbs with
    | zero =>
      have h0 : ¬ 0 < c.acc := by omega
      simp only [List.replicate_zero, List.nil_append, h0, iff_false]
      rcases numStr_cases h1 h2 with ⟨d, h, _, k, hk, rfl⟩ | ⟨d, h, k, hk, rfl⟩
      · refine ⟨_, _, h, ?_, ?_, ?_, ?_⟩ <;> interval_cases k <;> decide
      · exact ⟨_, _, h, by decide, by decide, by decide, by decide⟩
    | succ n =>
      rw [List.replicate_succ, List.cons_append]
      by_cases hneg : c.acc < 0
      · have h0 : ¬ 0 < c.acc := by omega
        rw [if_pos hneg]
        exact ⟨_, _, rfl, by decide, by decide, by decide, by simp [h0]⟩
      · have h0 : 0 < c.acc := by omega
        rw [if_neg hneg]
        exact ⟨_, _, rfl, by decide, by decide, by decide, by simp [h0]⟩
  obtain ⟨x, xs, e, n1, n2, n3, n4⟩ := hd
  rw [Change.text, e]
  cases c.mark
  · exact ⟨x, rfl, by simp [n3], by simp [n2], by simp [n1], by simp [n4]⟩
  all_goals exact ⟨_, rfl, by decide, by decide, by decide, by simp⟩

theorem last_char (c : Change) (h : c.num = 2 ∨ c.num = 4 ∨ c.num = 6) :
    ∃ x, pyGet c.text (-1) = .ok x ∧ pyInt [x] = .ok c.num := by
  have hn : c.num < 10 := by omega
  have e : c.text = (markStr c.mark ++ accStr c.acc) ++ [Char.ofNat (48 + c.num)] := by
    rw [Change.text, numStr, if_pos hn, digitStr, List.append_assoc]
  refine ⟨Char.ofNat (48 + c.num), ?_, ?_⟩
  · rw [Eval.pyGet_last _ (text_ne c (by omega) (by omega))]
    simp [e]
  · have := pyInt_numStr (n := c.num) (by omega) (by omega)
    rw [numStr, if_pos hn] at this
    exact this

theorem rest_text (c : Change) (h1 : 2 ≤ c.num) (h2 : c.num ≤ 19) : ∃ a t,
    accidentalAdjustment c.text true = .ok (a, t) ∧
    (c.mark = .unmarked → t = numStr c.num) ∧ (c.mark ≠ .unmarked → in246 t = false) := by
  cases hm : c.mark
  · refine ⟨c.acc, numStr c.num, ?_, fun _ => rfl, fun h => absurd rfl h⟩
    rw [Change.text, hm]
    exact accidental_text c.acc h1 h2
  all_goals
    refine ⟨0, c.text, ?_, (fun h => by cases h), fun _ => ?_⟩
    · rw [Change.text, hm]
      exact accidental_rep 0 _ _ (by decide) (by decide)
    · rw [Change.text, hm]
      simp [in246, markStr]

theorem in246_numStr {n : Nat} (h1 : 2 ≤ n) (h2 : n ≤ 19) :
    in246 (numStr n) = true ↔ n = 2 ∨ n = 4 ∨ n = 6 := by
  interval_cases n <;> decide

theorem is_sharp6 (c : Change) (h1 : 2 ≤ c.num) (h2 : c.num ≤ 19) :
    c.text = ['#', '6'] ↔ c.mark = .unmarked ∧ c.acc = 1 ∧ c.num = 6 := by
  constructor
  · intro h
    obtain ⟨x, hx, p1, p2, p3, p4⟩ := first_char c h1 h2
    rw [h] at hx
    have hx' : x = '#' := by
      have : pyGet ['#', '6'] 0 = .ok '#' := rfl
      rw [this] at hx; injection hx with hx; exact hx.symm
    obtain ⟨m, a⟩ := p4.1 hx'
    have e := accidental_text c.acc h1 h2
    have ht : c.text = accStr c.acc ++ numStr c.num := by rw [Change.text, m]; rfl
    rw [← ht, h] at e
    have e' : accidentalAdjustment ['#', '6'] true = .ok (1, ['6']) := by decide
    rw [e'] at e
    simp only [Except.ok.injEq, Prod.mk.injEq] at e
    refine ⟨m, e.1.symm, ?_⟩
    have := pyInt_numStr h1 h2
    rw [← e.2] at this
    have e6 : pyInt ['6'] = .ok 6 := by decide
    rw [e6] at this
    injection this with this
    exact this.symm
  · rintro ⟨m, a, n⟩
    rw [Change.text, m, a, n]
    decide

theorem removedPitch_text (root : Int) (ct : ChordType) (c : Change) (hv : c.Valid ct) :
    ∃ r, removedPitch ((chordPitches .tpc ct).map (· + (root - 15))) c.text = .ok r ∧
      RemovedRight root ct c r := by
  obtain ⟨h1, h2, h3, h4⟩ := hv
  obtain ⟨x, hx, p1, p2, p3, p4⟩ := first_char c h1 h2
  obtain ⟨a, t, ht, t1, t2⟩ := rest_text c h1 h2
  have hlen : ((chordPitches .tpc ct).map (· + (root - 15))).length = if isTriad ct = true then 3 else 4 := by
    rw [List.length_map, tones_length]
  have h246 : (in246 t = true) ↔ c.mark = .unmarked ∧ (c.num = 2 ∨ c.num = 4 ∨ c.num = 6) := by
    by_cases hm : c.mark = .unmarked
    · rw [t1 hm, in246_numStr h1 h2]; simp [hm]
    · rw [t2 hm]; simp [hm]
  simp only [removedPitch, Bind.bind, Except.bind, hx, ht]
  by_cases hup : x = '^' ∨ (in246 t = true ∧ x = '#')
  · rw [if_pos hup]
    -- the number is 2, 4 or 6
    have hnum : c.num = 2 ∨ c.num = 4 ∨ c.num = 6 := by
      rcases hup with h | h
      · exact h3 (.inl (p2.1 h))
      · exact (h246.1 h.1).2
    by_cases h6 : c.text = ['#', '6'] ∧ ((chordPitches .tpc ct).map (· + (root - 15))).length = 3
    · rw [if_pos h6]
      refine ⟨none, rfl, ?_⟩
      obtain ⟨m, ac, n6⟩ := (is_sharp6 c h1 h2).1 h6.1
      have htri : isTriad ct = true := by
        have := h6.2
        rw [hlen] at this
        by_contra hcon
        rw [if_neg hcon] at this
        omega
      simp [RemovedRight, Change.replaces, m, ac, n6, htri]
    · rw [if_neg h6]
      obtain ⟨l, hl, hl'⟩ := last_char c hnum
      have hrep : c.replaces (isTriad ct) = some true := by
        rcases hup with h | h
        · simp [Change.replaces, p2.1 h]
        · obtain ⟨m, hacc⟩ := p4.1 h.2
          have : ¬ (c.acc = 1 ∧ c.num = 6 ∧ isTriad ct = true) := by
            rintro ⟨q1, q2, q3⟩
            refine h6 ⟨(is_sharp6 c h1 h2).2 ⟨m, q1, q2⟩, ?_⟩
            rw [hlen, if_pos q3]
          simp only [Change.replaces, m, hnum, hacc, if_true, if_neg this]
      have hk : c.num / 2 < if isTriad ct = true then 3 else 4 := by
        by_cases h6' : c.num = 6
        · rw [h4 hrep h6']; simp [h6']
        · split <;> omega
      obtain ⟨p, g1, g2, g3⟩ := tone_at root ct (c.num / 2) hk
      have e : ((c.num : Int) / 2) = ((c.num / 2 : Nat) : Int) := by omega
      refine ⟨some p, by simp only [hl, hl', e, g1], ?_⟩
      simp only [RemovedRight, hrep]
      refine ⟨p, rfl, g2, ?_⟩
      rw [g3]
      simp only [if_true]
      congr 1
      omega
  · rw [if_neg hup]
    have n1 : c.mark ≠ .up := fun h => hup (.inl (p2.2 h))
    by_cases hdn : x = 'v' ∨ (in246 t = true ∧ x ≠ '#')
    · rw [if_pos hdn]
      have hnum : c.num = 2 ∨ c.num = 4 ∨ c.num = 6 := by
        rcases hdn with h | h
        · exact h3 (.inr (p3.1 h))
        · exact (h246.1 h.1).2
      obtain ⟨l, hl, hl'⟩ := last_char c hnum
      have hrep : c.replaces (isTriad ct) = some false := by
        rcases hdn with h | h
        · simp [Change.replaces, p3.1 h]
        · obtain ⟨m, _⟩ := h246.1 h.1
          have hacc : ¬ 0 < c.acc := fun hh => h.2 (p4.2 ⟨m, hh⟩)
          simp only [Change.replaces, m, hnum, hacc, if_true, if_false]
      obtain ⟨p, g1, g2, g3⟩ := tone_at root ct (c.num / 2 - 1) (by split <;> omega)
      have e : ((c.num : Int) / 2 - 1) = ((c.num / 2 - 1 : Nat) : Int) := by omega
      refine ⟨some p, by simp only [hl, hl', e, g1], ?_⟩
      simp only [RemovedRight, hrep]
      refine ⟨p, rfl, g2, ?_⟩
      rw [g3]
      simp only [Bool.false_eq_true, if_false]
      congr 1
      omega
    · rw [if_neg hdn]
      refine ⟨none, rfl, ?_⟩
      have n2 : c.mark ≠ .down := fun h => hdn (.inl (p3.2 h))
      have n3 : c.mark = .unmarked → ¬ (c.num = 2 ∨ c.num = 4 ∨ c.num = 6) := by
        intro m hn
        have hin := h246.2 ⟨m, hn⟩
        by_cases hs : x = '#'
        · exact hup (.inr ⟨hin, hs⟩)
        · exact hdn (.inr ⟨hin, hs⟩)
      have : c.replaces (isTriad ct) = none := by
        cases hm : c.mark
        · simp only [Change.replaces, hm, if_neg (n3 hm)]
        · simp [Change.replaces, hm]
        · exact absurd hm n1
        · exact absurd hm n2
      simp [RemovedRight, this]

/-! ## Dictionaries -/

section Dict

variable {κ α : Type} [DecidableEq κ]

theorem dictSet_new (d : List (κ × α)) (k : κ) (v : α) (h : k ∉ d.map (·.1)) :
    dictSet d k v = d ++ [(k, v)] := by
  induction d with
  | nil => rfl
  | cons x rest ih =>
    simp only [List.map_cons, List.mem_cons, not_or] at h
    rw [dictSet, if_neg (fun e => h.1 e.symm), ih h.2]
    rfl

theorem dictSet_old (d : List (κ × α)) (k : κ) (v : α) (h : k ∈ d.map (·.1)) :
    (dictSet d k v).map (·.1) = d.map (·.1) := by
  induction d with
  | nil => simp at h
  | cons x rest ih =>
    rw [dictSet]
    by_cases e : x.1 = k
    · rw [if_pos e]; simp [e]
    · rw [if_neg e]
      simp only [List.map_cons, List.mem_cons] at h ⊢
      rw [ih (h.resolve_left fun e' => e e'.symm)]

theorem dict_nodup (l d : List (κ × α)) (h : ((d ++ l).map (·.1)).Nodup) :
    l.foldl (fun d x => dictSet d x.1 x.2) d = d ++ l := by
  induction l generalizing d with
  | nil => simp
  | cons x rest ih =>
    have hx : x.1 ∉ d.map (·.1) := by
      rw [List.map_append, List.nodup_append] at h
      intro hm
      exact h.2.2 _ hm _ (List.mem_map.2 ⟨x, List.mem_cons_self, rfl⟩) rfl
    rw [List.foldl_cons, dictSet_new _ _ _ hx, ih _ (by simpa using h)]
    simp

theorem dictSet_le (d : List (κ × α)) (k : κ) (v : α) : (dictSet d k v).length ≤ d.length + 1 := by
  by_cases h : k ∈ d.map (·.1)
  · have := congrArg List.length (dictSet_old d k v h)
    simp only [List.length_map] at this
    omega
  · rw [dictSet_new d k v h]; simp

theorem dict_le (l d : List (κ × α)) :
    (l.foldl (fun d x => dictSet d x.1 x.2) d).length ≤ d.length + l.length := by
  induction l generalizing d with
  | nil => simp
  | cons x rest ih =>
    have h1 := ih (dictSet d x.1 x.2)
    have h2 := dictSet_le d x.1 x.2
    rw [List.foldl_cons, List.length_cons]
    omega

theorem dict_dup (l d : List (κ × α)) (hd : (d.map (·.1)).Nodup) (h : ¬ ((d ++ l).map (·.1)).Nodup) :
    (l.foldl (fun d x => dictSet d x.1 x.2) d).length < d.length + l.length := by
  induction l generalizing d with
  | nil => simp [hd] at h
  | cons x rest ih =>
    rw [List.foldl_cons, List.length_cons]
    by_cases hx : x.1 ∈ d.map (·.1)
    · have h1 := dict_le rest (dictSet d x.1 x.2)
      have h2 := congrArg List.length (dictSet_old d x.1 x.2 hx)
      simp only [List.length_map] at h2
      omega
    · have e := dictSet_new d x.1 x.2 hx
      rw [e]
      have := ih (d ++ [x]) (by
        rw [List.map_append, List.nodup_append]
        refine ⟨hd, by simp, ?_⟩
        intro a ha b hb
        simp only [List.map_cons, List.map_nil, List.mem_singleton] at hb
        rintro rfl
        rw [hb] at ha
        exact hx ha) (by simpa using h)
      simp only [List.length_append, List.length_cons, List.length_nil] at this
      change (rest.foldl _ (d ++ [x])).length < _
      omega

end Dict

/-! ## The mapping -/

theorem removed_texts (root : Int) (ct : ChordType) (cs : List Change) (hv : ∀ c ∈ cs, c.Valid ct)
    (hp : ∀ c ∈ cs.dropLast, c.mark ≠ .plus) :
    ∃ rs more, removedLoop ((chordPitches .tpc ct).map (· + (root - 15))) (cs.map Change.text) =
      .ok (rs ++ more) ∧ List.Forall₂ (RemovedRight root ct) cs rs := by
  induction cs with
  | nil => exact ⟨[], [], rfl, .nil⟩
  | cons c cs ih =>
    have hc := hv c List.mem_cons_self
    obtain ⟨r, hr, hr'⟩ := removedPitch_text root ct c hc
    obtain ⟨x, hx, p1, _⟩ := first_char c hc.1 hc.2.1
    cases cs with
    | nil =>
      by_cases hpl : x = '+'
      · refine ⟨[none], [r], by simp only [List.map_cons, List.map_nil, removedLoop, Bind.bind, Except.bind,
          hx, hr, hpl, if_true, List.cons_append, List.nil_append], .cons ?_ .nil⟩
        simp [RemovedRight, Change.replaces, p1.1 hpl]
      · exact ⟨[r], [], by simp only [List.map_cons, List.map_nil, removedLoop, Bind.bind, Except.bind,
          hx, hr, hpl, if_false, List.append_nil], .cons hr' .nil⟩
    | cons c' cs =>
      obtain ⟨rs, more, e, f⟩ := ih (fun d hd => hv d (List.mem_cons_of_mem _ hd))
        (fun d hd => hp d (by rw [List.dropLast_cons_cons]; exact List.mem_cons_of_mem _ hd))
      have hpl : x ≠ '+' := fun h => hp c (by rw [List.dropLast_cons_cons]; exact List.mem_cons_self) (p1.1 h)
      refine ⟨r :: rs, more, ?_, .cons hr' f⟩
      rw [List.map_cons, removedLoop]
      simp only [Bind.bind, Except.bind, hx, hr, e, hpl, if_false, List.cons_append]

theorem added_texts (degree : Nat) (root tonic : Int) (mode : KeyMode) (cs : List Change)
    (hn : ∀ c ∈ cs, 2 ≤ c.num ∧ c.num ≤ 19)
    (hs : step root = (step tonic + ((degree : Int) - 1)) % 7) :
    ∃ as, mapPy (addedPitch degree tonic mode) (cs.map Change.text) = .ok as ∧
      List.Forall₂ (AddedRight root tonic mode) cs as := by
  induction cs with
  | nil => exact ⟨[], rfl, .nil⟩
  | cons c cs ih =>
    obtain ⟨as, e, f⟩ := ih (fun d hd => hn d (List.mem_cons_of_mem _ hd))
    obtain ⟨h1, h2⟩ := hn c List.mem_cons_self
    refine ⟨(decide (8 ≤ c.num), scaleAt mode ((c.num + degree - 2 : Int) % 7 + 1) + 7 * c.acc + tonic) :: as, by
      simp only [List.map_cons, mapPy, addedPitch_text degree tonic mode c h1 h2, e], .cons ?_ f⟩
    refine ⟨?_, ?_, by simp⟩
    · simp only [step] at hs ⊢
      cases mode <;> simp only [scaleAt] <;> omega
    · cases mode <;> simp only [InScale, scaleAt] <;> omega

theorem target_of {root : Int} {ct : ChordType} {c : Change} {r : Option Int} (h : RemovedRight root ct c r) :
    r.map (fun p => (step p - step root) % 7) = c.target (isTriad ct) := by
  unfold RemovedRight at h
  unfold Change.target
  cases hr : c.replaces (isTriad ct) with
  | none => rw [hr] at h; rw [h]; rfl
  | some b =>
    rw [hr] at h
    obtain ⟨p, rfl, _, hp⟩ := h
    simp only [Option.map_some, Option.some.injEq]
    omega

theorem tones_inj (ct : ChordType) : ∀ p ∈ chordPitches .tpc ct, ∀ q ∈ chordPitches .tpc ct,
    step p = step q → p = q := by
  cases ct <;> decide

theorem distinct_iff {root : Int} {ct : ChordType} {cs : List Change} {rs : List (Option Int)}
    (h : List.Forall₂ (RemovedRight root ct) cs rs) :
    rs.Nodup ↔ (cs.map (Change.target (isTriad ct))).Nodup := by
  have e : rs.map (Option.map fun p => (step p - step root) % 7) = cs.map (Change.target (isTriad ct)) := by
    induction h with
    | nil => rfl
    | cons h1 _ ih => rw [List.map_cons, List.map_cons, ih, target_of h1]
  have tone : ∀ p, some p ∈ rs → IsTone root ct p := by
    clear e
    induction h with
    | nil => simp
    | @cons c r cs rs h1 _ ih =>
      intro p hp
      rcases List.mem_cons.1 hp with hp | hp
      · unfold RemovedRight at h1
        split at h1
        · rw [h1] at hp; cases hp
        · obtain ⟨q, hq, ht, _⟩ := h1
          rw [hq] at hp
          injection hp with hp
          rw [hp]; exact ht
      · exact ih p hp
  rw [← e]
  constructor
  · intro hn
    refine List.Nodup.map_on ?_ hn
    intro x hx y hy hxy
    cases x with
    | none => cases y with
      | none => rfl
      | some y => cases hxy
    | some x => cases y with
      | none => cases hxy
      | some y =>
        obtain ⟨p, hp, rfl⟩ := tone x hx
        obtain ⟨q, hq, rfl⟩ := tone y hy
        simp only [Option.map_some, Option.some.injEq] at hxy
        have := tones_inj ct p hp q hq (by simp only [step] at hxy ⊢; omega)
        rw [this]
  · exact List.Nodup.of_map _

/-- C76: every change has its entry, removed pitch and added pitch, if the changes replace different tones
and at most one of them is an addition; otherwise there are fewer entries than changes. Missing: a `+` before
the last change (see `C76_fails_plus`), and all entries if the replaced tones are not different (see
`C76_lost`). -/
theorem C76_mapping_partial (hn : Numeric isNum) (root tonic : Int) (ct : ChordType) (mode : KeyMode)
    (cs : List Change) (hf : Fits root ct) (ht : 0 ≤ tonic ∧ tonic < 35) (hv : ∀ c ∈ cs, c.Valid ct)
    (hp : ∀ c ∈ cs.dropLast, c.mark ≠ .plus) :
    ∃ m d, List.Forall₂ (fun c (e : Option Int × (Bool × Int)) => RemovedRight root ct c e.1 ∧
        AddedRight root tonic mode c e.2) cs m ∧
      addedAndRemoved isNum root ct (cs.map Change.text).flatten tonic mode = .ok d ∧
      ((cs.map (Change.target (isTriad ct))).Nodup → d = m) ∧
      (¬ (cs.map (Change.target (isTriad ct))).Nodup → d.length < cs.length) := by
  have hroot := root_fits hf
  obtain ⟨degree, _, e1, e2⟩ := findDegree_table mode root hroot tonic ((mem_pyRange _ _ _).2 ht)
  have hnum : ∀ c ∈ cs, 2 ≤ c.num ∧ c.num ≤ 19 := fun c hc => ⟨(hv c hc).1, (hv c hc).2.1⟩
  obtain ⟨as, a1, a2⟩ := added_texts degree root tonic mode cs hnum e2
  obtain ⟨rs, more, r1, r2⟩ := removed_texts root ct cs hv hp
  have hasc := ascending_table ct mode (by cases mode <;> decide) root hroot hf
  have hsplit : splitChanges isNum (cs.map Change.text).flatten = .ok (cs.map Change.text) :=
    split_texts isNum hn cs hnum _ (Nat.lt_succ_self _)
  have la := a2.length_eq
  have lr := r2.length_eq
  have hz : (rs ++ more).zip as = rs.zip as := by
    have : as = as ++ [] := by simp
    rw [this, List.zip_append (by omega)]
    simp
  have hfst : (rs.zip as).map (·.1) = rs := List.map_fst_zip (by omega)
  rw [← distinct_iff r2]
  refine ⟨rs.zip as, dictOf (rs.zip as), ?_, ?_, ?_, ?_⟩
  · clear hfst hz a1 r1 la lr hsplit hnum hp hv
    induction cs generalizing as rs with
    | nil =>
      cases a2; cases r2; exact .nil
    | cons c cs ih =>
      cases a2 with
      | cons x1 x2 =>
        cases r2 with
        | cons y1 y2 => exact .cons ⟨y1, x1⟩ (ih _ x2 _ y2)
  · cases hl : firstLetter root with
    | error e => rw [hl] at e1; cases e1
    | ok c =>
      rw [hl] at e1
      have e1' : findDegree c tonic mode 7 (List.range' 1 7) = .ok degree := e1
      simp only [addedAndRemoved, Bind.bind, Except.bind, hl, e1', hsplit, a1, hasc, r1, hz]
  · intro h
    have := dict_nodup (rs.zip as) [] (by simpa [hfst] using h)
    simpa [dictOf] using this
  · intro h
    have := dict_dup (rs.zip as) [] (by simp) (by simpa [hfst] using h)
    simp only [List.length_nil, Nat.zero_add, List.length_zip] at this
    rw [dictOf]
    omega

/-- C76: of several changes of the same tone, and of several additions, only one is in the result. -/
theorem C76_lost (hn : Numeric isNum) (root tonic : Int) (ct : ChordType) (mode : KeyMode)
    (cs : List Change) (hf : Fits root ct) (ht : 0 ≤ tonic ∧ tonic < 35) (hv : ∀ c ∈ cs, c.Valid ct)
    (hp : ∀ c ∈ cs.dropLast, c.mark ≠ .plus) (i j : Nat) (hij : i < j) (c c' : Change)
    (hi : cs[i]? = some c) (hj : cs[j]? = some c') (he : c.target (isTriad ct) = c'.target (isTriad ct)) :
    ∃ d, addedAndRemoved isNum root ct (cs.map Change.text).flatten tonic mode = .ok d ∧
      d.length < cs.length := by
  obtain ⟨m, d, _, hd, _, hlt⟩ := C76_mapping_partial isNum hn root tonic ct mode cs hf ht hv hp
  refine ⟨d, hd, hlt ?_⟩
  intro hnd
  obtain ⟨i1, i2⟩ := List.getElem?_eq_some_iff.1 hi
  obtain ⟨j1, j2⟩ := List.getElem?_eq_some_iff.1 hj
  refine List.pairwise_iff_getElem.1 hnd i j (by simpa using i1) (by simpa using j1) hij ?_
  simp only [List.getElem_map, i2, j2, he]

/-- The text of a change without a mark. -/
def num (n : Nat) : Change := ⟨.unmarked, 0, n⟩

/-- C76: the ninth of `I(911)` in C major is lost. -/
theorem C76_fails_additions :
    addedAndRemoved Char.isDigit 15 .major "911".toList 15 .major = .ok [(none, (true, 14))] ∧
    AddedRight 15 15 .major (num 9) (true, 17) ∧ AddedRight 15 15 .major (num 11) (true, 14) := by
  refine ⟨by decide +kernel, ?_, ?_⟩ <;> simp [AddedRight, step, num, InScale]

/-- C76: in `I(+24)`, the second is lost and the fourth does not replace the third: after a `+` the loop
appends two entries to the list of removed pitches. -/
theorem C76_fails_plus :
    addedAndRemoved Char.isDigit 15 .major "+24".toList 15 .major = .ok [(none, (false, 14))] ∧
    RemovedRight 15 .major (num 4) (some 19) ∧ AddedRight 15 15 .major (num 4) (false, 14) := by
  refine ⟨by decide +kernel, ?_, ?_⟩
  · simp only [RemovedRight]
    exact ⟨19, rfl, ⟨19, by decide, rfl⟩, by decide⟩
  · simp [AddedRight, step, num, InScale]

/-- C76: if a tone of the chord is out of range, the next one is removed in its place: here the fifth for
the third. -/
theorem C76_fails_range :
    addedAndRemoved Char.isDigit 33 .major "4".toList 15 .major = .ok [(some 34, (false, 18))] ∧
    ¬ RemovedRight 33 .major (num 4) (some 34) := by
  refine ⟨by decide +kernel, ?_⟩
  simp only [RemovedRight]
  rintro ⟨p, h, _, h2⟩
  injection h with h
  subst h
  revert h2
  decide

example : addedAndRemoved Char.isDigit 16 .majMin7 "4+b9".toList 15 .major =
    .ok [(some 20, (false, 15)), (none, (true, 11))] := by decide +kernel

example : (⟨.unmarked, 0, 4⟩ : Change).Valid .majMin7 ∧ (⟨.plus, -1, 9⟩ : Change).Valid .majMin7 ∧
    ([⟨.unmarked, 0, 4⟩, ⟨.plus, -1, 9⟩].map Change.text).flatten = "4+b9".toList := by
  refine ⟨?_, ?_, by decide⟩ <;> simp [Change.Valid, Change.replaces]

end Verif.Changes
