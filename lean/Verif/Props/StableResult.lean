import Verif.Props.Harmony
import Verif.Props.LabelledThroughout
import Verif.Props.SearchFinds

/-!
# C141: a result is stable

If the chords, the chord changes and the keys of a result are forced, `get_harmony`
(joint_model.py:505-629) gives the same result again, with the same or with other networks.
-/

set_option linter.unusedSectionVars false

namespace Verif.StableResult
open Verif State Forced SearchData Joint LabelledThroughout

/-! ## Runs -/

/-- Neighbours differ. -/
def Differ {β : Type} (xs : List β) : Prop :=
  ∀ (i : Nat) x y, xs[i]? = some x → xs[i + 1]? = some y → x ≠ y

theorem Differ.tail {β : Type} {x : β} {xs : List β} (h : Differ (x :: xs)) : Differ xs :=
  fun i a b h1 h2 => h (i + 1) a b (by simpa using h1) (by simpa using h2)

theorem run_lt {β : Type} {x : β} {xs ys : List β} {a b b' : Nat} {cs ds : List Nat} (hb : b < b')
    (hlen : cs.length = xs.length) (hp : (b :: cs).Pairwise (· < ·)) (hd : Differ (x :: xs)) (hab : a < b)
    (h : List.replicate (b - a) x ++ expandRuns xs (b :: cs) = List.replicate (b' - a) x ++ expandRuns ys (b' :: ds)) :
    False := by
  have hsplit : List.replicate (b' - a) x = List.replicate (b - a) x ++ List.replicate (b' - b) x := by
    rw [List.replicate_append_replicate]; congr 1; omega
  rw [hsplit, List.append_assoc, List.append_cancel_left_eq] at h
  cases cs with
  | nil =>
    cases xs with
    | nil =>
      simp only [expandRuns] at h
      have := congrArg List.length h
      simp at this
      omega
    | cons y xs => simp at hlen
  | cons c cs =>
    cases xs with
    | nil => simp at hlen
    | cons y xs =>
      have hbc : b < c := (List.pairwise_cons.mp hp).1 c (by simp)
      simp only [expandRuns] at h
      obtain ⟨n, hn⟩ : ∃ n, c - b = n + 1 := ⟨c - b - 1, by omega⟩
      obtain ⟨m, hm⟩ : ∃ m, b' - b = m + 1 := ⟨b' - b - 1, by omega⟩
      rw [hn, hm, List.replicate_succ, List.replicate_succ, List.cons_append, List.cons_append] at h
      injection h with h _
      exact hd 0 x y rfl rfl h.symm

/-- Maximal runs are determined by what they spell out. -/
theorem runs_unique {β : Type} (xs ys : List β) (a : Nat) (cs ds : List Nat) (h1 : cs.length = xs.length)
    (h2 : ds.length = ys.length) (hc : (a :: cs).Pairwise (· < ·)) (hd : (a :: ds).Pairwise (· < ·))
    (hx : Differ xs) (hy : Differ ys) (h : expandRuns xs (a :: cs) = expandRuns ys (a :: ds)) :
    xs = ys ∧ cs = ds := by
  induction xs generalizing ys a cs ds with
  | nil =>
    cases cs with
    | cons _ _ => simp at h1
    | nil =>
      cases ds with
      | nil =>
        cases ys with
        | nil => exact ⟨rfl, rfl⟩
        | cons _ _ => simp at h2
      | cons d ds =>
        cases ys with
        | nil => simp at h2
        | cons y ys =>
          have had : a < d := (List.pairwise_cons.mp hd).1 d (by simp)
          simp only [expandRuns] at h
          have := congrArg List.length h
          simp at this
          omega
  | cons x xs ih =>
    cases cs with
    | nil => simp at h1
    | cons c cs =>
      have hac : a < c := (List.pairwise_cons.mp hc).1 c (by simp)
      cases ds with
      | nil =>
        cases ys with
        | cons _ _ => simp at h2
        | nil =>
          simp only [expandRuns] at h
          have := congrArg List.length h
          simp at this
          omega
      | cons d ds =>
        cases ys with
        | nil => simp at h2
        | cons y ys =>
          have had : a < d := (List.pairwise_cons.mp hd).1 d (by simp)
          simp only [expandRuns] at h
          have hxy : x = y := by
            obtain ⟨n, hn⟩ : ∃ n, c - a = n + 1 := ⟨c - a - 1, by omega⟩
            obtain ⟨m, hm⟩ : ∃ m, d - a = m + 1 := ⟨d - a - 1, by omega⟩
            rw [hn, hm, List.replicate_succ, List.replicate_succ, List.cons_append, List.cons_append] at h
            injection h
          subst hxy
          have hcd : c = d := by
            rcases Nat.lt_trichotomy c d with hlt | heq | hlt
            · exact (run_lt hlt (by simpa using h1) (List.pairwise_cons.mp hc).2 hx hac h).elim
            · exact heq
            · exact (run_lt hlt (by simpa using h2) (List.pairwise_cons.mp hd).2 hy had h.symm).elim
          subst hcd
          rw [List.append_cancel_left_eq] at h
          obtain ⟨e1, e2⟩ := ih ys c cs ds (by simpa using h1) (by simpa using h2)
            (List.pairwise_cons.mp hc).2 (List.pairwise_cons.mp hd).2 hx.tail hy.tail h
          exact ⟨by rw [e1], by rw [e2]⟩

/-- The items of a dictionary of forced labels for given runs: label `x` from change `a` up to change `b`. -/
def runItems : List Int → List Nat → List ((Int × Int) × Int)
  | x :: xs, a :: b :: rest => (((a : Int), (b : Int)), x) :: runItems xs (b :: rest)
  | _, _ => []

/-- What is to be found at a position of increasing runs. -/
theorem runItems_at (xs : List Int) (cs : List Nat) (hlen : cs.length = xs.length + 1)
    (hp : cs.Pairwise (· < ·)) (i : Nat) (x : Int) (p q j : Nat) (h1 : xs[i]? = some x)
    (h2 : cs[i]? = some p) (h3 : cs[i + 1]? = some q) (h4 : p ≤ j) (h5 : j < q) :
    (runItems xs cs).find? (fun r => decide (r.1.1 ≤ (j : Int)) && decide ((j : Int) < r.1.2)) =
      some (((p : Int), (q : Int)), x) := by
  induction xs generalizing cs i with
  | nil => simp at h1
  | cons y xs ih =>
    match cs, hlen with
    | a :: b :: rest, hlen =>
      simp only [runItems]
      obtain ⟨g1, g2⟩ := List.pairwise_cons.mp hp
      cases i with
      | zero =>
        simp only [List.getElem?_cons_zero, List.getElem?_cons_succ, Option.some.injEq, Nat.zero_add] at h1 h2 h3
        subst h1; subst h2; subst h3
        rw [List.find?_cons_of_pos]
        simp only [Bool.and_eq_true, decide_eq_true_eq]
        omega
      | succ i =>
        simp only [List.getElem?_cons_succ] at h1 h2 h3
        have hbp : b ≤ p := by
          cases i with
          | zero =>
            simp only [List.getElem?_cons_zero, Option.some.injEq] at h2
            omega
          | succ i =>
            simp only [List.getElem?_cons_succ] at h2
            exact Nat.le_of_lt ((List.pairwise_cons.mp g2).1 p (List.mem_of_getElem? h2))
        rw [List.find?_cons_of_neg]
        · exact ih (b :: rest) (by simpa using hlen) g2 i h1 h2 h3
        · simp only [Bool.and_eq_true, decide_eq_true_eq]
          omega

/-- What runs spell out at a position. -/
theorem expandRuns_at {β : Type} (xs : List β) (a : Nat) (cs : List Nat) (hlen : cs.length = xs.length)
    (hp : (a :: cs).Pairwise (· < ·)) (i : Nat) (x : β) (p q j : Nat) (h1 : xs[i]? = some x)
    (h2 : (a :: cs)[i]? = some p) (h3 : (a :: cs)[i + 1]? = some q) (h4 : p ≤ j) (h5 : j < q) :
    (expandRuns xs (a :: cs))[j - a]? = some x := by
  induction xs generalizing a cs i with
  | nil => simp at h1
  | cons y xs ih =>
    match cs, hlen with
    | b :: rest, hlen =>
      simp only [expandRuns]
      obtain ⟨g1, g2⟩ := List.pairwise_cons.mp hp
      have hab := g1 b (by simp)
      cases i with
      | zero =>
        simp only [List.getElem?_cons_zero, List.getElem?_cons_succ, Option.some.injEq, Nat.zero_add] at h1 h2 h3
        subst h1; subst h2; subst h3
        rw [List.getElem?_append_left (by simp; omega), List.getElem?_replicate, if_pos (by omega)]
      | succ i =>
        simp only [List.getElem?_cons_succ] at h1
        rw [List.getElem?_cons_succ] at h2 h3
        have hbp : b ≤ p := by
          cases i with
          | zero =>
            simp only [List.getElem?_cons_zero, Option.some.injEq] at h2
            omega
          | succ i =>
            simp only [List.getElem?_cons_succ] at h2
            exact Nat.le_of_lt ((List.pairwise_cons.mp g2).1 p (List.mem_of_getElem? h2))
        rw [List.getElem?_append_right (by simp; omega), List.length_replicate,
          show j - a - (b - a) = j - b by omega]
        exact ih b rest (by simpa using hlen) g2 i h1 h2 h3

theorem expandRuns_length {β : Type} (xs : List β) (a : Nat) (cs : List Nat) (n : Nat) (hlen : cs.length = xs.length)
    (hp : (a :: cs).Pairwise (· < ·)) (hl : (a :: cs).getLast? = some n) :
    (expandRuns xs (a :: cs)).length = n - a ∧ a ≤ n := by
  induction xs generalizing a cs with
  | nil =>
    cases cs with
    | cons _ _ => simp at hlen
    | nil =>
      simp only [List.getLast?_singleton, Option.some.injEq] at hl
      simp [expandRuns, hl]
  | cons x xs ih =>
    match cs, hlen with
    | b :: rest, hlen =>
      obtain ⟨g1, g2⟩ := List.pairwise_cons.mp hp
      have hab := g1 b (by simp)
      rw [List.getLast?_cons_cons] at hl
      obtain ⟨i1, i2⟩ := ih b rest (by simpa using hlen) g2 hl
      simp only [expandRuns, List.length_append, List.length_replicate, i1]
      omega

/-- The run that a position is in. -/
theorem locate (cs : List Nat) (a n : Nat) (hp : (a :: cs).Pairwise (· < ·)) (hl : (a :: cs).getLast? = some n)
    (j : Nat) (h1 : a ≤ j) (h2 : j < n) :
    ∃ i p q : Nat, (a :: cs)[i]? = some p ∧ (a :: cs)[i + 1]? = some q ∧ p ≤ j ∧ j < q := by
  induction cs generalizing a with
  | nil =>
    simp only [List.getLast?_singleton, Option.some.injEq] at hl
    omega
  | cons b cs ih =>
    by_cases hj : j < b
    · exact ⟨0, a, b, rfl, rfl, h1, hj⟩
    · rw [List.getLast?_cons_cons] at hl
      obtain ⟨i, p, q, e1, e2, e3, e4⟩ := ih b (List.pairwise_cons.mp hp).2 hl (by omega)
      exact ⟨i + 1, p, q, by simpa using e1, by simpa using e2, e3, e4⟩

section
variable {π κ δ ρ H P τ : Type} [LinearOrder π] [Zero π] [One π] [Add κ] [Sub κ] [Zero κ] [DecidableEq κ]
  [DecidableEq H] [DecidableEq P] [AddCommMonoid δ] [LinearOrder δ] [LE τ] [LT τ] [DecidableLE τ]
  [DecidableLT τ]

/-- The chords of a result, and the changes of them inside of a piece of `n` notes, as forced ones. -/
def forcedChordsOf (n : Nat) (s : State κ H P) (maxId : Int) : ForcedType :=
  ⟨((getChords s).2.filter (fun i => decide (0 < i ∧ i < n))).map (fun i : Nat => (i : Int)), [],
    runItems ((getChords s).1.map (·.getD (-1))) (getChords s).2, maxId⟩

/-- The keys of a result as forced ones. -/
def forcedKeysOf (s : State κ H P) (maxId : Int) : ForcedType :=
  ⟨[], [], runItems (getKeys s).1 (getKeys s).2, maxId⟩

theorem runItems_nonneg (xs : List Int) (cs : List Nat) :
    ∀ r ∈ runItems xs cs, 0 ≤ r.1.1 ∧ 0 ≤ r.1.2 := by
  induction xs generalizing cs with
  | nil => simp [runItems]
  | cons x xs ih =>
    match cs with
    | [] => simp [runItems]
    | [_] => simp [runItems]
    | a :: b :: rest =>
      intro r hr
      simp only [runItems, List.mem_cons] at hr
      rcases hr with rfl | hr
      · exact ⟨by simp, by simp⟩
      · exact ih _ r hr

theorem forcedChordsOf_nonneg (n : Nat) (s : State κ H P) (maxId : Int) : NonNeg (forcedChordsOf n s maxId) := by
  refine ⟨?_, by simp [forcedChordsOf], runItems_nonneg _ _⟩
  intro c hc
  simp only [forcedChordsOf, List.mem_map] at hc
  obtain ⟨i, -, rfl⟩ := hc
  omega

theorem forcedKeysOf_nonneg (s : State κ H P) (maxId : Int) : NonNeg (forcedKeysOf s maxId) :=
  ⟨by simp [forcedKeysOf], by simp [forcedKeysOf], runItems_nonneg _ _⟩

/-- What is used of a result. -/
structure Tiles (n : Nat) (s : State κ H P) : Prop where
  len : (getChords s).2.length = (getChords s).1.length + 1
  head : (getChords s).2.head? = some 0
  incr : (getChords s).2.Pairwise (· < ·)
  last : (getChords s).2.getLast? = some n
  known : ∀ c ∈ (getChords s).1, c.isSome
  differ : Differ (getChords s).1
  klen : (getKeys s).2.length = (getKeys s).1.length + 1
  khead : (getKeys s).2.head? = some 0
  kincr : (getKeys s).2.Pairwise (· < ·)
  klast : (getKeys s).2.getLast? = some n
  kdiffer : Differ (getKeys s).1
  count : (chordKeys s).length = (getChords s).1.length
  keys : expandRuns (getKeys s).1 (getKeys s).2 = expandRuns (chordKeys s) (getChords s).2

theorem tiles {m : Joint π κ δ ρ H P} (hm : m.WF) {n : Nat} {dur : List δ} {chord key : ForcedType}
    {s : State κ H P} {rows : List (Nat × RangeData κ)} {cids kids : List Int}
    (h : Run m n dur chord key (some s) rows cids kids) : Tiles n s := by
  have hd := h.ok hm
  obtain ⟨t1, t2, t3, t4, t5⟩ := C47_tiles hd s h.search
  obtain ⟨k1, k2, k3, k4, k5⟩ := C47_keys hd s h.search
  obtain ⟨⟨⟨g, hg⟩, -⟩, -⟩ := search_ok hd h.search
  obtain ⟨r1, r2, -, -, -, -⟩ := C21_runs _ _ g _ hd.hash s hg
  refine ⟨t1, t2, t3, t4, t5, ?_, r1, k3, t3.sublist k2, k4, fun i a b => r2 i a b, k1, k5⟩
  intro i x y h1 h2
  obtain ⟨hlt, -⟩ := List.getElem?_eq_some_iff.1 h2
  have e1 : (getChords s).2[i]? = some ((getChords s).2[i]'(by omega)) := List.getElem?_eq_getElem _
  have e2 : (getChords s).2[i + 1]? = some ((getChords s).2[i + 1]'(by omega)) := List.getElem?_eq_getElem _
  obtain ⟨c, _, hc1, -, -, -, -, hne⟩ := h.seg hm i _ _ e1 e2
  rw [h1] at hc1
  injection hc1 with hc1
  exact fun he => hne y h2 (he ▸ hc1)

theorem cons_of_head {l : List Nat} (h : l.head? = some 0) : ∃ cs, l = 0 :: cs := by
  cases l with
  | nil => cases h
  | cons x cs =>
    simp only [List.head?_cons, Option.some.injEq] at h
    exact ⟨cs, by rw [h]⟩

/-- The forced chord at a note is the chord of the result there. -/
theorem chordLabel {n : Nat} {s : State κ H P} (ht : Tiles n s) (maxId : Int) (i : Nat) (x : Option Int) (p q j : Nat)
    (h1 : (getChords s).1[i]? = some x) (h2 : (getChords s).2[i]? = some p) (h3 : (getChords s).2[i + 1]? = some q)
    (h4 : p ≤ j) (h5 : j < q) : labelAt (forcedChordsOf n s maxId) j = x := by
  have := runItems_at ((getChords s).1.map (·.getD (-1))) (getChords s).2 (by simpa using ht.len) ht.incr i
    (x.getD (-1)) p q j (by rw [List.getElem?_map, h1]; rfl) h2 h3 h4 h5
  simp only [labelAt, forcedChordsOf, this, Option.map_some]
  have hs := ht.known x (List.mem_of_getElem? h1)
  cases x with
  | none => cases hs
  | some x => rfl

/-- The forced key at a note is the key of the result there. -/
theorem keyLabel {n : Nat} {s : State κ H P} (ht : Tiles n s) (maxId : Int) (j : Nat) (hj : j < n) :
    labelAt (forcedKeysOf s maxId) j = (expandRuns (getKeys s).1 (getKeys s).2)[j]? := by
  obtain ⟨cs, hcs⟩ := cons_of_head ht.khead
  have hin := ht.kincr
  have hla := ht.klast
  rw [hcs] at hin hla
  obtain ⟨i, p, q, e1, e2, e3, e4⟩ := locate cs 0 n hin hla j (Nat.zero_le _) hj
  have hi : i < (getKeys s).1.length := by
    obtain ⟨hlt, -⟩ := List.getElem?_eq_some_iff.1 e2
    have := ht.klen
    rw [hcs] at this
    omega
  have hx : (getKeys s).1[i]? = some (getKeys s).1[i] := List.getElem?_eq_getElem hi
  have h1 := runItems_at (getKeys s).1 (getKeys s).2 ht.klen ht.kincr i _ p q j hx (by rw [hcs]; exact e1)
    (by rw [hcs]; exact e2) e3 e4
  have h2 := expandRuns_at (getKeys s).1 0 cs (by have := ht.klen; rw [hcs] at this; simpa using this) hin i _ p q j
    hx e1 e2 e3 e4
  rw [hcs, ← Nat.sub_zero j, h2, Nat.sub_zero]
  simp only [labelAt, forcedKeysOf, h1, Option.map_some]

/-- The forced key at a note is the one of the chord there. -/
theorem keyAt {n : Nat} {s : State κ H P} (ht : Tiles n s) (maxId : Int) (i : Nat) (k : Int) (p q j : Nat)
    (e1 : (chordKeys s)[i]? = some k) (e2 : (getChords s).2[i]? = some p) (e3 : (getChords s).2[i + 1]? = some q)
    (e4 : p ≤ j) (e5 : j < q) (e6 : j < n) : labelAt (forcedKeysOf s maxId) j = some k := by
  obtain ⟨cs, hcs⟩ := cons_of_head ht.head
  have hin := ht.incr
  have hle := ht.len
  rw [hcs] at hin hle
  have h2 := expandRuns_at (chordKeys s) 0 cs (by have := ht.count; simp at hle; omega) hin i k p q j e1
    (by rw [← hcs]; exact e2) (by rw [← hcs]; exact e3) e4 e5
  rw [keyLabel ht maxId j e6, ht.keys, hcs]
  exact h2

/-- C141: if the chords, the chord changes and the keys of a result are forced, then every result is that
one, also with other networks and settings. -/
theorem C141_same (m m' : Joint π κ δ ρ H P) (hm : m.WF) (hm' : m'.WF) (notes : List (τ × τ)) (dur : List δ)
    (hlen : dur.length = notes.length) (chord key : ForcedType) (hc : NonNeg chord) (hk : NonNeg key)
    (s : State κ H P) (h : m.getHarmony notes dur chord key = .ok (some s)) (chordMax keyMax : Int)
    (s' : State κ H P) (h' : m'.getHarmony notes dur (forcedChordsOf notes.length s chordMax)
      (forcedKeysOf s keyMax) = .ok (some s')) :
    getChords s' = getChords s ∧ getKeys s' = getKeys s := by
  obtain ⟨rows, cids, kids, hr⟩ := run m hm hc hk h
  have hcn := forcedChordsOf_nonneg notes.length s chordMax
  have hkn := forcedKeysOf_nonneg s keyMax
  obtain ⟨rows', cids', kids', hr'⟩ := run m' hm' hcn hkn h'
  have ht := tiles hm hr
  have ht' := tiles hm' hr'
  obtain ⟨-, -, -, -, -, hons⟩ := C100_onsets m hm notes dur hlen chord key hc hk s h
  obtain ⟨cs, hcs⟩ := cons_of_head ht.head
  obtain ⟨cs', hcs'⟩ := cons_of_head ht'.head
  have hin := ht.incr
  have hla := ht.last
  have hle := ht.len
  rw [hcs] at hin hla hle
  have hin' := ht'.incr
  have hla' := ht'.last
  have hle' := ht'.len
  rw [hcs'] at hin' hla' hle'
  -- the segment of a note
  have seg : ∀ j, j < notes.length → ∃ (i p q : Nat) (x : Option Int), (getChords s).1[i]? = some x ∧
      (getChords s).2[i]? = some p ∧ (getChords s).2[i + 1]? = some q ∧ p ≤ j ∧ j < q := by
    intro j hj
    obtain ⟨i, p, q, e1, e2, e3, e4⟩ := locate cs 0 _ hin hla j (Nat.zero_le _) hj
    have hi : i < (getChords s).1.length := by
      obtain ⟨hlt, -⟩ := List.getElem?_eq_some_iff.1 e2
      omega
    exact ⟨i, p, q, _, List.getElem?_eq_getElem hi, by rw [hcs]; exact e1, by rw [hcs]; exact e2, e3, e4⟩
  -- notes of one segment
  have next : ∀ j, j + 1 < notes.length → j + 1 ∈ (getChords s).2 ∨
      labelAt (forcedChordsOf notes.length s chordMax) j =
        labelAt (forcedChordsOf notes.length s chordMax) (j + 1) := by
    intro j hj
    obtain ⟨i, p, q, x, e1, e2, e3, e4, e5⟩ := seg j (by omega)
    by_cases hq : j + 1 < q
    · right
      rw [chordLabel ht chordMax i x p q j e1 e2 e3 e4 e5,
        chordLabel ht chordMax i x p q (j + 1) e1 e2 e3 (by omega) hq]
    · left
      have : j + 1 = q := by omega
      rw [this]
      exact List.mem_of_getElem? e3
  have hal : Aligned dur (forcedChordsOf notes.length s chordMax) := by
    intro j hj h0
    rcases next j (by omega) with h1 | h1
    · exact absurd h0 (hons (j + 1) h1 (by omega) (by omega))
    · exact h1
  have hlast : LastOnset dur (forcedChordsOf notes.length s chordMax) := by
    intro g g0 g1 g2 g3
    rcases next (g - 1) (by omega) with h1 | h1
    · left
      rw [show g - 1 + 1 = g by omega] at h1
      simp only [forcedChordsOf, List.mem_map, List.mem_filter, decide_eq_true_eq]
      exact ⟨g, ⟨h1, g0, by omega⟩, rfl⟩
    · right; left
      rw [h1, show g - 1 + 1 = g by omega]
      have : ∀ k, g ≤ k → k < dur.length → labelAt (forcedChordsOf notes.length s chordMax) g =
          labelAt (forcedChordsOf notes.length s chordMax) k := by
        intro k
        induction k with
        | zero => intro k1 _; rw [Nat.le_zero.mp k1]
        | succ k ih =>
          intro k1 k2
          rcases Nat.lt_or_eq_of_le k1 with k3 | k3
          · rw [ih (by omega) (by omega)]
            exact hal k k2 (g3 k (by omega) k2)
          · rw [k3]
      exact this _ (by omega) (by omega)
  obtain ⟨first, -⟩ := C100_chords_partial m' hm' notes dur hlen _ _ hcn hkn hal hlast s' h'
  have same' : ∀ (i : Nat) x p q, (getChords s').1[i]? = some x → (getChords s').2[i]? = some p →
      (getChords s').2[i + 1]? = some q → ∀ j, p ≤ j → j < q →
      labelAt (forcedChordsOf notes.length s chordMax) j = x := by
    intro i x p q e1 e2 e3 j e4 e5
    have hq : q ≤ notes.length := by
      have hm := List.mem_of_getElem? e3
      rw [hcs'] at hm
      have hl := hla'
      obtain ⟨ys, hys⟩ := List.getLast?_eq_some_iff.mp hl
      rw [hys] at hm hin'
      rcases List.mem_append.mp hm with hm | hm
      · exact Nat.le_of_lt ((List.pairwise_append.mp hin').2.2 q hm _ (by simp))
      · simp at hm; omega
    obtain ⟨i0, p0, q0, x0, f1, f2, f3, f4, f5⟩ := seg j (by omega)
    have hlab := chordLabel ht chordMax i0 x0 p0 q0 j f1 f2 f3 f4 f5
    have hsome := ht.known x0 (List.mem_of_getElem? f1)
    cases x0 with
    | none => cases hsome
    | some f =>
      have := first i p q j f e2 e3 e4 e5 hlab
      rw [e1] at this
      injection this with this
      rw [this, hlab]
  have hchords : getChords s' = getChords s := by
    have x1 := expandRuns_eq (fun j => labelAt (forcedChordsOf notes.length s chordMax) j) (getChords s).1 0 cs _
      (by simpa using hle) hin hla (by
        intro i x p q e1 e2 e3 j e4 e5
        exact chordLabel ht chordMax i x p q j e1 (by rw [hcs]; exact e2) (by rw [hcs]; exact e3) e4 e5)
    have x2 := expandRuns_eq (fun j => labelAt (forcedChordsOf notes.length s chordMax) j) (getChords s').1 0 cs' _
      (by simpa using hle') hin' hla' (by
        intro i x p q e1 e2 e3 j e4 e5
        exact same' i x p q e1 (by rw [hcs']; exact e2) (by rw [hcs']; exact e3) j e4 e5)
    obtain ⟨e1, e2⟩ := runs_unique (getChords s').1 (getChords s).1 0 cs' cs (by simpa using hle')
      (by simpa using hle) hin' hin ht'.differ ht.differ (x2.trans x1.symm)
    apply Prod.ext e1
    rw [hcs', hcs, e2]
  refine ⟨hchords, ?_⟩
  -- the keys
  have hkeyAt : ∀ (i : Nat) k p q, (chordKeys s)[i]? = some k → (getChords s).2[i]? = some p →
      (getChords s).2[i + 1]? = some q → ∀ j, p ≤ j → j < q → j < notes.length →
      labelAt (forcedKeysOf s keyMax) j = some k :=
    fun i k p q e1 e2 e3 j e4 e5 e6 => keyAt ht keyMax i k p q j e1 e2 e3 e4 e5 e6
  have hkeys : chordKeys s' = chordKeys s := by
    have hl1 := ht.count
    have hl2 := ht'.count
    rw [hchords] at hl2
    apply List.ext_getElem?
    intro i
    by_cases hi : i < (chordKeys s).length
    · have hx : (chordKeys s)[i]? = some (chordKeys s)[i] := List.getElem?_eq_getElem hi
      have hle2 := ht.len
      have e1 : (getChords s).2[i]? = some ((getChords s).2[i]'(by omega)) := List.getElem?_eq_getElem _
      have e2 : (getChords s).2[i + 1]? = some ((getChords s).2[i + 1]'(by omega)) := List.getElem?_eq_getElem _
      have hlt : (getChords s).2[i]'(by omega) < (getChords s).2[i + 1]'(by omega) :=
        List.pairwise_iff_getElem.mp ht.incr i (i + 1) (by omega) (by omega) (by omega)
      have hb : ∀ q ∈ (getChords s).2, q ≤ notes.length := by
        intro q hq
        rw [hcs] at hq
        obtain ⟨ys, hys⟩ := List.getLast?_eq_some_iff.mp hla
        rw [hys] at hq hin
        rcases List.mem_append.mp hq with hq | hq
        · exact Nat.le_of_lt ((List.pairwise_append.mp hin).2.2 q hq _ (by simp))
        · simp at hq; omega
      have hble := hb _ (List.mem_of_getElem? e2)
      rw [hx]
      refine C101_keys_partial m' hm' notes dur hlen _ _ hcn hkn s' h' i _ _ _ _ (by rw [hchords]; exact e1)
        (by rw [hchords]; exact e2) (Nat.le_refl _) hlt (hkeyAt i _ _ _ hx e1 e2 _ (Nat.le_refl _) hlt (by omega)) ?_
      intro k g k1 k2 k3
      rw [hkeyAt i _ _ _ hx e1 e2 k k1 k2 (by omega)] at k3
      injection k3 with k3
      exact k3.symm
    · rw [List.getElem?_eq_none (by omega), List.getElem?_eq_none (by omega)]
  have hk1 := ht.keys
  have hk2 := ht'.keys
  rw [hkeys, hchords, ← hk1] at hk2
  obtain ⟨ks, hks⟩ := cons_of_head ht.khead
  obtain ⟨ks', hks'⟩ := cons_of_head ht'.khead
  have a1 := ht.klen
  have a2 := ht.kincr
  have b1 := ht'.klen
  have b2 := ht'.kincr
  rw [hks] at a1 a2
  rw [hks'] at b1 b2
  rw [hks, hks'] at hk2
  obtain ⟨e1, e2⟩ := runs_unique (getKeys s').1 (getKeys s).1 0 ks' ks (by simpa using b1)
    (by simpa using a1) b2 a2 ht'.kdiffer ht.kdiffer hk2
  apply Prod.ext e1
  rw [hks', hks, e2]

/-! ## Forcing a result is accepted, and leads to the end -/

theorem mapPy_total {α β : Type} {f : α → Py β} {l : List α} (h : ∀ a ∈ l, ∃ b, f a = .ok b) :
    ∃ out, mapPy f l = .ok out := by
  induction l with
  | nil => exact ⟨_, rfl⟩
  | cons a l ih =>
    obtain ⟨b, hb⟩ := h a (by simp)
    obtain ⟨bs, hbs⟩ := ih (fun a ha => h a (by simp [ha]))
    exact ⟨b :: bs, by simp only [mapPy, hb, hbs]⟩

theorem runItems_mem (xs : List Int) (cs : List Nat) (r : (Int × Int) × Int) (h : r ∈ runItems xs cs) :
    ∃ (i : Nat) (x : Int) (p q : Nat), xs[i]? = some x ∧ cs[i]? = some p ∧ cs[i + 1]? = some q ∧
      r = (((p : Int), (q : Int)), x) := by
  induction xs generalizing cs with
  | nil => simp [runItems] at h
  | cons x xs ih =>
    match cs, h with
    | [], h => simp [runItems] at h
    | [_], h => simp [runItems] at h
    | a :: b :: rest, h =>
      simp only [runItems, List.mem_cons] at h
      rcases h with rfl | h
      · exact ⟨0, x, a, b, rfl, rfl, rfl, rfl⟩
      · obtain ⟨i, y, p, q, h1, h2, h3, h4⟩ := ih _ h
        exact ⟨i + 1, y, p, q, by simpa using h1, by simpa using h2, by simpa using h3, h4⟩

theorem runItems_unique (xs : List Int) (cs : List Nat) (hlen : cs.length = xs.length + 1)
    (hp : cs.Pairwise (· < ·)) (r q : (Int × Int) × Int) (hr : r ∈ runItems xs cs) (hq : q ∈ runItems xs cs)
    (i : Nat) (h1 : r.1.1 ≤ (i : Int) ∧ (i : Int) < r.1.2) (h2 : q.1.1 ≤ (i : Int) ∧ (i : Int) < q.1.2) : r.2 = q.2 := by
  obtain ⟨i1, x1, p1, q1, a1, a2, a3, rfl⟩ := runItems_mem xs cs r hr
  obtain ⟨i2, x2, p2, q2, b1, b2, b3, rfl⟩ := runItems_mem xs cs q hq
  simp only at h1 h2
  have e1 := runItems_at xs cs hlen hp i1 x1 p1 q1 i a1 a2 a3 (by omega) (by omega)
  have e2 := runItems_at xs cs hlen hp i2 x2 p2 q2 i b1 b2 b3 (by omega) (by omega)
  rw [e1] at e2
  injection e2 with e2
  rw [e2]

/-- From `x` to `y` over ranges from starts. -/
inductive Chain (A : RangeInput π κ δ) : Nat → Nat → Prop
  | refl (x : Nat) : Chain A x x
  | snoc {x y z : Nat} : Chain A x y → A.Start y → A.Seg y z → Chain A x z

theorem Chain.trans {A : RangeInput π κ δ} {x y z : Nat} (h1 : Chain A x y) (h2 : Chain A y z) : Chain A x z := by
  induction h2 with
  | refl => exact h1
  | snoc _ hs hg ih => exact .snoc ih hs hg

theorem Chain.start {A : RangeInput π κ δ} {x y : Nat} (h : Chain A x y) (hx : A.Start x) (hy : y < A.n) :
    A.Start y := by
  cases h with
  | refl => exact hx
  | snoc _ hs hg => exact .next _ _ hs hg hy

theorem Chain.leads {κ' : Type} [Add κ'] [Sub κ'] [Zero κ'] [DecidableEq κ'] {A : RangeInput π κ' δ} {d : SearchData κ ρ H P}
    (hrow : ∀ a e, A.Start a → A.Seg a e → ∃ r, (a, r) ∈ d.ranges ∧ r.stop = e) {x y : Nat} (h : Chain A x y)
    (hy : SearchFinds.Leads d y) : SearchFinds.Leads d x := by
  induction h with
  | refl => exact hy
  | snoc _ hs hg ih =>
    obtain ⟨r, hr, rfl⟩ := hrow _ _ hs hg
    exact ih (.step _ r hr hy)

theorem Covered.lt {d : SearchData κ ρ H P} (hd : ∀ a r, (a, r) ∈ d.ranges → a < r.stop) {c : Int} {a b : Nat}
    (h : Covered d c a b) : a < b := by
  induction h with
  | one hr _ => exact hd _ _ hr
  | more _ hr _ ih => exact Nat.lt_trans ih (hd _ _ hr)

theorem Covered.chain {κ' : Type} [Add κ'] [Sub κ'] [Zero κ'] [DecidableEq κ'] {d : SearchData κ ρ H P} (hd : ∀ a r, (a, r) ∈ d.ranges → a < r.stop) {c : Int} {a b : Nat}
    {A : RangeInput π κ' δ} (h : Covered d c a b) (hb : b ≤ A.n)
    (hseg : ∀ a' r, (a', r) ∈ d.ranges → a ≤ a' → r.stop ≤ b → A.Seg a' r.stop) (ha : A.Start a) : Chain A a b := by
  induction h with
  | one hr _ => exact .snoc (.refl _) ha (hseg _ _ hr (Nat.le_refl _) (Nat.le_refl _))
  | @more b r hc hr _ ih =>
    have hlt := hd _ _ hr
    have hab := Covered.lt hd hc
    have hch := ih (by omega) (fun a' r' h1 h2 h3 => hseg a' r' h1 h2 (by omega))
    exact .snoc hch (hch.start ha (by omega)) (hseg _ _ hr (by omega) (Nat.le_refl _))

/-- C141: forcing a result of a run without forced changes is accepted, and the ranges that the search is given
lead from the beginning of the piece to its end. -/
theorem C141_accepted (m : Joint π κ δ ρ H P) (hm : m.WF) (notes : List (τ × τ)) (dur : List δ)
    (hlen : dur.length = notes.length) (chord key : ForcedType) (hc : NonNeg chord) (hk : NonNeg key)
    (hch : chord.changes = []) (hnc : chord.nonChanges = [])
    (s : State κ H P) (h : m.getHarmony notes dur chord key = .ok (some s)) (chordMax keyMax : Int)
    (hcid : ∀ c, some c ∈ (getChords s).1 → 0 ≤ c ∧ c < chordMax)
    (hkid : ∀ k ∈ (getKeys s).1, 0 ≤ k ∧ k < keyMax) :
    ∃ rows cids kids, m.getHarmony notes dur (forcedChordsOf notes.length s chordMax) (forcedKeysOf s keyMax) =
        (m.searchData notes.length rows cids kids).search ∧
      SearchFinds.Leads (m.searchData notes.length rows cids kids) 0 ∧
      (cids = ((expandRuns (getChords s).1 (getChords s).2).map (·.getD (-1))) ∧
        kids = expandRuns (getKeys s).1 (getKeys s).2) := by
  obtain ⟨rows, cids, kids, hr⟩ := run m hm hc hk h
  have ht := tiles hm hr
  have hpos := hr.pos
  have hcn := forcedChordsOf_nonneg notes.length s chordMax
  have hkn := forcedKeysOf_nonneg s keyMax
  obtain ⟨-, -, -, -, -, hons⟩ := C100_onsets m hm notes dur hlen chord key hc hk s h
  obtain ⟨cs, hcs⟩ := cons_of_head ht.head
  have hmem : ∀ c ∈ (forcedChordsOf notes.length s chordMax).changes,
      ∃ i : Nat, c = i ∧ i ∈ (getChords s).2 ∧ 0 < i ∧ i < notes.length := by
    intro c hc
    simp only [forcedChordsOf, List.mem_map, List.mem_filter, decide_eq_true_eq] at hc
    obtain ⟨i, ⟨h1, h2, h3⟩, rfl⟩ := hc
    exact ⟨i, rfl, h1, h2, h3⟩
  have hchordOK : TypeOK dur (forcedChordsOf notes.length s chordMax) := by
    refine ⟨?_, by simp [forcedChordsOf], by simp [forcedChordsOf], ?_, ?_, ?_, ?_, by simp [forcedChordsOf],
      by simp [forcedChordsOf]⟩
    · intro c hc _
      obtain ⟨i, rfl, h1, h2, h3⟩ := hmem c hc
      omega
    · intro c hc _
      obtain ⟨i, rfl, h1, h2, h3⟩ := hmem c hc
      have := hons i h1 h2 h3
      rwa [show ((i : Int) - 1).toNat = i - 1 by omega]
    · intro r hr
      obtain ⟨i, x, p, q, h1, -, -, rfl⟩ := runItems_mem _ _ r hr
      rw [List.getElem?_map] at h1
      cases hx : (getChords s).1[i]? with
      | none => rw [hx] at h1; cases h1
      | some o =>
        rw [hx] at h1
        simp only [Option.map_some, Option.some.injEq] at h1
        have hs := ht.known o (List.mem_of_getElem? hx)
        cases o with
        | none => cases hs
        | some c =>
          simp only [Option.getD_some] at h1
          subst h1
          exact hcid c (List.mem_of_getElem? hx)
    · intro r hr q hq i _ h1 h2
      exact runItems_unique _ _ (by simpa using ht.len) ht.incr r q hr hq i h1 h2
    · intro c hc _ l ⟨h1, h2⟩
      obtain ⟨i, rfl, g1, g2, g3⟩ := hmem c hc
      rw [show ((i : Int) - 1).toNat = i - 1 by omega] at h1
      rw [show ((i : Int)).toNat = i by omega] at h2
      obtain ⟨k, hk⟩ := List.mem_iff_getElem?.1 g1
      have hle := ht.len
      have hin := ht.incr
      obtain ⟨hlt, hki⟩ := List.getElem?_eq_some_iff.1 hk
      cases k with
      | zero =>
        rw [hcs] at hk
        simp at hk
        omega
      | succ k =>
        have hkl : k + 1 < (getChords s).1.length := by
          have hlast := ht.last
          rw [List.getLast?_eq_getElem?] at hlast
          by_contra hn
          have : k + 1 = (getChords s).2.length - 1 := by omega
          rw [this, hlast] at hk
          injection hk with hk
          omega
        have e0 : (getChords s).2[k]? = some ((getChords s).2[k]'(by omega)) := List.getElem?_eq_getElem _
        have e2 : (getChords s).2[k + 1 + 1]? = some ((getChords s).2[k + 1 + 1]'(by omega)) :=
          List.getElem?_eq_getElem _
        have l1 : (getChords s).2[k]'(by omega) < (getChords s).2[k + 1]'(by omega) :=
          List.pairwise_iff_getElem.mp hin k (k + 1) (by omega) (by omega) (by omega)
        have l2 : (getChords s).2[k + 1]'(by omega) < (getChords s).2[k + 1 + 1]'(by omega) :=
          List.pairwise_iff_getElem.mp hin (k + 1) (k + 1 + 1) (by omega) (by omega) (by omega)
        have x1 : (getChords s).1[k]? = some ((getChords s).1[k]'(by omega)) := List.getElem?_eq_getElem _
        have x2 : (getChords s).1[k + 1]? = some ((getChords s).1[k + 1]'(by omega)) := List.getElem?_eq_getElem _
        rw [chordLabel ht chordMax k _ _ i (i - 1) x1 e0 hk (by omega) (by omega)] at h1
        rw [chordLabel ht chordMax (k + 1) _ i _ i x2 hk e2 (by omega) (by omega)] at h2
        exact ht.differ k _ _ x1 x2 (h1.trans h2.symm)
  have hkeyOK : TypeOK dur (forcedKeysOf s keyMax) := by
    refine ⟨by simp [forcedKeysOf], by simp [forcedKeysOf], by simp [forcedKeysOf], by simp [forcedKeysOf], ?_, ?_,
      by simp [forcedKeysOf], by simp [forcedKeysOf], by simp [forcedKeysOf]⟩
    · intro r hr
      obtain ⟨i, x, p, q, h1, -, -, rfl⟩ := runItems_mem _ _ r hr
      exact hkid x (List.mem_of_getElem? h1)
    · intro r hr q hq i _ h1 h2
      exact runItems_unique _ _ ht.klen ht.kincr r q hr hq i h1 h2
  have hcross : CrossOK dur.length (forcedChordsOf notes.length s chordMax) (forcedKeysOf s keyMax) :=
    ⟨by simp [forcedKeysOf], by simp [forcedKeysOf], by simp [forcedChordsOf], by simp [forcedChordsOf]⟩
  have hval := (C30_accepts_partial dur _ _ hcn hkn _ _).2 ⟨hchordOK, hkeyOK, hcross, rfl, rfl⟩
  obtain ⟨changes, hchs⟩ : ∃ out, mapPy (arrayIndex dur.length)
      (dropZero (forcedChordsOf notes.length s chordMax).changes) = .ok out := by
    apply mapPy_total
    intro c hc
    obtain ⟨i, rfl, h1, h2, h3⟩ := hmem c (List.mem_filter.1 hc).1
    exact ⟨_, by rw [arrayIndex, if_pos (by omega), if_pos (by omega)]⟩
  have hmc : ∀ i : Nat, i ∈ changes ↔ i ∈ (getChords s).2 ∧ 0 < i ∧ i < notes.length := by
    intro i
    rw [mapPy_mem hchs]
    constructor
    · rintro ⟨c, hc, he⟩
      obtain ⟨j, rfl, h1, h2, h3⟩ := hmem c (List.mem_filter.1 hc).1
      rw [arrayIndex, if_pos (by omega), if_pos (by omega)] at he
      injection he with he
      have : j = i := by omega
      rw [← this]; exact ⟨h1, h2, h3⟩
    · rintro ⟨h1, h2, h3⟩
      refine ⟨i, ?_, by rw [arrayIndex, if_pos (by omega), if_pos (by omega)]; rfl⟩
      simp only [dropZero, forcedChordsOf, List.mem_filter, List.mem_map, decide_eq_true_eq]
      exact ⟨⟨i, ⟨h1, h2, h3⟩, rfl⟩, by simp; omega⟩
  generalize hci : (List.range dur.length).map
    (fun i => (labelAt (forcedChordsOf notes.length s chordMax) i).getD (-1)) = cids' at hval
  generalize hki : (List.range dur.length).map
    (fun i => (labelAt (forcedKeysOf s keyMax) i).getD (-1)) = kids' at hval
  obtain ⟨⟨rs, rj⟩, hrs⟩ : ∃ x, (m.rangeInput dur cids' kids' changes []).getChordRanges = .ok x := by
    unfold RangeInput.getChordRanges
    rw [if_neg (show ¬ (m.rangeInput dur cids' kids' changes []).n = 0 by show ¬ dur.length = 0; omega)]
    exact ⟨_, rfl⟩
  obtain ⟨⟨rj', hf⟩, hrj⟩ := RangeInput.getChordRanges_forget _ hrs
  have hexact := RangeInput.C26_exact _ hm.order _ _ hf
  obtain ⟨rows', hrows'⟩ : ∃ out, mapPy (m.rangeRow notes) (rs.zip rj) = .ok out := by
    apply mapPy_total
    rintro ⟨⟨a, e, lp⟩, q⟩ hx
    have hmem' : (a, e, ()) ∈ rs.map fun r => (r.1, r.2.1, ()) := List.mem_map.2 ⟨_, (List.of_mem_zip hx).1, rfl⟩
    have hseg := ((hexact a e ()).1 hmem').2.1
    have h1 := hseg.lt
    have h2 : e ≤ dur.length := hseg.le
    obtain ⟨nt, hnt⟩ : ∃ nt, notes[a]? = some nt := ⟨_, List.getElem?_eq_getElem (by omega)⟩
    have := pyGet_ofNat notes a nt hnt
    simp only [rangeRow, this, Bind.bind, Except.bind]
    exact ⟨_, rfl⟩
  have hcids : cids' = (expandRuns (getChords s).1 (getChords s).2).map (·.getD (-1)) := by
    have hin := ht.incr
    have hla := ht.last
    have hle := ht.len
    rw [hcs] at hin hla hle
    have x1 := expandRuns_eq (fun j => labelAt (forcedChordsOf notes.length s chordMax) j) (getChords s).1 0 cs _
      (by simpa using hle) hin hla (by
        intro i x p q e1 e2 e3 j e4 e5
        exact chordLabel ht chordMax i x p q j e1 (by rw [hcs]; exact e2) (by rw [hcs]; exact e3) e4 e5)
    rw [← hci, hcs, x1, Nat.sub_zero, ← hlen, List.map_map, List.range_eq_range']
    rfl
  have hkids : kids' = expandRuns (getKeys s).1 (getKeys s).2 := by
    apply List.ext_getElem?
    intro j
    rw [← hki]
    have hin := ht.kincr
    have hla := ht.klast
    have hle := ht.klen
    obtain ⟨ks, hks⟩ := cons_of_head ht.khead
    rw [hks] at hin hla hle
    have hl : (expandRuns (getKeys s).1 (getKeys s).2).length = notes.length := by
      rw [hks, (expandRuns_length (getKeys s).1 0 ks _ (by simpa using hle) hin hla).1]
      omega
    by_cases hj : j < notes.length
    · have h1 := keyLabel ht keyMax j hj
      obtain ⟨v, hv⟩ : ∃ v, (expandRuns (getKeys s).1 (getKeys s).2)[j]? = some v :=
        ⟨_, List.getElem?_eq_getElem (by omega)⟩
      rw [hv] at h1
      rw [hv, List.getElem?_map, List.getElem?_range (by omega)]
      simp [h1]
    · rw [List.getElem?_eq_none (by simp; omega), List.getElem?_eq_none (by omega)]
  refine ⟨rows', cids', kids', ?_, ?_, hcids, hkids⟩
  · have hnt : ∃ nt, pyGet notes (-1) = .ok nt := by
      obtain ⟨nt, hnt⟩ : ∃ nt, notes[notes.length - 1]? = some nt := ⟨_, List.getElem?_eq_getElem (by omega)⟩
      refine ⟨nt, ?_⟩
      unfold pyGet
      rw [if_neg (by omega), if_pos (by omega)]
      rw [show (((notes.length : Int) + -1)).toNat = notes.length - 1 by omega, hnt]
    obtain ⟨nt, hnt⟩ := hnt
    have hn0 : (forcedChordsOf notes.length s chordMax).nonChanges = [] := rfl
    simp only [getHarmony, hnt, hval, hchs, hn0, mapPy, hrs, hrows', Bind.bind, Except.bind]
  -- the chain
  have hrow : ∀ a e, (m.rangeInput dur cids' kids' changes []).forget.Start a →
      (m.rangeInput dur cids' kids' changes []).forget.Seg a e →
      ∃ r, (a, r) ∈ rows' ∧ r.stop = e := by
    intro a e h1 h2
    have h3 := (hexact a e ()).2 ⟨h1, h2, rfl⟩
    obtain ⟨⟨a', e', lp⟩, h4, h5⟩ := List.mem_map.1 h3
    simp only [Prod.mk.injEq, and_true] at h5
    obtain ⟨rfl, rfl⟩ := h5
    obtain ⟨k, hk⟩ := List.mem_iff_getElem?.1 h4
    obtain ⟨hkl, -⟩ := List.getElem?_eq_some_iff.1 hk
    have hj : rj[k]? = some (rj[k]'(by rw [hrj]; simpa using hkl)) := List.getElem?_eq_getElem _
    have hz : ((a', e', lp), rj[k]'(by rw [hrj]; simpa using hkl)) ∈ rs.zip rj := by
      apply List.mem_iff_getElem?.2
      exact ⟨k, by rw [List.getElem?_zip_eq_some]; exact ⟨hk, hj⟩⟩
    have hlt := h2.lt
    have hle : e' ≤ dur.length := h2.le
    obtain ⟨nt, hnt⟩ : ∃ nt, notes[a']? = some nt := ⟨_, List.getElem?_eq_getElem (by omega)⟩
    have hg := pyGet_ofNat notes a' nt hnt
    obtain ⟨row, h6, h7, h8⟩ : ∃ row, m.rangeRow notes ((a', e', lp), rj[k]'(by rw [hrj]; simpa using hkl)) = .ok row ∧
        row.1 = a' ∧ row.2.stop = e' := by
      simp only [rangeRow, hg, Bind.bind, Except.bind]
      exact ⟨_, rfl, rfl, rfl⟩
    obtain ⟨a'', r⟩ := row
    simp only at h7 h8
    subst h7
    exact ⟨r, (mapPy_mem hrows' _).2 ⟨_, hz, h6⟩, h8⟩
  have hb : ∀ q ∈ (getChords s).2, q ≤ notes.length := by
    intro q hq
    have hla := ht.last
    have hin := ht.incr
    obtain ⟨ys, hys⟩ := List.getLast?_eq_some_iff.mp hla
    rw [hys] at hq hin
    rcases List.mem_append.mp hq with hq | hq
    · exact Nat.le_of_lt ((List.pairwise_append.mp hin).2.2 q hq _ (by simp))
    · simp at hq; omega
  have hprob : ∀ i, m.prob chord i = m.ctm i := by
    intro i; simp [prob, hch, hnc]
  have hprob' : ∀ i, (m.rangeInput dur cids' kids' changes []).forget.changeProb i =
      if i ∈ changes then 1 else m.ctm i := by
    intro i
    show RangeInput.applyForced changes [] m.ctm i = _
    simp [RangeInput.applyForced]
  have hfc : ∀ i, i < dur.length → (m.rangeInput dur cids' kids' changes []).forget.forcedChord i =
      (labelAt (forcedChordsOf notes.length s chordMax) i).getD (-1) := by
    intro i hi
    show cids'.getD i (-1) = _
    rw [← hci]
    simp [List.getD, hi]
  have hfk : ∀ i, i < dur.length → (m.rangeInput dur cids' kids' changes []).forget.forcedKey i =
      (labelAt (forcedKeysOf s keyMax) i).getD (-1) := by
    intro i hi
    show kids'.getD i (-1) = _
    rw [← hki]
    simp [List.getD, hi]
  have hone : m.minChange ≤ 1 := le_of_lt (lt_of_le_of_lt hm.order hm.maxLt)
  have hgap : ∀ (i a b : Nat), (getChords s).2[i]? = some a → (getChords s).2[i + 1]? = some b →
      ∀ x, a < x → x < b → x ∉ (getChords s).2 := by
    intro i a b h1 h2 x h3 h4 hx
    obtain ⟨k, hk⟩ := List.mem_iff_getElem?.1 hx
    obtain ⟨g1, rfl⟩ := List.getElem?_eq_some_iff.1 h1
    obtain ⟨g2, rfl⟩ := List.getElem?_eq_some_iff.1 h2
    obtain ⟨g3, rfl⟩ := List.getElem?_eq_some_iff.1 hk
    have mono := List.pairwise_iff_getElem.mp ht.incr
    rcases Nat.lt_trichotomy k i with hlt | heq | hlt
    · have := mono k i g3 g1 hlt; omega
    · subst heq; omega
    · rcases Nat.lt_or_eq_of_le (show i + 1 ≤ k by omega) with hlt' | heq
      · have := mono (i + 1) k g2 g3 hlt'; omega
      · subst heq; omega
  have hsegs : ∀ (i a b : Nat), (getChords s).2[i]? = some a → (getChords s).2[i + 1]? = some b →
      ∀ a' r, (a', r) ∈ rows → a ≤ a' → r.stop ≤ b →
        (m.rangeInput dur cids' kids' changes []).forget.Seg a' r.stop := by
    intro i a b h1 h2 a' r har h3 h4
    have row := hr.row a' r har
    have hble := hb b (List.mem_of_getElem? h2)
    obtain ⟨c, k, e1, e2, -, -, -, -⟩ := hr.seg hm i a b h1 h2
    have lc : ∀ j, a ≤ j → j < b → (m.rangeInput dur cids' kids' changes []).forget.forcedChord j = c := by
      intro j j1 j2
      rw [hfc j (by omega), chordLabel ht chordMax i _ a b j e1 h1 h2 j1 j2]
      rfl
    have lk : ∀ j, a ≤ j → j < b → (m.rangeInput dur cids' kids' changes []).forget.forcedKey j = k := by
      intro j j1 j2
      rw [hfk j (by omega), keyAt ht keyMax i k a b j e2 h1 h2 j1 j2 (by omega)]
      rfl
    refine ⟨row.lt, row.le, ?_, ?_, ?_, ?_, ?_⟩
    · intro x x1 x2 x3 x4
      exact row.long x x1 x2 x3 x4.2
    · intro x y x1 x2 _ _ y1 y2 _ _ _ _
      rw [lc (x - 1) (by omega) (by omega), lc (y - 1) (by omega) (by omega)]
    · intro x y x1 x2 _ _ y1 y2 _ _ _ _
      rw [lk (x - 1) (by omega) (by omega), lk (y - 1) (by omega) (by omega)]
    · intro x x1 x2 x3
      have hnot : x ∉ changes := by
        rw [hmc]
        exact fun h => hgap i a b h1 h2 x (by omega) (by omega) h.1
      rw [hprob', if_neg hnot, ← hprob]
      exact row.inside x x1 x2 x3.2
    · intro hlt
      have hlt : r.stop < dur.length := hlt
      have hlt0 := row.lt
      rcases row.stop with h5 | ⟨h5, h6⟩
      · omega
      · refine ⟨⟨by omega, h5⟩, ?_⟩
        rw [hprob']
        split
        · exact hone
        · rw [← hprob]; exact h6
  have hlt : ∀ a r, (a, r) ∈ (m.searchData notes.length rows cids kids).ranges → a < r.stop :=
    fun a r har => (hr.row a r har).lt
  have hchain : ∀ (i b : Nat), (getChords s).2[i]? = some b →
      Chain (m.rangeInput dur cids' kids' changes []).forget 0 b := by
    intro i
    induction i with
    | zero =>
      intro b hb0
      rw [hcs] at hb0
      simp only [List.getElem?_cons_zero, Option.some.injEq] at hb0
      rw [← hb0]
      exact .refl 0
    | succ i ih =>
      intro b hb1
      obtain ⟨g2, -⟩ := List.getElem?_eq_some_iff.1 hb1
      have e1 : (getChords s).2[i]? = some ((getChords s).2[i]'(by omega)) := List.getElem?_eq_getElem _
      obtain ⟨c, k, -, -, hab, hcov, -, -⟩ := hr.seg hm i _ b e1 hb1
      have hble := hb b (List.mem_of_getElem? hb1)
      have h0 := ih _ e1
      exact h0.trans (Covered.chain hlt hcov (show b ≤ dur.length by omega) (hsegs i _ b e1 hb1)
        (h0.start .zero (show _ < dur.length by omega)))
  have hfinal : Chain (m.rangeInput dur cids' kids' changes []).forget 0 notes.length := by
    have hlast := ht.last
    rw [List.getLast?_eq_getElem?] at hlast
    exact hchain _ _ hlast
  exact Chain.leads (d := m.searchData notes.length rows' cids' kids') hrow hfinal .done

end

/-- A result with two chords, from a run with one forced chord. -/
def firstRun : Py (Option (State LogP Unit Unit)) :=
  (demoJoint (fun _ => 1 / 2) 3).getHarmony twoNotes [1, 1] ⟨[], [], [((0, 1), 2)], 3⟩ (free 24)

/-- Another run, for the result of the first one. -/
def then_ (f : State LogP Unit Unit → Py (Option (State LogP Unit Unit))) : Py (Option (State LogP Unit Unit)) :=
  firstRun.bind fun o => match o with
    | none => .ok none
    | some s => f s

example : seen firstRun = some (([some 2, some 1], [0, 1, 2]), [0, 0], true) := by decide +kernel

/-- Forced on models that would change chord, and with less branches, it comes back. -/
example : seen (then_ fun s => (demoJoint (fun _ => 9 / 10) 1).getHarmony twoNotes [1, 1] (forcedChordsOf 2 s 3)
    (forcedKeysOf s 24)) = some (([some 2, some 1], [0, 1, 2]), [0, 0], true) := by decide +kernel

/-- Also forced on models that would not. -/
example : seen (then_ fun s => (demoJoint (fun _ => 1 / 10) 1).getHarmony twoNotes [1, 1] (forcedChordsOf 2 s 3)
    (forcedKeysOf s 24)) = some (([some 2, some 1], [0, 1, 2]), [0, 0], true) := by decide +kernel

/-- C141: without the chord changes a result is not stable. Here the very same models, with its chords and its keys
forced, give another one: the chord forced on the first note is lost. -/
theorem C141_changes_needed :
    seen firstRun = some (([some 2, some 1], [0, 1, 2]), [0, 0], true) ∧
    seen (then_ fun s => (demoJoint (fun _ => 1 / 2) 3).getHarmony twoNotes [1, 1]
      ⟨[], [], (forcedChordsOf 2 s 3).labels, 3⟩ (forcedKeysOf s 24)) = some (([some 1], [0, 2]), [0], true) := by
  constructor <;> decide +kernel

end Verif.StableResult
