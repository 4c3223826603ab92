import Verif.Lemmas.Harmony

/-!
# C100 and C101: the harmony of a piece

C100: what the chords of the result owe to the piece and to the forced chords and chord changes.
C101: what its keys owe to the forced keys and key changes.
-/

set_option linter.unusedSectionVars false

namespace Verif.Joint
open Verif State Forced SearchData

section
variable {π κ δ ρ H P τ : Type} [LinearOrder π] [Zero π] [One π] [Add κ] [Sub κ] [Zero κ] [DecidableEq κ]
  [DecidableEq H] [DecidableEq P] [AddCommMonoid δ] [LinearOrder δ] [LE τ] [LT τ] [DecidableLE τ]
  [DecidableLT τ]

theorem Run.ok {m : Joint π κ δ ρ H P} (hm : m.WF) {n : Nat} {dur : List δ} {chord key : ForcedType}
    {res : Option (State κ H P)} {rows : List (Nat × RangeData κ)} {cids kids : List Int}
    (h : Run m n dur chord key res rows cids kids) : OK (m.searchData n rows cids kids) :=
  ⟨fun e he => (h.row e.1 e.2 he).lt, hm.hash, hm.pick⟩

/-- A segment of the result. -/
theorem Run.seg {m : Joint π κ δ ρ H P} (hm : m.WF) {n : Nat} {dur : List δ} {chord key : ForcedType}
    {s : State κ H P} {rows : List (Nat × RangeData κ)} {cids kids : List Int}
    (h : Run m n dur chord key (some s) rows cids kids) (i a b : Nat)
    (h2 : (getChords s).2[i]? = some a) (h3 : (getChords s).2[i + 1]? = some b) :
    ∃ c k, (getChords s).1[i]? = some (some c) ∧ (chordKeys s)[i]? = some k ∧ a < b ∧
      Covered (m.searchData n rows cids kids) c a b ∧
      (AnyForced kids a b → ForcedTo kids a b k) ∧
      (∀ ch', (getChords s).1[i + 1]? = some ch' → ch' ≠ some c) := by
  have hd := h.ok hm
  obtain ⟨t1, -, -, -, -⟩ := C47_tiles hd s h.search
  have hk := (C47_keys hd s h.search).1
  obtain ⟨⟨-, hseg⟩, -⟩ := search_ok hd h.search
  obtain ⟨hlt, -⟩ := List.getElem?_eq_some_iff.1 h3
  have e1 : (getChords s).1[i]? = some ((getChords s).1[i]'(by omega)) := List.getElem?_eq_getElem _
  have e2 : (chordKeys s)[i]? = some ((chordKeys s)[i]'(by omega)) := List.getElem?_eq_getElem _
  obtain ⟨c, f1, f2, f3, f4, -, f6⟩ := segs_index s.node s.prev hseg i _ a b _ e1 h2 h3 e2
  refine ⟨c, _, e1.trans (congrArg some f1), e2, f2, f3, f4, ?_⟩
  intro ch' hch'
  have := f6 ch' hch'
  intro he
  exact this (he.trans f1.symm)

theorem Covered.last {d : SearchData κ ρ H P} {c : Int} {a b : Nat} (h : Covered d c a b) :
    ∃ a' r, (a', r) ∈ d.ranges ∧ r.stop = b := by
  cases h with
  | one h1 _ => exact ⟨_, _, h1, rfl⟩
  | more _ h1 _ => exact ⟨_, _, h1, rfl⟩

theorem Covered.at {d : SearchData κ ρ H P} {c : Int} {a b : Nat} (h : Covered d c a b) (j : Nat) (h1 : a ≤ j)
    (h2 : j < b) : ∃ a' r, (a', r) ∈ d.ranges ∧ a' ≤ j ∧ j < r.stop ∧ FitsRange d c a' r := by
  induction h with
  | one hr hf => exact ⟨_, _, hr, h1, h2, hf⟩
  | @more b r hc hr hf ih =>
    by_cases hb : j < b
    · exact ih hb
    · exact ⟨_, _, hr, by omega, h2, hf⟩

/-- Each change index but 0 is the end of a range. -/
theorem Run.stop {m : Joint π κ δ ρ H P} (hm : m.WF) {n : Nat} {dur : List δ} {chord key : ForcedType}
    {s : State κ H P} {rows : List (Nat × RangeData κ)} {cids kids : List Int}
    (h : Run m n dur chord key (some s) rows cids kids) (x : Nat) (hx : x ∈ (getChords s).2) (h0 : x ≠ 0) :
    ∃ a r, (a, r) ∈ rows ∧ r.stop = x := by
  obtain ⟨k, hk⟩ := List.mem_iff_getElem?.1 hx
  obtain ⟨t1, t2, -, -, -⟩ := C47_tiles (h.ok hm) s h.search
  cases k with
  | zero =>
    rw [List.head?_eq_getElem?] at t2
    rw [t2] at hk
    injection hk with hk
    omega
  | succ k =>
    obtain ⟨hlt, -⟩ := List.getElem?_eq_some_iff.1 hk
    have e1 : (getChords s).2[k]? = some ((getChords s).2[k]'(by omega)) := List.getElem?_eq_getElem _
    obtain ⟨c, _, -, -, -, hcov, -⟩ := h.seg hm k _ x e1 hk
    exact Covered.last hcov

theorem getD_of_get {dur : List δ} {i : Nat} (hi : i < dur.length) :
    dur.getD i 0 = 0 ↔ dur[i]? = some 0 := by
  rw [List.getD_eq_getElem?_getD, List.getElem?_eq_getElem hi]
  simp

/-- C100: the chords tile the piece, neighbours differ, and a chord only ever begins at the first note of an
onset: the note before it does not have duration 0. -/
theorem C100_onsets (m : Joint π κ δ ρ H P) (hm : m.WF) (notes : List (τ × τ)) (dur : List δ)
    (hlen : dur.length = notes.length) (chord key : ForcedType) (hc : NonNeg chord) (hk : NonNeg key)
    (s : State κ H P) (h : m.getHarmony notes dur chord key = .ok (some s)) :
    (getChords s).2.length = (getChords s).1.length + 1 ∧ (getChords s).2.head? = some 0 ∧
    (getChords s).2.Pairwise (· < ·) ∧ (getChords s).2.getLast? = some notes.length ∧
    (∀ (i : Nat) ch ch', (getChords s).1[i]? = some ch → (getChords s).1[i + 1]? = some ch' → ch ≠ ch') ∧
    (∀ i ∈ (getChords s).2, 0 < i → i < notes.length → dur[i - 1]? ≠ some 0) := by
  obtain ⟨rows, cids, kids, hr⟩ := run m hm hc hk h
  obtain ⟨t1, t2, t3, t4, -⟩ := C47_tiles (hr.ok hm) s hr.search
  refine ⟨t1, t2, t3, t4, ?_, ?_⟩
  · intro i ch ch' h1 h2
    obtain ⟨hlt, -⟩ := List.getElem?_eq_some_iff.1 h2
    have e1 : (getChords s).2[i]? = some ((getChords s).2[i]'(by omega)) := List.getElem?_eq_getElem _
    have e2 : (getChords s).2[i + 1]? = some ((getChords s).2[i + 1]'(by omega)) := List.getElem?_eq_getElem _
    obtain ⟨c, _, hc1, -, -, -, -, hd⟩ := hr.seg hm i _ _ e1 e2
    rw [h1] at hc1
    injection hc1 with hc1
    rw [hc1]
    exact (hd ch' h2).symm
  · intro i hi h0 hn
    obtain ⟨a, r, har, rfl⟩ := hr.stop hm i hi (by omega)
    rcases (hr.row a r har).stop with h1 | ⟨h1, -⟩
    · omega
    · intro h2
      exact h1 ((getD_of_get (by omega)).2 h2)

/-- C100: there is no chord change at a forced non-change. -/
theorem C100_non_change (m : Joint π κ δ ρ H P) (hm : m.WF) (notes : List (τ × τ)) (dur : List δ)
    (hlen : dur.length = notes.length) (chord key : ForcedType) (hc : NonNeg chord) (hk : NonNeg key)
    (s : State κ H P) (h : m.getHarmony notes dur chord key = .ok (some s)) (i : Nat)
    (hi : (i : Int) ∈ chord.nonChanges) (h0 : 0 < i) : i ∉ (getChords s).2 := by
  obtain ⟨rows, cids, kids, hr⟩ := run m hm hc hk h
  intro hmem
  obtain ⟨a, r, har, rfl⟩ := hr.stop hm i hmem (by omega)
  have := hr.chordOK.nonChangeBound _ hi
  rcases (hr.row a r har).stop with h1 | ⟨-, h1⟩
  · omega
  · rw [prob, if_pos hi] at h1
    exact absurd hm.minPos (not_lt.2 h1)

/-- C100 (partial): there is a chord change at each forced change, unless the log probability of the result is
dead: minus infinity or NaN. (`Dead` is any set of values that no addition or subtraction leaves and that
has the log probability of rejoining at a forced change, `log(0) - log(1)`.) Without this exception it
fails, see `C100_change_fails`. -/
theorem C100_change_partial (m : Joint π κ δ ρ H P) (hm : m.WF) (notes : List (τ × τ)) (dur : List δ)
    (hlen : dur.length = notes.length) (chord key : ForcedType) (hc : NonNeg chord) (hk : NonNeg key)
    (Dead : κ → Prop) (hD : Absorbing Dead) (hD1 : Dead (m.logCompl 1 - m.log 1))
    (s : State κ H P) (h : m.getHarmony notes dur chord key = .ok (some s)) :
    Dead s.node.logProb ∨ ∀ i : Nat, (i : Int) ∈ chord.changes → i ∈ (getChords s).2 := by
  obtain ⟨rows, cids, kids, hr⟩ := run m hm hc hk h
  have hp1 : ∀ i : Nat, ((i : Int) ∈ chord.changes ∧ i ≠ 0) → m.prob chord i = 1 := by
    intro i hi
    rw [prob, if_neg (hr.chordOK.disjoint _ hi.1 (by omega)), if_pos hi]
  have := search_inv (passing (m.searchData notes.length rows cids kids) Dead hD
    (fun i => (i : Int) ∈ chord.changes ∧ i ≠ 0) ?_ ?_) (hr.ok hm) hr.search
  · rcases this with h1 | h1
    · exact .inl h1
    · right
      intro i hi
      obtain ⟨-, t2, -, -, -⟩ := C47_tiles (hr.ok hm) s hr.search
      by_cases h0 : i = 0
      · subst h0
        exact List.mem_of_head? t2
      · apply h1 i ⟨hi, h0⟩
        rw [(search_ok (hr.ok hm) hr.search).2]
        have := hr.chordOK.changeBound _ hi (by omega)
        show i < notes.length
        omega
  · intro i a r hi har
    rintro ⟨h1, h2⟩
    have hrow := hr.row a r har
    have hle := hrow.le
    have := hrow.inside i h1 h2 ?_
    · rw [hp1 i hi] at this
      exact absurd hm.maxLt (not_lt.2 this)
    · intro h3
      apply hr.chordOK.onset _ hi.1 (by omega)
      rw [show ((i : Int) - 1).toNat = i - 1 by omega]
      exact (getD_of_get (by omega)).1 h3
  · intro i r hi har
    rw [(hr.row i r har).rejoin, hp1 i hi]
    exact hD1

/-- Labels are the same for the notes of an onset. -/
def Aligned (dur : List δ) (ft : ForcedType) : Prop :=
  ∀ i : Nat, i + 1 < dur.length → dur[i]? = some 0 → labelAt ft i = labelAt ft (i + 1)

/-- Where the last onset begins there is a forced change, or the label stays the same, or the last onset has
none. -/
def LastOnset (dur : List δ) (ft : ForcedType) : Prop :=
  ∀ g : Nat, 0 < g → g < dur.length → dur[g - 1]? ≠ some 0 →
    (∀ i, g ≤ i → i + 1 < dur.length → dur[i]? = some 0) →
    (g : Int) ∈ ft.changes ∨ labelAt ft (g - 1) = labelAt ft (dur.length - 1) ∨
      labelAt ft (dur.length - 1) = none

theorem last_of_onset {dur : List δ} {ft : ForcedType} (ha : Aligned dur ft) : ∀ (k j : Nat), j + k = dur.length → 0 < k →
    ∃ l, j ≤ l ∧ l < dur.length ∧ (l + 1 = dur.length ∨ dur.getD l 0 ≠ 0) ∧
      (∀ i, j ≤ i → i < l → dur.getD i 0 = 0) ∧ labelAt ft j = labelAt ft l := by
  intro k
  induction k with
  | zero => intro j _ h; omega
  | succ k ih =>
    intro j hj _
    by_cases h1 : j + 1 = dur.length
    · exact ⟨j, Nat.le_refl _, by omega, .inl h1, fun i h2 h3 => by omega, rfl⟩
    · by_cases h2 : dur.getD j 0 = 0
      · obtain ⟨l, l1, l2, l3, l4, l5⟩ := ih (j + 1) (by omega) (by omega)
        refine ⟨l, by omega, l2, l3, ?_, (ha j (by omega) ((getD_of_get (by omega)).1 h2)).trans l5⟩
        intro i h3 h4
        by_cases h5 : i = j
        · rw [h5]; exact h2
        · exact l4 i (by omega) h4
      · exact ⟨j, Nat.le_refl _, by omega, .inr h2, fun i h3 h4 => by omega, rfl⟩

theorem first_of_last {dur : List δ} (j : Nat) (hj : j < dur.length)
    (h : ∀ i, j ≤ i → i + 1 < dur.length → dur.getD i 0 = 0) :
    ∃ g, g ≤ j ∧ (g = 0 ∨ dur.getD (g - 1) 0 ≠ 0) ∧ ∀ i, g ≤ i → i + 1 < dur.length → dur.getD i 0 = 0 := by
  induction j with
  | zero => exact ⟨0, Nat.le_refl _, .inl rfl, h⟩
  | succ j ih =>
    by_cases h1 : dur.getD j 0 = 0
    · obtain ⟨g, g1, g2, g3⟩ := ih (by omega) (by
        intro i h2 h3
        by_cases h4 : i = j
        · rw [h4]; exact h1
        · exact h i (by omega) h3)
      exact ⟨g, by omega, g2, g3⟩
    · exact ⟨j + 1, Nat.le_refl _, .inr h1, h⟩

/-- The forced chords of the notes of one range are the same. -/
theorem Run.same {m : Joint π κ δ ρ H P} (hm : m.WF) {n : Nat} {dur : List δ} {chord key : ForcedType}
    {res : Option (State κ H P)} {rows : List (Nat × RangeData κ)} {cids kids : List Int}
    (h : Run m n dur chord key res rows cids kids) (ha : Aligned dur chord) (hl : LastOnset dur chord)
    (a : Nat) (r : RangeData κ) (har : (a, r) ∈ rows) (i j : Nat) (h1 : a ≤ i) (h2 : i < r.stop) (h3 : a ≤ j)
    (h4 : j < r.stop) (f g : Int) (hi : labelAt chord i = some f) (hj : labelAt chord j = some g) : f = g := by
  have hrow := h.row a r har
  have hle := hrow.le
  have key : ∀ k, a ≤ k → k < r.stop → ∃ l, k ≤ l ∧ l < r.stop ∧ (l + 1 = dur.length ∨ dur.getD l 0 ≠ 0) ∧
      (∀ i, k ≤ i → i < l → dur.getD i 0 = 0) ∧ labelAt chord k = labelAt chord l := by
    intro k k1 k2
    obtain ⟨l, l1, l2, l3, l4, l5⟩ := last_of_onset ha (dur.length - k) k (by omega) (by omega)
    refine ⟨l, l1, ?_, l3, l4, l5⟩
    rcases hrow.stop with h5 | ⟨h5, -⟩
    · omega
    · by_contra hn
      exact h5 (l4 (r.stop - 1) (by omega) (by omega))
  -- the case of a note of the last onset and one before it
  have main : ∀ i j l, a ≤ i → i < r.stop → a ≤ j → j < r.stop → ∀ f g, labelAt chord i = some f →
      labelAt chord j = some g → (∀ k, i ≤ k → k + 1 < dur.length → dur.getD k 0 = 0) →
      labelAt chord (dur.length - 1) = some f → j ≤ l → l < r.stop → l + 1 < dur.length →
      dur.getD l 0 ≠ 0 → labelAt chord l = some g → f = g := by
    intro i j l i1 i2 j1 j2 f g hi hj hz hlast l1 l2 l3 l4 l5
    obtain ⟨p, p1, p2, p3⟩ := first_of_last i (by omega) hz
    have hlp : l < p := by
      by_contra hn
      exact l4 (p3 l (by omega) l3)
    have hp2 : dur.getD (p - 1) 0 ≠ 0 := by
      rcases p2 with p2 | p2
      · omega
      · exact p2
    rcases hl p (by omega) (by omega) (fun hn => hp2 ((getD_of_get (by omega)).2 hn))
      (fun k k1 k2 => (getD_of_get (by omega)).1 (p3 k k1 k2)) with q | q | q
    · have := hrow.inside p (by omega) (by omega) hp2
      rw [prob, if_neg (h.chordOK.disjoint _ q (by omega)), if_pos ⟨q, by omega⟩] at this
      exact absurd hm.maxLt (not_lt.2 this)
    · rw [hlast] at q
      exact hrow.agree (p - 1) l (by omega) (by omega) (by omega) l2 (by omega) l3 hp2 l4 f g q l5
    · rw [hlast] at q; cases q
  obtain ⟨l, l1, l2, l3, l4, l5⟩ := key i h1 h2
  obtain ⟨l', l1', l2', l3', l4', l5'⟩ := key j h3 h4
  by_cases e1 : l + 1 = dur.length
  · have hl1 : l = dur.length - 1 := by omega
    by_cases e2 : l' + 1 = dur.length
    · have hl2 : l' = dur.length - 1 := by omega
      rw [l5, hl1, ← hl2, ← l5', hj] at hi
      injection hi with hi
      exact hi.symm
    · exact main i j l' h1 h2 h3 h4 f g hi hj (fun k k1 k2 => l4 k k1 (by omega))
        (by rw [← hl1, ← l5]; exact hi) l1' l2' (by omega) (l3'.resolve_left e2) (by rw [← l5']; exact hj)
  · by_cases e2 : l' + 1 = dur.length
    · have hl2 : l' = dur.length - 1 := by omega
      exact (main j i l h3 h4 h1 h2 g f hj hi (fun k k1 k2 => l4' k k1 (by omega))
        (by rw [← hl2, ← l5']; exact hj) l1 l2 (by omega) (l3.resolve_left e1) (by rw [← l5]; exact hi)).symm
    · exact hrow.agree l l' (by omega) l2 (by omega) l2' (by omega) (by omega) (l3.resolve_left e1)
        (l3'.resolve_left e2) f g (by rw [← l5]; exact hi) (by rw [← l5']; exact hj)

/-- C100 (partial): if forced chords are given for whole onsets, and the one of the last onset is not different
from the one before without a forced change, then every note with a forced chord has that chord in the
result, and the chord does not change between two notes with the same forced chord. Without these
conditions it fails, see `C100_chords_fails`. -/
theorem C100_chords_partial (m : Joint π κ δ ρ H P) (hm : m.WF) (notes : List (τ × τ)) (dur : List δ)
    (hlen : dur.length = notes.length) (chord key : ForcedType) (hc : NonNeg chord) (hk : NonNeg key)
    (ha : Aligned dur chord) (hl : LastOnset dur chord)
    (s : State κ H P) (h : m.getHarmony notes dur chord key = .ok (some s)) :
    (∀ (i a b j : Nat) f, (getChords s).2[i]? = some a → (getChords s).2[i + 1]? = some b → a ≤ j → j < b →
      labelAt chord j = some f → (getChords s).1[i]? = some (some f)) ∧
    (∀ (j : Nat) f, j + 1 < notes.length → labelAt chord j = some f → labelAt chord (j + 1) = some f →
      j + 1 ∉ (getChords s).2) := by
  obtain ⟨rows, cids, kids, hr⟩ := run m hm hc hk h
  have first : ∀ (i a b j : Nat) f, (getChords s).2[i]? = some a → (getChords s).2[i + 1]? = some b → a ≤ j →
      j < b → labelAt chord j = some f → (getChords s).1[i]? = some (some f) := by
    intro i a b j f h1 h2 h3 h4 h5
    obtain ⟨c, _, hc1, -, -, hcov, -⟩ := hr.seg hm i a b h1 h2
    obtain ⟨a', r, har, b1, b2, hf⟩ := Covered.at hcov j h3 h4
    have hle := (hr.row a' r har).le
    have get : ∀ k, k < dur.length → cids[k]? = some ((labelAt chord k).getD (-1)) := by
      intro k hk
      rw [hr.chordIds]; simp [hk]
    obtain ⟨q, hq, hqf⟩ := labelAt_mem chord j f h5
    have hpos := (hr.chordOK.range q hq).1
    obtain ⟨j', c1, c2, c3, c4⟩ := hf.1 ⟨j, f, b1, b2, by
      show cids[j]? = _
      rw [get j (by omega), h5]; rfl, by omega⟩
    have c3 : cids[j']? = some c := c3
    rw [get j' (by omega)] at c3
    injection c3 with c3
    cases hlab : labelAt chord j' with
    | none => rw [hlab] at c3; exact absurd c3.symm c4
    | some g =>
      rw [hlab] at c3
      have c3 : g = c := c3
      have := hr.same hm ha hl a' r har j j' b1 b2 c1 c2 f g h5 hlab
      rw [hc1, ← c3, this]
  refine ⟨first, ?_⟩
  intro j f h1 h2 h3 hmem
  obtain ⟨t1, t2, t3, t4, -⟩ := C47_tiles (hr.ok hm) s hr.search
  obtain ⟨k, hk1⟩ := List.mem_iff_getElem?.1 hmem
  cases k with
  | zero =>
    rw [List.head?_eq_getElem?] at t2
    rw [t2] at hk1
    injection hk1 with hk1
    omega
  | succ k =>
    obtain ⟨hlt, hk2⟩ := List.getElem?_eq_some_iff.1 hk1
    have e1 : (getChords s).2[k]? = some ((getChords s).2[k]'(by omega)) := List.getElem?_eq_getElem _
    have hlt2 : k + 2 < (getChords s).2.length := by
      by_contra hn
      have : (getChords s).2.length = k + 2 := by omega
      rw [List.getLast?_eq_getElem?, this] at t4
      have t4 : (getChords s).2[k + 1]? = some notes.length := t4
      rw [hk1] at t4
      injection t4 with t4
      omega
    have e3 : (getChords s).2[k + 1 + 1]? = some ((getChords s).2[k + 2]'hlt2) := List.getElem?_eq_getElem _
    have p1 : (getChords s).2[k]'(by omega) < (getChords s).2[k + 1]'hlt :=
      List.pairwise_iff_getElem.1 t3 k (k + 1) (by omega) hlt (by omega)
    have p2 : (getChords s).2[k + 1]'hlt < (getChords s).2[k + 2]'hlt2 :=
      List.pairwise_iff_getElem.1 t3 (k + 1) (k + 2) hlt hlt2 (by omega)
    have f1 := first k _ (j + 1) j f e1 hk1 (by omega) (by omega) h2
    have f2 := first (k + 1) (j + 1) _ (j + 1) f hk1 e3 (by omega) (by omega) h3
    obtain ⟨c, _, hc1, -, -, -, -, hd⟩ := hr.seg hm k _ _ e1 hk1
    rw [f1] at hc1
    injection hc1 with hc1
    exact hd _ f2 hc1

/-- C101 (partial): a chord whose notes with a forced key all have the same one, and which has such a note, has
that key. (A chord can cover notes with different forced keys, see `C47_forced_key_fails`.) -/
theorem C101_keys_partial (m : Joint π κ δ ρ H P) (hm : m.WF) (notes : List (τ × τ)) (dur : List δ)
    (hlen : dur.length = notes.length) (chord key : ForcedType) (hc : NonNeg chord) (hk : NonNeg key)
    (s : State κ H P) (h : m.getHarmony notes dur chord key = .ok (some s)) (i a b j : Nat) (f : Int)
    (h1 : (getChords s).2[i]? = some a) (h2 : (getChords s).2[i + 1]? = some b) (h3 : a ≤ j) (h4 : j < b)
    (h5 : labelAt key j = some f)
    (h6 : ∀ k g, a ≤ k → k < b → labelAt key k = some g → g = f) : (chordKeys s)[i]? = some f := by
  obtain ⟨rows, cids, kids, hr⟩ := run m hm hc hk h
  obtain ⟨c, k, -, hk1, -, hcov, hf, -⟩ := hr.seg hm i a b h1 h2
  obtain ⟨a', r, har, hstop⟩ := Covered.last hcov
  have hle := (hr.row a' r har).le
  have get : ∀ k, k < dur.length → kids[k]? = some ((labelAt key k).getD (-1)) := by
    intro k hk
    rw [hr.keyIds]; simp [hk]
  obtain ⟨q, hq, hqf⟩ := labelAt_mem key j f h5
  have hpos := (hr.keyOK.range q hq).1
  obtain ⟨j', c1, c2, c3, c4⟩ := hf ⟨j, f, h3, h4, by rw [get j (by omega), h5]; rfl, by omega⟩
  rw [get j' (by omega)] at c3
  injection c3 with c3
  cases hlab : labelAt key j' with
  | none => rw [hlab] at c3; exact absurd c3.symm c4
  | some g =>
    rw [hlab] at c3
    have c3 : g = k := c3
    rw [hk1, ← c3, h6 j' g c1 c2 hlab]

/-- C101: the forced key changes and non-changes have no effect on the result: only their validation can
fail. -/
theorem C101_ignored (m : Joint π κ δ ρ H P) (notes : List (τ × τ)) (dur : List δ)
    (chord key key' : ForcedType) (hc : NonNeg chord) (hk : NonNeg key) (hk' : NonNeg key')
    (hl : key'.labels = key.labels) (res res' : Option (State κ H P))
    (h : m.getHarmony notes dur chord key = .ok res) (h' : m.getHarmony notes dur chord key' = .ok res') :
    res = res' := by
  have hv : ∀ ids ids', validate dur chord key = .ok ids → validate dur chord key' = .ok ids' → ids = ids' := by
    rintro ⟨c1, k1⟩ ⟨c2, k2⟩ h1 h2
    obtain ⟨-, -, -, e1, e2⟩ := (C30_accepts_partial dur chord key hc hk c1 k1).1 h1
    obtain ⟨-, -, -, e3, e4⟩ := (C30_accepts_partial dur chord key' hc hk' c2 k2).1 h2
    have : labelAt key' = labelAt key := by funext i; simp only [labelAt, hl]
    rw [this] at e4
    rw [e1, e2, e3, e4]
  simp only [getHarmony, Bind.bind] at h h'
  obtain ⟨_, h0, h⟩ := SearchData.bind_ok h
  obtain ⟨_, _, h'⟩ := SearchData.bind_ok h'
  obtain ⟨ids, hv1, h⟩ := SearchData.bind_ok h
  obtain ⟨ids', hv2, h'⟩ := SearchData.bind_ok h'
  rw [← hv _ _ hv1 hv2] at h'
  rw [h] at h'
  injection h'

end

/-! ## Concrete pieces -/

/-- Log probabilities: an integer or minus infinity. -/
structure LogP where
  val : Option Int
deriving DecidableEq

instance : Add LogP := ⟨fun x y => ⟨do return (← x.val) + (← y.val)⟩⟩
instance : Sub LogP := ⟨fun x y => ⟨do return (← x.val) - (← y.val)⟩⟩
instance : Zero LogP := ⟨⟨some 0⟩⟩

/-- Minus infinity stays what it is. -/
theorem logP_dead : Absorbing (fun x : LogP => x.val = none) where
  left x y h := by show (do return (← x.val) + (← y.val) : Option Int) = none; rw [h]; rfl
  right x y h := by
    show (do return (← x.val) + (← y.val) : Option Int) = none
    rw [h]; cases x.val <;> rfl
  sub x y h := by show (do return (← x.val) - (← y.val) : Option Int) = none; rw [h]; rfl

def LogP.lt (a b : LogP) : Bool :=
  match a.val, b.val with
  | _, none => false
  | none, some _ => true
  | some x, some y => decide (x < y)

/-- A small joint model: major triads on C, D and E, a
chord classifier that prefers D and branches on `width` chords. -/
def demoJoint (ctm : Nat → ℚ) (width : Nat) : Joint ℚ LogP Nat Int Unit Unit where
  maxLen := 100
  minChange := 1 / 4
  maxNoChange := 3 / 4
  ctm := ctm
  log p := if p = 0 then ⟨none⟩ else if p = 1 then ⟨some 0⟩ else ⟨some (-1)⟩
  logCompl p := if p = 1 then ⟨none⟩ else if p = 0 then ⟨some 0⟩ else ⟨some (-1)⟩
  ccm _ _ := [⟨some (-2)⟩, ⟨some (-1)⟩, ⟨some (-3)⟩]
  argsort _ := [1, 0, 2]
  branch _ := width
  search :=
    { labels := ⟨[(0, .major, 0), (2, .major, 0), (4, .major, 0)], keyClasses .midi false⟩
      relativeKeys := KeyMode.all.flatMap fun m => (pyRange 0 12).map fun i => (m, i)
      pitchType := .midi
      beamSize := 10
      hashLength := none
      numInputs := 0
      ranges := []
      forcedChords := []
      forcedKeys := []
      pick := pickMin
      minChange := 3
      maxNoChange := 7
      leProb := fun a b => decide (a ≤ b)
      zeroProb := 0
      logChange := fun _ => ⟨some (-2)⟩
      logNoChange := fun _ => ⟨some (-1)⟩
      lt := LogP.lt
      ge := fun a b => !LogP.lt a b
      scale := fun x n => ⟨x.val.map (· * n)⟩
      ksmExponent := fun x => x
      icm := fun _ => ()
      csm := fun _ => .ok ((), ())
      csmCost := fun _ => .ok ⟨some (-1)⟩
      ktm := fun _ => .ok (0, ())
      ksm := fun _ => .ok ⟨List.replicate 24 ⟨some (-1)⟩, pyRange 0 24, 2, ()⟩ }

theorem demoJoint_wf (ctm : Nat → ℚ) (width : Nat) : (demoJoint ctm width).WF where
  minPos := by show (0 : ℚ) < 1 / 4; norm_num
  order := by show (1 / 4 : ℚ) ≤ 3 / 4; norm_num
  maxLt := by show (3 / 4 : ℚ) < 1; norm_num
  hash := by intro k h; cases h
  pick := pickMin_mem

/-- No forced labels of a kind with the given number of labels. -/
def free (maxId : Int) : ForcedType := ⟨[], [], [], maxId⟩

/-- Two notes, one after the other. -/
def twoNotes : List (Nat × Nat) := [(0, 1), (1, 2)]

/-- What a caller sees of the result: its chords and keys, and whether it is possible at all. -/
def seen (r : Py (Option (State LogP Unit Unit))) : Option ((List (Option Int) × List Nat) × List Int × Bool) :=
  (r.toOption.bind id).map fun s => (getChords s, chordKeys s, s.node.logProb.val.isSome)

theorem seen_some {r : Py (Option (State LogP Unit Unit))} {x : (List (Option Int) × List Nat) × List Int × Bool}
    (h : seen r = some x) : ∃ s, r = .ok (some s) ∧ getChords s = x.1 ∧ chordKeys s = x.2.1 ∧
      s.node.logProb.val.isSome = x.2.2 := by
  cases r with
  | error e => cases h
  | ok o =>
    cases o with
    | none => cases h
    | some s =>
      simp only [seen, Except.toOption, Option.bind_some, id_eq, Option.map_some, Option.some.injEq] at h
      subst h
      exact ⟨s, rfl, rfl, rfl, rfl⟩

/-- C100 fails for forced changes: a change is forced at note 1 and the chord of note 1 is forced. The classifier
branches on that chord only before it, so the only way on is to rejoin, with log probability minus
infinity, and the result has one chord. -/
theorem C100_change_fails : ∃ (m : Joint ℚ LogP Nat Int Unit Unit) (chord key : ForcedType)
    (s : State LogP Unit Unit), m.WF ∧ NonNeg chord ∧ NonNeg key ∧ (1 : Int) ∈ chord.changes ∧
    m.getHarmony twoNotes [1, 1] chord key = .ok (some s) ∧ getChords s = ([some 1], [0, 2]) ∧
    s.node.logProb.val = none := by
  have h : seen ((demoJoint (fun _ => 1 / 2) 1).getHarmony twoNotes [1, 1] ⟨[1], [], [((1, 2), 1)], 3⟩
      (free 24)) = some (([some 1], [0, 2]), [0], false) := by decide +kernel
  obtain ⟨s, h1, h2, -, h3⟩ := seen_some h
  refine ⟨_, _, _, s, demoJoint_wf _ _, by simp [NonNeg], by simp [NonNeg, free], by simp, h1, h2, ?_⟩
  simpa using h3

/-- C100 fails for forced chords: different chords are forced on the two notes, and the chord transition model
sees no change. The last note is not tested, so both notes are one range, which gets one of the two
chords. -/
theorem C100_chords_fails : ∃ (m : Joint ℚ LogP Nat Int Unit Unit) (chord key : ForcedType)
    (s : State LogP Unit Unit), m.WF ∧ NonNeg chord ∧ NonNeg key ∧ labelAt chord 0 = some 2 ∧
    labelAt chord 1 = some 1 ∧ m.getHarmony twoNotes [1, 1] chord key = .ok (some s) ∧
    getChords s = ([some 1], [0, 2]) ∧ s.node.logProb.val ≠ none := by
  have h : seen ((demoJoint (fun _ => 0) 3).getHarmony twoNotes [1, 1] ⟨[], [], [((0, 1), 2), ((1, 2), 1)], 3⟩
      (free 24)) = some (([some 1], [0, 2]), [0], true) := by decide +kernel
  obtain ⟨s, h1, h2, -, h3⟩ := seen_some h
  refine ⟨_, _, _, s, demoJoint_wf _ _, by simp [NonNeg], by simp [NonNeg, free], by decide, by decide, h1, h2, ?_⟩
  intro h4
  rw [h4] at h3
  cases h3

/-- C101 fails for forced key changes and forced keys: a change is forced at note 1, with different forced keys
before and after it, and the result has one key. -/
theorem C101_fails : ∃ (m : Joint ℚ LogP Nat Int Unit Unit) (chord key : ForcedType)
    (s : State LogP Unit Unit), m.WF ∧ NonNeg chord ∧ NonNeg key ∧ (1 : Int) ∈ key.changes ∧
    labelAt key 0 = some 3 ∧ labelAt key 1 = some 5 ∧
    m.getHarmony twoNotes [1, 1] chord key = .ok (some s) ∧ getKeys s = ([3], [0, 2]) ∧
    s.node.logProb.val ≠ none := by
  have h : ((((demoJoint (fun _ => 1 / 2) 3).getHarmony twoNotes [1, 1] (free 3)
      ⟨[1], [], [((0, 1), 3), ((1, 2), 5)], 24⟩).toOption.bind id).map fun s =>
        (getKeys s, s.node.logProb.val.isSome)) = some (([3], [0, 2]), true) := by decide +kernel
  cases hr : (demoJoint (fun _ => 1 / 2) 3).getHarmony twoNotes [1, 1] (free 3)
      ⟨[1], [], [((0, 1), 3), ((1, 2), 5)], 24⟩ with
  | error e => rw [hr] at h; cases h
  | ok o =>
    cases o with
    | none => rw [hr] at h; cases h
    | some s =>
      rw [hr] at h
      simp only [Except.toOption, Option.bind_some, id_eq, Option.map_some, Option.some.injEq,
        Prod.mk.injEq] at h
      refine ⟨_, _, _, s, demoJoint_wf _ _, by simp [NonNeg, free], by simp [NonNeg], by simp, by decide,
        by decide, hr, h.1, ?_⟩
      intro h4
      rw [h4] at h
      exact absurd h.2 (by decide)

/-- With a forced change and no forced chord the result has a change. -/
example : seen ((demoJoint (fun _ => 1 / 2) 3).getHarmony twoNotes [1, 1] ⟨[1], [], [], 3⟩ (free 24)) =
    some (([some 1, some 0], [0, 1, 2]), [4, 4], true) := by decide +kernel

/-- With a forced change between different forced chords both are in the result. -/
example : seen ((demoJoint (fun _ => 1 / 2) 3).getHarmony twoNotes [1, 1]
    ⟨[1], [], [((0, 1), 2), ((1, 2), 1)], 3⟩ (free 24)) =
    some (([some 2, some 1], [0, 1, 2]), [0, 0], true) := by decide +kernel

/-- With a forced non-change and a forced key. -/
example : seen ((demoJoint (fun _ => 9 / 10) 3).getHarmony twoNotes [1, 1] ⟨[], [1], [], 3⟩
    ⟨[], [], [((0, 2), 3)], 24⟩) = some (([some 1], [0, 2]), [3], true) := by decide +kernel

/-- The conditions of `C100_chords_partial` hold of the second case. -/
example : LastOnset [1, 1] ⟨[1], [], [((0, 1), 2), ((1, 2), 1)], 3⟩ ∧
    Aligned [1, 1] ⟨[1], [], [((0, 1), 2), ((1, 2), 1)], 3⟩ := by
  constructor
  · intro g h0 h1 _ _
    left
    have : g = 1 := by simp at h1; omega
    subst this
    decide
  · intro i h0 h1
    have : i = 0 := by simp at h0; omega
    subst this
    simp at h1

end Verif.Joint
