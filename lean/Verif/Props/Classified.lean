import Verif.Props.Thresholds

/-!
# C168: the chords of the analysis are those the classifier puts first

Each chord of the analysis covers one or more stretches of notes. On each of them it is a chord forced there,
or, where none is forced, among the classes that the chord classifier finds likeliest for the notes of that
very stretch: as many of them as the search is to branch on, or two if that is one.
-/

set_option linter.unusedSectionVars false

namespace Verif.Classify
open Verif State Forced SearchData Joint Thresholds

section
variable {π κ δ ρ H P τ : Type} [LinearOrder π] [Zero π] [One π] [Add κ] [Sub κ] [Zero κ] [DecidableEq κ]
  [DecidableEq H] [DecidableEq P] [AddCommMonoid δ] [LinearOrder δ] [LE τ] [LT τ] [DecidableLE τ]
  [DecidableLT τ]

/-- What the classifier says of the notes from `x` up to `y`. -/
def Says (m : Joint π κ δ ρ H P) (notes : List (τ × τ)) (x y : Nat) (priors : List κ) : Prop :=
  ∃ note, notes[x]? = some note ∧ priors = m.ccm (rangeStart note.1 notes, y) x

/-- The notes from `x` up to `y` justify the chord `c`: it is forced on one of them, or none has a forced chord
and `c` is one of the classes that the classifier puts first. -/
def Justified (m : Joint π κ δ ρ H P) (notes : List (τ × τ)) (chord : ForcedType) (c : Int) (x y : Nat) : Prop :=
  (∃ j, x ≤ j ∧ j < y ∧ labelAt chord j = some c) ∨
  (∀ j, x ≤ j → j < y → labelAt chord j = none) ∧
    ∃ priors, Says m notes x y priors ∧ ∃ i, (m.argsort priors)[i]? = some c ∧ (i < m.branch priors ∨ i = 1 ∧
      m.branch priors = 1)

/-- The points that divide the notes from `a` up to `b` into stretches. -/
def Divides (pts : List Nat) (a b : Nat) : Prop :=
  pts.head? = some a ∧ pts.getLast? = some b ∧ pts.Pairwise (· < ·) ∧ 2 ≤ pts.length

theorem justified_of_fits {m : Joint π κ δ ρ H P} {notes : List (τ × τ)} {dur : List δ} {chord key : ForcedType}
    {res : Option (State κ H P)} {rows : List (Nat × RangeData κ)} {cids kids : List Int}
    (hr : Run m notes.length dur chord key res rows cids kids)
    (hcl : ∀ a r, (a, r) ∈ rows → Classified m notes a r) {c : Int} {x : Nat} {r : RangeData κ}
    (hmem : (x, r) ∈ rows) (hf : FitsRange (m.searchData notes.length rows cids kids) c x r) :
    Justified m notes chord c x r.stop := by
  have hrow := hr.row x r hmem
  have hids : ∀ j, j < r.stop → cids[j]? = some ((labelAt chord j).getD (-1)) := by
    intro j hj
    have := hrow.le
    rw [hr.chordIds, List.getElem?_map, List.getElem?_range (by omega)]
    rfl
  by_cases h : AnyForced cids x r.stop
  · left
    obtain ⟨j, h1, h2, h3, h4⟩ := hf.1 h
    refine ⟨j, h1, h2, ?_⟩
    have h3 : cids[j]? = some c := h3
    rw [hids j h2] at h3
    have h3 := Option.some.inj h3
    cases hl : labelAt chord j with
    | none => rw [hl] at h3; exact absurd h3.symm h4
    | some f => rw [hl] at h3; exact congrArg some h3
  · right
    refine ⟨?_, ?_⟩
    · intro j h1 h2
      by_contra hne
      obtain ⟨f, hl⟩ := Option.ne_none_iff_exists'.1 hne
      apply h
      refine ⟨j, f, h1, h2, by rw [hids j h2, hl]; rfl, ?_⟩
      obtain ⟨r1, hr1, rfl⟩ := labelAt_mem chord j f hl
      have := (hr.chordOK.range r1 hr1).1
      omega
    · obtain ⟨note, n1, n2, n3, n4⟩ := hcl x r hmem
      refine ⟨r.priors, ⟨note, n1, n2⟩, ?_⟩
      have hc := hf.2 h
      rw [n3, n4] at hc
      obtain ⟨i, hi⟩ := List.mem_iff_getElem?.1 hc
      have hlt : i < if m.branch r.priors = 1 then 2 else m.branch r.priors := by
        have := (List.getElem?_eq_some_iff.1 hi).1
        rw [List.length_take] at this
        omega
      rw [List.getElem?_take_of_lt hlt] at hi
      refine ⟨i, hi, ?_⟩
      split at hlt <;> omega

/-- Another stretch at the end. -/
theorem extend {pts : List Nat} {a b e : Nat} {Q : Nat → Nat → Nat → Prop} (hd : Divides pts a b) (hlt : b < e)
    (hq : ∀ k x y, pts[k]? = some x → pts[k + 1]? = some y → Q k x y) (hn : ∀ k, 1 ≤ k → Q k b e) :
    Divides (pts ++ [e]) a e ∧
      ∀ k x y, (pts ++ [e])[k]? = some x → (pts ++ [e])[k + 1]? = some y → Q k x y := by
  obtain ⟨d1, d2, d3, d4⟩ := hd
  refine ⟨⟨?_, by simp, ?_, by simp; omega⟩, ?_⟩
  · cases pts with
    | nil => simp at d1
    | cons p ps => simpa using d1
  · rw [List.pairwise_append]
    refine ⟨d3, by simp, ?_⟩
    intro p hp q hq
    simp only [List.mem_singleton] at hq
    subst hq
    have hle : p ≤ b := by
      obtain ⟨init, rfl⟩ : ∃ init, pts = init ++ [b] :=
        ⟨pts.dropLast, (List.dropLast_append_getLast? b d2).symm⟩
      rcases List.mem_append.1 hp with hp | hp
      · exact Nat.le_of_lt ((List.pairwise_append.1 d3).2.2 p hp b (by simp))
      · simp at hp; omega
    omega
  · intro k x y hx hy
    by_cases hk1 : k + 1 < pts.length
    · rw [List.getElem?_append_left (by omega)] at hx
      rw [List.getElem?_append_left hk1] at hy
      exact hq k x y hx hy
    · have hlen' : k + 1 < (pts ++ [e]).length := (List.getElem?_eq_some_iff.1 hy).1
      rw [List.length_append, List.length_singleton] at hlen'
      have hke : k + 1 = pts.length := by omega
      rw [List.getElem?_append_left (by omega)] at hx
      rw [List.getElem?_append_right (by omega), hke] at hy
      simp at hy
      rw [List.getLast?_eq_getElem?, ← hke] at d2
      simp only [Nat.add_sub_cancel] at d2
      rw [d2] at hx
      have hx := Option.some.inj hx
      subst hx; subst hy
      exact hn k (by omega)

/-- C168: each chord of the analysis covers stretches of notes one after another, and the notes of each of them
justify it. -/
theorem C168_justified (m : Joint π κ δ ρ H P) (hm : m.WF) (notes : List (τ × τ)) (dur : List δ)
    (chord key : ForcedType) (hc : NonNeg chord) (hk : NonNeg key)
    (s : State κ H P) (h : m.getHarmony notes dur chord key = .ok (some s)) (i a b : Nat)
    (h2 : (getChords s).2[i]? = some a) (h3 : (getChords s).2[i + 1]? = some b) :
    ∃ c pts, (getChords s).1[i]? = some (some c) ∧ Divides pts a b ∧
      ∀ k x y, pts[k]? = some x → pts[k + 1]? = some y → Justified m notes chord c x y := by
  obtain ⟨rows, cids, kids, hr, hcl⟩ := run_classified m hm hc hk h
  obtain ⟨c, _, hc1, -, -, hcov, -⟩ := hr.seg hm i a b h2 h3
  refine ⟨c, ?_⟩
  suffices H : ∃ pts, Divides pts a b ∧
      ∀ k x y, pts[k]? = some x → pts[k + 1]? = some y → Justified m notes chord c x y by
    obtain ⟨pts, H⟩ := H
    exact ⟨pts, hc1, H⟩
  clear h2 h3 hc1
  induction hcov with
  | @one r hmem hf =>
    have hlt := (hr.row _ _ hmem).lt
    refine ⟨[a, r.stop], ⟨rfl, rfl, by simp [hlt], by simp⟩, ?_⟩
    intro k x y hx hy
    match k with
    | 0 =>
      simp at hx hy
      subst hx; subst hy
      exact justified_of_fits hr hcl hmem hf
    | k + 1 => simp at hy
  | @more b r _ hmem hf ih =>
    obtain ⟨pts, hd, hj⟩ := ih
    have := extend (Q := fun _ => Justified m notes chord c) hd (hr.row _ _ hmem).lt hj
      (fun _ _ => justified_of_fits hr hcl hmem hf)
    exact ⟨_, this⟩

/-- C168: where no chord is forced, each note of the piece lies in a stretch of its segment for which its chord is
among the classes that the classifier finds likeliest, as many as the search is to branch on there (or two). -/
theorem C168_ranked (m : Joint π κ δ ρ H P) (hm : m.WF) (notes : List (τ × τ)) (dur : List δ)
    (chord key : ForcedType) (hc : NonNeg chord) (hk : NonNeg key)
    (hfree : ∀ j, labelAt chord j = none)
    (s : State κ H P) (h : m.getHarmony notes dur chord key = .ok (some s)) (i a b j : Nat)
    (h2 : (getChords s).2[i]? = some a) (h3 : (getChords s).2[i + 1]? = some b) (h4 : a ≤ j) (h5 : j < b) :
    ∃ c x y priors p, (getChords s).1[i]? = some (some c) ∧ a ≤ x ∧ x ≤ j ∧ j < y ∧ y ≤ b ∧
      Says m notes x y priors ∧ (m.argsort priors)[p]? = some c ∧
      (p < m.branch priors ∨ p = 1 ∧ m.branch priors = 1) := by
  obtain ⟨c, pts, hc1, ⟨d1, d2, d3, d4⟩, hj⟩ := C168_justified m hm notes dur chord key hc hk s h i a b h2 h3
  have find : ∀ n, n < pts.length → (∃ z, pts[n]? = some z ∧ j < z) →
      ∃ k x y, pts[k]? = some x ∧ pts[k + 1]? = some y ∧ x ≤ j ∧ j < y := by
    intro n
    induction n with
    | zero =>
      intro _ ⟨z, hz, hlt⟩
      rw [List.head?_eq_getElem?] at d1
      rw [d1] at hz
      have := Option.some.inj hz
      omega
    | succ n ih =>
      intro hn ⟨z, hz, hlt⟩
      have e : pts[n]? = some (pts[n]'(by omega)) := List.getElem?_eq_getElem _
      by_cases hx : j < pts[n]'(by omega)
      · exact ih (by omega) ⟨_, e, hx⟩
      · exact ⟨n, _, z, e, hz, by omega, hlt⟩
  rw [List.getLast?_eq_getElem?] at d2
  obtain ⟨k, x, y, hx, hy, l1, l2⟩ := find (pts.length - 1) (by omega) ⟨b, d2, h5⟩
  have mono : ∀ k k' u v : Nat, k ≤ k' → pts[k]? = some u → pts[k']? = some v → u ≤ v := by
    intro k k' u v hkk hu hv
    rcases Nat.eq_or_lt_of_le hkk with rfl | hlt
    · rw [hu] at hv; exact Nat.le_of_eq (Option.some.inj hv)
    · obtain ⟨_, rfl⟩ := List.getElem?_eq_some_iff.1 hu
      obtain ⟨_, rfl⟩ := List.getElem?_eq_some_iff.1 hv
      exact Nat.le_of_lt (List.pairwise_iff_getElem.1 d3 _ _ _ _ hlt)
  rcases hj k x y hx hy with ⟨q, -, -, hq⟩ | ⟨-, priors, hs, p, hp, hb⟩
  · rw [hfree q] at hq; cases hq
  · rw [List.head?_eq_getElem?] at d1
    have hy' := (List.getElem?_eq_some_iff.1 hy).1
    exact ⟨c, x, y, priors, p, hc1, mono 0 k _ _ (by omega) d1 hx, l1, l2,
      mono (k + 1) (pts.length - 1) _ _ (by omega) hy d2, hs, hp, hb⟩

end

/-! ### Examples -/

/-- The small model branches on one chord: the likeliest, and after a forced change the second. -/
example : seen ((demoJoint (fun _ => 1 / 2) 1).getHarmony threeNotes [1, 1, 1] ⟨[1], [], [], 2⟩ (free 23)) =
    some (([some 1, some 0], [0, 1, 3]), [5, 5], true) := by
  decide +kernel

/-- The hypotheses of `C168_justified` and `C168_ranked` hold. -/
example : ∃ s, (demoJoint (fun _ => 1 / 2) 1).getHarmony threeNotes [1, 1, 1] ⟨[1], [], [], 2⟩ (free 23) = .ok (some s) ∧
    (∃ x y p : Nat, 1 ≤ x ∧ x ≤ 2 ∧ 2 < y ∧ y ≤ 3 ∧ ([1, 0, 2] : List Int)[p]? = some 0 ∧ (p < 1 ∨ p = 1)) := by
  have h : seen ((demoJoint (fun _ => 1 / 2) 1).getHarmony threeNotes [1, 1, 1] ⟨[1], [], [], 2⟩ (free 23)) =
      some (([some 1, some 0], [0, 1, 3]), [5, 5], true) := by decide +kernel
  obtain ⟨s, h1, hs, -, -⟩ := seen_some h
  have hn : NonNeg ⟨[1], [], [], 2⟩ := ⟨by simp, by simp, by simp⟩
  have hn' : NonNeg (free 23) := ⟨by simp [free], by simp [free], by simp [free]⟩
  refine ⟨s, h1, ?_⟩
  obtain ⟨c, x, y, _, p, hc, l1, l2, l3, l4, -, hp, hb⟩ := C168_ranked _ (demoJoint_wf _ _) threeNotes [1, 1, 1] _ _
    hn hn' (fun j => by simp [labelAt]) s h1 1 1 3 2 (by rw [hs]; rfl) (by rw [hs]; rfl) (by decide) (by decide)
  rw [hs] at hc
  have hc : 0 = c := Option.some.inj (Option.some.inj hc)
  subst hc
  exact ⟨x, y, p, l1, l2, l3, l4, hp, hb.imp id And.left⟩

end Verif.Classify
