import Verif.Props.Thresholds
import Verif.Props.EvalDistance

/-!
# C167: what the thresholds rule out is counted as wrong
-/

set_option linter.unusedSectionVars false

namespace Verif.RuledOut
open Verif State Forced SearchData Joint Verif.Eval EvalDistance

/-- An input which does not count takes its duration from the sum. -/
theorem masked_sum : ∀ (cache : List ℚ) (m : List Bool), m.length = cache.length → (∀ d ∈ cache, 0 ≤ d) →
    ∀ (i : Nat) d, cache[i]? = some d → m[i]? ≠ some true →
    ((cache.zip m).map fun p => if p.2 then p.1 else 0).sum + d ≤ cache.sum
  | [], _, _, _, i, d, h, _ => by simp at h
  | x :: cache, b :: m, hl, hn, i, d, h, hm => by
    have hx := hn x (by simp)
    have hn' : ∀ d ∈ cache, 0 ≤ d := fun y hy => hn y (by simp [hy])
    have hl' : m.length = cache.length := by simpa using hl
    simp only [List.zip_cons_cons, List.map_cons, List.sum_cons]
    cases i with
    | zero =>
      simp only [List.getElem?_cons_zero, Option.some.injEq, ne_eq, Bool.not_eq_true] at h hm
      subst h; subst hm
      have := (share_sum_le cache m hl' hn').2.1
      simp only [Bool.false_eq_true, if_false]
      linarith
    | succ i =>
      simp only [List.getElem?_cons_succ] at h hm
      have := masked_sum cache m hl' hn' i d h hm
      split <;> linarith

theorem share_wrong {cache : List ℚ} {M : Nat → Prop} {r : ℚ} (h0 : ∀ d ∈ cache, 0 ≤ d) (hs : IsShare cache M r)
    {i : Nat} {d : ℚ} (hd : cache[i]? = some d) (hi : ¬ M i) : d ≤ (1 - r) * cache.sum := by
  obtain ⟨m, h1, h2, h3⟩ := hs
  have := masked_sum cache m h1 h0 i d hd fun h => hi ((h2 i).1 h).2
  rw [← h3] at this
  linarith

/-- Two inputs which are not both right. -/
theorem share_two {cache : List ℚ} {M : Nat → Prop} {r : ℚ} (h0 : ∀ d ∈ cache, 0 ≤ d) (hs : IsShare cache M r)
    {j k : Nat} {x y : ℚ} (hx : cache[j]? = some x) (hy : cache[k]? = some y) (h : ¬ (M j ∧ M k)) :
    min x y ≤ (1 - r) * cache.sum := by
  by_cases hj : M j
  · exact (min_le_right _ _).trans (share_wrong h0 hs hy fun hk => h ⟨hj, hk⟩)
  · exact (min_le_left _ _).trans (share_wrong h0 hs hx hj)

section
variable {π κ δ ε ρ H P τ : Type} [LinearOrder π] [Zero π] [One π] [Add κ] [Sub κ] [Zero κ] [DecidableEq κ]
  [DecidableEq H] [DecidableEq P] [AddCommMonoid δ] [LinearOrder δ] [LE τ] [LT τ] [DecidableLE τ]
  [DecidableLT τ]

/-- C167: of two notes with different annotated chords, between which the chord transition model is below its threshold
and no change is forced, one at least is wrong: what is lost is the shorter one of their durations or more. -/
theorem C167_chords (m : Joint π κ δ ρ H P) (hm : m.WF) (notes : List (τ × τ)) (dur : List δ)
    (hlen : dur.length = notes.length) (chord key : ForcedType) (hc : NonNeg chord) (hk : NonNeg key)
    (s : State κ H P) (h : m.getHarmony notes dur chord key = .ok (some s)) (A : EvalInput ε) (pt : PitchType)
    (useInv : Bool) (red : Reduction) (hd : DurationsOK A) (hA : ChordsOK A pt) (hn : A.inputs = notes.length)
    (h2 : A.estChordChanges = (getChords s).2) (j k : Nat) (hjk : j < k)
    (hkn : k < A.inputs)
    (hlow : ∀ i, j < i → i ≤ k → (i : Int) ∉ chord.changes ∧ m.ctm i < m.minChange) (g g' : Chord ε)
    (hg : Covers A.gtChords A.gtChordChanges j g) (hg' : Covers A.gtChords A.gtChordChanges k g')
    (hne : ¬ (g.root = g'.root ∧ red g.chordType = red g'.chordType ∧ (useInv = true → g.inversion = g'.inversion)))
    (x y : ℚ) (hx : A.cache[j]? = some x) (hy : A.cache[k]? = some y) :
    ∃ r, evaluateChords A pt useInv red = .ok r ∧ min x y ≤ (1 - r) * A.cache.sum := by
  obtain ⟨r, hr, hs, -⟩ := C37_chords_partial A pt useInv red hd hA
  refine ⟨r, hr, share_two hd.2.1 hs hx hy ?_⟩
  rintro ⟨⟨a, e, a1, ⟨i, c, e1, e2, e3, e4⟩, a3⟩, ⟨a', e', a1', a2', a3'⟩⟩
  have hcov : Covers A.estChords A.estChordChanges k e := by
    refine ⟨i, c, e1, e2, by omega, fun b hb => ?_⟩
    have hj := e4 b hb
    by_contra hle
    have hmem : b ∈ (getChords s).2 := by rw [← h2]; exact List.mem_of_getElem? hb
    have hl := hlow b hj (by omega)
    rcases Thresholds.C166_chords m hm notes dur hlen chord key hc hk s h b hmem (by omega) (by omega) with q | q
    · exact hl.1 q
    · exact absurd hl.2 (not_lt.2 q)
  obtain rfl := covers_unique hA.estSorted hcov a2'
  obtain rfl := covers_unique hA.gtSorted hg a1
  obtain rfl := covers_unique hA.gtSorted hg' a1'
  obtain ⟨c1, root, ct, inv, rfl, l1, l2, l3, l4⟩ := a3
  obtain ⟨c2, root', ct', inv', q0, q1, q2, q3, q4⟩ := a3'
  obtain rfl := Option.some.inj q0
  rw [l1] at q1
  have q1 := Except.ok.inj q1
  simp only [Prod.mk.injEq] at q1
  obtain ⟨rfl, rfl, rfl⟩ := q1
  exact hne ⟨l2.trans q2.symm, l3.trans q3.symm, fun hu => (l4 hu).trans (q4 hu).symm⟩

/-- C167: with a key transition model that is below its threshold throughout, and no forced key, one at least of two
notes with different annotated keys is wrong. -/
theorem C167_keys (m : Joint π κ δ ρ H P) (hm : m.WF) (notes : List (τ × τ)) (dur : List δ)
    (chord key : ForcedType) (hc : NonNeg chord) (hk : NonNeg key)
    (s : State κ H P) (h : m.getHarmony notes dur chord key = .ok (some s)) (hf : key.labels = [])
    (hp : ∀ t out, m.search.ktm t = .ok out → m.search.leProb m.search.minChange out.1 = false)
    (hz : m.search.leProb m.search.minChange m.search.zeroProb = false) (A : EvalInput ε) (pt : PitchType)
    (tonicOnly : Bool) (hd : DurationsOK A) (hA : KeysOK A pt) (h1 : A.estKeys = (getKeys s).1) (j k : Nat) (g g' : Key)
    (hg : Covers A.gtKeys A.gtKeyChanges j g) (hg' : Covers A.gtKeys A.gtKeyChanges k g')
    (hne : ¬ (g.relativeTonic = g'.relativeTonic ∧ (tonicOnly = false → g.relativeMode = g'.relativeMode)))
    (x y : ℚ) (hx : A.cache[j]? = some x) (hy : A.cache[k]? = some y) :
    ∃ r, evaluateKeys A pt tonicOnly = .ok r ∧ min x y ≤ (1 - r) * A.cache.sum := by
  obtain ⟨r, hr, hs, -⟩ := C37_keys_partial A pt tonicOnly hd hA
  refine ⟨r, hr, share_two hd.2.1 hs hx hy ?_⟩
  rintro ⟨⟨a, e, a1, ⟨i, c, e1, -⟩, a3⟩, ⟨a', e', a1', ⟨i', c', e1', -⟩, a3'⟩⟩
  have hall := Thresholds.one_key m hm notes dur chord key hc hk s h hf hp hz
  have hone : ∀ v ∈ A.estKeys, v = s.node.key := by
    intro v hv
    rw [h1] at hv
    obtain ⟨-, n, hn, rfl⟩ := mem_getKeys _ _ _ hv
    exact hall n hn
  obtain rfl := (hone e (List.mem_of_getElem? e1)).trans (hone e' (List.mem_of_getElem? e1')).symm
  obtain rfl := covers_unique hA.gtSorted hg a1
  obtain rfl := covers_unique hA.gtSorted hg' a1'
  obtain ⟨tonic, mode, l1, l2, l3⟩ := a3
  obtain ⟨tonic', mode', q1, q2, q3⟩ := a3'
  rw [l1] at q1
  have q1 := Except.ok.inj q1
  simp only [Prod.mk.injEq] at q1
  obtain ⟨rfl, rfl⟩ := q1
  exact hne ⟨l2.trans q2.symm, fun hu => (l3 hu).trans (q3 hu).symm⟩

/-- C167: the same is lost in the joint accuracy. -/
theorem C167_jointly (A : EvalInput ε) (rootType tonicType : PitchType) (useInv : Bool) (red : Reduction)
    (tonicOnly : Bool) (hd : DurationsOK A) (d r c k : ℚ)
    (h : evaluateJointly A rootType tonicType useInv red tonicOnly = .ok r)
    (hc : evaluateChords A rootType useInv red = .ok c) (hk : evaluateKeys A tonicType tonicOnly = .ok k)
    (hw : d ≤ (1 - c) * A.cache.sum ∨ d ≤ (1 - k) * A.cache.sum) : d ≤ (1 - r) * A.cache.sum := by
  obtain ⟨h1, h2⟩ := C37_joint_le A rootType tonicType useInv red tonicOnly hd.2.1 r c k h hc hk
  have hs := hd.2.2
  rcases hw with hw | hw
  · exact hw.trans (mul_le_mul_of_nonneg_right (by linarith) hs.le)
  · exact hw.trans (mul_le_mul_of_nonneg_right (by linarith) hs.le)

end

/-! ### Examples -/

/-- Two notes: a chord on C and one on G, in C and in G, with the analysis of Thresholds.lean below both thresholds. -/
def annotated : EvalInput ℚ :=
  { cache := [1, 2], inputs := 2,
    gtChords := [⟨0, 0, 0, .major, .major, 0, 0, 0, 1, .midi⟩, ⟨7, 11, 0, .major, .major, 0, 0, 0, 1, .midi⟩],
    gtChordChanges := [0, 1],
    gtKeys := [⟨0, 0, 0, .major, .major, .major, .midi⟩, ⟨7, 7, 0, .major, .major, .major, .midi⟩], gtKeyChanges := [0, 1],
    estChords := [some 1], estChordChanges := [0, 2], estKeys := [3], estKeyChanges := [0, 2] }

theorem annotated_ok : DurationsOK annotated ∧ ChordsOK annotated .midi ∧ KeysOK annotated .midi := by
  refine ⟨by unfold DurationsOK; decide +kernel, ⟨by decide, by decide, by decide, ?_, by decide, by decide, by decide,
    by decide, ?_⟩, ⟨by decide, by decide, by decide, by decide, by decide, by decide, by decide, by decide,
    ?_⟩⟩
  · simp only [annotated, List.mem_cons, List.not_mem_nil, or_false, forall_eq_or_imp, forall_eq]
    refine ⟨⟨trivial, ?_⟩, ⟨trivial, ?_⟩⟩ <;> simp [specEncodable, specRoots, specInversions, noReduction]
  · simp only [annotated, List.mem_cons, List.not_mem_nil, or_false, forall_eq]
    exact ⟨1, _, rfl, rfl⟩
  · simp only [annotated, List.mem_cons, List.not_mem_nil, or_false, forall_eq]
    exact ⟨_, rfl⟩

/-- The hypotheses of `C167_chords` and `C167_keys` hold: one chord and one key for two, so that at least the first note
is lost. -/
example : ∃ c k, evaluateChords annotated .midi true noReduction = .ok c ∧ 1 ≤ (1 - c) * 3 ∧
    evaluateKeys annotated .midi true = .ok k ∧ 1 ≤ (1 - k) * 3 := by
  have h : (((Thresholds.keyJoint (fun _ => 1 / 8) 2).getHarmony twoNotes [1, 1] (free 2) (free 23)).toOption.bind id).map
      (fun s => (getChords s, getKeys s)) = some (([some 1], [0, 2]), ([3], [0, 2])) := by decide +kernel
  cases hr : (Thresholds.keyJoint (fun _ => 1 / 8) 2).getHarmony twoNotes [1, 1] (free 2) (free 23) with
  | error e => rw [hr] at h; cases h
  | ok o =>
    cases o with
    | none => rw [hr] at h; cases h
    | some s =>
      rw [hr] at h
      simp only [Except.toOption, Option.bind_some, id_eq, Option.map_some, Option.some.injEq, Prod.mk.injEq] at h
      obtain ⟨h1, h2⟩ := h
      have hn : ∀ k, NonNeg (free k) := fun k => ⟨by simp [free], by simp [free], by simp [free]⟩
      obtain ⟨a, b, c⟩ := annotated_ok
      have hsum : annotated.cache.sum = 3 := by decide +kernel
      obtain ⟨r, e, hle⟩ := C167_chords _ (Thresholds.keyJoint_wf _ _) twoNotes [1, 1] rfl _ _ (hn 2) (hn 23) s hr annotated
        .midi true noReduction a b rfl (by rw [h1]; rfl) 0 1 (by decide) (by decide)
        (fun i _ _ => ⟨by simp [free], by show (1 / 8 : ℚ) < 1 / 4; norm_num⟩) _ _
        (covers_at 0 0 rfl rfl (by decide) (by decide)) (covers_at 1 1 rfl rfl (by decide) (by decide)) (by decide)
        1 2 rfl rfl
      obtain ⟨r', e', hle'⟩ := C167_keys _ (Thresholds.keyJoint_wf _ _) twoNotes [1, 1] _ _ (hn 2) (hn 23) s hr rfl
        (fun t out ho => by rw [← Except.ok.inj ho]; rfl) rfl annotated .midi true a c (by rw [h2]; rfl) 0 1 _ _
        (covers_at 0 0 rfl rfl (by decide) (by decide)) (covers_at 1 1 rfl rfl (by decide) (by decide)) (by decide)
        1 2 rfl rfl
      rw [hsum] at hle hle'
      exact ⟨r, r', e, by simpa using hle, e', by simpa using hle'⟩

end Verif.RuledOut
