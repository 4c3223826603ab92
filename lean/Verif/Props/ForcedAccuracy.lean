import Verif.Props.StableResult
import Verif.Props.LabelTable

/-!
# C144: what is forced is counted as right

The labels of a piece are forced in `get_harmony` (joint_model.py:505-629), and the result is evaluated
against the piece (eval_utils.py:298-628).
-/

set_option linter.unusedSectionVars false

namespace Verif.ForcedAccuracy
open Verif State Forced SearchData Joint StableResult Eval

/-- The chord labels forced are chords of the piece: a label on a note is the class of the chord of the piece
there. -/
def ChordsFrom {ε : Type} (A : EvalInput ε) (ft : ForcedType) : Prop :=
  ∀ (j : Nat) f g, j < A.inputs → labelAt ft j = some f → Covers A.gtChords A.gtChordChanges j g →
    g.oneHotIndex false true false noReduction = .ok f

/-- The same for keys. -/
def KeysFrom {ε : Type} (A : EvalInput ε) (ft : ForcedType) : Prop :=
  ∀ (j : Nat) f g, j < A.inputs → labelAt ft j = some f → Covers A.gtKeys A.gtKeyChanges j g →
    g.oneHotIndex = .ok f

/-- What is assumed of the chords and keys of the piece: they begin at the first input and have classes. -/
structure Annotated {ε : Type} (A : EvalInput ε) (pt : PitchType) : Prop where
  chordLen : A.gtChords.length = A.gtChordChanges.length
  chordStart : A.gtChordChanges[0]? = some 0
  chordSorted : A.gtChordChanges.Pairwise (· ≤ ·)
  chordClass : ∀ g ∈ A.gtChords, g.pitchType = pt ∧
    specEncodable g.chordType g.root pt g.inversion true false false noReduction
  keyLen : A.gtKeys.length = A.gtKeyChanges.length
  keyStart : A.gtKeyChanges[0]? = some 0
  keySorted : A.gtKeyChanges.Pairwise (· ≤ ·)
  keyClass : ∀ g ∈ A.gtKeys, g.tonicType = pt ∧ 0 ≤ g.relativeTonic ∧ g.relativeTonic < NUM_PITCHES pt

/-- The result `s` is what is evaluated. -/
structure Estimates {ε κ H P : Type} (A : EvalInput ε) (n : Nat) (s : State κ H P) : Prop where
  inputs : A.inputs = n
  chords : (A.estChords, A.estChordChanges) = getChords s
  keys : (A.estKeys, A.estKeyChanges) = getKeys s

/-- A class of a chord gives back the chord. -/
theorem chord_label {ε : Type} {g : Chord ε} {pt : PitchType} {v : Int} (h1 : g.pitchType = pt)
    (hv : g.oneHotIndex false true false noReduction = .ok v) :
    pyGet (stdLabels pt).chord v = .ok (g.root, g.chordType, g.inversion) := by
  simp only [Chord.oneHotIndex, Bool.false_eq_true, if_false, Bind.bind, Except.bind, h1] at hv
  have := (C01_encode_decode _ _ _ _ _ _ _ _ _ hv).2.2
  have h2 : chordFromOneHotIndex v pt true false false noReduction = .ok (g.root, g.chordType, g.inversion) := by
    rw [this]
    cases pt <;> rfl
  exact h2

theorem key_label {g : Key} {pt : PitchType} {v : Int}
    (h : g.tonicType = pt ∧ 0 ≤ g.relativeTonic ∧ g.relativeTonic < NUM_PITCHES pt) (hv : g.oneHotIndex = .ok v) :
    pyGet (stdLabels pt).key v = .ok (g.relativeTonic, g.relativeMode) := by
  have h3 := C03_encode_decode g.relativeMode g.relativeTonic pt
  rw [specPitches_eq, if_pos h.2] at h3
  obtain ⟨w, hw, _, _, hd⟩ := h3
  rw [Key.oneHotIndex, h.1, hw] at hv
  injection hv with hv
  rw [← hv]
  exact hd

/-- A share that contains given inputs is at least their duration. -/
theorem share_le (cache : List ℚ) (hn : ∀ d ∈ cache, 0 ≤ d) (M : Nat → Prop) (p : Nat → Bool) (r : ℚ)
    (h : IsShare cache M r) (hp : ∀ i, i < cache.length → p i = true → M i) :
    ((cache.zipIdx.filter fun x => p x.2).map (·.1)).sum ≤ r * cache.sum := by
  obtain ⟨m, hl, hm, hs⟩ := h
  rw [hs]
  have gen : ∀ (cache : List ℚ) (m : List Bool) (k : Nat), m.length = cache.length → (∀ d ∈ cache, 0 ≤ d) →
      (∀ i, i < cache.length → p (k + i) = true → m[i]? = some true) →
      (((cache.zipIdx k).filter fun x => p x.2).map (·.1)).sum ≤
        ((cache.zip m).map (fun p => if p.2 then p.1 else 0)).sum := by
    intro cache
    induction cache with
    | nil => intro m k _ _ _; simp
    | cons d cache ih =>
      intro m k hl hn hp
      cases m with
      | nil => simp at hl
      | cons b m =>
        have i1 := ih m (k + 1) (by simpa using hl) (fun x hx => hn x (by simp [hx])) (by
          intro i h1 h2
          have := hp (i + 1) (by simpa using h1) (by rw [show k + (i + 1) = k + 1 + i by omega]; exact h2)
          simpa using this)
        have hd := hn d (by simp)
        simp only [List.zipIdx_cons, List.zip_cons_cons, List.map_cons, List.sum_cons, List.filter_cons]
        by_cases hk : p k = true
        · have hb := hp 0 (by simp) hk
          simp only [List.getElem?_cons_zero, Option.some.injEq] at hb
          rw [if_pos hk, hb]
          simp only [List.map_cons, List.sum_cons, if_true]
          linarith
        · rw [if_neg hk]
          split <;> linarith
  exact gen cache m 0 hl hn (by
    intro i h1 h2
    rw [Nat.zero_add] at h2
    exact (hm i).2 ⟨h1, hp i h1 h2⟩)

section
variable {π κ δ ρ H P τ ε : Type} [LinearOrder π] [Zero π] [One π] [Add κ] [Sub κ] [Zero κ] [DecidableEq κ]
  [DecidableEq H] [DecidableEq P] [AddCommMonoid δ] [LinearOrder δ] [LE τ] [LT τ] [DecidableLE τ]
  [DecidableLT τ]

/-- What the evaluation assumes holds for every result. -/
theorem evaluable {m : Joint π κ δ ρ H P} (hm : m.WF) {pt : PitchType} (hlab : m.search.labels = stdLabels pt)
    (hpt : m.search.pitchType = pt) {n : Nat} {dur : List δ} {chord key : ForcedType}
    {s : State κ H P} {rows : List (Nat × RangeData κ)} {cids kids : List Int}
    (h : Run m n dur chord key (some s) rows cids kids) {A : EvalInput ε} (hA : Annotated A pt)
    (hE : Estimates A n s) : ChordsOK A pt ∧ KeysOK A pt := by
  have hd := h.ok hm
  obtain ⟨⟨⟨g, hg⟩, -⟩, hend⟩ := search_ok hd h.search
  have hg' : Reach (stdLabels pt) pt g m.search.hashLength s := by
    rw [← hlab]; exact hpt ▸ hg
  have e1 := Prod.ext_iff.1 hE.chords
  have e2 := Prod.ext_iff.1 hE.keys
  exact C37_search_estimates pt g _ hm.hash s hg' A (hE.inputs.trans hend.symm) e1.1 e1.2 e2.1 e2.2
    hA.chordLen hA.chordStart hA.chordSorted hA.chordClass hA.keyLen hA.keyStart hA.keySorted hA.keyClass

/-- The segment of a note. -/
theorem seg_at {n : Nat} {s : State κ H P} (ht : Tiles n s) (j : Nat) (hj : j < n) :
    ∃ (i p q : Nat) (x : Option Int), (getChords s).1[i]? = some x ∧
      (getChords s).2[i]? = some p ∧ (getChords s).2[i + 1]? = some q ∧ p ≤ j ∧ j < q := by
  obtain ⟨cs, hcs⟩ := cons_of_head ht.head
  have hin := ht.incr
  have hla := ht.last
  have hle := ht.len
  rw [hcs] at hin hla hle
  obtain ⟨i, p, q, e1, e2, e3, e4⟩ := locate cs 0 _ hin hla j (Nat.zero_le _) hj
  have hi : i < (getChords s).1.length := by
    obtain ⟨hlt, -⟩ := List.getElem?_eq_some_iff.1 e2
    omega
  exact ⟨i, p, q, _, List.getElem?_eq_getElem hi, by rw [hcs]; exact e1, by rw [hcs]; exact e2, e3, e4⟩

/-- What covers an input in runs with an end is what they spell out there. -/
theorem covers_of_runs {β : Type} (xs : List β) (cs : List Nat) (n j : Nat) (hlen : cs.length = xs.length)
    (hp : (0 :: cs).Pairwise (· < ·)) (hl : (0 :: cs).getLast? = some n) (hj : j < n) (x : β)
    (h : (expandRuns xs (0 :: cs))[j]? = some x) : Covers xs (0 :: cs) j x := by
  obtain ⟨i, p, q, e1, e2, e3, e4⟩ := locate cs 0 _ hp hl j (Nat.zero_le _) hj
  have hi : i < xs.length := by
    obtain ⟨hlt, -⟩ := List.getElem?_eq_some_iff.1 e2
    simp at hlt
    omega
  have hx : xs[i]? = some xs[i] := List.getElem?_eq_getElem hi
  have := expandRuns_at xs 0 cs hlen hp i _ p q j hx e1 e2 e3 e4
  rw [Nat.sub_zero, h] at this
  injection this with this
  exact ⟨i, p, by rw [hx, this], e1, e3, fun b hb => by rw [e2] at hb; injection hb with hb; omega⟩

/-- What covers a note of the piece. -/
theorem gt_covers {β : Type} (items : List β) (changes : List Nat) (h1 : items.length = changes.length)
    (h2 : changes[0]? = some 0) (j : Nat) : ∃ g, Covers items changes j g := by
  have hne : items ≠ [] := by
    intro h0
    have h3 := (List.getElem?_eq_some_iff.1 h2).1
    rw [← h1, h0] at h3
    simp at h3
  exact exists_covers items changes j 0 (Nat.le_of_eq h1) hne h2 (Nat.zero_le _) (by
    intro e he
    have := (List.getElem?_eq_some_iff.1 he).1
    omega)

/-- C144: a note on which the chord of the piece is forced is labelled with the right chord, under any
reduction. -/
theorem right_chord (m : Joint π κ δ ρ H P) (hm : m.WF) (pt : PitchType) (notes : List (τ × τ))
    (dur : List δ) (hlen : dur.length = notes.length) (chord key : ForcedType) (hc : NonNeg chord) (hk : NonNeg key)
    (ha : Aligned dur chord) (hl : LastOnset dur chord) (s : State κ H P)
    (h : m.getHarmony notes dur chord key = .ok (some s)) (A : EvalInput ε) (hA : Annotated A pt)
    (hE : Estimates A notes.length s) (hf : ChordsFrom A chord) (j : Nat) (hj : j < notes.length)
    (hs : (labelAt chord j).isSome) (useInv : Bool) (red : Reduction) : ChordRight A pt useInv red j := by
  obtain ⟨rows, cids, kids, hr⟩ := run m hm hc hk h
  have ht := tiles hm hr
  obtain ⟨f, hf'⟩ := Option.isSome_iff_exists.1 hs
  obtain ⟨i, p, q, x, e1, e2, e3, e4, e5⟩ := seg_at ht j hj
  have e6 := (C100_chords_partial m hm notes dur hlen chord key hc hk ha hl s h).1 i p q j f e2 e3 e4 e5 hf'
  obtain ⟨g, hg⟩ := gt_covers A.gtChords A.gtChordChanges hA.chordLen hA.chordStart j
  have hv := hf j f g (by rw [hE.inputs]; exact hj) hf' hg
  have hmem : g ∈ A.gtChords := by
    obtain ⟨k, _, hk, _⟩ := hg
    exact List.mem_of_getElem? hk
  have hlab := chord_label (hA.chordClass g hmem).1 hv
  have c1 := Prod.ext_iff.1 hE.chords
  have c2 : A.estChords = (getChords s).1 := c1.1
  have c3 : A.estChordChanges = (getChords s).2 := c1.2
  refine ⟨g, some f, hg, ⟨i, p, by rw [c2]; exact e6, by rw [c3]; exact e2, e4, ?_⟩, f, _, _, _, rfl, hlab, rfl, rfl,
    fun _ => rfl⟩
  intro b hb
  rw [c3, e3] at hb
  injection hb with hb
  omega

/-- C144 (partial): if chords of the piece are forced on notes of it, then the chord accuracy of the result is at
least the share of the duration of these notes, whatever the networks. (As in `C100_chords_partial`, the
labels are given for whole onsets, and at the last onset a change of the label is forced; see
`C144_last_fails`.) -/
theorem C144_chords_partial (m : Joint π κ δ ρ H P) (hm : m.WF) (pt : PitchType)
    (hlab : m.search.labels = stdLabels pt) (hpt : m.search.pitchType = pt) (notes : List (τ × τ))
    (dur : List δ) (hlen : dur.length = notes.length) (chord key : ForcedType) (hc : NonNeg chord) (hk : NonNeg key)
    (ha : Aligned dur chord) (hl : LastOnset dur chord) (s : State κ H P)
    (h : m.getHarmony notes dur chord key = .ok (some s)) (A : EvalInput ε) (hA : Annotated A pt)
    (hE : Estimates A notes.length s) (hd : DurationsOK A) (hf : ChordsFrom A chord)
    (useInv : Bool) (red : Reduction) :
    ∃ r, evaluateChords A pt useInv red = .ok r ∧ r ≤ 1 ∧
      ((A.cache.zipIdx.filter fun x => (labelAt chord x.2).isSome).map (·.1)).sum ≤ r * A.cache.sum := by
  obtain ⟨rows, cids, kids, hr⟩ := run m hm hc hk h
  obtain ⟨hC, -⟩ := evaluable hm hlab hpt hr hA hE
  obtain ⟨r, h1, h2, -, h4, -⟩ := C37_chords_partial A pt useInv red hd hC
  refine ⟨r, h1, h4, share_le _ hd.2.1 _ (fun j => (labelAt chord j).isSome) _ h2 ?_⟩
  intro j hj hs
  exact right_chord m hm pt notes dur hlen chord key hc hk ha hl s h A hA hE hf j
    (by have := hd.1; have := hE.inputs; omega) hs useInv red

/-- The key of the piece forced on every note, and no change of the key inside of a chord. -/
theorem right_key (m : Joint π κ δ ρ H P) (hm : m.WF) (pt : PitchType) (notes : List (τ × τ))
    (dur : List δ) (hlen : dur.length = notes.length) (chord key : ForcedType) (hc : NonNeg chord) (hk : NonNeg key)
    (ha : Aligned dur chord) (hl : LastOnset dur chord) (s : State κ H P)
    (h : m.getHarmony notes dur chord key = .ok (some s)) (A : EvalInput ε) (hA : Annotated A pt)
    (hE : Estimates A notes.length s)
    (hall : ∀ j, j < notes.length → (labelAt chord j).isSome ∧ (labelAt key j).isSome)
    (hkey : ∀ j, j + 1 < notes.length → labelAt chord j = labelAt chord (j + 1) →
      labelAt key j = labelAt key (j + 1))
    (hf : KeysFrom A key) (j : Nat) (hj : j < notes.length)
    (tonicOnly : Bool) : KeyRight A pt tonicOnly j := by
  obtain ⟨rows, cids, kids, hr⟩ := run m hm hc hk h
  have ht := tiles hm hr
  obtain ⟨i, p, q, x, e1, e2, e3, e4, e5⟩ := seg_at ht j hj
  have hq : q ≤ notes.length := by
    have hm := List.mem_of_getElem? e3
    have hla := ht.last
    have hin := ht.incr
    obtain ⟨ys, hys⟩ := List.getLast?_eq_some_iff.mp hla
    rw [hys] at hm hin
    rcases List.mem_append.mp hm with hm | hm
    · exact Nat.le_of_lt ((List.pairwise_append.mp hin).2.2 q hm _ (by simp))
    · simp at hm; omega
  have first := (C100_chords_partial m hm notes dur hlen chord key hc hk ha hl s h).1
  have chordAt : ∀ k, p ≤ k → k < q → some (labelAt chord k) = (getChords s).1[i]? := by
    intro k k1 k2
    obtain ⟨f, hf⟩ := Option.isSome_iff_exists.1 (hall k (by omega)).1
    rw [first i p q k f e2 e3 k1 k2 hf, hf]
  have keyAt : ∀ k, p ≤ k → k < q → labelAt key k = labelAt key p := by
    intro k k1
    induction k, k1 using Nat.le_induction with
    | base => intro _; rfl
    | succ k k1 ih =>
      intro k2
      rw [← ih (by omega)]
      refine (hkey k (by omega) ?_).symm
      have := (chordAt k k1 (by omega)).trans (chordAt (k + 1) (by omega) k2).symm
      injection this
  obtain ⟨f, hf'⟩ := Option.isSome_iff_exists.1 (hall j hj).2
  have e6 := C101_keys_partial m hm notes dur hlen chord key hc hk s h i p q j f e2 e3 e4 e5 hf' (by
    intro k g k1 k2 k3
    rw [keyAt k k1 k2, ← keyAt j e4 e5, hf'] at k3
    injection k3 with k3
    exact k3.symm)
  have e7 : (expandRuns (getKeys s).1 (getKeys s).2)[j]? = some f := by
    obtain ⟨cs, hcs⟩ := cons_of_head ht.head
    have hin := ht.incr
    have hle := ht.len
    rw [hcs] at hin hle
    have := expandRuns_at (chordKeys s) 0 cs (by have := ht.count; simp at hle; omega) hin i f p q j e6
      (by rw [← hcs]; exact e2) (by rw [← hcs]; exact e3) e4 e5
    rw [ht.keys, hcs]
    exact this
  have hcov : Covers (getKeys s).1 (getKeys s).2 j f := by
    obtain ⟨cs, hcs⟩ := cons_of_head ht.khead
    have hin := ht.kincr
    have hle := ht.klen
    have hla := ht.klast
    rw [hcs] at hin hle hla e7 ⊢
    exact covers_of_runs _ _ _ _ (by simpa using hle) hin hla hj _ e7
  obtain ⟨g, hg⟩ := gt_covers A.gtKeys A.gtKeyChanges hA.keyLen hA.keyStart j
  have hv := hf j f g (by rw [hE.inputs]; exact hj) hf' hg
  have hmem : g ∈ A.gtKeys := by
    obtain ⟨k, _, hk, _⟩ := hg
    exact List.mem_of_getElem? hk
  have c1 := Prod.ext_iff.1 hE.keys
  have c2 : A.estKeys = (getKeys s).1 := c1.1
  have c3 : A.estKeyChanges = (getKeys s).2 := c1.2
  refine ⟨g, f, hg, by rw [c2, c3]; exact hcov, _, _, key_label (hA.keyClass g hmem) hv, rfl, fun _ => rfl⟩

/-- C144 (partial): if the chord and the key of the piece are forced on every note, the result has accuracy 1 in
all the evaluations. (Besides the conditions of `C144_chords_partial`, the key changes only where the
chord does; see `C144_key_fails`.) -/
theorem C144_all_partial (m : Joint π κ δ ρ H P) (hm : m.WF) (pt : PitchType)
    (hlab : m.search.labels = stdLabels pt) (hpt : m.search.pitchType = pt) (notes : List (τ × τ))
    (dur : List δ) (hlen : dur.length = notes.length) (chord key : ForcedType) (hc : NonNeg chord) (hk : NonNeg key)
    (ha : Aligned dur chord) (hl : LastOnset dur chord)
    (hall : ∀ j, j < notes.length → (labelAt chord j).isSome ∧ (labelAt key j).isSome)
    (hkey : ∀ j, j + 1 < notes.length → labelAt chord j = labelAt chord (j + 1) →
      labelAt key j = labelAt key (j + 1))
    (s : State κ H P) (h : m.getHarmony notes dur chord key = .ok (some s)) (A : EvalInput ε) (hA : Annotated A pt)
    (hE : Estimates A notes.length s) (hd : DurationsOK A) (hf : ChordsFrom A chord) (hfk : KeysFrom A key)
    (useInv : Bool) (red : Reduction) (tonicOnly : Bool) :
    evaluateChords A pt useInv red = .ok 1 ∧ evaluateKeys A pt tonicOnly = .ok 1 ∧
      evaluateJointly A pt pt useInv red tonicOnly = .ok 1 := by
  obtain ⟨rows, cids, kids, hr⟩ := run m hm hc hk h
  obtain ⟨hC, hK⟩ := evaluable hm hlab hpt hr hA hE
  have lt : ∀ (i : Nat) d, A.cache[i]? = some d → i < notes.length := by
    intro i d hi
    have := (List.getElem?_eq_some_iff.1 hi).1
    have := hd.1
    have := hE.inputs
    omega
  have rc := fun j hj => right_chord m hm pt notes dur hlen chord key hc hk ha hl s h A hA hE hf j hj (hall j hj).1
    useInv red
  have rk := fun j hj => right_key m hm pt notes dur hlen chord key hc hk ha hl s h A hA hE hall hkey hfk j hj
    tonicOnly
  obtain ⟨r1, a1, -, -, -, b1⟩ := C37_chords_partial A pt useInv red hd hC
  obtain ⟨r2, a2, -, -, -, b2⟩ := C37_keys_partial A pt tonicOnly hd hK
  obtain ⟨r3, a3, -, -, -, b3⟩ := C37_jointly_partial A pt pt useInv red tonicOnly hd hC hK
  rw [a1, a2, a3, b1.2 fun i d hi _ => rc i (lt i d hi), b2.2 fun i d hi _ => rk i (lt i d hi),
    b3.2 fun i d hi _ => ⟨rc i (lt i d hi), rk i (lt i d hi)⟩]
  exact ⟨rfl, rfl, rfl⟩

end

/-! ## The forces made from a piece -/

/-- What is forced at an input that an item of the piece covers. -/
theorem runs_label {β : Type} (codes : List Int) (items : List β) (changes : List Nat) (n : Nat) (cs ncs : List Int)
    (maxId : Int) (hl : codes.length = changes.length) (hl' : items.length = changes.length)
    (hp : changes.Pairwise (· < ·)) (hn : ∀ c ∈ changes, c < n) (j : Nat) (hj : j < n) (g : β)
    (h : Covers items changes j g) : ∃ (k : Nat) (v : Int), items[k]? = some g ∧ codes[k]? = some v ∧
      labelAt ⟨cs, ncs, runItems codes (changes ++ [n]), maxId⟩ j = some v := by
  obtain ⟨k, a, h1, h2, h3, h4⟩ := h
  obtain ⟨hk, -⟩ := List.getElem?_eq_some_iff.1 h1
  have hv : codes[k]? = some (codes[k]'(by omega)) := List.getElem?_eq_getElem _
  refine ⟨k, _, h1, hv, ?_⟩
  have hp' : (changes ++ [n]).Pairwise (· < ·) := by
    rw [List.pairwise_append]
    refine ⟨hp, by simp, ?_⟩
    intro x hx y hy
    rw [List.mem_singleton.1 hy]
    exact hn x hx
  obtain ⟨q, hq, hjq⟩ : ∃ q, (changes ++ [n])[k + 1]? = some q ∧ j < q := by
    by_cases hlt : k + 1 < changes.length
    · refine ⟨changes[k + 1], ?_, h4 _ (List.getElem?_eq_getElem hlt)⟩
      rw [List.getElem?_append_left hlt]
      exact List.getElem?_eq_getElem hlt
    · refine ⟨n, ?_, hj⟩
      rw [List.getElem?_append_right (by omega), show k + 1 - changes.length = 0 by omega]
      rfl
  have := runItems_at codes (changes ++ [n]) (by simp; omega) hp' k _ a q j hv
    (by rw [List.getElem?_append_left (by omega)]; exact h2) hq h3 hjq
  simp only [labelAt, this, Option.map_some]

theorem chordsFrom_runs {ε : Type} (A : EvalInput ε) (codes : List Int) (cs ncs : List Int) (maxId : Int)
    (hl' : A.gtChords.length = A.gtChordChanges.length)
    (hp : A.gtChordChanges.Pairwise (· < ·)) (hn : ∀ c ∈ A.gtChordChanges, c < A.inputs)
    (hc : A.gtChords.map (fun g => g.oneHotIndex false true false noReduction) = codes.map .ok) :
    ChordsFrom A ⟨cs, ncs, runItems codes (A.gtChordChanges ++ [A.inputs]), maxId⟩ := by
  have hl : codes.length = A.gtChordChanges.length := by
    rw [← hl']; simpa using (congrArg List.length hc).symm
  intro j f g hj hf hg
  obtain ⟨k, v, h1, h2, h3⟩ := runs_label codes _ _ A.inputs cs ncs maxId hl hl' hp hn j hj g hg
  rw [h3] at hf
  injection hf with hf
  have := congrArg (·[k]?) hc
  simp only [List.getElem?_map, h1, h2, Option.map_some, Option.some.injEq] at this
  rw [this, hf]

theorem keysFrom_runs {ε : Type} (A : EvalInput ε) (codes : List Int) (cs ncs : List Int) (maxId : Int)
    (hl' : A.gtKeys.length = A.gtKeyChanges.length)
    (hp : A.gtKeyChanges.Pairwise (· < ·)) (hn : ∀ c ∈ A.gtKeyChanges, c < A.inputs)
    (hc : A.gtKeys.map Key.oneHotIndex = codes.map .ok) :
    KeysFrom A ⟨cs, ncs, runItems codes (A.gtKeyChanges ++ [A.inputs]), maxId⟩ := by
  have hl : codes.length = A.gtKeyChanges.length := by
    rw [← hl']; simpa using (congrArg List.length hc).symm
  intro j f g hj hf hg
  obtain ⟨k, v, h1, h2, h3⟩ := runs_label codes _ _ A.inputs cs ncs maxId hl hl' hp hn j hj g hg
  rw [h3] at hf
  injection hf with hf
  have := congrArg (·[k]?) hc
  simp only [List.getElem?_map, h1, h2, Option.map_some, Option.some.injEq] at this
  rw [this, hf]

/-- The chords of a piece with their changes as forced ones, given their classes. -/
def forcedChordsFor {ε : Type} (A : EvalInput ε) (codes : List Int) (maxId : Int) : ForcedType :=
  ⟨(A.gtChordChanges.filter (fun i => decide (0 < i))).map (fun i : Nat => (i : Int)), [],
    runItems codes (A.gtChordChanges ++ [A.inputs]), maxId⟩

/-- The keys of a piece as forced ones. -/
def forcedKeysFor {ε : Type} (A : EvalInput ε) (codes : List Int) (maxId : Int) : ForcedType :=
  ⟨[], [], runItems codes (A.gtKeyChanges ++ [A.inputs]), maxId⟩

/-- Two neighbours are covered by the same item, or the second one is a change. -/
theorem covers_next {β : Type} (items : List β) (changes : List Nat) (j : Nat) (g : β)
    (h : Covers items changes j g) : Covers items changes (j + 1) g ∨ j + 1 ∈ changes := by
  obtain ⟨k, a, h1, h2, h3, h4⟩ := h
  by_cases hm : changes[k + 1]? = some (j + 1)
  · exact .inr (List.mem_of_getElem? hm)
  · refine .inl ⟨k, a, h1, h2, by omega, ?_⟩
    intro b hb
    have := h4 b hb
    have : b ≠ j + 1 := fun h => hm (h ▸ hb)
    omega

section
variable {π κ δ ρ H P τ ε : Type} [LinearOrder π] [Zero π] [One π] [Add κ] [Sub κ] [Zero κ] [DecidableEq κ]
  [DecidableEq H] [DecidableEq P] [AddCommMonoid δ] [LinearOrder δ] [LE τ] [LT τ] [DecidableLE τ]
  [DecidableLT τ]

/-- C144 (partial): if the chords of a piece with their changes, and its keys, are forced on it, every result has
accuracy 1 in all the evaluations, whatever the networks. The chords of the piece change at onsets, and
its key changes only where the chord becomes another one (see `C144_key_fails`). -/
theorem C144_annotation_partial (m : Joint π κ δ ρ H P) (hm : m.WF) (pt : PitchType)
    (hlab : m.search.labels = stdLabels pt) (hpt : m.search.pitchType = pt) (notes : List (τ × τ))
    (dur : List δ) (hlen : dur.length = notes.length) (A : EvalInput ε) (hA : Annotated A pt) (hd : DurationsOK A)
    (hcs : A.gtChordChanges.Pairwise (· < ·)) (hcn : ∀ c ∈ A.gtChordChanges, c < A.inputs)
    (hks : A.gtKeyChanges.Pairwise (· < ·)) (hkn : ∀ c ∈ A.gtKeyChanges, c < A.inputs)
    (hon : ∀ c ∈ A.gtChordChanges, 0 < c → dur[c - 1]? ≠ some 0)
    (hkc : ∀ c ∈ A.gtKeyChanges, 0 < c → ∀ g g', Covers A.gtChords A.gtChordChanges (c - 1) g →
      Covers A.gtChords A.gtChordChanges c g' →
      (g.root, g.chordType, g.inversion) ≠ (g'.root, g'.chordType, g'.inversion))
    (chordCodes keyCodes : List Int)
    (hcc : A.gtChords.map (fun g => g.oneHotIndex false true false noReduction) = chordCodes.map .ok)
    (hkk : A.gtKeys.map Key.oneHotIndex = keyCodes.map .ok) (chordMax keyMax : Int) (s : State κ H P)
    (h : m.getHarmony notes dur (forcedChordsFor A chordCodes chordMax) (forcedKeysFor A keyCodes keyMax) =
      .ok (some s)) (hE : Estimates A notes.length s)
    (useInv : Bool) (red : Reduction) (tonicOnly : Bool) :
    evaluateChords A pt useInv red = .ok 1 ∧ evaluateKeys A pt tonicOnly = .ok 1 ∧
      evaluateJointly A pt pt useInv red tonicOnly = .ok 1 := by
  have hl1 : chordCodes.length = A.gtChordChanges.length := by
    rw [← hA.chordLen]; simpa using (congrArg List.length hcc).symm
  have hl2 : keyCodes.length = A.gtKeyChanges.length := by
    rw [← hA.keyLen]; simpa using (congrArg List.length hkk).symm
  have hn := hE.inputs
  have labC := fun j hj g => runs_label chordCodes A.gtChords A.gtChordChanges A.inputs
    ((A.gtChordChanges.filter (fun i => decide (0 < i))).map (fun i : Nat => (i : Int))) [] chordMax hl1 hA.chordLen
    hcs hcn j hj g
  have labK := fun j hj g => runs_label keyCodes A.gtKeys A.gtKeyChanges A.inputs [] [] keyMax hl2 hA.keyLen hks hkn
    j hj g
  have fromC : ChordsFrom A (forcedChordsFor A chordCodes chordMax) :=
    chordsFrom_runs A chordCodes _ _ _ hA.chordLen hcs hcn hcc
  have fromK : KeysFrom A (forcedKeysFor A keyCodes keyMax) :=
    keysFrom_runs A keyCodes _ _ _ hA.keyLen hks hkn hkk
  have covC := gt_covers A.gtChords A.gtChordChanges hA.chordLen hA.chordStart
  have covK := gt_covers A.gtKeys A.gtKeyChanges hA.keyLen hA.keyStart
  -- the label of an item is a function of the item
  have atC : ∀ j, j < A.inputs → ∀ g, Covers A.gtChords A.gtChordChanges j g → ∃ v,
      labelAt (forcedChordsFor A chordCodes chordMax) j = some v ∧
      g.oneHotIndex false true false noReduction = .ok v := by
    intro j hj g hg
    obtain ⟨k, v, -, -, h3⟩ := labC j hj g hg
    exact ⟨v, h3, fromC j v g hj h3 hg⟩
  have atK : ∀ j, j < A.inputs → ∀ g, Covers A.gtKeys A.gtKeyChanges j g → ∃ v,
      labelAt (forcedKeysFor A keyCodes keyMax) j = some v ∧ g.oneHotIndex = .ok v := by
    intro j hj g hg
    obtain ⟨k, v, -, -, h3⟩ := labK j hj g hg
    exact ⟨v, h3, fromK j v g hj h3 hg⟩
  have nextC : ∀ j, j + 1 < A.inputs → j + 1 ∈ A.gtChordChanges ∨
      labelAt (forcedChordsFor A chordCodes chordMax) j = labelAt (forcedChordsFor A chordCodes chordMax) (j + 1) := by
    intro j hj
    obtain ⟨g, hg⟩ := covC j
    rcases covers_next _ _ j g hg with h1 | h1
    · right
      obtain ⟨v, e1, e2⟩ := atC j (by omega) g hg
      obtain ⟨w, f1, f2⟩ := atC (j + 1) hj g h1
      rw [e2] at f2
      injection f2 with f2
      rw [e1, f1, f2]
    · exact .inl h1
  have hal : Aligned dur (forcedChordsFor A chordCodes chordMax) := by
    intro j hj h0
    rcases nextC j (by omega) with h1 | h1
    · exact absurd h0 (hon _ h1 (by omega))
    · exact h1
  have hlast : LastOnset dur (forcedChordsFor A chordCodes chordMax) := by
    intro g g0 g1 g2 g3
    rcases nextC (g - 1) (by omega) with h1 | h1
    · left
      rw [show g - 1 + 1 = g by omega] at h1
      simp only [forcedChordsFor, List.mem_map, List.mem_filter, decide_eq_true_eq]
      exact ⟨g, ⟨h1, g0⟩, rfl⟩
    · right; left
      rw [h1, show g - 1 + 1 = g by omega]
      have : ∀ k, g ≤ k → k < dur.length → labelAt (forcedChordsFor A chordCodes chordMax) g =
          labelAt (forcedChordsFor A chordCodes chordMax) k := by
        intro k k1
        induction k, k1 using Nat.le_induction with
        | base => intro _; rfl
        | succ k k1 ih =>
          intro k2
          rw [ih (by omega)]
          exact hal k k2 (g3 k (by omega) k2)
      exact this _ (by omega) (by omega)
  refine C144_all_partial m hm pt hlab hpt notes dur hlen _ _ ?_ ?_ hal hlast ?_ ?_ s h A hA hE hd fromC fromK useInv red
    tonicOnly
  · refine ⟨?_, by simp [forcedChordsFor], runItems_nonneg _ _⟩
    intro c hc
    simp only [forcedChordsFor, List.mem_map] at hc
    obtain ⟨i, -, rfl⟩ := hc
    omega
  · exact ⟨by simp [forcedKeysFor], by simp [forcedKeysFor], runItems_nonneg _ _⟩
  · intro j hj
    obtain ⟨g, hg⟩ := covC j
    obtain ⟨g', hg'⟩ := covK j
    obtain ⟨v, e1, -⟩ := atC j (by omega) g hg
    obtain ⟨w, f1, -⟩ := atK j (by omega) g' hg'
    rw [e1, f1]
    exact ⟨rfl, rfl⟩
  · intro j hj hsame
    obtain ⟨g, hg⟩ := covK j
    rcases covers_next _ _ j g hg with h1 | h1
    · obtain ⟨v, e1, e2⟩ := atK j (by omega) g hg
      obtain ⟨w, f1, f2⟩ := atK (j + 1) (by omega) g h1
      rw [e2] at f2
      injection f2 with f2
      rw [e1, f1, f2]
    · exfalso
      obtain ⟨c, hc⟩ := covC j
      obtain ⟨c', hc'⟩ := covC (j + 1)
      obtain ⟨v, e1, e2⟩ := atC j (by omega) c hc
      obtain ⟨w, f1, f2⟩ := atC (j + 1) (by omega) c' hc'
      rw [e1, f1] at hsame
      injection hsame with hsame
      have m1 : c ∈ A.gtChords := by obtain ⟨k, _, hk, _⟩ := hc; exact List.mem_of_getElem? hk
      have m2 : c' ∈ A.gtChords := by obtain ⟨k, _, hk, _⟩ := hc'; exact List.mem_of_getElem? hk
      have l1 := chord_label (hA.chordClass c m1).1 e2
      have l2 := chord_label (hA.chordClass c' m2).1 f2
      rw [hsame, l2] at l1
      injection l1 with l1
      exact hkc (j + 1) h1 (by omega) c c' hc hc' l1.symm

end

/-! ## Concrete cases -/

/-- The small joint model with all the chords (it branches on the first three: C major and its inversions). -/
def stdJoint (ctm : Nat → ℚ) (width : Nat) : Joint ℚ LogP Nat Int Unit Unit :=
  { demoJoint ctm width with search := { (demoJoint ctm width).search with labels := stdLabels .midi } }

theorem stdJoint_wf (ctm : Nat → ℚ) (width : Nat) : (stdJoint ctm width).WF where
  minPos := (demoJoint_wf ctm width).minPos
  order := (demoJoint_wf ctm width).order
  maxLt := (demoJoint_wf ctm width).maxLt
  hash := by intro k h; cases h
  pick := pickMin_mem

def threeNotes : List (Nat × Nat) := [(0, 1), (1, 2), (2, 3)]

/-- C major in the given inversion. -/
def inversion (inv : Int) : Chord ℚ := ⟨0, 0, 0, .major, .major, inv, 0, 0, 1, .midi⟩

/-- E flat, in the given mode. -/
def eFlat (mode : KeyMode) : Key := ⟨3, 3, 3, mode, mode, mode, .midi⟩

/-- A piece of three notes, with a result. -/
def judged (chords : List (Chord ℚ)) (chordChanges : List Nat) (keys : List Key) (keyChanges : List Nat)
    (x : (List (Option Int) × List Nat) × (List Int × List Nat)) : EvalInput ℚ :=
  { cache := [1, 1, 2], inputs := 3, gtChords := chords, gtChordChanges := chordChanges, gtKeys := keys,
    gtKeyChanges := keyChanges, estChords := x.1.1, estChordChanges := x.1.2, estKeys := x.2.1,
    estKeyChanges := x.2.2 }

/-- The chords and keys of a result. -/
def shown (r : Py (Option (State LogP Unit Unit))) :
    Option ((List (Option Int) × List Nat) × (List Int × List Nat)) :=
  (r.toOption.bind id).map fun s => (getChords s, getKeys s)

theorem shown_some {r : Py (Option (State LogP Unit Unit))}
    {x : (List (Option Int) × List Nat) × (List Int × List Nat)} (h : shown r = some x) :
    ∃ s, r = .ok (some s) ∧ getChords s = x.1 ∧ getKeys s = x.2 := by
  cases r with
  | error e => cases h
  | ok o =>
    cases o with
    | none => cases h
    | some s =>
      simp only [shown, Except.toOption, Option.bind_some, id_eq, Option.map_some, Option.some.injEq] at h
      exact ⟨s, rfl, by rw [← h], by rw [← h]⟩

theorem judged_durations (c : List (Chord ℚ)) (cc : List Nat) (k : List Key) (kc : List Nat) (x) :
    DurationsOK (judged c cc k kc x) := by
  refine ⟨rfl, ?_, ?_⟩
  · show ∀ d ∈ [(1 : ℚ), 1, 2], 0 ≤ d
    decide +kernel
  · show (0 : ℚ) < [(1 : ℚ), 1, 2].sum
    decide +kernel

/-- A piece with three chords and two keys, and the result below. -/
def keptPiece := judged [inversion 1, inversion 2, inversion 0] [0, 1, 2] [eFlat .major, eFlat .minor] [0, 1]
  (([some 1, some 2, some 0], [0, 1, 2, 3]), ([3, 15], [0, 1, 3]))

/-- `C144_annotation_partial` for this piece, on models that prefer other chords and no changes: what is forced, the
result, and the accuracy. -/
example : forcedChordsFor keptPiece [1, 2, 0] 528 =
      ⟨[1, 2], [], [((0, 1), 1), ((1, 2), 2), ((2, 3), 0)], 528⟩ ∧
    keptPiece.gtChords.map (fun g => g.oneHotIndex false true false noReduction) = [1, 2, 0].map .ok ∧
    forcedKeysFor keptPiece [3, 15] 24 = ⟨[], [], [((0, 1), 3), ((1, 3), 15)], 24⟩ ∧
    keptPiece.gtKeys.map Key.oneHotIndex = [3, 15].map .ok ∧
    shown ((stdJoint (fun _ => 1 / 10) 3).getHarmony threeNotes [1, 1, 2] (forcedChordsFor keptPiece [1, 2, 0] 528)
      (forcedKeysFor keptPiece [3, 15] 24)) =
      some (([some 1, some 2, some 0], [0, 1, 2, 3]), ([3, 15], [0, 1, 3])) ∧
    evaluateJointly keptPiece .midi .midi true noReduction false = .ok 1 := by
  refine ⟨rfl, ?_, rfl, ?_, ?_, ?_⟩ <;> decide +kernel

/-- One chord forced of the piece, on the last note: the accuracy is at least half of the duration. Here it is
that. -/
example : shown ((stdJoint (fun _ => 1 / 2) 3).getHarmony threeNotes [1, 1, 2]
      ⟨[2], [], [((2, 3), 0)], 528⟩ (free 24)) = some (([some 1, some 0], [0, 2, 3]), ([2], [0, 3])) ∧
    evaluateChords (judged [inversion 2, inversion 0] [0, 2] [eFlat .major] [0]
      (([some 1, some 0], [0, 2, 3]), ([2], [0, 3]))) .midi true noReduction = .ok (1 / 2) := by
  constructor <;> decide +kernel

/-- A piece whose chords are not all in the result, though their labels are forced. -/
def lostPiece := judged [inversion 1, inversion 2, inversion 0] [0, 1, 2] [eFlat .major, eFlat .minor] [0, 1]
  (([some 1, some 0], [0, 1, 3]), ([3, 15], [0, 1, 3]))

/-- A piece whose key changes inside of a chord. -/
def turningPiece := judged [inversion 1, inversion 2] [0, 1] [eFlat .major, eFlat .minor] [0, 2]
  (([some 1, some 2], [0, 1, 3]), ([3], [0, 3]))

theorem lost_annotated : Annotated lostPiece .midi := by
  refine ⟨by decide, by decide, by decide, ?_, by decide, by decide, by decide, by decide⟩
  simp only [lostPiece, judged, inversion, List.mem_cons, List.not_mem_nil, or_false, forall_eq_or_imp, forall_eq]
  refine ⟨⟨trivial, ?_⟩, ⟨trivial, ?_⟩, ⟨trivial, ?_⟩⟩ <;>
    simp [specEncodable, specRoots, specInversions, noReduction]

theorem turning_annotated : Annotated turningPiece .midi := by
  refine ⟨by decide, by decide, by decide, ?_, by decide, by decide, by decide, by decide⟩
  simp only [turningPiece, judged, inversion, List.mem_cons, List.not_mem_nil, or_false, forall_eq_or_imp, forall_eq]
  refine ⟨⟨trivial, ?_⟩, ⟨trivial, ?_⟩⟩ <;>
    simp [specEncodable, specRoots, specInversions, noReduction]

/-- C144 fails without a forced change at the last onset: all the chords and keys of the piece are forced, and the
result has the chord of the last note on the two last notes. A quarter of the duration is wrong. -/
theorem C144_last_fails : ∃ (m : Joint ℚ LogP Nat Int Unit Unit) (chord key : ForcedType) (s : State LogP Unit Unit)
    (A : EvalInput ℚ), m.WF ∧ m.search.labels = stdLabels .midi ∧ m.search.pitchType = .midi ∧
    (∀ j, j < 3 → (labelAt chord j).isSome ∧ (labelAt key j).isSome) ∧
    (∀ j, j < 2 → labelAt chord j ≠ labelAt chord (j + 1)) ∧
    m.getHarmony threeNotes [1, 1, 2] chord key = .ok (some s) ∧ Annotated A .midi ∧ Estimates A 3 s ∧
    DurationsOK A ∧ ChordsFrom A chord ∧ KeysFrom A key ∧
    evaluateChords A .midi true noReduction = .ok (3 / 4) := by
  have h : shown ((stdJoint (fun i => if i = 1 then 1 / 2 else 1 / 10) 3).getHarmony threeNotes [1, 1, 2]
      ⟨[], [], runItems [1, 2, 0] ([0, 1, 2] ++ [3]), 528⟩ ⟨[], [], runItems [3, 15] ([0, 1] ++ [3]), 24⟩) =
      some (([some 1, some 0], [0, 1, 3]), ([3, 15], [0, 1, 3])) := by decide +kernel
  obtain ⟨s, h1, h2, h3⟩ := shown_some h
  refine ⟨_, _, _, s, lostPiece, stdJoint_wf _ _, rfl, rfl, by decide, by decide, h1, lost_annotated,
    ⟨rfl, h2.symm, h3.symm⟩, judged_durations _ _ _ _ _, ?_, ?_, by decide +kernel⟩
  · exact chordsFrom_runs _ [1, 2, 0] _ _ _ (by decide) (by decide) (by decide) (by decide +kernel)
  · exact keysFrom_runs _ [3, 15] _ _ _ (by decide) (by decide) (by decide) (by decide +kernel)

/-- C144 fails if the key changes inside of a chord: all the chords with their changes and all the keys are
forced, and half of the duration has the wrong key. -/
theorem C144_key_fails : ∃ (m : Joint ℚ LogP Nat Int Unit Unit) (chord key : ForcedType) (s : State LogP Unit Unit)
    (A : EvalInput ℚ), m.WF ∧ m.search.labels = stdLabels .midi ∧ m.search.pitchType = .midi ∧
    (∀ j, j < 3 → (labelAt chord j).isSome ∧ (labelAt key j).isSome) ∧
    (∀ c ∈ A.gtChordChanges, 0 < c → (c : Int) ∈ chord.changes) ∧
    m.getHarmony threeNotes [1, 1, 2] chord key = .ok (some s) ∧ Annotated A .midi ∧ Estimates A 3 s ∧
    DurationsOK A ∧ ChordsFrom A chord ∧ KeysFrom A key ∧
    evaluateChords A .midi true noReduction = .ok 1 ∧ evaluateKeys A .midi false = .ok (1 / 2) := by
  have h : shown ((stdJoint (fun _ => 1 / 2) 3).getHarmony threeNotes [1, 1, 2]
      ⟨[1], [], runItems [1, 2] ([0, 1] ++ [3]), 528⟩ ⟨[], [], runItems [3, 15] ([0, 2] ++ [3]), 24⟩) =
      some (([some 1, some 2], [0, 1, 3]), ([3], [0, 3])) := by decide +kernel
  obtain ⟨s, h1, h2, h3⟩ := shown_some h
  refine ⟨_, _, _, s, turningPiece, stdJoint_wf _ _, rfl, rfl, by decide, by decide, h1, turning_annotated,
    ⟨rfl, h2.symm, h3.symm⟩, judged_durations _ _ _ _ _, ?_, ?_, by decide +kernel, by decide +kernel⟩
  · exact chordsFrom_runs _ [1, 2] _ _ _ (by decide) (by decide) (by decide) (by decide +kernel)
  · exact keysFrom_runs _ [3, 15] _ _ _ (by decide) (by decide) (by decide) (by decide +kernel)

end Verif.ForcedAccuracy
