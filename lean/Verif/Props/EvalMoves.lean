import Verif.Props.Eval
import Verif.Props.SearchTransposes
import Verif.Props.ForcedAccuracy

/-!
# Evaluation does not depend on the key a piece is written in (C152)
-/

namespace Verif.EvalMoves

open Verif Verif.Eval State

variable {δ : Type}

/-- A pitch `k` fifths further on the line of fifths, or `k` semitones higher. -/
def up (pt : PitchType) (k p : Int) : Int :=
  match pt with
  | .tpc => p + k
  | .midi => (p + k) % 12

theorem up_inj {pt : PitchType} {k p q : Int} (hp : 0 ≤ p ∧ p < NUM_PITCHES pt) (hq : 0 ≤ q ∧ q < NUM_PITCHES pt)
    (h : up pt k p = up pt k q) : p = q := by
  cases pt <;> simp only [up, NUM_PITCHES] at * <;> omega

/-- The same chords, moved: roots move, types and inversions stay. -/
structure MovedChords (A A' : EvalInput δ) (pt : PitchType) (k : Int) : Prop where
  cache : A'.cache = A.cache
  inputs : A'.inputs = A.inputs
  gtChanges : A'.gtChordChanges = A.gtChordChanges
  estChanges : A'.estChordChanges = A.estChordChanges
  gt : List.Forall₂ (fun g g' => g'.root = up pt k g.root ∧ g'.chordType = g.chordType ∧ g'.inversion = g.inversion)
    A.gtChords A'.gtChords
  est : List.Forall₂ (fun e e' => ∀ c root ct inv, e = some c → pyGet (stdLabels pt).chord c = .ok (root, ct, inv) →
    ∃ c', e' = some c' ∧ pyGet (stdLabels pt).chord c' = .ok (up pt k root, ct, inv)) A.estChords A'.estChords

/-- The same keys, moved: tonics move, modes stay. -/
structure MovedKeys (A A' : EvalInput δ) (pt : PitchType) (k : Int) : Prop where
  cache : A'.cache = A.cache
  inputs : A'.inputs = A.inputs
  gtChanges : A'.gtKeyChanges = A.gtKeyChanges
  estChanges : A'.estKeyChanges = A.estKeyChanges
  gt : List.Forall₂ (fun g g' => g'.relativeTonic = up pt k g.relativeTonic ∧ g'.relativeMode = g.relativeMode)
    A.gtKeys A'.gtKeys
  est : List.Forall₂ (fun e e' => ∀ tonic mode, pyGet (stdLabels pt).key e = .ok (tonic, mode) →
    pyGet (stdLabels pt).key e' = .ok (up pt k tonic, mode)) A.estKeys A'.estKeys

theorem covers_left {α β : Type} {R : α → β → Prop} {xs : List α} {ys : List β} (h : List.Forall₂ R xs ys)
    {ch : List Nat} {i : Nat} {x : α} (hx : Covers xs ch i x) : ∃ y, Covers ys ch i y ∧ R x y := by
  obtain ⟨n, a, h1, h2, h3⟩ := hx
  obtain ⟨hlt, rfl⟩ := List.getElem?_eq_some_iff.1 h1
  have hlt' : n < ys.length := h.length_eq ▸ hlt
  exact ⟨ys[n], ⟨n, a, List.getElem?_eq_getElem hlt', h2, h3⟩, h.get hlt hlt'⟩

theorem covers_right {α β : Type} {R : α → β → Prop} {xs : List α} {ys : List β} (h : List.Forall₂ R xs ys)
    {ch : List Nat} {i : Nat} {y : β} (hy : Covers ys ch i y) : ∃ x, Covers xs ch i x ∧ R x y := by
  obtain ⟨n, a, h1, h2, h3⟩ := hy
  obtain ⟨hlt, rfl⟩ := List.getElem?_eq_some_iff.1 h1
  have hlt' : n < xs.length := h.length_eq ▸ hlt
  exact ⟨xs[n], ⟨n, a, List.getElem?_eq_getElem hlt', h2, h3⟩, h.get hlt' hlt⟩

theorem covers_mem {α : Type} {xs : List α} {ch : List Nat} {i : Nat} {x : α} (h : Covers xs ch i x) : x ∈ xs := by
  obtain ⟨n, _, h1, _⟩ := h
  exact List.mem_of_getElem? h1

/-- The share of the duration is determined by where the inputs are right. -/
theorem share_unique {cache : List ℚ} {M M' : Nat → Prop} {r r' : ℚ} (hM : ∀ i, M i ↔ M' i) (hs : 0 < cache.sum)
    (h : IsShare cache M r) (h' : IsShare cache M' r') : r = r' := by
  obtain ⟨m, l1, m1, e1⟩ := h
  obtain ⟨m', l2, m2, e2⟩ := h'
  have : m = m' := by
    refine List.ext_getElem (l1.trans l2.symm) fun i h1 h2 => ?_
    have a := m1 i
    have b := m2 i
    rw [List.getElem?_eq_getElem h1, hM i] at a
    rw [List.getElem?_eq_getElem h2] at b
    have := a.trans b.symm
    revert this
    cases m[i] <;> cases m'[i] <;> simp
  subst this
  have := e1.trans e2.symm
  exact mul_right_cancel₀ hs.ne' this

theorem chord_range (pt : PitchType) : ∀ l ∈ (stdLabels pt).chord, 0 ≤ l.1 ∧ l.1 < NUM_PITCHES pt := by
  cases pt <;> decide +kernel

theorem key_range (pt : PitchType) : ∀ l ∈ (stdLabels pt).key, 0 ≤ l.1 ∧ l.1 < NUM_PITCHES pt := by
  cases pt <;> decide +kernel

/-- Where chords are right does not change when annotation and estimate move together. -/
theorem chordRight_iff {A A' : EvalInput δ} {pt : PitchType} {k : Int} (h : MovedChords A A' pt k) (hA : ChordsOK A pt)
    (useInv : Bool) (red : Reduction) (i : Nat) :
    ChordRight A pt useInv red i ↔ ChordRight A' pt useInv red i := by
  unfold ChordRight ChordMatch
  rw [h.gtChanges, h.estChanges]
  constructor
  · rintro ⟨g, e, hg, he, c, root, ct, inv, rfl, hl, h1, h2, h3⟩
    obtain ⟨g', hg', r1, r2, r3⟩ := covers_left h.gt hg
    obtain ⟨e', he', re⟩ := covers_left h.est he
    obtain ⟨c', rfl, hl'⟩ := re c root ct inv rfl hl
    exact ⟨g', _, hg', he', c', _, ct, inv, rfl, hl', by rw [r1, h1], by rw [r2, h2], fun hu => by rw [r3, h3 hu]⟩
  · rintro ⟨g', e', hg', he', c', root', ct', inv', rfl, hl', h1, h2, h3⟩
    obtain ⟨g, hg, r1, r2, r3⟩ := covers_right h.gt hg'
    obtain ⟨e, he, re⟩ := covers_right h.est he'
    obtain ⟨c, ⟨root, ct, inv⟩, rfl, hl⟩ := hA.estClass e (covers_mem he)
    obtain ⟨c'', hc, hl''⟩ := re c root ct inv rfl hl
    injection hc with hc
    subst hc
    rw [hl''] at hl'
    injection hl' with hl'
    simp only [Prod.mk.injEq] at hl'
    obtain ⟨rfl, rfl, rfl⟩ := hl'
    refine ⟨g, _, hg, he, c, root, ct, inv, rfl, hl, ?_, by rw [← r2, h2], fun hu => by rw [← r3, h3 hu]⟩
    refine up_inj (pt := pt) (k := k) ?_ (chord_range pt _ (pyGet_mem _ _ _ hl)) (by rw [← r1, h1])
    have := (hA.gtClass g (covers_mem hg)).2.1
    revert this
    cases pt <;> exact id

theorem keyRight_iff {A A' : EvalInput δ} {pt : PitchType} {k : Int} (h : MovedKeys A A' pt k) (hA : KeysOK A pt)
    (tonicOnly : Bool) (i : Nat) : KeyRight A pt tonicOnly i ↔ KeyRight A' pt tonicOnly i := by
  unfold KeyRight KeyMatch
  rw [h.gtChanges, h.estChanges]
  constructor
  · rintro ⟨g, e, hg, he, tonic, mode, hl, h1, h2⟩
    obtain ⟨g', hg', r1, r2⟩ := covers_left h.gt hg
    obtain ⟨e', he', re⟩ := covers_left h.est he
    exact ⟨g', e', hg', he', _, mode, re tonic mode hl, by rw [r1, h1], fun hu => by rw [r2, h2 hu]⟩
  · rintro ⟨g', e', hg', he', tonic', mode', hl', h1, h2⟩
    obtain ⟨g, hg, r1, r2⟩ := covers_right h.gt hg'
    obtain ⟨e, he, re⟩ := covers_right h.est he'
    obtain ⟨⟨tonic, mode⟩, hl⟩ := hA.estClass e (covers_mem he)
    rw [re tonic mode hl] at hl'
    injection hl' with hl'
    simp only [Prod.mk.injEq] at hl'
    obtain ⟨rfl, rfl⟩ := hl'
    refine ⟨g, e, hg, he, tonic, mode, hl, ?_, fun hu => by rw [← r2, h2 hu]⟩
    exact up_inj (pt := pt) (k := k) (hA.gtClass g (covers_mem hg)).2 (key_range pt _ (pyGet_mem _ _ _ hl)) (by rw [← r1, h1])

/-- C152: the chord accuracy of a moved piece and a result moved with it is that of the piece and the result. -/
theorem C152_chords {A A' : EvalInput δ} {pt : PitchType} {k : Int} (h : MovedChords A A' pt k) (hd : DurationsOK A)
    (hA : ChordsOK A pt) (hA' : ChordsOK A' pt) (useInv : Bool) (red : Reduction) :
    evaluateChords A' pt useInv red = evaluateChords A pt useInv red := by
  have hd' : DurationsOK A' := by unfold DurationsOK; rw [h.cache, h.inputs]; exact hd
  obtain ⟨r, e, s, _⟩ := C37_chords_partial A pt useInv red hd hA
  obtain ⟨r', e', s', _⟩ := C37_chords_partial A' pt useInv red hd' hA'
  rw [h.cache] at s'
  rw [e, e', share_unique (chordRight_iff h hA useInv red) hd.2.2 s s']

/-- C152: the same for the key accuracy. -/
theorem C152_keys {A A' : EvalInput δ} {pt : PitchType} {k : Int} (h : MovedKeys A A' pt k) (hd : DurationsOK A)
    (hA : KeysOK A pt) (hA' : KeysOK A' pt) (tonicOnly : Bool) :
    evaluateKeys A' pt tonicOnly = evaluateKeys A pt tonicOnly := by
  have hd' : DurationsOK A' := by unfold DurationsOK; rw [h.cache, h.inputs]; exact hd
  obtain ⟨r, e, s, _⟩ := C37_keys_partial A pt tonicOnly hd hA
  obtain ⟨r', e', s', _⟩ := C37_keys_partial A' pt tonicOnly hd' hA'
  rw [h.cache] at s'
  rw [e, e', share_unique (keyRight_iff h hA tonicOnly) hd.2.2 s s']

/-- C152: the same for the joint accuracy, where chords and keys may be of different pitch types and move
independently. -/
theorem C152_jointly {A A' : EvalInput δ} {pt pt' : PitchType} {k k' : Int} (h : MovedChords A A' pt k)
    (h' : MovedKeys A A' pt' k') (hd : DurationsOK A) (hA : ChordsOK A pt) (hA' : ChordsOK A' pt) (hK : KeysOK A pt')
    (hK' : KeysOK A' pt') (useInv : Bool) (red : Reduction) (tonicOnly : Bool) :
    evaluateJointly A' pt pt' useInv red tonicOnly = evaluateJointly A pt pt' useInv red tonicOnly := by
  have hd' : DurationsOK A' := by unfold DurationsOK; rw [h.cache, h.inputs]; exact hd
  obtain ⟨r, e, s, _⟩ := C37_jointly_partial A pt pt' useInv red tonicOnly hd hA hK
  obtain ⟨r', e', s', _⟩ := C37_jointly_partial A' pt pt' useInv red tonicOnly hd' hA' hK'
  rw [h.cache] at s'
  rw [e, e', share_unique (fun i => and_congr (chordRight_iff h hA useInv red i) (keyRight_iff h' hK tonicOnly i)) hd.2.2 s s']

section
open Verif.SearchTransposes Verif.ForcedAccuracy SearchData
variable {κ ρ H : Type} [DecidableEq H] [DecidableEq κ] [Add κ] [Sub κ] [Zero κ] {d d' : SearchData κ ρ H (List κ)}
  {N : Nets κ ρ H (List κ)} {C : Caches} {useInv : Bool} {red : Reduction} {k : Int}

theorem estimates_ok {d : SearchData κ ρ H (List κ)} (hl : d.labels = stdLabels .midi) (hp : d.pitchType = .midi)
    (hd : OK d) {s : State κ H (List κ)} (hs : d.search = .ok (some s)) {A : EvalInput δ} (hA : Annotated A .midi)
    (hE : Estimates A d.numInputs s) : ChordsOK A .midi ∧ KeysOK A .midi := by
  obtain ⟨⟨⟨g, hg⟩, -⟩, hend⟩ := search_ok hd hs
  rw [hl, hp] at hg
  have e1 := Prod.ext_iff.1 hE.chords
  have e2 := Prod.ext_iff.1 hE.keys
  exact C37_search_estimates .midi g _ hd.hash s hg A (hE.inputs.trans hend.symm) e1.1 e1.2 e2.1 e2.2
    hA.chordLen hA.chordStart hA.chordSorted hA.chordClass hA.keyLen hA.keyStart hA.keySorted hA.keyClass

/-- C152: a piece and the same piece moved by `k` semitones (with the annotation) are analysed with the same
accuracies, if the search treats both alike (C134: MIDI pitches and a given first key). -/
theorem C152_search (hn : RunsNets d N C useInv red) (hn' : RunsNets d' N C useInv red) (h : Transposed k d d')
    (hc : Chooses k d d') (hf : FirstKey d) (hd : OK d) (hd' : OK d') {s : State κ H (List κ)}
    (hs : d.search = .ok (some s)) {A A' : EvalInput δ} (hA : Annotated A .midi) (hA' : Annotated A' .midi)
    (hE : Estimates A d.numInputs s) (hdur : DurationsOK A) (hcache : A'.cache = A.cache)
    (hgc : A'.gtChordChanges = A.gtChordChanges) (hgk : A'.gtKeyChanges = A.gtKeyChanges)
    (hchords : List.Forall₂ (fun g g' => g'.root = (g.root + k) % 12 ∧ g'.chordType = g.chordType ∧
      g'.inversion = g.inversion) A.gtChords A'.gtChords)
    (hkeys : List.Forall₂ (fun g g' => g'.relativeTonic = (g.relativeTonic + k) % 12 ∧
      g'.relativeMode = g.relativeMode) A.gtKeys A'.gtKeys) :
    ∃ s', d'.search = .ok (some s') ∧ (Estimates A' d'.numInputs s' → ∀ (inv : Bool) (r : Reduction) (tonicOnly : Bool),
      evaluateChords A' .midi inv r = evaluateChords A .midi inv r ∧
      evaluateKeys A' .midi tonicOnly = evaluateKeys A .midi tonicOnly ∧
      evaluateJointly A' .midi .midi inv r tonicOnly = evaluateJointly A .midi .midi inv r tonicOnly) := by
  have hs' : d'.search = .ok (some (upState k s)) := by
    rw [C134_transposes_partial hn hn' h hc hf, hs]; rfl
  refine ⟨_, hs', fun hE' inv r tonicOnly => ?_⟩
  have hl : d.labels = stdLabels .midi := by rw [hn.labels, h.midi.1]
  have hl' : d'.labels = stdLabels .midi := by rw [hn'.labels, h.midi.2]
  obtain ⟨c1, k1⟩ := estimates_ok hl h.midi.1 hd hs hA hE
  obtain ⟨c2, k2⟩ := estimates_ok hl' h.midi.2 hd' hs' hA' hE'
  obtain ⟨a1, a2, _⟩ := C134_analysis k s
  have e1 := Prod.ext_iff.1 (hE'.chords.trans a1)
  have e2 := Prod.ext_iff.1 (hE'.keys.trans a2)
  have f1 := Prod.ext_iff.1 hE.chords
  have f2 := Prod.ext_iff.1 hE.keys
  simp only at e1 e2 f1 f2
  have hi : A'.inputs = A.inputs := by rw [hE'.inputs, hE.inputs, h.numInputs]
  have mc : MovedChords A A' .midi k :=
    ⟨hcache, hi, hgc, by rw [e1.2, f1.2], hchords, by
      rw [e1.1, ← f1.1, List.forall₂_map_right_iff]
      refine forall₂_refl fun e _ c root ct inv he hc => ⟨upChord k c, by rw [he]; rfl, ?_⟩
      exact (C134_labels k).1 c root ct inv hc⟩
  have mk : MovedKeys A A' .midi k :=
    ⟨hcache, hi, hgk, by rw [e2.2, f2.2], hkeys, by
      rw [e2.1, ← f2.1, List.forall₂_map_right_iff]
      exact forall₂_refl fun e _ tonic mode he => (C134_labels k).2 e tonic mode he⟩
  exact ⟨C152_chords mc hdur c1 c2 inv r, C152_keys mk hdur k1 k2 tonicOnly,
    C152_jointly mc mk hdur c1 c2 k1 k2 inv r tonicOnly⟩

end

/-! ## Concrete cases -/

/-- `Eval.exInput` five semitones higher. -/
def exMoved : EvalInput ℚ :=
  { exInput with
    gtChords := [⟨5, 5, 5, .major, .major, 0, 0, 0, 1, .midi⟩, ⟨0, 4, 5, .major, .major, 1, 0, 0, 1, .midi⟩],
    gtKeys := [⟨5, 5, 5, .major, .major, .major, .midi⟩],
    estChords := [some 15, some 0], estKeys := [5, 17] }

example : MovedChords exInput exMoved .midi 5 ∧ MovedKeys exInput exMoved .midi 5 := by
  refine ⟨⟨rfl, rfl, rfl, rfl, ?_, ?_⟩, ⟨rfl, rfl, rfl, rfl, ?_, ?_⟩⟩
  · exact .cons (by decide) (.cons (by decide) .nil)
  · refine .cons ?_ (.cons ?_ .nil)
    · intro c root ct inv h1 h2
      injection h1 with h1; subst h1
      have e : pyGet (stdLabels .midi).chord 0 = .ok (0, .major, 0) := by decide +kernel
      rw [e] at h2; injection h2 with h2
      simp only [Prod.mk.injEq] at h2
      obtain ⟨rfl, rfl, rfl⟩ := h2
      exact ⟨15, rfl, by decide +kernel⟩
    · intro c root ct inv h1 h2
      injection h1 with h1; subst h1
      have e : pyGet (stdLabels .midi).chord 21 = .ok (7, .major, 0) := by decide +kernel
      rw [e] at h2; injection h2 with h2
      simp only [Prod.mk.injEq] at h2
      obtain ⟨rfl, rfl, rfl⟩ := h2
      exact ⟨0, rfl, by decide +kernel⟩
  · exact .cons (by decide) .nil
  · refine .cons ?_ (.cons ?_ .nil)
    · intro tonic mode h
      have e : pyGet (stdLabels .midi).key 0 = .ok (0, .major) := by decide +kernel
      rw [e] at h; injection h with h
      simp only [Prod.mk.injEq] at h
      obtain ⟨rfl, rfl⟩ := h
      decide +kernel
    · intro tonic mode h
      have e : pyGet (stdLabels .midi).key 12 = .ok (0, .minor) := by decide +kernel
      rw [e] at h; injection h with h
      simp only [Prod.mk.injEq] at h
      obtain ⟨rfl, rfl⟩ := h
      decide +kernel

example : evaluateChords exMoved .midi false noReduction = .ok (4 / 6) ∧
    evaluateJointly exMoved .midi .midi false noReduction false = .ok (1 / 6) := by decide +kernel

end Verif.EvalMoves
