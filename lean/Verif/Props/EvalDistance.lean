import Verif.Props.Eval
import Mathlib.Tactic.IntervalCases

/-!
# The accuracies measure a distance between analyses (C165)
-/

namespace Verif.EvalDistance

open Verif Verif.Eval State

variable {δ : Type}

/-- What is said of an input: root, type and inversion of its chord, tonic and mode of its key. -/
structure Label where
  chord : Int × ChordType × Int
  key : Int × KeyMode

/-- The annotation gives the labels `X` and the estimate gives the labels `Y`, however they are divided into chords and
keys. -/
structure Shows (A : EvalInput δ) (rootType tonicType : PitchType) (X Y : Nat → Label) : Prop where
  durations : DurationsOK A
  chords : ChordsOK A rootType
  keys : KeysOK A tonicType
  gtChord : ∀ i < A.inputs, ∃ g, Covers A.gtChords A.gtChordChanges i g ∧
    (g.root, g.chordType, g.inversion) = (X i).chord
  gtKey : ∀ i < A.inputs, ∃ g, Covers A.gtKeys A.gtKeyChanges i g ∧ (g.relativeTonic, g.relativeMode) = (X i).key
  estChord : ∀ i < A.inputs, ∃ c, Covers A.estChords A.estChordChanges i (some c) ∧
    pyGet (stdLabels rootType).chord c = .ok (Y i).chord
  estKey : ∀ i < A.inputs, ∃ c, Covers A.estKeys A.estKeyChanges i c ∧ pyGet (stdLabels tonicType).key c = .ok (Y i).key

/-- The three evaluations. -/
inductive Kind where
  | chords
  | keys
  | both

/-- The accuracy of each kind. -/
def accuracy (A : EvalInput δ) (rootType tonicType : PitchType) (useInv : Bool) (red : Reduction) (tonicOnly : Bool) :
    Kind → Py ℚ
  | .chords => evaluateChords A rootType useInv red
  | .keys => evaluateKeys A tonicType tonicOnly
  | .both => evaluateJointly A rootType tonicType useInv red tonicOnly

/-- Two labels count as the same. -/
def Agree (useInv : Bool) (red : Reduction) (tonicOnly : Bool) (x y : Label) (w : Kind) : Prop :=
  (w ≠ .keys → x.chord.1 = y.chord.1 ∧ red x.chord.2.1 = red y.chord.2.1 ∧
    (useInv = true → x.chord.2.2 = y.chord.2.2)) ∧
  (w ≠ .chords → x.key.1 = y.key.1 ∧ (tonicOnly = false → x.key.2 = y.key.2))

theorem Agree.refl (useInv : Bool) (red : Reduction) (tonicOnly : Bool) (x : Label) (w : Kind) :
    Agree useInv red tonicOnly x x w := by
  simp [Agree]

theorem Agree.symm {useInv : Bool} {red : Reduction} {tonicOnly : Bool} {x y : Label} {w : Kind}
    (h : Agree useInv red tonicOnly x y w) : Agree useInv red tonicOnly y x w :=
  ⟨fun hw => ⟨(h.1 hw).1.symm, (h.1 hw).2.1.symm, fun hu => ((h.1 hw).2.2 hu).symm⟩,
    fun hw => ⟨(h.2 hw).1.symm, fun hu => ((h.2 hw).2 hu).symm⟩⟩

theorem Agree.trans {useInv : Bool} {red : Reduction} {tonicOnly : Bool} {x y z : Label} {w : Kind}
    (h : Agree useInv red tonicOnly x y w) (h' : Agree useInv red tonicOnly y z w) :
    Agree useInv red tonicOnly x z w :=
  ⟨fun hw => ⟨(h.1 hw).1.trans (h'.1 hw).1, (h.1 hw).2.1.trans (h'.1 hw).2.1,
      fun hu => ((h.1 hw).2.2 hu).trans ((h'.1 hw).2.2 hu)⟩,
    fun hw => ⟨(h.2 hw).1.trans (h'.2 hw).1, fun hu => ((h.2 hw).2 hu).trans ((h'.2 hw).2 hu)⟩⟩

theorem agree_both {useInv : Bool} {red : Reduction} {tonicOnly : Bool} {x y : Label} :
    Agree useInv red tonicOnly x y .chords ∧ Agree useInv red tonicOnly x y .keys ↔
      Agree useInv red tonicOnly x y .both := by
  simp [Agree]

/-- With sorted change indices, one item covers an input. -/
theorem covers_unique {α : Type} {items : List α} {ch : List Nat} (hs : ch.Pairwise (· ≤ ·)) {i : Nat} {x y : α}
    (hx : Covers items ch i x) (hy : Covers items ch i y) : x = y := by
  obtain ⟨k, a, h1, h2, h3, h4⟩ := hx
  obtain ⟨k', a', h1', h2', h3', h4'⟩ := hy
  have key : ∀ {k k' a a' : Nat}, ch[k]? = some a → ch[k']? = some a' → a' ≤ i → (∀ b, ch[k + 1]? = some b → i < b) →
      ¬ k < k' := by
    intro k k' a a' e e' hle hn hlt
    obtain ⟨hk', rfl⟩ := List.getElem?_eq_some_iff.1 e'
    have hk : k + 1 < ch.length := by omega
    have h := hn _ (List.getElem?_eq_getElem hk)
    rcases Nat.lt_or_ge (k + 1) k' with hl | hl
    · have := List.pairwise_iff_getElem.1 hs (k + 1) k' hk hk' hl
      omega
    · have : k + 1 = k' := by omega
      subst this
      omega
  have e : k = k' := by
    have := key h2 h2' h3' h4
    have := key h2' h2 h3 h4'
    omega
  subst e
  exact Option.some.inj (h1.symm.trans h1')

theorem chordRight_agree {A : EvalInput δ} {rt tt : PitchType} {X Y : Nat → Label} (h : Shows A rt tt X Y)
    (useInv : Bool) (red : Reduction) (tonicOnly : Bool) {i : Nat} (hi : i < A.inputs) :
    ChordRight A rt useInv red i ↔ Agree useInv red tonicOnly (X i) (Y i) .chords := by
  obtain ⟨g, hg, eg⟩ := h.gtChord i hi
  obtain ⟨c, hc, ec⟩ := h.estChord i hi
  simp only [Agree, ← eg, ne_eq, reduceCtorEq, not_false_eq_true, not_true_eq_false, true_implies, false_implies,
    and_true]
  constructor
  · rintro ⟨g', e', hg', he', c', root, ct, inv, rfl, hl, h1, h2, h3⟩
    have e1 := covers_unique h.chords.gtSorted hg hg'
    have e2 := Option.some.inj (covers_unique h.chords.estSorted hc he')
    subst e1 e2
    rw [ec] at hl
    rw [Except.ok.inj hl]
    exact ⟨h1, h2, h3⟩
  · rintro ⟨h1, h2, h3⟩
    exact ⟨g, some c, hg, hc, c, _, _, _, rfl, ec, h1, h2, h3⟩

theorem keyRight_agree {A : EvalInput δ} {rt tt : PitchType} {X Y : Nat → Label} (h : Shows A rt tt X Y)
    (useInv : Bool) (red : Reduction) (tonicOnly : Bool) {i : Nat} (hi : i < A.inputs) :
    KeyRight A tt tonicOnly i ↔ Agree useInv red tonicOnly (X i) (Y i) .keys := by
  obtain ⟨g, hg, eg⟩ := h.gtKey i hi
  obtain ⟨c, hc, ec⟩ := h.estKey i hi
  simp only [Agree, ← eg, ne_eq, reduceCtorEq, not_false_eq_true, not_true_eq_false, true_implies, false_implies,
    true_and]
  constructor
  · rintro ⟨g', e', hg', he', tonic, mode, hl, h1, h2⟩
    have e1 := covers_unique h.keys.gtSorted hg hg'
    have e2 := covers_unique h.keys.estSorted hc he'
    subst e1 e2
    rw [ec] at hl
    rw [Except.ok.inj hl]
    exact ⟨h1, h2⟩
  · rintro ⟨h1, h2⟩
    exact ⟨g, c, hg, hc, _, _, ec, h1, h2⟩

theorem share_congr {cache : List ℚ} {M N : Nat → Prop} {r : ℚ} (h : ∀ i < cache.length, (M i ↔ N i))
    (hs : IsShare cache M r) : IsShare cache N r := by
  obtain ⟨m, h1, h2, h3⟩ := hs
  exact ⟨m, h1, fun i => (h2 i).trans ⟨fun ⟨a, b⟩ => ⟨a, (h i a).1 b⟩, fun ⟨a, b⟩ => ⟨a, (h i a).2 b⟩⟩, h3⟩

theorem accuracy_share {A : EvalInput δ} {rt tt : PitchType} {X Y : Nat → Label} (h : Shows A rt tt X Y)
    (useInv : Bool) (red : Reduction) (tonicOnly : Bool) (w : Kind) :
    ∃ r, accuracy A rt tt useInv red tonicOnly w = .ok r ∧
      IsShare A.cache (fun i => Agree useInv red tonicOnly (X i) (Y i) w) r := by
  have hl : A.cache.length = A.inputs := h.durations.1
  cases w with
  | chords =>
    obtain ⟨r, e, s, _⟩ := C37_chords_partial A rt useInv red h.durations h.chords
    exact ⟨r, e, share_congr (fun i hi => chordRight_agree h useInv red tonicOnly (hl ▸ hi)) s⟩
  | keys =>
    obtain ⟨r, e, s, _⟩ := C37_keys_partial A tt tonicOnly h.durations h.keys
    exact ⟨r, e, share_congr (fun i hi => keyRight_agree h useInv red tonicOnly (hl ▸ hi)) s⟩
  | both =>
    obtain ⟨r, e, s, _⟩ := C37_jointly_partial A rt tt useInv red tonicOnly h.durations h.chords h.keys
    refine ⟨r, e, share_congr (fun i hi => ?_) s⟩
    exact (and_congr (chordRight_agree h useInv red tonicOnly (hl ▸ hi))
      (keyRight_agree h useInv red tonicOnly (hl ▸ hi))).trans agree_both

theorem sum_triangle (cache : List ℚ) (l m n : List Bool) (hl : l.length = cache.length) (hm : m.length = cache.length)
    (hn : n.length = cache.length) (h0 : ∀ d ∈ cache, 0 ≤ d)
    (h : ∀ i : Nat, l[i]? = some true → m[i]? = some true → n[i]? = some true) :
    ((cache.zip l).map fun p => if p.2 then p.1 else 0).sum + ((cache.zip m).map fun p => if p.2 then p.1 else 0).sum ≤
      ((cache.zip n).map fun p => if p.2 then p.1 else 0).sum + cache.sum := by
  induction cache generalizing l m n with
  | nil => simp
  | cons d cache ih =>
    match l, m, n, hl, hm, hn with
    | a :: l, b :: m, c :: n, hl, hm, hn =>
      have hi := ih l m n (by simpa using hl) (by simpa using hm) (by simpa using hn)
        (fun x hx => h0 x (List.mem_cons_of_mem _ hx)) (fun i => by simpa using h (i + 1))
      have hd := h0 d (by simp)
      have hc := h 0
      simp only [List.getElem?_cons_zero, Option.some.injEq] at hc
      simp only [List.zip_cons_cons, List.map_cons, List.sum_cons]
      cases a <;> cases b <;> cases c <;> simp at hc ⊢ <;> linarith

theorem share_triangle {cache : List ℚ} {L M N : Nat → Prop} {a b c : ℚ} (h0 : ∀ d ∈ cache, 0 ≤ d) (hs : 0 < cache.sum)
    (h : ∀ i < cache.length, L i → M i → N i) (ha : IsShare cache L a) (hb : IsShare cache M b)
    (hc : IsShare cache N c) : 1 - c ≤ (1 - a) + (1 - b) := by
  obtain ⟨l, l1, l2, l3⟩ := ha
  obtain ⟨m, m1, m2, m3⟩ := hb
  obtain ⟨n, n1, n2, n3⟩ := hc
  have := sum_triangle cache l m n l1 m1 n1 h0 fun i hl hm => by
    obtain ⟨q1, q2⟩ := (l2 i).1 hl
    exact (n2 i).2 ⟨q1, h i q1 q2 ((m2 i).1 hm).2⟩
  rw [← l3, ← m3, ← n3] at this
  have : (a + b) * cache.sum ≤ (c + 1) * cache.sum := by linarith
  have := le_of_mul_le_mul_right this hs
  linarith

theorem share_whole {cache : List ℚ} {M : Nat → Prop} {r : ℚ} (h0 : ∀ d ∈ cache, 0 ≤ d) (hs : 0 < cache.sum)
    (h : ∀ i, M i) (hr : IsShare cache M r) : r = 1 :=
  (hr.bounds h0 hs).2.2.2 fun i _ _ _ => h i

theorem share_le {cache : List ℚ} {M N : Nat → Prop} {a b : ℚ} (h0 : ∀ d ∈ cache, 0 ≤ d) (hs : 0 < cache.sum)
    (h : ∀ i < cache.length, M i → N i) (ha : IsShare cache M a) (hb : IsShare cache N b) : a ≤ b := by
  have ht : IsShare cache (fun _ => True) 1 := by
    refine ⟨List.replicate cache.length true, by simp, fun i => by simp [List.getElem?_replicate], ?_⟩
    rw [one_mul]
    clear ha hb h h0 hs
    induction cache with
    | nil => rfl
    | cons d cache ih => simp [List.replicate_succ, ← ih]
  have := share_triangle h0 hs (fun i hi hm _ => h i hi hm) ha ht hb
  linarith

/-- C165: a piece and an estimate without gaps have labels at all inputs. -/
theorem C165_labels (A : EvalInput δ) (rootType tonicType : PitchType) (hd : DurationsOK A) (hc : ChordsOK A rootType)
    (hk : KeysOK A tonicType) : ∃ X Y, Shows A rootType tonicType X Y := by
  have hgt : ∀ i, ∃ g, Covers A.gtChords A.gtChordChanges i g := fun i => by
    refine exists_covers _ _ i 0 hc.gtLen.le ?_ hc.gtStart (Nat.zero_le _) ?_
    · intro h0
      have h1 := hc.gtLen
      have h2 := (List.getElem?_eq_some_iff.1 hc.gtStart).1
      rw [h0] at h1
      simp at h1
      omega
    · intro e he
      have := (List.getElem?_eq_some_iff.1 he).1
      rw [hc.gtLen] at this
      omega
  have hgk : ∀ i, ∃ g, Covers A.gtKeys A.gtKeyChanges i g := fun i => by
    refine exists_covers _ _ i 0 hk.gtLen.le ?_ hk.gtStart (Nat.zero_le _) ?_
    · intro h0
      have h1 := hk.gtLen
      have h2 := (List.getElem?_eq_some_iff.1 hk.gtStart).1
      rw [h0] at h1
      simp at h1
      omega
    · intro e he
      have := (List.getElem?_eq_some_iff.1 he).1
      rw [hk.gtLen] at this
      omega
  have hec : ∀ i < A.inputs, ∃ e, Covers A.estChords A.estChordChanges i e := fun i hi => by
    refine exists_covers _ _ i 0 (by have := hc.estLen; omega) ?_ hc.estStart (Nat.zero_le _) ?_
    · intro h0
      have h1 := hc.estEnd
      rw [h0, List.length_nil, hc.estStart] at h1
      have := Option.some.inj h1
      omega
    · intro e he
      rw [hc.estEnd] at he
      have := Option.some.inj he
      omega
  have hek : ∀ i < A.inputs, ∃ e, Covers A.estKeys A.estKeyChanges i e := fun i hi => by
    refine exists_covers _ _ i 0 (by have := hk.estLen; omega) ?_ hk.estStart (Nat.zero_le _) ?_
    · intro h0
      have h1 := hk.estEnd
      rw [h0, List.length_nil, hk.estStart] at h1
      have := Option.some.inj h1
      omega
    · intro e he
      rw [hk.estEnd] at he
      have := Option.some.inj he
      omega
  choose g hg using hgt
  choose k hkk using hgk
  have hX : ∀ i, ∃ y : Label, i < A.inputs →
      (∃ c, Covers A.estChords A.estChordChanges i (some c) ∧ pyGet (stdLabels rootType).chord c = .ok y.chord) ∧
      ∃ c, Covers A.estKeys A.estKeyChanges i c ∧ pyGet (stdLabels tonicType).key c = .ok y.key := fun i => by
    by_cases hi : i < A.inputs
    · obtain ⟨e, he⟩ := hec i hi
      obtain ⟨f, hf⟩ := hek i hi
      obtain ⟨c, l, rfl, hl⟩ := hc.estClass e (List.mem_of_getElem? he.choose_spec.choose_spec.1)
      obtain ⟨l', hl'⟩ := hk.estClass f (List.mem_of_getElem? hf.choose_spec.choose_spec.1)
      exact ⟨⟨l, l'⟩, fun _ => ⟨⟨c, he, hl⟩, f, hf, hl'⟩⟩
    · exact ⟨⟨(0, .major, 0), (0, .major)⟩, fun h => absurd h hi⟩
  choose Y hY using hX
  exact ⟨fun i => ⟨((g i).root, (g i).chordType, (g i).inversion), ((k i).relativeTonic, (k i).relativeMode)⟩, Y, hd, hc, hk,
    fun i _ => ⟨g i, hg i, rfl⟩, fun i _ => ⟨k i, hkk i, rfl⟩, fun i hi => (hY i hi).1, fun i hi => (hY i hi).2⟩

/-- C165: how annotation and estimate are divided into chords and keys does not matter: the accuracies depend on the
labels of the inputs only. -/
theorem C165_division {A B : EvalInput δ} {rootType tonicType : PitchType} {X Y : Nat → Label}
    (hA : Shows A rootType tonicType X Y) (hB : Shows B rootType tonicType X Y) (hc : B.cache = A.cache) (useInv : Bool)
    (red : Reduction) (tonicOnly : Bool) (w : Kind) :
    accuracy B rootType tonicType useInv red tonicOnly w = accuracy A rootType tonicType useInv red tonicOnly w := by
  obtain ⟨a, ea, sa⟩ := accuracy_share hA useInv red tonicOnly w
  obtain ⟨b, eb, sb⟩ := accuracy_share hB useInv red tonicOnly w
  rw [hc] at sb
  rw [ea, eb]
  have h0 := hA.durations.2.1
  have hs := hA.durations.2.2
  exact congrArg _ (le_antisymm (share_le h0 hs (fun _ _ h => h) sb sa) (share_le h0 hs (fun _ _ h => h) sa sb))

/-- C165: an analysis is right throughout if it is compared with itself. -/
theorem C165_same {A : EvalInput δ} {rootType tonicType : PitchType} {X : Nat → Label}
    (hA : Shows A rootType tonicType X X) (useInv : Bool) (red : Reduction) (tonicOnly : Bool) (w : Kind) :
    accuracy A rootType tonicType useInv red tonicOnly w = .ok 1 := by
  obtain ⟨a, ea, sa⟩ := accuracy_share hA useInv red tonicOnly w
  rw [ea, share_whole hA.durations.2.1 hA.durations.2.2 (fun i => Agree.refl useInv red tonicOnly (X i) w) sa]

/-- C165: it does not matter which of two analyses is the annotation and which is the estimate. -/
theorem C165_symmetric {A B : EvalInput δ} {rootType tonicType : PitchType} {X Y : Nat → Label}
    (hA : Shows A rootType tonicType X Y) (hB : Shows B rootType tonicType Y X) (hc : B.cache = A.cache) (useInv : Bool)
    (red : Reduction) (tonicOnly : Bool) (w : Kind) :
    accuracy B rootType tonicType useInv red tonicOnly w = accuracy A rootType tonicType useInv red tonicOnly w := by
  obtain ⟨a, ea, sa⟩ := accuracy_share hA useInv red tonicOnly w
  obtain ⟨b, eb, sb⟩ := accuracy_share hB useInv red tonicOnly w
  rw [hc] at sb
  rw [ea, eb]
  have h0 := hA.durations.2.1
  have hs := hA.durations.2.2
  exact congrArg _ (le_antisymm (share_le h0 hs (fun _ _ h => h.symm) sb sa) (share_le h0 hs (fun _ _ h => h.symm) sa sb))

/-- C165: the error of an estimate is at most the error of another one and the error between the two. -/
theorem C165_triangle {A B C : EvalInput δ} {rootType tonicType : PitchType} {X Y Z : Nat → Label}
    (hA : Shows A rootType tonicType X Y) (hB : Shows B rootType tonicType Y Z) (hC : Shows C rootType tonicType X Z)
    (hb : B.cache = A.cache) (hc : C.cache = A.cache) (useInv : Bool) (red : Reduction) (tonicOnly : Bool) (w : Kind) :
    ∃ a b c, accuracy A rootType tonicType useInv red tonicOnly w = .ok a ∧
      accuracy B rootType tonicType useInv red tonicOnly w = .ok b ∧
      accuracy C rootType tonicType useInv red tonicOnly w = .ok c ∧ 1 - c ≤ (1 - a) + (1 - b) := by
  obtain ⟨a, ea, sa⟩ := accuracy_share hA useInv red tonicOnly w
  obtain ⟨b, eb, sb⟩ := accuracy_share hB useInv red tonicOnly w
  obtain ⟨c, ec, sc⟩ := accuracy_share hC useInv red tonicOnly w
  rw [hb] at sb
  rw [hc] at sc
  exact ⟨a, b, c, ea, eb, ec,
    share_triangle hA.durations.2.1 hA.durations.2.2 (fun _ _ h h' => h.trans h') sa sb sc⟩

/-! ## Cases -/

/-- The annotation of `exInput`. -/
def exX (i : Nat) : Label := if i < 2 then ⟨(0, .major, 0), (0, .major)⟩ else ⟨(7, .major, 1), (0, .major)⟩

/-- The estimate of `exInput`. -/
def exY (i : Nat) : Label := if i < 1 then ⟨(0, .major, 0), (0, .major)⟩ else ⟨(7, .major, 0), (0, .minor)⟩

/-- `exInput` with a chord and a key in more parts. -/
def exCut : EvalInput ℚ :=
  { exInput with
    gtChords := [⟨0, 0, 0, .major, .major, 0, 0, 0, 1, .midi⟩, ⟨0, 0, 0, .major, .major, 0, 0, 0, 1, .midi⟩,
      ⟨7, 11, 0, .major, .major, 1, 0, 0, 1, .midi⟩],
    gtChordChanges := [0, 1, 2],
    estKeys := [0, 12, 12], estKeyChanges := [0, 1, 3, 4] }

/-- `exInput` with annotation and estimate exchanged. -/
def exSwapped : EvalInput ℚ :=
  { exInput with
    gtChords := [⟨0, 0, 0, .major, .major, 0, 0, 0, 1, .midi⟩, ⟨7, 7, 0, .major, .major, 0, 0, 0, 1, .midi⟩],
    gtChordChanges := [0, 1],
    gtKeys := [⟨0, 0, 0, .major, .major, .major, .midi⟩, ⟨0, 0, 0, .minor, .minor, .minor, .midi⟩], gtKeyChanges := [0, 1],
    estChords := [some 0, some 22], estChordChanges := [0, 2, 4],
    estKeys := [0], estKeyChanges := [0, 4] }

theorem covers_at {α : Type} {items : List α} {ch : List Nat} {i : Nat} {x : α} (k a : Nat) (h1 : items[k]? = some x)
    (h2 : ch[k]? = some a) (h3 : a ≤ i) (h4 : (ch[k + 1]?).all fun b => i < b) : Covers items ch i x := by
  refine ⟨k, a, h1, h2, h3, fun b hb => ?_⟩
  rw [hb] at h4
  simpa using h4

example : evaluateChords exCut .midi false noReduction = .ok (4 / 6) ∧
    evaluateChords exSwapped .midi false noReduction = .ok (4 / 6) ∧
    evaluateJointly exSwapped .midi .midi false noReduction false = .ok (1 / 6) := by decide +kernel

example : Shows exCut .midi .midi exX exY := by
  refine ⟨by unfold DurationsOK; decide +kernel, ⟨by decide, by decide, by decide, ?_, by decide, by decide, by decide,
    by decide, ?_⟩, ⟨by decide, by decide, by decide, by decide, by decide, by decide, by decide, by decide, ?_⟩,
    fun i hi => ?_, fun i hi => ?_, fun i hi => ?_, fun i hi => ?_⟩
  · simp only [exCut, List.mem_cons, List.not_mem_nil, or_false, forall_eq_or_imp, forall_eq]
    refine ⟨⟨trivial, ?_⟩, ⟨trivial, ?_⟩, ⟨trivial, ?_⟩⟩ <;>
      simp [specEncodable, specRoots, specInversions, noReduction]
  · simp only [exCut, exInput, List.mem_cons, List.not_mem_nil, or_false, forall_eq_or_imp, forall_eq]
    exact ⟨⟨0, _, rfl, rfl⟩, ⟨21, _, rfl, rfl⟩⟩
  · simp only [exCut, List.mem_cons, List.not_mem_nil, or_false, forall_eq_or_imp, forall_eq]
    exact ⟨⟨_, rfl⟩, ⟨_, rfl⟩, ⟨_, rfl⟩⟩
  · replace hi : i < 4 := hi
    interval_cases i
    · exact ⟨_, covers_at 0 0 rfl rfl (by omega) (by decide), by decide⟩
    · exact ⟨_, covers_at 1 1 rfl rfl (by omega) (by decide), by decide⟩
    · exact ⟨_, covers_at 2 2 rfl rfl (by omega) (by decide), by decide⟩
    · exact ⟨_, covers_at 2 2 rfl rfl (by omega) (by decide), by decide⟩
  · replace hi : i < 4 := hi
    interval_cases i <;> exact ⟨_, covers_at 0 0 rfl rfl (by omega) (by decide), by decide⟩
  · replace hi : i < 4 := hi
    interval_cases i
    · exact ⟨0, covers_at 0 0 rfl rfl (by omega) (by decide), rfl⟩
    · exact ⟨21, covers_at 1 1 rfl rfl (by omega) (by decide), rfl⟩
    · exact ⟨21, covers_at 1 1 rfl rfl (by omega) (by decide), rfl⟩
    · exact ⟨21, covers_at 1 1 rfl rfl (by omega) (by decide), rfl⟩
  · replace hi : i < 4 := hi
    interval_cases i
    · exact ⟨0, covers_at 0 0 rfl rfl (by omega) (by decide), rfl⟩
    · exact ⟨12, covers_at 1 1 rfl rfl (by omega) (by decide), rfl⟩
    · exact ⟨12, covers_at 1 1 rfl rfl (by omega) (by decide), rfl⟩
    · exact ⟨12, covers_at 2 3 rfl rfl (by omega) (by decide), rfl⟩

example : Shows exSwapped .midi .midi exY exX := by
  refine ⟨by unfold DurationsOK; decide +kernel, ⟨by decide, by decide, by decide, ?_, by decide, by decide, by decide,
    by decide, ?_⟩, ⟨by decide, by decide, by decide, by decide, by decide, by decide, by decide, by decide, ?_⟩,
    fun i hi => ?_, fun i hi => ?_, fun i hi => ?_, fun i hi => ?_⟩
  · simp only [exSwapped, List.mem_cons, List.not_mem_nil, or_false, forall_eq_or_imp, forall_eq]
    refine ⟨⟨trivial, ?_⟩, ⟨trivial, ?_⟩⟩ <;> simp [specEncodable, specRoots, specInversions, noReduction]
  · simp only [exSwapped, List.mem_cons, List.not_mem_nil, or_false, forall_eq_or_imp, forall_eq]
    exact ⟨⟨0, _, rfl, rfl⟩, ⟨22, _, rfl, rfl⟩⟩
  · simp only [exSwapped, List.mem_cons, List.not_mem_nil, or_false, forall_eq]
    exact ⟨_, rfl⟩
  · replace hi : i < 4 := hi
    interval_cases i
    · exact ⟨_, covers_at 0 0 rfl rfl (by omega) (by decide), by decide⟩
    all_goals exact ⟨_, covers_at 1 1 rfl rfl (by omega) (by decide), by decide⟩
  · replace hi : i < 4 := hi
    interval_cases i
    · exact ⟨_, covers_at 0 0 rfl rfl (by omega) (by decide), by decide⟩
    all_goals exact ⟨_, covers_at 1 1 rfl rfl (by omega) (by decide), by decide⟩
  · replace hi : i < 4 := hi
    interval_cases i
    · exact ⟨0, covers_at 0 0 rfl rfl (by omega) (by decide), rfl⟩
    · exact ⟨0, covers_at 0 0 rfl rfl (by omega) (by decide), rfl⟩
    all_goals exact ⟨22, covers_at 1 2 rfl rfl (by omega) (by decide), rfl⟩
  · replace hi : i < 4 := hi
    interval_cases i <;> exact ⟨0, covers_at 0 0 rfl rfl (by omega) (by decide), rfl⟩

end Verif.EvalDistance
