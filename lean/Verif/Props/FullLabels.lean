import Verif.Props.Changes
import Verif.Props.LabelTable

/-!
# C77: the table of labels
-/

namespace Verif.FullLabels

open Verif.Eval Verif.Results Verif.Changes

variable {δ τ : Type}

/-- The pitch class of a pitch in fifths. -/
def pitchClass (p : Int) : Int := (7 * (p - 15)) % 12

/-- The same changes in the two columns: moved by `tpcC - 15`, and as pitch classes. -/
def ColumnsOf (tpcC : Int) (m tpc midi : List ChangeEntry) : Prop :=
  tpc = m.map (fun e => (e.1.map (· + (tpcC - 15)), e.2.1, e.2.2 + (tpcC - 15))) ∧
  midi = m.map (fun e => (e.1.map pitchClass, e.2.1, pitchClass e.2.2))

/-- A chord of the piece with pitches in fifths, the change string of which can be read. -/
structure ChordOK (isNum : Char → Bool) (x : Chord δ × Option Str) : Prop where
  type : x.1.pitchType = .tpc
  cls : specEncodable x.1.chordType x.1.root .tpc x.1.inversion true false false noReduction
  changes : ∀ s, x.2 = some s →
    ∃ m, addedAndRemoved isNum x.1.root x.1.chordType s x.1.keyTonic x.1.keyMode = .ok m

/-- A key of the piece with a tonic in fifths. -/
def KeyOK (k : Key) : Prop := k.tonicType = .tpc ∧ 0 ≤ k.relativeTonic ∧ k.relativeTonic < 35

/-- The row shows the chord. -/
def ShowsChord (isNum : Char → Bool) (tpcC : Int) (x : Chord δ × Option Str) (r : FullRow τ) : Prop :=
  r.rootTpc = x.1.root + (tpcC - 15) ∧ r.rootMidi = pitchClass x.1.root ∧ r.chordType = x.1.chordType ∧
  r.inversion = x.1.inversion ∧
  match x.2 with
  | none => r.suspensionTpc = [] ∧ r.suspensionMidi = []
  | some s => ∃ m, addedAndRemoved isNum x.1.root x.1.chordType s x.1.keyTonic x.1.keyMode = .ok m ∧
      ColumnsOf tpcC m r.suspensionTpc r.suspensionMidi

/-- The row shows the key. -/
def ShowsKey (tpcC : Int) (k : Key) (r : FullRow τ) : Prop :=
  r.tonicTpc = k.relativeTonic + (tpcC - 15) ∧ r.tonicMidi = pitchClass k.relativeTonic ∧
  r.mode = k.relativeMode

theorem entryMidi_ok (e : ChangeEntry) :
    entryMidi e = .ok (e.1.map pitchClass, e.2.1, pitchClass e.2.2) := by
  obtain ⟨o, up, n⟩ := e
  cases o <;> simp only [entryMidi, Bind.bind, Except.bind, C08_value] <;> rfl

theorem mapPy_pure {α β : Type} (f : α → Py β) (g : α → β) (h : ∀ x, f x = .ok (g x)) (l : List α) :
    mapPy f l = .ok (l.map g) := by
  induction l with
  | nil => rfl
  | cons x l ih => simp only [mapPy, h, ih, List.map_cons]

theorem chordLabels_ok (isNum : Char → Bool) (tpcC : Int) (x : Chord δ × Option Str) (h : ChordOK isNum x) :
    ∃ v tpc midi, chordLabels isNum tpcC x = .ok (v, tpc, midi) ∧
      chordFromOneHotIndex v .tpc true false false noReduction = .ok (x.1.root, x.1.chordType, x.1.inversion) ∧
      match x.2 with
      | none => tpc = [] ∧ midi = []
      | some s => ∃ m, addedAndRemoved isNum x.1.root x.1.chordType s x.1.keyTonic x.1.keyMode = .ok m ∧
          ColumnsOf tpcC m tpc midi := by
  obtain ⟨c, s⟩ := x
  obtain ⟨hp, hcls, hch⟩ := h
  simp only at hp hcls hch ⊢
  obtain ⟨⟨a0, a1⟩, b⟩ := hcls
  rw [specRoots_abs] at a1
  obtain ⟨v, e1, _, e3⟩ := chord_code a0 a1 (ct := c.chordType) (b rfl)
  have e3' : chordFromOneHotIndex v .tpc true false false noReduction =
    .ok (c.root, c.chordType, c.inversion) := e3
  have hv : c.oneHotIndex false true false noReduction = .ok v := by
    simp only [Chord.oneHotIndex, hp, Bool.false_eq_true, if_false, Bind.bind, Except.bind, e1]
  cases s with
  | none =>
    refine ⟨v, [], [], ?_, e3', rfl, rfl⟩
    simp only [chordLabels, suspensionStrings, Bind.bind, Except.bind, hv]
  | some s =>
    obtain ⟨m, hm⟩ := hch s rfl
    refine ⟨v, m.map (entryTpc tpcC), _, ?_, e3', m, hm, ?_, rfl⟩
    · simp only [chordLabels, suspensionStrings, Bind.bind, Except.bind, hv, hm,
        mapPy_pure _ _ entryMidi_ok]
    · refine List.map_congr_left fun e _ => ?_
      have h15 : TPC_C = 15 := rfl
      simp only [entryTpc, h15, Prod.mk.injEq, true_and]
      refine ⟨?_, by omega⟩
      cases e.1 with
      | none => rfl
      | some o => simp only [Option.map_some, Option.some.injEq]; omega

theorem keyIndex_ok (k : Key) (h : KeyOK k) : ∃ v, k.oneHotIndex = .ok v ∧
    keyFromOneHotIndex v .tpc false = .ok (k.relativeTonic, k.relativeMode) := by
  obtain ⟨hp, h0, h1⟩ := h
  obtain ⟨v, e, _, e3⟩ := gtKeyCode_ok (src := .tpc) (dst := .tpc) (.inl rfl) k hp h0 h1
  refine ⟨v, ?_, e3⟩
  simp only [gtKeyCode, Key.toPitchType, hp, if_true, Bind.bind, Except.bind] at e
  rw [← e, ← hp]

theorem fullRows_spec (tpcC : Int)
    (items : List (ℚ × (Int × List ChangeEntry × List ChangeEntry) × Int × τ))
    (h : ∀ x ∈ items, (∃ l, chordFromOneHotIndex x.2.1.1 .tpc true false false noReduction = .ok l) ∧
      ∃ l, keyFromOneHotIndex x.2.2.1 .tpc false = .ok l) :
    ∃ full : List (FullRow τ), full.length = items.length ∧
      fullRows tpcC items = .ok (full.filter fun r => decide (r.duration ≠ 0)) ∧
      ∀ (i : Nat) r, full[i]? = some r → ∃ x root tonic, items[i]? = some x ∧ r.duration = x.1 ∧
        r.pos = x.2.2.2 ∧ r.suspensionTpc = x.2.1.2.1 ∧ r.suspensionMidi = x.2.1.2.2 ∧
        chordFromOneHotIndex x.2.1.1 .tpc true false false noReduction =
          .ok (root, r.chordType, r.inversion) ∧
        keyFromOneHotIndex x.2.2.1 .tpc false = .ok (tonic, r.mode) ∧
        r.rootTpc = root + (tpcC - 15) ∧ r.tonicTpc = tonic + (tpcC - 15) ∧
        r.rootMidi = pitchClass root ∧ r.tonicMidi = pitchClass tonic := by
  induction items with
  | nil => exact ⟨[], rfl, rfl, by simp⟩
  | cons x rest ih =>
    obtain ⟨full, f1, f2, f3⟩ := ih (fun y hy => h y (List.mem_cons_of_mem _ hy))
    obtain ⟨⟨⟨root, ct, inv⟩, h1⟩, ⟨tonic, mode⟩, h2⟩ := h x List.mem_cons_self
    obtain ⟨d, ⟨chord, tpc, midi⟩, key, pos⟩ := x
    simp only at h1 h2
    have h15 : TPC_C = 15 := rfl
    refine ⟨⟨root - TPC_C + tpcC, pitchClass root, ct, inv, tpc, midi, tonic - TPC_C + tpcC,
      pitchClass tonic, mode, d, pos⟩ :: full, by simp [f1], ?_, ?_⟩
    · simp only [fullRows]
      by_cases hd : d = 0
      · rw [if_pos hd, f2, List.filter_cons, if_neg (by simpa using hd)]
      · rw [if_neg hd, List.filter_cons, if_pos (by simpa using hd)]
        simp only [Bind.bind, Except.bind, h1, h2, C08_value, f2]
        rfl
    · intro i r hr
      cases i with
      | zero =>
        simp only [List.getElem?_cons_zero, Option.some.injEq] at hr
        subst hr
        refine ⟨_, root, tonic, rfl, rfl, rfl, rfl, rfl, h1, h2, ?_, ?_, rfl, rfl⟩ <;> simp only <;> omega
      | succ i =>
        obtain ⟨x, root, tonic, hx, rest⟩ := f3 i r (by simpa using hr)
        exact ⟨x, root, tonic, by simpa using hx, rest⟩

/-- C77: the table has one row for each input of nonzero duration, in order, with its position and duration
and with the chord and the key that cover it. -/
theorem C77_rows (isNum : Char → Bool) (tpcC : Int) (cache : List ℚ) (chords : List (Chord δ × Option Str))
    (chordChanges : List Nat) (keys : List Key) (keyChanges : List Nat) (onsets : List τ)
    (hl : cache.length = onsets.length) (hc : OpenTiles chords chordChanges) (hk : OpenTiles keys keyChanges)
    (hcs : ∀ x ∈ chords, ChordOK isNum x) (hks : ∀ k ∈ keys, KeyOK k) :
    ∃ full : List (FullRow τ), full.length = onsets.length ∧
      labelsDf isNum tpcC cache chords chordChanges keys keyChanges onsets =
        .ok (full.filter fun r => decide (r.duration ≠ 0)) ∧
      ∀ (i : Nat) r, full[i]? = some r → cache[i]? = some r.duration ∧ onsets[i]? = some r.pos ∧
        (∃ x, Covers chords chordChanges i x ∧ ShowsChord isNum tpcC x r) ∧
        ∃ k, Covers keys keyChanges i k ∧ ShowsKey tpcC k r := by
  obtain ⟨arr0, last, v, a, a1, a2, a3, a4, a5, a6⟩ := LabelTable.gtFrom_spec (0, [], [])
    (chordLabels isNum tpcC) onsets.length chords chordChanges hc.len hc.ne hc.sorted (fun x hx => by
      obtain ⟨v, t, m, h, _⟩ := chordLabels_ok isNum tpcC x (hcs x hx)
      exact ⟨_, h⟩)
  obtain ⟨ks, b1, b2, b3⟩ := gtLabels_spec Key.oneHotIndex onsets.length keys keyChanges hk.len hk.ne
    hk.sorted (fun k hkm => by
      obtain ⟨v, h, _⟩ := keyIndex_ok k (hks k hkm)
      exact ⟨v, h⟩)
  generalize hcsArr : assignRange arr0 a onsets.length v = cs at a5 a6
  -- what stands at an input
  have point : ∀ (i : Nat) (x : ℚ × (Int × List ChangeEntry × List ChangeEntry) × Int × τ),
      (cache.zip (cs.zip (ks.zip onsets)))[i]? = some x →
      cache[i]? = some x.1 ∧ onsets[i]? = some x.2.2.2 ∧
      (∃ c, Covers chords chordChanges i c ∧ chordLabels isNum tpcC c = .ok x.2.1) ∧
      ∃ k, Covers keys keyChanges i k ∧ k.oneHotIndex = .ok x.2.2.1 := by
    intro i x hx
    obtain ⟨x1, x2⟩ := zip_some hx
    obtain ⟨x3, x4⟩ := zip_some x2
    obtain ⟨x5, x6⟩ := zip_some x4
    have hi : i < onsets.length := (List.getElem?_eq_some_iff.1 x6).1
    obtain ⟨c, hcov⟩ := exists_covers chords chordChanges i 0 (by rw [hc.len]) hc.ne hc.start (Nat.zero_le _)
      (fun e he => by rw [hc.len] at he; simp at he)
    obtain ⟨k, hkov⟩ := exists_covers keys keyChanges i 0 (by rw [hk.len]) hk.ne hk.start (Nat.zero_le _)
      (fun e he => by rw [hk.len] at he; simp at he)
    obtain ⟨w, w1, w2⟩ := a6 i c hi hcov
    obtain ⟨u, u1, u2⟩ := b3 i k hi hkov
    rw [x3] at w2
    rw [x5] at u2
    injection w2 with w2
    injection u2 with u2
    exact ⟨x1, x6, ⟨c, hcov, by rw [w2]; exact w1⟩, k, hkov, by rw [u2]; exact u1⟩
  obtain ⟨full, f1, f2, f3⟩ := fullRows_spec tpcC (cache.zip (cs.zip (ks.zip onsets))) (fun x hx => by
    obtain ⟨i, hi, rfl⟩ := List.getElem_of_mem hx
    obtain ⟨_, _, ⟨c, c1, c2⟩, k, k1, k2⟩ := point i _ (List.getElem?_eq_getElem hi)
    obtain ⟨v, t, m, g1, g2, _⟩ := chordLabels_ok isNum tpcC c (hcs c (covers_mem c1))
    obtain ⟨u, q1, q2⟩ := keyIndex_ok k (hks k (covers_mem k1))
    rw [c2] at g1
    rw [k2] at q1
    injection g1 with g1
    injection q1 with q1
    refine ⟨⟨_, by rw [g1]; exact g2⟩, _, by rw [q1]; exact q2⟩)
  refine ⟨full, ?_, ?_, ?_⟩
  · rw [f1]
    simp only [List.length_zip]
    omega
  · simp only [labelsDf, Bind.bind, Except.bind, a1, a2, a3, a4, b1, hcsArr, f2]
  · intro i r hr
    obtain ⟨x, root, tonic, hx, r1, r2, r3, r4, r5, r6, r7, r8, r9, r10⟩ := f3 i r hr
    obtain ⟨p1, p2, ⟨c, c1, c2⟩, k, k1, k2⟩ := point i x hx
    obtain ⟨v, t, m, g1, g2, g3⟩ := chordLabels_ok isNum tpcC c (hcs c (covers_mem c1))
    obtain ⟨u, q1, q2⟩ := keyIndex_ok k (hks k (covers_mem k1))
    rw [c2] at g1
    rw [k2] at q1
    injection g1 with g1
    injection q1 with q1
    rw [g1] at r3 r4 r5
    rw [q1, q2] at r6
    rw [g2] at r5
    simp only [Except.ok.injEq, Prod.mk.injEq] at r5 r6
    refine ⟨by rw [r1]; exact p1, by rw [r2]; exact p2, ⟨c, c1, ?_⟩, k, k1, ?_⟩
    · refine ⟨by rw [r7, r5.1], by rw [r9, r5.1], r5.2.1.symm, r5.2.2.symm, ?_⟩
      rw [r3, r4]
      exact g3
    · exact ⟨by rw [r8, r6.1], by rw [r10, r6.1], r6.2.symm⟩

/-- C77: a chord with changes in the notation of C76 which replace different tones: the two columns have
one entry for each change, in order, with its pitches. -/
theorem C77_changes (isNum : Char → Bool) (hn : Numeric isNum) (tpcC : Int) (c : Chord δ) (cs : List Change)
    (r : FullRow τ) (hs : ShowsChord isNum tpcC (c, some (cs.map Change.text).flatten) r)
    (hf : Fits c.root c.chordType) (ht : 0 ≤ c.keyTonic ∧ c.keyTonic < 35)
    (hv : ∀ x ∈ cs, x.Valid c.chordType) (hp : ∀ x ∈ cs.dropLast, x.mark ≠ .plus)
    (hd : (cs.map (Change.target (isTriad c.chordType))).Nodup) :
    ∃ m : List ChangeEntry, List.Forall₂ (fun x e => RemovedRight c.root c.chordType x e.1 ∧
        AddedRight c.root c.keyTonic c.keyMode x e.2) cs m ∧
      ColumnsOf tpcC m r.suspensionTpc r.suspensionMidi := by
  obtain ⟨m, d, h1, h2, h3, _⟩ := C76_mapping_partial isNum hn c.root c.keyTonic c.chordType c.keyMode cs hf ht
    hv hp
  obtain ⟨_, _, _, _, m', e, hcol⟩ := hs
  have hdm := h3 hd
  rw [h2] at e
  injection e with e
  exact ⟨m, h1, by rw [← hdm, e]; exact hcol⟩

/-- G7 with a suspended fourth and an added flat ninth in C major, before a C major chord. -/
def exampleChords : List (Chord ℚ × Option Str) :=
  [(⟨16, 16, 15, .major, .majMin7, 0, 3, 3, 1, .tpc⟩, some "4+b9".toList),
   (⟨15, 15, 15, .major, .major, 0, 3, 3, 1, .tpc⟩, none)]

example : labelsDf Char.isDigit 0 [0, 1, 2] exampleChords [0, 2]
      [⟨15, 15, 15, .major, .major, .major, .tpc⟩] [0] [(0 : ℚ), 1, 2] =
    .ok [⟨1, 7, .majMin7, 0, [(some 5, false, 0), (none, true, -4)], [(some 11, false, 0), (none, true, 8)],
        0, 0, .major, 1, 1⟩,
      ⟨0, 0, .major, 0, [], [], 0, 0, .major, 2, 2⟩] := by decide +kernel

end Verif.FullLabels
