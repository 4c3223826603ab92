import Verif.ForcesJson
import Verif.Props.PyStr

/-!
# C106 and C107: forces from a json file
-/

namespace Verif.ForcesJson

/-- The forces of a piece as the documentation describes them: ranges with ids. -/
structure Forces where
  chordChanges : Option (List Int)
  chordNonChanges : Option (List Int)
  keyChanges : Option (List Int)
  keyNonChanges : Option (List Int)
  chords : Option (List ((Int × Int) × Int))
  keys : Option (List ((Int × Int) × Int))

/-- No range is given twice. -/
def Forces.Distinct (f : Forces) : Prop :=
  (∀ l, f.chords = some l → (l.map Prod.fst).Nodup) ∧ (∀ l, f.keys = some l → (l.map Prod.fst).Nodup)

/-- The string form of a range, with any number of spaces after the comma (Python writes one). -/
def rangeText (spaces : Nat) (r : Int × Int) : Str :=
  ['('] ++ intStr r.1 ++ [','] ++ List.replicate spaces ' ' ++ intStr r.2 ++ [')']

/-- How forces are written. -/
def Forces.text (spaces : Nat) (f : Forces) : RawForces where
  chordChanges := f.chordChanges
  chordNonChanges := f.chordNonChanges
  keyChanges := f.keyChanges
  keyNonChanges := f.keyNonChanges
  chords := f.chords.map fun l => l.map fun e => (rangeText spaces e.1, e.2)
  keys := f.keys.map fun l => l.map fun e => (rangeText spaces e.1, e.2)

/-- The arguments that forces stand for. -/
def Forces.args (f : Forces) : ForceArgs where
  chordChanges := f.chordChanges
  chordNonChanges := f.chordNonChanges
  keyChanges := f.keyChanges
  keyNonChanges := f.keyNonChanges
  chords := f.chords.map fun l => l.map fun e => ([e.1.1, e.1.2], e.2)
  keys := f.keys.map fun l => l.map fun e => ([e.1.1, e.1.2], e.2)

theorem rangeOf_text (spaces : Nat) (r : Int × Int) : rangeOf (rangeText spaces r) = .ok [r.1, r.2] := by
  have h1 : ((rangeText spaces r).drop 1).dropLast =
      intStr r.1 ++ [','] ++ (List.replicate spaces ' ' ++ intStr r.2) := by
    simp [rangeText, ← List.append_assoc]
  have hsp : ∀ c ∈ List.replicate spaces ' ', isSpace c = true := by
    intro c hc; rw [List.mem_replicate] at hc; rw [hc.2]; decide
  have hc : ',' ∉ List.replicate spaces ' ' ++ intStr r.2 := by
    rw [List.mem_append, not_or]
    refine ⟨?_, PyStrings.comma_free r.2⟩
    intro h; rw [List.mem_replicate] at h; exact absurd h.2 (by decide)
  have p1 := parseInt_intStr r.1 [] [] (by simp) (by simp)
  have p2 := parseInt_intStr r.2 (List.replicate spaces ' ') [] hsp (by simp)
  simp only [List.nil_append, List.append_nil] at p1 p2
  rw [rangeOf, h1, pySplit_cons ',' [] _ _ (PyStrings.comma_free r.1), pySplit_word ',' [] _ hc]
  simp [p1, p2, Bind.bind, Except.bind, Pure.pure, Except.pure]

theorem putItem_new {κ ν : Type} [DecidableEq κ] (k : κ) (v : ν) (d : List (κ × ν)) (h : k ∉ d.map Prod.fst) :
    putItem k v d = d ++ [(k, v)] := by
  induction d with
  | nil => rfl
  | cons e d ih =>
    obtain ⟨k', v'⟩ := e
    simp only [List.map_cons, List.mem_cons, not_or] at h
    rw [putItem, if_neg (fun hx => h.1 hx.symm), ih h.2]; rfl

theorem rangesOf_text (spaces : Nat) (l : List ((Int × Int) × Int)) (acc : List (List Int × Int))
    (hnd : (l.map Prod.fst).Nodup) (hacc : ∀ e ∈ l, [e.1.1, e.1.2] ∉ acc.map Prod.fst) :
    rangesOf acc (l.map fun e => (rangeText spaces e.1, e.2)) =
      .ok (acc ++ l.map fun e => ([e.1.1, e.1.2], e.2)) := by
  induction l generalizing acc with
  | nil => simp [rangesOf]
  | cons e l ih =>
    simp only [List.map_cons, List.nodup_cons] at hnd
    simp only [List.map_cons, rangesOf, rangeOf_text, Bind.bind, Except.bind]
    rw [putItem_new _ _ _ (hacc e (by simp)), ih _ hnd.2]
    · simp
    · intro x hx
      rw [List.map_append, List.mem_append, not_or]
      refine ⟨hacc x (List.mem_cons_of_mem _ hx), ?_⟩
      simp only [List.map_cons, List.map_nil, List.mem_singleton, List.cons.injEq, and_true]
      rintro ⟨h1, h2⟩
      exact hnd.1 (List.mem_map.mpr ⟨x, hx, Prod.ext h1 h2⟩)

theorem load_text (spaces : Nat) (f : Forces) (h : f.Distinct) : loadForces (f.text spaces) = .ok f.args := by
  obtain ⟨a, b, c, d, ch, ky⟩ := f
  have opt : ∀ o : Option (List ((Int × Int) × Int)), (∀ l, o = some l → (l.map Prod.fst).Nodup) →
      optRangesOf (o.map fun l => l.map fun e => (rangeText spaces e.1, e.2)) =
        .ok (o.map fun l => l.map fun e => ([e.1.1, e.1.2], e.2)) := by
    intro o ho
    cases o with
    | none => rfl
    | some l =>
      have := rangesOf_text spaces l [] (ho l rfl) (by simp)
      simp [optRangesOf, this, Bind.bind, Except.bind]
  simp only [loadForces, Forces.text, opt ch h.1, opt ky h.2, Bind.bind, Except.bind, Forces.args]

/-! ## C106: forces are loaded as written -/

/-- C106: a file with forces by piece: each entry is loaded with the same name and the same changes, ranges and
ids, in the same order. -/
theorem C106_pieces (spaces : Nat) (pieces : List (Str × Forces)) (h : ∀ p ∈ pieces, p.2.Distinct) :
    loadForcesFile {} (pieces.map fun p => (p.1, p.2.text spaces)) =
      .ok (pieces.map fun p => (p.1, p.2.args)) := by
  have hg : ({} : RawForces).given = false := rfl
  rw [loadForcesFile, hg]
  simp only [Bool.false_eq_true, if_false]
  induction pieces with
  | nil => rfl
  | cons p ps ih =>
    simp only [List.map_cons, loadEntries, load_text spaces p.2 (h p (by simp)),
      ih (fun q hq => h q (List.mem_cons_of_mem _ hq)), Bind.bind, Except.bind]

/-- C106: a file with forces for all pieces is loaded as the forces called `default`. Entries of other names in such
a file have no effect. -/
theorem C106_default (spaces : Nat) (f : Forces) (h : f.Distinct) (pieces : List (Str × RawForces))
    (hg : f.chordChanges ≠ none ∨ f.chordNonChanges ≠ none ∨ f.keyChanges ≠ none ∨ f.keyNonChanges ≠ none ∨
      f.chords ≠ none ∨ f.keys ≠ none) :
    loadForcesFile (f.text spaces) pieces = .ok [(['d', 'e', 'f', 'a', 'u', 'l', 't'], f.args)] := by
  have hgiven : (f.text spaces).given = true := by
    simp only [RawForces.given, Forces.text, Bool.or_eq_true, Option.isSome_map]
    simp only [← Option.isSome_iff_ne_none] at hg
    simpa only [or_assoc] using hg
  rw [loadForcesFile, hgiven]
  simp only [if_true, loadEntries, load_text spaces f h, Bind.bind, Except.bind]
  rfl

/-- Four bars with C major, then one with G major; the chord must not change at note 3. -/
def sample : Forces :=
  ⟨none, some [3], none, none, some [((0, 16), 0), ((16, 20), 105)], none⟩

example : (sample.text 1).chords =
    some [(['(', '0', ',', ' ', '1', '6', ')'], 0), (['(', '1', '6', ',', ' ', '2', '0', ')'], 105)] := by
  decide +kernel
example : sample.Distinct := by
  constructor
  · intro l hl; cases hl; decide
  · intro l hl; cases hl
example : rangeOf ['(', '0', ',', '1', '6'] = .ok [0, 1] := by decide +kernel
example : rangeOf ['0', ',', '1', '6'] = .error .valueError := by decide +kernel

/-! ## C107: the forces of a piece -/

/-- A possible order of iteration of the set of the keys of the file other than `default`. -/
def IsOrder (all : List (Str × ForceArgs)) (order : List Str) : Prop :=
  order.Perm ((all.map Prod.fst).filter (· ≠ defaultKey))

theorem firstKeyIn_some {name : Str} {order : List Str} {k : Str} (h : firstKeyIn name order = some k) :
    k ∈ order ∧ containsLiteral k name = true := by
  induction order with
  | nil => cases h
  | cons a as ih =>
    rw [firstKeyIn] at h
    by_cases ha : containsLiteral a name = true
    · rw [if_pos ha] at h; cases h; exact ⟨by simp, ha⟩
    · rw [if_neg ha] at h
      exact ⟨List.mem_cons_of_mem _ (ih h).1, (ih h).2⟩

theorem firstKeyIn_none {name : Str} {order : List Str} (h : firstKeyIn name order = none) (k : Str)
    (hk : k ∈ order) : containsLiteral k name = false := by
  induction order with
  | nil => cases hk
  | cons a as ih =>
    rw [firstKeyIn] at h
    by_cases ha : containsLiteral a name = true
    · rw [if_pos ha] at h; cases h
    · rw [if_neg ha] at h
      rcases List.mem_cons.mp hk with rfl | hk
      · simpa using ha
      · exact ih h hk

theorem lookup_mem {all : List (Str × ForceArgs)} (hnd : (all.map Prod.fst).Nodup) {k : Str} {f : ForceArgs}
    (h : (k, f) ∈ all) : all.lookup k = some f := by
  induction all with
  | nil => cases h
  | cons e all ih =>
    obtain ⟨k', f'⟩ := e
    simp only [List.map_cons, List.nodup_cons] at hnd
    rcases List.mem_cons.mp h with h' | h'
    · cases h'; simp [List.lookup]
    · have : k ≠ k' := by rintro rfl; exact hnd.1 (List.mem_map.mpr ⟨(_, f), h', rfl⟩)
      rw [List.lookup_cons, beq_eq_false_iff_ne.mpr this]
      exact ih hnd.2 h'

/-- The text of a key occurs in the name. -/
theorem literal_isSome (lit s : Str) : (literal lit s).isSome = true ↔ lit <+: s := by
  rw [literal, ← List.isPrefixOf_iff_prefix]
  by_cases h : lit.isPrefixOf s = true
  · simp [h]
  · simp [h]

/-- `containsLiteral` is Python's `in` of strings: the literal is a part of the string. -/
theorem containsLiteral_iff (lit s : Str) : containsLiteral lit s = true ↔ lit <:+: s := by
  rw [containsLiteral]
  induction s with
  | nil =>
    rw [List.infix_nil]
    cases lit with
    | nil => simp [search, literal]
    | cons a lit => simp [search, literal]
  | cons c s ih =>
    rw [List.infix_cons_iff, search, ← ih, ← literal_isSome]
    cases h : literal lit (c :: s) with
    | none => simp
    | some r => simp

/-- C107 (partial: if several keys occur in the name, see `C107_fails`): the forces of a piece are those of the key
that occurs in its name, in every order of iteration. -/
theorem C107_named_partial (all : List (Str × ForceArgs)) (hnd : (all.map Prod.fst).Nodup) (name k : Str)
    (f : ForceArgs) (hk : (k, f) ∈ all) (hd : k ≠ ['d', 'e', 'f', 'a', 'u', 'l', 't']) (hin : k <:+: name)
    (huniq : ∀ k' f', (k', f') ∈ all → k' ≠ ['d', 'e', 'f', 'a', 'u', 'l', 't'] → k' <:+: name → k' = k)
    (order : List Str) (ho : IsOrder all order) : forcesOfPiece order all (some name) = f := by
  have hmem : k ∈ order := by
    rw [ho.mem_iff, List.mem_filter]
    exact ⟨List.mem_map.mpr ⟨_, hk, rfl⟩, decide_eq_true hd⟩
  cases hf : firstKeyIn name order with
  | none =>
    have := firstKeyIn_none hf k hmem
    rw [(containsLiteral_iff k name).mpr hin] at this; cases this
  | some k' =>
    obtain ⟨h1, h2⟩ := firstKeyIn_some hf
    rw [ho.mem_iff, List.mem_filter] at h1
    obtain ⟨⟨k'', f''⟩, hm, rfl⟩ := List.mem_map.mp h1.1
    have : k'' = k := huniq k'' f'' hm (of_decide_eq_true h1.2) ((containsLiteral_iff _ _).mp h2)
    subst this
    simp only [forcesOfPiece, hf, Option.bind_some, lookup_mem hnd hk]

/-- C107: a piece in whose name no key occurs, or without a name, has the forces called `default`, or none. -/
theorem C107_default (all : List (Str × ForceArgs)) (name : Option Str)
    (hno : ∀ n k f, name = some n → (k, f) ∈ all → k ≠ ['d', 'e', 'f', 'a', 'u', 'l', 't'] → ¬ k <:+: n)
    (order : List Str) (ho : IsOrder all order) :
    forcesOfPiece order all name =
      match all.lookup ['d', 'e', 'f', 'a', 'u', 'l', 't'] with | some f => f | none => {} := by
  cases name with
  | none => rfl
  | some n =>
    have hf : firstKeyIn n order = none := by
      cases hf : firstKeyIn n order with
      | none => rfl
      | some k =>
        obtain ⟨h1, h2⟩ := firstKeyIn_some hf
        rw [ho.mem_iff, List.mem_filter] at h1
        obtain ⟨⟨k', f'⟩, hm, rfl⟩ := List.mem_map.mp h1.1
        exact absurd ((containsLiteral_iff _ _).mp h2) (hno n k' f' rfl hm (of_decide_eq_true h1.2))
    simp only [forcesOfPiece, hf, Option.bind_none]
    rfl

/-- C107 does not hold: if two keys occur in the name of a piece, both of their forces are possible, depending on
the order of the set. Nothing is preferred, not even a key that is all of the name. -/
theorem C107_fails (all : List (Str × ForceArgs)) (hnd : (all.map Prod.fst).Nodup) (name k₁ k₂ : Str)
    (f₁ f₂ : ForceArgs) (h₁ : (k₁, f₁) ∈ all) (h₂ : (k₂, f₂) ∈ all)
    (hd₁ : k₁ ≠ ['d', 'e', 'f', 'a', 'u', 'l', 't']) (hd₂ : k₂ ≠ ['d', 'e', 'f', 'a', 'u', 'l', 't'])
    (hin₁ : k₁ <:+: name) (hin₂ : k₂ <:+: name) :
    (∃ order, IsOrder all order ∧ forcesOfPiece order all (some name) = f₁) ∧
    (∃ order, IsOrder all order ∧ forcesOfPiece order all (some name) = f₂) := by
  have key : ∀ k f, (k, f) ∈ all → k ≠ ['d', 'e', 'f', 'a', 'u', 'l', 't'] → k <:+: name →
      ∃ order, IsOrder all order ∧ forcesOfPiece order all (some name) = f := by
    intro k f hm hd hin
    have hmem : k ∈ (all.map Prod.fst).filter (· ≠ defaultKey) :=
      List.mem_filter.mpr ⟨List.mem_map.mpr ⟨_, hm, rfl⟩, decide_eq_true hd⟩
    refine ⟨k :: ((all.map Prod.fst).filter (· ≠ defaultKey)).erase k, (List.perm_cons_erase hmem).symm, ?_⟩
    simp only [forcesOfPiece, firstKeyIn, (containsLiteral_iff k name).mpr hin, if_true, Option.bind_some,
      lookup_mem hnd hm]
  exact ⟨key k₁ f₁ h₁ hd₁ hin₁, key k₂ f₂ h₂ hd₂ hin₂⟩

/-- Forces for `K279-1` and `K279-10`; the piece is `3: K279-10`. -/
example :
    let all : List (Str × ForceArgs) :=
      [(['K', '2', '7', '9', '-', '1'], { chordChanges := some [4] }),
       (['K', '2', '7', '9', '-', '1', '0'], { chordChanges := some [7] })]
    let name : Str := ['3', ':', ' ', 'K', '2', '7', '9', '-', '1', '0']
    IsOrder all (all.map Prod.fst) ∧
    forcesOfPiece (all.map Prod.fst) all (some name) = { chordChanges := some [4] } ∧
    forcesOfPiece (all.map Prod.fst).reverse all (some name) = { chordChanges := some [7] } := by
  unfold IsOrder
  decide +kernel

end Verif.ForcesJson
