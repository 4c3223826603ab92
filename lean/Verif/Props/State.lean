import Verif.Lemmas.State
import Verif.Props.ChordIndex
import Verif.Props.Pitch
import Verif.Props.ChordTones
import Mathlib.Tactic.Abel

/-!
# C20 - C24, C49: search states

A reachable state (`Reach`) is made from an initial state by chord transitions, key transitions,
rejoins, the charging of model costs, copies and the writing of hidden states, with change indices
that go forward.
-/

namespace Verif

open State

section Chains
variable {κ H P : Type} [Add κ] [Sub κ] [Zero κ]

/-! ## C20: chords tile the piece -/

omit [Add κ] [Sub κ] [Zero κ] in
theorem getChordsAux_ok (L : Labels) (g : Int) (h : Option Nat) (n : Node κ H P)
    (ps : List (Node κ H P)) (hc : ChainOK L g h (n :: ps)) :
    (getChordsAux n ps).2.length = (getChordsAux n ps).1.length + 1 ∧
    (getChordsAux n ps).2.head? = some 0 ∧ (getChordsAux n ps).2.Pairwise (· < ·) ∧
    (getChordsAux n ps).2.getLast? = some n.changeIndex ∧
    (∀ c ∈ (getChordsAux n ps).1, c.isSome) ∧
    (∀ i ∈ (getChordsAux n ps).2, i ≤ n.changeIndex) := by
  induction ps generalizing n with
  | nil => simp [getChordsAux, hc.2.1]
  | cons p ps ih =>
    obtain ⟨h1, h2, h3, h4, h5⟩ := hc
    obtain ⟨i1, i2, i3, i4, i5, i6⟩ := ih p h5
    simp only [getChordsAux]
    refine ⟨by simp [i1], ?_, ?_, by simp, ?_, ?_⟩
    · rw [List.head?_append, i2]; rfl
    · rw [List.pairwise_append]
      refine ⟨i3, by simp, ?_⟩
      intro a ha b hb
      simp only [List.mem_singleton] at hb
      subst hb
      exact Nat.lt_of_le_of_lt (i6 a ha) h2
    · intro c hcm
      rw [List.mem_append, List.mem_singleton] at hcm
      rcases hcm with hcm | rfl
      · exact i5 c hcm
      · exact Option.isSome_iff_ne_none.mpr h1
    · intro i hi
      rw [List.mem_append, List.mem_singleton] at hi
      rcases hi with hi | rfl
      · exact Nat.le_of_lt (Nat.lt_of_le_of_lt (i6 i hi) h2)
      · exact Nat.le_refl _

/-- C20: the chords of a reachable state are all present, there is one more change index than chords,
the indices start at 0, strictly increase and end at the state's change index. -/
theorem C20_tiles (L : Labels) (pt : PitchType) (g : Int) (h : Option Nat)
    (hh : ∀ k, h = some k → 1 ≤ k) (s : State κ H P) (hr : Reach L pt g h s) :
    (getChords s).2.length = (getChords s).1.length + 1 ∧ (getChords s).2.head? = some 0 ∧
    (getChords s).2.Pairwise (· < ·) ∧ (getChords s).2.getLast? = some s.node.changeIndex ∧
    (∀ c ∈ (getChords s).1, c.isSome) := by
  have h1 := getChordsAux_ok L g h _ _ (hr.chain hh)
  exact ⟨h1.1, h1.2.1, h1.2.2.1, h1.2.2.2.1, h1.2.2.2.2.1⟩

omit [Sub κ] [Zero κ] in
/-- C20: a chord transition adds one chord and one change index. -/
theorem C20_chord_transition (L : Labels) (pt : PitchType) (s s' : State κ H P) (c : Int) (i : Nat)
    (lp : κ) (ht : chordTransition L pt s c i lp = .ok (some s')) :
    getChords s' = ((getChords s).1 ++ [some c], (getChords s).2 ++ [i]) := by
  obtain ⟨root, ct, inv, bass, k, h1, h2, h3, h4, h5, rfl⟩ := chordTransition_some ht
  have : ∀ (n : Node κ H P) ps (k : Option KeyObj),
      getChordsAux { n with keyObj := k } ps = getChordsAux n ps := by
    intro n ps k; cases ps <;> rfl
  simp only [getChords, getChordsAux, this]

omit [Sub κ] [Zero κ] in
/-- C20: a key transition changes neither the chords nor their change indices. -/
theorem C20_key_transition (L : Labels) (pt : PitchType) (s s' : State κ H P) (k : Int)
    (lp : κ) (ht : keyTransition L pt s k lp = .ok (some s')) : getChords s' = getChords s := by
  obtain ⟨c, root, ct, inv, bass, tonic, mode, p, ps, hc, h1, h2, h3, h4, h5, hp, rfl⟩ :=
    keyTransition_some ht
  simp only [getChords, hp, getChordsAux]

/-- C20: a rejoin keeps the chords and moves the end of the last one. -/
theorem C20_rejoin (L : Labels) (pt : PitchType) (s s' : State κ H P) (i : Nat)
    (lp : κ) (ht : State.rejoin L pt s i lp = .ok s') :
    getChords s' = ((getChords s).1, (getChords s).2.dropLast ++ [i]) := by
  obtain ⟨c, root, ct, inv, bass, tonic, mode, p, ps, hc, h1, h2, hp, h3, rfl⟩ := rejoin_ok ht
  simp [getChords, hp, getChordsAux]

/-! ## C21: keys are the maximal runs of the per-chord keys -/

/-- Spread a list of values over positions: value `j` at each position from change `j` up to
change `j+1`. -/
def expandRuns {β : Type} : List β → List Nat → List β
  | x :: xs, a :: b :: rest => List.replicate (b - a) x ++ expandRuns xs (b :: rest)
  | _, _ => []

/-- The key of each chord of a state, oldest first. -/
def chordKeys (s : State κ H P) : List Int := (s.node :: s.prev).dropLast.reverse.map (·.key)

theorem expandRuns_snoc {β : Type} (xs : List β) (cs : List Nat) (x : β) (a b : Nat)
    (hl : cs.length = xs.length + 1) (ha : cs.getLast? = some a) :
    expandRuns (xs ++ [x]) (cs ++ [b]) = expandRuns xs cs ++ List.replicate (b - a) x := by
  induction xs generalizing cs with
  | nil =>
    match cs, hl with
    | [c], _ =>
      simp only [List.getLast?_singleton, Option.some.injEq] at ha
      subst ha
      simp [expandRuns]
  | cons y ys ih =>
    match cs, hl with
    | c :: d :: rest, hl =>
      have hl' : (d :: rest).length = ys.length + 1 := by simpa using hl
      have ha' : (d :: rest).getLast? = some a := by
        rw [← ha, List.getLast?_cons_cons]
      have := ih (d :: rest) hl' ha'
      simp only [List.cons_append, expandRuns, List.append_assoc] at this ⊢
      rw [this]

omit [Add κ] [Sub κ] [Zero κ] in
theorem getKeysAux_ok (L : Labels) (g : Int) (h : Option Nat) (n : Node κ H P)
    (ps : List (Node κ H P)) (hc : ChainOK L g h (n :: ps)) :
    (getKeysAux n ps).2.length = (getKeysAux n ps).1.length + 1 ∧
    (getKeysAux n ps).1.getLast? = (((n :: ps).dropLast.reverse.map (·.key))).getLast? ∧
    (∀ i a b, (getKeysAux n ps).1[i]? = some a → (getKeysAux n ps).1[i + 1]? = some b → a ≠ b) ∧
    (getKeysAux n ps).2.Sublist (getChordsAux n ps).2 ∧
    (getKeysAux n ps).2.head? = some 0 ∧ (getKeysAux n ps).2.getLast? = some n.changeIndex ∧
    expandRuns (getKeysAux n ps).1 (getKeysAux n ps).2 =
      expandRuns ((n :: ps).dropLast.reverse.map (·.key)) (getChordsAux n ps).2 := by
  induction ps generalizing n with
  | nil => simp [getKeysAux, getChordsAux, hc.2.1]
  | cons p ps ih =>
    obtain ⟨h1, h2, h3, h4, h5⟩ := hc
    obtain ⟨i1, i2, i3, i4, i5, i6, i7⟩ := ih p h5
    obtain ⟨c1, c2, c3, c4, c5, c6⟩ := getChordsAux_ok L g h p ps h5
    have hck : (n :: p :: ps).dropLast.reverse.map (·.key) =
        (p :: ps).dropLast.reverse.map (·.key) ++ [n.key] := by simp
    have hcl : ((p :: ps).dropLast.reverse.map (·.key)).length + 1 = (getChordsAux p ps).2.length := by
      have : ∀ (n : Node κ H P) ps, (getChordsAux n ps).2.length = ps.length + 1 := by
        intro n ps
        induction ps generalizing n with
        | nil => rfl
        | cons p ps ih => simp [getChordsAux, ih]
      rw [this]; simp
    rw [hck]
    generalize hKK : (p :: ps).dropLast.reverse.map (·.key) = CK at *
    simp only [getKeysAux, getChordsAux]
    generalize hK : getKeysAux p ps = KR at *
    obtain ⟨ks, kc⟩ := KR
    simp only at *
    have hsn := expandRuns_snoc CK (getChordsAux p ps).2 n.key p.changeIndex n.changeIndex
      hcl.symm c4
    by_cases hcond : ks.length = 0 ∨ some n.key ≠ ks.getLast?
    · rw [if_pos hcond]
      simp only
      refine ⟨by simp [i1], by simp, ?_, ?_, ?_, by simp, ?_⟩
      · intro i a b ha hb
        rw [List.getElem?_append] at ha hb
        split at hb
        · rename_i hlt
          rw [if_pos (by omega)] at ha
          exact i3 i a b ha hb
        · rename_i hge
          have hi : i + 1 = ks.length := by
            apply Nat.le_antisymm _ (by omega)
            have := (List.getElem?_eq_some_iff.mp hb).1
            simp at this; omega
          rw [if_pos (by omega)] at ha
          have hb' : b = n.key := by
            rw [hi] at hb; simpa using hb.symm
          have hla : ks.getLast? = some a := by
            rw [List.getLast?_eq_getElem?, ← ha]; congr 1; omega
          rcases hcond with h0 | h0
          · omega
          · rw [hla] at h0; subst hb'
            exact fun hab => h0 (by rw [hab])
      · exact List.Sublist.append i4 (List.Sublist.refl _)
      · rw [List.head?_append, i5]; rfl
      · rw [expandRuns_snoc ks kc n.key p.changeIndex n.changeIndex i1 i6, i7, hsn]
    · rw [if_neg hcond]
      simp only [not_or, not_not] at hcond
      obtain ⟨hne, hlast⟩ := hcond
      obtain ⟨ks', rfl⟩ : ∃ ks', ks = ks' ++ [n.key] :=
        List.getLast?_eq_some_iff.mp hlast.symm
      obtain ⟨kc', rfl⟩ : ∃ kc', kc = kc' ++ [p.changeIndex] :=
        List.getLast?_eq_some_iff.mp i6
      simp only [List.dropLast_concat, List.length_append, List.length_singleton] at *
      have hkl : kc'.length = ks'.length + 1 := by omega
      obtain ⟨a0, ha0⟩ : ∃ a0, kc'.getLast? = some a0 := by
        cases hg : kc'.getLast? with
        | none => rw [List.getLast?_eq_none_iff] at hg; subst hg; simp at hkl
        | some a => exact ⟨a, rfl⟩
      have ha0le : a0 ≤ p.changeIndex := by
        apply c6
        apply i4.subset
        exact List.mem_append_left _ (List.mem_of_getLast? ha0)
      refine ⟨by omega, by simp, i3, ?_, ?_, by simp, ?_⟩
      · exact List.Sublist.append ((List.sublist_append_left _ _).trans i4) (List.Sublist.refl _)
      · rw [List.head?_append] at i5 ⊢
        cases kc' with
        | nil => simp at hkl
        | cons x xs => simpa using i5
      · rw [hsn, ← i7, expandRuns_snoc ks' kc' n.key a0 n.changeIndex hkl ha0,
          expandRuns_snoc ks' kc' n.key a0 p.changeIndex hkl ha0, List.append_assoc,
          List.replicate_append_replicate]
        congr 2; omega

/-- C21: `get_keys` returns no two equal consecutive keys; its change indices are some of the chord
change indices, with the same first and last; and spreading the keys over the inputs gives every input
the key of the chord that covers it. -/
theorem C21_runs (L : Labels) (pt : PitchType) (g : Int) (h : Option Nat)
    (hh : ∀ k, h = some k → 1 ≤ k) (s : State κ H P) (hr : Reach L pt g h s) :
    (getKeys s).2.length = (getKeys s).1.length + 1 ∧
    (∀ i a b, (getKeys s).1[i]? = some a → (getKeys s).1[i + 1]? = some b → a ≠ b) ∧
    (getKeys s).2.Sublist (getChords s).2 ∧
    (getKeys s).2.head? = (getChords s).2.head? ∧ (getKeys s).2.getLast? = (getChords s).2.getLast? ∧
    expandRuns (getKeys s).1 (getKeys s).2 = expandRuns (chordKeys s) (getChords s).2 := by
  obtain ⟨i1, i2, i3, i4, i5, i6, i7⟩ := getKeysAux_ok L g h _ _ (hr.chain hh)
  obtain ⟨c1, c2, c3, c4, c5⟩ := C20_tiles L pt g h hh s hr
  exact ⟨i1, i3, i4, i5.trans c2.symm, i6.trans c4.symm, i7⟩

/-! ## C22: the hash is the recent history -/

/-- The `(key, chord)` pairs of a state's chain, newest first. -/
def history (s : State κ H P) : List (Int × Option Int) :=
  (s.node :: s.prev).map (fun n => (n.key, n.chord))

/-- C22: the hash has exactly `hash_length` entries; entry `j` from the end is the `j`-th newest
(key, chord) pair of the chain, or None if the chain is not that long. -/
theorem C22_history (L : Labels) (pt : PitchType) (g : Int) (h : Nat) (hh : 1 ≤ h)
    (s : State κ H P) (hr : Reach L pt g (some h) s) :
    ∃ t, s.node.hash = some t ∧ t.length = h ∧
      ∀ j, j < h → t.reverse[j]? = some ((history s)[j]?) := by
  have hc := (hr.chain (by intro k hk; injection hk with hk; omega)).head_hash
  refine ⟨recentHistory h (s.node :: s.prev), hc, by simp [recentHistory]; omega, ?_⟩
  intro j hj
  simp only [recentHistory, List.reverse_reverse, history]
  rw [List.getElem?_take_of_lt hj, List.getElem?_append]
  split
  · rename_i hlt
    rw [List.length_map] at hlt
    rw [List.getElem?_map, List.getElem?_map, List.getElem?_eq_getElem hlt]
    rfl
  · rename_i hge
    rw [List.length_map] at hge
    rw [List.getElem?_map, List.getElem?_eq_none (Nat.le_of_not_lt hge), List.length_map,
      List.getElem?_replicate_of_lt (by omega)]
    rfl

/-- C22: two states have the same hash exactly when their `hash_length` newest (key, chord) pairs
agree. -/
theorem C22_equal_iff (L L' : Labels) (pt pt' : PitchType) (g g' : Int) (h : Nat) (hh : 1 ≤ h)
    (s s' : State κ H P) (hr : Reach L pt g (some h) s) (hr' : Reach L' pt' g' (some h) s') :
    s.node.hash = s'.node.hash ↔ (history s).take h = (history s').take h := by
  obtain ⟨t, ht, hl, hj⟩ := C22_history L pt g h hh s hr
  obtain ⟨t', ht', hl', hj'⟩ := C22_history L' pt' g' h hh s' hr'
  rw [ht, ht', Option.some.injEq]
  constructor
  · rintro rfl
    apply List.ext_getElem?
    intro j
    by_cases hlt : j < h
    · have := (hj j hlt).symm.trans (hj' j hlt)
      rw [List.getElem?_take_of_lt hlt, List.getElem?_take_of_lt hlt]
      simpa using this
    · rw [List.getElem?_take_eq_none (by omega), List.getElem?_take_eq_none (by omega)]
  · intro he
    rw [← List.reverse_inj]
    apply List.ext_getElem?
    intro j
    by_cases hlt : j < h
    · rw [hj j hlt, hj' j hlt]
      have := congrArg (·[j]?) he
      simp only [List.getElem?_take_of_lt hlt] at this
      rw [this]
    · rw [List.getElem?_eq_none (by simp; omega), List.getElem?_eq_none (by simp; omega)]

/-! ## C49: cached key objects -/

/-- C49: the key object of a reachable state is the label of its key, with the label of the initial
key as its global key, however much of it was cached on the way. -/
theorem C49_key_object (L : Labels) (pt : PitchType) (g : Int) (h : Option Nat)
    (hh : ∀ k, h = some k → 1 ≤ k) (s : State κ H P) (hr : Reach L pt g h s) (k : KeyObj)
    (hk : getKey L s = .ok k) :
    pyGet L.key s.node.key = .ok (k.tonic, k.mode) ∧
      pyGet L.key g = .ok (k.globalTonic, k.globalMode) :=
  getKeyAux_ok L g h _ _ (hr.chain hh) k hk

omit [Add κ] [Sub κ] [Zero κ] in
theorem getKeyAux_total (L : Labels) (n : Node κ H P) (ps : List (Node κ H P))
    (hv : ∀ m ∈ n :: ps, ∃ tm, pyGet L.key m.key = .ok tm) : ∃ k, getKeyAux L n ps = .ok k := by
  induction ps generalizing n with
  | nil =>
    obtain ⟨tm, htm⟩ := hv n (by simp)
    rw [getKeyAux]
    cases n.keyObj with
    | some k => exact ⟨k, rfl⟩
    | none => simp only [htm, Bind.bind, Except.bind]; exact ⟨_, rfl⟩
  | cons p ps ih =>
    obtain ⟨tm, htm⟩ := hv n (by simp)
    obtain ⟨k, hk⟩ := ih p (fun m hm => hv m (List.mem_cons_of_mem _ hm))
    rw [getKeyAux]
    cases n.keyObj with
    | some k => exact ⟨k, rfl⟩
    | none => simp only [htm, hk, Bind.bind, Except.bind]; exact ⟨_, rfl⟩

/-- C49: asking for the key of a reachable state never fails if its initial key is a label. -/
theorem C49_key_object_exists (L : Labels) (pt : PitchType) (g : Int) (h : Option Nat)
    (s : State κ H P) (hr : Reach L pt g h s) (hg : ∃ tm, pyGet L.key g = .ok tm) :
    ∃ k, getKey L s = .ok k := by
  apply getKeyAux_total
  induction hr with
  | init prior => intro m hm; simp only [State.initial, List.mem_singleton] at hm; subst hm; exact hg
  | chord s s' c i lp _ hi ht ih =>
    obtain ⟨root, ct, inv, bass, k, h1, h2, h3, h4, h5, rfl⟩ := chordTransition_some ht
    intro m hm
    simp only [List.mem_cons] at hm
    rcases hm with rfl | rfl | hm
    · exact ih s.node (by simp)
    · exact ih s.node (by simp)
    · exact ih m (by simp [hm])
  | key s s' k lp _ ht ih =>
    obtain ⟨c, root, ct, inv, bass, tonic, mode, p, ps, hc, h1, h2, h3, h4, h5, hp, rfl⟩ :=
      keyTransition_some ht
    intro m hm
    simp only [List.mem_cons] at hm
    rcases hm with rfl | hm
    · exact ⟨_, h3⟩
    · exact ih m (by simp [hm])
  | rejoin s s' i lp _ hi ht ih =>
    obtain ⟨c, root, ct, inv, bass, tonic, mode, p, ps, hc, h1, h2, hp, h3, rfl⟩ := rejoin_ok ht
    intro m hm
    simp only [List.mem_cons] at hm
    rcases hm with rfl | hm
    · exact ⟨_, h3⟩
    · exact ih m (by simp [hm])
  | ktm s lp _ ih =>
    intro m hm
    simp only [State.addKtm, List.mem_cons] at hm
    rcases hm with rfl | hm
    · exact ih s.node (by simp)
    · exact ih m (by simp [hm])
  | csm s lp _ ih =>
    intro m hm
    simp only [State.addCsm, List.mem_cons] at hm
    rcases hm with rfl | hm
    · exact ih s.node (by simp)
    · exact ih m (by simp [hm])
  | copy s _ ih =>
    intro m hm
    simp only [State.copy, List.mem_cons] at hm
    rcases hm with rfl | hm
    · exact ih s.node (by simp)
    · exact ih m (by simp [hm])
  | hidden s a b c d _ ih =>
    intro m hm
    simp only [State.setHidden, List.mem_cons] at hm
    rcases hm with rfl | hm
    · exact ih s.node (by simp)
    · exact ih m (by simp [hm])

end Chains

/-! ## C23: rejoining undoes the transition cost -/

section Rejoin
variable {κ H P : Type} [AddCommGroup κ]

/-- `s'` is made from `s` by charging each of the key transition model, the key sequence model (with
its change of key) and the chord sequence model at most once, and writing hidden states. -/
inductive Charged (L : Labels) (pt : PitchType) (s : State κ H P) : State κ H P → Prop
  | refl : Charged L pt s s
  | ktm (s' : State κ H P) (lp : κ) : Charged L pt s s' → s'.node.ktm = none →
      Charged L pt s (s'.addKtm lp)
  | csm (s' : State κ H P) (lp : κ) : Charged L pt s s' → s'.node.csm = none →
      Charged L pt s (s'.addCsm lp)
  | key (s' s'' : State κ H P) (k : Int) (lp : κ) : Charged L pt s s' → s'.node.ksm = none →
      keyTransition L pt s' k lp = .ok (some s'') → Charged L pt s s''
  | hidden (s' : State κ H P) (a b c : Option H) (d : Option P) : Charged L pt s s' →
      Charged L pt s (s'.setHidden a b c d)

theorem modelAdjustment_eq (n : Node κ H P) :
    modelAdjustment n = n.csm.getD 0 + n.ksm.getD 0 + n.ktm.getD 0 := by
  simp only [modelAdjustment]
  cases n.csm <;> cases n.ksm <;> cases n.ktm <;> simp

omit [AddCommGroup κ] in
theorem newHash_isSome (hl : Option Nat) (p : Node κ H P) (ps : List (Node κ H P)) (key : Int)
    (c : Option Int) (h : p.hash.isSome = hl.isSome) :
    (newHash hl (p :: ps) key c).isSome = hl.isSome := by
  cases hl with
  | none => rfl
  | some k => simpa [newHash] using h

theorem Charged.inv {L : Labels} {pt : PitchType} {s s' : State κ H P} (hc : Charged L pt s s')
    (h0 : s.node.csm = none ∧ s.node.ksm = none ∧ s.node.ktm = none)
    (hh : ∀ p ps, s.prev = p :: ps → p.hash.isSome = s.node.hash.isSome) :
    s'.prev = s.prev ∧ s'.node.chord = s.node.chord ∧ s'.node.hash.isSome = s.node.hash.isSome ∧
      s'.node.logProb = s.node.logProb + modelAdjustment s'.node := by
  induction hc with
  | refl => simp [modelAdjustment_eq, h0.1, h0.2.1, h0.2.2]
  | ktm s' lp _ hk ih =>
    obtain ⟨i1, i2, i3, i4⟩ := ih
    refine ⟨i1, i2, i3, ?_⟩
    simp only [State.addKtm, modelAdjustment_eq] at i4 ⊢
    rw [i4, hk]; simp only [Option.getD_some, Option.getD_none]; abel
  | csm s' lp _ hk ih =>
    obtain ⟨i1, i2, i3, i4⟩ := ih
    refine ⟨i1, i2, i3, ?_⟩
    simp only [State.addCsm, modelAdjustment_eq] at i4 ⊢
    rw [i4, hk]; simp only [Option.getD_some, Option.getD_none]; abel
  | key s' s'' k lp hch hk ht ih =>
    obtain ⟨i1, i2, i3, i4⟩ := ih
    obtain ⟨c, root, ct, inv, bass, tonic, mode, p, ps, hc, h1, h2, h3, h4, h5, hp, rfl⟩ :=
      keyTransition_some ht
    refine ⟨i1, i2, ?_, ?_⟩
    · simp only [hp]
      have hm : (s'.node.hash.map List.length).isSome = s'.node.hash.isSome := by
        cases s'.node.hash <;> rfl
      rw [newHash_isSome _ _ _ _ _ (by rw [hm, i3]; exact hh p ps (i1.symm.trans hp)), hm, i3]
    · simp only [modelAdjustment_eq] at i4 ⊢
      rw [i4, hk]; simp only [Option.getD_some, Option.getD_none]; abel
  | hidden s' a b c d _ ih => exact ih

/-- The head of the chain after a chord transition, as used below. -/
theorem chordTransition_facts {L : Labels} {pt : PitchType} {s s1 : State κ H P} {c : Int} {i : Nat}
    {lp : κ} (ht : chordTransition L pt s c i lp = .ok (some s1)) :
    (s1.node.csm = none ∧ s1.node.ksm = none ∧ s1.node.ktm = none) ∧
    (∀ p ps, s1.prev = p :: ps → p.hash.isSome = s1.node.hash.isSome) := by
  obtain ⟨root, ct, inv, bass, k, h1, h2, h3, h4, h5, rfl⟩ := chordTransition_some ht
  refine ⟨⟨rfl, rfl, rfl⟩, ?_⟩
  intro p ps hp
  simp only [List.cons.injEq] at hp
  obtain ⟨rfl, rfl⟩ := hp
  have hm : (s.node.hash.map List.length).isSome = s.node.hash.isSome := by
    cases s.node.hash <;> rfl
  exact ((newHash_isSome (s.node.hash.map List.length)
      { s.node with keyObj := some k } s.prev s.node.key (some c) hm.symm).trans hm).symm

/-- Rejoining a state whose charges are all recorded. -/
theorem rejoin_recorded {L : Labels} {pt : PitchType} {g : Int} {h : Option Nat}
    (hh : ∀ k, h = some k → 1 ≤ k) {s s1 s2 : State κ H P} (hr : Reach L pt g h s) {c : Int} {i : Nat}
    {lp1 : κ} (ht : chordTransition L pt s c i lp1 = .ok (some s1)) (hp2 : s2.prev = s1.prev)
    (hc2 : s2.node.chord = s1.node.chord) (hs2 : s2.node.hash.isSome = s1.node.hash.isSome)
    (j : Nat) (lp2 extra : κ)
    (hlp : s2.node.logProb = s1.node.logProb + modelAdjustment s2.node + extra) :
    ∃ s3, State.rejoin L pt s2 j lp2 = .ok s3 ∧
      chordTransition L pt s c j (lp1 + lp2 + extra) = .ok (some s3) := by
  obtain ⟨root, ct, inv, bass, k, h1, h2, h3, h4, h5, rfl⟩ := chordTransition_some ht
  have hk := (C49_key_object L pt g h hh s hr k h3).1
  refine ⟨⟨{ chord := some c, key := s.node.key, changeIndex := j,
             logProb := s.node.logProb + (lp1 + lp2 + extra),
             hash := newHash (s.node.hash.map List.length)
                ({ s.node with keyObj := some k } :: s.prev) s.node.key (some c),
             csmHidden := s.node.csmHidden, ktmHidden := s.node.ktmHidden,
             ksmHidden := s.node.ksmHidden, csmPrior := s.node.csmPrior, keyObj := some k,
             mustKey := outside (root - k.tonic) || outside (bass - k.tonic),
             csm := none, ksm := none, ktm := none },
           { s.node with keyObj := some k } :: s.prev⟩, ?_, ?_⟩
  · simp only at hp2 hc2 hlp hs2
    have hm : (s.node.hash.map List.length).isSome = s.node.hash.isSome := by
      cases s.node.hash <;> rfl
    replace hs2 := hs2.trans ((newHash_isSome (s.node.hash.map List.length)
      { s.node with keyObj := some k } s.prev s.node.key (some c) hm.symm).trans hm)
    have hhash : newHash (s2.node.hash.map List.length)
          ({ s.node with keyObj := some k } :: s.prev) s.node.key (some c) =
        newHash (s.node.hash.map List.length)
          ({ s.node with keyObj := some k } :: s.prev) s.node.key (some c) := by
      cases ha : s2.node.hash with
      | none => cases hb : s.node.hash with
        | none => rfl
        | some b => rw [ha, hb] at hs2; cases hs2
      | some a => cases hb : s.node.hash with
        | none => rw [ha, hb] at hs2; cases hs2
        | some b => rfl
    simp only [State.rejoin, hc2, chordLabelOf, h1, h2, hp2, hk, Bind.bind, Except.bind, hhash]
    have : s2.node.logProb + lp2 - modelAdjustment s2.node = s.node.logProb + (lp1 + lp2 + extra) := by
      rw [hlp]; abel
    rw [this]
  · simp only [chordTransition, chordLabelOf, h1, h2, h3, h4, h5, Bind.bind, Except.bind, Bool.or_self,
      Bool.false_eq_true, if_false]

/-- C23: take a chord transition to `s1`, charge the models at most once each (possibly changing key)
to get `s2`, and rejoin: the result is exactly the state that a direct chord transition over the
longer range gives, with the two costs added and all the model charges gone. Rejoining never fails. -/
theorem C23_rejoin (L : Labels) (pt : PitchType) (g : Int) (h : Option Nat)
    (hh : ∀ k, h = some k → 1 ≤ k) (s s1 s2 : State κ H P) (hr : Reach L pt g h s) (c : Int)
    (i j : Nat) (lp1 lp2 : κ) (ht : chordTransition L pt s c i lp1 = .ok (some s1))
    (hc : Charged L pt s1 s2) :
    ∃ s3, State.rejoin L pt s2 j lp2 = .ok s3 ∧
      chordTransition L pt s c j (lp1 + lp2) = .ok (some s3) := by
  obtain ⟨f1, f2⟩ := chordTransition_facts ht
  obtain ⟨i1, i2, i3, i4⟩ := hc.inv f1 f2
  have := rejoin_recorded hh hr ht i1 i2 i3 j lp2 0 (by rw [add_zero]; exact i4)
  simpa using this

/-- C23: the direct consequences that a user sees. -/
theorem C23_rejoin_effect (L : Labels) (pt : PitchType) (g : Int) (h : Option Nat)
    (hh : ∀ k, h = some k → 1 ≤ k) (s s1 s2 s3 : State κ H P) (hr : Reach L pt g h s) (c : Int)
    (i j : Nat) (lp1 lp2 : κ) (ht : chordTransition L pt s c i lp1 = .ok (some s1))
    (hc : Charged L pt s1 s2) (h3 : State.rejoin L pt s2 j lp2 = .ok s3) :
    s3.node.key = s.node.key ∧ s3.node.logProb = s.node.logProb + lp1 + lp2 ∧
      s3.node.chord = some c ∧ s3.node.changeIndex = j ∧ s3.node.hash = s1.node.hash := by
  obtain ⟨s3', h3', hd⟩ := C23_rejoin L pt g h hh s s1 s2 hr c i j lp1 lp2 ht hc
  rw [h3] at h3'
  injection h3' with h3'
  subst h3'
  obtain ⟨root, ct, inv, bass, k, h1, h2, hk, h4, h5, rfl⟩ := chordTransition_some hd
  obtain ⟨root', ct', inv', bass', k', h1', h2', h3', h4', h5', rfl⟩ := chordTransition_some ht
  rw [hk] at h3'
  injection h3' with h3'
  subst h3'
  exact ⟨rfl, by simp only; abel, rfl, rfl, rfl⟩

/-- C23: the limits of the undo. Charging the same model twice leaves the first charge behind: after
two key transition charges `x` and `y` the rejoined state is that of a direct transition with the
extra cost `x`. -/
theorem C23_charged_twice (L : Labels) (pt : PitchType) (g : Int) (h : Option Nat)
    (hh : ∀ k, h = some k → 1 ≤ k) (s s1 : State κ H P) (hr : Reach L pt g h s) (c : Int)
    (i j : Nat) (lp1 lp2 x y : κ) (ht : chordTransition L pt s c i lp1 = .ok (some s1)) :
    ∃ s3, State.rejoin L pt ((s1.addKtm x).addKtm y) j lp2 = .ok s3 ∧
      chordTransition L pt s c j (lp1 + lp2 + x) = .ok (some s3) := by
  obtain ⟨f1, f2⟩ := chordTransition_facts ht
  apply rejoin_recorded (s2 := (s1.addKtm x).addKtm y) hh hr ht rfl rfl rfl
  simp only [State.addKtm, modelAdjustment_eq, f1.1, f1.2.1, Option.getD_some, Option.getD_none]
  abel

end Rejoin

/-! ## C24: transition guards -/

section Guards
variable {κ H P : Type} [Add κ] [Sub κ] [Zero κ]

omit [Add κ] [Sub κ] [Zero κ] in
theorem outsidePadded_iff (r : Int) : outsidePadded r = true ↔ ¬ (-19 ≤ r ∧ r ≤ 19) := by
  rw [outsidePadded, Bool.or_eq_true, decide_eq_true_eq, decide_eq_true_eq]
  show r < -14 - 5 ∨ r ≥ 15 + 5 ↔ _
  omega

omit [Add κ] [Sub κ] [Zero κ] in
theorem outside_iff (r : Int) : outside r = true ↔ ¬ (-14 ≤ r ∧ r ≤ 14) := by
  rw [outside, Bool.or_eq_true, decide_eq_true_eq, decide_eq_true_eq]
  show r < -14 ∨ r ≥ 15 ↔ _
  omega

omit [Add κ] [Sub κ] [Zero κ] in
theorem outside_false_iff (r : Int) : outside r = false ↔ (-14 ≤ r ∧ r ≤ 14) := by
  rw [← Bool.not_eq_true, outside_iff]; omega

omit [Sub κ] [Zero κ] in
/-- C24: `chord_transition` from a state in a key with tonic `t` to a chord with the given root and
bass: None outside -19..19, otherwise a new state, which demands a key change exactly outside
-14..14. -/
theorem C24_chord_transition (L : Labels) (pt : PitchType) (s : State κ H P) (c : Int) (i : Nat)
    (lp : κ) (root inv bass : Int) (ct : ChordType) (k : KeyObj)
    (hl : pyGet L.chord c = .ok (root, ct, inv)) (hb : bassNote ct root inv pt false = .ok bass)
    (hk : getKey L s = .ok k) :
    (¬ (-19 ≤ root - k.tonic ∧ root - k.tonic ≤ 19 ∧ -19 ≤ bass - k.tonic ∧ bass - k.tonic ≤ 19) →
      chordTransition L pt s c i lp = .ok none) ∧
    ((-19 ≤ root - k.tonic ∧ root - k.tonic ≤ 19 ∧ -19 ≤ bass - k.tonic ∧ bass - k.tonic ≤ 19) →
      ∃ s', chordTransition L pt s c i lp = .ok (some s') ∧ s'.node.chord = some c ∧
        s'.node.key = s.node.key ∧ s'.node.changeIndex = i ∧ s'.node.logProb = s.node.logProb + lp ∧
        (s'.node.mustKey = false ↔
          (-14 ≤ root - k.tonic ∧ root - k.tonic ≤ 14 ∧ -14 ≤ bass - k.tonic ∧ bass - k.tonic ≤ 14))) := by
  have hp := outsidePadded_iff
  have hu := outside_false_iff
  constructor
  · intro hn
    simp only [chordTransition, chordLabelOf, hl, hb, hk, Bind.bind, Except.bind]
    rw [if_pos]
    rw [Bool.or_eq_true, hp, hp]
    omega
  · intro hy
    obtain ⟨s', hs'⟩ : ∃ s', chordTransition L pt s c i lp = .ok (some s') := by
      simp only [chordTransition, chordLabelOf, hl, hb, hk, Bind.bind, Except.bind]
      rw [if_neg (by rw [Bool.or_eq_true, hp, hp]; omega)]
      exact ⟨_, rfl⟩
    refine ⟨s', hs', ?_⟩
    obtain ⟨root', ct', inv', bass', k', h1, h2, h3, h4, h5, rfl⟩ := chordTransition_some hs'
    rw [hl] at h1
    injection h1 with h1
    simp only [Prod.mk.injEq] at h1
    obtain ⟨rfl, rfl, rfl⟩ := h1
    rw [hb] at h2
    injection h2 with h2
    rw [hk] at h3
    injection h3 with h3
    subst h2 h3
    refine ⟨rfl, rfl, rfl, rfl, ?_⟩
    simp only [Bool.or_eq_false_iff, hu]
    omega

omit [Sub κ] [Zero κ] in
/-- C24: the error branch: a label whose bass note does not exist makes every chord transition raise
`ValueError` (not return None). -/
theorem C24_chord_transition_error (L : Labels) (pt : PitchType) (s : State κ H P) (c : Int) (i : Nat)
    (lp : κ) (root inv : Int) (ct : ChordType) (e : PyErr)
    (hl : pyGet L.chord c = .ok (root, ct, inv)) (hb : bassNote ct root inv pt false = .error e) :
    chordTransition L pt s c i lp = .error e := by
  simp only [chordTransition, chordLabelOf, hl, hb, Bind.bind, Except.bind]

omit [Sub κ] [Zero κ] in
/-- C24: `key_transition` succeeds exactly for chords inside -14..14 of the new tonic. -/
theorem C24_key_transition (L : Labels) (pt : PitchType) (s : State κ H P) (key : Int)
    (lp : κ) (c root inv bass tonic : Int) (ct : ChordType) (mode : KeyMode)
    (hc : s.node.chord = some c) (hl : pyGet L.chord c = .ok (root, ct, inv))
    (hb : bassNote ct root inv pt false = .ok bass) (hk : pyGet L.key key = .ok (tonic, mode))
    (hprev : s.prev ≠ []) :
    (¬ (-14 ≤ root - tonic ∧ root - tonic ≤ 14 ∧ -14 ≤ bass - tonic ∧ bass - tonic ≤ 14) →
      keyTransition L pt s key lp = .ok none) ∧
    ((-14 ≤ root - tonic ∧ root - tonic ≤ 14 ∧ -14 ≤ bass - tonic ∧ bass - tonic ≤ 14) →
      ∃ s', keyTransition L pt s key lp = .ok (some s') ∧ s'.node.key = key ∧
        s'.node.chord = some c ∧ s'.node.changeIndex = s.node.changeIndex ∧
        s'.node.logProb = s.node.logProb + lp ∧ s'.node.mustKey = false ∧ s'.prev = s.prev) := by
  have hu := outside_iff
  obtain ⟨p, ps, hp⟩ := List.exists_cons_of_ne_nil hprev
  constructor
  · intro hn
    simp only [keyTransition, chordLabelOf, hc, hl, hb, hk, Bind.bind, Except.bind]
    rw [if_pos]
    rw [Bool.or_eq_true, hu, hu]
    omega
  · intro hy
    obtain ⟨s', hs'⟩ : ∃ s', keyTransition L pt s key lp = .ok (some s') := by
      simp only [keyTransition, chordLabelOf, hc, hl, hb, hk, Bind.bind, Except.bind]
      rw [if_neg (by rw [Bool.or_eq_true, hu, hu]; omega), hp]
      exact ⟨_, rfl⟩
    refine ⟨s', hs', ?_⟩
    obtain ⟨_, _, _, _, _, _, _, _, _, _, _, _, _, _, _, _, rfl⟩ := keyTransition_some hs'
    exact ⟨rfl, hc, rfl, rfl, rfl, rfl⟩

/-- What `mustKey = false` says of a state: root and bass are within the range of the key. -/
def InRange (L : Labels) (pt : PitchType) (s : State κ H P) : Prop :=
  s.node.mustKey = false → ∀ c, s.node.chord = some c →
    ∃ root ct inv bass tonic mode, pyGet L.chord c = .ok (root, ct, inv) ∧
      bassNote ct root inv pt false = .ok bass ∧ pyGet L.key s.node.key = .ok (tonic, mode) ∧
      outside (root - tonic) = false ∧ outside (bass - tonic) = false ∧ s.prev ≠ []

theorem Reach.inRange {L : Labels} {pt : PitchType} {g : Int} {h : Option Nat}
    (hh : ∀ k, h = some k → 1 ≤ k) {s : State κ H P} (hr : Reach L pt g h s) : InRange L pt s := by
  induction hr with
  | init prior => intro _ c hc; simp [State.initial] at hc
  | chord s s' c i lp hr hi ht ih =>
    obtain ⟨root, ct, inv, bass, k, h1, h2, h3, h4, h5, rfl⟩ := chordTransition_some ht
    intro hm c' hc'
    simp only [Option.some.injEq] at hc'
    subst hc'
    simp only [Bool.or_eq_false_iff] at hm
    exact ⟨root, ct, inv, bass, k.tonic, k.mode, h1, h2, (C49_key_object L pt g h hh s hr k h3).1,
      hm.1, hm.2, by simp⟩
  | key s s' k lp _ ht ih =>
    obtain ⟨c, root, ct, inv, bass, tonic, mode, p, ps, hc, h1, h2, h3, h4, h5, hp, rfl⟩ :=
      keyTransition_some ht
    intro hm c' hc'
    simp only at hc'
    rw [hc] at hc'
    injection hc' with hc'
    subst hc'
    exact ⟨root, ct, inv, bass, tonic, mode, h1, h2, h3, h4, h5, by simp [hp]⟩
  | rejoin s s' i lp _ hi ht ih =>
    obtain ⟨c, root, ct, inv, bass, tonic, mode, p, ps, hc, h1, h2, hp, h3, rfl⟩ := rejoin_ok ht
    intro hm c' hc'
    simp only at hc'
    rw [hc] at hc'
    injection hc' with hc'
    subst hc'
    simp only [Bool.or_eq_false_iff] at hm
    exact ⟨root, ct, inv, bass, tonic, mode, h1, h2, h3, hm.1, hm.2, by simp [hp]⟩
  | ktm s lp _ ih => exact ih
  | csm s lp _ ih => exact ih
  | copy s _ ih => exact ih
  | hidden s a b c d _ ih => exact ih

theorem chordClasses_inversion (pt : PitchType) (c root inv : Int) (ct : ChordType)
    (h : pyGet (chordClasses pt true false false noReduction) c = .ok (root, ct, inv)) :
    0 ≤ inv ∧ inv < (inversionCount ct : Int) := by
  have hm := pyGet_mem _ _ _ h
  simp only [chordClasses, List.mem_flatMap, List.mem_map, Prod.mk.injEq] at hm
  obtain ⟨ct', _, r, _, i, hi, rfl, rfl, rfl⟩ := hm
  simp only [classInversions, if_true] at hi
  exact (mem_pyRange _ _ _).1 hi

/-- C24: a reachable state that has a chord and does not demand a key change has a relative chord
index. -/
theorem C24_encodable (pt : PitchType) (g : Int) (h : Option Nat)
    (hh : ∀ k, h = some k → 1 ≤ k) (s : State κ H P) (hr : Reach (stdLabels pt) pt g h s)
    (hg : ∃ tm, pyGet (stdLabels pt).key g = .ok tm) (c : Int)
    (hc : s.node.chord = some c) (hm : s.node.mustKey = false) :
    ∃ i, relativeChordIndex (stdLabels pt) pt s = .ok i := by
  obtain ⟨root, ct, inv, bass, tonic, mode, h1, h2, h3, h4, h5, h6⟩ := hr.inRange hh hm c hc
  obtain ⟨k, hk⟩ := C49_key_object_exists _ pt g h s hr hg
  have hkt := (C49_key_object _ pt g h hh s hr k hk).1
  rw [h3] at hkt
  injection hkt with hkt
  have ht : tonic = k.tonic := congrArg Prod.fst hkt
  have hlen : s.prev.length ≠ 0 := by simpa using h6
  simp only [relativeChordIndex, hk, hc, chordLabelOf, h1, h2, Bind.bind, Except.bind, if_neg hlen]
  have hinv := chordClasses_inversion pt c root inv ct h1
  have hrel : ∃ r, absoluteToRelative root k.tonic pt false false = .ok r := by
    cases pt with
    | midi => exact ⟨_, rfl⟩
    | tpc =>
      refine ⟨root - k.tonic + 14, ?_⟩
      rw [C05_tpc, if_pos]
      · rfl
      · rw [outside_false_iff, ht] at h4
        show -14 ≤ _ ∧ _ ≤ 14
        exact h4
  obtain ⟨r, hr'⟩ := hrel
  have hrb := C05_in_vector_range _ _ _ _ _ _ hr'
  rw [hr']
  apply (C01_accepts_iff ct r pt inv true true false noReduction).1.2
  refine ⟨?_, fun _ => ?_⟩
  · cases pt <;> exact hrb
  · rw [specInversions_eq]; exact hinv

omit [Sub κ] [Zero κ] in
/-- C24: with MIDI pitches the guards never reject or demand anything. -/
theorem C24_midi (s : State κ H P) (c : Int) (i : Nat) (lp : κ) (root inv : Int) (ct : ChordType)
    (k : KeyObj) (hl : pyGet (stdLabels .midi).chord c = .ok (root, ct, inv))
    (hk : getKey (stdLabels .midi) s = .ok k) (hkt : 0 ≤ k.tonic ∧ k.tonic < 12) :
    ∃ s', chordTransition (stdLabels .midi) .midi s c i lp = .ok (some s') ∧
      s'.node.mustKey = false := by
  have hm := pyGet_mem _ _ _ hl
  have hinv := chordClasses_inversion .midi c root inv ct hl
  have hroot : 0 ≤ root ∧ root < 12 := by
    simp only [stdLabels, chordClasses, List.mem_flatMap, List.mem_map, Prod.mk.injEq] at hm
    obtain ⟨ct', _, r, hr, i, hi, rfl, rfl, rfl⟩ := hm
    exact (mem_pyRange _ _ _).1 hr
  obtain ⟨n, rfl⟩ : ∃ n : Nat, inv = n := ⟨inv.toNat, by omega⟩
  have hn : n < (specTones .midi ct).length := by rw [specTones_length]; omega
  have hb := C14_bass ct root n _ .midi false (List.getElem?_eq_getElem hn)
  have hN : NUM_PITCHES .midi = 12 := rfl
  simp only [transposePitch, hN] at hb
  have hbb : ∀ x : Int, 0 ≤ x % 12 ∧ x % 12 < 12 := by intro x; omega
  have hbb' := hbb (root + (specTones .midi ct)[n])
  obtain ⟨s', h1, _, _, _, _, h2⟩ := (C24_chord_transition (stdLabels .midi) .midi s c i lp root n _ ct k
    hl hb hk).2 (by omega)
  exact ⟨s', h1, h2.2 (by omega)⟩

end Guards

/-! ## Concrete cases -/

/-- Two chords (C major, G major) and two keys (C major, G major). -/
def exLabels : Labels := ⟨[(0, .major, 0), (7, .major, 0)], [(0, .major), (7, .major)]⟩

/-- A state with three chords: C (0-2), G (2-5), then a change to G major on C (5-9). -/
example : ∃ s : State Int Unit Unit, Reach exLabels .midi 0 (some 2) s ∧
    getChords s = ([some 0, some 1, some 0], [0, 2, 5, 9]) ∧ getKeys s = ([0, 1], [0, 5, 9]) ∧
    s.node.hash = some [some (0, some 1), some (1, some 0)] ∧ s.node.logProb = -12 ∧
    s.node.mustKey = false ∧ getKey exLabels s = .ok ⟨7, .major, 0, .major⟩ :=
  ⟨_, Reach.key _ _ 1 (-5) (Reach.ktm _ (-1) (Reach.chord _ _ 0 9 (-3) (Reach.chord _ _ 1 5 (-2)
    (Reach.chord _ _ 0 2 (-1) (Reach.init none) (by decide) rfl) (by decide) rfl) (by decide) rfl)) rfl,
    by decide, by decide, by decide, by decide, by decide, by decide⟩

/-- C23 with a key change in between: the rejoined state equals the direct one. -/
example : ∃ s1 s2 s3 : State Int Unit Unit,
    chordTransition exLabels .midi (State.initial 0 (some 2) none) 1 3 (-4) = .ok (some s1) ∧
    Charged exLabels .midi s1 s2 ∧ s2.node.key = 1 ∧ s2.node.logProb = -11 ∧
    State.rejoin exLabels .midi s2 8 (-10) = .ok s3 ∧ s3.node.logProb = -14 ∧ s3.node.key = 0 :=
  ⟨_, _, _, rfl, Charged.key _ _ 1 (-5) (Charged.ktm _ (-2) Charged.refl rfl) rfl rfl, by decide,
    by decide, rfl, by decide, by decide⟩

/-- C24: the label list of tonal pitch classes has chords without a bass note, e.g. the first
inversion of the highest root. -/
example : pyGet (stdLabels .tpc).chord 103 = .ok (34, .major, 1) ∧
    bassNote .major 34 1 .tpc false = .error .valueError := by
  decide +kernel

/-- C24: a chord that demands a key change, and one that is rejected. -/
example : (∃ s', chordTransition (stdLabels .tpc) .tpc
      (State.initial (κ := Int) (H := Unit) (P := Unit) 0 none none) 51 1 0 = .ok (some s') ∧
      s'.node.mustKey = true) ∧
    chordTransition (stdLabels .tpc) .tpc
      (State.initial (κ := Int) (H := Unit) (P := Unit) 0 none none) 66 1 0 = .ok none := by
  refine ⟨⟨_, rfl, by decide +kernel⟩, by decide +kernel⟩

end Verif
