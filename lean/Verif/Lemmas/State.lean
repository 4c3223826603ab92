import Verif.State
import Verif.Lemmas.Lists

/-!
# Reachable search states and their chain invariant
-/

namespace Verif

open State

section
variable {κ H P : Type} [Add κ] [Sub κ] [Zero κ]

/-- The states that can be made from an initial state in key `g` with hash length `h` (None: no
hash) by the operations of the search, with ranges that go forward. -/
inductive Reach (L : Labels) (pt : PitchType) (g : Int) (h : Option Nat) : State κ H P → Prop
  | init (prior : Option P) : Reach L pt g h (State.initial g h prior)
  | chord (s s' : State κ H P) (c : Int) (i : Nat) (lp : κ) : Reach L pt g h s →
      s.node.changeIndex < i → chordTransition L pt s c i lp = .ok (some s') → Reach L pt g h s'
  | key (s s' : State κ H P) (k : Int) (lp : κ) : Reach L pt g h s →
      keyTransition L pt s k lp = .ok (some s') → Reach L pt g h s'
  | rejoin (s s' : State κ H P) (i : Nat) (lp : κ) : Reach L pt g h s →
      s.node.changeIndex < i → State.rejoin L pt s i lp = .ok s' → Reach L pt g h s'
  | ktm (s : State κ H P) (lp : κ) : Reach L pt g h s → Reach L pt g h (s.addKtm lp)
  | csm (s : State κ H P) (lp : κ) : Reach L pt g h s → Reach L pt g h (s.addCsm lp)
  | copy (s : State κ H P) : Reach L pt g h s → Reach L pt g h s.copy
  | hidden (s : State κ H P) (a b c : Option H) (d : Option P) : Reach L pt g h s →
      Reach L pt g h (s.setHidden a b c d)

/-! ## Reading off the result of each operation -/

omit [Sub κ] [Zero κ] in
theorem chordTransition_some {L : Labels} {pt : PitchType} {s s' : State κ H P} {c : Int} {i : Nat}
    {lp : κ} (h : chordTransition L pt s c i lp = .ok (some s')) :
    ∃ root ct inv bass k, pyGet L.chord c = .ok (root, ct, inv) ∧
      bassNote ct root inv pt false = .ok bass ∧ getKey L s = .ok k ∧
      outsidePadded (root - k.tonic) = false ∧ outsidePadded (bass - k.tonic) = false ∧
      s' = ⟨{ chord := some c, key := s.node.key, changeIndex := i, logProb := s.node.logProb + lp,
              hash := newHash (s.node.hash.map List.length)
                ({ s.node with keyObj := some k } :: s.prev) s.node.key (some c),
              csmHidden := s.node.csmHidden, ktmHidden := s.node.ktmHidden,
              ksmHidden := s.node.ksmHidden, csmPrior := s.node.csmPrior, keyObj := some k,
              mustKey := outside (root - k.tonic) || outside (bass - k.tonic),
              csm := none, ksm := none, ktm := none },
            { s.node with keyObj := some k } :: s.prev⟩ := by
  simp only [chordTransition, chordLabelOf, Bind.bind, Except.bind] at h
  cases h1 : pyGet L.chord c with
  | error e => rw [h1] at h; cases h
  | ok lab =>
    obtain ⟨root, ct, inv⟩ := lab
    rw [h1] at h; simp only at h
    cases h2 : bassNote ct root inv pt false with
    | error e => rw [h2] at h; cases h
    | ok bass =>
      rw [h2] at h; simp only at h
      cases h3 : getKey L s with
      | error e => rw [h3] at h; cases h
      | ok k =>
        rw [h3] at h; simp only at h
        split at h
        · cases h
        · rename_i hn
          simp only [Bool.or_eq_true, not_or, Bool.not_eq_true] at hn
          simp only [Except.ok.injEq, Option.some.injEq] at h
          exact ⟨root, ct, inv, bass, k, rfl, h2, rfl, hn.1, hn.2, h.symm⟩

omit [Sub κ] [Zero κ] in
theorem keyTransition_some {L : Labels} {pt : PitchType} {s s' : State κ H P} {key : Int} {lp : κ}
    (h : keyTransition L pt s key lp = .ok (some s')) :
    ∃ c root ct inv bass tonic mode p ps, s.node.chord = some c ∧
      pyGet L.chord c = .ok (root, ct, inv) ∧ bassNote ct root inv pt false = .ok bass ∧
      pyGet L.key key = .ok (tonic, mode) ∧ outside (root - tonic) = false ∧
      outside (bass - tonic) = false ∧ s.prev = p :: ps ∧
      s' = ⟨{ chord := s.node.chord, key := key, changeIndex := s.node.changeIndex,
              logProb := s.node.logProb + lp,
              hash := newHash (s.node.hash.map List.length) s.prev key s.node.chord,
              csmHidden := s.node.csmHidden, ktmHidden := p.ktmHidden, ksmHidden := p.ksmHidden,
              csmPrior := s.node.csmPrior, keyObj := none, mustKey := false,
              csm := s.node.csm, ksm := some lp, ktm := s.node.ktm }, s.prev⟩ := by
  simp only [keyTransition, Bind.bind, Except.bind] at h
  cases hc : s.node.chord with
  | none => rw [hc] at h; cases h
  | some c =>
    rw [hc] at h; simp only [chordLabelOf] at h
    cases h1 : pyGet L.chord c with
    | error e => rw [h1] at h; cases h
    | ok lab =>
      obtain ⟨root, ct, inv⟩ := lab
      rw [h1] at h; simp only at h
      cases h2 : bassNote ct root inv pt false with
      | error e => rw [h2] at h; cases h
      | ok bass =>
        rw [h2] at h; simp only at h
        cases h3 : pyGet L.key key with
        | error e => rw [h3] at h; cases h
        | ok tm =>
          obtain ⟨tonic, mode⟩ := tm
          rw [h3] at h; simp only at h
          split at h
          · cases h
          · rename_i hn
            simp only [Bool.or_eq_true, not_or, Bool.not_eq_true] at hn
            cases hp : s.prev with
            | nil => rw [hp] at h; cases h
            | cons p ps =>
              rw [hp] at h
              simp only [Except.ok.injEq, Option.some.injEq] at h
              exact ⟨c, root, ct, inv, bass, tonic, mode, p, ps, rfl, h1, h2, rfl, hn.1, hn.2,
                rfl, h.symm⟩

theorem rejoin_ok {L : Labels} {pt : PitchType} {s s' : State κ H P} {i : Nat} {lp : κ}
    (h : State.rejoin L pt s i lp = .ok s') :
    ∃ c root ct inv bass tonic mode p ps, s.node.chord = some c ∧
      pyGet L.chord c = .ok (root, ct, inv) ∧ bassNote ct root inv pt false = .ok bass ∧
      s.prev = p :: ps ∧ pyGet L.key p.key = .ok (tonic, mode) ∧
      s' = ⟨{ chord := s.node.chord, key := p.key, changeIndex := i,
              logProb := s.node.logProb + lp - modelAdjustment s.node,
              hash := newHash (s.node.hash.map List.length) s.prev p.key s.node.chord,
              csmHidden := p.csmHidden, ktmHidden := p.ktmHidden, ksmHidden := p.ksmHidden,
              csmPrior := p.csmPrior, keyObj := p.keyObj,
              mustKey := outside (root - tonic) || outside (bass - tonic),
              csm := none, ksm := none, ktm := none }, s.prev⟩ := by
  simp only [State.rejoin, Bind.bind, Except.bind] at h
  cases hc : s.node.chord with
  | none => rw [hc] at h; cases h
  | some c =>
    rw [hc] at h; simp only [chordLabelOf] at h
    cases h1 : pyGet L.chord c with
    | error e => rw [h1] at h; cases h
    | ok lab =>
      obtain ⟨root, ct, inv⟩ := lab
      rw [h1] at h; simp only at h
      cases h2 : bassNote ct root inv pt false with
      | error e => rw [h2] at h; cases h
      | ok bass =>
        rw [h2] at h; simp only at h
        cases hp : s.prev with
        | nil => rw [hp] at h; cases h
        | cons p ps =>
          rw [hp] at h; simp only at h
          cases h3 : pyGet L.key p.key with
          | error e => rw [h3] at h; cases h
          | ok tm =>
            obtain ⟨tonic, mode⟩ := tm
            rw [h3] at h
            simp only [Except.ok.injEq] at h
            exact ⟨c, root, ct, inv, bass, tonic, mode, p, ps, rfl, h1, h2, rfl, h3, h.symm⟩

/-! ## The chain invariant -/

/-- The (key, chord) pairs of the newest `h` nodes, oldest first, padded with None in front. -/
def recentHistory (h : Nat) (chain : List (Node κ H P)) : List HashEntry :=
  ((chain.map (fun n : Node κ H P => (some (n.key, n.chord) : HashEntry)) ++ List.replicate h none).take h).reverse

/-- The hash attribute a node with this chain must have. -/
def HashOK (h : Option Nat) (chain : List (Node κ H P)) (n : Node κ H P) : Prop :=
  n.hash = h.map (fun h => recentHistory h chain)

/-- The cached key object is the right one. -/
def KeyOK (L : Labels) (g : Int) (n : Node κ H P) : Prop :=
  ∀ k, n.keyObj = some k → pyGet L.key n.key = .ok (k.tonic, k.mode) ∧
    pyGet L.key g = .ok (k.globalTonic, k.globalMode)

/-- All nodes of a chain (newest first) are in order. -/
def ChainOK (L : Labels) (g : Int) (h : Option Nat) : List (Node κ H P) → Prop
  | [] => False
  | [n] => n.chord = none ∧ n.changeIndex = 0 ∧ n.key = g ∧ HashOK h [n] n ∧ KeyOK L g n
  | n :: p :: ps => n.chord ≠ none ∧ p.changeIndex < n.changeIndex ∧ HashOK h (n :: p :: ps) n ∧
      KeyOK L g n ∧ ChainOK L g h (p :: ps)

omit [Add κ] [Sub κ] [Zero κ] in
theorem recentHistory_cons (h : Nat) (hh : 1 ≤ h) (n p : Node κ H P) (ps : List (Node κ H P)) :
    (recentHistory h (p :: ps)).drop 1 ++ [some (n.key, n.chord)] = recentHistory h (n :: p :: ps) := by
  obtain ⟨k, rfl⟩ : ∃ k, h = k + 1 := ⟨h - 1, by omega⟩
  simp only [recentHistory]
  generalize hX : (p :: ps).map (fun n : Node κ H P => (some (n.key, n.chord) : HashEntry)) = X
  have hXe : (n :: p :: ps).map (fun n : Node κ H P => (some (n.key, n.chord) : HashEntry)) =
      some (n.key, n.chord) :: X := by rw [← hX]; rfl
  rw [hXe]
  simp only [List.cons_append, List.take_succ_cons, List.reverse_cons]
  congr 1
  rw [List.drop_reverse, List.take_take]
  congr 1
  have hl : (List.take (k + 1) (X ++ List.replicate (k + 1) none)).length = k + 1 := by
    simp
  rw [hl]
  congr 1; omega

omit [Add κ] [Sub κ] [Zero κ] in
theorem recentHistory_single (h : Nat) (hh : 1 ≤ h) (n : Node κ H P) :
    recentHistory h [n] = List.replicate (h - 1) none ++ [some (n.key, n.chord)] := by
  obtain ⟨k, rfl⟩ : ∃ k, h = k + 1 := ⟨h - 1, by omega⟩
  simp only [recentHistory, List.map_cons, List.map_nil, List.cons_append, List.nil_append,
    List.take_succ_cons, List.reverse_cons, Nat.add_sub_cancel]
  congr 1
  rw [List.take_replicate, List.reverse_replicate]
  congr 1; omega

omit [Add κ] [Sub κ] [Zero κ] in
/-- The hash of a node put on top of a good chain. -/
theorem newHash_ok {h hl : Option Nat} (hh : ∀ k, h = some k → 1 ≤ k) {n p : Node κ H P}
    {ps ps' : List (Node κ H P)} (hp : HashOK h (p :: ps) p) (hiso : hl.isSome = h.isSome)
    (hn : n.hash = newHash hl (p :: ps') n.key n.chord) : HashOK h (n :: p :: ps) n := by
  rw [HashOK, hn]
  cases h with
  | none =>
    cases hl with
    | none => rfl
    | some _ => simp at hiso
  | some k =>
    cases hl with
    | none => simp at hiso
    | some _ =>
      simp only [newHash, Option.map_some]
      rw [hp]
      simp only [Option.map_some]
      rw [← recentHistory_cons k (hh k rfl) n p ps]

omit [Add κ] [Sub κ] [Zero κ] in
theorem getKeyAux_ok (L : Labels) (g : Int) (h : Option Nat) (n : Node κ H P)
    (ps : List (Node κ H P)) (hc : ChainOK L g h (n :: ps)) (k : KeyObj)
    (hk : getKeyAux L n ps = .ok k) :
    pyGet L.key n.key = .ok (k.tonic, k.mode) ∧ pyGet L.key g = .ok (k.globalTonic, k.globalMode) := by
  induction ps generalizing n k with
  | nil =>
    obtain ⟨h1, h2, h3, h4, h5⟩ := hc
    simp only [getKeyAux] at hk
    cases ho : n.keyObj with
    | some k' =>
      rw [ho] at hk; injection hk with hk; subst hk; exact h5 k' ho
    | none =>
      rw [ho] at hk
      simp only [Bind.bind, Except.bind] at hk
      cases hl : pyGet L.key n.key with
      | error e => rw [hl] at hk; cases hk
      | ok tm =>
        rw [hl] at hk; injection hk with hk; subst hk
        exact ⟨rfl, by rw [← h3]; exact hl⟩
  | cons p ps ih =>
    obtain ⟨h1, h2, h4, h5, h6⟩ := hc
    rw [getKeyAux] at hk
    cases ho : n.keyObj with
    | some k' =>
      rw [ho] at hk; injection hk with hk; subst hk; exact h5 k' ho
    | none =>
      rw [ho] at hk
      simp only [Bind.bind, Except.bind] at hk
      cases hl : pyGet L.key n.key with
      | error e => rw [hl] at hk; cases hk
      | ok tm =>
        rw [hl] at hk; simp only at hk
        cases hg : getKeyAux L p ps with
        | error e => rw [hg] at hk; cases hk
        | ok k' =>
          rw [hg] at hk; injection hk with hk; subst hk
          exact ⟨rfl, (ih p h6 k' hg).2⟩

omit [Add κ] [Sub κ] [Zero κ] in
/-- Only these fields of the newest node matter to the invariant. -/
theorem ChainOK.congr {L : Labels} {g : Int} {h : Option Nat} {n n' : Node κ H P}
    {ps : List (Node κ H P)} (hc : ChainOK L g h (n :: ps)) (h1 : n'.chord = n.chord)
    (h2 : n'.changeIndex = n.changeIndex) (h3 : n'.key = n.key) (h4 : n'.hash = n.hash)
    (h5 : KeyOK L g n') : ChainOK L g h (n' :: ps) := by
  have hr : ∀ k, recentHistory k (n' :: ps) = recentHistory k (n :: ps) := by
    intro k; simp only [recentHistory, List.map_cons, h1, h3]
  cases ps with
  | nil =>
    obtain ⟨c1, c2, c3, c4, c5⟩ := hc
    refine ⟨by rw [h1]; exact c1, by rw [h2]; exact c2, by rw [h3]; exact c3, ?_, h5⟩
    simp only [HashOK, hr] at c4 ⊢; rw [h4]; exact c4
  | cons p ps =>
    obtain ⟨c1, c2, c4, c5, c6⟩ := hc
    refine ⟨by rw [h1]; exact c1, by rw [h2]; exact c2, ?_, h5, c6⟩
    simp only [HashOK, hr] at c4 ⊢; rw [h4]; exact c4

omit [Add κ] [Sub κ] [Zero κ] in
theorem ChainOK.head_hash {L : Labels} {g : Int} {h : Option Nat} {n : Node κ H P}
    {ps : List (Node κ H P)} (hc : ChainOK L g h (n :: ps)) : HashOK h (n :: ps) n := by
  cases ps with
  | nil => exact hc.2.2.2.1
  | cons p ps => exact hc.2.2.1

omit [Add κ] [Sub κ] [Zero κ] in
theorem ChainOK.head_key {L : Labels} {g : Int} {h : Option Nat} {n : Node κ H P}
    {ps : List (Node κ H P)} (hc : ChainOK L g h (n :: ps)) : KeyOK L g n := by
  cases ps with
  | nil => exact hc.2.2.2.2
  | cons p ps => exact hc.2.2.2.1

omit [Add κ] [Sub κ] [Zero κ] in
theorem HashOK.isSome {h : Option Nat} {chain : List (Node κ H P)} {n : Node κ H P}
    (hh : HashOK h chain n) : (n.hash.map List.length).isSome = h.isSome := by
  rw [hh]; cases h <;> rfl

/-- Every reachable state has a good chain. -/
theorem Reach.chain {L : Labels} {pt : PitchType} {g : Int} {h : Option Nat} {s : State κ H P}
    (hr : Reach L pt g h s) (hh : ∀ k, h = some k → 1 ≤ k) : ChainOK L g h (s.node :: s.prev) := by
  induction hr with
  | init prior =>
    refine ⟨rfl, rfl, rfl, ?_, ?_⟩
    · cases h with
      | none => rfl
      | some k =>
        simp only [HashOK, State.initial, newHash, Option.map_some]
        rw [recentHistory_single k (hh k rfl)]
    · intro k hk; simp [State.initial] at hk
  | chord s s' c i lp _ hi ht ih =>
    obtain ⟨root, ct, inv, bass, k, h1, h2, h3, h4, h5, rfl⟩ := chordTransition_some ht
    have hk := getKeyAux_ok L g h _ _ ih k h3
    have hself : ChainOK L g h ({ s.node with keyObj := some k } :: s.prev) := by
      refine ih.congr rfl rfl rfl rfl ?_
      intro k' hk'; simp only [Option.some.injEq] at hk'; subst hk'; exact hk
    refine ⟨by simp, hi, ?_, ?_, hself⟩
    · exact newHash_ok (ps' := s.prev) hh hself.head_hash ih.head_hash.isSome rfl
    · intro k' hk'; simp only [Option.some.injEq] at hk'; subst hk'; exact hk
  | key s s' k lp _ ht ih =>
    obtain ⟨c, root, ct, inv, bass, tonic, mode, p, ps, hc, h1, h2, h3, h4, h5, hp, rfl⟩ :=
      keyTransition_some ht
    simp only [hp] at ih ⊢
    obtain ⟨c1, c2, c3, c4, c5⟩ := ih
    refine ⟨c1, c2, ?_, ?_, c5⟩
    · exact newHash_ok (ps' := ps) hh c5.head_hash c3.isSome rfl
    · intro k' hk'; simp at hk'
  | rejoin s s' i lp _ hi ht ih =>
    obtain ⟨c, root, ct, inv, bass, tonic, mode, p, ps, hc, h1, h2, hp, h3, rfl⟩ := rejoin_ok ht
    simp only [hp] at ih ⊢
    obtain ⟨c1, c2, c3, c4, c5⟩ := ih
    refine ⟨c1, Nat.lt_trans c2 hi, ?_, c5.head_key, c5⟩
    exact newHash_ok (ps' := ps) hh c5.head_hash c3.isSome rfl
  | ktm s lp _ ih => exact ih.congr rfl rfl rfl rfl ih.head_key
  | csm s lp _ ih => exact ih.congr rfl rfl rfl rfl ih.head_key
  | copy s _ ih =>
    refine ih.congr rfl rfl rfl ?_ ih.head_key
    simp only [State.copy]
    rw [ih.head_hash]
    cases hp : s.prev with
    | nil =>
      cases h with
      | none => rfl
      | some k =>
        have hk := hh k rfl
        have hl : (recentHistory k [s.node]).length = k := by
          simp [recentHistory]
        simp only [Option.map_some, newHash, hl]
        rw [recentHistory_single k hk]
    | cons p ps =>
      rw [hp] at ih
      obtain ⟨c1, c2, c3, c4, c5⟩ := ih
      have := newHash_ok (n := { s.node with
        hash := newHash (s.node.hash.map List.length) (p :: ps) s.node.key s.node.chord })
        (ps' := ps) hh c5.head_hash c3.isSome rfl
      rw [← c3]
      rw [HashOK] at this
      rw [c3] at this ⊢
      exact this
  | hidden s a b c d _ ih => exact ih.congr rfl rfl rfl rfl ih.head_key

end

end Verif
