import Verif.Props.State

/-!
# C58: branching and the hidden states of the models

`State.copy` is used by the search to go on both with and without a key change
(joint_model.py:1051-1053).
-/

namespace Verif

open State

section Branch
variable {κ H P : Type} [AddCommGroup κ]

/-- C58: a copy differs from its original in nothing but the recorded model costs. -/
theorem C58_copy (L : Labels) (pt : PitchType) (g : Int) (h : Option Nat)
    (hh : ∀ k, h = some k → 1 ≤ k) (s : State κ H P) (hr : Reach L pt g h s) :
    s.copy = ⟨{ s.node with csm := none, ksm := none, ktm := none }, s.prev⟩ := by
  have h1 := (hr.chain hh).head_hash
  have h2 := ((Reach.copy s hr).chain hh).head_hash
  have h3 : s.copy.node.hash = s.node.hash := by
    rw [HashOK] at h1 h2
    rw [h1, h2]
    rfl
  have h4 : s.copy = ⟨{ s.node with hash := s.copy.node.hash, csm := none, ksm := none, ktm := none },
    s.prev⟩ := rfl
  rw [h4, h3]

/-- C58: where the search makes copies, right after a chord transition, a copy equals its original. -/
theorem C58_copy_after_transition (L : Labels) (pt : PitchType) (g : Int) (h : Option Nat)
    (hh : ∀ k, h = some k → 1 ≤ k) (s s1 : State κ H P) (hr : Reach L pt g h s) (c : Int) (i : Nat)
    (lp : κ) (hi : s.node.changeIndex < i) (ht : chordTransition L pt s c i lp = .ok (some s1)) :
    s1.copy = s1 := by
  rw [C58_copy L pt g h hh s1 (Reach.chord s s1 c i lp hr hi ht)]
  obtain ⟨root, ct, inv, bass, k, h1, h2, h3, h4, h5, rfl⟩ := chordTransition_some ht
  rfl

/-- C58: the same right after a rejoin. -/
theorem C58_copy_after_rejoin (L : Labels) (pt : PitchType) (g : Int) (h : Option Nat)
    (hh : ∀ k, h = some k → 1 ≤ k) (s s1 : State κ H P) (hr : Reach L pt g h s) (i : Nat)
    (lp : κ) (hi : s.node.changeIndex < i) (ht : State.rejoin L pt s i lp = .ok s1) :
    s1.copy = s1 := by
  rw [C58_copy L pt g h hh s1 (Reach.rejoin s s1 i lp hr hi ht)]
  obtain ⟨c, root, ct, inv, bass, tonic, mode, p, ps, h1, h2, h3, h4, h5, rfl⟩ := rejoin_ok ht
  rfl

/-- C58: a copy of a charged state is not faithful. It forgets the charge, so rejoining the copy
gives the direct transition with the extra cost `x`, while rejoining the original gives it back. -/
theorem C58_copy_fails_charged (L : Labels) (pt : PitchType) (g : Int) (h : Option Nat)
    (hh : ∀ k, h = some k → 1 ≤ k) (s s1 : State κ H P) (hr : Reach L pt g h s) (c : Int)
    (i j : Nat) (lp1 lp2 x : κ) (hi : s.node.changeIndex < i)
    (ht : chordTransition L pt s c i lp1 = .ok (some s1)) :
    (∃ s3, State.rejoin L pt (s1.addKtm x).copy j lp2 = .ok s3 ∧
      chordTransition L pt s c j (lp1 + lp2 + x) = .ok (some s3)) ∧
    (∃ s3, State.rejoin L pt (s1.addKtm x) j lp2 = .ok s3 ∧
      chordTransition L pt s c j (lp1 + lp2) = .ok (some s3)) := by
  refine ⟨?_, C23_rejoin L pt g h hh s s1 _ hr c i j lp1 lp2 ht
    (Charged.ktm _ _ Charged.refl (chordTransition_facts ht).1.2.2)⟩
  rw [C58_copy L pt g h hh _ (Reach.ktm s1 x (Reach.chord s s1 c i lp1 hr hi ht))]
  refine rejoin_recorded hh hr ht ?_ ?_ ?_ j lp2 x ?_
  · rfl
  · rfl
  · rfl
  simp only [State.addKtm, modelAdjustment_eq, Option.getD_none]
  abel

/-- C58: a chord transition goes on with the hidden states and the chord prior of the state. -/
theorem C58_chord_transition_hidden (L : Labels) (pt : PitchType) (s s1 : State κ H P) (c : Int)
    (i : Nat) (lp : κ) (ht : chordTransition L pt s c i lp = .ok (some s1)) :
    s1.node.csmHidden = s.node.csmHidden ∧ s1.node.ktmHidden = s.node.ktmHidden ∧
      s1.node.ksmHidden = s.node.ksmHidden ∧ s1.node.csmPrior = s.node.csmPrior := by
  obtain ⟨root, ct, inv, bass, k, h1, h2, h3, h4, h5, rfl⟩ := chordTransition_some ht
  exact ⟨rfl, rfl, rfl, rfl⟩

/-- C58: a key transition takes both key models back to where they were before the last chord,
whatever they wrote since, and leaves the chord sequence model alone. -/
theorem C58_key_transition_hidden (L : Labels) (pt : PitchType) (s s1 s2 s3 : State κ H P) (c k : Int)
    (i : Nat) (lp lp' : κ) (ht : chordTransition L pt s c i lp = .ok (some s1))
    (hc : Charged L pt s1 s2) (hk : keyTransition L pt s2 k lp' = .ok (some s3)) :
    s3.node.ktmHidden = s.node.ktmHidden ∧ s3.node.ksmHidden = s.node.ksmHidden ∧
      s3.node.csmHidden = s2.node.csmHidden ∧ s3.node.csmPrior = s2.node.csmPrior := by
  obtain ⟨f1, f2⟩ := chordTransition_facts ht
  have hp := (hc.inv f1 f2).1
  obtain ⟨root, ct, inv, bass, k0, h1, h2, h3, h4, h5, rfl⟩ := chordTransition_some ht
  obtain ⟨c', root', ct', inv', bass', tonic, mode, p, ps, _, _, _, _, _, _, hp', rfl⟩ :=
    keyTransition_some hk
  rw [hp] at hp'
  simp only [List.cons.injEq] at hp'
  obtain ⟨rfl, rfl⟩ := hp'
  exact ⟨rfl, rfl, rfl, rfl⟩

end Branch

/-- A state whose key models have read its chord (hidden states 7 and 8), then a change of key: the
hidden states are those of the previous state (1 and 2). -/
example : ∃ s s1 s3 : State Int Nat Unit, Reach exLabels .midi 0 (some 2) s ∧
    s.node.ktmHidden = some 1 ∧ s.node.ksmHidden = some 2 ∧
    chordTransition exLabels .midi s 1 3 (-4) = .ok (some s1) ∧
    keyTransition exLabels .midi (s1.setHidden (some 6) (some 7) (some 8) none) 1 (-5) = .ok (some s3) ∧
    s3.node.ktmHidden = some 1 ∧ s3.node.ksmHidden = some 2 ∧ s3.node.csmHidden = some 6 :=
  ⟨_, _, _, Reach.hidden _ (some 0) (some 1) (some 2) none (Reach.init none), rfl, rfl, rfl, rfl,
    by decide, by decide, by decide⟩

/-- A charged state (-2) and its copy, both rejoined. -/
example : ∃ s1 a b : State Int Unit Unit,
    chordTransition exLabels .midi (State.initial 0 (some 2) none) 1 3 (-4) = .ok (some s1) ∧
    State.rejoin exLabels .midi (s1.addKtm (-2)) 8 (-10) = .ok a ∧ a.node.logProb = -14 ∧
    State.rejoin exLabels .midi (s1.addKtm (-2)).copy 8 (-10) = .ok b ∧ b.node.logProb = -16 :=
  ⟨_, _, _, rfl, rfl, by decide, rfl, by decide⟩

end Verif
