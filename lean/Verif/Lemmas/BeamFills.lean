import Verif.Lemmas.BeamTotal

/-!
# Beams that are added to are not empty
-/

namespace Verif.SearchData

open Verif State

theorem mapM_image {α β : Type} {f : α → Py β} {l : List α} {l' : List β} (h : l.mapM f = .ok l')
    {a : α} (ha : a ∈ l) : ∃ b ∈ l', f a = .ok b := by
  induction l generalizing l' with
  | nil => simp at ha
  | cons x l ih =>
    simp only [List.mapM_cons, Bind.bind] at h
    obtain ⟨b, hb, h⟩ := bind_ok h
    obtain ⟨bs, hbs, h⟩ := bind_ok h
    injection h with h
    subst h
    rcases List.mem_cons.mp ha with rfl | ha
    · exact ⟨b, by simp, hb⟩
    · obtain ⟨b', h1, h2⟩ := ih hbs ha
      exact ⟨b', by simp [h1], h2⟩

/-- What is needed to see that a beam is not empty: it is not if it refuses a state, or after a state is
added to it; and if it has no states it is. -/
structure Fills {β σ : Type} {ops : BeamOps β (Nat × σ)} {size : Nat} (T : Total ops size) : Prop where
  refuses : ∀ n b x c, T.inv n b → ops.fits b x c = .ok false → ops.len b ≠ 0
  added : ∀ n b s f r b', T.inv n b → ops.add b (n, s) f = .ok (r, b') → ops.len b' ≠ 0
  listed : ∀ n b, T.inv n b → ops.states b = .ok [] → ops.len b = 0
  topped : ∀ n b, T.inv n b → ops.topState b = .ok none → ops.len b = 0

theorem pyMax_none {α : Type} (lt : α → α → Bool) (l : List α) (h : pyMax lt l = none) : l = [] := by
  cases l with
  | nil => rfl
  | cons a l => simp [pyMax] at h

theorem plainFills {σ : Type} (lt : Nat × σ → Nat × σ → Bool) (size : Nat) (hs : 1 ≤ size) :
    Fills (plainTotal lt size hs) where
  refuses n b x c h hf := by
    have h : b.size = size := h
    simp only [plainOps, Beam.fits] at hf ⊢
    split at hf
    · cases hf
    · omega
  added n b s f r b' h ha := by
    have h : b.size = size := h
    simp only [plainOps, Beam.add] at ha ⊢
    split at ha
    · rename_i hc
      cases hb : b.heap with
      | nil => rw [hb] at hc; simp at hc; omega
      | cons top t =>
        rw [hb] at ha
        simp only [heappushpop] at ha
        split at ha
        · rename_i hlt
          simp only at ha
          injection ha with ha
          injection ha with _ ha
          subst ha
          simp [siftup_length]
        · injection ha with ha
          injection ha with _ ha
          subst ha
          simp [hb]
    · injection ha with ha
      injection ha with _ ha
      subst ha
      simp [(heappush_perm _ _).length_eq]
  listed n b h hl := by
    simp only [plainOps, Except.ok.injEq] at hl ⊢
    rw [hl]; rfl
  topped n b h hl := by
    simp only [plainOps, Except.ok.injEq, Beam.topState] at hl ⊢
    rw [pyMax_none _ _ hl]; rfl

theorem hashedFills {η σ : Type} [DecidableEq η] [DecidableEq σ] (lt : Nat × σ → Nat × σ → Bool)
    (hash : Nat × σ → η) (hw : WeakOrder lt) (size : Nat) (hs : 1 ≤ size) :
    Fills (hashedTotal lt hash hw size hs) where
  refuses n b x c h hf := by
    obtain ⟨h0, d, h1, -, -⟩ := h
    have hlen : b.len = d.length := by simp [HBeam.len, h1.dict]
    simp only [hashedOps, HBeam.fits, Bind.bind, h1.dict] at hf ⊢
    split at hf
    · simp only [Except.bind] at hf
      split at hf
      · cases hg : HBeam.dictGet d (hash x) with
        | none => rw [hg] at hf; cases hf
        | some old =>
          intro hz
          rw [hlen] at hz
          rw [List.length_eq_zero_iff.mp hz] at hg
          simp [HBeam.dictGet] at hg
      · cases hf
    · omega
  added n b s f r b' h ha := by
    obtain ⟨h0, d, h1, h2, -⟩ := h
    have hv : (n, s) ∉ b.invalid := fun hc => by have := h2 _ hc; simp at this
    obtain ⟨ok, b'', d', e1, -, e3, e4⟩ := HBeam.add_cases hw b d (n, s) f (by omega) h1 hv
    simp only [hashedOps] at ha ⊢
    rw [e1] at ha
    injection ha with ha
    injection ha with _ ha
    subst ha
    have hlen : b''.len = d'.length := by simp [HBeam.len, e3.dict]
    rw [hlen]
    rcases e4 with ⟨-, d₁, d₂, old, rfl, rfl, -, -⟩ | ⟨-, rfl, rfl, old, ho, -⟩ | ⟨-, -, -, -, d₁, d₂, top,
      rest, -, -, rfl, rfl, -⟩ | ⟨-, rfl, rfl, -, -, hz, -⟩ | ⟨-, -, -, rfl, -⟩
    · simp
    · exact fun hz => by rw [List.length_eq_zero_iff.mp hz] at ho; simp at ho
    · simp
    · omega
    · simp
  listed n b h hl := by
    obtain ⟨-, d, h1, -, -⟩ := h
    simp only [hashedOps, HBeam.states, h1.dict, Except.ok.injEq, List.map_eq_nil_iff] at hl ⊢
    simp [HBeam.len, h1.dict, hl]
  topped n b h hl := by
    obtain ⟨-, d, h1, -, -⟩ := h
    have hlen : b.len = d.length := by simp [HBeam.len, h1.dict]
    simp only [hashedOps, HBeam.topState, HBeam.states, h1.dict] at hl ⊢
    split at hl
    · simp only [Except.map, Except.ok.injEq] at hl
      have := pyMax_none _ _ hl
      simp only [List.map_eq_nil_iff] at this
      rw [hlen, this]; rfl
    · omega

end Verif.SearchData
