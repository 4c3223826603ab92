import Verif.Lemmas.Search
import Verif.Lemmas.Beam

/-!
# Beams of size one or more do not raise
-/

namespace Verif.SearchData

open Verif State

/-! ## Monadic loops that do not fail -/

theorem mapM_total {α β : Type} {f : α → Py β} {l : List α} (h : ∀ a ∈ l, ∃ b, f a = .ok b) :
    ∃ l', l.mapM f = .ok l' := by
  induction l with
  | nil => exact ⟨[], by simp [Pure.pure, Except.pure]⟩
  | cons a l ih =>
    obtain ⟨b, hb⟩ := h a (by simp)
    obtain ⟨l', hl⟩ := ih (fun a ha => h a (by simp [ha]))
    exact ⟨b :: l', by simp [List.mapM_cons, hb, hl, Bind.bind, Except.bind, Pure.pure, Except.pure]⟩

theorem foldlM_total {α σ : Type} {f : σ → α → Py σ} {l : List α} {s : σ} {I : σ → Prop}
    {P : α → Prop} (hs : I s) (hP : ∀ a ∈ l, P a)
    (hf : ∀ s a, I s → P a → ∃ s', f s a = .ok s' ∧ I s') : ∃ s', l.foldlM f s = .ok s' ∧ I s' := by
  induction l generalizing s with
  | nil => exact ⟨s, by simp [Pure.pure, Except.pure], hs⟩
  | cons a l ih =>
    obtain ⟨s1, h1, h2⟩ := hf s a hs (hP a (by simp))
    obtain ⟨s2, h3, h4⟩ := ih h2 (fun b hb => hP b (by simp [hb]))
    exact ⟨s2, by simp [List.foldlM_cons, h1, h3, Bind.bind, Except.bind], h4⟩

/-! ## The two classes of beams -/

/-- As long as a beam is new or only added to (each time a state with the next serial number), none of
its methods raises. `inv n b`: all serial numbers in `b` are below `n`. -/
structure Total {β σ : Type} (ops : BeamOps β (Nat × σ)) (size : Nat) where
  inv : Nat → β → Prop
  new : ∀ n, inv n (ops.new size)
  mono : ∀ n b, inv n b → inv (n + 1) b
  add : ∀ n b s f, inv n b → ∃ r b', ops.add b (n, s) f = .ok (r, b') ∧ inv (n + 1) b'
  fits : ∀ n b x c, inv n b → ∃ r, ops.fits b x c = .ok r
  least : ∀ n b, inv n b → ops.len b ≠ 0 → ∃ x, ops.least b = .ok x
  states : ∀ n b, inv n b → ∃ l, ops.states b = .ok l
  top : ∀ n b, inv n b → ∃ x, ops.topState b = .ok x

/-- The class `Beam`: nothing is needed of the order. -/
def plainTotal {σ : Type} (lt : Nat × σ → Nat × σ → Bool) (size : Nat) (hs : 1 ≤ size) :
    Total (plainOps lt) size where
  inv _ b := b.size = size
  new _ := rfl
  mono _ _ h := h
  add n b s f h := by
    simp only [plainOps, Beam.add]
    split
    · rename_i hc
      cases hb : b.heap with
      | nil => rw [hb] at hc; simp at hc; omega
      | cons top t =>
        simp only
        split
        · exact ⟨_, _, rfl, h⟩
        · exact ⟨_, _, rfl, h⟩
    · exact ⟨_, _, rfl, h⟩
  fits n b x c h := by
    simp only [plainOps, Beam.fits]
    split
    · exact ⟨_, rfl⟩
    · rename_i hc
      cases hb : b.heap with
      | nil => rw [hb] at hc; simp at hc; omega
      | cons top t => exact ⟨_, rfl⟩
  least n b _ hl := by
    simp only [plainOps] at hl ⊢
    cases hb : b.heap with
    | nil => rw [hb] at hl; simp at hl
    | cons top t => exact ⟨top, rfl⟩
  states _ b _ := ⟨_, rfl⟩
  top _ b _ := ⟨_, rfl⟩

/-- The class `HashedBeam`, for states that are compared by a strict weak order. -/
def hashedTotal {η σ : Type} [DecidableEq η] [DecidableEq σ] (lt : Nat × σ → Nat × σ → Bool)
    (hash : Nat × σ → η) (hw : WeakOrder lt) (size : Nat) (hs : 1 ≤ size) :
    Total (hashedOps lt hash) size where
  inv n b := b.size = size ∧ ∃ d, HInv lt hash b d ∧ (∀ x ∈ b.invalid, x.1 < n) ∧ ∀ e ∈ d, e.2.1 < n
  new n := ⟨rfl, [], HInv.new size, by simp [hashedOps, HBeam.new], by simp⟩
  mono n b h := by
    obtain ⟨h0, d, h1, h2, h3⟩ := h
    exact ⟨h0, d, h1, fun x hx => by have := h2 x hx; omega, fun x hx => by have := h3 x hx; omega⟩
  add n b s f h := by
    obtain ⟨h0, d, h1, h2, h3⟩ := h
    have hv : (n, s) ∉ b.invalid := fun hc => by have := h2 _ hc; simp at this
    obtain ⟨ok, b', d', e1, e2, e3, e4⟩ := HBeam.add_cases hw b d (n, s) f (by omega) h1 hv
    refine ⟨ok, b', e1, by omega, d', e3, ?_⟩
    rcases e4 with ⟨-, d₁, d₂, old, rfl, rfl, -, hi⟩ | ⟨-, rfl, rfl, -⟩ | ⟨-, -, -, -, d₁, d₂, top, rest,
      -, -, rfl, rfl, hi⟩ | ⟨-, rfl, rfl, -⟩ | ⟨-, -, -, rfl, hi⟩
    · rw [hi]
      constructor
      · intro x hx
        rcases List.mem_cons.mp hx with rfl | hx
        · have := h3 (hash (n, s), x) (by simp)
          simp only at this; omega
        · have := h2 x hx; omega
      · intro e he
        simp only [List.mem_append, List.mem_cons] at he
        rcases he with he | rfl | he
        · have := h3 e (by simp [he]); omega
        · simp
        · have := h3 e (by simp [he]); omega
    · exact ⟨fun x hx => by have := h2 x hx; omega, fun x hx => by have := h3 x hx; omega⟩
    · rw [hi]
      refine ⟨fun x hx => by have := h2 x hx; omega, ?_⟩
      intro e he
      simp only [List.mem_append, List.mem_singleton] at he
      rcases he with (he | he) | rfl
      · have := h3 e (by simp [he]); omega
      · have := h3 e (by simp [he]); omega
      · simp
    · exact ⟨fun x hx => by have := h2 x hx; omega, fun x hx => by have := h3 x hx; omega⟩
    · rw [hi]
      refine ⟨fun x hx => by have := h2 x hx; omega, ?_⟩
      intro e he
      simp only [List.mem_append, List.mem_singleton] at he
      rcases he with he | rfl
      · have := h3 e he; omega
      · simp
  fits n b x c h := by
    obtain ⟨h0, d, h1, -, -⟩ := h
    have hlen : b.len = d.length := by simp [HBeam.len, h1.dict]
    simp only [hashedOps, HBeam.fits, Bind.bind, h1.dict]
    split
    · simp only [Except.bind]
      split
      · cases HBeam.dictGet d (hash x) <;> exact ⟨_, rfl⟩
      · exact ⟨_, rfl⟩
    · rename_i hc
      obtain ⟨top, rest, ht⟩ := h1.heap_ne (d := d) (fun hd => by
        rw [hd] at hlen; simp at hlen; omega)
      rw [ht]
      simp only [Except.bind]
      split
      · cases HBeam.dictGet d (hash x) <;> exact ⟨_, rfl⟩
      · exact ⟨_, rfl⟩
  least n b h hl := by
    obtain ⟨h0, d, h1, -, -⟩ := h
    have hlen : b.len = d.length := by simp [HBeam.len, h1.dict]
    simp only [hashedOps] at hl ⊢
    obtain ⟨top, rest, ht⟩ := h1.heap_ne (d := d) (fun hd => by rw [hd] at hlen; simp at hlen; omega)
    rw [ht]; exact ⟨top, rfl⟩
  states n b h := by
    obtain ⟨h0, d, h1, -, -⟩ := h
    simp only [hashedOps, HBeam.states, h1.dict]
    exact ⟨_, rfl⟩
  top n b h := by
    obtain ⟨h0, d, h1, -, -⟩ := h
    simp only [hashedOps, HBeam.topState, HBeam.states, h1.dict]
    split
    · exact ⟨_, rfl⟩
    · exact ⟨_, rfl⟩

end Verif.SearchData
