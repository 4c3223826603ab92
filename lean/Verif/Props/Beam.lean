import Verif.Lemmas.Beam
import Mathlib.Order.Defs.LinearOrder
import Mathlib.Data.Nat.Basic

/-!
# C15 to C19: the beams

States are compared by a score (their log probability) in any linear order.
-/

namespace Verif

variable {α κ η : Type} [LinearOrder κ]

/-- State.__lt__ (beam_search_utils.py:882-883) with `score` the log probability. -/
def ltBy (score : α → κ) (a b : α) : Bool := decide (score a < score b)

theorem ltBy_weak (score : α → κ) : WeakOrder (ltBy score) where
  asymm a b h := by simp only [ltBy, decide_eq_true_eq, decide_eq_false_iff_not, not_lt] at *; exact le_of_lt h
  negtrans a b c h1 h2 := by
    simp only [ltBy, decide_eq_false_iff_not, not_lt] at *; exact le_trans h2 h1

theorem ltBy_false {score : α → κ} {a b : α} : ltBy score a b = false ↔ score b ≤ score a := by
  simp [ltBy]

theorem ltBy_true {score : α → κ} {a b : α} : ltBy score a b = true ↔ score a < score b := by
  simp [ltBy]

/-! ## C15 -/

theorem keeps_best_from (score : α → κ) (states : List α) (b : Beam α) (seen rejected : List α)
    (hs : 1 ≤ b.size) (hh : IsHeap (ltBy score) b.heap) (hp : (b.heap ++ rejected).Perm seen)
    (hl : b.heap.length = min b.size seen.length)
    (hr : ∀ r ∈ rejected, ∀ x ∈ b.heap, score r ≤ score x) :
    ∃ b' rejected', Beam.run (ltBy score) b (states.map (fun s => (s, false))) = .ok b' ∧
      (b'.heap ++ rejected').Perm (states.reverse ++ seen) ∧
      b'.heap.length = min b.size (states.length + seen.length) ∧
      ∀ r ∈ rejected', ∀ x ∈ b'.heap, score r ≤ score x := by
  induction states generalizing b seen rejected with
  | nil => exact ⟨b, rejected, rfl, by simpa using hp, by simpa using hl, hr⟩
  | cons s states ih =>
    have hw := ltBy_weak score
    have hpl := hp.length_eq
    simp only [List.length_append] at hpl
    obtain ⟨ok, b', e1, e2, e3, hc⟩ := Beam.add_cases hw b s false hs hh
    have key : ∃ rejected', (b'.heap ++ rejected').Perm (s :: seen) ∧
        b'.heap.length = min b'.size (s :: seen).length ∧
        ∀ r ∈ rejected', ∀ x ∈ b'.heap, score r ≤ score x := by
      rw [e2]
      rcases hc with ⟨_, hperm, hlt⟩ | ⟨_, _, hfull, top, rest, ht, hlt, hperm⟩ |
        ⟨_, hb, _, hfull, top, rest, ht, hlt⟩
      · have hlt : b.heap.length < b.size := by
          rcases hlt with h | h
          · cases h
          · exact h
        have hrej : rejected = [] := by
          apply List.length_eq_zero_iff.mp; omega
        subst hrej
        refine ⟨[], ?_, ?_, by simp⟩
        · simp only [List.append_nil] at hp ⊢
          exact hperm.trans (hp.cons s)
        · rw [hperm.length_eq]; simp; omega
      · have hlt' := ltBy_true.mp hlt
        refine ⟨top :: rejected, ?_, ?_, ?_⟩
        · rw [ht] at hp
          have h1 : (b'.heap ++ top :: rejected).Perm (top :: (b'.heap ++ rejected)) :=
            List.perm_middle
          refine h1.trans ?_
          refine ((hperm.append_right rejected).cons top).trans ?_
          exact (List.Perm.swap s top (rest ++ rejected)).trans (hp.cons s)
        · rw [hperm.length_eq]; rw [ht] at hl hfull hpl; simp at *; omega
        · intro r hr' x hx
          have hx' := hperm.mem_iff.mp hx
          simp only [List.mem_cons] at hr' hx'
          rcases hr' with rfl | hr' <;> rcases hx' with rfl | hx'
          · exact le_of_lt hlt'
          · exact ltBy_false.mp (hh.min hw (by rw [ht]; rfl) (by rw [ht]; simp [hx']))
          · exact le_trans (hr r hr' top (by rw [ht]; simp)) (le_of_lt hlt')
          · exact hr r hr' x (by rw [ht]; simp [hx'])
      · subst hb
        refine ⟨s :: rejected, List.perm_middle.trans (hp.cons s), by simp; omega, ?_⟩
        intro r hr' x hx
        simp only [List.mem_cons] at hr'
        rcases hr' with rfl | hr'
        · exact le_trans (ltBy_false.mp hlt) (ltBy_false.mp (hh.min hw (by rw [ht]; rfl) hx))
        · exact hr r hr' x hx
    obtain ⟨rejected', k1, k2, k3⟩ := key
    obtain ⟨b'', rej, g1, g2, g3, g4⟩ := ih b' (s :: seen) rejected' (by omega) e3 k1 k2 k3
    refine ⟨b'', rej, ?_, ?_, ?_, g4⟩
    · simp only [List.map_cons, Beam.run, e1, Bind.bind, Except.bind]; exact g1
    · simpa using g2
    · rw [g3, e2]; simp; omega

/-- C15: after any sequence of unforced adds to a new beam of size at least one (which never raises),
the beam holds as many states as fit, and no state that was left out or pushed out has a greater
score than any of those. -/
theorem C15_keeps_best (score : α → κ) (size : Nat) (hs : 1 ≤ size) (states : List α) :
    ∃ b leftOut, Beam.run (ltBy score) (.new size) (states.map (fun s => (s, false))) = .ok b ∧
      (b.heap ++ leftOut).Perm states ∧ b.heap.length = min size states.length ∧
      ∀ r ∈ leftOut, ∀ x ∈ b.heap, score r ≤ score x := by
  obtain ⟨b, rej, h1, h2, h3, h4⟩ := keeps_best_from score states (.new size) [] [] hs isHeap_nil
    (by simp [Beam.new]) (by simp [Beam.new]) (by simp)
  refine ⟨b, rej, h1, ?_, by simpa [Beam.new] using h3, h4⟩
  have : (states.reverse ++ []).Perm states := by simp
  exact h2.trans this

/-- The bookkeeping of a beam with any mix of adds. -/
structure BeamInv (score : α → κ) (b : Beam α) (seen : List α) : Prop where
  heap : IsHeap (ltBy score) b.heap
  sub : ∀ x ∈ b.heap, x ∈ seen
  best : ∀ y ∈ seen, ∃ x ∈ b.heap, score y ≤ score x

theorem Beam.run_inv (score : α → κ) (adds : List (α × Bool)) (b : Beam α) (seen : List α)
    (hs : 1 ≤ b.size) (hi : BeamInv score b seen) :
    ∃ b', Beam.run (ltBy score) b adds = .ok b' ∧ b'.size = b.size ∧
      BeamInv score b' (adds.reverse.map (·.1) ++ seen) := by
  induction adds generalizing b seen with
  | nil => exact ⟨b, rfl, rfl, by simpa using hi⟩
  | cons p adds ih =>
    obtain ⟨s, force⟩ := p
    have hw := ltBy_weak score
    obtain ⟨ok, b', e1, e2, e3, hc⟩ := Beam.add_cases hw b s force hs hi.heap
    have hi' : BeamInv score b' (s :: seen) := by
      refine ⟨e3, ?_, ?_⟩
      · intro x hx
        rcases hc with ⟨_, hperm, _⟩ | ⟨_, _, _, top, rest, ht, _, hperm⟩ | ⟨_, hb, _⟩
        · have := hperm.mem_iff.mp hx
          simp only [List.mem_cons] at this ⊢
          exact this.imp id (hi.sub x)
        · have := hperm.mem_iff.mp hx
          simp only [List.mem_cons] at this ⊢
          exact this.imp id (fun h => hi.sub x (by rw [ht]; simp [h]))
        · subst hb; exact List.mem_cons_of_mem _ (hi.sub x hx)
      · intro y hy
        simp only [List.mem_cons] at hy
        rcases hc with ⟨_, hperm, _⟩ | ⟨_, _, _, top, rest, ht, hlt, hperm⟩ |
          ⟨_, hb, _, _, top, rest, ht, hlt⟩
        · rcases hy with rfl | hy
          · exact ⟨y, hperm.mem_iff.mpr (by simp), le_refl _⟩
          · obtain ⟨x, h1, h2⟩ := hi.best y hy
            exact ⟨x, hperm.mem_iff.mpr (by simp [h1]), h2⟩
        · rcases hy with rfl | hy
          · exact ⟨y, hperm.mem_iff.mpr (by simp), le_refl _⟩
          · obtain ⟨x, h1, h2⟩ := hi.best y hy
            rw [ht] at h1
            simp only [List.mem_cons] at h1
            rcases h1 with rfl | h1
            · exact ⟨s, hperm.mem_iff.mpr (by simp), le_trans h2 (le_of_lt (ltBy_true.mp hlt))⟩
            · exact ⟨x, hperm.mem_iff.mpr (by simp [h1]), h2⟩
        · subst hb
          rcases hy with rfl | hy
          · exact ⟨top, by rw [ht]; simp, ltBy_false.mp hlt⟩
          · exact hi.best y hy
    obtain ⟨b'', g1, g2, g3⟩ := ih b' (s :: seen) (by omega) hi'
    refine ⟨b'', ?_, by rw [g2, e2], by simpa using g3⟩
    simp only [Beam.run, e1, Bind.bind, Except.bind]; exact g1

theorem BeamInv.new (score : α → κ) (size : Nat) : BeamInv score (Beam.new size) [] :=
  ⟨isHeap_nil, by simp [Beam.new], by simp⟩

/-- C15: with any mix of forced and unforced adds to a new beam of size at least one, the top state
is one of the added states with the greatest score of all that were ever added. -/
theorem C15_top_state (score : α → κ) (size : Nat) (hs : 1 ≤ size) (adds : List (α × Bool))
    (hne : adds ≠ []) :
    ∃ b m, Beam.run (ltBy score) (.new size) adds = .ok b ∧
      Beam.topState (ltBy score) b = some m ∧ m ∈ adds.map (·.1) ∧
      ∀ x ∈ adds.map (·.1), score x ≤ score m := by
  obtain ⟨b, h1, _, hi⟩ := Beam.run_inv score adds (.new size) [] hs (BeamInv.new score size)
  have hsub : ∀ x, x ∈ adds.reverse.map (·.1) ++ [] ↔ x ∈ adds.map (·.1) := by simp
  have hb : b.heap ≠ [] := by
    intro h0
    cases adds with
    | nil => exact hne rfl
    | cons p adds =>
      obtain ⟨x, hx, _⟩ := hi.best p.1 (by simp)
      rw [h0] at hx; cases hx
  obtain ⟨m, hm⟩ := pyMax_isSome (lt := ltBy score) b.heap hb
  obtain ⟨m1, m2⟩ := pyMax_spec (ltBy_weak score) b.heap m hm
  refine ⟨b, m, h1, hm, (hsub m).mp (hi.sub m m1), ?_⟩
  intro x hx
  obtain ⟨y, hy, hle⟩ := hi.best x ((hsub x).mpr hx)
  exact le_trans hle (ltBy_false.mp (m2 y hy))

/-- C15: the size must be at least one: otherwise the first unforced add raises. -/
theorem C15_size_zero (score : α → κ) (s : α) :
    Beam.add (ltBy score) (.new 0) s false = .error .indexError := rfl

-- three states in a beam of size two
example : (Beam.run (ltBy (fun n : Nat => n)) (.new 2) [(3, false), (1, false), (2, false)]) =
    .ok ⟨2, [2, 3]⟩ := by decide

/-! ## C16 -/

/-- C16: `fits_in_beam` gives the answer of a following unforced `add` (or the same exception), for
every beam and state. -/
theorem C16_beam (score : α → κ) (b : Beam α) (s : α) :
    (Beam.add (ltBy score) b s false).map (·.1) = Beam.fits (ltBy score) b s := by
  unfold Beam.add Beam.fits
  by_cases h : b.heap.length < b.size
  · rw [if_neg (by simp; omega), if_pos h]; rfl
  · rw [if_pos ⟨rfl, by omega⟩, if_neg h]
    cases b.heap with
    | nil => rfl
    | cons top rest =>
      simp only
      cases hl : ltBy score top s <;> simp [Except.map]

/-- C16: in any beam reached by adds, a rejected state leaves the beam as it was; an accepted one is
in the beam afterwards, and at most the least state is gone. -/
theorem C16_beam_effect (score : α → κ) (size : Nat) (hs : 1 ≤ size) (adds : List (α × Bool))
    (b b' : Beam α) (s : α) (force ok : Bool)
    (hb : Beam.run (ltBy score) (.new size) adds = .ok b)
    (ha : Beam.add (ltBy score) b s force = .ok (ok, b')) :
    (ok = false → b' = b) ∧
    (ok = true → b'.heap.Perm (s :: b.heap) ∨
      ∃ least rest, b.heap.Perm (least :: rest) ∧ (∀ x ∈ b.heap, score least ≤ score x) ∧
        score least < score s ∧ b'.heap.Perm (s :: rest)) := by
  obtain ⟨b₀, h1, h2, hi⟩ := Beam.run_inv score adds (.new size) [] hs (BeamInv.new score size)
  rw [hb] at h1; injection h1 with h1; subst h1
  have hw := ltBy_weak score
  obtain ⟨ok', b₁, e1, e2, e3, hc⟩ := Beam.add_cases hw b s force (by rw [h2]; exact hs) hi.heap
  rw [ha] at e1; injection e1 with e1; injection e1 with e1 e1'; subst e1; subst e1'
  rcases hc with ⟨hok, hperm, _⟩ | ⟨hok, _, _, top, rest, ht, hlt, hperm⟩ | ⟨hok, hb', _⟩
  · subst hok; exact ⟨by simp, fun _ => .inl hperm⟩
  · subst hok
    refine ⟨by simp, fun _ => .inr ⟨top, rest, by rw [ht], ?_, ltBy_true.mp hlt, hperm⟩⟩
    intro x hx
    exact ltBy_false.mp (hi.heap.min hw (by rw [ht]; rfl) hx)
  · subst hok; exact ⟨fun _ => hb', by simp⟩

/-! ## C17, C18: the hashed beam -/

variable [DecidableEq η] [DecidableEq α]

/-- The invariant of a hashed beam after adding the states of `seen`. -/
structure HashInv (score : α → κ) (hash : α → η) (b : HBeam η α) (d : List (η × α))
    (seen : List α) : Prop where
  inv : HInv (ltBy score) hash b d
  invalid : ∀ x ∈ b.invalid, x ∈ seen
  sub : ∀ e ∈ d, e.2 ∈ seen
  best : ∀ y ∈ seen, ∃ e ∈ d, score y ≤ score e.2

theorem HBeam.step_inv (score : α → κ) (hash : α → η) (b : HBeam η α) (d : List (η × α))
    (seen : List α) (s : α) (force : Bool) (hs : 1 ≤ b.size)
    (hi : HashInv score hash b d seen) (hv : s ∉ b.invalid) :
    ∃ ok b' d', HBeam.add (ltBy score) hash b s force = .ok (ok, b') ∧ b'.size = b.size ∧
      HashInv score hash b' d' (s :: seen) ∧
      (force = false → d.length ≤ b.size → d'.length ≤ b.size) ∧
      (ok = true ↔ (hash s, s) ∈ d' ∧ (hash s, s) ∉ d) ∧ (ok = false → b' = b) ∧
      (force = false → d.length ≤ b.size →
        (∀ y ∈ seen, (∃ e ∈ d, e.1 = hash y ∧ score y ≤ score e.2) ∨
          (d.length = b.size ∧ ∀ e ∈ d, score y ≤ score e.2)) →
        ∀ y ∈ s :: seen, (∃ e ∈ d', e.1 = hash y ∧ score y ≤ score e.2) ∨
          (d'.length = b.size ∧ ∀ e ∈ d', score y ≤ score e.2)) := by
  have hw := ltBy_weak score
  obtain ⟨ok, b', d', e1, e2, e3, hc⟩ := HBeam.add_cases hw b d s force hs hi.inv hv
  refine ⟨ok, b', d', e1, e2, ?_⟩
  rcases hc with ⟨hok, d₁, d₂, old, hd, hd', hlt, hinv⟩ | ⟨hok, hb, hd, old, hm, hlt⟩ |
    ⟨hok, hab, hf, hfull, d₁, d₂, top, rest, ht, hlt, hd, hd', hinv⟩ |
    ⟨hok, hb, hd, hab, hf, hfull, top, rest, ht, hlt⟩ | ⟨hok, hab, hroom, hd', hinv⟩
  · -- a better state for a hash in the beam
    have hlt' := ltBy_true.mp hlt
    have hnots : (hash s, s) ∉ d := by
      intro hm
      obtain ⟨a₁, a₂, ha, n1, n2⟩ := dict_split hi.inv.keys hm
      have hold : (hash s, old) ∈ d := by rw [hd]; simp
      rw [ha] at hold
      simp only [List.mem_append, List.mem_cons, Prod.mk.injEq, true_and] at hold
      rcases hold with h | h | h
      · exact n1 _ h rfl
      · rw [h] at hlt'; exact lt_irrefl _ hlt'
      · exact n2 _ h rfl
    have hmem : ∀ e ∈ d, e ∈ d' ∨ e = (hash s, old) := by
      intro e he; rw [hd] at he; rw [hd']
      simp only [List.mem_append, List.mem_cons] at he ⊢
      rcases he with h | h | h
      · exact .inl (.inl h)
      · exact .inr h
      · exact .inl (.inr (.inr h))
    have hs' : (hash s, s) ∈ d' := by rw [hd']; simp
    refine ⟨⟨e3, ?_, ?_, ?_⟩, ?_, ?_, ?_, ?_⟩
    · intro x hx; rw [hinv] at hx
      simp only [List.mem_cons] at hx
      rcases hx with rfl | hx
      · exact List.mem_cons_of_mem _ (hi.sub (hash s, x) (by rw [hd]; simp))
      · exact List.mem_cons_of_mem _ (hi.invalid x hx)
    · intro e he; rw [hd'] at he
      simp only [List.mem_append, List.mem_cons] at he
      rcases he with h | rfl | h
      · exact List.mem_cons_of_mem _ (hi.sub e (by rw [hd]; simp [h]))
      · simp
      · exact List.mem_cons_of_mem _ (hi.sub e (by rw [hd]; simp [h]))
    · intro y hy
      simp only [List.mem_cons] at hy
      rcases hy with rfl | hy
      · exact ⟨_, hs', le_refl _⟩
      · obtain ⟨e, he, hle⟩ := hi.best y hy
        rcases hmem e he with h | rfl
        · exact ⟨e, h, hle⟩
        · exact ⟨_, hs', le_trans hle (le_of_lt hlt')⟩
    · intro _ hl; rw [hd'] ; rw [hd] at hl; simpa using hl
    · subst hok; exact ⟨fun _ => ⟨hs', hnots⟩, fun _ => rfl⟩
    · intro h; rw [hok] at h; cases h
    · intro _ hl hprev y hy
      simp only [List.mem_cons] at hy
      rcases hy with rfl | hy
      · exact .inl ⟨_, hs', rfl, le_refl _⟩
      · rcases hprev y hy with ⟨e, he, h1, h2⟩ | ⟨h1, h2⟩
        · left
          rcases hmem e he with h | rfl
          · exact ⟨e, h, h1, h2⟩
          · exact ⟨_, hs', h1, le_trans h2 (le_of_lt hlt')⟩
        · right
          refine ⟨by rw [hd']; rw [hd] at h1; simpa using h1, ?_⟩
          intro e he; rw [hd'] at he
          simp only [List.mem_append, List.mem_cons] at he
          rcases he with h | rfl | h
          · exact h2 e (by rw [hd]; simp [h])
          · exact le_trans (h2 (hash s, old) (by rw [hd]; simp)) (le_of_lt hlt')
          · exact h2 e (by rw [hd]; simp [h])
  · -- not better than the state of its hash
    subst hb; subst hd
    have hle := ltBy_false.mp hlt
    refine ⟨⟨e3, fun x hx => List.mem_cons_of_mem _ (hi.invalid x hx),
      fun e he => List.mem_cons_of_mem _ (hi.sub e he), ?_⟩, fun _ h => h, ?_, fun _ => rfl, ?_⟩
    · intro y hy
      simp only [List.mem_cons] at hy
      rcases hy with rfl | hy
      · exact ⟨_, hm, hle⟩
      · exact hi.best y hy
    · rw [hok]; simp
    · intro _ _ hprev y hy
      simp only [List.mem_cons] at hy
      rcases hy with rfl | hy
      · exact .inl ⟨_, hm, rfl, hle⟩
      · exact hprev y hy
  · -- pushes out the least state
    have hlt' := ltBy_true.mp hlt
    have hmin : ∀ e ∈ d, score top ≤ score e.2 := fun e he =>
      ltBy_false.mp ((hi.inv.top_min hw ht).2 e.2 (List.mem_map_of_mem he))
    have hmem : ∀ e ∈ d, e ∈ d' ∨ e = (hash top, top) := by
      intro e he; rw [hd] at he; rw [hd']
      simp only [List.mem_append, List.mem_cons] at he ⊢
      rcases he with h | h | h
      · exact .inl (.inl (.inl h))
      · exact .inr h
      · exact .inl (.inl (.inr h))
    have hmem' : ∀ e ∈ d', e ∈ d ∨ e = (hash s, s) := by
      intro e he; rw [hd'] at he; rw [hd]
      simp only [List.mem_append, List.mem_cons, List.not_mem_nil, or_false] at he ⊢
      rcases he with (h | h) | h
      · exact .inl (.inl h)
      · exact .inl (.inr (.inr h))
      · exact .inr h
    have hs' : (hash s, s) ∈ d' := by rw [hd']; simp
    have hlen : d'.length = d.length := by rw [hd, hd']; simp
    refine ⟨⟨e3, ?_, ?_, ?_⟩, ?_, ?_, ?_, ?_⟩
    · intro x hx; rw [hinv] at hx; exact List.mem_cons_of_mem _ (hi.invalid x hx)
    · intro e he
      rcases hmem' e he with h | rfl
      · exact List.mem_cons_of_mem _ (hi.sub e h)
      · simp
    · intro y hy
      simp only [List.mem_cons] at hy
      rcases hy with rfl | hy
      · exact ⟨_, hs', le_refl _⟩
      · obtain ⟨e, he, hle⟩ := hi.best y hy
        rcases hmem e he with h | rfl
        · exact ⟨e, h, hle⟩
        · exact ⟨_, hs', le_trans hle (le_of_lt hlt')⟩
    · intro _ h; rw [hlen]; exact h
    · subst hok; exact ⟨fun _ => ⟨hs', fun h => hab _ h rfl⟩, fun _ => rfl⟩
    · intro h; rw [hok] at h; cases h
    · intro _ hl hprev y hy
      have hmin' : ∀ z, score z ≤ score top → ∀ e ∈ d', score z ≤ score e.2 := by
        intro z hz e he
        rcases hmem' e he with h | rfl
        · exact le_trans hz (hmin e h)
        · exact le_trans hz (le_of_lt hlt')
      simp only [List.mem_cons] at hy
      rcases hy with rfl | hy
      · exact .inl ⟨_, hs', rfl, le_refl _⟩
      · rcases hprev y hy with ⟨e, he, h1, h2⟩ | ⟨h1, h2⟩
        · rcases hmem e he with h | rfl
          · exact .inl ⟨e, h, h1, h2⟩
          · exact .inr ⟨by omega, hmin' y h2⟩
        · exact .inr ⟨by omega, hmin' y (h2 (hash top, top) (by rw [hd]; simp))⟩
  · -- not better than the least state of a full beam
    subst hb; subst hd
    have hle := ltBy_false.mp hlt
    have hmin : ∀ e ∈ d', score top ≤ score e.2 := fun e he =>
      ltBy_false.mp ((hi.inv.top_min hw ht).2 e.2 (List.mem_map_of_mem he))
    obtain ⟨et, het, hett⟩ := List.mem_map.mp (hi.inv.top_min hw ht).1
    refine ⟨⟨e3, fun x hx => List.mem_cons_of_mem _ (hi.invalid x hx),
      fun e he => List.mem_cons_of_mem _ (hi.sub e he), ?_⟩, fun _ h => h, ?_, fun _ => rfl, ?_⟩
    · intro y hy
      simp only [List.mem_cons] at hy
      rcases hy with rfl | hy
      · exact ⟨et, het, by rw [hett]; exact hle⟩
      · exact hi.best y hy
    · rw [hok]; simp
    · intro _ hl hprev y hy
      simp only [List.mem_cons] at hy
      rcases hy with rfl | hy
      · exact .inr ⟨by omega, fun e he => le_trans hle (hmin e he)⟩
      · exact hprev y hy
  · -- room for a new hash
    have hs' : (hash s, s) ∈ d' := by rw [hd']; simp
    have hmem : ∀ e ∈ d, e ∈ d' := by intro e he; rw [hd']; simp [he]
    refine ⟨⟨e3, ?_, ?_, ?_⟩, ?_, ?_, ?_, ?_⟩
    · intro x hx; rw [hinv] at hx; exact List.mem_cons_of_mem _ (hi.invalid x hx)
    · intro e he; rw [hd'] at he
      simp only [List.mem_append, List.mem_singleton] at he
      rcases he with h | rfl
      · exact List.mem_cons_of_mem _ (hi.sub e h)
      · simp
    · intro y hy
      simp only [List.mem_cons] at hy
      rcases hy with rfl | hy
      · exact ⟨_, hs', le_refl _⟩
      · obtain ⟨e, he, hle⟩ := hi.best y hy
        exact ⟨e, hmem e he, hle⟩
    · intro hf hl
      rw [hd']; simp
      rcases hroom with h | h
      · rw [hf] at h; cases h
      · omega
    · subst hok; exact ⟨fun _ => ⟨hs', fun h => hab _ h rfl⟩, fun _ => rfl⟩
    · intro h; rw [hok] at h; cases h
    · intro hf hl hprev y hy
      have hlt : d.length < b.size := by
        rcases hroom with h | h
        · rw [hf] at h; cases h
        · exact h
      simp only [List.mem_cons] at hy
      rcases hy with rfl | hy
      · exact .inl ⟨_, hs', rfl, le_refl _⟩
      · rcases hprev y hy with ⟨e, he, h1, h2⟩ | ⟨h1, h2⟩
        · exact .inl ⟨e, hmem e he, h1, h2⟩
        · omega

omit [DecidableEq η] in
theorem HashInv.new (score : α → κ) (hash : α → η) (size : Nat) :
    HashInv score hash (HBeam.new size) [] [] :=
  ⟨HInv.new size, by simp [HBeam.new], by simp, by simp⟩

theorem HBeam.run_inv (score : α → κ) (hash : α → η) (adds : List (α × Bool)) (b : HBeam η α)
    (d : List (η × α)) (seen : List α) (hs : 1 ≤ b.size) (hi : HashInv score hash b d seen)
    (hnd : (adds.map (·.1)).Nodup) (hfresh : ∀ p ∈ adds, p.1 ∉ seen) :
    ∃ b' d', HBeam.run (ltBy score) hash b adds = .ok b' ∧ b'.size = b.size ∧
      HashInv score hash b' d' ((adds.map (·.1)).reverse ++ seen) ∧
      ((∀ p ∈ adds, p.2 = false) → d.length ≤ b.size →
        (∀ y ∈ seen, (∃ e ∈ d, e.1 = hash y ∧ score y ≤ score e.2) ∨
          (d.length = b.size ∧ ∀ e ∈ d, score y ≤ score e.2)) →
        d'.length ≤ b.size ∧
        ∀ y ∈ (adds.map (·.1)).reverse ++ seen, (∃ e ∈ d', e.1 = hash y ∧ score y ≤ score e.2) ∨
          (d'.length = b.size ∧ ∀ e ∈ d', score y ≤ score e.2)) := by
  induction adds generalizing b d seen with
  | nil => exact ⟨b, d, rfl, rfl, by simpa using hi, fun _ h1 h2 => ⟨h1, by simpa using h2⟩⟩
  | cons p adds ih =>
    obtain ⟨s, force⟩ := p
    have hsn : s ∉ seen := hfresh (s, force) (by simp)
    obtain ⟨ok, b', d', e1, e2, e3, e4, e5, e6, e7⟩ := HBeam.step_inv score hash b d seen s force hs
      hi (fun h => hsn (hi.invalid s h))
    simp only [List.map_cons, List.nodup_cons] at hnd
    obtain ⟨b'', d'', g1, g2, g3, g4⟩ := ih b' d' (s :: seen) (by omega) e3 hnd.2 (by
      intro p hp hm
      simp only [List.mem_cons] at hm
      rcases hm with h | h
      · apply hnd.1; rw [← h]; exact List.mem_map_of_mem hp
      · exact hfresh p (by simp [hp]) h)
    refine ⟨b'', d'', ?_, by rw [g2, e2], by simpa using g3, ?_⟩
    · simp only [HBeam.run, e1, Bind.bind, Except.bind]; exact g1
    · intro hf hl hprev
      have hf0 : force = false := hf (s, force) (by simp)
      have := g4 (fun p hp => hf p (by simp [hp])) (by rw [e2]; exact e4 hf0 hl)
        (by rw [e2]; exact e7 hf0 hl hprev)
      rw [e2] at this
      refine ⟨this.1, ?_⟩
      intro y hy
      apply this.2 y
      simpa using hy

/-- C17: any sequence of adds of distinct states, forced or not, to a new hashed beam of size at least
one raises nothing and ends in a beam where: all states were added and have different hashes, its
length is the number of these states and at most the beam's size if nothing was forced, and the top of
the heap (if there is any state) is one of them with the least score. -/
theorem C17_bookkeeping (score : α → κ) (hash : α → η) (size : Nat) (hs : 1 ≤ size)
    (adds : List (α × Bool)) (hnd : (adds.map (·.1)).Nodup) :
    ∃ b states, HBeam.run (ltBy score) hash (.new size) adds = .ok b ∧
      HBeam.states b = .ok states ∧ (∀ x ∈ states, x ∈ adds.map (·.1)) ∧
      (states.map hash).Nodup ∧ HBeam.len b = states.length ∧
      ((∀ p ∈ adds, p.2 = false) → states.length ≤ size) ∧
      (states = [] ↔ b.heap = []) ∧
      (∀ top rest, b.heap = top :: rest → top ∈ states ∧ ∀ x ∈ states, score top ≤ score x) := by
  obtain ⟨b, d, h1, h2, hi, h3⟩ := HBeam.run_inv score hash adds (.new size) [] [] hs
    (HashInv.new score hash size) hnd (by simp)
  have hkeys : (d.map (·.2)).map hash = d.map (·.1) := by
    rw [List.map_map]
    apply List.map_congr_left
    intro e he; exact hi.inv.hashes e he
  refine ⟨b, d.map (·.2), h1, ?_, ?_, ?_, ?_, ?_, ?_, ?_⟩
  · simp [HBeam.states, hi.inv.dict]
  · intro x hx
    obtain ⟨e, he, rfl⟩ := List.mem_map.mp hx
    have := hi.sub e he
    simpa using this
  · rw [hkeys]; exact hi.inv.keys
  · simp [HBeam.len, hi.inv.dict]
  · intro hf
    have := (h3 hf (by simp [HBeam.new]) (by simp)).1
    rw [List.length_map]; exact this
  · constructor
    · intro h0
      cases hh : b.heap with
      | nil => rfl
      | cons top rest =>
        have := (hi.inv.top_min (ltBy_weak score) hh).1
        rw [h0] at this; cases this
    · intro h0
      have hl := hi.inv.live
      rw [h0] at hl
      exact (List.Perm.nil_eq hl).symm
  · intro top rest ht
    obtain ⟨t1, t2⟩ := hi.inv.top_min (ltBy_weak score) ht
    exact ⟨t1, fun x hx => ltBy_false.mp (t2 x hx)⟩

-- a replaced and an evicted state
example : HBeam.run (ltBy (fun n : Nat => n)) (· % 3) (.new 2)
    [(1, false), (2, false), (4, false), (3, false)] = .ok ⟨2, [3, 4], some [(1, 4), (0, 3)], [1]⟩ := by
  decide

/-- C16: in any hashed beam reached by adding distinct states, `fits_in_beam` for another state says
whether an unforced `add` of it returns True; if it returns False nothing changes, and if it returns
True the state has become part of the beam. -/
theorem C16_hashed (score : α → κ) (hash : α → η) (size : Nat) (hs : 1 ≤ size)
    (adds : List (α × Bool)) (s : α) (hnd : (s :: adds.map (·.1)).Nodup) (b : HBeam η α)
    (hb : HBeam.run (ltBy score) hash (.new size) adds = .ok b) :
    ∃ ok b' before after, HBeam.add (ltBy score) hash b s false = .ok (ok, b') ∧
      HBeam.fits (ltBy score) hash b s true = .ok ok ∧
      HBeam.states b = .ok before ∧ HBeam.states b' = .ok after ∧
      (ok = true → s ∈ after ∧ s ∉ before) ∧ (ok = false → b' = b ∧ s ∉ after) := by
  simp only [List.nodup_cons] at hnd
  obtain ⟨b₀, d, h1, h2, hi, h3⟩ := HBeam.run_inv score hash adds (.new size) [] [] hs
    (HashInv.new score hash size) hnd.2 (by simp)
  rw [hb] at h1; injection h1 with h1; subst h1
  have hsn : s ∉ (adds.map (·.1)).reverse ++ [] := by simpa using hnd.1
  have hw := ltBy_weak score
  have hsv : s ∉ b.invalid := fun h => hsn (hi.invalid s h)
  have hsd : ∀ e ∈ d, e.2 ≠ s := fun e he h => hsn (h ▸ hi.sub e he)
  have hbef : s ∉ d.map (·.2) := by
    intro h; obtain ⟨e, he, h⟩ := List.mem_map.mp h; exact hsd e he h
  have hlen : HBeam.len b = d.length := by simp [HBeam.len, hi.inv.dict]
  have hsz : 1 ≤ b.size := by rw [h2]; exact hs
  obtain ⟨ok, b', d', e1, e2, e3, hc⟩ := HBeam.add_cases hw b d s false hsz hi.inv hsv
  refine ⟨ok, b', d.map (·.2), d'.map (·.2), e1, ?_, by simp [HBeam.states, hi.inv.dict],
    by simp [HBeam.states, e3.dict], ?_⟩
  · unfold HBeam.fits
    rw [hlen, hi.inv.dict]
    -- the global check
    have hmin : ∀ top rest, b.heap = top :: rest → ∀ e ∈ d, score top ≤ score e.2 :=
      fun top rest ht e he =>
        ltBy_false.mp ((hi.inv.top_min hw ht).2 e.2 (List.mem_map_of_mem he))
    have hgetnone : (∀ e ∈ d, e.1 ≠ hash s) → HBeam.dictGet d (hash s) = none := by
      intro h
      simp only [HBeam.dictGet, Option.map_eq_none_iff, List.find?_eq_none]
      intro e he; simpa using h e he
    have hget : ∀ old, (hash s, old) ∈ d → HBeam.dictGet d (hash s) = some old := by
      intro old hm
      cases hg : HBeam.dictGet d (hash s) with
      | none => exact absurd rfl (dictGet_none hg _ hm)
      | some a =>
        have ha := dictGet_some hg
        obtain ⟨d₁, d₂, hd, n1, n2⟩ := dict_split hi.inv.keys hm
        rw [hd] at ha
        simp only [List.mem_append, List.mem_cons, Prod.mk.injEq, true_and] at ha
        rcases ha with h | h | h
        · exact absurd rfl (n1 _ h)
        · rw [h]
        · exact absurd rfl (n2 _ h)
    rcases hc with ⟨hok, d₁, d₂, old, hd, hd', hlt, hinv⟩ | ⟨hok, hb, hd, old, hm, hlt⟩ |
      ⟨hok, hab, hf, hfull, d₁, d₂, top, rest, ht, hlt, hd, hd', hinv⟩ |
      ⟨hok, hb, hd, hab, hf, hfull, top, rest, ht, hlt⟩ | ⟨hok, hab, hroom, hd', hinv⟩
    · have hm : (hash s, old) ∈ d := by rw [hd]; simp
      obtain ⟨top, rest, ht⟩ := hi.inv.heap_ne (by intro h; rw [h] at hm; cases hm)
      have htop : ltBy score top s = true :=
        ltBy_true.mpr (lt_of_le_of_lt (hmin top rest ht _ hm) (ltBy_true.mp hlt))
      simp only [hget old hm, hlt, ht, htop, hok]
      split <;> rfl
    · obtain ⟨top, rest, ht⟩ := hi.inv.heap_ne (by intro h; rw [h] at hm; cases hm)
      simp only [hget old hm, hlt, ht, hok]
      split
      · rfl
      · cases ltBy score top s <;> rfl
    · rw [if_neg (by omega), ht]
      simp only [hgetnone hab, hlt, hok]; rfl
    · rw [if_neg (by omega), ht]
      simp only [hlt, hok]; rfl
    · have hroom : d.length < b.size := by
        rcases hroom with h | h
        · cases h
        · exact h
      rw [if_pos hroom]
      simp only [hgetnone hab, hok]; rfl
  · obtain ⟨ok', b'', d'', f1, f2, f3, f4, f5, f6, f7⟩ := HBeam.step_inv score hash b d _ s false hsz
      hi hsv
    rw [e1] at f1; injection f1 with f1; injection f1 with f1 f1'; subst f1; subst f1'
    have hdd : d'' = d' := by
      have := f3.inv.dict; rw [e3.dict] at this; injection this with this; exact this.symm
    subst hdd
    constructor
    · intro hok
      have := (f5.mp hok).1
      exact ⟨List.mem_map.mpr ⟨_, this, rfl⟩, hbef⟩
    · intro hok
      have hb := f6 hok
      refine ⟨hb, ?_⟩
      have : d'' = d := by
        have := e3.dict; rw [hb, hi.inv.dict] at this; injection this with this; exact this.symm
      rw [this]; exact hbef

/-- C18: with any mix of adds of distinct states, the top state has the greatest score of all the
states that were ever added. -/
theorem C18_top_state (score : α → κ) (hash : α → η) (size : Nat) (hs : 1 ≤ size)
    (adds : List (α × Bool)) (hnd : (adds.map (·.1)).Nodup) (hne : adds ≠ []) :
    ∃ b m, HBeam.run (ltBy score) hash (.new size) adds = .ok b ∧
      HBeam.topState (ltBy score) b = .ok (some m) ∧ m ∈ adds.map (·.1) ∧
      ∀ x ∈ adds.map (·.1), score x ≤ score m := by
  obtain ⟨b, d, h1, h2, hi, h3⟩ := HBeam.run_inv score hash adds (.new size) [] [] hs
    (HashInv.new score hash size) hnd (by simp)
  have hd : d ≠ [] := by
    intro h0
    cases adds with
    | nil => exact hne rfl
    | cons p adds =>
      obtain ⟨e, he, _⟩ := hi.best p.1 (by simp)
      rw [h0] at he; cases he
  obtain ⟨m, hm⟩ := pyMax_isSome (lt := ltBy score) (d.map (·.2)) (by simpa using hd)
  obtain ⟨m1, m2⟩ := pyMax_spec (ltBy_weak score) _ m hm
  refine ⟨b, m, h1, ?_, ?_, ?_⟩
  · have : 0 < d.length := List.length_pos_iff.mpr hd
    simp [HBeam.topState, HBeam.len, HBeam.states, hi.inv.dict, this, Except.map, hm]
  · obtain ⟨e, he, rfl⟩ := List.mem_map.mp m1
    simpa using hi.sub e he
  · intro x hx
    obtain ⟨e, he, hle⟩ := hi.best x (by simpa using hx)
    exact le_trans hle (ltBy_false.mp (m2 e.2 (List.mem_map_of_mem he)))

/-- C18: after unforced adds of distinct states, every state in the beam is a best one of all that
were added with its hash; and an added state whose hash is not in the beam is at most as good as
every state in the beam, which is full then. -/
theorem C18_best_of_hash (score : α → κ) (hash : α → η) (size : Nat) (hs : 1 ≤ size)
    (added : List α) (hnd : added.Nodup) :
    ∃ b states, HBeam.run (ltBy score) hash (.new size) (added.map (fun s => (s, false))) = .ok b ∧
      HBeam.states b = .ok states ∧
      (∀ x ∈ states, ∀ y ∈ added, hash y = hash x → score y ≤ score x) ∧
      (∀ y ∈ added, hash y ∉ states.map hash →
        states.length = size ∧ ∀ x ∈ states, score y ≤ score x) := by
  have hfst : (added.map (fun s => (s, false))).map (·.1) = added := by
    rw [List.map_map]; exact List.map_id added
  obtain ⟨b, d, h1, h2, hi, h3⟩ := HBeam.run_inv score hash (added.map (fun s => (s, false)))
    (.new size) [] [] hs (HashInv.new score hash size) (by rw [hfst]; exact hnd) (by simp)
  rw [hfst] at hi h3
  obtain ⟨h4, h5⟩ := h3 (by simp) (by simp [HBeam.new]) (by simp)
  refine ⟨b, d.map (·.2), h1, by simp [HBeam.states, hi.inv.dict], ?_, ?_⟩
  · intro x hx y hy hxy
    obtain ⟨e, he, rfl⟩ := List.mem_map.mp hx
    rcases h5 y (by simpa using hy) with ⟨e', he', k1, k2⟩ | ⟨_, k2⟩
    · have hk : e'.1 = e.1 := by rw [k1, hxy, hi.inv.hashes e he]
      obtain ⟨d₁, d₂, hd, n1, n2⟩ := dict_split (h := e.1) (a := e.2) hi.inv.keys he
      rw [hd] at he'
      simp only [List.mem_append, List.mem_cons] at he'
      rcases he' with h | h | h
      · exact absurd hk (n1 _ h)
      · rw [h] at k2; exact k2
      · exact absurd hk (n2 _ h)
    · exact k2 e he
  · intro y hy hny
    rcases h5 y (by simpa using hy) with ⟨e', he', k1, k2⟩ | ⟨k1, k2⟩
    · exfalso; apply hny
      rw [← k1, ← hi.inv.hashes e' he', List.map_map]
      exact List.mem_map.mpr ⟨e', he', rfl⟩
    · refine ⟨by simpa [HBeam.new] using k1, ?_⟩
      intro x hx
      obtain ⟨e, he, rfl⟩ := List.mem_map.mp hx
      exact k2 e he

/-! ## C19 -/

omit [DecidableEq α] in
/-- C19: an emptied `Beam` equals a new one, so all that follows is the same. -/
theorem C19_beam_partial (score : α → κ) (size : Nat) (adds later : List (α × Bool)) (b : Beam α)
    (hs : 1 ≤ size) (hb : Beam.run (ltBy score) (.new size) adds = .ok b) :
    Beam.run (ltBy score) b.empty later = Beam.run (ltBy score) (.new size) later := by
  obtain ⟨b₀, h1, h2, _⟩ := Beam.run_inv score adds (.new size) [] hs (BeamInv.new score size)
  rw [hb] at h1; injection h1 with h1; subst h1
  have : b.empty = .new size := by
    simp only [Beam.empty, Beam.new, h2]
  rw [this]

/-- C19 is false for a `HashedBeam`: once emptied, no state can be added to it any more (a new beam of
the same size accepts every state), and iterating over it raises. -/
theorem C19_hashed_fails (score : α → κ) (hash : α → η) (b : HBeam η α) (s : α) (force : Bool) :
    (∀ r, HBeam.add (ltBy score) hash b.empty s force ≠ .ok r) ∧
    HBeam.states b.empty = .error .attributeError ∧
    (1 ≤ b.size →
      ∃ b', HBeam.add (ltBy score) hash (.new b.size) s force = .ok (true, b')) := by
  refine ⟨?_, rfl, ?_⟩
  · intro r h
    unfold HBeam.add HBeam.empty at h
    by_cases hc : force = false ∧ b.size ≤ 0
    · simp only at h; rw [if_pos hc] at h; cases h
    · simp only at h; rw [if_neg hc] at h; cases h
  · intro hs
    obtain ⟨ok, b', d', e1, _, _, hc⟩ := HBeam.add_cases (ltBy_weak score) (HBeam.new b.size) [] s
      force hs (HInv.new (hash := hash) b.size) (by simp [HBeam.new])
    rcases hc with ⟨_, d₁, d₂, old, hd, _⟩ | ⟨_, _, _, old, hm, _⟩ | ⟨hok, _⟩ |
      ⟨_, _, _, _, _, hfull, _⟩ | ⟨hok, _⟩
    · have := congrArg List.length hd; simp at this
    · cases hm
    · exact ⟨b', by rw [e1, hok]⟩
    · simp [HBeam.new] at hfull; omega
    · exact ⟨b', by rw [e1, hok]⟩

/-! ## Concrete cases -/

-- C15: five states in a beam of size two, the last one forced

example : ∃ b leftOut, Beam.run (ltBy (fun n : Nat => n)) (.new 2) ([3, 1, 5, 4, 2].map fun s => (s, false)) = .ok b ∧
    (b.heap ++ leftOut).Perm [3, 1, 5, 4, 2] ∧ b.heap.length = 2 ∧
    ∀ r ∈ leftOut, ∀ x ∈ b.heap, r ≤ x :=
  C15_keeps_best _ 2 (by decide) [3, 1, 5, 4, 2]

example : Beam.run (ltBy (fun n : Nat => n)) (.new 2) [(3, false), (1, false), (5, false), (4, false), (2, true)] =
    .ok ⟨2, [2, 5, 4]⟩ := by decide

example : ∃ b m, Beam.run (ltBy (fun n : Nat => n)) (.new 2) [(3, false), (5, false), (4, false), (2, true)] = .ok b ∧
    Beam.topState (ltBy (fun n : Nat => n)) b = some m ∧ m ∈ [3, 5, 4, 2] ∧ ∀ x ∈ [3, 5, 4, 2], x ≤ m :=
  C15_top_state _ 2 (by decide) [(3, false), (5, false), (4, false), (2, true)] (by simp)

-- C16: a state that is rejected and one that pushes out the least

example : Beam.add (ltBy (fun n : Nat => n)) ⟨2, [4, 5]⟩ 3 false = .ok (false, ⟨2, [4, 5]⟩) ∧
    Beam.add (ltBy (fun n : Nat => n)) ⟨2, [4, 5]⟩ 6 false = .ok (true, ⟨2, [5, 6]⟩) := by decide

example : ∃ least rest, [4, 5].Perm (least :: rest) ∧ (∀ x ∈ [4, 5], least ≤ x) ∧ least < 6 ∧
    [5, 6].Perm (6 :: rest) :=
  ((C16_beam_effect (fun n : Nat => n) 2 (by decide) [(5, false), (4, false)] ⟨2, [4, 5]⟩ ⟨2, [5, 6]⟩ 6 false true
    (by decide) (by decide)).2 rfl).resolve_left (by decide)

-- C17 and C18: four states, two of them with the same hash, and one more

example : ∃ b states, HBeam.run (ltBy (fun n : Nat => n)) (· % 3) (.new 2)
      ([1, 2, 4, 3].map fun s => (s, false)) = .ok b ∧ HBeam.states b = .ok states ∧
    (∀ x ∈ states, ∀ y ∈ [1, 2, 4, 3], y % 3 = x % 3 → y ≤ x) ∧
    (∀ y ∈ [1, 2, 4, 3], y % 3 ∉ states.map (· % 3) → states.length = 2 ∧ ∀ x ∈ states, y ≤ x) :=
  C18_best_of_hash _ _ 2 (by decide) [1, 2, 4, 3] (by decide)

example : ∃ b m, HBeam.run (ltBy (fun n : Nat => n)) (· % 3) (.new 2)
      [(1, false), (2, true), (4, false), (3, true)] = .ok b ∧
    HBeam.topState (ltBy (fun n : Nat => n)) b = .ok (some m) ∧ m ∈ [1, 2, 4, 3] ∧ ∀ x ∈ [1, 2, 4, 3], x ≤ m :=
  C18_top_state _ _ 2 (by decide) [(1, false), (2, true), (4, false), (3, true)] (by decide) (by simp)

example : ∃ ok b' before after,
    HBeam.add (ltBy (fun n : Nat => n)) (· % 3) ⟨2, [3, 4], some [(1, 4), (0, 3)], [1]⟩ 7 false = .ok (ok, b') ∧
    HBeam.fits (ltBy (fun n : Nat => n)) (· % 3) ⟨2, [3, 4], some [(1, 4), (0, 3)], [1]⟩ 7 true = .ok ok ∧
    HBeam.states ⟨2, [3, 4], some [(1, 4), (0, 3)], [1]⟩ = .ok before ∧ HBeam.states b' = .ok after ∧
    (ok = true → 7 ∈ after ∧ 7 ∉ before) ∧
    (ok = false → b' = ⟨2, [3, 4], some [(1, 4), (0, 3)], [1]⟩ ∧ 7 ∉ after) :=
  C16_hashed _ _ 2 (by decide) [(1, false), (2, false), (4, false), (3, false)] 7 (by decide) _ (by decide)

-- C19: an emptied beam

example : Beam.run (ltBy (fun n : Nat => n)) (Beam.empty ⟨2, [4, 5]⟩) [(1, false), (2, false)] =
    Beam.run (ltBy (fun n : Nat => n)) (.new 2) [(1, false), (2, false)] :=
  C19_beam_partial (fun n : Nat => n) 2 [(5, false), (4, false)] _ _ (by decide) (by decide)

end Verif
