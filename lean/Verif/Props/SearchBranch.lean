import Verif.Props.Search
import Mathlib.Algebra.Order.Group.Defs
import Mathlib.Algebra.Order.Group.Int
import Mathlib.Data.Rat.Defs

/-!
# C71 - C73: branching and pruning in the beam search
-/

namespace Verif.SearchData

open Verif State

/-! ## C71: how many classes are branched on -/

theorem foldl_add_sum (l : List Rat) (a : Rat) : l.foldl (· + ·) a = a + l.sum := by
  induction l generalizing a with
  | nil => simp
  | cons b l ih => rw [List.foldl_cons, ih, List.sum_cons, Rat.add_assoc]

theorem findIdx?_range_map {π : Type} (f : Nat → π) (p : π → Bool) (n k : Nat) (hk : k < n)
    (hp : p (f k) = true) (hmin : ∀ i < k, p (f i) = false) :
    ((List.range n).map f).findIdx? p = some k := by
  rw [List.findIdx?_eq_some_iff_getElem]
  refine ⟨by simpa using hk, by simpa using hp, ?_⟩
  intro j hj
  simpa using hmin j hj

/-- C71 (partial): if the target is reached, the number of classes branched on is the least number of
most probable classes that together reach the target, but at most the maximum. What is missing is the
case where the target is not reached (`C71_unreached_fails`). -/
theorem C71_least_partial (target : Rat) (maxFactor : Nat) (probs : List Rat) (k : Nat) (hk1 : 1 ≤ k)
    (hk : k ≤ probs.length) (hreach : target ≤ (probs.take k).sum)
    (hmin : ∀ j, 1 ≤ j → j < k → (probs.take j).sum < target) :
    maxBranch (fun a b => decide (b ≤ a)) target maxFactor probs = min k maxFactor := by
  obtain ⟨k, rfl⟩ : ∃ m, k = m + 1 := ⟨k - 1, by omega⟩
  simp only [maxBranch]
  rw [findIdx?_range_map _ _ probs.length k (by omega)]
  · simp only [Option.getD_some]; omega
  · rw [foldl_add_sum, Rat.zero_add]; simpa using hreach
  · intro i hi
    rw [foldl_add_sum, Rat.zero_add]
    exact decide_eq_false (Rat.not_le.mpr (hmin (i + 1) (by omega) (by omega)))

/-- C71: never more than the maximum, and at least one if the maximum allows it. -/
theorem C71_bounds {π : Type} [Add π] [Zero π] (ge : π → π → Bool) (target : π) (maxFactor : Nat)
    (probs : List π) : maxBranch ge target maxFactor probs ≤ maxFactor ∧
    (1 ≤ maxFactor → 1 ≤ maxBranch ge target maxFactor probs) := by
  simp only [maxBranch]
  omega

/-- C71 fails if all classes together do not reach the target (a target of 1 and probabilities that
round to a little less, say): then only the most probable class is branched on. -/
theorem C71_unreached_fails (target : Rat) (maxFactor : Nat) (probs : List Rat)
    (h : ∀ j, 1 ≤ j → j ≤ probs.length → (probs.take j).sum < target) :
    maxBranch (fun a b => decide (b ≤ a)) target maxFactor probs = min 1 maxFactor := by
  simp only [maxBranch]
  have : ((List.range probs.length).map fun i => (probs.take (i + 1)).foldl (· + ·) 0).findIdx?
      (fun x => decide (target ≤ x)) = none := by
    rw [List.findIdx?_eq_none_iff]
    intro x hx
    obtain ⟨i, hi, rfl⟩ := List.mem_map.mp hx
    rw [foldl_add_sum, Rat.zero_add]
    exact decide_eq_false (Rat.not_le.mpr (h (i + 1) (by omega) (by
      have := List.mem_range.mp hi; omega)))
  rw [this]
  simp

example : maxBranch (fun a b => decide (b ≤ a)) (9/10 : Rat) 10 [6/10, 3/10, 1/10] = 2 := by
  decide +kernel
example : maxBranch (fun a b => decide (b ≤ a)) (1 : Rat) 10 [6/10, 3/10, 99/1000] = 1 := by
  decide +kernel

/-- A state gets a new key by a relative key, at the cost of the KSM. -/
def Moves {κ ρ H P : Type} [Add κ] (d : SearchData κ ρ H P) (s : State κ H P) (o : KsmOutput κ H) (len : Int)
    (rel : Int) (t : State κ H P) : Prop :=
  ∃ key lp, d.targetKey s rel = .ok (some key) ∧ key ≠ s.node.key ∧ pyGet o.priors rel = .ok lp ∧
    s.keyTransition d.labels d.pitchType key (d.scale (d.ksmExponent lp) len) = .ok (some t)

theorem keyLoop_moves {κ ρ H P : Type} [Add κ] {d : SearchData κ ρ H P} {s : State κ H P}
    {o : KsmOutput κ H} {len : Int} {rels : List Int} {room : Nat} {out : List (State κ H P)}
    (h : d.keyLoop none s o len rels room = .ok out) :
    (∀ t ∈ out, ∃ rel ∈ rels, Moves d s o len rel t) ∧ out.length ≤ max 1 room ∧
    ∀ pre rel post t, rels = pre ++ rel :: post → Moves d s o len rel t →
      t ∈ out ∨ out.length = max 1 room ∧ ∀ u ∈ out, ∃ rel' ∈ pre, Moves d s o len rel' u := by
  induction rels generalizing room out with
  | nil =>
    simp only [keyLoop, Except.ok.injEq] at h
    subst h
    refine ⟨by simp, by simp, ?_⟩
    intro pre rel post t he
    simp at he
  | cons rel rels ih =>
    simp only [keyLoop, Bind.bind] at h
    obtain ⟨target, htar, h⟩ := bind_ok h
    -- the relative key leads nowhere
    have skip : (∀ t, ¬ Moves d s o len rel t) → d.keyLoop none s o len rels room = .ok out →
        (∀ t ∈ out, ∃ rel' ∈ rel :: rels, Moves d s o len rel' t) ∧ out.length ≤ max 1 room ∧
        ∀ pre rel' post t, rel :: rels = pre ++ rel' :: post → Moves d s o len rel' t →
          t ∈ out ∨ out.length = max 1 room ∧ ∀ u ∈ out, ∃ r ∈ pre, Moves d s o len r u := by
      intro hno h
      obtain ⟨i1, i2, i3⟩ := ih h
      refine ⟨fun t ht => ?_, i2, ?_⟩
      · obtain ⟨r, hr, hm⟩ := i1 t ht
        exact ⟨r, List.mem_cons_of_mem _ hr, hm⟩
      · intro pre rel' post t he hm
        cases pre with
        | nil =>
          simp only [List.nil_append, List.cons.injEq] at he
          rw [← he.1] at hm
          exact absurd hm (hno t)
        | cons p pre =>
          simp only [List.cons_append, List.cons.injEq] at he
          rcases i3 pre rel' post t he.2 hm with h' | ⟨h1, h2⟩
          · exact .inl h'
          · refine .inr ⟨h1, fun u hu => ?_⟩
            obtain ⟨r, hr, hm⟩ := h2 u hu
            exact ⟨r, List.mem_cons_of_mem _ hr, hm⟩
    cases target with
    | none =>
      refine skip ?_ h
      rintro t ⟨key, lp, hk, -⟩
      rw [htar] at hk
      cases hk
    | some key =>
      simp only at h
      split at h
      · rename_i hs
        simp only [skipKey, Option.isSome_none, Bool.false_and, Bool.false_or, decide_eq_true_eq] at hs
        refine skip ?_ h
        rintro t ⟨key', lp, hk, hne, -⟩
        rw [htar] at hk
        injection hk with hk
        injection hk with hk
        exact hne (hk ▸ hs)
      · rename_i hs
        simp only [skipKey, Option.isSome_none, Bool.false_and, Bool.false_or, decide_eq_true_eq] at hs
        obtain ⟨lp, hlp, h⟩ := bind_ok h
        obtain ⟨new, hnew, h⟩ := bind_ok h
        have only : ∀ t, Moves d s o len rel t → new = some t := by
          rintro t ⟨key', lp', hk, -, hl, hm⟩
          rw [htar] at hk
          injection hk with hk
          injection hk with hk
          subst hk
          rw [hlp] at hl
          injection hl with hl
          subst hl
          rw [hnew] at hm
          injection hm
        cases new with
        | none =>
          simp only [afterKey] at h
          exact skip (fun t hm => by cases only t hm) (by simpa using h)
        | some t =>
          have hm : Moves d s o len rel t := ⟨key, lp, htar, hs, hlp, hnew⟩
          simp only [afterKey] at h
          split at h
          · rename_i hr
            injection h with h
            subst h
            simp only [reduceCtorEq, or_false] at hr
            refine ⟨fun u hu => ⟨rel, List.mem_cons_self, by
                simp only [List.mem_singleton] at hu; subst hu; exact hm⟩, by simp, ?_⟩
            intro pre rel' post u he hm'
            cases pre with
            | nil =>
              simp only [List.nil_append, List.cons.injEq] at he
              rw [← he.1] at hm'
              have := only u hm'
              injection this with this
              exact .inl (by simp [this])
            | cons p pre =>
              simp only [List.cons_append, List.cons.injEq] at he
              refine .inr ⟨by simp only [List.length_singleton]; omega, fun v hv => ?_⟩
              simp only [List.mem_singleton] at hv
              subst hv
              exact ⟨p, List.mem_cons_self, he.1 ▸ hm⟩
          · rename_i hr
            obtain ⟨l, hl, h⟩ := map_ok h
            subst h
            simp only [reduceCtorEq, or_false] at hr
            obtain ⟨i1, i2, i3⟩ := ih hl
            refine ⟨fun u hu => ?_, by simp only [List.length_cons]; omega, ?_⟩
            · rcases List.mem_cons.mp hu with rfl | hu
              · exact ⟨rel, List.mem_cons_self, hm⟩
              · obtain ⟨r, hr, hm⟩ := i1 u hu
                exact ⟨r, List.mem_cons_of_mem _ hr, hm⟩
            · intro pre rel' post u he hm'
              cases pre with
              | nil =>
                simp only [List.nil_append, List.cons.injEq] at he
                rw [← he.1] at hm'
                have := only u hm'
                injection this with this
                exact .inl (by simp [this])
              | cons p pre =>
                simp only [List.cons_append, List.cons.injEq] at he
                rcases i3 pre rel' post u he.2 hm' with h' | ⟨h1, h2⟩
                · exact .inl (List.mem_cons_of_mem _ h')
                · refine .inr ⟨by simp only [List.length_cons]; omega, fun v hv => ?_⟩
                  rcases List.mem_cons.mp hv with rfl | hv
                  · exact ⟨p, List.mem_cons_self, he.1 ▸ hm⟩
                  · obtain ⟨r, hr, hm⟩ := h2 v hv
                    exact ⟨r, List.mem_cons_of_mem _ hr, hm⟩

/-- C71: where no key is forced, a state that changes its key gets only keys it can move to, and no more of
them than the number to branch on; and a key it can move to is left out only if that many are taken, all
from relative keys that come before it (that is, which are at least as probable). -/
theorem C71_keys {κ ρ H P : Type} [Add κ] (d : SearchData κ ρ H P) (s : State κ H P) (o : KsmOutput κ H)
    (q : Node κ H P) (rest : List (Node κ H P)) (hq : s.prev = q :: rest) (ho : d.ksm s = .ok o)
    (hf : d.forcedIn d.forcedKeys q.changeIndex s.node.changeIndex = none) (hmax : 1 ≤ o.maxIndex)
    (out : List (State κ H P)) (h : d.keyChanges s = .ok out) :
    let moves := Moves d (setKsm s o) o ((s.node.changeIndex : Int) - q.changeIndex)
    (∀ t ∈ out, ∃ rel ∈ o.order, moves rel t) ∧ out.length ≤ o.maxIndex ∧
    ∀ before rel after t, o.order = before ++ rel :: after → moves rel t →
      t ∈ out ∨ out.length = o.maxIndex ∧ ∀ u ∈ out, ∃ rel' ∈ before, moves rel' u := by
  simp only [keyChanges, Bind.bind] at h
  obtain ⟨o', ho', h⟩ := bind_ok h
  rw [ho] at ho'
  injection ho' with ho'
  subst ho'
  have hq' : (setKsm s o).prev = q :: rest := hq
  simp only [hq'] at h
  rw [hf] at h
  have := keyLoop_moves h
  rw [show max 1 o.maxIndex = o.maxIndex by omega] at this
  exact this

/-- C71: where no chord is forced, the chords to branch on are the first ones of the row sorted by
probability, as many as the number to branch on; or the first two if that number is one and the first is
the chord of the state itself. -/
theorem C71_chords {κ ρ H P : Type} (d : SearchData κ ρ H P) (start : Nat) (chord : Option Int)
    (r : RangeData κ) (hf : d.forcedIn d.forcedChords start r.stop = none) (hne : r.order ≠ []) :
    d.branchIds start chord r = .ok (r.order.take
      (if r.maxIndex = 1 ∧ r.order.head? = chord then 2 else r.maxIndex)) := by
  cases ho : r.order with
  | nil => exact absurd ho hne
  | cons c cs =>
    simp only [branchIds, hf, ho, List.head?_cons]
    by_cases h1 : r.maxIndex = 1
    · have : pyGet (c :: cs) 0 = .ok c := by simp [pyGet]
      rw [if_pos h1, this]
      by_cases h2 : some c = chord
      · simp [Except.map, h1, h2]
      · simp [Except.map, h1, h2]
    · simp [h1]

/-! ## C72: the quick exit -/

section
variable {κ ρ H P : Type} [AddCommGroup κ] [LinearOrder κ] [IsOrderedAddMonoid κ]
  {d : SearchData κ ρ H P} {β : Type} {ops : BeamOps β (Nat × State κ H P)}

/-- A full beam: it takes only what is greater than its least state. -/
def Full (d : SearchData κ ρ H P) (ops : BeamOps β (Nat × State κ H P)) (b : β) : Prop :=
  ∀ s, ops.fits b s false = (ops.least b).map fun top => d.stateLt top s

omit [AddCommGroup κ] [LinearOrder κ] [IsOrderedAddMonoid κ] in
/-- A plain beam with as many states as its size is full. -/
theorem full_plain (b : Beam (Nat × State κ H P)) (h : b.size ≤ b.heap.length) :
    Full d (plainOps d.stateLt) b := by
  intro s
  simp only [plainOps, Beam.fits, if_neg (Nat.not_lt.mpr h), heapLeast]
  cases b.heap <;> rfl

omit [AddCommGroup κ] [IsOrderedAddMonoid κ] in
/-- A hashed beam with as many states as its size is full. -/
theorem full_hashed [DecidableEq H] [DecidableEq P]
    (b : HBeam (Option (List HashEntry)) (Nat × State κ H P)) (h : b.size ≤ b.len) :
    Full d (hashedOps d.stateLt fun a => a.2.node.hash) b := by
  intro s
  simp only [hashedOps, HBeam.fits, if_neg (Nat.not_lt.mpr h), heapLeast]
  cases b.heap with
  | nil => rfl
  | cons top t => simp [Bind.bind, Except.bind, Except.map]

omit [LinearOrder κ] [IsOrderedAddMonoid κ] in
theorem branchState_transition {start : Nat} {s s' : State κ H P} {r : RangeData κ} {c : Int} {lp : κ}
    (hc : s.node.chord ≠ some c) (hp : pyGet r.priors c = .ok lp)
    (h : d.branchState start s r c = .ok (some s')) :
    s'.node.logProb = s.node.logProb + (r.logProb + d.scale lp ((r.stop : Int) - start)) ∧
    s'.node.changeIndex = r.stop := by
  simp only [branchState, hp, Bind.bind, Except.bind] at h
  rw [if_neg (fun e => hc e.symm)] at h
  obtain ⟨root, ct, inv, bass, k, h1, h2, h3, h4, h5, rfl⟩ := chordTransition_some h
  exact ⟨rfl, rfl⟩

/-- C72 (partial): if the target beam is full, a range that is skipped could not have put a state with a
new chord there. What is missing is false: the beam need not be full (`C72_room_fails`), and a state
that keeps its chord may fit (`C72_rejoin_fails`). -/
theorem C72_full_partial (hlt : ∀ a b, d.lt a b = decide (a < b)) (hge : ∀ a b, d.ge a b = decide (b ≤ a))
    (start : Nat) (hstart : start ≠ 0) (beams : List β) (s s' : State κ H P) (r : RangeData κ) (b : β)
    (hb : beams[r.stop]? = some b) (hfull : Full d ops b)
    (hq : d.quickExit ops start beams s r = .ok true) (c : Int) (hc : s.node.chord ≠ some c)
    (lp : κ) (hp : pyGet r.priors c = .ok lp) (hneg : d.scale lp ((r.stop : Int) - start) ≤ 0)
    (h : d.branchState start s r c = .ok (some s')) : fitsAt ops start beams s' false = .ok false := by
  obtain ⟨e1, e2⟩ := branchState_transition hc hp h
  have hg : pyGet beams (r.stop : Int) = .ok b := by
    simp only [pyGet, Int.natCast_nonneg, if_true, Int.toNat_natCast, hb]
  simp only [quickExit, if_neg hstart, hg, Bind.bind, Except.bind] at hq
  simp only [fitsAt, if_neg hstart, e2, hg, Bind.bind, Except.bind]
  rw [hfull]
  split at hq
  · cases hq
  · obtain ⟨top, htop, hq⟩ := map_ok hq
    rw [htop]
    rw [hge] at hq
    simp only [Except.map, stateLt, hlt, e1]
    congr 1
    rw [decide_eq_false_iff_not, not_lt]
    have hq := of_decide_eq_true hq
    refine le_trans ?_ hq
    rw [← add_assoc]
    have := add_le_add_right hneg (s.node.logProb + r.logProb)
    simpa [add_comm] using this

/-- In a full beam, if a state with a new chord does not fit, no later state with a new chord of no
greater prior fits. -/
theorem later_unfit (hlt : ∀ a b, d.lt a b = decide (a < b))
    (start : Nat) (hstart : start ≠ 0) (beams : List β) (s s1 s2 : State κ H P) (r : RangeData κ) (b : β)
    (hb : beams[r.stop]? = some b) (hfull : Full d ops b) (c1 c2 : Int)
    (hc1 : s.node.chord ≠ some c1) (hc2 : s.node.chord ≠ some c2) (lp1 lp2 : κ)
    (hp1 : pyGet r.priors c1 = .ok lp1) (hp2 : pyGet r.priors c2 = .ok lp2)
    (hle : d.scale lp2 ((r.stop : Int) - start) ≤ d.scale lp1 ((r.stop : Int) - start))
    (h1 : d.branchState start s r c1 = .ok (some s1)) (h2 : d.branchState start s r c2 = .ok (some s2))
    (hn : fitsAt ops start beams s1 false = .ok false) :
    fitsAt ops start beams s2 false = .ok false := by
  obtain ⟨e1, e2⟩ := branchState_transition hc1 hp1 h1
  obtain ⟨f1, f2⟩ := branchState_transition hc2 hp2 h2
  have hg : pyGet beams (r.stop : Int) = .ok b := by
    simp only [pyGet, Int.natCast_nonneg, if_true, Int.toNat_natCast, hb]
  simp only [fitsAt, if_neg hstart, e2, f2, hg, Bind.bind, Except.bind] at hn ⊢
  rw [hfull] at hn ⊢
  obtain ⟨top, htop, hn⟩ := map_ok hn
  rw [htop]
  simp only [Except.map, stateLt, hlt] at hn ⊢
  congr 1
  rw [decide_eq_false_iff_not, not_lt] at hn ⊢
  refine le_trans ?_ hn
  rw [e1, f1]
  have := add_le_add_right hle (s.node.logProb + r.logProb)
  simpa [add_comm, add_left_comm, add_assoc] using this

omit [AddCommGroup κ] [LinearOrder κ] [IsOrderedAddMonoid κ] in
theorem full_of_unfit_plain (b : Beam (Nat × State κ H P)) (s : Nat × State κ H P)
    (h : (plainOps d.stateLt).fits b s false = .ok false) : Full d (plainOps d.stateLt) b := by
  refine full_plain b ?_
  simp only [plainOps, Beam.fits] at h
  split at h
  · cases h
  · omega

omit [AddCommGroup κ] [IsOrderedAddMonoid κ] in
theorem full_of_unfit_hashed [DecidableEq H] [DecidableEq P]
    (b : HBeam (Option (List HashEntry)) (Nat × State κ H P)) (s : Nat × State κ H P)
    (h : (hashedOps d.stateLt fun a => a.2.node.hash).fits b s false = .ok false) :
    Full d (hashedOps d.stateLt fun a => a.2.node.hash) b := by
  refine full_hashed b ?_
  by_cases hlt : b.len < b.size
  · simp [hashedOps, HBeam.fits, if_pos hlt, Bind.bind, Except.bind] at h
  · omega

/-- C73 (partial), for the class `Beam`: if a state with a new chord does not fit, no later state with a
new chord of no greater prior fits. What is missing, the same after a state that keeps its chord, is
false (`C73_rejoin_fails`). -/
theorem C73_plain_partial (hlt : ∀ a b, d.lt a b = decide (a < b)) (start : Nat) (hstart : start ≠ 0)
    (beams : List (Beam (Nat × State κ H P))) (s s1 s2 : State κ H P) (r : RangeData κ) (c1 c2 : Int)
    (hc1 : s.node.chord ≠ some c1) (hc2 : s.node.chord ≠ some c2) (lp1 lp2 : κ)
    (hp1 : pyGet r.priors c1 = .ok lp1) (hp2 : pyGet r.priors c2 = .ok lp2)
    (hle : d.scale lp2 ((r.stop : Int) - start) ≤ d.scale lp1 ((r.stop : Int) - start))
    (h1 : d.branchState start s r c1 = .ok (some s1)) (h2 : d.branchState start s r c2 = .ok (some s2))
    (hn : fitsAt (plainOps d.stateLt) start beams s1 false = .ok false) :
    fitsAt (plainOps d.stateLt) start beams s2 false = .ok false := by
  obtain ⟨e1, e2⟩ := branchState_transition hc1 hp1 h1
  have hn' := hn
  simp only [fitsAt, if_neg hstart, Bind.bind, e2] at hn'
  obtain ⟨b, hb, hf⟩ := bind_ok hn'
  have hb' := pyGet_nonneg _ _ _ (Int.natCast_nonneg _) hb
  simp only [Int.toNat_natCast] at hb'
  exact later_unfit hlt start hstart beams s s1 s2 r b hb' (full_of_unfit_plain b _ hf) c1 c2 hc1 hc2
    lp1 lp2 hp1 hp2 hle h1 h2 hn

/-- C73 (partial), for the class `HashedBeam`. -/
theorem C73_hashed_partial [DecidableEq H] [DecidableEq P] (hlt : ∀ a b, d.lt a b = decide (a < b))
    (start : Nat) (hstart : start ≠ 0)
    (beams : List (HBeam (Option (List HashEntry)) (Nat × State κ H P))) (s s1 s2 : State κ H P)
    (r : RangeData κ) (c1 c2 : Int)
    (hc1 : s.node.chord ≠ some c1) (hc2 : s.node.chord ≠ some c2) (lp1 lp2 : κ)
    (hp1 : pyGet r.priors c1 = .ok lp1) (hp2 : pyGet r.priors c2 = .ok lp2)
    (hle : d.scale lp2 ((r.stop : Int) - start) ≤ d.scale lp1 ((r.stop : Int) - start))
    (h1 : d.branchState start s r c1 = .ok (some s1)) (h2 : d.branchState start s r c2 = .ok (some s2))
    (hn : fitsAt (hashedOps d.stateLt fun a => a.2.node.hash) start beams s1 false = .ok false) :
    fitsAt (hashedOps d.stateLt fun a => a.2.node.hash) start beams s2 false = .ok false := by
  obtain ⟨e1, e2⟩ := branchState_transition hc1 hp1 h1
  have hn' := hn
  simp only [fitsAt, if_neg hstart, Bind.bind, e2] at hn'
  obtain ⟨b, hb, hf⟩ := bind_ok hn'
  have hb' := pyGet_nonneg _ _ _ (Int.natCast_nonneg _) hb
  simp only [Int.toNat_natCast] at hb'
  exact later_unfit hlt start hstart beams s s1 s2 r b hb' (full_of_unfit_hashed b _ hf) c1 c2 hc1 hc2
    lp1 lp2 hp1 hp2 hle h1 h2 hn

end

/-- A state of the small instance: chord `c` on the first note, in key 0. -/
def demoState (c : Int) (lp : Int) (csm : Option Int) : State Int Unit Unit :=
  let q : Node Int Unit Unit := (State.initial 0 none none).node
  ⟨{ q with chord := some c, changeIndex := 1, logProb := lp, csm := csm }, [q]⟩

/-- The beams of the small instance over two notes, with one state in the last beam. -/
def demoBeams (size : Nat) (lp : Int) : List (Beam (Nat × State Int Unit Unit)) :=
  [⟨size, []⟩, ⟨size, []⟩, ⟨size, [(0, demoState 0 lp none)]⟩]

/-- C72 fails: the target beam has room for 9 more states, but the range is skipped. -/
theorem C72_room_fails : ∃ (d : SearchData Int Int Unit Unit) (s s' : State Int Unit Unit)
    (r : RangeData Int) (beams : List (Beam (Nat × State Int Unit Unit))),
    d.quickExit (plainOps d.stateLt) 1 beams s r = .ok true ∧
    d.branchIds 1 s.node.chord r = .ok [1] ∧ d.branchState 1 s r 1 = .ok (some s') ∧
    fitsAt (plainOps d.stateLt) 1 beams s' false = .ok true := by
  let d := demo none 2 [] [-1, -1] [0, -1]
  let s := demoState 0 (-5) none
  let r : RangeData Int := ⟨2, -1, -1, [-1, -1, -1], [1, 0, 2], 1⟩
  cases hs : d.branchState 1 s r 1 with
  | error e =>
    have : (d.branchState 1 s r 1).toOption.isSome = true := by decide +kernel
    rw [hs] at this; cases this
  | ok o =>
    cases o with
    | none =>
      have : ((d.branchState 1 s r 1).toOption.bind id).isSome = true := by decide +kernel
      rw [hs] at this; cases this
    | some s' =>
      refine ⟨d, s, s', r, demoBeams 10 (-6), by decide +kernel, by decide +kernel, hs, ?_⟩
      have : ((d.branchState 1 s r 1).toOption.bind id).map
          (fun s' => fitsAt (plainOps d.stateLt) 1 (demoBeams 10 (-6)) s' false) = some (.ok true) := by
        decide +kernel
      rw [hs] at this
      simpa [Except.toOption] using this

/-- C72 fails in a full beam for a state that keeps its chord: the rejoin gives back the cost of the
CSM (-4), and the state would have fitted. -/
theorem C72_rejoin_fails : ∃ (d : SearchData Int Int Unit Unit) (s s' : State Int Unit Unit)
    (r : RangeData Int) (beams : List (Beam (Nat × State Int Unit Unit))) (b : Beam _),
    beams[r.stop]? = some b ∧ Full d (plainOps d.stateLt) b ∧
    d.quickExit (plainOps d.stateLt) 1 beams s r = .ok true ∧
    d.branchState 1 s r 0 = .ok (some s') ∧
    fitsAt (plainOps d.stateLt) 1 beams s' false = .ok true := by
  let d := demo none 2 [] [-1, -1] [0, -1]
  let s := demoState 0 (-9) (some (-4))
  let r : RangeData Int := ⟨2, -1, -1, [-1, -1, -1], [0, 1, 2], 1⟩
  cases hs : d.branchState 1 s r 0 with
  | error e =>
    have : (d.branchState 1 s r 0).toOption.isSome = true := by decide +kernel
    rw [hs] at this; cases this
  | ok o =>
    cases o with
    | none =>
      have : ((d.branchState 1 s r 0).toOption.bind id).isSome = true := by decide +kernel
      rw [hs] at this; cases this
    | some s' =>
      refine ⟨d, s, s', r, demoBeams 1 (-9), ⟨1, [(0, demoState 0 (-9) none)]⟩, rfl,
        full_plain _ (by decide), by decide +kernel, hs, ?_⟩
      have : ((d.branchState 1 s r 0).toOption.bind id).map
          (fun s' => fitsAt (plainOps d.stateLt) 1 (demoBeams 1 (-9)) s' false) = some (.ok true) := by
        decide +kernel
      rw [hs] at this
      simpa [Except.toOption] using this

/-- C73 fails: the most probable chord is that of the state, its rejoin does not fit for the cost of
rejoining (-5), and the loop stops though the next chord would fit. -/
theorem C73_rejoin_fails : ∃ (d : SearchData Int Int Unit Unit) (s s1 s2 : State Int Unit Unit)
    (r : RangeData Int) (beams : List (Beam (Nat × State Int Unit Unit))),
    d.branchIds 1 s.node.chord r = .ok [0, 1] ∧
    d.branchState 1 s r 0 = .ok (some s1) ∧ fitsAt (plainOps d.stateLt) 1 beams s1 false = .ok false ∧
    d.branchState 1 s r 1 = .ok (some s2) ∧ fitsAt (plainOps d.stateLt) 1 beams s2 false = .ok true ∧
    d.quickExit (plainOps d.stateLt) 1 beams s r = .ok false ∧
    d.branchRange (plainOps d.stateLt) 1 beams (s, r) = .ok [] := by
  let d := demo none 2 [] [-1, -1] [0, -1]
  let s := demoState 0 (-2) none
  let r : RangeData Int := ⟨2, -1, -5, [-1, -1, -1], [0, 1, 2], 1⟩
  have key : ∀ c : Int, c = 0 ∨ c = 1 → ∃ t, d.branchState 1 s r c = .ok (some t) ∧
      fitsAt (plainOps d.stateLt) 1 (demoBeams 1 (-5)) t false = .ok (decide (c = 1)) := by
    intro c hc
    have : ((d.branchState 1 s r c).toOption.bind id).map
        (fun s' => fitsAt (plainOps d.stateLt) 1 (demoBeams 1 (-5)) s' false) =
          some (.ok (decide (c = 1))) := by
      rcases hc with rfl | rfl <;> decide +kernel
    cases hs : d.branchState 1 s r c with
    | error e => rw [hs] at this; cases this
    | ok o =>
      cases o with
      | none => rw [hs] at this; cases this
      | some t =>
        rw [hs] at this
        exact ⟨t, rfl, by simpa [Except.toOption] using this⟩
  obtain ⟨s1, h1, f1⟩ := key 0 (.inl rfl)
  obtain ⟨s2, h2, f2⟩ := key 1 (.inr rfl)
  exact ⟨d, s, s1, s2, r, demoBeams 1 (-5), by decide +kernel, h1, f1, h2, f2, by decide +kernel,
    by decide +kernel⟩

/-- A state in key 0 of which two keys are branched on: key 0 comes first, but is its own key. -/
example : ((demo none 2 [] [-1, -1] [-1, -1]).keyChanges (demoState 0 (-2) none)).toOption.map
    (fun l => l.map (·.node.key)) = some [1, 2] := by decide +kernel

example (out : List (State Int Unit Unit))
    (h : (demo none 2 [] [-1, -1] [-1, -1]).keyChanges (demoState 0 (-2) none) = .ok out) :
    out.length ≤ 2 :=
  (C71_keys _ _ _ _ [] rfl rfl rfl (by decide) out h).2.1

/-- The most probable chord is that of the state, so that one more is branched on. -/
example : (demo none 2 [] [-1, -1] [-1, -1]).branchIds 1 (some 2) ⟨2, -1, -1, [-1, -1, -1], [2, 1, 0], 1⟩ =
    .ok [2, 1] :=
  C71_chords _ _ _ _ rfl (by simp)

/-- A range that is skipped: its state has the log probability -3, the full beam holds one with -2. No new
chord fits there. -/
example : (demo none 2 [] [-1, -1] [-1, -1]).quickExit (plainOps (demo none 2 [] [-1, -1] [-1, -1]).stateLt) 1
      (demoBeams 1 (-2)) (demoState 0 (-3) none) ⟨2, -1, -1, [-1, -1, -1], [1], 1⟩ = .ok true ∧
    ∀ s', (demo none 2 [] [-1, -1] [-1, -1]).branchState 1 (demoState 0 (-3) none)
        ⟨2, -1, -1, [-1, -1, -1], [1], 1⟩ 1 = .ok (some s') →
      fitsAt (plainOps (demo none 2 [] [-1, -1] [-1, -1]).stateLt) 1 (demoBeams 1 (-2)) s' false = .ok false := by
  have hq : (demo none 2 [] [-1, -1] [-1, -1]).quickExit
      (plainOps (demo none 2 [] [-1, -1] [-1, -1]).stateLt) 1 (demoBeams 1 (-2)) (demoState 0 (-3) none)
      ⟨2, -1, -1, [-1, -1, -1], [1], 1⟩ = .ok true := by decide +kernel
  exact ⟨hq, fun s' h => C72_full_partial (fun _ _ => rfl) (fun _ _ => rfl) 1 (by decide) _ _ s' _ _ rfl
    (full_plain _ (by decide)) hq 1 (by decide) (-1) rfl (by decide) h⟩

/-- The state with chord 1 does not fit in the full beam, so that with chord 2 does not. -/
example (s1 s2 : State Int Unit Unit)
    (h1 : (demo none 2 [] [-1, -1] [-1, -1]).branchState 1 (demoState 0 (-3) none)
      ⟨2, -1, -1, [-1, -1, -2], [1, 2], 2⟩ 1 = .ok (some s1))
    (h2 : (demo none 2 [] [-1, -1] [-1, -1]).branchState 1 (demoState 0 (-3) none)
      ⟨2, -1, -1, [-1, -1, -2], [1, 2], 2⟩ 2 = .ok (some s2)) :
    fitsAt (plainOps (demo none 2 [] [-1, -1] [-1, -1]).stateLt) 1 (demoBeams 1 (-2)) s2 false = .ok false := by
  refine C73_plain_partial (fun _ _ => rfl) 1 (by decide) _ _ s1 s2 _ 1 2 (by decide) (by decide) (-1) (-2)
    rfl rfl (by decide) h1 h2 ?_
  have : (((demo none 2 [] [-1, -1] [-1, -1]).branchState 1 (demoState 0 (-3) none)
      ⟨2, -1, -1, [-1, -1, -2], [1, 2], 2⟩ 1).toOption.bind id).map
        (fun s' => fitsAt (plainOps (demo none 2 [] [-1, -1] [-1, -1]).stateLt) 1 (demoBeams 1 (-2)) s' false) =
      some (.ok false) := by decide +kernel
  rw [h1] at this
  simpa [Except.toOption] using this

/-- Both chords lead to states. -/
example : ∀ c ∈ [(1 : Int), 2], (((demo none 2 [] [-1, -1] [-1, -1]).branchState 1 (demoState 0 (-3) none)
    ⟨2, -1, -1, [-1, -1, -2], [1, 2], 2⟩ c).toOption.bind id).isSome = true := by decide +kernel

end Verif.SearchData
