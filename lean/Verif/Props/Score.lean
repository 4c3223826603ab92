import Verif.Props.Search
import Verif.Lemmas.SearchInv

/-!
# C130: the score of the result is the sum of the costs of its chords

Log probabilities are taken to be of a commutative group here (no rounding).
-/

namespace Verif.Score

open Verif State Verif.SearchData

section
variable {κ ρ H P : Type} [AddCommGroup κ]

/-- The cost of chord `c` on the range `r` from `a`: the log probability of the range, and that of the
chord on it, once for each of its inputs. -/
def RangeCost (d : SearchData κ ρ H P) (c : Int) (a : Nat) (r : RangeData κ) (x : κ) : Prop :=
  (a, r) ∈ d.ranges ∧ ∃ lp, pyGet r.priors c = .ok lp ∧ x = r.logProb + d.scale lp ((r.stop : Int) - a)

/-- `s` is the state of node `n` (after node `q` and those before it) when it was still in the key of
`q`. -/
structure Like (s : State κ H P) (n q : Node κ H P) (rest : List (Node κ H P)) : Prop where
  prev : s.prev = q :: rest
  chord : s.node.chord = n.chord
  stop : s.node.changeIndex = n.changeIndex
  key : s.node.key = q.key

/-- The KTM gave the probability `ps.1` of a change to a state of chord `c` up to `b`. -/
structure KtmProb (d : SearchData κ ρ H P) (q : Node κ H P) (rest : List (Node κ H P)) (c : Int) (b : Nat)
    (ps : ρ × State κ H P) : Prop where
  ran : ∃ s, s.prev = q :: rest ∧ d.runKtm s = .ok ps
  prev : ps.2.prev = q :: rest
  chord : ps.2.node.chord = some c
  stop : ps.2.node.changeIndex = b
  key : ps.2.node.key = q.key

/-- Chord `c` from node `q` up to `b`, in one range or in more, each but the first with its cost of
rejoining; `x` is the sum of the costs, and `l` the sum of the costs of key changes that were undone when
the chord went on in the next range, but not given back: those made where keeping the key was allowed
too. -/
inductive Segment (d : SearchData κ ρ H P) (q : Node κ H P) (rest : List (Node κ H P)) (c : Int) :
    Nat → κ → κ → Prop
  | one (r x) : RangeCost d c q.changeIndex r x → Segment d q rest c r.stop x 0
  | more (b r x l y) : Segment d q rest c b x l → RangeCost d c b r y →
      Segment d q rest c r.stop (x + (y + r.rejoinLogProb)) l
  | undone (b r x l y ps) : Segment d q rest c b x l → RangeCost d c b r y →
      KtmProb d q rest c b ps → d.keyOptions ps.1 ps.2 q = (true, true) →
      Segment d q rest c r.stop (x + (y + r.rejoinLogProb))
        (l + d.scale (d.logChange ps.1) ((b : Int) - q.changeIndex))

/-- The costs of the models for node `n`, `y` in all. -/
inductive ModelCost (d : SearchData κ ρ H P) (n q : Node κ H P) (rest : List (Node κ H P)) (c : Int) :
    κ → Prop
  /-- In the same key: the CSM, and the KTM (keep) if changing was not allowed. -/
  | kept (s ps cost) (b : Bool) : n.key = q.key → Like s n q rest → d.csmCost s = .ok cost →
      KtmProb d q rest c n.changeIndex ps → d.keyOptions ps.1 ps.2 q = (b, true) →
      n.csm = some cost → n.ksm = none →
      n.ktm = (if b then none else
        some (d.scale (d.logNoChange ps.1) ((n.changeIndex : Int) - q.changeIndex))) →
      ModelCost d n q rest c (cost + (if b then 0 else
        d.scale (d.logNoChange ps.1) ((n.changeIndex : Int) - q.changeIndex)))
  /-- In another key: the KSM, the KTM (change), and also the KTM (keep) if keeping was allowed. -/
  | changed (s ps o rel lp) (b : Bool) : n.key ≠ q.key → Like s n q rest → d.ksm s = .ok o →
      d.targetKey (setKsm s o) rel = .ok (some n.key) → pyGet o.priors rel = .ok lp →
      KtmProb d q rest c n.changeIndex ps → d.keyOptions ps.1 ps.2 q = (true, b) →
      n.csm = none → n.ksm = some (d.scale (d.ksmExponent lp) ((n.changeIndex : Int) - q.changeIndex)) →
      n.ktm = some (d.scale (if b then d.logNoChange ps.1 else d.logChange ps.1)
        ((n.changeIndex : Int) - q.changeIndex)) →
      ModelCost d n q rest c (d.scale (d.ksmExponent lp) ((n.changeIndex : Int) - q.changeIndex) +
        d.scale (d.logChange ps.1) ((n.changeIndex : Int) - q.changeIndex) +
        (if b then d.scale (d.logNoChange ps.1) ((n.changeIndex : Int) - q.changeIndex) else 0))

/-- The log probability of node `n` after node `q`. -/
def NodeScore (d : SearchData κ ρ H P) (n q : Node κ H P) (rest : List (Node κ H P)) : Prop :=
  ∃ c x l y, n.chord = some c ∧ Segment d q rest c n.changeIndex x l ∧ ModelCost d n q rest c y ∧
    n.logProb = q.logProb + x + l + y

/-- A chain of nodes, newest first. -/
def Scored (d : SearchData κ ρ H P) : List (Node κ H P) → Prop
  | n :: q :: rest => NodeScore d n q rest ∧ Scored d (q :: rest)
  | [n] => n.logProb = 0 ∧ n.chord = none
  | [] => True

variable {d : SearchData κ ρ H P}

omit [AddCommGroup κ] in
theorem Like.congr {s : State κ H P} {n n' q : Node κ H P} {rest : List (Node κ H P)} (h : Like s n q rest)
    (h1 : n'.chord = n.chord) (h3 : n'.changeIndex = n.changeIndex) : Like s n' q rest :=
  ⟨h.prev, by rw [h1]; exact h.chord, by rw [h3]; exact h.stop, h.key⟩

theorem ModelCost.congr {n n' q : Node κ H P} {rest : List (Node κ H P)} {c : Int} {y : κ}
    (h : ModelCost d n q rest c y) (h1 : n'.chord = n.chord) (h2 : n'.key = n.key)
    (h3 : n'.changeIndex = n.changeIndex) (h4 : n'.csm = n.csm) (h5 : n'.ksm = n.ksm)
    (h6 : n'.ktm = n.ktm) : ModelCost d n' q rest c y := by
  cases h with
  | kept s ps cost b a1 a2 a3 a4 a5 a6 a7 a8 =>
    have := ModelCost.kept (d := d) (n := n') (c := c) s ps cost b (h2.trans a1) (a2.congr h1 h3) a3
      (by rw [h3]; exact a4) a5 (h4.trans a6) (h5.trans a7) (by rw [h3]; exact h6.trans a8)
    rwa [h3] at this
  | changed s ps o rel lp b a1 a2 a3 a4 a5 a6 a7 a8 a9 a10 =>
    have := ModelCost.changed (d := d) (n := n') (c := c) s ps o rel lp b (by rw [h2]; exact a1)
      (a2.congr h1 h3) a3 (by rw [h2]; exact a4) a5 (by rw [h3]; exact a6) a7 (h4.trans a8)
      (by rw [h3]; exact h5.trans a9) (by rw [h3]; exact h6.trans a10)
    rwa [h3] at this

theorem Scored.congr {n n' : Node κ H P} {rest : List (Node κ H P)} (h : Scored d (n :: rest))
    (h1 : n'.chord = n.chord) (h2 : n'.key = n.key) (h3 : n'.changeIndex = n.changeIndex)
    (h4 : n'.csm = n.csm) (h5 : n'.ksm = n.ksm) (h6 : n'.ktm = n.ktm) (h7 : n'.logProb = n.logProb) :
    Scored d (n' :: rest) := by
  cases rest with
  | nil => exact ⟨h7.trans h.1, h1.trans h.2⟩
  | cons q rest =>
    obtain ⟨⟨c, x, l, y, a1, a2, a3, a4⟩, hs⟩ := h
    exact ⟨⟨c, x, l, y, h1.trans a1, by rw [h3]; exact a2, a3.congr h1 h2 h3 h4 h5 h6, h7.trans a4⟩, hs⟩

/-- The charges that are recorded, and given back by rejoining. -/
theorem ModelCost.recorded {n q : Node κ H P} {rest : List (Node κ H P)} {c : Int} {y : κ}
    (h : ModelCost d n q rest c y) : y = modelAdjustment n ∨
      ∃ ps, KtmProb d q rest c n.changeIndex ps ∧ d.keyOptions ps.1 ps.2 q = (true, true) ∧
        y = modelAdjustment n + d.scale (d.logChange ps.1) ((n.changeIndex : Int) - q.changeIndex) := by
  rw [modelAdjustment_eq]
  cases h with
  | kept s ps cost b a1 a2 a3 a4 a5 a6 a7 a8 =>
    left
    rw [a6, a7, a8]
    cases b <;> simp
  | changed s ps o rel lp b a1 a2 a3 a4 a5 a6 a7 a8 a9 a10 =>
    rw [a8, a9, a10]
    cases b with
    | false => left; simp
    | true =>
      right
      refine ⟨ps, a6, a7, ?_⟩
      simp only [Option.getD_none, Option.getD_some, if_true]
      abel

/-- A new node, not charged by any model. -/
def NewNode (d : SearchData κ ρ H P) (s : State κ H P) (q : Node κ H P) (rest : List (Node κ H P))
    (c : Int) (x l : κ) : Prop :=
  s.prev = q :: rest ∧ Scored d (q :: rest) ∧ s.node.chord = some c ∧ s.node.key = q.key ∧
    Segment d q rest c s.node.changeIndex x l ∧ s.node.logProb = q.logProb + x + l ∧
    s.node.csm = none ∧ s.node.ksm = none ∧ s.node.ktm = none

/-- A node charged for the change of key or for keeping it, by `y`. -/
def Choice (d : SearchData κ ρ H P) (s : State κ H P) (q : Node κ H P) (rest : List (Node κ H P))
    (c : Int) (x l y : κ) (ps : ρ × State κ H P) : Prop :=
  s.prev = q :: rest ∧ Scored d (q :: rest) ∧ s.node.chord = some c ∧ s.node.key = q.key ∧
    Segment d q rest c s.node.changeIndex x l ∧ s.node.logProb = q.logProb + x + l + y ∧
    s.node.csm = none ∧ s.node.ksm = none ∧ KtmProb d q rest c s.node.changeIndex ps

/-- The search keeps the scores. -/
def scores (d : SearchData κ ρ H P) : PhaseInv d where
  beam s := Scored d (s.node :: s.prev)
  ran s := Scored d (s.node :: s.prev)
  cand s := ∃ q rest c x l, NewNode d s q rest c x l
  tried ps := ∃ q rest c x l, NewNode d ps.2 q rest c x l ∧
    KtmProb d q rest c ps.2.node.changeIndex ps
  changing s := ∃ q rest c x l y ps, Choice d s q rest c x l y ps ∧ ∃ b : Bool,
    d.keyOptions ps.1 ps.2 q = (true, b) ∧
    s.node.ktm = some (d.scale (if b then d.logNoChange ps.1 else d.logChange ps.1)
      ((s.node.changeIndex : Int) - q.changeIndex)) ∧
    y = d.scale (d.logChange ps.1) ((s.node.changeIndex : Int) - q.changeIndex) +
      (if b then d.scale (d.logNoChange ps.1) ((s.node.changeIndex : Int) - q.changeIndex) else 0)
  keeping s := ∃ q rest c x l y ps, Choice d s q rest c x l y ps ∧ ∃ b : Bool,
    d.keyOptions ps.1 ps.2 q = (b, true) ∧
    s.node.ktm = (if b then none else
        some (d.scale (d.logNoChange ps.1) ((s.node.changeIndex : Int) - q.changeIndex))) ∧
    y = (if b then 0 else d.scale (d.logNoChange ps.1) ((s.node.changeIndex : Int) - q.changeIndex))
  moved s := Scored d (s.node :: s.prev)
  init key tonic mode h _ _ _ := ⟨rfl, rfl⟩
  first s _ _ h := h
  csm s t _ _ h ht := by
    simp only [runCsm] at ht
    obtain ⟨ph, _, rfl⟩ := map_ok ht
    exact h.congr rfl rfl rfl rfl rfl rfl rfl
  chord s t c r lp hs h hm hlp hc ht _ := by
    obtain ⟨root, ct, inv, bass, k, h1, h2, h3, h4, h5, rfl⟩ := chordTransition_some ht
    refine ⟨{ s.node with keyObj := some k }, s.prev, c, _, 0, rfl, h.congr rfl rfl rfl rfl rfl rfl rfl,
      rfl, rfl, .one r _ ⟨hm, lp, hlp, rfl⟩, ?_, rfl, rfl, rfl⟩
    simp only [add_zero]
  rejoin s t c r lp hs h hm hlp hc ht _ := by
    obtain ⟨c', root, ct, inv, bass, tonic, mode, p, ps, hcc, h1, h2, hp, h3, rfl⟩ := rejoin_ok ht
    rw [hp] at h
    obtain ⟨⟨c'', x, l, y, a1, a2, a3, a4⟩, hrest⟩ := h
    have hcc' : c'' = c := by
      rw [a1] at hc
      injection hc with hc
      exact hc.symm
    subst hcc'
    have hr : RangeCost d c'' s.node.changeIndex r
        (r.logProb + d.scale lp ((r.stop : Int) - s.node.changeIndex)) := ⟨hm, lp, hlp, rfl⟩
    rcases a3.recorded with hy | ⟨ps', b1, b2, hy⟩
    · refine ⟨p, ps, c'', _, l, hp, hrest, a1, rfl, .more _ r x l _ a2 hr, ?_, rfl, rfl, rfl⟩
      simp only [a4, hy]
      abel
    · refine ⟨p, ps, c'', _, _, hp, hrest, a1, rfl, .undone _ r x l _ ps' a2 hr b1 b2, ?_, rfl, rfl, rfl⟩
      simp only [a4, hy]
      abel
  ktm s ps hs h ht := by
    obtain ⟨q, rest, c, x, l, b1, b2, b3, b4, b5, b6, b7, b8, b9⟩ := h
    have ht' := ht
    simp only [runKtm] at ht
    obtain ⟨ph, hph, rfl⟩ := map_ok ht
    exact ⟨q, rest, c, x, l, ⟨b1, b2, b3, b4, b5, b6, b7, b8, b9⟩, ⟨s, b1, ht'⟩, b1, b3, rfl, b4⟩
  branch ps q rest hs h hq := by
    obtain ⟨q', rest', c, x, l, ⟨b1, b2, b3, b4, b5, b6, b7, b8, b9⟩, hp⟩ := h
    rw [hq] at b1
    injection b1 with e1 e2
    subst e1; subst e2
    generalize ho : d.keyOptions ps.1 ps.2 q = o
    obtain ⟨o1, o2⟩ := o
    constructor
    · intro t ht
      cases o1 <;> cases o2 <;> simp only [chargeKey, Option.some.injEq] at ht
      · cases ht
      · cases ht
      · subst ht
        refine ⟨q, rest, c, x, l, _, ps, ⟨hq, b2, b3, b4, b5, ?_, b7, b8, hp⟩, false, ho, rfl, rfl⟩
        simp [addKtm, b6]
      · subst ht
        refine ⟨q, rest, c, x, l, _, ps, ⟨hq, b2, b3, b4, b5, ?_, rfl, rfl, hp⟩,
          true, ho, rfl, rfl⟩
        simp only [addKtm, State.copy, b6, if_true]
        abel
    · intro t ht
      cases o1 <;> cases o2 <;> simp only [chargeKey, Option.some.injEq] at ht
      · cases ht
      · subst ht
        refine ⟨q, rest, c, x, l, _, ps, ⟨hq, b2, b3, b4, b5, ?_, b7, b8, hp⟩, false, ho, rfl, rfl⟩
        simp [addKtm, b6]
      · cases ht
      · subst ht
        exact ⟨q, rest, c, x, l, 0, ps, ⟨hq, b2, b3, b4, b5, by rw [b6, add_zero], b7, b8, hp⟩,
          true, ho, b9, rfl⟩
  keep s cost hs h hcost := by
    obtain ⟨q, rest, c, x, l, y, ps, ⟨b1, b2, b3, b4, b5, b6, b7, b8, hp⟩, b, ho, hk, rfl⟩ := h
    show Scored d ((s.addCsm cost).node :: s.prev)
    rw [b1]
    refine ⟨⟨c, x, l, _, b3, b5, .kept s ps cost b b4 ⟨b1, rfl, rfl, b4⟩ hcost hp ho rfl b8 hk, ?_⟩, b2⟩
    simp only [addCsm, b6]
    abel
  key s t o q rest rel key lp hs h hks hq htar hne hlp ht _ := by
    obtain ⟨q', rest', c, x, l, y, ps, ⟨b1, b2, b3, b4, b5, b6, b7, b8, hp⟩, b, ho, hk, rfl⟩ := h
    rw [hq] at b1
    injection b1 with e1 e2
    subst e1; subst e2
    obtain ⟨c', root, ct, inv, bass, tonic, mode, p, ps', hcc, h1, h2, h3, h4, h5, hpp, rfl⟩ :=
      keyTransition_some ht
    have hpp' : (setKsm s o).prev = q :: rest := hq
    rw [hpp']
    refine ⟨⟨c, x, l, _, b3, b5, .changed s ps o rel lp b (by rw [← b4]; exact hne) ⟨hq, rfl, rfl, b4⟩ hks
      htar hlp hp ho b7 rfl hk, ?_⟩, b2⟩
    simp only [setKsm, b6]
    abel
  hidden s t hs h ht := by
    simp only [runHidden, Bind.bind] at ht
    obtain ⟨ps, hps, ht⟩ := bind_ok ht
    obtain ⟨o, _, ht⟩ := bind_ok ht
    simp only [runKtm] at hps
    obtain ⟨ph, _, rfl⟩ := map_ok hps
    injection ht with ht
    subst ht
    exact h.congr rfl rfl rfl rfl rfl rfl rfl

theorem scored_drop {chain : List (Node κ H P)} (h : Scored d chain) (k : Nat) :
    Scored d (chain.drop k) := by
  induction k generalizing chain with
  | zero => exact h
  | succ k ih =>
    cases chain with
    | nil => simpa using h
    | cons n chain =>
      rw [List.drop_succ_cons]
      refine ih ?_
      cases chain with
      | nil => trivial
      | cons q rest => exact h.2

theorem scored_parts (n : Node κ H P) (rest : List (Node κ H P)) (h : Scored d (n :: rest)) :
    ∃ parts : List (κ × κ × κ), parts.length = rest.length ∧
      n.logProb = (parts.map fun p => p.1 + p.2.1 + p.2.2).sum ∧
      ∀ (k : Nat) m q rest', (n :: rest).drop k = m :: q :: rest' → ∃ c x l y,
        parts[k]? = some (x, l, y) ∧ m.chord = some c ∧ Segment d q rest' c m.changeIndex x l ∧
        ModelCost d m q rest' c y := by
  induction rest generalizing n with
  | nil =>
    refine ⟨[], rfl, h.1, fun k m q rest' hk => ?_⟩
    have := congrArg List.length hk
    simp at this
    omega
  | cons q rest ih =>
    obtain ⟨⟨c, x, l, y, a1, a2, a3, a4⟩, hs⟩ := h
    obtain ⟨parts, p1, p2, p3⟩ := ih q hs
    refine ⟨(x, l, y) :: parts, by simp [p1], ?_, fun k m q' rest' hk => ?_⟩
    · rw [a4, p2]
      simp only [List.map_cons, List.sum_cons]
      abel
    · cases k with
      | zero =>
        simp only [List.drop_zero, List.cons.injEq] at hk
        obtain ⟨rfl, rfl, rfl⟩ := hk
        exact ⟨c, x, l, y, rfl, a1, a2, a3⟩
      | succ k =>
        rw [List.drop_succ_cons] at hk
        obtain ⟨c, x, l, y, b1, b2⟩ := p3 k m q' rest' hk
        exact ⟨c, x, l, y, by simpa using b1, b2⟩

variable [DecidableEq κ] [DecidableEq H] [DecidableEq P]

/-- C130: the log probability of the returned state is the sum over its chords of the costs of its
ranges, of what was left behind by undone key changes, and of the costs of the models. -/
theorem C130_sum (hd : OK d) (s : State κ H P) (h : d.search = .ok (some s)) :
    ∃ parts : List (κ × κ × κ), parts.length = s.prev.length ∧
      s.node.logProb = (parts.map fun p => p.1 + p.2.1 + p.2.2).sum ∧
      ∀ (k : Nat) n q rest, (s.node :: s.prev).drop k = n :: q :: rest → ∃ c x l y,
        parts[k]? = some (x, l, y) ∧ n.chord = some c ∧ Segment d q rest c n.changeIndex x l ∧
        ModelCost d n q rest c y :=
  scored_parts _ _ (search_inv (scores d) hd h)

omit [DecidableEq κ] [DecidableEq H] [DecidableEq P] in
theorem segment_left {q : Node κ H P} {rest : List (Node κ H P)} {c : Int} {b : Nat} {x l : κ}
    (hb : ∀ (s : State κ H P) ps q rest, s.prev = q :: rest → d.runKtm s = .ok ps →
      d.keyOptions ps.1 ps.2 q ≠ (true, true))
    (h : Segment d q rest c b x l) : l = 0 := by
  induction h with
  | one => rfl
  | more _ _ _ _ _ _ _ ih => exact ih
  | undone b r x l y ps _ _ hp ho _ =>
    obtain ⟨⟨s, hs, hr⟩, -⟩ := hp
    exact absurd ho (hb s ps q rest hs hr)

/-- C130 (partial): where the KTM never leaves the choice between changing and keeping the key, the log
probability of the returned state is the sum over its chords of the costs of its ranges and, for a chord
in the key of the one before, those of the CSM and of keeping the key, for one in a new key, those of the
KSM and of changing the key. What is missing, that this holds where there is a choice, is false
(`C130_choice_fails`). -/
theorem C130_exact_partial (hd : OK d)
    (hb : ∀ (s : State κ H P) ps q rest, s.prev = q :: rest → d.runKtm s = .ok ps →
      d.keyOptions ps.1 ps.2 q ≠ (true, true))
    (s : State κ H P) (h : d.search = .ok (some s)) :
    ∃ parts : List (κ × κ), parts.length = s.prev.length ∧
      s.node.logProb = (parts.map fun p => p.1 + p.2).sum ∧
      ∀ (k : Nat) n q rest, (s.node :: s.prev).drop k = n :: q :: rest → ∃ c x y s' ps,
        parts[k]? = some (x, y) ∧ n.chord = some c ∧ Segment d q rest c n.changeIndex x 0 ∧
        Like s' n q rest ∧ KtmProb d q rest c n.changeIndex ps ∧
        (n.key = q.key → ∃ cost, d.csmCost s' = .ok cost ∧
          y = cost + d.scale (d.logNoChange ps.1) ((n.changeIndex : Int) - q.changeIndex)) ∧
        (n.key ≠ q.key → ∃ o rel lp, d.ksm s' = .ok o ∧
          d.targetKey (setKsm s' o) rel = .ok (some n.key) ∧ pyGet o.priors rel = .ok lp ∧
          y = d.scale (d.ksmExponent lp) ((n.changeIndex : Int) - q.changeIndex) +
            d.scale (d.logChange ps.1) ((n.changeIndex : Int) - q.changeIndex)) := by
  obtain ⟨parts, p1, p2, p3⟩ := C130_sum hd s h
  have hz : ∀ p ∈ parts, p.2.1 = 0 := by
    intro p hp
    obtain ⟨k, hk⟩ := List.mem_iff_getElem?.mp hp
    have hlt : k < s.prev.length := by
      rw [← p1]
      exact (List.getElem?_eq_some_iff.mp hk).1
    have hd2 : ∃ n q rest, (s.node :: s.prev).drop k = n :: q :: rest := by
      cases hdr : (s.node :: s.prev).drop k with
      | nil => have := congrArg List.length hdr; simp at this; omega
      | cons n l =>
        cases l with
        | nil => have := congrArg List.length hdr; simp at this; omega
        | cons q rest => exact ⟨n, q, rest, rfl⟩
    obtain ⟨n, q, rest, hdr⟩ := hd2
    obtain ⟨c, x, l, y, a1, a2, a3, a4⟩ := p3 k n q rest hdr
    rw [hk] at a1
    injection a1 with a1
    subst a1
    exact segment_left hb a3
  refine ⟨parts.map fun p => (p.1, p.2.2), by simp [p1], ?_, fun k n q rest hk => ?_⟩
  · rw [p2, List.map_map]
    congr 1
    apply List.map_congr_left
    intro p hp
    simp [hz p hp]
  · obtain ⟨c, x, l, y, a1, a2, a3, a4⟩ := p3 k n q rest hk
    have hl := segment_left hb a3
    subst hl
    cases a4 with
    | kept s' ps cost b e1 e2 e3 e4 e5 e6 e7 e8 =>
      have hbf : b = false := by
        cases b with
        | false => rfl
        | true =>
          obtain ⟨⟨s0, hs0, hr⟩, -⟩ := e4
          exact absurd e5 (hb s0 ps q rest hs0 hr)
      subst hbf
      refine ⟨c, x, _, s', ps, by rw [List.getElem?_map, a1]; rfl, a2, a3, e2, e4, fun _ => ?_,
        fun hne => absurd e1 hne⟩
      exact ⟨cost, e3, rfl⟩
    | changed s' ps o rel lp b e1 e2 e3 e4 e5 e6 e7 e8 e9 e10 =>
      have hbf : b = false := by
        cases b with
        | false => rfl
        | true =>
          obtain ⟨⟨s0, hs0, hr⟩, -⟩ := e6
          exact absurd e7 (hb s0 ps q rest hs0 hr)
      subst hbf
      refine ⟨c, x, _, s', ps, by rw [List.getElem?_map, a1]; rfl, a2, a3, e2, e6, fun he => absurd he e1,
        fun _ => ?_⟩
      exact ⟨o, rel, lp, e3, e4, e5, by simp⟩

end

/-! ## Concrete searches -/

/-- The small instance of C47 with a given beam size, thresholds, and a CSM to which a chord that ends
after the second input is unlikely. -/
def scoreDemo (beam : Nat) (low high : Int) (n : Nat) (ranges : List (Nat × RangeData Int)) :
    SearchData Int Int Unit Unit :=
  { demo none n ranges (List.replicate n (-1)) (0 :: List.replicate (n - 1) (-1)) with
    beamSize := beam
    minChange := low
    maxNoChange := high
    logChange := fun _ => -3
    csmCost := fun s => .ok (if s.node.changeIndex = 2 then -10 else -1) }

/-- Chord 0 on the first input, chord 1 on the second, and the same again on the third. -/
def scoreRanges : List (Nat × RangeData Int) :=
  [(0, ⟨1, -1, -1, [-1, -1, -1], [0], 1⟩), (1, ⟨2, -1, -1, [-1, -1, -1], [1], 1⟩),
   (2, ⟨3, -1, -3, [-1, -1, -1], [1], 1⟩)]

theorem scoreDemo_ok (beam : Nat) (low high : Int) : OK (scoreDemo beam low high 3 scoreRanges) :=
  ⟨by simp [scoreDemo, demo, scoreRanges], by simp [scoreDemo, demo], pickMin_mem⟩

/-- The search of `scoreDemo` has a result. -/
theorem result_of {d : SearchData Int Int Unit Unit} {α : Type} {f : State Int Unit Unit → α} {a : α}
    (h : (d.search.toOption.bind id).map f = some a) : ∃ s, d.search = .ok (some s) ∧ f s = a := by
  cases hs : d.search with
  | error e => rw [hs] at h; cases h
  | ok o =>
    cases o with
    | none => rw [hs] at h; cases h
    | some s =>
      rw [hs] at h
      simp only [Except.toOption, Option.bind_some, id_eq, Option.map_some, Option.some.injEq] at h
      exact ⟨s, rfl, h⟩

/-- C130 fails where there is a choice: chord 0 costs -4 (range -2, CSM -1, keeping the key -1), and
chord 1, in two ranges, -2 - 5 (with -3 for rejoining), -1 for the CSM, and -2 for keeping the key, in all
-14. With a beam of ten states the result has -12, since keeping the key is not charged; with a beam of
one state, the result has the same chords and keys, but -15, since in the one state left after the second
input the key was changed (at -3), which was undone with the rejoining but not given back. -/
theorem C130_choice_fails : ∃ (d : SearchData Int Int Unit Unit) (s s' : State Int Unit Unit),
    OK d ∧ d.search = .ok (some s) ∧ ({ d with beamSize := 1 } : SearchData _ _ _ _).search = .ok (some s') ∧
    getChords s = ([some 0, some 1], [0, 1, 3]) ∧ getChords s' = getChords s ∧
    chordKeys s = [0, 0] ∧ chordKeys s' = chordKeys s ∧
    s.prev.map (·.logProb) = [-4, 0] ∧ s'.prev.map (·.logProb) = [-4, 0] ∧
    s.node.logProb = -12 ∧ s'.node.logProb = -15 := by
  have h1 : ((scoreDemo 10 3 7 3 scoreRanges).search.toOption.bind id).map
      (fun s => (getChords s, chordKeys s, s.prev.map (·.logProb), s.node.logProb)) =
      some (([some 0, some 1], [0, 1, 3]), [0, 0], [-4, 0], -12) := by decide +kernel
  have h2 : ((scoreDemo 1 3 7 3 scoreRanges).search.toOption.bind id).map
      (fun s => (getChords s, chordKeys s, s.prev.map (·.logProb), s.node.logProb)) =
      some (([some 0, some 1], [0, 1, 3]), [0, 0], [-4, 0], -15) := by decide +kernel
  obtain ⟨s, hs, e⟩ := result_of h1
  obtain ⟨s', hs', e'⟩ := result_of h2
  simp only [Prod.mk.injEq] at e e'
  obtain ⟨e1, e2, e3, e4⟩ := e
  obtain ⟨f1, f2, f3, f4⟩ := e'
  exact ⟨scoreDemo 10 3 7 3 scoreRanges, s, s', scoreDemo_ok 10 3 7, hs, hs', e1, f1.trans e1.symm, e2, f2.trans e2.symm, e3, f3, e4, f4⟩

/-- There is no choice if every probability of a change up to `high` is below `low`. -/
theorem noChoice (beam : Nat) : ∀ (s : State Int Unit Unit) ps q rest, s.prev = q :: rest →
    (scoreDemo beam 3 4 3 scoreRanges).runKtm s = .ok ps →
    (scoreDemo beam 3 4 3 scoreRanges).keyOptions ps.1 ps.2 q ≠ (true, true) := by
  intro s ps q rest _ h
  simp only [runKtm] at h
  obtain ⟨ph, hph, rfl⟩ := map_ok h
  injection hph with hph
  subst hph
  simp only [keyOptions]
  split
  · split <;> simp
  · split <;> simp [scoreDemo, demo]

/-- A search without a choice: the second chord changes the key, and is charged for that only: -2 - 5 for
its ranges, -1 for each of its two inputs by the KSM, and -3 for each of them by the KTM. -/
example : ∃ s, (scoreDemo 10 3 4 3 scoreRanges).search = .ok (some s) ∧ s.prev.length = 2 ∧
    s.node.logProb = -4 + (-2 - 5) + (-2 - 6) ∧ s.node.key = 1 ∧
    ∃ parts : List (Int × Int), parts.length = 2 ∧ s.node.logProb = (parts.map fun p => p.1 + p.2).sum := by
  have h1 : ((scoreDemo 10 3 4 3 scoreRanges).search.toOption.bind id).map
      (fun s => (s.prev.length, s.node.logProb, s.node.key)) = some (2, -19, 1) := by decide +kernel
  obtain ⟨s, hs, e⟩ := result_of h1
  simp only [Prod.mk.injEq] at e
  obtain ⟨e1, e2, e3⟩ := e
  obtain ⟨parts, p1, p2, -⟩ := C130_exact_partial (scoreDemo_ok 10 3 4) (noChoice 10) s hs
  exact ⟨s, hs, e1, e2, e3, parts, p1.trans e1, p2⟩

end Verif.Score
