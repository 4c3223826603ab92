import Verif.Props.Choices

/-!
# C170: a sure chord transition model and a classifier with one choice leave nothing to search

If the chord transition model is sure at each onset and the search is to branch on one chord, the chords of a
possible analysis are those of a plain pipeline: cut the piece where the model says, and label each segment with
the likeliest class of its notes, or the second likeliest if the likeliest is the chord before. The other models,
the keys and the beams have no say in it.
-/

set_option linter.unusedSectionVars false

namespace Verif.Pipeline
open Verif State Forced SearchData Joint Classify Choices

section
variable {π κ δ ρ H P τ : Type} [LinearOrder π] [Zero π] [One π] [Add κ] [Sub κ] [Zero κ] [DecidableEq κ]
  [DecidableEq H] [DecidableEq P] [AddCommMonoid δ] [LinearOrder δ] [LE τ] [LT τ] [DecidableLE τ]
  [DecidableLT τ]

/-- The classes for the notes from `a` up to `b`, likeliest first. -/
def classes (m : Joint π κ δ ρ H P) (notes : List (τ × τ)) (a b : Nat) : List Int :=
  match notes[a]? with
  | some note => m.argsort (m.ccm (rangeStart note.1 notes, b) a)
  | none => []

/-- The likeliest class that is not the chord before, of the first two. -/
def label (m : Joint π κ δ ρ H P) (notes : List (τ × τ)) (prev : Option Int) (a b : Nat) : Option Int :=
  if (classes m notes a b)[0]? = prev then (classes m notes a b)[1]? else (classes m notes a b)[0]?

/-- The labels of the segments between the given cuts, after chord `prev`. -/
def labels (m : Joint π κ δ ρ H P) (notes : List (τ × τ)) : Option Int → List Nat → List (Option Int)
  | prev, a :: b :: rest => label m notes prev a b :: labels m notes (label m notes prev a b) (b :: rest)
  | _, _ => []

/-- Where the piece is cut: at its first note, at each onset for which the model says so, and at the end. -/
def cuts (m : Joint π κ δ ρ H P) (dur : List δ) : List Nat :=
  0 :: (List.range dur.length).filter (fun i => decide (0 < i ∧ dur[i - 1]? ≠ some 0 ∧ m.minChange ≤ m.ctm i)) ++
    [dur.length]

theorem labels_snoc (m : Joint π κ δ ρ H P) (notes : List (τ × τ)) (cs : List Nat) (prev last : Option Int) (a b : Nat)
    (hl : (prev :: labels m notes prev (cs ++ [a])).getLast? = some last) :
    labels m notes prev (cs ++ [a, b]) = labels m notes prev (cs ++ [a]) ++ [label m notes last a b] := by
  induction cs generalizing prev with
  | nil =>
    simp only [List.nil_append, labels, List.getLast?_singleton, Option.some.injEq] at hl
    subst hl
    simp [labels]
  | cons x cs ih =>
    cases cs with
    | nil =>
      simp only [List.cons_append, List.nil_append, labels] at hl ⊢
      simp at hl
      rw [hl]
    | cons y cs =>
      simp only [List.cons_append, labels] at hl ⊢
      rw [List.getLast?_cons_cons] at hl
      have := ih (label m notes prev x y) hl
      simp only [List.cons_append] at this
      rw [this]

/-- The links of a chain of nodes. -/
def Linked (m : Joint π κ δ ρ H P) (notes : List (τ × τ)) : List (Node κ H P) → Prop
  | n :: q :: rest => n.chord = label m notes q.chord q.changeIndex n.changeIndex ∧ Linked m notes (q :: rest)
  | [n] => n.chord = none
  | [] => True

theorem aux_getLast (ps : List (Node κ H P)) (n : Node κ H P) :
    (getChordsAux n ps).2.getLast? = some n.changeIndex := by
  cases ps <;> simp [getChordsAux]

theorem linked_labels (m : Joint π κ δ ρ H P) (notes : List (τ × τ)) (ps : List (Node κ H P)) (n : Node κ H P)
    (h : Linked m notes (n :: ps)) :
    (getChordsAux n ps).1 = labels m notes none (getChordsAux n ps).2 ∧
      (none :: (getChordsAux n ps).1).getLast? = some n.chord := by
  induction ps generalizing n with
  | nil =>
    refine ⟨rfl, ?_⟩
    have h : n.chord = none := h
    rw [h]
    rfl
  | cons q ps ih =>
    obtain ⟨h1, h2⟩ := h
    obtain ⟨i1, i2⟩ := ih q h2
    have e : getChordsAux n (q :: ps) =
        ((getChordsAux q ps).1 ++ [n.chord], (getChordsAux q ps).2 ++ [n.changeIndex]) := rfl
    rw [e]
    refine ⟨?_, by rw [← List.cons_append, List.getLast?_append]; simp⟩
    obtain ⟨cs, hcs⟩ : ∃ cs, (getChordsAux q ps).2 = cs ++ [q.changeIndex] :=
      ⟨_, (List.dropLast_append_getLast? _ (aux_getLast ps q)).symm⟩
    simp only
    rw [i1] at i2 ⊢
    rw [hcs] at i2 ⊢
    have := labels_snoc m notes cs none q.chord q.changeIndex n.changeIndex i2
    rw [List.append_assoc]
    simp only [List.cons_append, List.nil_append]
    rw [this, h1]

theorem aux_mem (ps : List (Node κ H P)) (n : Node κ H P) (x : Nat) :
    x ∈ (getChordsAux n ps).2 ↔ ∃ p ∈ n :: ps, p.changeIndex = x := by
  induction ps generalizing n with
  | nil => simp [getChordsAux, eq_comm]
  | cons q ps ih =>
    have e : (getChordsAux n (q :: ps)).2 = (getChordsAux q ps).2 ++ [n.changeIndex] := rfl
    rw [e, List.mem_append, ih q]
    constructor
    · rintro (⟨p, hp, h⟩ | h)
      · exact ⟨p, List.mem_cons_of_mem _ hp, h⟩
      · exact ⟨n, by simp, (List.mem_singleton.1 h).symm⟩
    · rintro ⟨p, hp, h⟩
      rcases List.mem_cons.1 hp with rfl | hp
      · exact .inr (List.mem_singleton.2 h.symm)
      · exact .inl ⟨p, hp, h⟩

variable {d : SearchData κ ρ H P}

/-- The nodes of a chain are at most as late as the newest. -/
theorem segs_le (ps : List (Node κ H P)) (n : Node κ H P) (h : Segs d (n :: ps)) :
    ∀ p ∈ n :: ps, p.changeIndex ≤ n.changeIndex := by
  induction ps generalizing n with
  | nil => simp
  | cons q ps ih =>
    obtain ⟨⟨⟨c, -, -, h1, -⟩, -⟩, h2⟩ := h
    intro p hp
    rcases List.mem_cons.1 hp with rfl | hp
    · exact Nat.le_refl _
    · have := ih q h2 p hp
      omega

theorem picked_last {prev : Option Int} {c : Int} {a b : Nat} (h : Picked d prev c a b) :
    ∃ x r, (x, r) ∈ d.ranges ∧ r.stop = b := by
  cases h with
  | one h => exact ⟨_, _, h.1, rfl⟩
  | more _ h => exact ⟨_, _, h.1, rfl⟩

theorem picked_lt (hd : OK d) {prev : Option Int} {c : Int} {a b : Nat} (h : Picked d prev c a b) : a < b := by
  induction h with
  | one h => exact hd.forward _ h.1
  | more _ h ih => exact Nat.lt_trans ih (hd.forward _ h.1)

/-- Where no range ends between neighbouring nodes, each chord is linked to the one before. -/
theorem linked_of_picks {m : Joint π κ δ ρ H P} (hm : m.WF) {notes : List (τ × τ)} {dur : List δ}
    {chord key : ForcedType} {res : Option (State κ H P)} {rows : List (Nat × RangeData κ)} {cids kids : List Int}
    (hr : Run m notes.length dur chord key res rows cids kids)
    (hcl : ∀ a r, (a, r) ∈ rows → Classified m notes a r) (hlab : chord.labels = [])
    (hone : ∀ priors, m.branch priors = 1) (ps : List (Node κ H P)) (n : Node κ H P)
    (hp : Picks (m.searchData notes.length rows cids kids) (n :: ps))
    (hs : Segs (m.searchData notes.length rows cids kids) (n :: ps))
    (hno : ∀ x r, (x, r) ∈ rows → r.stop < n.changeIndex → ∃ p ∈ ps, p.changeIndex = r.stop) :
    Linked m notes (n :: ps) := by
  induction ps generalizing n with
  | nil => exact hp
  | cons q ps ih =>
    obtain ⟨⟨c, hc, hpick⟩, hp'⟩ := hp
    obtain ⟨⟨⟨c0, a1, a2, a3, a4⟩, -⟩, hs'⟩ := hs
    refine ⟨?_, ih q hp' hs' ?_⟩
    · have hoff : Singled m notes chord q.chord c q.changeIndex n.changeIndex := by
        generalize hy : n.changeIndex = y at hpick
        cases hpick with
        | one ho => exact singled_of_offered hm hr hcl ho
        | @more b r hb ho =>
          exfalso
          obtain ⟨x, r', hmem, hstop⟩ := picked_last hb
          have h1 := picked_lt (hr.ok hm) hb
          have h2 := (hr.ok hm).forward _ ho.1
          simp only at h2
          obtain ⟨p, hpm, hpe⟩ := hno x r' hmem (by omega)
          have := segs_le ps q hs' p hpm
          omega
      rcases hoff with ⟨j, -, -, hj⟩ | ⟨-, priors, ⟨note, n1, n2⟩, p, p1, p2⟩
      · simp [labelAt, hlab] at hj
      · have hcls : classes m notes q.changeIndex n.changeIndex = m.argsort priors := by
          simp only [classes, n1]
          rw [n2]
        unfold label
        rw [hcls, hc]
        rw [hc] at a2
        rcases p2 with p2 | ⟨rfl, -, c', h1, h2⟩
        · rw [hone] at p2
          have : p = 0 := by omega
          subst this
          rw [if_neg (by rw [p1]; exact a2), p1]
        · rw [if_pos (by rw [h1, h2]), p1]
    · intro x r hmem hlt
      obtain ⟨p, hpm, hpe⟩ := hno x r hmem (by omega)
      rcases List.mem_cons.1 hpm with rfl | hpm
      · omega
      · exact ⟨p, hpm, hpe⟩

/-- Increasing lists with the same members are the same. -/
theorem sorted_ext {l l' : List Nat} (h : l.Pairwise (· < ·)) (h' : l'.Pairwise (· < ·)) (he : ∀ x, x ∈ l ↔ x ∈ l') :
    l = l' := by
  induction l generalizing l' with
  | nil =>
    cases l' with
    | nil => rfl
    | cons b l' => exact absurd ((he b).2 (by simp)) (by simp)
  | cons a l ih =>
    cases l' with
    | nil => exact absurd ((he a).1 (by simp)) (by simp)
    | cons b l' =>
      obtain ⟨ha, hl⟩ := List.pairwise_cons.1 h
      obtain ⟨hb, hl'⟩ := List.pairwise_cons.1 h'
      have hab : a = b := by
        rcases List.mem_cons.1 ((he a).1 (by simp)) with e | e
        · exact e
        · rcases List.mem_cons.1 ((he b).2 (by simp)) with e' | e'
          · exact e'.symm
          · have := ha b e'
            have := hb a e
            omega
      subst hab
      rw [ih hl hl' ?_]
      intro x
      constructor
      · intro hx
        have := ha x hx
        rcases List.mem_cons.1 ((he x).1 (List.mem_cons_of_mem _ hx)) with e | e
        · omega
        · exact e
      · intro hx
        have := hb x hx
        rcases List.mem_cons.1 ((he x).2 (List.mem_cons_of_mem _ hx)) with e | e
        · omega
        · exact e

/-- C170: with a chord transition model that is sure at each onset and one chord to branch on, without forced chords and
chord changes, the chords and changes of a possible analysis are those of the pipeline. -/
theorem C170_pipeline (m : Joint π κ δ ρ H P) (hm : m.WF) (notes : List (τ × τ)) (dur : List δ)
    (hlen : dur.length = notes.length) (chord key : ForcedType) (hc : NonNeg chord) (hk : NonNeg key)
    (Dead : κ → Prop) (hD : Absorbing Dead) (hf : chord.changes = []) (hf' : chord.nonChanges = [])
    (hlab : chord.labels = [])
    (hsure : ∀ i : Nat, 0 < i → i < notes.length → dur[i - 1]? ≠ some 0 → m.ctm i < m.minChange ∨
      (m.maxNoChange < m.ctm i ∧ Dead (m.logCompl (m.ctm i) - m.log (m.ctm i))))
    (hone : ∀ priors, m.branch priors = 1)
    (s : State κ H P) (h : m.getHarmony notes dur chord key = .ok (some s)) (hs : ¬ Dead s.node.logProb) :
    getChords s = (labels m notes none (cuts m dur), cuts m dur) := by
  have hdiv := Thresholds.C166_divides m hm notes dur hlen chord key hc hk Dead hD hf hf' hsure s h hs
  obtain ⟨t1, t2, t3, t4, -⟩ := C100_onsets m hm notes dur hlen chord key hc hk s h
  obtain ⟨rows, cids, kids, hr, hcl⟩ := run_classified m hm hc hk h
  have hcuts : (getChords s).2 = cuts m dur := by
    have hpos := hr.pos
    refine sorted_ext t3 ?_ ?_
    · unfold cuts
      rw [List.cons_append, List.pairwise_cons, List.pairwise_append]
      refine ⟨?_, (List.pairwise_lt_range).filter _, by simp, ?_⟩
      · intro x hx
        rcases List.mem_append.1 hx with hx | hx
        · have := (List.mem_filter.1 hx).2
          simp only [decide_eq_true_eq] at this
          exact this.1
        · rw [List.mem_singleton.1 hx]
          exact hpos
      · intro x hx y hy
        rw [List.mem_singleton.1 hy]
        exact List.mem_range.1 (List.mem_filter.1 hx).1
    · intro x
      have h0 : 0 ∈ (getChords s).2 := List.mem_of_mem_head? t2
      have hlast : notes.length ∈ (getChords s).2 := List.mem_of_mem_getLast? t4
      have hle : ∀ x ∈ (getChords s).2, x ≤ notes.length := by
        intro x hx
        obtain ⟨init, he⟩ : ∃ init, (getChords s).2 = init ++ [notes.length] :=
          ⟨_, (List.dropLast_append_getLast? _ t4).symm⟩
        rw [he] at hx t3
        rcases List.mem_append.1 hx with hx | hx
        · exact Nat.le_of_lt ((List.pairwise_append.1 t3).2.2 x hx _ (by simp))
        · rw [List.mem_singleton.1 hx]
      unfold cuts
      simp only [List.cons_append, List.mem_cons, List.mem_append, List.mem_filter, List.mem_range, decide_eq_true_eq,
        List.not_mem_nil, or_false]
      constructor
      · intro hx
        have := hle x hx
        by_cases hx0 : x = 0
        · exact .inl hx0
        · by_cases hxn : x = notes.length
          · exact .inr (.inr (by omega))
          · exact .inr (.inl ⟨by omega, by omega, (hdiv x (by omega) (by omega)).1 hx⟩)
      · rintro (rfl | ⟨h1, h2, h3⟩ | rfl)
        · exact h0
        · exact (hdiv x h2 (by omega)).2 h3
        · rw [hlen]; exact hlast
  have hpicks : Picks (m.searchData notes.length rows cids kids) (s.node :: s.prev) :=
    search_inv (picks _) (hr.ok hm) hr.search
  obtain ⟨⟨-, hsegs⟩, hend⟩ := search_ok (hr.ok hm) hr.search
  have hend : s.node.changeIndex = notes.length := hend
  have hlink : Linked m notes (s.node :: s.prev) := by
    refine linked_of_picks hm hr hcl hlab hone s.prev s.node hpicks hsegs ?_
    intro x r hmem hlt
    have hrow := hr.row x r hmem
    have hin : r.stop ∈ (getChords s).2 := by
      rcases hrow.stop with h1 | ⟨h1, h2⟩
      · omega
      · have hpr : m.prob chord r.stop = m.ctm r.stop := by
          rw [prob, hf, hf']
          simp
        rw [hpr] at h2
        have := hrow.lt
        refine (hdiv r.stop (by omega) (by omega)).2 ⟨?_, h2⟩
        intro he
        exact h1 ((getD_of_get (by omega)).2 he)
    obtain ⟨p, hp, he⟩ := (aux_mem s.prev s.node r.stop).1 hin
    rcases List.mem_cons.1 hp with rfl | hp
    · omega
    · exact ⟨p, hp, he⟩
  have := (linked_labels m notes s.prev s.node hlink).1
  have e1 : (getChords s).1 = labels m notes none (getChords s).2 := this
  rw [hcuts] at e1
  exact Prod.ext e1 hcuts

/-- C170: so two such models with the same chord transition model, the same threshold and the same classifier agree on
the chords, whatever else they are made of. -/
theorem C170_determined {ρ' H' P' : Type} [DecidableEq H'] [DecidableEq P'] (m : Joint π κ δ ρ H P)
    (m' : Joint π κ δ ρ' H' P') (hm : m.WF) (hm' : m'.WF)
    (hctm : m'.ctm = m.ctm) (hmin : m'.minChange = m.minChange) (hccm : m'.ccm = m.ccm) (hsort : m'.argsort = m.argsort)
    (notes : List (τ × τ)) (dur : List δ)
    (hlen : dur.length = notes.length) (chord key key' : ForcedType) (hc : NonNeg chord) (hk : NonNeg key)
    (hk' : NonNeg key') (Dead : κ → Prop) (hD : Absorbing Dead) (hf : chord.changes = []) (hf' : chord.nonChanges = [])
    (hlab : chord.labels = [])
    (hsure : ∀ i : Nat, 0 < i → i < notes.length → dur[i - 1]? ≠ some 0 → m.ctm i < m.minChange ∨
      (m.maxNoChange < m.ctm i ∧ Dead (m.logCompl (m.ctm i) - m.log (m.ctm i))))
    (hsure' : ∀ i : Nat, 0 < i → i < notes.length → dur[i - 1]? ≠ some 0 → m'.ctm i < m'.minChange ∨
      (m'.maxNoChange < m'.ctm i ∧ Dead (m'.logCompl (m'.ctm i) - m'.log (m'.ctm i))))
    (hone : ∀ priors, m.branch priors = 1) (hone' : ∀ priors, m'.branch priors = 1)
    (s : State κ H P) (h : m.getHarmony notes dur chord key = .ok (some s)) (hs : ¬ Dead s.node.logProb)
    (s' : State κ H' P') (h' : m'.getHarmony notes dur chord key' = .ok (some s')) (hs' : ¬ Dead s'.node.logProb) :
    getChords s' = getChords s := by
  rw [C170_pipeline m hm notes dur hlen chord key hc hk Dead hD hf hf' hlab hsure hone s h hs,
    C170_pipeline m' hm' notes dur hlen chord key' hc hk' Dead hD hf hf' hlab hsure' hone' s' h' hs']
  have ecuts : cuts m' dur = cuts m dur := by
    unfold cuts
    rw [hctm, hmin]
  have elbl : ∀ prev a b, label m' notes prev a b = label m notes prev a b := by
    intro prev a b
    unfold label classes
    rw [hccm, hsort]
  have elabs : ∀ l prev, labels m' notes prev l = labels m notes prev l := by
    intro l
    induction l with
    | nil => intro prev; rfl
    | cons a l ih =>
      intro prev
      cases l with
      | nil => rfl
      | cons b l => simp only [labels, elbl, ih]
  rw [ecuts, elabs]

end

/-! ### Examples -/

/-- The small model of Harmony.lean, sure of a change at each note and with one chord to branch on, with another
probability of a change of key, in tenths. -/
def sureJoint (p : Int) : Joint ℚ LogP Nat Int Unit Unit :=
  { demoJoint (fun _ => 1) 1 with search := { (demoJoint (fun _ => 1) 1).search with ktm := fun _ => .ok (p, ()) } }

theorem sureJoint_wf (p : Int) : (sureJoint p).WF :=
  ⟨(demoJoint_wf (fun _ => 1) 1).minPos, (demoJoint_wf (fun _ => 1) 1).order, (demoJoint_wf (fun _ => 1) 1).maxLt, (demoJoint_wf (fun _ => 1) 1).hash,
    (demoJoint_wf (fun _ => 1) 1).pick⟩

/-- The pipeline gives the likeliest class, then the second likeliest, then the likeliest again. -/
example : labels (sureJoint 8) Thresholds.threeNotes none (cuts (sureJoint 8) [1, 1, 1]) = [some 1, some 0, some 1] ∧
    cuts (sureJoint 8) [1, 1, 1] = [0, 1, 2, 3] := by
  constructor <;> decide +kernel

/-- The hypotheses of `C170_pipeline` and `C170_determined` hold: one analysis is in three keys and the other in one, but
their chords are the same. -/
example : ∃ s s', (sureJoint 8).getHarmony Thresholds.threeNotes [1, 1, 1] (free 2) (free 23) = .ok (some s) ∧
    (sureJoint 2).getHarmony Thresholds.threeNotes [1, 1, 1] (free 2) (free 23) = .ok (some s') ∧
    chordKeys s = [0, 1, 2] ∧ chordKeys s' ≠ [0, 1, 2] ∧ getChords s' = getChords s ∧
    getChords s = (labels (sureJoint 8) Thresholds.threeNotes none (cuts (sureJoint 8) [1, 1, 1]),
      cuts (sureJoint 8) [1, 1, 1]) := by
  have h : seen ((sureJoint 8).getHarmony Thresholds.threeNotes [1, 1, 1] (free 2) (free 23)) =
      some (([some 1, some 0, some 1], [0, 1, 2, 3]), [0, 1, 2], true) := by decide +kernel
  have h' : seen ((sureJoint 2).getHarmony Thresholds.threeNotes [1, 1, 1] (free 2) (free 23)) =
      some (([some 1, some 0, some 1], [0, 1, 2, 3]), [5, 5, 5], true) := by decide +kernel
  obtain ⟨s, h1, -, hk, h2⟩ := seen_some h
  obtain ⟨s', h1', -, hk', h2'⟩ := seen_some h'
  have hn : ∀ k, NonNeg (free k) := fun k => ⟨by simp [free], by simp [free], by simp [free]⟩
  have hsure : ∀ p : Int, ∀ i : Nat, 0 < i → i < Thresholds.threeNotes.length → [1, 1, 1][i - 1]? ≠ some 0 →
      (sureJoint p).ctm i < (sureJoint p).minChange ∨ ((sureJoint p).maxNoChange < (sureJoint p).ctm i ∧
        ((sureJoint p).logCompl ((sureJoint p).ctm i) - (sureJoint p).log ((sureJoint p).ctm i)).val = none) := by
    intro p i _ _ _
    refine .inr ⟨by show (3 / 4 : ℚ) < 1; norm_num, ?_⟩
    show ((demoJoint (fun _ => 1) 1).logCompl 1 - (demoJoint (fun _ => 1) 1).log 1).val = none
    decide +kernel
  have hs : ¬ s.node.logProb.val = none := by
    intro hd
    simp only [hd] at h2
    cases h2
  have hs' : ¬ s'.node.logProb.val = none := by
    intro hd
    simp only [hd] at h2'
    cases h2'
  refine ⟨s, s', h1, h1', hk, by rw [hk']; decide, ?_, ?_⟩
  · exact C170_determined _ _ (sureJoint_wf 8) (sureJoint_wf 2) rfl rfl rfl rfl _ _ rfl _ _ _ (hn 2) (hn 23) (hn 23) _
      logP_dead rfl rfl rfl (hsure 8) (hsure 2) (fun _ => rfl) (fun _ => rfl) s h1 hs s' h1' hs'
  · exact C170_pipeline _ (sureJoint_wf 8) _ _ rfl _ _ (hn 2) (hn 23) _ logP_dead rfl rfl rfl (hsure 8) (fun _ => rfl) s
      h1 hs

end Verif.Pipeline
