import Verif.Lemmas.BeamFills
import Verif.Props.Score
import Verif.Props.Ranges

/-!
# A beam search with enough room finds the best analysis (C133)
-/

namespace Verif.SearchExact

open Verif State SearchData

section
variable {κ ρ H P : Type} [Add κ] [Sub κ] [Zero κ]

/-- A state of the search extended by one of the candidate ranges and one of the chords to branch on,
with the probability of a change of key. -/
inductive Chord (d : SearchData κ ρ H P) (s : State κ H P) : ρ × State κ H P → Prop
  | mk (s1 s2 : State κ H P) (r : RangeData κ) (ids : List Int) (c : Int) (ps : ρ × State κ H P) :
    (s.node.changeIndex = 0 → s1 = s) → (s.node.changeIndex ≠ 0 → d.runCsm s = .ok s1) →
    (s.node.changeIndex, r) ∈ d.ranges → d.branchIds s.node.changeIndex s1.node.chord r = .ok ids →
    c ∈ ids → d.branchState s.node.changeIndex s1 r c = .ok (some s2) → d.runKtm s2 = .ok ps →
    Chord d s ps

/-- The two ways on after a chord, with their costs. -/
def charged (d : SearchData κ ρ H P) (ps : ρ × State κ H P) (q : Node κ H P) :
    Option (State κ H P × State κ H P) × Option (State κ H P) :=
  chargeKey (d.keyOptions ps.1 ps.2 q)
    (d.scale (d.logChange ps.1) ((ps.2.node.changeIndex : Int) - q.changeIndex))
    (d.scale (d.logNoChange ps.1) ((ps.2.node.changeIndex : Int) - q.changeIndex)) ps.2

/-- A state of the search extended by a chord, in the same key or in a new one. -/
inductive Next (d : SearchData κ ρ H P) (s : State κ H P) : State κ H P → Prop
  | keep (ps : ρ × State κ H P) (q : Node κ H P) (rest : List (Node κ H P)) (s3 : State κ H P) (cost : κ) :
    Chord d s ps → ps.2.prev = q :: rest → (charged d ps q).2 = some s3 → d.csmCost s3 = .ok cost →
    Next d s (s3.addCsm cost)
  | change (ps : ρ × State κ H P) (q : Node κ H P) (rest : List (Node κ H P))
    (x : State κ H P × State κ H P) (l : List (State κ H P)) (s4 t : State κ H P) :
    Chord d s ps → ps.2.prev = q :: rest → (charged d ps q).1 = some x → d.keyChanges x.2 = .ok l →
    s4 ∈ l → d.runHidden s4 = .ok t → Next d s t

/-- All the analyses of a beginning of the piece that the candidate ranges, the chords and keys to
branch on and the key thresholds allow. Nothing is pruned. -/
inductive Analysis (d : SearchData κ ρ H P) : State κ H P → Prop
  | first (keys : List Int) (key tonic : Int) (mode : KeyMode) : d.initialKeys = .ok keys → key ∈ keys →
    pyGet d.labels.key key = .ok (tonic, mode) →
    Analysis d (State.initial key d.hashLength (some (d.icm (decide (mode = .minor)))))
  | next (s t : State κ H P) : Analysis d s → s.node.changeIndex < d.numInputs → Next d s t → Analysis d t

/-- No range is worse for a state than an analysis that gets to its end from an earlier start. -/
def Spared (d : SearchData κ ρ H P) : Prop :=
  ∀ s r u t, Analysis d s → (s.node.changeIndex, r) ∈ d.ranges → Analysis d u → Next d u t →
    u.node.changeIndex < s.node.changeIndex → t.node.changeIndex = r.stop →
    d.ge t.node.logProb (s.node.logProb + r.logProb) = false

/-- The number of chords, and at most as many keys, that follow a state: with `G` ranges, `O` chords
and `R` relative keys. -/
def fanOut (G O R : Nat) : Nat := G * O * (R + 1)

variable {d : SearchData κ ρ H P}

/-! ## Indices -/

theorem branchState_stop {start : Nat} {s s' : State κ H P} {r : RangeData κ} {c : Int}
    (h : d.branchState start s r c = .ok (some s')) : s'.node.changeIndex = r.stop := by
  simp only [branchState, Bind.bind] at h
  obtain ⟨lp, -, h⟩ := bind_ok h
  split at h
  · obtain ⟨t, ht, h⟩ := map_ok h
    injection h with h
    subst h
    obtain ⟨c', root, ct, inv, bass, tonic, mode, p, ps, hcc, h1, h2, hp, h3, rfl⟩ := rejoin_ok ht
    rfl
  · obtain ⟨root, ct, inv, bass, k, h1, h2, h3, h4, h5, rfl⟩ := chordTransition_some h
    rfl

omit [Add κ] [Sub κ] [Zero κ] in
theorem runKtm_stop {s : State κ H P} {ps : ρ × State κ H P} (h : d.runKtm s = .ok ps) :
    ps.2.node.changeIndex = s.node.changeIndex := by
  simp only [runKtm] at h
  obtain ⟨ph, -, rfl⟩ := map_ok h
  rfl

omit [Add κ] [Sub κ] [Zero κ] in
theorem runCsm_same {s t : State κ H P} (h : d.runCsm s = .ok t) :
    t.node.changeIndex = s.node.changeIndex ∧ t.node.logProb = s.node.logProb := by
  simp only [runCsm] at h
  obtain ⟨ph, -, rfl⟩ := map_ok h
  exact ⟨rfl, rfl⟩

omit [Sub κ] [Zero κ] in
theorem charged_stop (ps : ρ × State κ H P) (q : Node κ H P) :
    (∀ x, (charged d ps q).1 = some x → x.1.node.changeIndex = ps.2.node.changeIndex ∧
      x.2.node.changeIndex = ps.2.node.changeIndex) ∧
    (∀ t, (charged d ps q).2 = some t → t.node.changeIndex = ps.2.node.changeIndex) := by
  simp only [charged]
  generalize d.keyOptions ps.1 ps.2 q = o
  obtain ⟨o1, o2⟩ := o
  constructor
  · intro x hx
    cases o1 <;> cases o2 <;> simp only [chargeKey, Option.some.injEq] at hx <;>
      first
      | (subst hx; exact ⟨rfl, rfl⟩)
      | cases hx
  · intro t ht
    cases o1 <;> cases o2 <;> simp only [chargeKey, Option.some.injEq] at ht <;>
      first
      | (subst ht; rfl)
      | cases ht

omit [Sub κ] [Zero κ] in
theorem keyTransition_stop {L : Labels} {pt : PitchType} {s t : State κ H P} {key : Int} {lp : κ}
    (h : s.keyTransition L pt key lp = .ok (some t)) : t.node.changeIndex = s.node.changeIndex := by
  simp only [keyTransition, Bind.bind] at h
  obtain ⟨⟨root, ct, inv⟩, -, h⟩ := bind_ok h
  obtain ⟨bass, -, h⟩ := bind_ok h
  obtain ⟨⟨tonic, m⟩, -, h⟩ := bind_ok h
  simp only at h
  split at h
  · cases h
  · split at h
    · cases h
    · injection h with h
      injection h with h
      subst h; rfl

omit [Sub κ] [Zero κ] in
theorem keyLoop_facts {F : Option Int} {s : State κ H P} {o : KsmOutput κ H} {len : Int}
    {rels : List Int} {room : Nat} {out : List (State κ H P)}
    (h : d.keyLoop F s o len rels room = .ok out) :
    (∀ t ∈ out, t.node.changeIndex = s.node.changeIndex) ∧ out.length ≤ rels.length := by
  induction rels generalizing room out with
  | nil =>
    simp only [keyLoop, Except.ok.injEq] at h
    subst h; simp
  | cons rel rels ih =>
    simp only [keyLoop, Bind.bind] at h
    obtain ⟨target, -, h⟩ := bind_ok h
    have weaken : ∀ {room out}, d.keyLoop F s o len rels room = .ok out →
        (∀ t ∈ out, t.node.changeIndex = s.node.changeIndex) ∧ out.length ≤ (rel :: rels).length := by
      intro room out h
      have := ih h
      exact ⟨this.1, by simp only [List.length_cons]; omega⟩
    cases target with
    | none => exact weaken h
    | some key =>
      simp only at h
      split at h
      · exact weaken h
      · obtain ⟨lp, -, h⟩ := bind_ok h
        obtain ⟨new, hnew, h⟩ := bind_ok h
        cases new with
        | none =>
          simp only [afterKey] at h
          split at h
          · injection h with h; subst h; simp
          · exact weaken h
        | some t =>
          have ht := keyTransition_stop hnew
          simp only [afterKey] at h
          split at h
          · injection h with h; subst h
            simp [ht]
          · obtain ⟨l, hl, h⟩ := map_ok h
            subst h
            have := ih hl
            refine ⟨?_, by simp only [List.length_cons]; omega⟩
            intro x hx
            rcases List.mem_cons.mp hx with rfl | hx
            · exact ht
            · exact this.1 x hx

omit [Sub κ] [Zero κ] in
theorem keyChanges_facts {s : State κ H P} {out : List (State κ H P)} (h : d.keyChanges s = .ok out) :
    (∀ t ∈ out, t.node.changeIndex = s.node.changeIndex) ∧
    ∃ o, d.ksm s = .ok o ∧ out.length ≤ o.order.length := by
  simp only [keyChanges, Bind.bind] at h
  obtain ⟨o, ho, h⟩ := bind_ok h
  split at h
  · cases h
  · have := keyLoop_facts h
    exact ⟨this.1, o, ho, this.2⟩

omit [Add κ] [Sub κ] [Zero κ] in
theorem runHidden_stop {s t : State κ H P} (h : d.runHidden s = .ok t) :
    t.node.changeIndex = s.node.changeIndex := by
  simp only [runHidden, Bind.bind] at h
  obtain ⟨ps, hps, h⟩ := bind_ok h
  obtain ⟨o, -, h⟩ := bind_ok h
  injection h with h
  subst h
  exact runKtm_stop hps

theorem Chord.stop {s : State κ H P} {ps : ρ × State κ H P} (h : Chord d s ps) :
    ∃ r, (s.node.changeIndex, r) ∈ d.ranges ∧ ps.2.node.changeIndex = r.stop := by
  obtain ⟨s1, s2, r, ids, c, ps, h1, h2, hr, hi, hc, hb, hk⟩ := h
  exact ⟨r, hr, (runKtm_stop hk).trans (branchState_stop hb)⟩

theorem Next.stop {s t : State κ H P} (h : Next d s t) :
    ∃ r, (s.node.changeIndex, r) ∈ d.ranges ∧ t.node.changeIndex = r.stop := by
  cases h with
  | keep ps q rest s3 cost h1 h2 h3 h4 =>
    obtain ⟨r, hr, hs⟩ := h1.stop
    exact ⟨r, hr, (((charged_stop ps q).2 _ h3)).trans hs⟩
  | change ps q rest x l s4 t h1 h2 h3 h4 h5 h6 =>
    obtain ⟨r, hr, hs⟩ := h1.stop
    exact ⟨r, hr, (runHidden_stop h6).trans (((keyChanges_facts h4).1 _ h5).trans
      ((((charged_stop ps q).1 _ h3).2).trans hs))⟩

/-! ## Lists -/

omit [Add κ] [Sub κ] [Zero κ] in
theorem mapM_iff {α β : Type} {f : α → Py β} {l : List α} {l' : List β} (h : l.mapM f = .ok l') :
    (∀ b, b ∈ l' ↔ ∃ a ∈ l, f a = .ok b) ∧ l'.length = l.length := by
  induction l generalizing l' with
  | nil =>
    simp only [List.mapM_nil, Pure.pure, Except.pure, Except.ok.injEq] at h
    subst h; simp
  | cons x l ih =>
    simp only [List.mapM_cons, Bind.bind] at h
    obtain ⟨b, hb, h⟩ := bind_ok h
    obtain ⟨bs, hbs, h⟩ := bind_ok h
    injection h with h
    subst h
    obtain ⟨i1, i2⟩ := ih hbs
    refine ⟨fun b' => ?_, by simp [i2]⟩
    simp only [List.mem_cons, i1]
    constructor
    · rintro (rfl | ⟨a, ha, he⟩)
      · exact ⟨x, .inl rfl, hb⟩
      · exact ⟨a, .inr ha, he⟩
    · rintro ⟨a, rfl | ha, he⟩
      · rw [hb] at he; injection he with he; exact .inl he.symm
      · exact .inr ⟨a, ha, he⟩

omit [Add κ] [Sub κ] [Zero κ] in
theorem flatten_length_le {α : Type} (ls : List (List α)) (n : Nat) (h : ∀ l ∈ ls, l.length ≤ n) :
    ls.flatten.length ≤ ls.length * n := by
  induction ls with
  | nil => simp
  | cons l ls ih =>
    have h1 := h l (by simp)
    have h2 := ih (fun l hl => h l (by simp [hl]))
    simp only [List.flatten_cons, List.length_append, List.length_cons, Nat.succ_mul]
    omega

omit [Add κ] [Sub κ] [Zero κ] in
theorem sum_set {α : Type} (f : α → Nat) (l : List α) (i : Nat) (a b : α) (h : l[i]? = some a) :
    ((l.set i b).map f).sum + f a = (l.map f).sum + f b := by
  induction l generalizing i with
  | nil => simp at h
  | cons x l ih =>
    cases i with
    | zero =>
      simp only [List.getElem?_cons_zero, Option.some.injEq] at h
      subst h
      simp only [List.set_cons_zero, List.map_cons, List.sum_cons]; omega
    | succ i =>
      have := ih i (by simpa using h)
      simp only [List.set_cons_succ, List.map_cons, List.sum_cons]; omega

omit [Add κ] [Sub κ] [Zero κ] in
theorem le_sum {α : Type} (f : α → Nat) (l : List α) (a : α) (h : a ∈ l) : f a ≤ (l.map f).sum := by
  induction l with
  | nil => simp at h
  | cons x l ih =>
    simp only [List.map_cons, List.sum_cons]
    rcases List.mem_cons.mp h with rfl | h
    · omega
    · have := ih h; omega

/-! ## One step -/

/-- The number of states in all the beams. -/
def held {σ : Type} (beams : List (Beam σ)) : Nat := (beams.map fun b => b.heap.length).sum

/-- Beams of the given size with room for one more state. -/
def Room {σ : Type} (size : Nat) (beams : List (Beam σ)) : Prop :=
  ∀ b ∈ beams, b.size = size ∧ b.heap.length < size

omit [Add κ] [Sub κ] [Zero κ] in
theorem fitsAt_room {start : Nat} {beams : List (Beam (Nat × State κ H P))} {s : State κ H P}
    {ck : Bool} {f : Bool} (hr : Room d.beamSize beams)
    (h : fitsAt (plainOps d.stateLt) start beams s ck = .ok f) : f = true := by
  simp only [fitsAt] at h
  split at h
  · injection h with h; exact h.symm
  · simp only [Bind.bind] at h
    obtain ⟨b, hb, h⟩ := bind_ok h
    obtain ⟨h1, h2⟩ := hr b (pyGet_mem _ _ _ hb)
    simp only [plainOps, Beam.fits] at h
    rw [if_pos (by omega)] at h
    injection h with h; exact h.symm

theorem branchLoop_room {start : Nat} {beams : List (Beam (Nat × State κ H P))} {s : State κ H P}
    {r : RangeData κ} (hr : Room d.beamSize beams) {ids : List Int} {out : List (State κ H P)}
    (h : d.branchLoop (plainOps d.stateLt) start beams s r ids = .ok out) :
    (∀ t, t ∈ out ↔ ∃ c ∈ ids, d.branchState start s r c = .ok (some t)) ∧ out.length ≤ ids.length := by
  induction ids generalizing out with
  | nil =>
    simp only [branchLoop, Except.ok.injEq] at h
    subst h; simp
  | cons c cs ih =>
    simp only [branchLoop, Bind.bind] at h
    obtain ⟨new, hnew, h⟩ := bind_ok h
    cases new with
    | none =>
      obtain ⟨i1, i2⟩ := ih h
      refine ⟨fun t => ?_, by simp only [List.length_cons]; omega⟩
      rw [i1]
      constructor
      · rintro ⟨c', hc', e⟩; exact ⟨c', by simp [hc'], e⟩
      · rintro ⟨c', hc', e⟩
        rcases List.mem_cons.mp hc' with rfl | hc'
        · rw [hnew] at e; cases e
        · exact ⟨c', hc', e⟩
    | some s' =>
      simp only at h
      obtain ⟨f, hf, h⟩ := bind_ok h
      obtain rfl := fitsAt_room hr hf
      simp only [keepIf, if_true] at h
      obtain ⟨l, hl, h⟩ := map_ok h
      subst h
      obtain ⟨i1, i2⟩ := ih hl
      refine ⟨fun t => ?_, by simp only [List.length_cons]; omega⟩
      rw [List.mem_cons, i1]
      constructor
      · rintro (rfl | ⟨c', hc', e⟩)
        · exact ⟨c, by simp, hnew⟩
        · exact ⟨c', by simp [hc'], e⟩
      · rintro ⟨c', hc', e⟩
        rcases List.mem_cons.mp hc' with rfl | hc'
        · rw [hnew] at e; injection e with e; injection e with e; exact .inl e.symm
        · exact .inr ⟨c', hc', e⟩

omit [Sub κ] [Zero κ] in
/-- The quick exit is not taken if no state in the beam at the end of a range is as good. -/
theorem quickExit_room {start : Nat} {beams : List (Beam (Nat × State κ H P))} {s : State κ H P}
    {r : RangeData κ} {e : Bool}
    (hx : start ≠ 0 → ∀ b, beams[r.stop]? = some b → ∀ x ∈ b.heap,
      d.ge x.2.node.logProb (s.node.logProb + r.logProb) = false)
    (h : d.quickExit (plainOps d.stateLt) start beams s r = .ok e) : e = false := by
  simp only [quickExit] at h
  split at h
  · injection h with h; exact h.symm
  · rename_i hz
    simp only [Bind.bind] at h
    obtain ⟨b, hb, h⟩ := bind_ok h
    have hb' := pyGet_nonneg _ _ _ (Int.natCast_nonneg _) hb
    simp only [Int.toNat_natCast] at hb'
    split at h
    · injection h with h; exact h.symm
    · obtain ⟨top, htop, h⟩ := map_ok h
      have := hx hz b hb' top (by
        simp only [plainOps] at htop
        cases hh : b.heap with
        | nil => rw [hh] at htop; cases htop
        | cons y ys => rw [hh] at htop; injection htop with htop; simp [htop])
      rw [this] at h
      exact h.symm

omit [Add κ] [Sub κ] [Zero κ] in
theorem branchIds_length {start : Nat} {chord : Option Int} {r : RangeData κ} {ids : List Int}
    (h : d.branchIds start chord r = .ok ids) : ids.length ≤ r.order.length := by
  simp only [branchIds] at h
  split at h
  · obtain ⟨x, hx, rfl⟩ := map_ok h
    have := List.length_pos_of_mem (pyGet_mem _ _ _ hx)
    simp only [List.length_cons, List.length_nil]; omega
  · split at h
    · obtain ⟨x, hx, rfl⟩ := map_ok h
      split <;> simp
    · injection h with h
      subst h; simp

omit [Add κ] [Sub κ] [Zero κ] in
theorem keepFits_room {start : Nat} {beams : List (Beam (Nat × State κ H P))} {ck : Bool}
    {o : Option (State κ H P × State κ H P)} {out : List (State κ H P)} (hr : Room d.beamSize beams)
    (h : keepFits (plainOps d.stateLt) start beams ck o = .ok out) : out = (o.map (·.2)).toList := by
  cases o with
  | none =>
    simp only [keepFits, Except.ok.injEq] at h
    subst h; rfl
  | some x =>
    obtain ⟨a, b⟩ := x
    simp only [keepFits] at h
    obtain ⟨f, hf, h⟩ := map_ok h
    obtain rfl := fitsAt_room hr hf
    simp only [if_true] at h
    subst h; rfl

omit [Sub κ] [Zero κ] in
theorem keyBranch_room {start : Nat} {beams : List (Beam (Nat × State κ H P))} {ps : ρ × State κ H P}
    {out : List (State κ H P) × List (State κ H P)} (hr : Room d.beamSize beams)
    (h : d.keyBranch (plainOps d.stateLt) start beams ps = .ok out) :
    ∃ q rest, ps.2.prev = q :: rest ∧ out.1 = ((charged d ps q).1.map (·.2)).toList ∧
      out.2 = (charged d ps q).2.toList := by
  simp only [keyBranch] at h
  cases hq : ps.2.prev with
  | nil => rw [hq] at h; cases h
  | cons q rest =>
    rw [hq] at h
    simp only [Bind.bind] at h
    obtain ⟨change, hch, h⟩ := bind_ok h
    obtain ⟨keep, hke, h⟩ := bind_ok h
    injection h with h
    subst h
    refine ⟨q, rest, rfl, keepFits_room hr hch, ?_⟩
    have := keepFits_room hr hke
    simp only [this, charged, Option.map_map, Function.comp_def]
    simp

/-- The states made from the states of a beam are all the states that follow them. -/
theorem branchAll_room {start : Nat} {beams : List (Beam (Nat × State κ H P))} {objects states out : List (State κ H P)}
    {G O : Nat} (hr : Room d.beamSize beams) (hG : d.ranges.length ≤ G)
    (hO : ∀ e ∈ d.ranges, e.2.order.length ≤ O)
    (hi : ∀ s ∈ objects, s.node.changeIndex = start)
    (hx : ∀ s ∈ objects, ∀ r, (start, r) ∈ d.ranges → start ≠ 0 → ∀ b, beams[r.stop]? = some b → ∀ x ∈ b.heap,
      d.ge x.2.node.logProb (s.node.logProb + r.logProb) = false)
    (h1 : d.csmStates start objects = .ok states)
    (h2 : d.branchAll (plainOps d.stateLt) start beams states = .ok out) :
    (∀ t, t ∈ out ↔ ∃ s ∈ objects, ∃ s1 r ids c, (s.node.changeIndex = 0 → s1 = s) ∧
      (s.node.changeIndex ≠ 0 → d.runCsm s = .ok s1) ∧ (s.node.changeIndex, r) ∈ d.ranges ∧
      d.branchIds s.node.changeIndex s1.node.chord r = .ok ids ∧ c ∈ ids ∧
      d.branchState s.node.changeIndex s1 r c = .ok (some t)) ∧
    out.length ≤ objects.length * (G * O) := by
  have hst : (∀ s1, s1 ∈ states ↔ ∃ s ∈ objects, (s.node.changeIndex = 0 → s1 = s) ∧
      (s.node.changeIndex ≠ 0 → d.runCsm s = .ok s1)) ∧ states.length = objects.length := by
    simp only [csmStates] at h1
    split at h1
    · rename_i hz
      injection h1 with h1
      subst h1
      refine ⟨fun s1 => ⟨fun h => ⟨s1, h, fun _ => rfl, fun hne => absurd ((hi s1 h).trans hz) hne⟩, ?_⟩, rfl⟩
      rintro ⟨s, hs, e, -⟩
      rw [e ((hi s hs).trans hz)]; exact hs
    · rename_i hz
      obtain ⟨m1, m2⟩ := mapM_iff h1
      refine ⟨fun s1 => ?_, m2⟩
      rw [m1]
      constructor
      · rintro ⟨s, hs, e⟩
        exact ⟨s, hs, fun h => absurd ((hi s hs).symm.trans h) hz, fun _ => e⟩
      · rintro ⟨s, hs, -, e⟩
        exact ⟨s, hs, e (by rw [hi s hs]; exact hz)⟩
  simp only [branchAll] at h2
  obtain ⟨ls, hls, h2⟩ := map_ok h2
  subst h2
  obtain ⟨m1, m2⟩ := mapM_iff hls
  have hpairs : ∀ sr, sr ∈ pairs states (d.rangesAt start) ↔ sr.1 ∈ states ∧ (start, sr.2) ∈ d.ranges := by
    rintro ⟨s, r⟩
    simp only [pairs, List.mem_flatMap, List.mem_map, Prod.mk.injEq, rangesAt, List.mem_filter,
      decide_eq_true_eq]
    constructor
    · rintro ⟨s', hs', r', ⟨⟨a, r''⟩, ⟨hm, rfl⟩, rfl⟩, rfl, rfl⟩
      exact ⟨hs', hm⟩
    · rintro ⟨hs', hm⟩
      exact ⟨s, hs', r, ⟨(start, r), ⟨hm, rfl⟩, rfl⟩, rfl, rfl⟩
  have hrange : ∀ sr l, sr ∈ pairs states (d.rangesAt start) →
      d.branchRange (plainOps d.stateLt) start beams sr = .ok l →
      ∃ ids, d.branchIds start sr.1.node.chord sr.2 = .ok ids ∧
        (∀ t, t ∈ l ↔ ∃ c ∈ ids, d.branchState start sr.1 sr.2 c = .ok (some t)) ∧ l.length ≤ ids.length := by
    intro sr l hsr hl
    obtain ⟨hs1, hm⟩ := (hpairs sr).mp hsr
    simp only [branchRange, Bind.bind] at hl
    obtain ⟨e, he, hl⟩ := bind_ok hl
    obtain ⟨s, hs, e1, e2⟩ := (hst.1 _).mp hs1
    have hlp : sr.1.node.logProb = s.node.logProb := by
      by_cases hz : s.node.changeIndex = 0
      · rw [e1 hz]
      · exact (runCsm_same (e2 hz)).2
    obtain rfl := quickExit_room (by rw [hlp]; exact hx s hs sr.2 hm) he
    simp only [Bool.false_eq_true, if_false] at hl
    obtain ⟨ids, hids, hl⟩ := bind_ok hl
    obtain ⟨b1, b2⟩ := branchLoop_room hr hl
    exact ⟨ids, hids, b1, b2⟩
  constructor
  · intro t
    simp only [List.mem_flatten]
    constructor
    · rintro ⟨l, hl, ht⟩
      obtain ⟨sr, hsr, he⟩ := (m1 l).mp hl
      obtain ⟨ids, h1, h2, -⟩ := hrange sr l hsr he
      obtain ⟨hs1, hm⟩ := (hpairs sr).mp hsr
      obtain ⟨s, hs, e1, e2⟩ := (hst.1 _).mp hs1
      obtain ⟨c, hc, hb⟩ := (h2 t).mp ht
      rw [← hi s hs] at hm h1 hb
      exact ⟨s, hs, sr.1, sr.2, ids, c, e1, e2, hm, h1, hc, hb⟩
    · rintro ⟨s, hs, s1, r, ids, c, e1, e2, hm, hids, hc, hb⟩
      rw [hi s hs] at hm hids hb
      have hsr : (s1, r) ∈ pairs states (d.rangesAt start) :=
        (hpairs _).mpr ⟨(hst.1 _).mpr ⟨s, hs, e1, e2⟩, hm⟩
      obtain ⟨l, hl, he⟩ := mapM_image hls hsr
      obtain ⟨ids', h1, h2, -⟩ := hrange _ l hsr he
      simp only at h1
      rw [hids] at h1
      injection h1 with h1
      subst h1
      exact ⟨l, hl, (h2 t).mpr ⟨c, hc, hb⟩⟩
  · refine (flatten_length_le ls O ?_).trans ?_
    · intro l hl
      obtain ⟨sr, hsr, he⟩ := (m1 l).mp hl
      obtain ⟨ids, h1, -, h3⟩ := hrange sr l hsr he
      have := branchIds_length h1
      have := hO _ ((hpairs sr).mp hsr).2
      simp only at this
      omega
    · rw [m2, ← hst.2]
      have hlen : (pairs states (d.rangesAt start)).length ≤ states.length * G := by
        simp only [pairs]
        rw [List.flatMap_def]
        refine (flatten_length_le _ G ?_).trans (by simp)
        intro l hl
        obtain ⟨s, -, rfl⟩ := List.mem_map.mp hl
        simp only [List.length_map, rangesAt]
        exact (List.length_filter_le _ _).trans hG
      calc _ ≤ states.length * G * O := Nat.mul_le_mul_right _ hlen
        _ = _ := Nat.mul_assoc _ _ _

omit [Sub κ] [Zero κ] in
theorem foldlM_addKept {β : Type} {ops : BeamOps β (Nat × State κ H P)} {l : List (State κ H P)}
    {st st' : List β × Nat} (h : l.foldlM (d.addKept ops) st = .ok st') :
    ∃ l', l.mapM (fun s => (d.csmCost s).map s.addCsm) = .ok l' ∧ l'.foldlM (addState ops) st = .ok st' := by
  induction l generalizing st with
  | nil => exact ⟨[], rfl, h⟩
  | cons s l ih =>
    simp only [List.foldlM_cons, Bind.bind] at h
    obtain ⟨st1, h1, h⟩ := bind_ok h
    simp only [addKept, Bind.bind] at h1
    obtain ⟨c, hc, h1⟩ := bind_ok h1
    obtain ⟨l', e1, e2⟩ := ih h
    refine ⟨s.addCsm c :: l', ?_, ?_⟩
    · rw [List.mapM_cons, hc, e1]; rfl
    · simp only [List.foldlM_cons, Bind.bind, h1, Except.bind, e2]

theorem step_room {start : Nat} {st st' : List (Beam (Nat × State κ H P)) × Nat}
    {b : Beam (Nat × State κ H P)} {G O R : Nat} (hr : Room d.beamSize st.1) (hG : d.ranges.length ≤ G)
    (hO : ∀ e ∈ d.ranges, e.2.order.length ≤ O) (hR : ∀ s o, d.ksm s = .ok o → o.order.length ≤ R)
    (hb : st.1[start]? = some b) (hi : ∀ x ∈ b.heap, x.2.node.changeIndex = start)
    (hx : ∀ y ∈ b.heap, ∀ r, (start, r) ∈ d.ranges → start ≠ 0 → ∀ b', st.1[r.stop]? = some b' →
      ∀ x ∈ b'.heap, d.ge x.2.node.logProb (y.2.node.logProb + r.logProb) = false)
    (h : d.step (plainOps d.stateLt) st start = .ok st') :
    ∃ new : List (State κ H P), (∀ t, t ∈ new ↔ ∃ x ∈ b.heap, Next d x.2 t) ∧
      new.length ≤ b.heap.length * fanOut G O R ∧
      ∃ st1 b1, new.foldlM (addState (plainOps d.stateLt)) st = .ok st1 ∧ st1.1[start]? = some b1 ∧
        st'.1 = st1.1.set start ⟨b1.size, []⟩ ∧
        ∀ x ∈ b.heap, ∀ ps q rest y, Chord d x.2 ps → ps.2.prev = q :: rest → (charged d ps q).1 = some y →
          ∃ l, d.keyChanges y.2 = .ok l := by
  simp only [step, Bind.bind] at h
  obtain ⟨b0, hb0, h⟩ := bind_ok h
  have hb' := pyGet_nonneg _ _ _ (Int.natCast_nonneg _) hb0
  simp only [Int.toNat_natCast] at hb'
  rw [hb] at hb'
  injection hb' with hb'
  subst hb'
  split at h
  · rename_i hz
    injection h with h
    subst h
    have hz : b.heap = [] := List.length_eq_zero_iff.mp hz
    refine ⟨[], by simp [hz], by simp, st, b, rfl, hb, ?_, by simp [hz]⟩
    have : (⟨b.size, []⟩ : Beam (Nat × State κ H P)) = b := by cases b; simp_all
    rw [this]
    obtain ⟨hlt, he⟩ := List.getElem?_eq_some_iff.mp hb
    rw [← he, List.set_getElem_self]
  · simp only [stepBody, Bind.bind] at h
    obtain ⟨objects, ho, h⟩ := bind_ok h
    obtain ⟨states, hstates, h⟩ := bind_ok h
    obtain ⟨toCheck, hcheck, h⟩ := bind_ok h
    obtain ⟨probs, hprobs, h⟩ := bind_ok h
    obtain ⟨branched, hbr, h⟩ := bind_ok h
    obtain ⟨changed, hchg, h⟩ := bind_ok h
    obtain ⟨changed2, hchg2, h⟩ := bind_ok h
    obtain ⟨st1, hst1, h⟩ := bind_ok h
    obtain ⟨st2, hst2, h⟩ := bind_ok h
    obtain ⟨b2, hb2, h⟩ := bind_ok h
    injection h with h
    subst h
    have ho : b.heap = objects := by
      simp only [plainOps, Except.ok.injEq] at ho; exact ho
    subst ho
    obtain ⟨a1, a2⟩ := branchAll_room hr hG hO (objects := b.heap.map (·.2))
      (by intro s hs; obtain ⟨x, hx', rfl⟩ := List.mem_map.mp hs; exact hi x hx')
      (by intro s hs; obtain ⟨x, hx', rfl⟩ := List.mem_map.mp hs; exact hx x hx') hstates hcheck
    obtain ⟨p1, p2⟩ := mapM_iff hprobs
    obtain ⟨k1, k2⟩ := mapM_iff hbr
    obtain ⟨c1, c2⟩ := mapM_iff hchg
    obtain ⟨g1, g2⟩ := mapM_iff hchg2
    obtain ⟨kept, hkept, hst2⟩ := foldlM_addKept hst2
    obtain ⟨e1, e2⟩ := mapM_iff hkept
    have chord : ∀ ps, ps ∈ probs ↔ ∃ x ∈ b.heap, Chord d x.2 ps := by
      intro ps
      rw [p1]
      constructor
      · rintro ⟨s2, hs2, hk⟩
        obtain ⟨s, hs, s1, r, ids, c, f1, f2, f3, f4, f5, f6⟩ := (a1 s2).mp hs2
        obtain ⟨x, hx', rfl⟩ := List.mem_map.mp hs
        exact ⟨x, hx', s1, s2, r, ids, c, ps, f1, f2, f3, f4, f5, f6, hk⟩
      · rintro ⟨x, hx', s1, s2, r, ids, c, ps, f1, f2, f3, f4, f5, f6, hk⟩
        exact ⟨s2, (a1 s2).mpr ⟨x.2, List.mem_map.mpr ⟨x, hx', rfl⟩, s1, r, ids, c, f1, f2, f3, f4, f5, f6⟩, hk⟩
    refine ⟨changed2 ++ kept, ?_, ?_, st2, b2, ?_, ?_, rfl, ?_⟩
    · intro t
      rw [List.mem_append]
      constructor
      · rintro (ht | ht)
        · obtain ⟨s4, hs4, hh⟩ := (g1 t).mp ht
          obtain ⟨l, hl, hs4⟩ := List.mem_flatten.mp hs4
          obtain ⟨s3, hs3, hkc⟩ := (c1 l).mp hl
          obtain ⟨l3, hl3, hs3⟩ := List.mem_flatten.mp hs3
          obtain ⟨o, ho, rfl⟩ := List.mem_map.mp hl3
          obtain ⟨ps, hps, hkb⟩ := (k1 o).mp ho
          obtain ⟨q, rest, hq, q1, q2⟩ := keyBranch_room hr hkb
          obtain ⟨x, hx', hc⟩ := (chord ps).mp hps
          rw [q1, Option.mem_toList, Option.map_eq_some_iff] at hs3
          obtain ⟨y, hy, rfl⟩ := hs3
          exact ⟨x, hx', .change ps q rest y l s4 t hc hq hy hkc hs4 hh⟩
        · obtain ⟨s3, hs3, hh⟩ := (e1 t).mp ht
          obtain ⟨cost, hcost, rfl⟩ := map_ok hh
          obtain ⟨l3, hl3, hs3⟩ := List.mem_flatten.mp hs3
          obtain ⟨o, ho, rfl⟩ := List.mem_map.mp hl3
          obtain ⟨ps, hps, hkb⟩ := (k1 o).mp ho
          obtain ⟨q, rest, hq, q1, q2⟩ := keyBranch_room hr hkb
          obtain ⟨x, hx', hc⟩ := (chord ps).mp hps
          rw [q2, Option.mem_toList] at hs3
          exact ⟨x, hx', .keep ps q rest s3 cost hc hq hs3 hcost⟩
      · rintro ⟨x, hx', hn⟩
        cases hn with
        | keep ps q rest s3 cost hc hq hs3 hcost =>
          right
          obtain ⟨o, ho, hkb⟩ := mapM_image hbr ((chord ps).mpr ⟨x, hx', hc⟩)
          obtain ⟨q', rest', hq', q1, q2⟩ := keyBranch_room hr hkb
          rw [hq] at hq'
          injection hq' with h1 h2
          subst h1 h2
          refine (e1 _).mpr ⟨s3, List.mem_flatten.mpr ⟨o.2, List.mem_map.mpr ⟨o, ho, rfl⟩, ?_⟩, ?_⟩
          · rw [q2, Option.mem_toList]; exact hs3
          · rw [hcost]; rfl
        | change ps q rest y l s4 t hc hq hy hkc hs4 hh =>
          left
          obtain ⟨o, ho, hkb⟩ := mapM_image hbr ((chord ps).mpr ⟨x, hx', hc⟩)
          obtain ⟨q', rest', hq', q1, q2⟩ := keyBranch_room hr hkb
          rw [hq] at hq'
          injection hq' with h1 h2
          subst h1 h2
          refine (g1 _).mpr ⟨s4, List.mem_flatten.mpr ⟨l, (c1 l).mpr ⟨y.2, List.mem_flatten.mpr
            ⟨o.1, List.mem_map.mpr ⟨o, ho, rfl⟩, ?_⟩, hkc⟩, hs4⟩, hh⟩
          rw [q1, Option.mem_toList, Option.map_eq_some_iff]
          exact ⟨y, hy, rfl⟩
    · have n1 : (branched.map (·.1)).flatten.length ≤ branched.length * 1 := by
        refine (flatten_length_le _ 1 ?_).trans (by simp)
        intro l hl
        obtain ⟨o, ho, rfl⟩ := List.mem_map.mp hl
        obtain ⟨ps, hps, hkb⟩ := (k1 o).mp ho
        obtain ⟨q, rest, hq, q1, q2⟩ := keyBranch_room hr hkb
        rw [q1]; exact Option.length_toList_le
      have n2 : (branched.map (·.2)).flatten.length ≤ branched.length * 1 := by
        refine (flatten_length_le _ 1 ?_).trans (by simp)
        intro l hl
        obtain ⟨o, ho, rfl⟩ := List.mem_map.mp hl
        obtain ⟨ps, hps, hkb⟩ := (k1 o).mp ho
        obtain ⟨q, rest, hq, q1, q2⟩ := keyBranch_room hr hkb
        rw [q2]; exact Option.length_toList_le
      have n3 : changed.flatten.length ≤ changed.length * R := by
        refine flatten_length_le _ R ?_
        intro l hl
        obtain ⟨s3, -, hkc⟩ := (c1 l).mp hl
        obtain ⟨-, o, ho, hle⟩ := keyChanges_facts hkc
        exact hle.trans (hR _ _ ho)
      rw [c2] at n3
      rw [List.length_append, g2, e2]
      rw [k2, p2] at n1 n2
      simp only [Nat.mul_one, List.length_map] at n1 n2 a2
      have n4 : changed.flatten.length ≤ toCheck.length * R := n3.trans (Nat.mul_le_mul_right _ n1)
      calc _ ≤ toCheck.length * R + toCheck.length := Nat.add_le_add n4 n2
        _ = toCheck.length * (R + 1) := by rw [Nat.mul_succ]
        _ ≤ b.heap.length * (G * O) * (R + 1) := Nat.mul_le_mul_right _ a2
        _ = _ := by simp only [fanOut]; rw [Nat.mul_assoc]
    · rw [List.foldlM_append]
      simp only [Bind.bind, hst1, Except.bind, hst2]
    · have := pyGet_nonneg _ _ _ (Int.natCast_nonneg _) hb2
      simpa using this
    · intro x hx' ps q rest y hc hq hy
      obtain ⟨o, ho, hkb⟩ := mapM_image hbr ((chord ps).mpr ⟨x, hx', hc⟩)
      obtain ⟨q', rest', hq', q1, q2⟩ := keyBranch_room hr hkb
      rw [hq] at hq'
      injection hq' with h1 h2
      subst h1 h2
      have hm : y.2 ∈ (branched.map (·.1)).flatten := by
        refine List.mem_flatten.mpr ⟨o.1, List.mem_map.mpr ⟨o, ho, rfl⟩, ?_⟩
        rw [q1, Option.mem_toList, Option.map_eq_some_iff]
        exact ⟨y, hy, rfl⟩
      obtain ⟨l, -, hl⟩ := mapM_image hchg hm
      exact ⟨l, hl⟩

omit [Add κ] [Sub κ] [Zero κ] in
/-- Adding states to beams with room for all of them. -/
theorem fold_room {size : Nat} {lt : Nat × State κ H P → Nat × State κ H P → Bool}
    {new : List (State κ H P)} {st st1 : List (Beam (Nat × State κ H P)) × Nat}
    (hs : ∀ b ∈ st.1, b.size = size) (hroom : held st.1 + new.length ≤ size)
    (h : new.foldlM (addState (plainOps lt)) st = .ok st1) :
    (∀ b ∈ st1.1, b.size = size) ∧ held st1.1 = held st.1 + new.length ∧
    st1.1.length = st.1.length ∧
    ∀ (i : Nat) b b1, st.1[i]? = some b → st1.1[i]? = some b1 →
      ∀ s, (∃ n, (n, s) ∈ b1.heap) ↔ (∃ n, (n, s) ∈ b.heap) ∨ (s ∈ new ∧ s.node.changeIndex = i) := by
  induction new generalizing st with
  | nil =>
    simp only [List.foldlM_nil, Pure.pure, Except.pure, Except.ok.injEq] at h
    subst h
    refine ⟨hs, rfl, rfl, ?_⟩
    intro i b b1 h1 h2 s
    rw [h1] at h2
    injection h2 with h2
    subst h2; simp
  | cons t new ih =>
    simp only [List.foldlM_cons, Bind.bind] at h
    obtain ⟨st2, h2, h⟩ := bind_ok h
    simp only [addState, Bind.bind] at h2
    obtain ⟨b, hb, h2⟩ := bind_ok h2
    obtain ⟨⟨ok, b'⟩, hadd, h2⟩ := bind_ok h2
    simp only [Except.ok.injEq] at h2
    subst h2
    have hb' := pyGet_nonneg _ _ _ (Int.natCast_nonneg _) hb
    simp only [Int.toNat_natCast] at hb'
    have hbm := List.mem_of_getElem? hb'
    have hsz := hs b hbm
    have hle : b.heap.length ≤ held st.1 := le_sum (fun b => b.heap.length) _ _ hbm
    simp only [List.length_cons] at hroom
    simp only [plainOps, Beam.add] at hadd
    rw [if_neg (by omega)] at hadd
    injection hadd with hadd
    injection hadd with _ hadd
    subst hadd
    have hperm := heappush_perm (lt := lt) b.heap (st.2, t)
    have hsum := sum_set (fun b : Beam (Nat × State κ H P) => b.heap.length) st.1 t.node.changeIndex b
      { b with heap := heappush lt b.heap (st.2, t) } hb'
    simp only [hperm.length_eq, List.length_cons] at hsum
    have hheld : held (st.1.set t.node.changeIndex { b with heap := heappush lt b.heap (st.2, t) }) =
        held st.1 + 1 := by simp only [held]; omega
    obtain ⟨j1, j2, j3, j4⟩ := ih (by
      intro b1 hb1
      rcases List.mem_or_eq_of_mem_set hb1 with hb1 | rfl
      · exact hs b1 hb1
      · exact hsz) (by simp only [hheld]; omega) h
    refine ⟨j1, by rw [j2]; simp only [hheld, List.length_cons]; omega, by rw [j3]; simp, ?_⟩
    intro i bi b1 hbi hb1 s
    by_cases he : t.node.changeIndex = i
    · subst he
      rw [hb'] at hbi
      injection hbi with hbi
      subst hbi
      have hlt : t.node.changeIndex < st.1.length := (List.getElem?_eq_some_iff.mp hb').1
      rw [j4 _ { b with heap := heappush lt b.heap (st.2, t) } b1 (by simp [hlt]) hb1 s]
      simp only [hperm.mem_iff, List.mem_cons, Prod.mk.injEq]
      constructor
      · rintro (⟨n, ⟨rfl, rfl⟩ | hn⟩ | ⟨h1, h2⟩)
        · exact .inr ⟨.inl rfl, rfl⟩
        · exact .inl ⟨n, hn⟩
        · exact .inr ⟨.inr h1, h2⟩
      · rintro (⟨n, hn⟩ | ⟨rfl | h1, h2⟩)
        · exact .inl ⟨n, .inr hn⟩
        · exact .inl ⟨st.2, .inl ⟨rfl, rfl⟩⟩
        · exact .inr ⟨h1, h2⟩
    · rw [j4 _ bi b1 (by simp only [List.getElem?_set_ne he]; exact hbi) hb1 s]
      simp only [List.mem_cons]
      constructor
      · rintro (h1 | ⟨h1, h2⟩)
        · exact .inl h1
        · exact .inr ⟨.inr h1, h2⟩
      · rintro (h1 | ⟨h1 | h1, hi⟩)
        · exact .inl h1
        · rw [h1] at hi; exact absurd hi he
        · exact .inr ⟨h1, hi⟩

/-! ## The whole search -/

/-- What holds before the step from `t`. -/
structure Inv (d : SearchData κ ρ H P) (K M t : Nat) (st : List (Beam (Nat × State κ H P)) × Nat) : Prop where
  size : ∀ b ∈ st.1, b.size = d.beamSize
  held : held st.1 ≤ K * M ^ t
  length : st.1.length = d.numInputs + 1
  sound : ∀ (i : Nat) b, st.1[i]? = some b → ∀ x ∈ b.heap, Analysis d x.2 ∧ x.2.node.changeIndex = i ∧
    (i ≠ 0 → ∃ u, Analysis d u ∧ u.node.changeIndex < t ∧ Next d u x.2)
  first : t = 0 → ∀ s, Analysis d s → s.node.changeIndex = 0 → ∃ b n, st.1[0]? = some b ∧ (n, s) ∈ b.heap
  complete : ∀ u s, Analysis d u → u.node.changeIndex < t → Next d u s → t ≤ s.node.changeIndex →
    ∃ b n, st.1[s.node.changeIndex]? = some b ∧ (n, s) ∈ b.heap
  changes : ∀ u ps q rest x, Analysis d u → u.node.changeIndex < t → Chord d u ps → ps.2.prev = q :: rest →
    (charged d ps q).1 = some x → ∃ l, d.keyChanges x.2 = .ok l

/-- What is asked of the search: ranges go forward and stay in the piece, and the beams have room for all states. -/
structure Roomy (d : SearchData κ ρ H P) (K G O R : Nat) : Prop where
  forward : ∀ e ∈ d.ranges, e.1 < e.2.stop ∧ e.2.stop ≤ d.numInputs
  order : WeakOrder d.lt
  keys : ∀ keys, d.initialKeys = .ok keys → keys.length ≤ K
  ranges : d.ranges.length ≤ G
  chords : ∀ e ∈ d.ranges, e.2.order.length ≤ O
  relatives : ∀ s o, d.ksm s = .ok o → o.order.length ≤ R
  size : K * (1 + fanOut G O R) ^ d.numInputs < d.beamSize

theorem Next.forward {K G O R : Nat} (hd : Roomy d K G O R) {s t : State κ H P} (h : Next d s t) :
    s.node.changeIndex < t.node.changeIndex ∧ t.node.changeIndex ≤ d.numInputs := by
  obtain ⟨r, hr, hs⟩ := h.stop
  have := hd.forward _ hr
  simp only at this
  omega

/-- Every analysis that ends at `t` is in the beam there. -/
theorem Inv.here {K G O R M t : Nat} (hd : Roomy d K G O R) {st : List (Beam (Nat × State κ H P)) × Nat}
    (h : Inv d K M t st) {s : State κ H P} (hs : Analysis d s) (hi : s.node.changeIndex = t) :
    ∃ b n, st.1[t]? = some b ∧ (n, s) ∈ b.heap := by
  cases hs with
  | first keys key tonic mode h1 h2 h3 =>
    have hz : t = 0 := hi.symm
    subst hz
    exact h.first rfl _ (.first keys key tonic mode h1 h2 h3) rfl
  | next u s h1 h2 h3 =>
    have := h3.forward hd
    have := h.complete u s h1 (by omega) h3 (by omega)
    rw [hi] at this
    exact this

theorem step_exact {K G O R t : Nat} (hd : Roomy d K G O R) (hsp : Spared d)
    {st st' : List (Beam (Nat × State κ H P)) × Nat} (ht : t < d.numInputs)
    (hI : Inv d K (1 + fanOut G O R) t st) (h : d.step (plainOps d.stateLt) st t = .ok st') :
    Inv d K (1 + fanOut G O R) (t + 1) st' := by
  have hpow : ∀ k, k ≤ d.numInputs → K * (1 + fanOut G O R) ^ k < d.beamSize := fun k hk =>
    (Nat.mul_le_mul_left K (Nat.pow_le_pow_right (by omega) hk)).trans_lt hd.size
  have hroom : Room d.beamSize st.1 := by
    intro b hb
    refine ⟨hI.size b hb, ?_⟩
    have h1 := le_sum (fun b : Beam (Nat × State κ H P) => b.heap.length) _ _ hb
    have h2 := hI.held
    have h3 := hpow t (by omega)
    simp only [SearchExact.held] at h2
    omega
  have hlt : t < st.1.length := by rw [hI.length]; omega
  obtain ⟨b, hb⟩ : ∃ b, st.1[t]? = some b := ⟨_, List.getElem?_eq_getElem hlt⟩
  obtain ⟨new, n1, n2, st1, b1, f1, f2, f3, f4⟩ := step_room hroom hd.ranges hd.chords hd.relatives hb
    (fun x hx => (hI.sound t b hb x hx).2.1)
    (by
      intro y hy r hr _ b' hb' x hx
      obtain ⟨hy1, hy2, -⟩ := hI.sound t b hb y hy
      obtain ⟨hx1, hx2, hx3⟩ := hI.sound r.stop b' hb' x hx
      have hfw := hd.forward _ hr
      simp only at hfw
      obtain ⟨u, hu1, hu2, hu3⟩ := hx3 (by omega)
      exact hsp y.2 r u x.2 hy1 (by rw [hy2]; exact hr) hu1 hu3 (by omega) hx2) h
  have hbh := le_sum (fun b : Beam (Nat × State κ H P) => b.heap.length) _ _ (List.mem_of_getElem? hb)
  have hheld := hI.held
  have hgrow : held st.1 + new.length ≤ K * (1 + fanOut G O R) ^ (t + 1) := by
    have h1 : new.length ≤ held st.1 * fanOut G O R :=
      n2.trans (Nat.mul_le_mul_right _ hbh)
    calc _ ≤ held st.1 + held st.1 * fanOut G O R := by omega
      _ = held st.1 * (1 + fanOut G O R) := by rw [Nat.mul_add, Nat.mul_one]
      _ ≤ K * (1 + fanOut G O R) ^ t * (1 + fanOut G O R) := Nat.mul_le_mul_right _ hheld
      _ = _ := by rw [Nat.pow_succ, Nat.mul_assoc]
  obtain ⟨g1, g2, g3, g4⟩ := fold_room hI.size (hgrow.trans (hpow (t + 1) (by omega)).le) f1
  have hset := sum_set (fun b : Beam (Nat × State κ H P) => b.heap.length) st1.1 t b1 ⟨b1.size, []⟩ f2
  have hget : ∀ i bi, st'.1[i]? = some bi → (i = t ∧ bi.heap = []) ∨ (i ≠ t ∧ st1.1[i]? = some bi) := by
    intro i bi hbi
    rw [f3, List.getElem?_set] at hbi
    split at hbi
    · rename_i he
      split at hbi
      · injection hbi with hbi
        subst hbi
        exact .inl ⟨he.symm, rfl⟩
      · cases hbi
    · rename_i he
      exact .inr ⟨fun h => he h.symm, hbi⟩
  have hput : ∀ (i : Nat), i ≠ t → i ≤ d.numInputs → ∃ bi b1, st.1[i]? = some bi ∧ st1.1[i]? = some b1 ∧
      st'.1[i]? = some b1 := by
    intro i hi hle
    have l1 : i < st.1.length := by rw [hI.length]; omega
    have l2 : i < st1.1.length := by rw [g3, hI.length]; omega
    refine ⟨_, _, List.getElem?_eq_getElem l1, List.getElem?_eq_getElem l2, ?_⟩
    rw [f3, List.getElem?_set_ne (fun h => hi h.symm)]
    exact List.getElem?_eq_getElem l2
  refine ⟨?_, ?_, ?_, ?_, ?_, ?_, ?_⟩
  · intro b' hb'
    rw [f3] at hb'
    rcases List.mem_or_eq_of_mem_set hb' with hb' | rfl
    · exact g1 b' hb'
    · exact g1 b1 (List.mem_of_getElem? f2)
  · refine le_trans ?_ hgrow
    rw [← g2, f3]
    simp only [SearchExact.held, List.length_nil] at hset ⊢
    omega
  · rw [f3, List.length_set, g3, hI.length]
  · intro i bi hbi x hx
    rcases hget i bi hbi with ⟨-, he⟩ | ⟨hne, h1⟩
    · rw [he] at hx; simp at hx
    · have l1 : i < st.1.length := by
        rw [← g3]; exact (List.getElem?_eq_some_iff.mp h1).1
      have h0 := List.getElem?_eq_getElem l1
      rcases (g4 i _ bi h0 h1 x.2).mp ⟨x.1, hx⟩ with ⟨n, hn⟩ | ⟨hn, hi⟩
      · obtain ⟨s1, s2, s3⟩ := hI.sound i _ h0 _ hn
        refine ⟨s1, s2, fun hz => ?_⟩
        obtain ⟨u, u1, u2, u3⟩ := s3 hz
        exact ⟨u, u1, by omega, u3⟩
      · obtain ⟨y, hy, hny⟩ := (n1 x.2).mp hn
        obtain ⟨s1, s2, -⟩ := hI.sound t b hb y hy
        exact ⟨.next y.2 x.2 s1 (by omega) hny, hi, fun _ => ⟨y.2, s1, by omega, hny⟩⟩
  · intro hz; omega
  · intro u s hu hut hn hts
    have hfw := hn.forward hd
    obtain ⟨bi, b2, p1, p2, p3⟩ := hput s.node.changeIndex (by omega) hfw.2
    have key : ∃ n, (n, s) ∈ b2.heap := by
      rw [g4 _ _ _ p1 p2 s]
      by_cases hlt : u.node.changeIndex < t
      · obtain ⟨b', n, q1, q2⟩ := hI.complete u s hu hlt hn (by omega)
        rw [p1] at q1
        injection q1 with q1
        subst q1
        exact .inl ⟨n, q2⟩
      · obtain ⟨b', n, q1, q2⟩ := hI.here hd hu (show u.node.changeIndex = t by omega)
        rw [hb] at q1
        injection q1 with q1
        subst q1
        exact .inr ⟨(n1 s).mpr ⟨_, q2, hn⟩, rfl⟩
    obtain ⟨n, hn⟩ := key
    exact ⟨b2, n, p3, hn⟩
  · intro u ps q rest x hu hut hc hq hy
    by_cases hlt : u.node.changeIndex < t
    · exact hI.changes u ps q rest x hu hlt hc hq hy
    · obtain ⟨b', n, q1, q2⟩ := hI.here hd hu (show u.node.changeIndex = t by omega)
      rw [hb] at q1
      injection q1 with q1
      subst q1
      exact f4 _ q2 ps q rest x hc hq hy

theorem steps_exact {K G O R : Nat} (hd : Roomy d K G O R) (hsp : Spared d) (n : Nat) {t : Nat}
    {st st' : List (Beam (Nat × State κ H P)) × Nat} (ht : t + n = d.numInputs)
    (hI : Inv d K (1 + fanOut G O R) t st)
    (h : (List.range' t n).foldlM (d.step (plainOps d.stateLt)) st = .ok st') :
    Inv d K (1 + fanOut G O R) d.numInputs st' := by
  induction n generalizing t st with
  | zero =>
    simp only [List.range'_zero, List.foldlM_nil, Pure.pure, Except.pure, Except.ok.injEq] at h
    subst h
    obtain rfl : t = d.numInputs := by omega
    exact hI
  | succ n ih =>
    simp only [List.range'_succ, List.foldlM_cons, Bind.bind] at h
    obtain ⟨st1, h1, h⟩ := bind_ok h
    exact ih (by omega) (step_exact hd hsp (by omega) hI h1) h

theorem initial_exact {K G O R : Nat} (hd : Roomy d K G O R)
    {st : List (Beam (Nat × State κ H P)) × Nat} (h : d.initialBeams (plainOps d.stateLt) = .ok st) :
    Inv d K (1 + fanOut G O R) 0 st := by
  simp only [initialBeams, Bind.bind] at h
  obtain ⟨keys, hk, h⟩ := bind_ok h
  obtain ⟨⟨b, n⟩, hb, h⟩ := bind_ok h
  injection h with h
  subst h
  have key : ∀ (l : List Int) (b0 b : Beam (Nat × State κ H P)) (n0 n : Nat),
      l.foldlM (d.addInitial (plainOps d.stateLt)) (b0, n0) = .ok (b, n) →
      b.size = b0.size ∧ b.heap.length = b0.heap.length + l.length ∧
      ∀ s, (∃ k, (k, s) ∈ b.heap) ↔ (∃ k, (k, s) ∈ b0.heap) ∨ ∃ key ∈ l, ∃ tonic mode,
        pyGet d.labels.key key = .ok (tonic, mode) ∧
        s = State.initial key d.hashLength (some (d.icm (decide (mode = .minor)))) := by
    intro l
    induction l with
    | nil =>
      intro b0 b n0 n h
      simp only [List.foldlM_nil, Pure.pure, Except.pure, Except.ok.injEq, Prod.mk.injEq] at h
      obtain ⟨rfl, rfl⟩ := h
      simp
    | cons k l ih =>
      intro b0 b n0 n h
      simp only [List.foldlM_cons, Bind.bind] at h
      obtain ⟨⟨b1, m1⟩, h1, h⟩ := bind_ok h
      simp only [addInitial, Bind.bind] at h1
      obtain ⟨⟨tonic, mode⟩, htm, h1⟩ := bind_ok h1
      obtain ⟨⟨r, b'⟩, hadd, h1⟩ := bind_ok h1
      simp only [Except.ok.injEq, Prod.mk.injEq] at h1
      obtain ⟨rfl, rfl⟩ := h1
      simp only [plainOps, Beam.add] at hadd
      rw [if_neg (by simp)] at hadd
      injection hadd with hadd
      injection hadd with _ hadd
      subst hadd
      have hperm := heappush_perm (lt := d.stateLt) b0.heap
        (n0, State.initial k d.hashLength (some (d.icm (decide (mode = .minor)))))
      obtain ⟨i1, i2, i3⟩ := ih _ _ _ _ h
      refine ⟨i1, by rw [i2, hperm.length_eq]; simp only [List.length_cons]; omega, fun s => ?_⟩
      rw [i3]
      simp only [hperm.mem_iff, List.mem_cons, Prod.mk.injEq]
      constructor
      · rintro (⟨j, ⟨rfl, rfl⟩ | hj⟩ | ⟨key, hk', x⟩)
        · exact .inr ⟨k, .inl rfl, tonic, mode, htm, rfl⟩
        · exact .inl ⟨j, hj⟩
        · exact .inr ⟨key, .inr hk', x⟩
      · rintro (⟨j, hj⟩ | ⟨key, rfl | hk', x⟩)
        · exact .inl ⟨j, .inr hj⟩
        · obtain ⟨tonic', mode', e, rfl⟩ := x
          rw [htm] at e
          injection e with e
          injection e with e1 e2
          subst e1 e2
          exact .inl ⟨n0, .inl ⟨rfl, rfl⟩⟩
        · exact .inr ⟨key, hk', x⟩
  obtain ⟨k1, k2, k3⟩ := key keys _ _ _ _ hb
  have hget : ∀ i bi, (b :: List.replicate d.numInputs ((plainOps d.stateLt).new d.beamSize))[i]? = some bi →
      (i = 0 ∧ bi = b) ∨ bi = ⟨d.beamSize, []⟩ := by
    intro i bi hbi
    cases i with
    | zero => simp only [List.getElem?_cons_zero, Option.some.injEq] at hbi; exact .inl ⟨rfl, hbi.symm⟩
    | succ i =>
      simp only [List.getElem?_cons_succ, List.getElem?_replicate] at hbi
      split at hbi
      · injection hbi with hbi; exact .inr hbi.symm
      · cases hbi
  refine ⟨?_, ?_, by simp, ?_, ?_, ?_, fun u ps q rest x _ hu => absurd hu (Nat.not_lt_zero _)⟩
  · intro b' hb'
    obtain ⟨i, hi⟩ := List.getElem?_of_mem hb'
    rcases hget i b' hi with ⟨-, rfl⟩ | rfl
    · exact k1
    · rfl
  · have hz : ∀ m : Nat, (List.map (fun b : Beam (Nat × State κ H P) => b.heap.length)
        (List.replicate m ((plainOps d.stateLt).new d.beamSize))).sum = 0 := by
      intro m
      induction m with
      | zero => rfl
      | succ m ih => simp only [List.replicate_succ, List.map_cons, List.sum_cons, ih]; rfl
    simp only [SearchExact.held, List.map_cons, List.sum_cons, hz, k2, Nat.pow_zero, Nat.mul_one, Nat.add_zero]
    have := hd.keys keys hk
    simp only [plainOps, Beam.new, List.length_nil]
    omega
  · intro i bi hbi x hx
    rcases hget i bi hbi with ⟨rfl, rfl⟩ | rfl
    · obtain ⟨k, hk'⟩ | ⟨key, hkey, tonic, mode, h1, h2⟩ := (k3 x.2).mp ⟨x.1, hx⟩
      · simp [plainOps, Beam.new] at hk'
      · rw [h2]
        exact ⟨.first keys key tonic mode hk hkey h1, rfl, fun h => absurd rfl h⟩
    · simp at hx
  · intro _ s hs hz
    refine ⟨b, ?_⟩
    cases hs with
    | first keys' key tonic mode h1 h2 h3 =>
      rw [hk] at h1
      injection h1 with h1
      subst h1
      obtain ⟨n, hn⟩ := (k3 _).mpr (.inr ⟨key, h2, tonic, mode, h3, rfl⟩)
      exact ⟨n, rfl, hn⟩
    | next u s h1 h2 h3 =>
      have := h3.forward hd
      omega
  · intro u s _ hu; omega

theorem searchWith_exact {K G O R : Nat} (hd : Roomy d K G O R) (hsp : Spared d)
    (res : Option (State κ H P)) (h : d.searchWith (plainOps d.stateLt) = .ok res) :
    (∀ s, res = some s → Analysis d s ∧ s.node.changeIndex = d.numInputs) ∧
    (∀ t, Analysis d t → t.node.changeIndex = d.numInputs →
      ∃ s, res = some s ∧ d.lt s.node.logProb t.node.logProb = false) := by
  simp only [searchWith, Bind.bind] at h
  obtain ⟨st, hst, h⟩ := bind_ok h
  obtain ⟨st1, hst1, h⟩ := bind_ok h
  obtain ⟨b, hb, h⟩ := bind_ok h
  obtain ⟨top, htop, h⟩ := bind_ok h
  injection h with h
  rw [List.range_eq_range'] at hst1
  have hI := steps_exact hd hsp d.numInputs (by omega) (initial_exact hd hst) hst1
  have hb' := pyGet_nonneg _ _ _ (Int.natCast_nonneg _) hb
  simp only [Int.toNat_natCast] at hb'
  simp only [plainOps, Except.ok.injEq, Beam.topState] at htop
  have hw : WeakOrder d.stateLt := ⟨fun a b => hd.order.asymm _ _, fun a b c => hd.order.negtrans _ _ _⟩
  constructor
  · intro s hs
    subst hs
    cases top with
    | none => cases h
    | some x =>
      simp only [Option.map_some, Option.some.injEq] at h
      subst h
      have := hI.sound _ b hb' x (pyMax_mem _ _ _ htop)
      exact ⟨this.1, this.2.1⟩
  · intro t ht hi
    obtain ⟨b', n, e1, e2⟩ := hI.here hd ht hi
    rw [hb'] at e1
    injection e1 with e1
    subst e1
    cases top with
    | none => rw [pyMax_none _ _ htop] at e2; simp at e2
    | some x =>
      refine ⟨x.2, h.symm, ?_⟩
      exact (pyMax_spec hw _ _ htop).2 _ e2

/-- A search with room for all states that returns has raised at no change of key that may follow an
analysis. -/
theorem searchWith_changes {K G O R : Nat} (hd : Roomy d K G O R) (hsp : Spared d)
    {res : Option (State κ H P)} (h : d.searchWith (plainOps d.stateLt) = .ok res)
    {s : State κ H P} {ps : ρ × State κ H P} {q : Node κ H P} {rest : List (Node κ H P)}
    {x : State κ H P × State κ H P} (hs : Analysis d s) (hc : Chord d s ps) (hq : ps.2.prev = q :: rest)
    (hx : (charged d ps q).1 = some x) : ∃ l, d.keyChanges x.2 = .ok l := by
  simp only [searchWith, Bind.bind] at h
  obtain ⟨st, hst, h⟩ := bind_ok h
  obtain ⟨st1, hst1, h⟩ := bind_ok h
  rw [List.range_eq_range'] at hst1
  have hI := steps_exact hd hsp d.numInputs (by omega) (initial_exact hd hst) hst1
  refine hI.changes s ps q rest x hs ?_ hc hq hx
  obtain ⟨r, hr, -⟩ := hc.stop
  have := hd.forward _ hr
  simp only at this
  omega

/-- C133 (partial): with plain beams that have room for all states, a search that never takes the quick
exit returns an analysis of the whole piece with the greatest log probability of all of them; and None
only if there is none. What is missing is false (`C133_exit_fails`, `C133_hash_fails`). -/
theorem C133_spared_partial [DecidableEq κ] [DecidableEq H] [DecidableEq P] {K G O R : Nat}
    (hd : Roomy d K G O R) (hp : d.hashLength = none) (hsp : Spared d) (res : Option (State κ H P))
    (h : d.search = .ok res) :
    (∀ s, res = some s → Analysis d s ∧ s.node.changeIndex = d.numInputs) ∧
    (∀ t, Analysis d t → t.node.changeIndex = d.numInputs →
      ∃ s, res = some s ∧ d.lt s.node.logProb t.node.logProb = false) := by
  simp only [SearchData.search, hp] at h
  exact searchWith_exact hd hsp res h

omit [Add κ] [Sub κ] [Zero κ] in
/-- No two candidate ranges end at the same note: the chord changes are known. -/
def OneStart (d : SearchData κ ρ H P) : Prop :=
  ∀ e ∈ d.ranges, ∀ e' ∈ d.ranges, e.2.stop = e'.2.stop → e.1 = e'.1

theorem OneStart.spared (h : OneStart d) : Spared d := by
  intro s r u t _ hr _ hn hlt hst
  obtain ⟨r', hr', hs'⟩ := hn.stop
  have := h _ hr _ hr' (by simp only; omega)
  simp only at this
  omega

/-- C133 (partial): where the chord changes are known, a search with plain beams that have room for all
states returns an analysis with the greatest log probability. -/
theorem C133_chain_partial [DecidableEq κ] [DecidableEq H] [DecidableEq P] {K G O R : Nat}
    (hd : Roomy d K G O R) (hp : d.hashLength = none) (hone : OneStart d) (res : Option (State κ H P))
    (h : d.search = .ok res) :
    (∀ s, res = some s → Analysis d s ∧ s.node.changeIndex = d.numInputs) ∧
    (∀ t, Analysis d t → t.node.changeIndex = d.numInputs →
      ∃ s, res = some s ∧ d.lt s.node.logProb t.node.logProb = false) :=
  C133_spared_partial hd hp hone.spared res h

end

/-- C133: the chord changes are known where no change probability of an onset is between the two
thresholds. -/
theorem C133_ranges {κ ρ H P π δ : Type} [LinearOrder π] [AddCommGroup κ] [AddCommMonoid δ] [LinearOrder δ]
    (d : SearchData κ ρ H P) (A : RangeInput π κ δ) (hmm : A.minChange ≤ A.maxNoChange)
    (hsure : ∀ i, A.dur (i - 1) ≠ 0 → A.changeProb i < A.minChange ∨ A.maxNoChange < A.changeProb i)
    (rs : List (Nat × Nat × κ)) (rj : List κ) (h : RangeInput.getChordRanges A = .ok (rs, rj))
    (hrs : ∀ e ∈ d.ranges, ∃ lp, (e.1, e.2.stop, lp) ∈ rs) : OneStart d := by
  have key : ∀ s1 s2 e lp1 lp2, (s1, e, lp1) ∈ rs → (s2, e, lp2) ∈ rs → ¬ s1 < s2 := by
    intro s1 s2 e lp1 lp2 h1 h2 hlt
    obtain ⟨-, -, -, -, c1, -⟩ := RangeInput.C25_sound A hmm rs rj h s1 e lp1 h1
    obtain ⟨a2, b2, st2, -, -, -⟩ := RangeInput.C25_sound A hmm rs rj h s2 e lp2 h2
    rcases st2 with rfl | ⟨s', lp', h3⟩
    · omega
    · obtain ⟨-, -, -, e3, -, -⟩ := RangeInput.C25_sound A hmm rs rj h s' s2 lp' h3
      rcases e3 with rfl | ⟨e4, e5⟩
      · omega
      · have := c1 s2 hlt a2 e4
        rcases hsure s2 e4 with h | h
        · exact absurd e5 (not_le.mpr h)
        · exact absurd this (not_le.mpr h)
  intro e he e' he' hst
  obtain ⟨lp, h1⟩ := hrs e he
  obtain ⟨lp', h2⟩ := hrs e' he'
  rw [← hst] at h2
  have := key _ _ _ _ _ h1 h2
  have := key _ _ _ _ _ h2 h1
  omega

/-! ## Without the quick exit -/

section
variable {κ ρ H P : Type} [Add κ] [Sub κ] [Zero κ] {d : SearchData κ ρ H P}

/-- What can be analysed does not depend on the comparison of the quick exit. -/
theorem Analysis.anyGe {g : κ → κ → Bool} {s : State κ H P} (h : Analysis { d with ge := g } s) :
    Analysis d s := by
  have chord : ∀ {s ps}, Chord { d with ge := g } s ps → Chord d s ps := by
    rintro s ps ⟨s1, s2, r, ids, c, ps, h1, h2, h3, h4, h5, h6, h7⟩
    exact ⟨s1, s2, r, ids, c, ps, h1, h2, h3, h4, h5, h6, h7⟩
  have loop : ∀ (F : Option Int) (s : State κ H P) o len rels room,
      SearchData.keyLoop { d with ge := g } F s o len rels room = d.keyLoop F s o len rels room := by
    intro F s o len rels
    induction rels with
    | nil => intro _; rfl
    | cons rel rels ih =>
      intro room
      have ih' := funext ih
      simp only [keyLoop, ih']
      rfl
  have changes : ∀ s : State κ H P, SearchData.keyChanges { d with ge := g } s = d.keyChanges s := by
    intro s
    simp only [keyChanges, loop]
    rfl
  induction h with
  | first keys key tonic mode h1 h2 h3 => exact .first keys key tonic mode h1 h2 h3
  | next s t _ hlt hn ih =>
    refine .next s t ih hlt ?_
    cases hn with
    | keep ps q rest s3 cost h1 h2 h3 h4 => exact .keep ps q rest s3 cost (chord h1) h2 h3 h4
    | change ps q rest x l s4 t h1 h2 h3 h4 h5 h6 =>
      rw [changes] at h4
      exact .change ps q rest x l s4 t (chord h1) h2 h3 h4 h5 h6

end

/-! ## Concrete searches -/

/-- Three notes; chord 0 on the first two or chord 0 and chord 1, then chord 2. The CSM does not expect
chord 2 after chord 0. -/
def exitDemo : SearchData Int Int Unit Unit :=
  { demo none 3 [(0, ⟨1, -1, -1, [-1, -1, -1], [0], 1⟩), (0, ⟨2, -1, -1, [-1, -1, -1], [0], 1⟩),
      (1, ⟨2, -3, -1, [-1, -1, -1], [1], 1⟩), (2, ⟨3, -1, -1, [-1, -1, -1], [2], 1⟩)]
      [-1, -1, -1] [0, -1, -1] with
    beamSize := 2000000
    minChange := 6
    csmCost := fun s => .ok (if s.node.chord = some 2 ∧ (s.prev.head?.bind (·.chord)) = some 0 then -100 else -1) }

/-- Three notes and three ranges in a row; chord 0 or chord 1 on the first, then chords 2 and 1. The CSM
does not expect chord 1 if chord 0 was two chords ago. Beams are hashed by the last chord. -/
def hashDemo : SearchData Int Int Unit Unit :=
  { demo (some 1) 3 [(0, ⟨1, -1, -1, [-1, -2, -1], [0, 1], 2⟩), (1, ⟨2, -1, -1, [-1, -1, -1], [2], 1⟩),
      (2, ⟨3, -1, -1, [-1, -1, -1], [1], 1⟩)] [-1, -1, -1] [0, -1, -1] with
    beamSize := 4000000
    minChange := 6
    csmCost := fun s => .ok (if s.node.chord = some 1 ∧ ((s.prev[1]?).bind (·.chord)) = some 0 then -100 else -1) }

theorem intOrder : WeakOrder (fun a b : Int => decide (a < b)) :=
  ⟨fun a b h => by simp only [decide_eq_true_eq, decide_eq_false_iff_not] at *; omega,
   fun a b c h1 h2 => by simp only [decide_eq_false_iff_not] at *; omega⟩

theorem exitDemo_roomy (g : Int → Int → Bool) : Roomy { exitDemo with ge := g } 1 4 1 24 where
  forward := by simp [exitDemo, demo]
  order := intOrder
  keys keys h := by
    have : ({ exitDemo with ge := g } : SearchData Int Int Unit Unit).initialKeys = .ok [0] := rfl
    rw [this] at h
    injection h with h
    subst h; simp
  ranges := by simp [exitDemo, demo]
  chords := by simp [exitDemo, demo]
  relatives s o h := by
    simp only [exitDemo, demo, Except.ok.injEq] at h
    subst h; decide
  size := by simp only [exitDemo, demo]; decide

theorem hashDemo_roomy (h : Option Nat) : Roomy { hashDemo with hashLength := h } 1 3 2 24 where
  forward := by simp [hashDemo, demo]
  order := intOrder
  keys keys h' := by
    have : ({ hashDemo with hashLength := h } : SearchData Int Int Unit Unit).initialKeys = .ok [0] := rfl
    rw [this] at h'
    injection h' with h'
    subst h'; simp
  ranges := by simp [hashDemo, demo]
  chords := by simp [hashDemo, demo]
  relatives s o h' := by
    simp only [hashDemo, demo, Except.ok.injEq] at h'
    subst h'; decide
  size := by simp only [hashDemo, demo]; decide

theorem hashDemo_oneStart (h : Option Nat) : OneStart { hashDemo with hashLength := h } := by
  simp [OneStart, hashDemo, demo]

theorem found {r : Py (Option (State Int Unit Unit))} {n : Int}
    (h : (r.toOption.bind id).map (fun s => s.node.logProb) = some n) :
    ∃ s, r = .ok (some s) ∧ s.node.logProb = n := by
  cases r with
  | error e => cases h
  | ok o =>
    cases o with
    | none => cases h
    | some s =>
      simp only [Except.toOption, Option.bind_some, id_eq, Option.map_some, Option.some.injEq] at h
      exact ⟨s, rfl, h⟩

/-- C133 fails: the beams are never full, but the quick exit drops an analysis of the first two notes that
is a little worse than another one then, and better later. The result has the log probability -109, the
best analysis has -14. -/
theorem C133_exit_fails : ∃ (d : SearchData Int Int Unit Unit) (s t : State Int Unit Unit),
    Roomy d 1 4 1 24 ∧ d.hashLength = none ∧ d.search = .ok (some s) ∧ Analysis d t ∧
    t.node.changeIndex = d.numInputs ∧ s.node.logProb = -109 ∧ t.node.logProb = -14 := by
  obtain ⟨s, hs, hsl⟩ := found (r := exitDemo.search) (n := -109) (by decide +kernel)
  obtain ⟨t, ht, htl⟩ := found (r := SearchData.search { exitDemo with ge := fun _ _ => false }) (n := -14)
    (by decide +kernel)
  have := (C133_spared_partial (exitDemo_roomy _) rfl (fun _ _ _ _ _ _ _ _ _ _ => rfl) _ ht).1 t rfl
  exact ⟨exitDemo, s, t, exitDemo_roomy _, rfl, hs, this.1.anyGe, this.2, hsl, htl⟩

/-- C133 fails with hashed beams: of two analyses that end with the same chords, the better one is kept,
though the other one is better later. The result has the log probability -111, the best analysis has -13. -/
theorem C133_hash_fails : ∃ (d : SearchData Int Int Unit Unit) (s t : State Int Unit Unit),
    Roomy d 1 3 2 24 ∧ OneStart d ∧ d.search = .ok (some s) ∧ Analysis d t ∧
    t.node.changeIndex = d.numInputs ∧ s.node.logProb = -111 ∧ t.node.logProb = -13 := by
  obtain ⟨s, hs, hsl⟩ := found (r := hashDemo.search) (n := -111) (by decide +kernel)
  obtain ⟨t, ht, htl⟩ := found (r := hashDemo.searchWith (plainOps hashDemo.stateLt)) (n := -13)
    (by decide +kernel)
  have := (searchWith_exact (hashDemo_roomy (some 1)) (hashDemo_oneStart (some 1)).spared _ ht).1 t rfl
  exact ⟨hashDemo, s, t, hashDemo_roomy (some 1), hashDemo_oneStart (some 1), hs, this.1, this.2, hsl, htl⟩

/-- With plain beams the same search returns the best of all analyses, and there are others. -/
example : ∃ s, SearchData.search { hashDemo with hashLength := none } = .ok (some s) ∧ s.node.logProb = -13 ∧
    getChords s = ([some 1, some 2, some 1], [0, 1, 2, 3]) ∧
    ∀ t, Analysis { hashDemo with hashLength := none } t → t.node.changeIndex = 3 → t.node.logProb ≤ -13 := by
  have hd : (SearchData.search { hashDemo with hashLength := none } |>.toOption.bind id).map
      (fun s => (s.node.logProb, getChords s)) = some (-13, ([some 1, some 2, some 1], [0, 1, 2, 3])) := by
    decide +kernel
  obtain ⟨s, hs, hsl⟩ := found (r := SearchData.search { hashDemo with hashLength := none }) (n := -13)
    (by decide +kernel)
  rw [hs] at hd
  simp only [Except.toOption, Option.bind_some, id_eq, Option.map_some, Option.some.injEq, Prod.mk.injEq] at hd
  refine ⟨s, hs, hsl, hd.2, fun t ht hi => ?_⟩
  obtain ⟨s', e, hle⟩ := (C133_chain_partial (hashDemo_roomy none) rfl (hashDemo_oneStart none) _ hs).2 t ht hi
  injection e with e
  subst e
  simp only [hashDemo, demo, decide_eq_false_iff_not] at hle
  omega

end Verif.SearchExact
