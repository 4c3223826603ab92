import Verif.Lemmas.BeamFills
import Verif.Props.SearchRuns
import Verif.Props.Ranges

/-!
# The beam search finds an analysis (C132)
-/

namespace Verif.SearchFinds

open Verif State SearchData SearchTotal

section
variable {κ ρ H P : Type}

/-- Candidate ranges lead from `a` to the end of the piece. -/
inductive Leads (d : SearchData κ ρ H P) : Nat → Prop
  | done : Leads d d.numInputs
  | step (a : Nat) (r : RangeData κ) : (a, r) ∈ d.ranges → Leads d r.stop → Leads d a

variable [Add κ] [Sub κ] [Zero κ]

/-- The assumptions under which the search finds an analysis. -/
structure Finds (d : SearchData κ ρ H P) (W : Bool → P → Prop) : Prop extends Runs d W where
  leads : Leads d 0
  /-- Each range has a class to branch on. -/
  branches : ∀ e ∈ d.ranges, 1 ≤ e.2.maxIndex
  /-- No chord is too far from any key. -/
  near : ∀ a r c root ct inv bass key tonic mode, (a, r) ∈ d.ranges → FitsRange d c a r →
    pyGet d.labels.chord c = .ok (root, ct, inv) → bassNote ct root inv d.pitchType false = .ok bass →
    pyGet d.labels.key key = .ok (tonic, mode) → outside (root - tonic) = false ∧ outside (bass - tonic) = false
  /-- Each probability is enough to change key, or little enough not to. -/
  decides : ∀ p, d.leProb d.minChange p = true ∨ d.leProb p d.maxNoChange = true
  /-- All keys can be reached from the current one. -/
  reaches : ∀ s o, Cand d s → Sound d W s → d.ksm s = .ok o → ∀ key, 0 ≤ key →
    (∃ tm, pyGet d.labels.key key = .ok tm) → ∃ rel ∈ o.order, d.targetKey (setKsm s o) rel = .ok (some key)
  /-- Forced keys are labels. -/
  forced : ∀ f ∈ d.forcedKeys, f = -1 ∨ (0 ≤ f ∧ ∃ tm, pyGet d.labels.key f = .ok tm)

variable {d : SearchData κ ρ H P} {W : Bool → P → Prop}

theorem branchState_near (hr : Finds d W) {s : State κ H P} {r : RangeData κ} {c : Int}
    (hs : Good d s) (hran : (soundPhases hr.toRuns).ran s) (hm : (s.node.changeIndex, r) ∈ d.ranges)
    (hc : FitsRange d c s.node.changeIndex r) : ∃ s', d.branchState s.node.changeIndex s r c = .ok (some s') ∧
      s'.node.changeIndex = r.stop ∧ s'.node.mustKey = false := by
  obtain ⟨⟨lp, hlp⟩, root, ct, inv, bass, h1, h2⟩ := hr.chords _ _ _ hm hc
  simp only [branchState, hlp, Bind.bind, Except.bind]
  split
  · rename_i hch
    cases hp : s.prev with
    | nil =>
      obtain ⟨⟨g, hg⟩, -⟩ := hs
      have hc := hg.chain hr.hash
      rw [hp] at hc
      have := hc.1
      rw [← hch] at this
      cases this
    | cons p ps =>
      have hk := hran.1.keys p (by simp [hp])
      obtain ⟨⟨tonic, mode⟩, hk⟩ := hk
      obtain ⟨n1, n2⟩ := hr.near _ _ _ _ _ _ _ _ _ _ hm hc h1 h2 hk
      simp only [State.rejoin, ← hch, chordLabelOf, h1, h2, hp, hk, n1, n2, Bind.bind, Except.bind, Except.map]
      exact ⟨_, rfl, rfl, rfl⟩
  · obtain ⟨k, hk⟩ := getKey_total hran.1
    obtain ⟨⟨g, hg⟩, -⟩ := hs
    have hkt := (getKeyAux_ok d.labels g d.hashLength _ _ (hg.chain hr.hash) k hk).1
    obtain ⟨n1, n2⟩ := hr.near _ _ _ _ _ _ _ _ _ _ hm hc h1 h2 hkt
    simp only [chordTransition, chordLabelOf, h1, h2, hk, outside_padded n1, outside_padded n2, n1, n2,
      Bind.bind, Except.bind]
    exact ⟨_, rfl, rfl, rfl⟩

variable {β : Type} {ops : BeamOps β (Nat × State κ H P)}

/-- A beam is not empty. -/
def Filled (ops : BeamOps β (Nat × State κ H P)) (beams : List β) (i : Nat) : Prop :=
  ∃ b, beams[i]? = some b ∧ ops.len b ≠ 0

omit [Add κ] [Sub κ] [Zero κ] in
theorem fitsAt_filled {T : Total ops d.beamSize} (F : Fills T) {start : Nat} {st : List β × Nat}
    (h : Alive d T start st) {s : State κ H P} (hs : Later d start s) {ck : Bool}
    (hf : fitsAt ops start st.1 s ck = .ok false) : Filled ops st.1 s.node.changeIndex := by
  simp only [fitsAt] at hf
  split at hf
  · cases hf
  · obtain ⟨b, hb, hg, hi⟩ := h.get (Nat.le_of_lt hs.1) hs.2
    simp only [hb, Bind.bind, Except.bind] at hf
    exact ⟨b, hg, F.refuses _ _ _ _ hi hf⟩

theorem branchLoop_filled (hr : Finds d W) {T : Total ops d.beamSize} (F : Fills T) {st : List β × Nat}
    {s : State κ H P} {r : RangeData κ} (ha : Alive d T s.node.changeIndex st)
    (hs : Good d s) (hran : (soundPhases hr.toRuns).ran s) (hm : (s.node.changeIndex, r) ∈ d.ranges)
    {c : Int} {cs : List Int} (hids : FitsRange d c s.node.changeIndex r) {out : List (State κ H P)}
    (h : d.branchLoop ops s.node.changeIndex st.1 s r (c :: cs) = .ok out) :
    (∃ t ∈ out, t.node.changeIndex = r.stop ∧ t.node.mustKey = false) ∨ Filled ops st.1 r.stop := by
  obtain ⟨s', h1, h2, h3⟩ := branchState_near hr hs hran hm hids
  have hl := branchState_later hr.toRuns hs hm hids h1
  simp only [branchLoop, h1, Bind.bind, Except.bind] at h
  obtain ⟨f, hf⟩ := fitsAt_total ha hl false
  simp only [hf] at h
  cases f with
  | false => right; rw [← h2]; exact fitsAt_filled F ha hl hf
  | true =>
    left
    simp only [keepIf, if_true] at h
    obtain ⟨rest, -, rfl⟩ := map_ok h
    exact ⟨s', by simp, h2, h3⟩

theorem branchRange_filled (hr : Finds d W) {T : Total ops d.beamSize} (F : Fills T) {st : List β × Nat}
    {s : State κ H P} {r : RangeData κ} (ha : Alive d T s.node.changeIndex st)
    (hs : Good d s) (hran : (soundPhases hr.toRuns).ran s) (hm : (s.node.changeIndex, r) ∈ d.ranges)
    {out : List (State κ H P)} (h : d.branchRange ops s.node.changeIndex st.1 (s, r) = .ok out) :
    (∃ t ∈ out, t.node.changeIndex = r.stop ∧ t.node.mustKey = false) ∨ Filled ops st.1 r.stop := by
  have hfw := hr.forward _ hm
  have hst := hr.stops _ hm
  have hbr := hr.branches _ hm
  simp only at hfw hst hbr
  simp only [branchRange, Bind.bind] at h
  obtain ⟨e, he, h⟩ := bind_ok h
  cases e with
  | true =>
    right
    simp only [quickExit] at he
    split at he
    · cases he
    · obtain ⟨b, hb, hg, hi⟩ := ha.get (Nat.le_of_lt hfw) hst.1
      simp only [hb, Bind.bind, Except.bind] at he
      split at he
      · cases he
      · rename_i hl
        exact ⟨b, hg, hl⟩
  | false =>
    simp only [Bool.false_eq_true, if_false] at h
    obtain ⟨ids, hids, h⟩ := bind_ok h
    have hfit := branchIds_fits hr.pick hids
    have hne : ids ≠ [] := by
      cases ho : r.order with
      | nil => exact absurd ho hst.2
      | cons x l =>
        simp only [branchIds] at hids
        split at hids
        · obtain ⟨-, -, rfl⟩ := map_ok hids
          simp
        · split at hids
          · obtain ⟨y, -, rfl⟩ := map_ok hids
            split <;> simp [ho]
          · injection hids with hids
            subst hids
            rw [ho]
            obtain ⟨m, hm⟩ : ∃ m, r.maxIndex = m + 1 := ⟨r.maxIndex - 1, by omega⟩
            simp [hm]
    cases ids with
    | nil => exact absurd rfl hne
    | cons c cs => exact branchLoop_filled hr F ha hs hran hm (hfit c (by simp)) h

/-- The key of a state is not the one forced on its last range. -/
def MayChange (d : SearchData κ ρ H P) (s : State κ H P) : Prop :=
  ∀ q rest f, s.prev = q :: rest →
    d.forcedIn d.forcedKeys q.changeIndex s.node.changeIndex = some f → s.node.key ≠ f

theorem keyBranch_filled (hr : Finds d W) {T : Total ops d.beamSize} (F : Fills T) {st : List β × Nat}
    {start : Nat} (ha : Alive d T start st) {ps : ρ × State κ H P} (hl : Later d start ps.2)
    (hm : ps.2.node.mustKey = false) {out : List (State κ H P) × List (State κ H P)}
    (h : d.keyBranch ops start st.1 ps = .ok out) :
    (∃ t ∈ out.1, t.node.changeIndex = ps.2.node.changeIndex ∧ MayChange d t) ∨
      (∃ t ∈ out.2, t.node.changeIndex = ps.2.node.changeIndex) ∨ Filled ops st.1 ps.2.node.changeIndex := by
  simp only [keyBranch] at h
  split at h
  · cases h
  rename_i q rest hq
  simp only [Bind.bind] at h
  obtain ⟨l1, h1, h⟩ := bind_ok h
  obtain ⟨l2, h2, h⟩ := bind_ok h
  injection h with h
  subst h
  generalize d.scale (d.logChange ps.1) ((ps.2.node.changeIndex : Int) - q.changeIndex) = x at h1 h2
  generalize d.scale (d.logNoChange ps.1) ((ps.2.node.changeIndex : Int) - q.changeIndex) = y at h1 h2
  have keep : ∀ (o : Bool × Bool), o.2 = true →
      keepFits ops start st.1 true ((chargeKey o x y ps.2).2.map fun s => (s, s)) = .ok l2 →
      (∃ t ∈ l2, t.node.changeIndex = ps.2.node.changeIndex) ∨ Filled ops st.1 ps.2.node.changeIndex := by
    intro o ho h2
    have hex : ∃ t, (chargeKey o x y ps.2).2 = some t ∧ t.node.changeIndex = ps.2.node.changeIndex := by
      obtain ⟨o1, o2⟩ := o
      simp only at ho
      subst ho
      cases o1 <;> exact ⟨_, rfl, rfl⟩
    obtain ⟨t, ht, hci⟩ := hex
    rw [ht] at h2
    simp only [Option.map_some, keepFits] at h2
    obtain ⟨f, hf, rfl⟩ := map_ok h2
    cases f with
    | true => exact .inl ⟨t, by simp, hci⟩
    | false =>
      right
      rw [← hci]
      exact fitsAt_filled F ha (by simpa [Later, hci] using hl) hf
  have change : ∀ (o : Bool × Bool), o.1 = true →
      keepFits ops start st.1 false (chargeKey o x y ps.2).1 = .ok l1 →
      (∃ t ∈ l1, t.node.changeIndex = ps.2.node.changeIndex ∧ t.node.key = ps.2.node.key ∧
        t.prev = ps.2.prev) ∨ Filled ops st.1 ps.2.node.changeIndex := by
    intro o ho h1
    have hex : ∃ u t, (chargeKey o x y ps.2).1 = some (u, t) ∧ u.node.changeIndex = ps.2.node.changeIndex ∧
        t.node.changeIndex = ps.2.node.changeIndex ∧ t.node.key = ps.2.node.key ∧ t.prev = ps.2.prev := by
      obtain ⟨o1, o2⟩ := o
      simp only at ho
      subst ho
      cases o2 <;> exact ⟨_, _, rfl, rfl, rfl, rfl, rfl⟩
    obtain ⟨u, t, ht, hci, hct⟩ := hex
    rw [ht] at h1
    simp only [keepFits] at h1
    obtain ⟨f, hf, rfl⟩ := map_ok h1
    cases f with
    | true => exact .inl ⟨t, by simp, hct⟩
    | false =>
      right
      rw [← hci]
      exact fitsAt_filled F ha (by simpa [Later, hci] using hl) hf
  cases hforced : d.forcedIn d.forcedKeys q.changeIndex ps.2.node.changeIndex with
  | some f =>
    by_cases hk : ps.2.node.key = f
    · right
      exact keep (d.keyOptions ps.1 ps.2 q) (by simp [keyOptions, hforced, hk, hm]) h2
    · rcases change (d.keyOptions ps.1 ps.2 q) (by simp [keyOptions, hforced, hk]) h1 with
        ⟨t, ht, c1, c2, c3⟩ | hfill
      · refine .inl ⟨t, ht, c1, ?_⟩
        intro q' rest' f' hq' hf'
        rw [c3, hq] at hq'
        injection hq' with hq' _
        subst hq'
        rw [c1, hforced] at hf'
        injection hf' with hf'
        rw [c2, ← hf']; exact hk
      · exact .inr (.inr hfill)
  | none =>
    rcases hr.decides ps.1 with hd | hd
    · rcases change (d.keyOptions ps.1 ps.2 q) (by simp [keyOptions, hforced, hd]) h1 with
        ⟨t, ht, c1, c2, c3⟩ | hfill
      · refine .inl ⟨t, ht, c1, ?_⟩
        intro q' rest' f' hq' hf'
        rw [c3, hq] at hq'
        injection hq' with hq' _
        subst hq'
        rw [c1, hforced] at hf'
        cases hf'
      · exact .inr (.inr hfill)
    · right
      exact keep (d.keyOptions ps.1 ps.2 q) (by simp [keyOptions, hforced, hd, hm]) h2

omit [Add κ] [Sub κ] [Zero κ] in
theorem covered_range {c : Int} {a b : Nat} (h : Covered d c a b) :
    ∃ a r, (a, r) ∈ d.ranges ∧ FitsRange d c a r := by
  cases h with
  | one h1 h2 => exact ⟨_, _, h1, h2⟩
  | more _ h1 h2 => exact ⟨_, _, h1, h2⟩

/-- The chord of a state is near all keys. -/
theorem cand_near (hr : Finds d W) {s : State κ H P} (hs : Cand d s) {key tonic : Int}
    {mode : KeyMode} (hk : pyGet d.labels.key key = .ok (tonic, mode)) :
    ∃ root ct inv bass, chordLabelOf d.labels s.node.chord = .ok (root, ct, inv) ∧
      bassNote ct root inv d.pitchType false = .ok bass ∧ outside (root - tonic) = false ∧
      outside (bass - tonic) = false := by
  obtain ⟨-, q, rest, -, ⟨c, hc, -, -, hcov⟩, -⟩ := hs
  obtain ⟨a, r, hm, hfit⟩ := covered_range hcov
  obtain ⟨-, root, ct, inv, bass, h1, h2⟩ := hr.chords _ _ _ hm hfit
  obtain ⟨n1, n2⟩ := hr.near _ _ _ _ _ _ _ _ _ _ hm hfit h1 h2 hk
  exact ⟨root, ct, inv, bass, by rw [hc]; exact h1, h2, n1, n2⟩

theorem keyLoop_filled (hr : Finds d W) {s : State κ H P} (hs : Cand d s) (hsd : Sound d W s)
    {F : Option Int} {o : KsmOutput κ H} {len : Int} {rels : List Int} {room : Nat}
    (ho : ∀ rel ∈ rels, ∃ mi, pyGet d.relativeKeys rel = .ok mi)
    (hex : ∃ rel ∈ rels, ∃ key, d.targetKey s rel = .ok (some key) ∧ skipKey F key s.node.key = false)
    {out : List (State κ H P)} (h : d.keyLoop F s o len rels room = .ok out) : out ≠ [] := by
  induction rels generalizing room with
  | nil => obtain ⟨rel, hrel, -⟩ := hex; simp at hrel
  | cons rel rels ih =>
    have ih' := fun room (h : d.keyLoop F s o len rels room = .ok out) hex =>
      ih (fun x hx => ho x (by simp [hx])) hex h
    obtain ⟨target, htar, hkey⟩ := targetKey_total hr.toRuns hsd.fine (ho rel (by simp))
    simp only [keyLoop, htar, Bind.bind, Except.bind] at h
    obtain ⟨rel', hrel', key', ht', hsk'⟩ := hex
    cases target with
    | none =>
      refine ih' room h ?_
      rcases List.mem_cons.mp hrel' with rfl | hm
      · rw [htar] at ht'; cases ht'
      · exact ⟨rel', hm, key', ht', hsk'⟩
    | some key =>
      simp only at h
      split at h
      · rename_i hsk
        refine ih' room h ?_
        rcases List.mem_cons.mp hrel' with rfl | hm
        · rw [htar] at ht'
          injection ht' with ht'
          injection ht' with ht'
          rw [ht', hsk'] at hsk
          cases hsk
        · exact ⟨rel', hm, key', ht', hsk'⟩
      · obtain ⟨⟨tonic, mode⟩, hk⟩ := hkey key rfl
        obtain ⟨root, ct, inv, bass, h1, h2, n1, n2⟩ := cand_near hr hs hk
        obtain ⟨-, q, rest, hq, -⟩ := hs
        cases hlp : pyGet o.priors rel with
        | error e => rw [hlp] at h; cases h
        | ok lp =>
          rw [hlp] at h
          simp only [keyTransition, h1, h2, hk, hq, n1, n2, Bind.bind, Except.bind, Bool.or_self,
            Bool.false_eq_true, if_false, afterKey] at h
          split at h
          · injection h with h
            rw [← h]; simp
          · obtain ⟨l, -, rfl⟩ := map_ok h
            simp

theorem key_labels (hr : Finds d W) : (∃ tm, pyGet d.labels.key 0 = .ok tm) ∧
    ∃ tm, pyGet d.labels.key 1 = .ok tm := by
  rw [hr.keyLabels]
  cases d.pitchType <;> exact ⟨⟨_, by rfl⟩, ⟨_, by rfl⟩⟩

theorem keyChanges_filled (hr : Finds d W) {s : State κ H P} (hs : Cand d s) (hsd : Sound d W s)
    (hmay : MayChange d s) {out : List (State κ H P)} (h : d.keyChanges s = .ok out) :
    ∃ t ∈ out, t.node.changeIndex = s.node.changeIndex := by
  obtain ⟨o, ho, hrel⟩ := hr.ksm s hs hsd
  have hs' : Cand d (setKsm s o) := by
    refine hs.congr (fun g hg => ?_) rfl rfl rfl rfl rfl
    exact Reach.hidden s s.node.csmHidden s.node.ktmHidden (some o.hidden) s.node.csmPrior hg
  have hsd' : Sound d W (setKsm s o) := hsd.congr rfl rfl rfl rfl rfl
  obtain ⟨out', e, hci⟩ := keyChanges_total hr.toRuns hs hsd
  rw [h] at e
  injection e with e
  subst e
  obtain ⟨q, rest, hq⟩ : ∃ q rest, s.prev = q :: rest := by
    obtain ⟨-, q, rest, hq, -⟩ := hs
    exact ⟨q, rest, hq⟩
  have hq' : (setKsm s o).prev = q :: rest := hq
  simp only [keyChanges, ho, Bind.bind, Except.bind, hq'] at h
  have hne : out ≠ [] := by
    refine keyLoop_filled hr hs' hsd' (fun rel hm => (hrel rel hm).2) ?_ h
    cases hF : d.forcedIn d.forcedKeys q.changeIndex s.node.changeIndex with
    | some f =>
      obtain ⟨-, j, -, -, hj, hf1⟩ := forcedIn_some hr.pick hF
      have hk := hmay q rest f hq hF
      rcases hr.forced f (List.mem_of_getElem? hj) with h1 | ⟨h0, hl⟩
      · exact absurd h1 hf1
      · obtain ⟨rel, hm, ht⟩ := hr.reaches s o hs hsd ho f h0 hl
        refine ⟨rel, hm, f, ht, ?_⟩
        have : ¬ f = s.node.key := fun h => hk h.symm
        simp [skipKey, setKsm, this]
    | none =>
      obtain ⟨l0, l1⟩ := key_labels hr
      by_cases hk : s.node.key = 0
      · obtain ⟨rel, hm, ht⟩ := hr.reaches s o hs hsd ho 1 (by omega) l1
        exact ⟨rel, hm, 1, ht, by simp [skipKey, setKsm, hk]⟩
      · obtain ⟨rel, hm, ht⟩ := hr.reaches s o hs hsd ho 0 (by omega) l0
        have : ¬ 0 = s.node.key := fun h => hk h.symm
        exact ⟨rel, hm, 0, ht, by simp [skipKey, setKsm, this]⟩
  cases out with
  | nil => exact absurd rfl hne
  | cons t l => exact ⟨t, by simp, (hci t (by simp)).1⟩

/-! ## Adding to the beams -/

omit [Add κ] [Sub κ] [Zero κ] in
theorem addState_filled {T : Total ops d.beamSize} (F : Fills T) {st st' : List β × Nat} {start : Nat}
    (ha : Alive d T start st) {s : State κ H P} (hl : Later d start s) (h : addState ops st s = .ok st') :
    Filled ops st'.1 s.node.changeIndex ∧ ∀ i, Filled ops st.1 i → Filled ops st'.1 i := by
  obtain ⟨b, hb, hg, hi⟩ := ha.get (Nat.le_of_lt hl.1) hl.2
  obtain ⟨r, b', hadd, hi'⟩ := T.add _ _ s false hi
  have hb' := F.added _ _ _ _ _ _ hi hadd
  simp only [addState, hb, hadd, Bind.bind, Except.bind, Except.ok.injEq] at h
  subst h
  have hlt : s.node.changeIndex < st.1.length := by rw [ha.len]; have := hl.2; omega
  refine ⟨⟨b', by simp [hlt], hb'⟩, ?_⟩
  rintro i ⟨bi, hbi, hne⟩
  by_cases hi : s.node.changeIndex = i
  · subst hi
    exact ⟨b', by simp [hlt], hb'⟩
  · exact ⟨bi, by simp only [List.getElem?_set, if_neg hi]; exact hbi, hne⟩

omit [Add κ] [Sub κ] [Zero κ] in
/-- A loop that adds a state for each element, at the index of the element. -/
theorem fold_filled {T : Total ops d.beamSize} {f : List β × Nat → State κ H P → Py (List β × Nat)}
    {l : List (State κ H P)} {Q : State κ H P → Prop} {start : Nat} {st st' : List β × Nat} (hQ : ∀ t ∈ l, Q t)
    (hf : ∀ st t st', Alive d T start st → Q t → f st t = .ok st' → Alive d T start st' ∧
      Filled ops st'.1 t.node.changeIndex ∧ ∀ i, Filled ops st.1 i → Filled ops st'.1 i)
    (ha : Alive d T start st) (h : l.foldlM f st = .ok st') :
    Alive d T start st' ∧ (∀ t ∈ l, Filled ops st'.1 t.node.changeIndex) ∧
      ∀ i, Filled ops st.1 i → Filled ops st'.1 i := by
  induction l generalizing st with
  | nil =>
    simp only [List.foldlM_nil, Pure.pure, Except.pure, Except.ok.injEq] at h
    subst h
    exact ⟨ha, by simp, fun i h => h⟩
  | cons t l ih =>
    simp only [List.foldlM_cons, Bind.bind] at h
    obtain ⟨st1, h1, h⟩ := bind_ok h
    obtain ⟨a1, a2, a3⟩ := hf _ _ _ ha (hQ t (by simp)) h1
    obtain ⟨b1, b2, b3⟩ := ih (fun t ht => hQ t (by simp [ht])) a1 h
    refine ⟨b1, ?_, fun i hi => b3 i (a3 i hi)⟩
    intro u hu
    rcases List.mem_cons.mp hu with rfl | hu
    · exact b3 _ a2
    · exact b2 u hu

/-- After a step, the beams that were not empty are not (but for its own), and neither are those at the ends of
the ranges of the step, if there was a state to start from. -/
theorem step_filled (hr : Finds d W) (law : Lawful ops) {T : Total ops d.beamSize} (F : Fills T)
    {st st' : List β × Nat} {start : Nat} (hlt : start < d.numInputs) (ha : Alive d T start st)
    (hok : BeamsOK d law st) (hst : BeamsInv (soundPhases hr.toRuns) law st)
    (h : d.step ops st start = .ok st') :
    (∀ i, start ≠ i → Filled ops st.1 i → Filled ops st'.1 i) ∧
      (Filled ops st.1 start → ∀ r, (start, r) ∈ d.ranges → Filled ops st'.1 r.stop) := by
  obtain ⟨b, hb, hg, hi⟩ := ha.get (Nat.le_refl _) (Nat.le_of_lt hlt)
  simp only [step, hb, Bind.bind, Except.bind] at h
  split at h
  · rename_i hz
    injection h with h
    subst h
    refine ⟨fun i _ hf => hf, ?_⟩
    rintro ⟨b', hb', hne⟩
    rw [hg] at hb'
    injection hb' with hb'
    subst hb'
    exact absurd hz hne
  · rename_i hnz
    simp only [stepBody, Bind.bind] at h
    obtain ⟨objects, ho, h⟩ := bind_ok h
    obtain ⟨states, hstates, h⟩ := bind_ok h
    obtain ⟨toCheck, hcheck, h⟩ := bind_ok h
    obtain ⟨probs, hprobs, h⟩ := bind_ok h
    obtain ⟨branched, hbr, h⟩ := bind_ok h
    obtain ⟨changed, hchg, h⟩ := bind_ok h
    obtain ⟨changed2, hchg2, h⟩ := bind_ok h
    obtain ⟨st1, hst1, h⟩ := bind_ok h
    obtain ⟨st2, hst2, h⟩ := bind_ok h
    obtain ⟨b2, hb2, h⟩ := bind_ok h
    injection h with h
    have h0 : ∀ s ∈ objects.map (·.2), (Good d s ∧ s.node.changeIndex = start) ∧
        (soundPhases hr.toRuns).beam s := by
      intro s hs
      obtain ⟨x, hx, rfl⟩ := List.mem_map.mp hs
      exact ⟨hok start b hg x (law.states b objects ho x hx),
        hst start b hg x (law.states b objects ho x hx)⟩
    have h1 : (∀ s ∈ states, (Good d s ∧ (soundPhases hr.toRuns).ran s) ∧ s.node.changeIndex = start) ∧
        (objects ≠ [] → states ≠ []) := by
      simp only [csmStates] at hstates
      split at hstates
      · rename_i hz
        injection hstates with hstates
        subst hstates
        exact ⟨fun s hs => ⟨⟨(h0 s hs).1.1, (soundPhases hr.toRuns).first s (h0 s hs).1.1
          ((h0 s hs).1.2.trans hz) (h0 s hs).2⟩, (h0 s hs).1.2⟩, by simp⟩
      · rename_i hz
        refine ⟨mapM_all hstates h0 ?_, ?_⟩
        · intro a b ⟨⟨g1, g2⟩, g3⟩ hab
          have := runCsm_good g1 hab
          exact ⟨⟨this.1, (soundPhases hr.toRuns).csm a b g1 (by omega) g3 hab⟩, this.2.trans g2⟩
        · intro hne
          cases objects with
          | nil => exact absurd rfl hne
          | cons x l =>
            obtain ⟨b', hb', -⟩ := mapM_image hstates (a := x.2) (by simp)
            exact fun hz => by rw [hz] at hb'; simp at hb'
    obtain ⟨h1, h1'⟩ := h1
    obtain ⟨toCheck', hcheck', hl2⟩ := branchAll_total hr.toRuns ha h1
    rw [hcheck] at hcheck'
    injection hcheck' with hcheck'
    subst hcheck'
    have h2 : ∀ t ∈ toCheck, (Cand d t ∧ (soundPhases hr.toRuns).cand t) ∧ Later d start t := fun t ht =>
      ⟨⟨branchAll_cand hr.toOK (fun s hs => ⟨(h1 s hs).1.1, (h1 s hs).2⟩) hcheck t ht,
        branchAll_inv (soundPhases hr.toRuns) h1 hcheck t ht⟩, hl2 t ht⟩
    have h3 : ∀ ps ∈ probs, (Cand d ps.2 ∧ (soundPhases hr.toRuns).tried ps) ∧ Later d start ps.2 :=
      mapM_all hprobs h2 (fun a b ha hab => ⟨⟨runKtm_cand ha.1.1 hab,
        (soundPhases hr.toRuns).ktm a b ha.1.1 ha.1.2 hab⟩, by
          simp only [runKtm] at hab
          obtain ⟨ph, -, rfl⟩ := map_ok hab
          exact ha.2⟩)
    have h4 : ∀ o ∈ branched,
        (∀ t ∈ o.1, (Cand d t ∧ (soundPhases hr.toRuns).changing t) ∧ Later d start t) ∧
        (∀ t ∈ o.2, (Cand d t ∧ (soundPhases hr.toRuns).keeping t) ∧ Later d start t) := by
      refine mapM_all hbr h3 (fun a b hab hb => ?_)
      obtain ⟨g1, g2⟩ := keyBranch_inv (soundPhases hr.toRuns) hab.1.1 hab.1.2 hb
      obtain ⟨out, e, g3, g4⟩ := keyBranch_total ha hab.1.1 hab.2
      rw [hb] at e
      injection e with e
      subst e
      exact ⟨fun t ht => ⟨g1 t ht, g3 t ht⟩, fun t ht => ⟨g2 t ht, g4 t ht⟩⟩
    have h4a : ∀ t ∈ (branched.map (·.1)).flatten,
        (Cand d t ∧ (soundPhases hr.toRuns).changing t) ∧ Later d start t := by
      intro s hs
      obtain ⟨l, hl, hsl⟩ := List.mem_flatten.mp hs
      obtain ⟨o, ho, rfl⟩ := List.mem_map.mp hl
      exact (h4 o ho).1 s hsl
    have h4b : ∀ t ∈ (branched.map (·.2)).flatten,
        (Cand d t ∧ (soundPhases hr.toRuns).keeping t) ∧ Later d start t := by
      intro s hs
      obtain ⟨l, hl, hsl⟩ := List.mem_flatten.mp hs
      obtain ⟨o, ho, rfl⟩ := List.mem_map.mp hl
      exact (h4 o ho).2 s hsl
    have h5 : ∀ l ∈ changed, ∀ t ∈ l, ((Good d t ∧ t.prev ≠ []) ∧ (soundPhases hr.toRuns).moved t) ∧
        Later d start t := by
      refine mapM_all hchg h4a (fun a b hab hb t ht => ?_)
      obtain ⟨out, e, g⟩ := keyChanges_total hr.toRuns hab.1.1 hab.1.2
      rw [hb] at e
      injection e with e
      subst e
      refine ⟨⟨⟨keyChanges_good hr.toOK hab.1.1 hb t ht, (g t ht).2⟩,
        keyChanges_inv (soundPhases hr.toRuns) hab.1.1 hab.1.2 hb t ht⟩, ?_⟩
      have := (g t ht).1
      exact ⟨by rw [this]; exact hab.2.1, by rw [this]; exact hab.2.2⟩
    have h5' : ∀ t ∈ changed.flatten, ((Good d t ∧ t.prev ≠ []) ∧ (soundPhases hr.toRuns).moved t) ∧
        Later d start t := by
      intro s hs
      obtain ⟨l, hl, hsl⟩ := List.mem_flatten.mp hs
      exact h5 l hl s hsl
    have h6 : ∀ t ∈ changed2, Later d start t := by
      refine mapM_all hchg2 h5' (fun a b hab hb => ?_)
      obtain ⟨t, e, g⟩ := runHidden_total hr.toRuns hab.1.1.1 hab.1.1.2 hab.1.2
      rw [hb] at e
      injection e with e
      subst e
      exact ⟨by rw [g]; exact hab.2.1, by rw [g]; exact hab.2.2⟩
    obtain ⟨ha1, f1, k1⟩ := fold_filled h6 (fun st t st' hs hl he => by
      obtain ⟨st'', e, h'⟩ := addState_total hs hl
      rw [he] at e
      injection e with e
      subst e
      exact ⟨h', addState_filled F hs hl he⟩) ha hst1
    obtain ⟨ha2, f2, k2⟩ := fold_filled h4b (fun st t st' hs hl he => by
      simp only [addKept, Bind.bind] at he
      obtain ⟨c, -, he⟩ := bind_ok he
      obtain ⟨st'', e, h'⟩ := addState_total hs (s := t.addCsm c) hl.2
      rw [he] at e
      injection e with e
      subst e
      exact ⟨h', addState_filled F hs (s := t.addCsm c) hl.2 he⟩) ha1 hst2
    have last : ∀ i, start ≠ i → Filled ops st2.1 i → Filled ops st'.1 i := by
      rintro i hne ⟨bi, hbi, hl⟩
      subst h
      exact ⟨bi, by simp only [List.getElem?_set, if_neg hne]; exact hbi, hl⟩
    refine ⟨fun i hne hf => last i hne (k2 i (k1 i hf)), ?_⟩
    intro _ r hm
    have hfw := hr.forward _ hm
    simp only at hfw
    refine last _ (by omega) ?_
    have hobj : objects ≠ [] := by
      rintro rfl
      exact hnz (F.listed _ _ hi ho)
    obtain ⟨s, hs⟩ := List.exists_mem_of_ne_nil _ (h1' hobj)
    obtain ⟨⟨g1, g2⟩, g3⟩ := h1 s hs
    have hpair : (s, r) ∈ pairs states (d.rangesAt start) := by
      simp only [pairs, List.mem_flatMap, List.mem_map]
      refine ⟨s, hs, r, ?_, rfl⟩
      simp only [rangesAt, List.mem_map, List.mem_filter, decide_eq_true_eq]
      exact ⟨(start, r), ⟨hm, rfl⟩, rfl⟩
    simp only [branchAll] at hcheck
    obtain ⟨ls, hls, hfl⟩ := map_ok hcheck
    obtain ⟨out, hout, hbrr⟩ := mapM_image hls hpair
    subst g3
    rcases branchRange_filled hr F ha g1 g2 hm hbrr with ⟨t, ht, hci, hmk⟩ | hfill
    · have htc : t ∈ toCheck := by rw [← hfl]; exact List.mem_flatten.mpr ⟨out, hout, ht⟩
      obtain ⟨ps, hps, hkt⟩ := mapM_image hprobs htc
      have hps2 : ps.2.node.changeIndex = r.stop ∧ ps.2.node.mustKey = false := by
        simp only [runKtm] at hkt
        obtain ⟨ph, -, rfl⟩ := map_ok hkt
        exact ⟨hci, hmk⟩
      obtain ⟨o, ho', hkb⟩ := mapM_image hbr hps
      rw [← hps2.1]
      rcases keyBranch_filled hr F ha (h3 ps hps).2 hps2.2 hkb with ⟨u, hu, hui, hmay⟩ | ⟨u, hu, hui⟩ | hfill
      · have hu' : u ∈ (branched.map (·.1)).flatten :=
          List.mem_flatten.mpr ⟨o.1, List.mem_map.mpr ⟨o, ho', rfl⟩, hu⟩
        obtain ⟨l, hl, hkc⟩ := mapM_image hchg hu'
        obtain ⟨v, hv, hvi⟩ := keyChanges_filled hr (h4a u hu').1.1 (h4a u hu').1.2 hmay hkc
        have hv' : v ∈ changed.flatten := List.mem_flatten.mpr ⟨l, hl, hv⟩
        obtain ⟨w, hw, hrh⟩ := mapM_image hchg2 hv'
        obtain ⟨w', e, g⟩ := runHidden_total hr.toRuns (h5' v hv').1.1.1 (h5' v hv').1.1.2 (h5' v hv').1.2
        rw [hrh] at e
        injection e with e
        subst e
        have := k2 _ (f1 w hw)
        rw [g, hvi, hui] at this
        exact this
      · have hu' : u ∈ (branched.map (·.2)).flatten :=
          List.mem_flatten.mpr ⟨o.2, List.mem_map.mpr ⟨o, ho', rfl⟩, hu⟩
        have := f2 u hu'
        rw [hui] at this
        exact this
      · exact k2 _ (k1 _ hfill)
    · exact k2 _ (k1 _ hfill)

omit [Add κ] [Sub κ] [Zero κ] in
theorem Leads.le {a : Nat} (h : Leads d a) (hfw : ∀ e ∈ d.ranges, e.1 < e.2.stop) : a ≤ d.numInputs := by
  induction h with
  | done => exact Nat.le_refl _
  | step a r hm _ ih => have := hfw _ hm; simp only at this; omega

theorem steps_filled (hr : Finds d W) (law : Lawful ops) {T : Total ops d.beamSize} (F : Fills T) (n : Nat)
    {start a : Nat} (hn : start + n = d.numInputs) {st st' : List β × Nat} (ha : Alive d T start st)
    (hok : BeamsOK d law st) (hst : BeamsInv (soundPhases hr.toRuns) law st) (hle : start ≤ a)
    (hl : Leads d a) (hf : Filled ops st.1 a)
    (h : (List.range' start n).foldlM (d.step ops) st = .ok st') : Filled ops st'.1 d.numInputs := by
  induction n generalizing start st a with
  | zero =>
    simp only [List.range'_zero, List.foldlM_nil, Pure.pure, Except.pure, Except.ok.injEq] at h
    subst h
    have := hl.le hr.forward
    obtain rfl : a = d.numInputs := by omega
    exact hf
  | succ n ih =>
    simp only [List.range'_succ, List.foldlM_cons, Bind.bind] at h
    obtain ⟨st1, h1, h⟩ := bind_ok h
    obtain ⟨st1', e, ha1⟩ := step_total hr.toRuns law (by omega) ha hok hst
    rw [h1] at e
    injection e with e
    subst e
    obtain ⟨k1, k2⟩ := step_filled hr law F (by omega) ha hok hst h1
    have ok1 := step_ok hr.toOK hok h1
    have inv1 := step_inv (soundPhases hr.toRuns) hr.toOK hok hst h1
    by_cases hs : start = a
    · subst hs
      cases hl with
      | done => omega
      | step _ r hm hl =>
        have := hr.forward _ hm
        simp only at this
        exact ih (by omega) ha1 ok1 inv1 (by omega) hl (k2 hf r hm) h
    · exact ih (by omega) ha1 ok1 inv1 (by omega) hl (k1 a hs hf) h

omit [Add κ] [Sub κ] in
theorem initialBeams_filled {T : Total ops d.beamSize} (F : Fills T) {st : List β × Nat}
    (h : d.initialBeams ops = .ok st) : Filled ops st.1 0 := by
  simp only [initialBeams, Bind.bind] at h
  obtain ⟨keys, hk, h⟩ := bind_ok h
  obtain ⟨⟨b, n⟩, hb, h⟩ := bind_ok h
  injection h with h
  subst h
  refine ⟨b, rfl, ?_⟩
  have hne : keys ≠ [] := by
    simp only [initialKeys, Bind.bind] at hk
    obtain ⟨f, -, hk⟩ := bind_ok hk
    split at hk
    · obtain ⟨names, hn, hk⟩ := bind_ok hk
      injection hk with hk
      subst hk
      obtain ⟨names', h1, h2, -⟩ := C03_labels d.pitchType false none
      rw [hn] at h1
      injection h1 with h1
      subst h1
      intro hz
      have hm : (0 : Int) ∈ pyRange 0 (names.length : Int) := by
        rw [mem_pyRange]
        rw [h2]
        cases d.pitchType <;> decide
      rw [hz] at hm
      simp at hm
    · injection hk with hk
      subst hk; simp
  have key : ∀ (l : List Int) (b0 : β) (n0 : Nat), T.inv n0 b0 →
      l.foldlM (d.addInitial ops) (b0, n0) = .ok (b, n) → l ≠ [] → ops.len b ≠ 0 := by
    intro l
    induction l with
    | nil => intro _ _ _ _ h; exact absurd rfl h
    | cons k l ih =>
      intro b0 n0 hi h _
      simp only [List.foldlM_cons, Bind.bind] at h
      obtain ⟨⟨b1, n1⟩, h1, h⟩ := bind_ok h
      simp only [addInitial, Bind.bind] at h1
      obtain ⟨⟨t, mode⟩, -, h1⟩ := bind_ok h1
      obtain ⟨r, b', e1, e2⟩ := T.add _ _
        (State.initial k d.hashLength (some (d.icm (decide (mode = .minor))))) true hi
      simp only [e1, Except.bind, Except.ok.injEq, Prod.mk.injEq] at h1
      obtain ⟨rfl, rfl⟩ := h1
      cases l with
      | nil =>
        simp only [List.foldlM_nil, Pure.pure, Except.pure, Except.ok.injEq, Prod.mk.injEq] at h
        obtain ⟨rfl, -⟩ := h
        exact F.added _ _ _ _ _ _ hi e1
      | cons k' l => exact ih _ _ e2 h (by simp)
  exact key keys _ _ (T.new 0) hb hne

theorem searchWith_finds (hr : Finds d W) (law : Lawful ops) {T : Total ops d.beamSize} (F : Fills T) :
    ∃ s, d.searchWith ops = .ok (some s) := by
  obtain ⟨st, h1, ha⟩ := initialBeams_total hr.toRuns T
  obtain ⟨st1, h2, ha1⟩ := steps_total hr.toRuns law d.numInputs (start := 0) (by omega) ha
    (initialBeams_ok h1) (initialBeams_inv (soundPhases hr.toRuns) h1)
  obtain ⟨b, hb, hg, hi⟩ := ha1.get (i := d.numInputs) (by omega) (Nat.le_refl _)
  obtain ⟨b', hg', hne⟩ := steps_filled hr law F d.numInputs (by omega) ha (initialBeams_ok h1)
    (initialBeams_inv (soundPhases hr.toRuns) h1) (Nat.le_refl _) hr.leads (initialBeams_filled F h1) h2
  rw [hg] at hg'
  injection hg' with hg'
  subst hg'
  obtain ⟨top, htop⟩ := T.top _ _ hi
  cases top with
  | none => exact absurd (F.topped _ _ hi htop) hne
  | some x =>
    refine ⟨x.2, ?_⟩
    simp only [searchWith, h1, List.range_eq_range', h2, hb, htop, Bind.bind, Except.bind]
    rfl

/-- C132: the search finds an analysis. -/
theorem C132_search [DecidableEq κ] [DecidableEq H] [DecidableEq P] (d : SearchData κ ρ H P)
    (W : Bool → P → Prop) (hr : Finds d W) : ∃ s, d.search = .ok (some s) := by
  simp only [SearchData.search]
  cases hh : d.hashLength with
  | none => exact searchWith_finds hr (plainLawful _) (plainFills _ _ hr.size)
  | some k =>
    have hw := hr.order (by simp [hh])
    have hw' : WeakOrder d.stateLt := ⟨fun a b => hw.asymm _ _, fun a b c => hw.negtrans _ _ _⟩
    exact searchWith_finds hr (hashedLawful _ _) (hashedFills _ _ hw' _ hr.size)

end

/-! ## MIDI pitches -/

section
variable {κ ρ H : Type} [DecidableEq H] [Add κ] [Sub κ] [Zero κ]
variable {d : SearchData κ ρ H (List κ)} {N : Nets κ ρ H (List κ)} {C : Caches} {useInv : Bool}
  {red : Reduction}

theorem midi_key {key tonic : Int} {mode : KeyMode}
    (h : pyGet (stdLabels .midi).key key = .ok (tonic, mode)) : 0 ≤ tonic ∧ tonic < 12 := by
  have hm := pyGet_mem _ _ _ h
  simp only [stdLabels, keyClasses, List.mem_flatMap, List.mem_map, Prod.mk.injEq] at hm
  obtain ⟨m, -, t, ht, rfl, rfl⟩ := hm
  revert ht
  have : ∀ t ∈ keyTonics .midi false, 0 ≤ t ∧ t < 12 := by decide
  exact this t

theorem midi_root {c root inv : Int} {ct : ChordType}
    (h : pyGet (stdLabels .midi).chord c = .ok (root, ct, inv)) : 0 ≤ root ∧ root < 12 := by
  have hm := pyGet_mem _ _ _ h
  simp only [stdLabels, chordClasses, List.mem_flatMap, List.mem_map, Prod.mk.injEq] at hm
  obtain ⟨ct', _, r, hr, i, hi, rfl, rfl, rfl⟩ := hm
  have : ∀ t ∈ classRoots .midi false false, 0 ≤ t ∧ t < 12 := by decide
  exact this r hr

theorem midi_bass {c root inv bass : Int} {ct : ChordType}
    (h : pyGet (stdLabels .midi).chord c = .ok (root, ct, inv))
    (hb : bassNote ct root inv .midi false = .ok bass) : 0 ≤ bass ∧ bass < 12 := by
  have hinv := chordClasses_inversion .midi c root inv ct h
  obtain ⟨n, rfl⟩ : ∃ n : Nat, inv = n := ⟨inv.toNat, by omega⟩
  have hn : n < (specTones .midi ct).length := by rw [specTones_length]; omega
  rw [C14_bass ct root n _ .midi false (List.getElem?_eq_getElem hn)] at hb
  have h12 : NUM_PITCHES .midi = 12 := by decide
  simp only [transposePitch, h12, Except.ok.injEq] at hb
  omega

theorem outside_midi {p t : Int} (h1 : 0 ≤ p ∧ p < 12) (h2 : 0 ≤ t ∧ t < 12) : outside (p - t) = false := by
  have e : MIN_RELATIVE_TPC = -14 ∧ MAX_RELATIVE_TPC = 15 := by decide
  simp only [outside, e.1, e.2, Bool.or_eq_false_iff, decide_eq_false_iff_not]
  omega

theorem midi_reaches (k t : Int) (mode : KeyMode) :
    ∃ j : Nat, j < (relativeKeyLabels .midi).length ∧
      pyGet (relativeKeyLabels .midi) j = .ok (mode, (t - k) % 12) := by
  have major : ∀ i : Fin 12, (relativeKeyLabels .midi)[i.val]? = some (.major, (i.val : Int)) := by decide
  have minor : ∀ i : Fin 12, (relativeKeyLabels .midi)[12 + i.val]? = some (.minor, (i.val : Int)) := by decide
  have key : ∀ i : Fin 12, ∀ mode : KeyMode, ∃ j : Fin 24,
      (relativeKeyLabels .midi)[j.val]? = some (mode, (i.val : Int)) := by
    intro i mode
    cases mode
    · exact ⟨⟨i.val, by omega⟩, major i⟩
    · exact ⟨⟨12 + i.val, by omega⟩, minor i⟩
  obtain ⟨⟨j, hj⟩, hg⟩ := key ⟨((t - k) % 12).toNat, by omega⟩ mode
  refine ⟨j, by rw [show (relativeKeyLabels .midi).length = 24 by decide]; exact hj, ?_⟩
  rw [Inference.pyGet_nat _ _ _ hg]
  simp only
  congr 2
  omega

/-- C132: with MIDI pitches and networks that have an output for each class, a search over candidate ranges that lead
to the end of the piece finds an analysis. -/
theorem C132_midi_partial [DecidableEq κ] (hs : SearchRuns.Setup d N C useInv red) (hpt : d.pitchType = .midi)
    (hl : Leads d 0) (hb : ∀ e ∈ d.ranges, 1 ≤ e.2.maxIndex)
    (hd : ∀ p, d.leProb d.minChange p = true ∨ d.leProb p d.maxNoChange = true)
    (ho : ∀ (l : List κ) (i : Nat), i < l.length → (i : Int) ∈ N.order l)
    (hf : ∀ f ∈ d.forcedKeys, f = -1 ∨ (0 ≤ f ∧ ∃ tm, pyGet d.labels.key f = .ok tm)) :
    ∃ s, d.search = .ok (some s) := by
  refine C132_search d _ { SearchRuns.setup_runs hs with
    leads := hl, branches := hb, decides := hd, forced := hf, near := ?_, reaches := ?_ }
  · intro a r c root ct inv bass key tonic mode _ _ h1 h2 h3
    rw [hs.labels, hpt] at h1 h3
    rw [hpt] at h2
    exact ⟨outside_midi (midi_root h1) (midi_key h3), outside_midi (midi_bass h1 h2) (midi_key h3)⟩
  · intro s o hc hsd hko key h0 ⟨⟨tonic, mode⟩, htm⟩
    obtain ⟨⟨g, hg⟩, -⟩ := hc
    have hsd' : Sound d _ (setKsm s o) := hsd.congr rfl rfl rfl rfl rfl
    obtain ⟨k, hk⟩ := getKey_total hsd'.fine
    have hkt := (C49_key_object _ _ g _ hs.hash (setKsm s o)
      (Reach.hidden s s.node.csmHidden s.node.ktmHidden (some o.hidden) s.node.csmPrior hg) k hk).1
    rw [hs.labels, hpt] at hkt htm
    have ht := midi_key htm
    obtain ⟨j, hj, hjl⟩ := midi_reaches k.tonic tonic mode
    have hout : o.order = N.order o.priors ∧ o.priors.length = (relativeKeyLabels .midi).length := by
      rw [hs.ksm] at hko
      obtain ⟨rows, -, hko⟩ := bind_ok hko
      have hex : ∀ (h : Option H), rows ≠ [] → ∃ h' r, runNet N.ksm h rows = some (N.ksm h' r) :=
        fun h hne => SearchRuns.runNet_total N.ksm h rows hne
      cases rows with
      | nil => cases hko
      | cons r rs =>
        obtain ⟨h', r', hrun⟩ := hex s.node.ksmHidden (by simp)
        rw [hrun] at hko
        injection hko with hko
        subst hko
        refine ⟨rfl, ?_⟩
        rw [hs.ksmLength, hs.relativeKeys, hpt]
    refine ⟨j, ?_, ?_⟩
    · rw [hout.1]
      exact ho _ j (by rw [hout.2]; exact hj)
    · have hmod : (k.tonic + (tonic - k.tonic) % 12) % 12 = tonic := by omega
      simp only [targetKey, hs.relativeKeys, hpt, hjl, hk, hmod, Bind.bind, Except.bind]
      have hkey : 0 ≤ key ∧ key < 2 * specPitches .midi := by
        refine ⟨h0, ?_⟩
        by_contra hge
        have hlen : ((stdLabels .midi).key.length : Int) = 2 * specPitches .midi := by decide
        simp only [pyGet, if_pos h0, List.getElem?_eq_none (show (stdLabels .midi).key.length ≤ key.toNat by
          omega)] at htm
        cases htm
      obtain ⟨t', m', e1, -, -, e2⟩ := C03_decode_encode key .midi hkey.1 hkey.2
      have : keyFromOneHotIndex key .midi false = .ok (tonic, mode) := htm
      rw [this] at e1
      injection e1 with e1
      injection e1 with e1 e1'
      subst e1; subst e1'
      rw [e2]; rfl

end

/-! ## The ranges of the code -/

/-- C132: the ranges made by the code from the outputs of the CTM lead to the end of the piece, if no label is forced
and no range is too long. -/
theorem C132_ranges {κ ρ H P π δ : Type} [LinearOrder π] [AddCommGroup κ] [AddCommMonoid δ] [LinearOrder δ]
    (d : SearchData κ ρ H P) (A : RangeInput π κ δ) (hmm : A.minChange ≤ A.maxNoChange)
    (hfc : ∀ i, A.forcedChord i = -1) (hfk : ∀ i, A.forcedKey i = -1)
    (hlen : ∀ s i, s < i → i < A.n → A.charged s i ≤ A.maxLen)
    (rs : List (Nat × Nat × κ)) (rj : List κ) (h : RangeInput.getChordRanges A = .ok (rs, rj)) (hn : A.n = d.numInputs)
    (hrs : ∀ s e lp, (s, e, lp) ∈ rs → ∃ r, (s, r) ∈ d.ranges ∧ r.stop = e) : Leads d 0 := by
  have hpos : 0 < A.n := by
    rcases Nat.eq_zero_or_pos A.n with h0 | h0
    · rw [(RangeInput.C26_defined A).1 h0] at h; cases h
    · exact h0
  obtain ⟨bs, hp⟩ := RangeInput.C50_complete_path A hmm hfc hfk hlen rs rj h 0 .zero hpos
  have key : ∀ n s bs, n = d.numInputs → RangeInput.Path rs n s bs → Leads d s := by
    intro n s bs hn hp
    induction hp with
    | done => rw [hn]; exact .done
    | step s e lp bs hm _ ih =>
      obtain ⟨r, hr, rfl⟩ := hrs _ _ _ hm
      exact .step s r hr ih
  exact key _ _ _ hn hp

/-! ## Instances -/

/-- A search over three notes, with two ways to the end. -/
def midiDemo : SearchData Int Int Unit (List Int) :=
  SearchRuns.netDemo .midi false triadReduction (some 2) 3 [(0, 2, [0, 5]), (0, 1, [3]), (1, 3, [3]), (2, 3, [7, 300])]

/-- The theorem applies to it, and to the same search with a forced key at its last note. -/
example : (∃ s, midiDemo.search = .ok (some s)) ∧
    ∃ s, { midiDemo with forcedKeys := [-1, -1, 20] }.search = .ok (some s) := by
  have hset := SearchRuns.netDemo_setup .midi false triadReduction (some 2) 3
    [(0, 2, [0, 5]), (0, 1, [3]), (1, 3, [3]), (2, 3, [7, 300])] (by simp) (by decide) (by simp) (by decide +kernel)
  have hl : ∀ f, Leads { midiDemo with forcedKeys := f } 0 := fun f =>
    .step 0 ⟨2, -1, -1, _, [0, 5], 2⟩ (.head _) (.step 2 ⟨3, -1, -1, _, [7, 300], 2⟩ (.tail _ (.tail _ (.tail _ (.head _))))
      .done)
  have hb : ∀ e ∈ midiDemo.ranges, 1 ≤ e.2.maxIndex := by
    intro e he
    simp only [midiDemo, SearchRuns.netDemo, List.mem_map] at he
    obtain ⟨x, hx, rfl⟩ := he
    revert x
    decide
  have hd : ∀ p, midiDemo.leProb midiDemo.minChange p = true ∨ midiDemo.leProb p midiDemo.maxNoChange = true := by
    intro p
    simp only [midiDemo, SearchRuns.netDemo, decide_eq_true_eq]
    omega
  have ho : ∀ (l : List Int) (i : Nat), i < l.length →
      (i : Int) ∈ (SearchRuns.flatNets .midi false triadReduction).order l := by
    intro l i hi
    simp only [SearchRuns.flatNets, List.mem_map, List.mem_range]
    exact ⟨i, hi, rfl⟩
  refine ⟨C132_midi_partial hset rfl (hl _) hb hd ho (fun f hf => .inl ?_), ?_⟩
  · revert f
    decide
  refine C132_midi_partial (d := { midiDemo with forcedKeys := [-1, -1, 20] })
    { hset with csm := hset.csm, ktm := hset.ktm, ksm := hset.ksm, firstKey := ⟨-1, rfl, Or.inl rfl⟩ } rfl (hl _) hb hd ho ?_
  intro f hf
  simp only [List.mem_cons, List.not_mem_nil, or_false] at hf
  rcases hf with rfl | rfl | rfl
  · exact .inl rfl
  · exact .inl rfl
  · exact .inr ⟨by decide, (8, .minor), rfl⟩

example : (({ midiDemo with forcedKeys := [-1, -1, 20] }).search.toOption.bind id).map
    (fun s => (getChords s, getKeys s)) = some (([some 0, some 7], [0, 2, 3]), ([0, 20], [0, 2, 3])) := by
  decide +kernel

/-- C132: with tonal pitch classes there may be no analysis, although each note is a candidate range with one chord: no
key is near the lowest and the highest root (major triads on F-double-flat and B-double-sharp). -/
theorem C132_tpc_fails :
    let d := SearchRuns.netDemo .tpc true noReduction none 2 [(0, 1, [0]), (1, 2, [102])]
    SearchRuns.Setup d (SearchRuns.flatNets .tpc true noReduction) ⟨[1, 1], [0, 0, 0]⟩ true noReduction ∧ Leads d 0 ∧
      pyGet d.labels.chord 0 = .ok (0, .major, 0) ∧ pyGet d.labels.chord 102 = .ok (34, .major, 0) ∧
      d.search = .ok none := by
  refine ⟨SearchRuns.netDemo_setup _ _ _ _ 2 _ (by simp) (by decide) (fun _ _ => Nat.le_refl _) (by decide +kernel), ?_,
    by decide +kernel, by decide +kernel, by decide +kernel⟩
  exact .step 0 ⟨1, -1, -1, _, [0], 1⟩ (.head _) (.step 1 ⟨2, -1, -1, _, [102], 1⟩ (.tail _ (.head _)) .done)

end Verif.SearchFinds
