import Verif.Lemmas.Search

/-!
# Further invariants of the beam search

A property of the states in the beams holds of the returned state if each phase of the search keeps
it. The phases are: the CSM is run on the states of a beam, chords are branched on, the KTM is run, and
a state keeps its key or gets a new one; then the KTM and the KSM are run again.
-/

namespace Verif.SearchData

open Verif State

section
variable {κ ρ H P : Type} [Add κ] [Sub κ] [Zero κ]

/-- Properties of the states after each phase. -/
structure PhaseInv (d : SearchData κ ρ H P) where
  /-- In the beams. -/
  beam : State κ H P → Prop
  /-- After the CSM. -/
  ran : State κ H P → Prop
  /-- After the branching on chords. -/
  cand : State κ H P → Prop
  /-- After the KTM, with the probability of a change. -/
  tried : ρ × State κ H P → Prop
  /-- Charged for a change of key. -/
  changing : State κ H P → Prop
  /-- Charged for keeping the key. -/
  keeping : State κ H P → Prop
  /-- After a key transition. -/
  moved : State κ H P → Prop
  init : ∀ key tonic mode, pyGet d.labels.key key = .ok (tonic, mode) →
    ∀ keys, d.initialKeys = .ok keys → key ∈ keys →
    beam (State.initial key d.hashLength (some (d.icm (decide (mode = .minor)))))
  first : ∀ s, Good d s → s.node.changeIndex = 0 → beam s → ran s
  csm : ∀ s t, Good d s → s.node.changeIndex ≠ 0 → beam s → d.runCsm s = .ok t → ran t
  chord : ∀ s t c r lp, Good d s → ran s → (s.node.changeIndex, r) ∈ d.ranges →
    pyGet r.priors c = .ok lp → some c ≠ s.node.chord →
    s.chordTransition d.labels d.pitchType c r.stop
      (r.logProb + d.scale lp ((r.stop : Int) - s.node.changeIndex)) = .ok (some t) →
    (∃ ids, d.branchIds s.node.changeIndex s.node.chord r = .ok ids ∧ c ∈ ids) → cand t
  rejoin : ∀ s t c r lp, Good d s → ran s → (s.node.changeIndex, r) ∈ d.ranges →
    pyGet r.priors c = .ok lp → some c = s.node.chord →
    s.rejoin d.labels d.pitchType r.stop
      (r.logProb + d.scale lp ((r.stop : Int) - s.node.changeIndex) + r.rejoinLogProb) = .ok t →
    (∃ ids, d.branchIds s.node.changeIndex s.node.chord r = .ok ids ∧ c ∈ ids) → cand t
  ktm : ∀ s ps, Cand d s → cand s → d.runKtm s = .ok ps → tried ps
  branch : ∀ (ps : ρ × State κ H P) q rest, Cand d ps.2 → tried ps → ps.2.prev = q :: rest →
    (∀ x, (chargeKey (d.keyOptions ps.1 ps.2 q)
        (d.scale (d.logChange ps.1) ((ps.2.node.changeIndex : Int) - q.changeIndex))
        (d.scale (d.logNoChange ps.1) ((ps.2.node.changeIndex : Int) - q.changeIndex)) ps.2).1 = some x →
      changing x.2) ∧
    (∀ t, (chargeKey (d.keyOptions ps.1 ps.2 q)
        (d.scale (d.logChange ps.1) ((ps.2.node.changeIndex : Int) - q.changeIndex))
        (d.scale (d.logNoChange ps.1) ((ps.2.node.changeIndex : Int) - q.changeIndex)) ps.2).2 = some t →
      keeping t)
  keep : ∀ s cost, Cand d s → keeping s → d.csmCost s = .ok cost → beam (s.addCsm cost)
  key : ∀ s t o q rest rel key lp, Cand d s → changing s → d.ksm s = .ok o → s.prev = q :: rest →
    d.targetKey (setKsm s o) rel = .ok (some key) → key ≠ s.node.key → pyGet o.priors rel = .ok lp →
    (setKsm s o).keyTransition d.labels d.pitchType key
      (d.scale (d.ksmExponent lp) ((s.node.changeIndex : Int) - q.changeIndex)) = .ok (some t) →
    (∃ out, d.keyChanges s = .ok out ∧ t ∈ out) → moved t
  hidden : ∀ s t, Good d s → moved s → d.runHidden s = .ok t → beam t

omit [Sub κ] [Zero κ] in
/-- What is kept by copying and by any charge of the KTM holds of both states of a branch. -/
theorem chargeKey_all {T : State κ H P → Prop} (hcharge : ∀ s lp, T s → T (s.addKtm lp))
    (hcopy : ∀ s, T s → T s.copy) {s : State κ H P} (hs : T s) (o : Bool × Bool) (a b : κ) :
    (∀ x, (chargeKey o a b s).1 = some x → T x.2) ∧ (∀ t, (chargeKey o a b s).2 = some t → T t) := by
  obtain ⟨o1, o2⟩ := o
  constructor
  · intro x hx
    cases o1 <;> cases o2 <;> simp only [chargeKey, Option.some.injEq] at hx <;>
      first
      | (subst hx
         first
         | exact hcharge _ _ (hcharge _ _ (hcopy _ hs))
         | exact hcharge _ _ hs)
      | cases hx
  · intro t ht
    cases o1 <;> cases o2 <;> simp only [chargeKey, Option.some.injEq] at ht <;>
      first
      | (subst ht
         first
         | exact hs
         | exact hcharge _ _ hs)
      | cases ht

variable {d : SearchData κ ρ H P} (I : PhaseInv d)

theorem branchState_inv {s s' : State κ H P} {r : RangeData κ} {c : Int}
    (hs : Good d s) (hr : I.ran s) (hm : (s.node.changeIndex, r) ∈ d.ranges)
    (hids : ∃ ids, d.branchIds s.node.changeIndex s.node.chord r = .ok ids ∧ c ∈ ids)
    (h : d.branchState s.node.changeIndex s r c = .ok (some s')) : I.cand s' := by
  simp only [branchState, Bind.bind] at h
  obtain ⟨lp, hlp, h⟩ := bind_ok h
  split at h
  · rename_i hc
    obtain ⟨t, ht, h⟩ := map_ok h
    injection h with h
    subst h
    exact I.rejoin _ _ _ _ _ hs hr hm hlp hc ht hids
  · rename_i hc
    exact I.chord _ _ _ _ _ hs hr hm hlp hc h hids

variable {β : Type} {ops : BeamOps β (Nat × State κ H P)}

theorem branchLoop_inv {beams : List β} {s : State κ H P} {r : RangeData κ}
    (hs : Good d s) (hr : I.ran s) (hm : (s.node.changeIndex, r) ∈ d.ranges) {ids : List Int}
    (hids : ∀ c ∈ ids, ∃ ids', d.branchIds s.node.changeIndex s.node.chord r = .ok ids' ∧ c ∈ ids')
    {out : List (State κ H P)} (h : d.branchLoop ops s.node.changeIndex beams s r ids = .ok out) : ∀ t ∈ out, I.cand t := by
  induction ids generalizing out with
  | nil =>
    simp only [branchLoop, Except.ok.injEq] at h
    subst h; simp
  | cons c cs ih =>
    simp only [branchLoop, Bind.bind] at h
    obtain ⟨new, hnew, h⟩ := bind_ok h
    cases new with
    | none => exact ih (fun c hc => hids c (by simp [hc])) h
    | some s' =>
      simp only at h
      obtain ⟨f, -, h⟩ := bind_ok h
      simp only [keepIf] at h
      split at h
      · obtain ⟨l, hl, h⟩ := map_ok h
        subst h
        intro t ht
        rcases List.mem_cons.mp ht with rfl | ht
        · exact branchState_inv I hs hr hm (hids c (by simp)) hnew
        · exact ih (fun c hc => hids c (by simp [hc])) hl t ht
      · injection h with h
        subst h; simp

theorem branchAll_inv {start : Nat} {beams : List β} {states out : List (State κ H P)}
    (hs : ∀ s ∈ states, (Good d s ∧ I.ran s) ∧ s.node.changeIndex = start)
    (h : d.branchAll ops start beams states = .ok out) : ∀ t ∈ out, I.cand t := by
  simp only [branchAll] at h
  obtain ⟨ls, hls, h⟩ := map_ok h
  subst h
  have := mapM_all hls 
    (P := fun sr => (Good d sr.1 ∧ I.ran sr.1) ∧ (sr.1.node.changeIndex, sr.2) ∈ d.ranges ∧
      sr.1.node.changeIndex = start)
    (Q := fun l => ∀ t ∈ l, I.cand t) ?_ ?_
  · intro t ht
    obtain ⟨l, hl, ht⟩ := List.mem_flatten.mp ht
    exact this l hl t ht
  · intro sr hsr
    simp only [pairs, List.mem_flatMap, List.mem_map] at hsr
    obtain ⟨s, hs', r, hr, rfl⟩ := hsr
    refine ⟨(hs s hs').1, ?_, (hs s hs').2⟩
    rw [(hs s hs').2]
    simp only [rangesAt, List.mem_map, List.mem_filter, decide_eq_true_eq] at hr
    obtain ⟨⟨a, r'⟩, ⟨hm, rfl⟩, rfl⟩ := hr
    exact hm
  · intro sr l ⟨⟨h1, h2⟩, h3, rfl⟩ hl
    simp only [branchRange, Bind.bind] at hl
    obtain ⟨e, -, hl⟩ := bind_ok hl
    split at hl
    · injection hl with hl
      subst hl; simp
    · obtain ⟨ids, hids, hl⟩ := bind_ok hl
      exact branchLoop_inv I h1 h2 h3 (fun c hc => ⟨ids, hids, hc⟩) hl

theorem keyBranch_inv {start : Nat} {beams : List β} {ps : ρ × State κ H P}
    (hs : Cand d ps.2) (ht : I.tried ps) {out : List (State κ H P) × List (State κ H P)}
    (h : d.keyBranch ops start beams ps = .ok out) :
    (∀ t ∈ out.1, Cand d t ∧ I.changing t) ∧ (∀ t ∈ out.2, Cand d t ∧ I.keeping t) := by
  simp only [keyBranch] at h
  cases hq : ps.2.prev with
  | nil => rw [hq] at h; cases h
  | cons q rest =>
    rw [hq] at h
    simp only [Bind.bind] at h
    obtain ⟨change, hch, h⟩ := bind_ok h
    obtain ⟨keep, hke, h⟩ := bind_ok h
    injection h with h
    subst h
    simp only
    obtain ⟨hb1, hb2⟩ := I.branch ps q rest hs ht hq
    obtain ⟨hc1, hc2⟩ := chargeKey_all (T := Cand d) (fun _ _ h => h.addKtm _) (fun _ h => h.copy) hs
      (d.keyOptions ps.1 ps.2 q)
      (d.scale (d.logChange ps.1) ((ps.2.node.changeIndex : Int) - q.changeIndex))
      (d.scale (d.logNoChange ps.1) ((ps.2.node.changeIndex : Int) - q.changeIndex))
    constructor
    · intro t htm
      obtain ⟨tested, hx⟩ := keepFits_mem hch t htm
      exact ⟨hc1 _ hx, hb1 _ hx⟩
    · intro t htm
      obtain ⟨tested, hx⟩ := keepFits_mem hke t htm
      obtain ⟨t', ht', he⟩ := Option.map_eq_some_iff.mp hx
      injection he with _ he
      subst he
      exact ⟨hc2 _ ht', hb2 _ ht'⟩

theorem keyLoop_inv {s : State κ H P} (hs : Cand d s) (ht : I.changing s) {o : KsmOutput κ H}
    (ho : d.ksm s = .ok o) {q : Node κ H P} {rest : List (Node κ H P)} (hq : s.prev = q :: rest)
    {F : Option Int} {rels : List Int} {room : Nat} {out : List (State κ H P)}
    (h : d.keyLoop F (setKsm s o) o ((s.node.changeIndex : Int) - q.changeIndex) rels room = .ok out)
    (hout : ∀ t ∈ out, ∃ out', d.keyChanges s = .ok out' ∧ t ∈ out') : ∀ t ∈ out, I.moved t := by
  induction rels generalizing out room with
  | nil =>
    simp only [keyLoop, Except.ok.injEq] at h
    subst h; simp
  | cons rel rels ih =>
    simp only [keyLoop, Bind.bind] at h
    obtain ⟨target, htar, h⟩ := bind_ok h
    cases target with
    | none => exact ih h hout
    | some key =>
      simp only at h
      split at h
      · exact ih h hout
      · rename_i hskip
        obtain ⟨lp, hlp, h⟩ := bind_ok h
        obtain ⟨new, hnew, h⟩ := bind_ok h
        cases new with
        | none =>
          simp only [afterKey] at h
          split at h
          · injection h with h; subst h; simp
          · exact ih h hout
        | some t =>
          have hne : key ≠ s.node.key := by
            intro he
            simp [skipKey, setKsm, he] at hskip
          have hm : (∃ out, d.keyChanges s = .ok out ∧ t ∈ out) → I.moved t :=
            I.key s t o q rest rel key lp hs ht ho hq htar hne hlp hnew
          simp only [afterKey] at h
          split at h
          · injection h with h; subst h
            intro x hx
            simp only [List.mem_singleton] at hx
            subst hx; exact hm (hout x (by simp))
          · obtain ⟨l, hl, h⟩ := map_ok h
            subst h
            intro x hx
            rcases List.mem_cons.mp hx with rfl | hx
            · exact hm (hout x (by simp))
            · exact ih hl (fun y hy => hout y (by simp [hy])) x hx

theorem keyChanges_inv {s : State κ H P} (hs : Cand d s) (ht : I.changing s) {out : List (State κ H P)}
    (h : d.keyChanges s = .ok out) : ∀ t ∈ out, I.moved t := by
  have hall := h
  simp only [keyChanges, Bind.bind] at h
  obtain ⟨o, ho, h⟩ := bind_ok h
  cases hq : (setKsm s o).prev with
  | nil => rw [hq] at h; cases h
  | cons q rest =>
    rw [hq] at h
    exact keyLoop_inv I hs ht ho hq h (fun t htm => ⟨out, hall, htm⟩)

/-- All states in the beams are as promised. -/
def BeamsInv (law : Lawful ops) (st : List β × Nat) : Prop :=
  ∀ (i : Nat) b, st.1[i]? = some b → ∀ x, law.mem b x → I.beam x.2

theorem addState_inv {law : Lawful ops} {st st' : List β × Nat} {s : State κ H P}
    (hst : BeamsInv I law st) (hs : I.beam s) (h : addState ops st s = .ok st') :
    BeamsInv I law st' := by
  simp only [addState, Bind.bind] at h
  obtain ⟨b, hb, h⟩ := bind_ok h
  obtain ⟨⟨r, b'⟩, hadd, h⟩ := bind_ok h
  simp only [Except.ok.injEq] at h
  subst h
  have hb' := pyGet_nonneg _ _ _ (Int.natCast_nonneg _) hb
  simp only [Int.toNat_natCast] at hb'
  intro i bi hbi x hx
  simp only [List.getElem?_set] at hbi
  split at hbi
  · split at hbi
    · injection hbi with hbi
      subst hbi
      rcases law.add _ _ _ _ _ hadd x hx with rfl | hx
      · exact hs
      · exact hst _ b hb' x hx
    · cases hbi
  · exact hst i bi hbi x hx

theorem step_inv (hd : OK d) {law : Lawful ops} {st st' : List β × Nat} {start : Nat}
    (hok : BeamsOK d law st) (hst : BeamsInv I law st) (h : d.step ops st start = .ok st') :
    BeamsInv I law st' := by
  simp only [step, Bind.bind] at h
  obtain ⟨b, hb, h⟩ := bind_ok h
  have hb' := pyGet_nonneg _ _ _ (Int.natCast_nonneg _) hb
  simp only [Int.toNat_natCast] at hb'
  split at h
  · injection h with h
    subst h; exact hst
  · simp only [stepBody, Bind.bind] at h
    obtain ⟨objects, ho, h⟩ := bind_ok h
    obtain ⟨states, hstates, h⟩ := bind_ok h
    obtain ⟨toCheck, hcheck, h⟩ := bind_ok h
    obtain ⟨probs, hprobs, h⟩ := bind_ok h
    obtain ⟨branched, hbr, h⟩ := bind_ok h
    obtain ⟨changed, hchg, h⟩ := bind_ok h
    obtain ⟨changed2, hchg2, h⟩ := bind_ok h
    obtain ⟨st1, hst1, h⟩ := bind_ok h
    obtain ⟨st2, hst2, h⟩ := bind_ok h
    obtain ⟨b2, hb2, h⟩ := bind_ok h
    injection h with h
    subst h
    have h0 : ∀ s ∈ objects.map (·.2), (Good d s ∧ s.node.changeIndex = start) ∧ I.beam s := by
      intro s hs
      obtain ⟨x, hx, rfl⟩ := List.mem_map.mp hs
      exact ⟨hok start b hb' x (law.states b objects ho x hx),
        hst start b hb' x (law.states b objects ho x hx)⟩
    have h1 : ∀ s ∈ states, (Good d s ∧ s.node.changeIndex = start) ∧ I.ran s := by
      simp only [csmStates] at hstates
      split at hstates
      · rename_i hz
        injection hstates with hstates
        subst hstates
        intro s hs
        have := h0 s hs
        exact ⟨this.1, I.first s this.1.1 (this.1.2.trans hz) this.2⟩
      · rename_i hz
        refine mapM_all hstates h0 ?_
        intro a b ⟨⟨ha, hi⟩, hbm⟩ hab
        have := runCsm_good ha hab
        exact ⟨⟨this.1, this.2.trans hi⟩, I.csm a b ha (by omega) hbm hab⟩
    have h2 : ∀ t ∈ toCheck, Cand d t ∧ I.cand t := fun t ht =>
      ⟨branchAll_cand hd (fun s hs => (h1 s hs).1) hcheck t ht,
        branchAll_inv I (fun s hs => ⟨⟨(h1 s hs).1.1, (h1 s hs).2⟩, (h1 s hs).1.2⟩) hcheck t ht⟩
    have h3 : ∀ ps ∈ probs, Cand d ps.2 ∧ I.tried ps :=
      mapM_all hprobs h2 (fun a b ha hab => ⟨runKtm_cand ha.1 hab, I.ktm a b ha.1 ha.2 hab⟩)
    have h4 : ∀ o ∈ branched, (∀ t ∈ o.1, Cand d t ∧ I.changing t) ∧
        (∀ t ∈ o.2, Cand d t ∧ I.keeping t) :=
      mapM_all hbr h3 (fun a b ha hab => keyBranch_inv I ha.1 ha.2 hab)
    have h5 : ∀ l ∈ changed, ∀ t ∈ l, Good d t ∧ I.moved t := by
      refine mapM_all hchg (P := fun s => Cand d s ∧ I.changing s) ?_ (fun a b ha hab t ht =>
        ⟨keyChanges_good hd ha.1 hab t ht, keyChanges_inv I ha.1 ha.2 hab t ht⟩)
      intro s hs
      obtain ⟨l, hl, hsl⟩ := List.mem_flatten.mp hs
      obtain ⟨o, ho, rfl⟩ := List.mem_map.mp hl
      exact (h4 o ho).1 s hsl
    have h6 : ∀ t ∈ changed2, I.beam t := by
      refine mapM_all hchg2 (P := fun s => Good d s ∧ I.moved s) ?_
        (fun a b ha hab => I.hidden a b ha.1 ha.2 hab)
      intro s hs
      obtain ⟨l, hl, hsl⟩ := List.mem_flatten.mp hs
      exact h5 l hl s hsl
    have h7 : BeamsInv I law st1 :=
      foldlM_inv hst1 hst h6 (fun s a s' hs ha h => addState_inv I hs ha h)
    have h8 : BeamsInv I law st2 := by
      refine foldlM_inv hst2 (P := fun s => Cand d s ∧ I.keeping s) h7 ?_ ?_
      · intro s hs
        obtain ⟨l, hl, hsl⟩ := List.mem_flatten.mp hs
        obtain ⟨o, ho, rfl⟩ := List.mem_map.mp hl
        exact (h4 o ho).2 s hsl
      · intro s a s' hs ha h
        simp only [addKept, Bind.bind] at h
        obtain ⟨c, hc, h⟩ := bind_ok h
        exact addState_inv I hs (I.keep a c ha.1 ha.2 hc) h
    intro i bi hbi x hx
    simp only [List.getElem?_set] at hbi
    split at hbi
    · split at hbi
      · injection hbi with hbi
        subst hbi
        exact absurd hx (law.empty _ _)
      · cases hbi
    · exact h8 i bi hbi x hx

theorem initialBeams_inv {law : Lawful ops} {st : List β × Nat} (h : d.initialBeams ops = .ok st) :
    BeamsInv I law st := by
  simp only [initialBeams, Bind.bind] at h
  obtain ⟨keys, hkeys, h⟩ := bind_ok h
  obtain ⟨⟨b, next⟩, hb, h⟩ := bind_ok h
  injection h with h
  subst h
  have hI : ∀ x, law.mem b x → I.beam x.2 := by
    refine foldlM_inv hb (I := fun st => ∀ x, law.mem st.1 x → I.beam x.2)
      (P := (· ∈ keys)) ?_ (fun _ hk => hk) ?_
    · intro x hx; exact absurd hx (law.new _ _)
    · intro s key s' hs hk h
      simp only [addInitial, Bind.bind] at h
      obtain ⟨⟨tonic, mode⟩, htm, h⟩ := bind_ok h
      obtain ⟨⟨r, b'⟩, hadd, h⟩ := bind_ok h
      injection h with h
      subst h
      intro x hx
      rcases law.add _ _ _ _ _ hadd x hx with rfl | hx
      · exact I.init _ _ _ htm keys hkeys hk
      · exact hs x hx
  intro i bi hbi x hx
  cases i with
  | zero =>
    simp only [List.getElem?_cons_zero, Option.some.injEq] at hbi
    subst hbi; exact hI x hx
  | succ i =>
    simp only [List.getElem?_cons_succ, List.getElem?_replicate] at hbi
    split at hbi
    · injection hbi with hbi
      subst hbi
      exact absurd hx (law.new _ _)
    · cases hbi

theorem searchWith_inv (hd : OK d) (law : Lawful ops) {s : State κ H P}
    (h : d.searchWith ops = .ok (some s)) : I.beam s := by
  simp only [searchWith, Bind.bind] at h
  obtain ⟨st, hst, h⟩ := bind_ok h
  obtain ⟨st1, hst1, h⟩ := bind_ok h
  obtain ⟨b, hb, h⟩ := bind_ok h
  obtain ⟨top, htop, h⟩ := bind_ok h
  injection h with h
  cases top with
  | none => cases h
  | some x =>
    simp only [Option.map_some, Option.some.injEq] at h
    subst h
    have hb' := pyGet_nonneg _ _ _ (Int.natCast_nonneg _) hb
    simp only [Int.toNat_natCast] at hb'
    have : BeamsOK d law st1 ∧ BeamsInv I law st1 := foldlM_inv hst1
      (I := fun st => BeamsOK d law st ∧ BeamsInv I law st) (P := fun _ => True)
      ⟨initialBeams_ok hst, initialBeams_inv I hst⟩ (fun _ _ => trivial)
      (fun s a s' hs _ h => ⟨step_ok hd hs.1 h, step_inv I hd hs.1 hs.2 h⟩)
    exact this.2 _ b hb' x (law.top b x htop)

/-- The returned state is as promised. -/
theorem search_inv [DecidableEq κ] [DecidableEq H] [DecidableEq P] (hd : OK d) {s : State κ H P}
    (h : d.search = .ok (some s)) : I.beam s := by
  simp only [search] at h
  split at h
  · exact searchWith_inv I hd (plainLawful _) h
  · exact searchWith_inv I hd (hashedLawful _ _) h

end

end Verif.SearchData
