import Verif.Lemmas.SearchInv
import Verif.Lemmas.BeamTotal
import Verif.Props.State
import Verif.Props.Labels
import Verif.Props.Inference

/-!
# The beam search does not raise (C131)

A search for which `Runs` holds is at the end of `Verif/Props/SearchRuns.lean`.
-/

namespace Verif.SearchTotal

open Verif State SearchData

section
variable {κ ρ H P : Type}

/-- The key of a node is a label. -/
def KeyLabelled (d : SearchData κ ρ H P) (n : Node κ H P) : Prop := ∃ tm, pyGet d.labels.key n.key = .ok tm

/-- The root and the bass of a chord are in the padded range of relative pitches of a key. -/
def PadRange (d : SearchData κ ρ H P) (key c : Int) : Prop :=
  ∃ root ct inv bass tonic mode, pyGet d.labels.chord c = .ok (root, ct, inv) ∧
    bassNote ct root inv d.pitchType false = .ok bass ∧ pyGet d.labels.key key = .ok (tonic, mode) ∧
    outsidePadded (root - tonic) = false ∧ outsidePadded (bass - tonic) = false

/-- A node and the one before it: the chord is near both keys. -/
def Near (d : SearchData κ ρ H P) (n q : Node κ H P) : Prop :=
  n.changeIndex ≤ d.numInputs ∧ ∃ c, n.chord = some c ∧ PadRange d q.key c ∧ PadRange d n.key c

/-- All nodes of a chain, newest first. -/
def Fine (d : SearchData κ ρ H P) : List (Node κ H P) → Prop
  | n :: q :: rest => KeyLabelled d n ∧ Near d n q ∧ Fine d (q :: rest)
  | [n] => KeyLabelled d n
  | [] => True

/-- The chord prior of a node is of the ICM at the start of the piece, of the CSM later: `W b p` is
what is promised of the priors of the ICM (`b = true`) and of the CSM (`b = false`). -/
def PriorAt (W : Bool → P → Prop) (n : Node κ H P) : Prop :=
  ∃ p, n.csmPrior = some p ∧ W (decide (n.changeIndex = 0)) p

/-- The chord prior of a new node is that of the node before it. -/
def HeadPrior (W : Bool → P → Prop) (n : Node κ H P) : List (Node κ H P) → Prop
  | [] => ∃ p, n.csmPrior = some p ∧ W true p
  | q :: _ => ∃ p, n.csmPrior = some p ∧ W (decide (q.changeIndex = 0)) p

/-- What holds of the states of the search before the CSM is run on them. -/
structure Sound (d : SearchData κ ρ H P) (W : Bool → P → Prop) (s : State κ H P) : Prop where
  fine : Fine d (s.node :: s.prev)
  head : HeadPrior W s.node s.prev
  priors : ∀ m ∈ s.prev, PriorAt W m

variable [Add κ] [Sub κ] [Zero κ]

/-- The assumptions under which the search does not raise. -/
structure Runs (d : SearchData κ ρ H P) (W : Bool → P → Prop) : Prop extends OK d where
  /-- The beams have room for a state. -/
  size : 1 ≤ d.beamSize
  /-- Hashed beams compare the states by a strict weak order (no NaN among the log probabilities). -/
  order : d.hashLength ≠ none → WeakOrder d.lt
  /-- Ranges end in the piece, and their row of the CCM is not empty. -/
  stops : ∀ e ∈ d.ranges, e.2.stop ≤ d.numInputs ∧ e.2.order ≠ []
  keyLabels : d.labels.key = keyClasses d.pitchType false
  /-- There is an input, and the key forced on it (if any) is a label. -/
  firstKey : ∃ f, pyGet d.forcedKeys 0 = .ok f ∧ (f = -1 ∨ ∃ tm, pyGet d.labels.key f = .ok tm)
  /-- The chords that may be put on a range have a prior, a label and a bass note. -/
  chords : ∀ a r c, (a, r) ∈ d.ranges → FitsRange d c a r → (∃ lp, pyGet r.priors c = .ok lp) ∧
    ∃ root ct inv bass, pyGet d.labels.chord c = .ok (root, ct, inv) ∧
      bassNote ct root inv d.pitchType false = .ok bass
  icm : ∀ b, W true (d.icm b)
  csm : ∀ s, Good d s → Sound d W s → s.prev ≠ [] → ∃ ph, d.csm s = .ok ph ∧ W false ph.1
  ktm : ∀ s, Cand d s → Sound d W s → ∃ ph, d.ktm s = .ok ph
  ksm : ∀ s, Cand d s → Sound d W s → ∃ o, d.ksm s = .ok o ∧
    ∀ rel ∈ o.order, (∃ lp, pyGet o.priors rel = .ok lp) ∧ ∃ mi, pyGet d.relativeKeys rel = .ok mi
  csmCost : ∀ s, Cand d s → Sound d W s → s.node.mustKey = false → ∃ c, d.csmCost s = .ok c

variable {d : SearchData κ ρ H P} {W : Bool → P → Prop}

omit [Add κ] [Sub κ] [Zero κ] in
theorem Fine.congr {n n' : Node κ H P} {rest : List (Node κ H P)} (h : Fine d (n :: rest))
    (h1 : n'.chord = n.chord) (h2 : n'.key = n.key) (h3 : n'.changeIndex = n.changeIndex) :
    Fine d (n' :: rest) := by
  cases rest with
  | nil =>
    simp only [Fine, KeyLabelled, h2] at h ⊢
    exact h
  | cons q rest =>
    simp only [Fine, KeyLabelled, Near, h1, h2, h3] at h ⊢
    exact h

omit [Add κ] [Sub κ] [Zero κ] in
theorem HeadPrior.congr {n n' : Node κ H P} {rest : List (Node κ H P)} (h : HeadPrior W n rest)
    (h1 : n'.csmPrior = n.csmPrior) : HeadPrior W n' rest := by
  cases rest <;> (simp only [HeadPrior, h1] at h ⊢; exact h)

omit [Add κ] [Sub κ] [Zero κ] in
theorem Sound.congr {s s' : State κ H P} (h : Sound d W s) (h1 : s'.node.chord = s.node.chord)
    (h2 : s'.node.key = s.node.key) (h3 : s'.node.changeIndex = s.node.changeIndex)
    (h4 : s'.node.csmPrior = s.node.csmPrior) (h5 : s'.prev = s.prev) : Sound d W s' :=
  ⟨by rw [h5]; exact h.fine.congr h1 h2 h3, by rw [h5]; exact h.head.congr h4,
    by rw [h5]; exact h.priors⟩

omit [Add κ] [Sub κ] [Zero κ] in
theorem Fine.keys {l : List (Node κ H P)} (h : Fine d l) : ∀ m ∈ l, KeyLabelled d m := by
  induction l with
  | nil => simp
  | cons n l ih =>
    cases l with
    | nil =>
      intro m hm
      simp only [List.mem_singleton] at hm
      subst hm; exact h
    | cons q rest =>
      intro m hm
      rcases List.mem_cons.mp hm with rfl | hm
      · exact h.1
      · exact ih h.2.2 m hm

omit [Add κ] [Sub κ] [Zero κ] in
theorem getKey_total {s : State κ H P} (h : Fine d (s.node :: s.prev)) :
    ∃ k, s.getKey d.labels = .ok k := getKeyAux_total d.labels s.node s.prev h.keys

theorem outside_padded {r : Int} (h : outside r = false) : outsidePadded r = false := by
  have e : MIN_RELATIVE_TPC = -14 ∧ MAX_RELATIVE_TPC = 15 ∧ RELATIVE_TPC_EXTRA = 5 := by decide
  obtain ⟨e1, e2, e3⟩ := e
  simp only [outside, outsidePadded, e1, e2, e3, Bool.or_eq_false_iff, decide_eq_false_iff_not] at h ⊢
  omega

theorem good_prev (hd : OK d) {s : State κ H P} (hs : Good d s) :
    s.prev = [] ↔ s.node.changeIndex = 0 := by
  obtain ⟨⟨g, hg⟩, -⟩ := hs
  have hc := hg.chain hd.hash
  cases hp : s.prev with
  | nil => rw [hp] at hc; simp only [true_iff]; exact hc.2.1
  | cons q rest =>
    rw [hp] at hc
    have := hc.2.1
    simp only [reduceCtorEq, false_iff]
    omega

/-- The search keeps its states sound. -/
def soundPhases (hr : Runs d W) : PhaseInv d where
  beam := Sound d W
  ran s := Fine d (s.node :: s.prev) ∧ ∀ m ∈ s.node :: s.prev, PriorAt W m
  cand := Sound d W
  tried ps := Sound d W ps.2
  changing := Sound d W
  keeping s := Sound d W s ∧ s.node.mustKey = false
  moved := Sound d W
  init key tonic mode h _ _ _ :=
    ⟨⟨_, h⟩, ⟨_, rfl, hr.icm _⟩, by simp [State.initial]⟩
  first s hs hi hb := by
    have hp := (good_prev hr.toOK hs).mpr hi
    refine ⟨hb.fine, ?_⟩
    have hh := hb.head
    rw [hp] at hh ⊢
    intro m hm
    simp only [List.mem_singleton] at hm
    subst hm
    obtain ⟨p, h1, h2⟩ := hh
    exact ⟨p, h1, by simp only [hi, decide_true]; exact h2⟩
  csm s t hs hi hb ht := by
    have hp : s.prev ≠ [] := fun h => hi ((good_prev hr.toOK hs).mp h)
    simp only [runCsm] at ht
    obtain ⟨ph, hph, rfl⟩ := map_ok ht
    obtain ⟨ph', h1, h2⟩ := hr.csm s hs hb hp
    rw [hph] at h1
    injection h1 with h1
    subst h1
    refine ⟨hb.fine.congr rfl rfl rfl, ?_⟩
    intro m hm
    rcases List.mem_cons.mp hm with rfl | hm
    · exact ⟨_, rfl, by simpa [hi] using h2⟩
    · exact hb.priors m hm
  chord s t c r lp hs hran hm _ _ ht _ := by
    obtain ⟨root, ct, inv, bass, k, h1, h2, h3, h4, h5, rfl⟩ := chordTransition_some ht
    obtain ⟨⟨g, hg⟩, -⟩ := hs
    have hk := (getKeyAux_ok d.labels g d.hashLength _ _ (hg.chain hr.hash) k h3).1
    have hpad : PadRange d s.node.key c := ⟨root, ct, inv, bass, k.tonic, k.mode, h1, h2, hk, h4, h5⟩
    refine ⟨⟨⟨_, hk⟩, ⟨(hr.stops _ hm).1, c, rfl, hpad, hpad⟩, hran.1.congr rfl rfl rfl⟩, ?_, ?_⟩
    · exact hran.2 s.node (by simp)
    · intro m hm
      rcases List.mem_cons.mp hm with rfl | hm
      · exact hran.2 s.node (by simp)
      · exact hran.2 m (by simp [hm])
  rejoin s t _ r lp hs hran hm _ _ ht _ := by
    obtain ⟨c, root, ct, inv, bass, tonic, mode, p, ps, hcc, h1, h2, hp, h3, rfl⟩ := rejoin_ok ht
    obtain ⟨hf, hpr⟩ := hran
    rw [hp] at hf
    obtain ⟨-, ⟨-, c', hc', hpad, -⟩, hf⟩ := hf
    have hprev : ∀ m ∈ p :: ps, PriorAt W m := fun m hm => hpr m (by rw [hp]; simp [List.mem_cons.mp hm])
    refine ⟨?_, ?_, ?_⟩
    · simp only [hp]
      exact ⟨⟨_, h3⟩, ⟨(hr.stops _ hm).1, c', hc', hpad, hpad⟩, hf⟩
    · simp only [hp]
      exact hprev p (by simp)
    · simp only [hp]; exact hprev
  ktm s ps hs hc ht := by
    simp only [runKtm] at ht
    obtain ⟨ph, hph, rfl⟩ := map_ok ht
    exact hc.congr rfl rfl rfl rfl rfl
  branch ps q rest hs ht hq := by
    obtain ⟨h1, h2⟩ := chargeKey_all (T := Sound d W) (fun s lp h => h.congr rfl rfl rfl rfl rfl)
      (fun s h => h.congr rfl rfl rfl rfl rfl) ht (d.keyOptions ps.1 ps.2 q)
      (d.scale (d.logChange ps.1) ((ps.2.node.changeIndex : Int) - q.changeIndex))
      (d.scale (d.logNoChange ps.1) ((ps.2.node.changeIndex : Int) - q.changeIndex))
    refine ⟨h1, fun t ht => ⟨h2 t ht, ?_⟩⟩
    have hmk : (d.keyOptions ps.1 ps.2 q).2 = true → ps.2.node.mustKey = false := by
      simp only [keyOptions]
      split
      · split <;> simp
      · simp
    generalize d.keyOptions ps.1 ps.2 q = o at ht hmk
    obtain ⟨o1, o2⟩ := o
    cases o1 <;> cases o2 <;> simp only [chargeKey, Option.some.injEq, reduceCtorEq] at ht
    · subst ht; exact hmk rfl
    · subst ht; exact hmk rfl
  keep s cost hs ht hcost := ht.1.congr rfl rfl rfl rfl rfl
  key s t o q rest rel key lp hs ht ho hq htar hne hlp hkey _ := by
    obtain ⟨c, root, ct, inv, bass, tonic, mode, p, ps, hcc, h1, h2, h3, h4, h5, hpp, rfl⟩ :=
      keyTransition_some hkey
    have hpp' : s.prev = p :: ps := hpp
    have hcc' : s.node.chord = some c := hcc
    obtain ⟨hf, hh, hpr⟩ := ht
    rw [hpp'] at hf hh hpr
    obtain ⟨-, ⟨hi, c', hc', hpad, -⟩, hf⟩ := hf
    rw [hcc'] at hc'
    injection hc' with hc'
    subst hc'
    refine ⟨?_, ?_, ?_⟩
    · simp only [hpp]
      exact ⟨⟨_, h3⟩, ⟨hi, c, hcc, hpad, root, ct, inv, bass, tonic, mode, h1, h2, h3,
        outside_padded h4, outside_padded h5⟩, hf⟩
    · simp only [hpp]; exact hh
    · simp only [hpp]; exact hpr
  hidden s t hs hm ht := by
    simp only [runHidden, Bind.bind, runKtm] at ht
    obtain ⟨ps, hps, ht⟩ := bind_ok ht
    obtain ⟨ph, -, rfl⟩ := map_ok hps
    obtain ⟨o, -, ht⟩ := bind_ok ht
    injection ht with ht
    subst ht
    exact hm.congr rfl rfl rfl rfl rfl

/-! ## Each phase goes through -/

/-- A good state that is not initial is also one after the branching on chords. -/
theorem good_cand {s : State κ H P} (hs : Good d s) (hp : s.prev ≠ []) : Cand d s := by
  obtain ⟨hg, hseg⟩ := hs
  cases hq : s.prev with
  | nil => exact absurd hq hp
  | cons q rest =>
    rw [hq] at hseg
    exact ⟨hg, q, rest, hq, hseg.1.1, hseg.2, fun _ => hseg.1.2.2⟩

theorem branchState_total (hr : Runs d W) {s : State κ H P} {r : RangeData κ} {c : Int}
    (hs : Good d s) (hran : (soundPhases hr).ran s) (hm : (s.node.changeIndex, r) ∈ d.ranges)
    (hc : FitsRange d c s.node.changeIndex r) : ∃ o, d.branchState s.node.changeIndex s r c = .ok o := by
  obtain ⟨⟨lp, hlp⟩, root, ct, inv, bass, h1, h2⟩ := hr.chords _ _ _ hm hc
  simp only [branchState, hlp, Bind.bind, Except.bind]
  split
  · rename_i hch
    cases hp : s.prev with
    | nil =>
      obtain ⟨⟨g, hg⟩, -⟩ := hs
      have hc := hg.chain hr.hash
      rw [hp] at hc
      have := hc.1
      rw [← hch] at this
      cases this
    | cons p ps =>
      have hk := hran.1.keys p (by simp [hp])
      obtain ⟨⟨tonic, mode⟩, hk⟩ := hk
      simp only [State.rejoin, ← hch, chordLabelOf, h1, h2, hp, hk, Bind.bind, Except.bind, Except.map]
      exact ⟨_, rfl⟩
  · obtain ⟨k, hk⟩ := getKey_total hran.1
    simp only [chordTransition, chordLabelOf, h1, h2, hk, Bind.bind, Except.bind]
    split <;> exact ⟨_, rfl⟩

/-- A state that has moved on from `start`, to a beam of the piece. -/
def Later (d : SearchData κ ρ H P) (start : Nat) (s : State κ H P) : Prop :=
  start < s.node.changeIndex ∧ s.node.changeIndex ≤ d.numInputs

theorem branchState_later (hr : Runs d W) {s s' : State κ H P} {r : RangeData κ} {c : Int}
    (hs : Good d s) (hm : (s.node.changeIndex, r) ∈ d.ranges)
    (hc : FitsRange d c s.node.changeIndex r)
    (h : d.branchState s.node.changeIndex s r c = .ok (some s')) : Later d s.node.changeIndex s' := by
  have := (branchState_cand hr.toOK hs rfl hm hc h).2
  exact ⟨by rw [this]; exact hr.forward _ hm, by rw [this]; exact (hr.stops _ hm).1⟩

variable {β : Type} {ops : BeamOps β (Nat × State κ H P)}

/-- The beams from `start` on may be used. -/
structure Alive (d : SearchData κ ρ H P) (T : Total ops d.beamSize) (start : Nat)
    (st : List β × Nat) : Prop where
  len : st.1.length = d.numInputs + 1
  inv : ∀ i b, start ≤ i → st.1[i]? = some b → T.inv st.2 b

omit [Add κ] [Sub κ] [Zero κ] in
theorem Alive.get {T : Total ops d.beamSize} {start : Nat} {st : List β × Nat} (h : Alive d T start st)
    {i : Nat} (h1 : start ≤ i) (h2 : i ≤ d.numInputs) :
    ∃ b, pyGet st.1 (i : Int) = .ok b ∧ st.1[i]? = some b ∧ T.inv st.2 b := by
  have hlt : i < st.1.length := by rw [h.len]; omega
  have hg := List.getElem?_eq_getElem hlt
  exact ⟨st.1[i], Inference.pyGet_nat _ _ _ hg, hg, h.inv i _ h1 hg⟩

omit [Add κ] [Sub κ] [Zero κ] in
theorem fitsAt_total {T : Total ops d.beamSize} {start : Nat} {st : List β × Nat}
    (h : Alive d T start st) {s : State κ H P} (hs : Later d start s) (ck : Bool) :
    ∃ f, fitsAt ops start st.1 s ck = .ok f := by
  simp only [fitsAt]
  split
  · exact ⟨_, rfl⟩
  · obtain ⟨b, hb, -, hi⟩ := h.get (Nat.le_of_lt hs.1) hs.2
    simp only [hb, Bind.bind, Except.bind]
    exact T.fits _ _ _ _ hi

theorem branchLoop_total (hr : Runs d W) {T : Total ops d.beamSize} {st : List β × Nat}
    {s : State κ H P} {r : RangeData κ} (ha : Alive d T s.node.changeIndex st)
    (hs : Good d s) (hran : (soundPhases hr).ran s) (hm : (s.node.changeIndex, r) ∈ d.ranges)
    {ids : List Int} (hids : ∀ c ∈ ids, FitsRange d c s.node.changeIndex r) :
    ∃ out, d.branchLoop ops s.node.changeIndex st.1 s r ids = .ok out ∧
      ∀ t ∈ out, Later d s.node.changeIndex t := by
  induction ids with
  | nil => exact ⟨[], rfl, by simp⟩
  | cons c cs ih =>
    obtain ⟨o, ho⟩ := branchState_total hr hs hran hm (hids c (by simp))
    obtain ⟨out, hout, hl⟩ := ih (fun c hc => hids c (by simp [hc]))
    simp only [branchLoop, ho, Bind.bind, Except.bind]
    cases o with
    | none => exact ⟨out, hout, hl⟩
    | some s' =>
      have hl' := branchState_later hr hs hm (hids c (by simp)) ho
      obtain ⟨f, hf⟩ := fitsAt_total ha hl' false
      simp only [hf, keepIf]
      split
      · refine ⟨s' :: out, by rw [hout]; rfl, ?_⟩
        intro t ht
        rcases List.mem_cons.mp ht with rfl | ht
        · exact hl'
        · exact hl t ht
      · exact ⟨[], rfl, by simp⟩

theorem branchRange_total (hr : Runs d W) {T : Total ops d.beamSize} {st : List β × Nat}
    {s : State κ H P} {r : RangeData κ} (ha : Alive d T s.node.changeIndex st)
    (hs : Good d s) (hran : (soundPhases hr).ran s) (hm : (s.node.changeIndex, r) ∈ d.ranges) :
    ∃ out, d.branchRange ops s.node.changeIndex st.1 (s, r) = .ok out ∧
      ∀ t ∈ out, Later d s.node.changeIndex t := by
  have hfw := hr.forward _ hm
  have hst := hr.stops _ hm
  simp only at hfw hst
  have hq : ∃ e, d.quickExit ops s.node.changeIndex st.1 s r = .ok e := by
    simp only [quickExit]
    split
    · exact ⟨_, rfl⟩
    · obtain ⟨b, hb, -, hi⟩ := ha.get (Nat.le_of_lt hfw) hst.1
      simp only [hb, Bind.bind, Except.bind]
      split
      · exact ⟨_, rfl⟩
      · rename_i hl
        obtain ⟨x, hx⟩ := T.least _ _ hi hl
        rw [hx]; exact ⟨_, rfl⟩
  obtain ⟨e, he⟩ := hq
  simp only [branchRange, he, Bind.bind, Except.bind]
  split
  · exact ⟨[], rfl, by simp⟩
  · have hids : ∃ ids, d.branchIds s.node.changeIndex s.node.chord r = .ok ids := by
      have h0 : ∃ x, pyGet r.order 0 = .ok x := by
        cases ho : r.order with
        | nil => exact absurd ho hst.2
        | cons x l => exact ⟨x, by simp [pyGet]⟩
      obtain ⟨x, hx⟩ := h0
      simp only [branchIds, hx, Except.map]
      split
      · exact ⟨_, rfl⟩
      · split <;> exact ⟨_, rfl⟩
    obtain ⟨ids, hids⟩ := hids
    simp only [hids]
    exact branchLoop_total hr ha hs hran hm (branchIds_fits hr.pick hids)

theorem branchAll_total (hr : Runs d W) {T : Total ops d.beamSize} {st : List β × Nat} {start : Nat}
    (ha : Alive d T start st) {states : List (State κ H P)}
    (hs : ∀ s ∈ states, (Good d s ∧ (soundPhases hr).ran s) ∧ s.node.changeIndex = start) :
    ∃ out, d.branchAll ops start st.1 states = .ok out ∧ ∀ t ∈ out, Later d start t := by
  have key : ∀ sr ∈ pairs states (d.rangesAt start),
      ∃ out, d.branchRange ops start st.1 sr = .ok out ∧ ∀ t ∈ out, Later d start t := by
    intro sr hsr
    simp only [pairs, List.mem_flatMap, List.mem_map] at hsr
    obtain ⟨s, hs', r, hrr, rfl⟩ := hsr
    obtain ⟨⟨h1, h2⟩, rfl⟩ := hs s hs'
    simp only [rangesAt, List.mem_map, List.mem_filter, decide_eq_true_eq] at hrr
    obtain ⟨⟨a, r'⟩, ⟨hm, he⟩, rfl⟩ := hrr
    simp only at he
    subst he
    exact branchRange_total hr ha h1 h2 hm
  obtain ⟨ls, hls⟩ := mapM_total (fun sr hsr => (key sr hsr).imp fun _ h => h.1)
  refine ⟨ls.flatten, by simp [branchAll, hls, Except.map], ?_⟩
  have := mapM_all hls (P := fun sr => sr ∈ pairs states (d.rangesAt start))
    (Q := fun l => ∀ t ∈ l, Later d start t) (fun _ h => h) (fun sr l hsr hl => by
      obtain ⟨out, h1, h2⟩ := key sr hsr
      rw [hl] at h1
      injection h1 with h1
      subst h1; exact h2)
  intro t ht
  obtain ⟨l, hl, ht⟩ := List.mem_flatten.mp ht
  exact this l hl t ht

theorem keyBranch_total {T : Total ops d.beamSize} {st : List β × Nat} {start : Nat}
    (ha : Alive d T start st) {ps : ρ × State κ H P} (hs : Cand d ps.2) (hl : Later d start ps.2) :
    ∃ out, d.keyBranch ops start st.1 ps = .ok out ∧ (∀ t ∈ out.1, Later d start t) ∧
      ∀ t ∈ out.2, Later d start t := by
  obtain ⟨-, q, rest, hq, -⟩ := hs
  have hch := chargeKey_all (T := Later d start) (fun _ _ h => h) (fun _ h => h) hl
    (d.keyOptions ps.1 ps.2 q)
    (d.scale (d.logChange ps.1) ((ps.2.node.changeIndex : Int) - q.changeIndex))
    (d.scale (d.logNoChange ps.1) ((ps.2.node.changeIndex : Int) - q.changeIndex))
  have hch1 : ∀ x, (chargeKey (d.keyOptions ps.1 ps.2 q)
      (d.scale (d.logChange ps.1) ((ps.2.node.changeIndex : Int) - q.changeIndex))
      (d.scale (d.logNoChange ps.1) ((ps.2.node.changeIndex : Int) - q.changeIndex)) ps.2).1 = some x →
      Later d start x.1 := by
    intro x hx
    generalize d.keyOptions ps.1 ps.2 q = o at hx
    obtain ⟨o1, o2⟩ := o
    cases o1 <;> cases o2 <;> simp only [chargeKey, Option.some.injEq, reduceCtorEq] at hx
    · subst hx; exact hl
    · subst hx; exact hl
  simp only [keyBranch, hq]
  generalize chargeKey (d.keyOptions ps.1 ps.2 q) _ _ ps.2 = ch at hch hch1
  obtain ⟨c1, c2⟩ := ch
  have k : ∀ (x : Option (State κ H P × State κ H P)) ck, (∀ y, x = some y → Later d start y.1 ∧
      Later d start y.2) → ∃ l, keepFits ops start st.1 ck x = .ok l ∧ ∀ t ∈ l, Later d start t := by
    intro x ck hx
    cases x with
    | none => exact ⟨[], rfl, by simp⟩
    | some y =>
      obtain ⟨f, hf⟩ := fitsAt_total ha (hx y rfl).1 ck
      refine ⟨if f then [y.2] else [], by simp [keepFits, hf, Except.map], ?_⟩
      intro t ht
      split at ht
      · simp only [List.mem_singleton] at ht
        subst ht; exact (hx y rfl).2
      · simp at ht
  obtain ⟨l1, e1, k1⟩ := k c1 false (fun y hy => ⟨hch1 y hy, hch.1 y hy⟩)
  obtain ⟨l2, e2, k2⟩ := k (c2.map fun s => (s, s)) true (fun y hy => by
    obtain ⟨t, ht, rfl⟩ := Option.map_eq_some_iff.mp hy
    exact ⟨hch.2 t ht, hch.2 t ht⟩)
  exact ⟨(l1, l2), by simp [e1, e2, Bind.bind, Except.bind], k1, k2⟩

theorem targetKey_total (hr : Runs d W) {s : State κ H P} (hf : Fine d (s.node :: s.prev)) {rel : Int}
    (hm : ∃ mi, pyGet d.relativeKeys rel = .ok mi) : ∃ o, d.targetKey s rel = .ok o ∧
      ∀ key, o = some key → ∃ tm, pyGet d.labels.key key = .ok tm := by
  obtain ⟨⟨mode, iv⟩, hmi⟩ := hm
  obtain ⟨k, hk⟩ := getKey_total hf
  simp only [targetKey, hmi, hk, Bind.bind, Except.bind, hr.keyLabels]
  have enc : ∀ pt tonic, 0 ≤ tonic → tonic < NUM_PITCHES pt → ∃ i, keyOneHotIndex mode tonic pt = .ok i ∧
      keyFromOneHotIndex i pt false = .ok (tonic, mode) := by
    intro pt tonic h0 h1
    have := C03_encode_decode mode tonic pt
    rw [if_pos ⟨h0, by rw [specPitches_eq]; exact h1⟩] at this
    obtain ⟨i, e1, -, -, e2⟩ := this
    exact ⟨i, e1, e2⟩
  have h12 : NUM_PITCHES .midi = 12 := by decide
  cases d.pitchType with
  | midi =>
    obtain ⟨i, h1, h2⟩ := enc .midi ((k.tonic + iv) % 12) (by omega) (by omega)
    exact ⟨some i, by simp [h1, Except.map], fun key hkey => by
      injection hkey with hkey; subst hkey; exact ⟨_, h2⟩⟩
  | tpc =>
    simp only
    split
    · exact ⟨none, rfl, by simp⟩
    · obtain ⟨i, h1, h2⟩ := enc .tpc (k.tonic + iv) (by omega) (by omega)
      exact ⟨some i, by simp [h1, Except.map], fun key hkey => by
        injection hkey with hkey; subst hkey; exact ⟨_, h2⟩⟩

theorem keyLoop_total (hr : Runs d W) {s : State κ H P} (hs : Cand d s) (hsd : Sound d W s)
    {F : Option Int} {o : KsmOutput κ H} {len : Int} {rels : List Int} {room : Nat}
    (ho : ∀ rel ∈ rels, (∃ lp, pyGet o.priors rel = .ok lp) ∧
      ∃ mi, pyGet d.relativeKeys rel = .ok mi) :
    ∃ out, d.keyLoop F s o len rels room = .ok out ∧
      ∀ t ∈ out, t.node.changeIndex = s.node.changeIndex ∧ t.prev ≠ [] := by
  induction rels generalizing room with
  | nil => exact ⟨[], rfl, by simp⟩
  | cons rel rels ih =>
    have ih := fun room => ih (room := room) (fun x hx => ho x (by simp [hx]))
    obtain ⟨⟨lp, hlp⟩, hmi⟩ := ho rel (by simp)
    obtain ⟨target, htar, hkey⟩ := targetKey_total hr hsd.fine hmi
    simp only [keyLoop, htar, Bind.bind, Except.bind]
    cases target with
    | none => exact ih room
    | some key =>
      simp only
      split
      · exact ih room
      · obtain ⟨⟨tonic, mode⟩, hk⟩ := hkey key rfl
        obtain ⟨-, q, rest, hq, -⟩ := hs
        have hf := hsd.fine
        rw [hq] at hf
        obtain ⟨-, ⟨-, c, hc, ⟨root, ct, inv, bass, -, -, h1, h2, -⟩, -⟩, -⟩ := hf
        have hnew : ∃ new, s.keyTransition d.labels d.pitchType key
            (d.scale (d.ksmExponent lp) len) = .ok new ∧
            ∀ t, new = some t → t.node.changeIndex = s.node.changeIndex ∧ t.prev ≠ [] := by
          simp only [keyTransition, hc, chordLabelOf, h1, h2, hk, hq, Bind.bind, Except.bind]
          split
          · exact ⟨none, rfl, by simp⟩
          · exact ⟨some _, rfl, fun t ht => by injection ht with ht; subst ht; simp⟩
        obtain ⟨new, hn, hnt⟩ := hnew
        simp only [hlp, hn]
        cases new with
        | none =>
          simp only [afterKey]
          split
          · exact ⟨[], rfl, by simp⟩
          · exact ih room
        | some t =>
          simp only [afterKey]
          split
          · refine ⟨[t], rfl, ?_⟩
            intro x hx
            simp only [List.mem_singleton] at hx
            subst hx; exact hnt _ rfl
          · obtain ⟨out, h1, h2⟩ := ih (room - 1)
            refine ⟨t :: out, by rw [h1]; rfl, ?_⟩
            intro x hx
            rcases List.mem_cons.mp hx with rfl | hx
            · exact hnt _ rfl
            · exact h2 x hx

theorem keyChanges_total (hr : Runs d W) {s : State κ H P} (hs : Cand d s) (hsd : Sound d W s) :
    ∃ out, d.keyChanges s = .ok out ∧
      ∀ t ∈ out, t.node.changeIndex = s.node.changeIndex ∧ t.prev ≠ [] := by
  obtain ⟨o, ho, hrel⟩ := hr.ksm s hs hsd
  have hs' : Cand d (setKsm s o) := by
    refine hs.congr (fun g hg => ?_) rfl rfl rfl rfl rfl
    exact Reach.hidden s s.node.csmHidden s.node.ktmHidden (some o.hidden) s.node.csmPrior hg
  obtain ⟨-, q, rest, hq, -⟩ := hs
  have hq' : (setKsm s o).prev = q :: rest := hq
  simp only [keyChanges, ho, Bind.bind, Except.bind, hq']
  exact keyLoop_total hr hs' (hsd.congr rfl rfl rfl rfl rfl) hrel

theorem runHidden_total (hr : Runs d W) {s : State κ H P} (hs : Good d s) (hp : s.prev ≠ [])
    (hsd : Sound d W s) : ∃ t, d.runHidden s = .ok t ∧ t.node.changeIndex = s.node.changeIndex := by
  obtain ⟨ph, hph⟩ := hr.ktm s (good_cand hs hp) hsd
  have hrun : d.runKtm s = .ok (if s.canKeyTransition then ph.1 else d.zeroProb,
      { s with node := { s.node with ktmHidden := some ph.2 } }) := by
    simp only [runKtm, hph, Except.map]
  obtain ⟨o, ho, -⟩ := hr.ksm _ (runKtm_cand (good_cand hs hp) hrun)
    (hsd.congr (s' := { s with node := { s.node with ktmHidden := some ph.2 } }) rfl rfl rfl rfl rfl)
  simp only [runHidden, hrun, Bind.bind, Except.bind]
  simp only at ho
  simp only [ho]
  exact ⟨_, rfl, rfl⟩

omit [Add κ] [Sub κ] [Zero κ] in
theorem addState_total {T : Total ops d.beamSize} {st : List β × Nat} {start : Nat}
    (ha : Alive d T start st) {s : State κ H P} (hl : Later d start s) :
    ∃ st', addState ops st s = .ok st' ∧ Alive d T start st' := by
  obtain ⟨b, hb, hg, hi⟩ := ha.get (Nat.le_of_lt hl.1) hl.2
  obtain ⟨r, b', hadd, hi'⟩ := T.add _ _ s false hi
  refine ⟨(st.1.set s.node.changeIndex b', st.2 + 1), ?_, ?_, ?_⟩
  · simp only [addState, hb, hadd, Bind.bind, Except.bind]
  · simp [ha.len]
  · intro i bi hle hbi
    simp only [List.getElem?_set] at hbi
    split at hbi
    · split at hbi
      · injection hbi with hbi
        subst hbi; exact hi'
      · cases hbi
    · exact T.mono _ _ (ha.inv i bi hle hbi)

theorem step_total (hr : Runs d W) (law : Lawful ops) {T : Total ops d.beamSize} {st : List β × Nat}
    {start : Nat} (hlt : start < d.numInputs) (ha : Alive d T start st) (hok : BeamsOK d law st)
    (hst : BeamsInv (soundPhases hr) law st) :
    ∃ st', d.step ops st start = .ok st' ∧ Alive d T (start + 1) st' := by
  obtain ⟨b, hb, hg, hi⟩ := ha.get (Nat.le_refl _) (Nat.le_of_lt hlt)
  simp only [step, hb, Bind.bind, Except.bind]
  split
  · exact ⟨st, rfl, ha.len, fun i bi hle h => ha.inv i bi (by omega) h⟩
  · obtain ⟨objects, ho⟩ := T.states _ _ hi
    have h0 : ∀ s ∈ objects.map (·.2), (Good d s ∧ s.node.changeIndex = start) ∧
        (soundPhases hr).beam s := by
      intro s hs
      obtain ⟨x, hx, rfl⟩ := List.mem_map.mp hs
      exact ⟨hok start b hg x (law.states b objects ho x hx),
        hst start b hg x (law.states b objects ho x hx)⟩
    have h1 : ∃ states, d.csmStates start (objects.map (·.2)) = .ok states ∧
        ∀ s ∈ states, (Good d s ∧ (soundPhases hr).ran s) ∧ s.node.changeIndex = start := by
      simp only [csmStates]
      split
      · rename_i hz
        exact ⟨_, rfl, fun s hs => ⟨⟨(h0 s hs).1.1, (soundPhases hr).first s (h0 s hs).1.1
          ((h0 s hs).1.2.trans hz) (h0 s hs).2⟩, (h0 s hs).1.2⟩⟩
      · rename_i hz
        obtain ⟨states, hs⟩ := mapM_total (f := d.runCsm) (l := objects.map (·.2)) (fun s hs => by
          obtain ⟨⟨g1, g2⟩, g3⟩ := h0 s hs
          have hp : s.prev ≠ [] := fun h => hz (by rw [← g2]; exact (good_prev hr.toOK g1).mp h)
          obtain ⟨ph, hph, -⟩ := hr.csm s g1 g3 hp
          exact ⟨_, by simp only [runCsm, hph, Except.map]; rfl⟩)
        refine ⟨states, hs, mapM_all hs h0 ?_⟩
        intro a b ⟨⟨g1, g2⟩, g3⟩ hab
        have := runCsm_good g1 hab
        exact ⟨⟨this.1, (soundPhases hr).csm a b g1 (by omega) g3 hab⟩, this.2.trans g2⟩
    obtain ⟨states, hstates, h1⟩ := h1
    obtain ⟨toCheck, hcheck, hl2⟩ := branchAll_total hr ha h1
    have h2 : ∀ t ∈ toCheck, (Cand d t ∧ (soundPhases hr).cand t) ∧ Later d start t := fun t ht =>
      ⟨⟨branchAll_cand hr.toOK (fun s hs => ⟨(h1 s hs).1.1, (h1 s hs).2⟩) hcheck t ht,
        branchAll_inv (soundPhases hr) h1 hcheck t ht⟩, hl2 t ht⟩
    obtain ⟨probs, hprobs⟩ := mapM_total (f := d.runKtm) (l := toCheck) (fun s hs => by
      obtain ⟨ph, hph⟩ := hr.ktm s (h2 s hs).1.1 (h2 s hs).1.2
      exact ⟨_, by simp only [runKtm, hph, Except.map]; rfl⟩)
    have h3 : ∀ ps ∈ probs, (Cand d ps.2 ∧ (soundPhases hr).tried ps) ∧ Later d start ps.2 :=
      mapM_all hprobs h2 (fun a b ha hab => ⟨⟨runKtm_cand ha.1.1 hab,
        (soundPhases hr).ktm a b ha.1.1 ha.1.2 hab⟩, by
          simp only [runKtm] at hab
          obtain ⟨ph, -, rfl⟩ := map_ok hab
          exact ha.2⟩)
    obtain ⟨branched, hbr⟩ := mapM_total (f := d.keyBranch ops start st.1) (l := probs) (fun ps hps =>
      (keyBranch_total ha (h3 ps hps).1.1 (h3 ps hps).2).imp fun _ h => h.1)
    have h4 : ∀ o ∈ branched,
        (∀ t ∈ o.1, (Cand d t ∧ (soundPhases hr).changing t) ∧ Later d start t) ∧
        (∀ t ∈ o.2, (Cand d t ∧ (soundPhases hr).keeping t) ∧ Later d start t) := by
      refine mapM_all hbr h3 (fun a b hab hb => ?_)
      obtain ⟨g1, g2⟩ := keyBranch_inv (soundPhases hr) hab.1.1 hab.1.2 hb
      obtain ⟨out, e, g3, g4⟩ := keyBranch_total ha hab.1.1 hab.2
      rw [hb] at e
      injection e with e
      subst e
      exact ⟨fun t ht => ⟨g1 t ht, g3 t ht⟩, fun t ht => ⟨g2 t ht, g4 t ht⟩⟩
    have h4a : ∀ t ∈ (branched.map (·.1)).flatten,
        (Cand d t ∧ (soundPhases hr).changing t) ∧ Later d start t := by
      intro s hs
      obtain ⟨l, hl, hsl⟩ := List.mem_flatten.mp hs
      obtain ⟨o, ho, rfl⟩ := List.mem_map.mp hl
      exact (h4 o ho).1 s hsl
    have h4b : ∀ t ∈ (branched.map (·.2)).flatten,
        (Cand d t ∧ (soundPhases hr).keeping t) ∧ Later d start t := by
      intro s hs
      obtain ⟨l, hl, hsl⟩ := List.mem_flatten.mp hs
      obtain ⟨o, ho, rfl⟩ := List.mem_map.mp hl
      exact (h4 o ho).2 s hsl
    obtain ⟨changed, hchg⟩ := mapM_total (f := d.keyChanges) (l := (branched.map (·.1)).flatten)
      (fun s hs => (keyChanges_total hr (h4a s hs).1.1 (h4a s hs).1.2).imp fun _ h => h.1)
    have h5 : ∀ l ∈ changed, ∀ t ∈ l, ((Good d t ∧ t.prev ≠ []) ∧ (soundPhases hr).moved t) ∧
        Later d start t := by
      refine mapM_all hchg h4a (fun a b hab hb t ht => ?_)
      obtain ⟨out, e, g⟩ := keyChanges_total hr hab.1.1 hab.1.2
      rw [hb] at e
      injection e with e
      subst e
      refine ⟨⟨⟨keyChanges_good hr.toOK hab.1.1 hb t ht, (g t ht).2⟩,
        keyChanges_inv (soundPhases hr) hab.1.1 hab.1.2 hb t ht⟩, ?_⟩
      have := (g t ht).1
      exact ⟨by rw [this]; exact hab.2.1, by rw [this]; exact hab.2.2⟩
    have h5' : ∀ t ∈ changed.flatten, ((Good d t ∧ t.prev ≠ []) ∧ (soundPhases hr).moved t) ∧
        Later d start t := by
      intro s hs
      obtain ⟨l, hl, hsl⟩ := List.mem_flatten.mp hs
      exact h5 l hl s hsl
    obtain ⟨changed2, hchg2⟩ := mapM_total (f := d.runHidden) (l := changed.flatten)
      (fun s hs => (runHidden_total hr (h5' s hs).1.1.1 (h5' s hs).1.1.2 (h5' s hs).1.2).imp
        fun _ h => h.1)
    have h6 : ∀ t ∈ changed2, Later d start t := by
      refine mapM_all hchg2 h5' (fun a b hab hb => ?_)
      obtain ⟨t, e, g⟩ := runHidden_total hr hab.1.1.1 hab.1.1.2 hab.1.2
      rw [hb] at e
      injection e with e
      subst e
      exact ⟨by rw [g]; exact hab.2.1, by rw [g]; exact hab.2.2⟩
    obtain ⟨st1, hst1, ha1⟩ := foldlM_total (f := addState ops) ha h6
      (fun s a hs hl => addState_total hs hl)
    obtain ⟨st2, hst2, ha2⟩ := foldlM_total (f := d.addKept ops) ha1 h4b (fun s a hs hl => by
      obtain ⟨c, hc⟩ := hr.csmCost a hl.1.1 hl.1.2.1 hl.1.2.2
      obtain ⟨s', h1, h2⟩ := addState_total hs (s := a.addCsm c) hl.2
      exact ⟨s', by simp only [addKept, hc, Bind.bind, Except.bind]; exact h1, h2⟩)
    obtain ⟨b2, hb2, -, -⟩ := ha2.get (Nat.le_refl _) (Nat.le_of_lt hlt)
    refine ⟨(st2.1.set start (ops.empty b2), st2.2), ?_, ?_, ?_⟩
    · simp only [stepBody, ho, hstates, hcheck, hprobs, hbr, hchg, hchg2, hst1, hst2, hb2, Bind.bind,
        Except.bind]
    · simp [ha2.len]
    · intro i bi hle hbi
      simp only [List.getElem?_set] at hbi
      rw [if_neg (by omega)] at hbi
      exact ha2.inv i bi (by omega) hbi

theorem initialBeams_total (hr : Runs d W) (T : Total ops d.beamSize) :
    ∃ st, d.initialBeams ops = .ok st ∧ Alive d T 0 st := by
  obtain ⟨f, hf, hlab⟩ := hr.firstKey
  have hkeys : ∃ keys, d.initialKeys = .ok keys ∧
      ∀ k ∈ keys, ∃ tm, pyGet d.labels.key k = .ok tm := by
    simp only [initialKeys, hf, Bind.bind, Except.bind]
    split
    · obtain ⟨names, h1, h2, -⟩ := C03_labels d.pitchType false none
      simp only [h1]
      refine ⟨_, rfl, fun k hk => ?_⟩
      have h2 : (names.length : Int) = 2 * specPitches d.pitchType := by
        rw [h2]; cases d.pitchType <;> rfl
      rw [mem_pyRange] at hk
      obtain ⟨tonic, mode, e, -⟩ := C03_decode_encode k d.pitchType hk.1 (by omega)
      rw [hr.keyLabels]
      exact ⟨_, e⟩
    · rename_i hne
      rcases hlab with h | h
      · exact absurd h hne
      · exact ⟨[f], rfl, by simpa using h⟩
  obtain ⟨keys, hk, hkl⟩ := hkeys
  obtain ⟨⟨b, n⟩, hb, hi⟩ := foldlM_total (f := d.addInitial ops) (l := keys)
    (s := (ops.new d.beamSize, 0)) (I := fun st => T.inv st.2 st.1) (T.new 0) hkl (fun st key hst hkey => by
      obtain ⟨⟨tonic, mode⟩, htm⟩ := hkey
      obtain ⟨r, b', h1, h2⟩ := T.add _ _
        (State.initial key d.hashLength (some (d.icm (decide (mode = .minor))))) true hst
      exact ⟨(b', st.2 + 1), by simp only [addInitial, htm, h1, Bind.bind, Except.bind], h2⟩)
  refine ⟨(b :: List.replicate d.numInputs (ops.new d.beamSize), n), ?_, by simp, ?_⟩
  · simp only [initialBeams, hk, hb, Bind.bind, Except.bind]
  · intro i bi _ hbi
    cases i with
    | zero =>
      simp only [List.getElem?_cons_zero, Option.some.injEq] at hbi
      subst hbi; exact hi
    | succ i =>
      simp only [List.getElem?_cons_succ, List.getElem?_replicate] at hbi
      split at hbi
      · injection hbi with hbi
        subst hbi; exact T.new _
      · cases hbi

theorem steps_total (hr : Runs d W) (law : Lawful ops) {T : Total ops d.beamSize} (n : Nat)
    {start : Nat} (hn : start + n ≤ d.numInputs) {st : List β × Nat} (ha : Alive d T start st)
    (hok : BeamsOK d law st) (hst : BeamsInv (soundPhases hr) law st) :
    ∃ st', (List.range' start n).foldlM (d.step ops) st = .ok st' ∧ Alive d T (start + n) st' := by
  induction n generalizing start st with
  | zero => exact ⟨st, by simp [Pure.pure, Except.pure], ha⟩
  | succ n ih =>
    obtain ⟨st1, h1, ha1⟩ := step_total hr law (by omega) ha hok hst
    obtain ⟨st2, h2, ha2⟩ := ih (by omega) ha1 (step_ok hr.toOK hok h1)
      (step_inv (soundPhases hr) hr.toOK hok hst h1)
    refine ⟨st2, ?_, by rw [show start + (n + 1) = start + 1 + n by omega]; exact ha2⟩
    simp only [List.range'_succ, List.foldlM_cons, h1, Bind.bind, Except.bind]
    exact h2

theorem searchWith_total (hr : Runs d W) (law : Lawful ops) (T : Total ops d.beamSize) :
    ∃ r, d.searchWith ops = .ok r := by
  obtain ⟨st, h1, ha⟩ := initialBeams_total hr T
  obtain ⟨st1, h2, ha1⟩ := steps_total hr law d.numInputs (start := 0) (by omega) ha (initialBeams_ok h1)
    (initialBeams_inv (soundPhases hr) h1)
  obtain ⟨b, hb, -, hi⟩ := ha1.get (i := d.numInputs) (by omega) (Nat.le_refl _)
  obtain ⟨top, htop⟩ := T.top _ _ hi
  refine ⟨top.map (·.2), ?_⟩
  simp only [searchWith, h1, List.range_eq_range', h2, hb, htop, Bind.bind, Except.bind]

/-- C131: the search does not raise. -/
theorem C131_search [DecidableEq κ] [DecidableEq H] [DecidableEq P] (d : SearchData κ ρ H P)
    (W : Bool → P → Prop) (hr : Runs d W) : ∃ r, d.search = .ok r := by
  simp only [search]
  cases hh : d.hashLength with
  | none => exact searchWith_total hr (plainLawful _) (plainTotal _ _ hr.size)
  | some k =>
    have hw := hr.order (by simp [hh])
    have hw' : WeakOrder d.stateLt := ⟨fun a b => hw.asymm _ _, fun a b c => hw.negtrans _ _ _⟩
    exact searchWith_total hr (hashedLawful _ _) (hashedTotal _ _ hw' _ hr.size)

end

end Verif.SearchTotal
