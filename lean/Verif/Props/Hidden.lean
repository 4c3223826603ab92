import Verif.Props.Search
import Verif.Props.StateInputs

/-!
# C89: what the recurrent models have seen in the search
-/

namespace Verif.Hidden

open Verif State Verif.SearchData Verif.StateInputs

/-- The hidden state of a network after a sequence of rows. -/
def after {H O : Type} (step : Option H → List ℚ → O × H) (rows : List (List ℚ)) : Option H :=
  rows.foldl (fun h r => some (step h r).2) none

theorem after_snoc {H O : Type} (step : Option H → List ℚ → O × H) (rs : List (List ℚ)) (r : List ℚ) :
    after step (rs ++ [r]) = some (step (after step rs) r).2 := by
  simp [after]

/-- Running a network on further rows. -/
theorem runNet_after {H O : Type} (step : Option H → List ℚ → O × H) (rows0 rs : List (List ℚ))
    (r : List ℚ) : runNet step (after step rows0) (rs ++ [r]) = some (step (after step (rows0 ++ rs)) r) := by
  induction rs generalizing rows0 with
  | nil => simp [runNet]
  | cons a rs ih =>
    have h1 : some (step (after step rows0) a).2 = after step (rows0 ++ [a]) :=
      (after_snoc step rows0 a).symm
    cases hrs : rs ++ [r] with
    | nil => simp at hrs
    | cons b bs =>
      rw [List.cons_append, hrs]
      show runNet step (some (step (after step rows0) a).2) (b :: bs) = _
      rw [h1, ← hrs, ih (rows0 ++ [a]), List.append_assoc]
      rfl

section
variable {κ ρ H P : Type}

/-- The rows of all chords of a chain of nodes, oldest first (the first node has no chord). -/
def AllRows (d : SearchData κ ρ H P) (C : Caches) (pad : Bool) (chain : List (Node κ H P))
    (rows : List (List ℚ)) : Prop :=
  RecentRows d.labels d.pitchType C pad (chain.length - 1) chain rows

theorem AllRows.snoc {d : SearchData κ ρ H P} {C : Caches} {pad : Bool} {n q : Node κ H P}
    {rest : List (Node κ H P)} {rs : List (List ℚ)} {r : List ℚ} (h : AllRows d C pad (q :: rest) rs)
    (hr : SeqRow d.labels d.pitchType C pad n q r) : AllRows d C pad (n :: q :: rest) (rs ++ [r]) := by
  show RecentRows d.labels d.pitchType C pad (rest.length + 1) (n :: q :: rest) (rs ++ [r])
  exact ⟨rs, r, h, hr, rfl⟩

/-- The new key of node `n` was reached by a relative key whose cost is that given by the KSM after all
chords before, and this chord in the old key. -/
def KeyCost (d : SearchData κ ρ H P) (N : Nets κ ρ H P) (C : Caches) (n q : Node κ H P)
    (rest : List (Node κ H P)) : Prop :=
  ∃ rows r rel lp mode interval tonic oldMode, AllRows d C true (q :: rest) rows ∧
    SeqRow d.labels d.pitchType C true { n with key := q.key } q r ∧
    pyGet (N.ksm (after N.ksm rows) r).1 rel = .ok lp ∧
    pyGet d.relativeKeys rel = .ok (mode, interval) ∧ pyGet d.labels.key q.key = .ok (tonic, oldMode) ∧
    n.key = (match d.pitchType with
      | .midi => 12 * mode.value + (tonic + interval) % 12
      | .tpc => 35 * mode.value + (tonic + interval)) ∧
    (d.pitchType = .tpc → 0 ≤ tonic + interval ∧ tonic + interval < 35) ∧
    n.ksm = some (d.scale (d.ksmExponent lp) ((n.changeIndex : Int) - q.changeIndex))

/-- The cost of the chord of `n` given by the CSM to a state like it, with the prior found after the
chords before. -/
def CsmCost (d : SearchData κ ρ H P) (n q : Node κ H P) (rest : List (Node κ H P)) : Prop :=
  ∃ s cost, s.prev = q :: rest ∧ s.node.chord = n.chord ∧ s.node.key = n.key ∧
    s.node.changeIndex = n.changeIndex ∧ s.node.csmPrior = q.csmPrior ∧ d.csmCost s = .ok cost ∧
    n.csm = some cost

/-- A node and those before it: the KTM, the KSM and the costs. -/
structure Link (d : SearchData κ ρ H P) (N : Nets κ ρ H P) (C : Caches) (n q : Node κ H P)
    (rest : List (Node κ H P)) : Prop where
  ktm : ∃ row, SeqRow d.labels d.pitchType C true n q row ∧ n.ktmHidden = some (N.ktm q.ktmHidden row).2
  same : n.key = q.key → n.ksmHidden = q.ksmHidden ∧ n.ksm = none ∧ CsmCost d n q rest
  moved : n.key ≠ q.key → (∃ rows, AllRows d C true (n :: q :: rest) rows ∧
    n.ksmHidden = after N.ksm rows) ∧ n.csm = none ∧ KeyCost d N C n q rest

/-- A node on which the CSM has been run. -/
def CsmLink (d : SearchData κ ρ H P) (N : Nets κ ρ H P) (C : Caches) (n q : Node κ H P) : Prop :=
  ∃ row, SeqRow d.labels d.pitchType C false n q row ∧
    n.csmPrior = some (N.csm q.csmHidden row).1 ∧ n.csmHidden = some (N.csm q.csmHidden row).2

/-- An initial node. -/
def InitNode (d : SearchData κ ρ H P) (n : Node κ H P) : Prop :=
  n.csmHidden = none ∧ n.ktmHidden = none ∧ n.ksmHidden = none ∧
    ∃ tonic mode, pyGet d.labels.key n.key = .ok (tonic, mode) ∧
      n.csmPrior = some (d.icm (decide (mode = .minor)))

/-- A chain of nodes on which the CSM has been run. -/
def Full (d : SearchData κ ρ H P) (N : Nets κ ρ H P) (C : Caches) : List (Node κ H P) → Prop
  | n :: q :: rest => Link d N C n q rest ∧ CsmLink d N C n q ∧ Full d N C (q :: rest)
  | [n] => InitNode d n
  | [] => True

variable {d : SearchData κ ρ H P} {N : Nets κ ρ H P} {C : Caches}

theorem RecentRows.congr {L : Labels} {pt : PitchType} {C : Caches} {pad : Bool} {k : Nat}
    {n n' : Node κ H P} {rest : List (Node κ H P)} {rows : List (List ℚ)}
    (h : RecentRows L pt C pad k (n :: rest) rows) (h1 : n'.chord = n.chord) (h2 : n'.key = n.key)
    (h3 : n'.changeIndex = n.changeIndex) : RecentRows L pt C pad k (n' :: rest) rows := by
  cases k with
  | zero => exact h
  | succ k =>
    cases rest with
    | nil => exact h
    | cons q rest =>
      obtain ⟨rs, r, a, b, c⟩ := h
      exact ⟨rs, r, a, b.congr h1 h2 h3 rfl rfl, c⟩

/-- Changes of the cached key and of the CSM leave the link as it is. -/
theorem Link.congr {n n' q : Node κ H P} {rest : List (Node κ H P)} (h : Link d N C n q rest)
    (h1 : n'.chord = n.chord) (h2 : n'.key = n.key) (h3 : n'.changeIndex = n.changeIndex)
    (h4 : n'.ktmHidden = n.ktmHidden) (h5 : n'.ksmHidden = n.ksmHidden) (h6 : n'.ksm = n.ksm)
    (h7 : n'.csm = n.csm) : Link d N C n' q rest := by
  obtain ⟨⟨row, a1, a2⟩, b, c⟩ := h
  refine ⟨⟨row, a1.congr h1 h2 h3 rfl rfl, by rw [h4]; exact a2⟩, ?_, ?_⟩
  · intro he
    rw [h2] at he
    obtain ⟨b1, b2, s, cost, e1, e2, e3, e4, e5, e6, e7⟩ := b he
    exact ⟨by rw [h5]; exact b1, by rw [h6]; exact b2, s, cost, e1, by rw [h1]; exact e2,
      by rw [h2]; exact e3, by rw [h3]; exact e4, e5, e6, by rw [h7]; exact e7⟩
  · intro he
    rw [h2] at he
    obtain ⟨⟨rows, c1, c2⟩, c3, rows', r, rel, lp, mode, iv, tonic, om, e1, e2, e3, e4, e5, e6, e6', e7⟩ := c he
    refine ⟨⟨rows, RecentRows.congr c1 h1 h2 h3, by rw [h5]; exact c2⟩, by rw [h7]; exact c3,
      rows', r, rel, lp, mode, iv, tonic, om, e1, e2.congr h1 rfl h3 rfl rfl, e3, e4, e5,
      by rw [h2]; exact e6, e6', by rw [h6, h3]; exact e7⟩

theorem Full.congr {n n' : Node κ H P} {rest : List (Node κ H P)} (h : Full d N C (n :: rest))
    (h1 : n'.chord = n.chord) (h2 : n'.key = n.key) (h3 : n'.changeIndex = n.changeIndex)
    (h4 : n'.ktmHidden = n.ktmHidden) (h5 : n'.ksmHidden = n.ksmHidden) (h6 : n'.ksm = n.ksm)
    (h7 : n'.csm = n.csm) (h8 : n'.csmHidden = n.csmHidden) (h9 : n'.csmPrior = n.csmPrior) :
    Full d N C (n' :: rest) := by
  cases rest with
  | nil =>
    obtain ⟨a, b, c, t, m, e, f⟩ := h
    exact ⟨by rw [h8]; exact a, by rw [h4]; exact b, by rw [h5]; exact c, t, m, by rw [h2]; exact e,
      by rw [h9]; exact f⟩
  | cons q rest =>
    obtain ⟨a, ⟨row, b1, b2, b3⟩, c⟩ := h
    exact ⟨a.congr h1 h2 h3 h4 h5 h6 h7, ⟨row, b1.congr h1 h2 h3 rfl rfl, by rw [h9]; exact b2,
      by rw [h8]; exact b3⟩, c⟩

/-- The rows given to the KSM are those it has not seen. -/
theorem ksm_split [DecidableEq H] {g : Int} {hl : Option Nat} (n q : Node κ H P)
    (rest : List (Node κ H P)) (hc : ChainOK d.labels g hl (n :: q :: rest))
    (hf : Full d N C (q :: rest)) (rs : List (List ℚ))
    (hr : ksmInput d.labels d.pitchType C n (q :: rest) = .ok rs) :
    ∃ rows0 rs' r, q.ksmHidden = after N.ksm rows0 ∧ rs = rs' ++ [r] ∧
      AllRows d C true (q :: rest) (rows0 ++ rs') ∧ SeqRow d.labels d.pitchType C true n q r := by
  induction rest generalizing n q rs with
  | nil =>
    simp only [ksmInput, Bind.bind] at hr
    obtain ⟨row, hrow, hr⟩ := bind_ok hr
    simp only [ksmHasRun, if_true, Except.ok.injEq] at hr
    subst hr
    exact ⟨[], [], row, hf.2.2.1, rfl, rfl, ktmInput_row hc hrow⟩
  | cons p rest ih =>
    rw [ksmInput] at hr
    simp only [Bind.bind] at hr
    obtain ⟨row, hrow, hr⟩ := bind_ok hr
    have hrow' := ktmInput_row hc hrow
    obtain ⟨hlink, -, hfull⟩ := hf
    simp only [ksmHasRun, decide_eq_true_eq] at hr
    split at hr
    · rename_i hne
      injection hr with hr
      subst hr
      have hk : q.key ≠ p.key := fun he => hne (hlink.same he).1
      obtain ⟨⟨rows, h1, h2⟩, -⟩ := hlink.moved hk
      exact ⟨rows, [], row, h2, rfl, by rw [List.append_nil]; exact h1, hrow'⟩
    · rename_i he
      have he : q.ksmHidden = p.ksmHidden := Decidable.not_not.mp he
      obtain ⟨rs1, hrs1, hr⟩ := bind_ok hr
      injection hr with hr
      subst hr
      obtain ⟨rows0, rs', r, a1, a2, a3, a4⟩ := ih q p (chain_tail hc) hfull rs1 hrs1
      refine ⟨rows0, rs1, row, by rw [he]; exact a1, rfl, ?_, hrow'⟩
      rw [a2, ← List.append_assoc]
      exact a3.snoc a4

/-! ## The invariant -/

/-- The states in the beams. -/
def InBeam (d : SearchData κ ρ H P) (N : Nets κ ρ H P) (C : Caches) (s : State κ H P) : Prop :=
  (s.prev = [] ∧ InitNode d s.node) ∨
  ∃ q rest, s.prev = q :: rest ∧ Link d N C s.node q rest ∧ s.node.csmHidden = q.csmHidden ∧
    s.node.csmPrior = q.csmPrior ∧ Full d N C (q :: rest)

/-- What a new node takes over. -/
structure Fresh (d : SearchData κ ρ H P) (N : Nets κ ρ H P) (C : Caches) (s : State κ H P)
    (q : Node κ H P) (rest : List (Node κ H P)) : Prop where
  prev : s.prev = q :: rest
  ksmHidden : s.node.ksmHidden = q.ksmHidden
  csmHidden : s.node.csmHidden = q.csmHidden
  csmPrior : s.node.csmPrior = q.csmPrior
  csm : s.node.csm = none
  full : Full d N C (q :: rest)

variable [Add κ] [Sub κ] [Zero κ] [DecidableEq H]

omit [DecidableEq H] in
theorem reach_chain (hd : OK d) {s : State κ H P}
    (hs : ∃ g, Reach d.labels d.pitchType g d.hashLength s) :
    ∃ g, ChainOK d.labels g d.hashLength (s.node :: s.prev) := by
  obtain ⟨g, hg⟩ := hs
  exact ⟨g, hg.chain hd.hash⟩

/-- The KSM on a new node. -/
theorem ksm_of (hd : OK d) (hu : UsesNets d N C) {s : State κ H P}
    {q : Node κ H P} {rest : List (Node κ H P)}
    (hs : ∃ g, Reach d.labels d.pitchType g d.hashLength s) (hf : Fresh d N C s q rest)
    {o : KsmOutput κ H} (ho : d.ksm s = .ok o) :
    ∃ rows r, AllRows d C true (q :: rest) rows ∧ SeqRow d.labels d.pitchType C true s.node q r ∧
      o.priors = (N.ksm (after N.ksm rows) r).1 ∧ some o.hidden = after N.ksm (rows ++ [r]) := by
  obtain ⟨g, hc⟩ := reach_chain hd hs
  rw [hf.prev] at hc
  rw [hu.ksm, hf.prev] at ho
  obtain ⟨rs, hrs, ho⟩ := bind_ok ho
  obtain ⟨rows0, rs', r, a1, rfl, a3, a4⟩ := ksm_split s.node q rest hc hf.full rs hrs
  rw [hf.ksmHidden, a1, runNet_after] at ho
  injection ho with ho
  subst ho
  exact ⟨rows0 ++ rs', r, a3, a4, rfl, by rw [after_snoc]⟩

theorem ktm_of (hd : OK d) (hu : UsesNets d N C) {s : State κ H P} {q : Node κ H P}
    {rest : List (Node κ H P)} (hs : ∃ g, Reach d.labels d.pitchType g d.hashLength s)
    (hp : s.prev = q :: rest) (hk : s.node.ktmHidden = q.ktmHidden) {ph : ρ × H}
    (ho : d.ktm s = .ok ph) : ∃ row, SeqRow d.labels d.pitchType C true s.node q row ∧
      ph = N.ktm q.ktmHidden row := by
  obtain ⟨g, hc⟩ := reach_chain hd hs
  rw [hp] at hc
  rw [hu.ktm, hp, hk] at ho
  obtain ⟨row, hrow, ho⟩ := map_ok ho
  exact ⟨row, ktmInput_row hc hrow, ho.symm⟩

/-- A new node on which the KTM has been run. -/
def Tried (d : SearchData κ ρ H P) (N : Nets κ ρ H P) (C : Caches) (s : State κ H P) : Prop :=
  ∃ q rest, Fresh d N C s q rest ∧ s.node.key = q.key ∧ s.node.ksm = none ∧
    ∃ row, SeqRow d.labels d.pitchType C true s.node q row ∧
      s.node.ktmHidden = some (N.ktm q.ktmHidden row).2

/-- The search keeps the invariant. -/
def phases (hd : OK d) (hu : UsesNets d N C) : PhaseInv d where
  beam := InBeam d N C
  ran s := Full d N C (s.node :: s.prev)
  cand s := ∃ q rest, Fresh d N C s q rest ∧ s.node.key = q.key ∧ s.node.ksm = none ∧
    s.node.ktmHidden = q.ktmHidden
  tried ps := Tried d N C ps.2
  changing := Tried d N C
  keeping := Tried d N C
  moved s := ∃ q rest, Fresh d N C s q rest ∧ s.node.key ≠ q.key ∧ s.node.ktmHidden = q.ktmHidden ∧
    KeyCost d N C s.node q rest
  init key tonic mode h _ _ _ := .inl ⟨rfl, rfl, rfl, rfl, tonic, mode, h, rfl⟩
  first s hs hi hb := by
    rcases hb with ⟨hp, hn⟩ | ⟨q, rest, hp, -⟩
    · rw [hp]; exact hn
    · obtain ⟨⟨g, hg⟩, -⟩ := hs
      have hc := hg.chain hd.hash
      rw [hp] at hc
      have := hc.2.1
      omega
  csm s t hs hi hb ht := by
    simp only [runCsm] at ht
    obtain ⟨ph, hph, rfl⟩ := map_ok ht
    rcases hb with ⟨hp, hn⟩ | ⟨q, rest, hp, hlink, hh, hpr, hfull⟩
    · obtain ⟨⟨g, hg⟩, -⟩ := hs
      have hc := hg.chain hd.hash
      rw [hp] at hc
      exact absurd hc.2.1 hi
    · obtain ⟨g, hc⟩ := reach_chain hd hs.1
      rw [hu.csm, hh] at hph
      obtain ⟨row, hrow, hph⟩ := map_ok hph
      have hr := csmInput_row hc hp hrow
      simp only [hp]
      refine ⟨hlink.congr rfl rfl rfl rfl rfl rfl rfl, ⟨row, hr.congr rfl rfl rfl rfl rfl, ?_, ?_⟩, hfull⟩
      · rw [← hph]
      · rw [← hph]
  chord s t c r lp hs hr hm _ _ ht _ := by
    obtain ⟨root, ct, inv, bass, k, h1, h2, h3, h4, h5, rfl⟩ := chordTransition_some ht
    exact ⟨_, s.prev, ⟨rfl, rfl, rfl, rfl, rfl,
      hr.congr rfl rfl rfl rfl rfl rfl rfl rfl rfl⟩, rfl, rfl, rfl⟩
  rejoin s t _ r lp hs hr hm _ _ ht _ := by
    obtain ⟨c, root, ct, inv, bass, tonic, mode, p, ps, hcc, h1, h2, hp, h3, rfl⟩ := rejoin_ok ht
    rw [hp] at hr
    exact ⟨p, ps, ⟨hp, rfl, rfl, rfl, rfl, hr.2.2⟩, rfl, rfl, rfl⟩
  ktm s ps hs hc ht := by
    obtain ⟨q, rest, hf, hk, hks, hkt⟩ := hc
    simp only [runKtm] at ht
    obtain ⟨ph, hph, rfl⟩ := map_ok ht
    obtain ⟨row, hrow, rfl⟩ := ktm_of hd hu hs.1 hf.prev hkt hph
    exact ⟨q, rest, ⟨hf.prev, hf.ksmHidden, hf.csmHidden, hf.csmPrior, hf.csm, hf.full⟩, hk, hks, row,
      hrow.congr rfl rfl rfl rfl rfl, rfl⟩
  branch ps _ _ _ ht _ := by
    refine chargeKey_all (fun s lp ht => ?_) (fun s ht => ?_) ht _ _ _
    · obtain ⟨q, rest, hf, hk, hks, row, hrow, hkt⟩ := ht
      exact ⟨q, rest, ⟨hf.prev, hf.ksmHidden, hf.csmHidden, hf.csmPrior, hf.csm, hf.full⟩, hk, hks, row,
        hrow.congr rfl rfl rfl rfl rfl, hkt⟩
    · obtain ⟨q, rest, hf, hk, hks, row, hrow, hkt⟩ := ht
      exact ⟨q, rest, ⟨hf.prev, hf.ksmHidden, hf.csmHidden, hf.csmPrior, rfl, hf.full⟩, hk, rfl, row,
        hrow.congr rfl rfl rfl rfl rfl, hkt⟩
  keep s cost hs ht hcost := by
    obtain ⟨q, rest, hf, hk, hks, row, hrow, hkt⟩ := ht
    refine .inr ⟨q, rest, hf.prev, ⟨⟨row, hrow.congr rfl rfl rfl rfl rfl, hkt⟩, fun _ => ?_,
      fun hne => absurd hk hne⟩, hf.csmHidden, hf.csmPrior, hf.full⟩
    exact ⟨hf.ksmHidden, hks, s, cost, hf.prev, rfl, rfl, rfl, hf.csmPrior, hcost, rfl⟩
  key s t o q rest rel key lp hs ht ho hq htar hne hlp hkey _ := by
    obtain ⟨q', rest', hf, hk, hks, row, hrow, hkt⟩ := ht
    have hqq := hf.prev
    rw [hq] at hqq
    injection hqq with e1 e2
    subst e1; subst e2
    obtain ⟨rows, r, a1, a2, a3, a4⟩ := ksm_of hd hu hs.1 hf ho
    obtain ⟨c, root, ct, inv, bass, tonic, mode, p, ps, hcc, h1, h2, h3, h4, h5, hpp, rfl⟩ :=
      keyTransition_some hkey
    have hpp' : s.prev = p :: ps := hpp
    rw [hq] at hpp'
    injection hpp' with e1 e2
    subst e1; subst e2
    refine ⟨q, rest, ⟨hq, rfl, hf.csmHidden, hf.csmPrior, hf.csm, hf.full⟩, ?_, rfl, ?_⟩
    · rw [← hk]; exact hne
    · simp only [targetKey, Bind.bind] at htar
      obtain ⟨⟨m, iv⟩, hrel, htar⟩ := bind_ok htar
      obtain ⟨ko, hko, htar⟩ := bind_ok htar
      obtain ⟨g, hg⟩ := hs.1
      have hreach : Reach d.labels d.pitchType g d.hashLength (setKsm s o) :=
        Reach.hidden s s.node.csmHidden s.node.ktmHidden (some o.hidden) s.node.csmPrior hg
      have hkk := (getKeyAux_ok d.labels g d.hashLength _ _ (hreach.chain hd.hash) ko hko).1
      have hkk' : pyGet d.labels.key q.key = .ok (ko.tonic, ko.mode) := by rw [← hk]; exact hkk
      have hkey' : key = (match d.pitchType with
          | .midi => 12 * m.value + (ko.tonic + iv) % 12
          | .tpc => 35 * m.value + (ko.tonic + iv)) ∧
          (d.pitchType = .tpc → 0 ≤ ko.tonic + iv ∧ ko.tonic + iv < 35) := by
        have h35 : NUM_PITCHES .tpc = 35 := rfl
        have h12 : NUM_PITCHES .midi = 12 := rfl
        cases hpt : d.pitchType with
        | tpc =>
          rw [hpt] at htar
          simp only [keyOneHotIndex] at htar
          split at htar
          · cases htar
          · rename_i hin
            simp only [Except.map, Except.ok.injEq, Option.some.injEq] at htar
            exact ⟨by rw [← htar, h35], fun _ => by omega⟩
        | midi =>
          rw [hpt] at htar
          simp only [keyOneHotIndex] at htar
          rw [if_neg (by omega)] at htar
          simp only [Except.map, Except.ok.injEq, Option.some.injEq] at htar
          exact ⟨by rw [← htar, h12], fun he => absurd he (by decide)⟩
      refine ⟨rows, r, rel, lp, m, iv, ko.tonic, ko.mode, a1, a2.congr rfl hk.symm rfl rfl rfl, ?_, hrel,
        hkk', hkey'.1, hkey'.2, rfl⟩
      rw [← a3]; exact hlp
  hidden s t hs hm ht := by
    obtain ⟨q, rest, hf, hk, hkt, hcost⟩ := hm
    simp only [runHidden, Bind.bind, runKtm] at ht
    obtain ⟨ps, hps, ht⟩ := bind_ok ht
    obtain ⟨ph, hph, hps⟩ := map_ok hps
    obtain ⟨o, ho, ht⟩ := bind_ok ht
    injection ht with ht
    subst ht; subst hps
    obtain ⟨row, hrow, rfl⟩ := ktm_of hd hu hs.1 hf.prev hkt hph
    have hs' : ∃ g, Reach d.labels d.pitchType g d.hashLength
        ({ s with node := { s.node with ktmHidden := some (N.ktm q.ktmHidden row).2 } } : State κ H P) := by
      obtain ⟨⟨g, hg⟩, -⟩ := hs
      exact ⟨g, Reach.hidden s s.node.csmHidden _ s.node.ksmHidden s.node.csmPrior hg⟩
    obtain ⟨rows, r, a1, a2, a3, a4⟩ := ksm_of hd hu hs'
      (q := q) (rest := rest) ⟨hf.prev, hf.ksmHidden, hf.csmHidden, hf.csmPrior, hf.csm, hf.full⟩ ho
    obtain ⟨rows', r', rel, lp, mode, iv, tonic, om, e1, e2, e3, e4, e5, e6, e7⟩ := hcost
    refine .inr ⟨q, rest, hf.prev, ⟨⟨row, hrow.congr rfl rfl rfl rfl rfl, rfl⟩,
      fun he => absurd he hk, fun _ => ⟨⟨rows ++ [r], ?_, a4⟩, hf.csm, ?_⟩⟩, hf.csmHidden, hf.csmPrior, hf.full⟩
    · exact a1.snoc (a2.congr rfl rfl rfl rfl rfl)
    · exact ⟨rows', r', rel, lp, mode, iv, tonic, om, e1, e2.congr rfl rfl rfl rfl rfl, e3, e4, e5, e6, e7⟩

/-! ## C89 -/

omit [Add κ] [Sub κ] [Zero κ] [DecidableEq H] in
theorem full_drop {chain : List (Node κ H P)} (h : Full d N C chain) (k : Nat) :
    Full d N C (chain.drop k) := by
  induction k generalizing chain with
  | zero => exact h
  | succ k ih =>
    cases chain with
    | nil => simpa using h
    | cons n chain =>
      rw [List.drop_succ_cons]
      refine ih ?_
      cases chain with
      | nil => trivial
      | cons q rest => exact h.2.2

omit [Add κ] [Sub κ] [Zero κ] [DecidableEq H] in
theorem full_ktm (n : Node κ H P) (rest : List (Node κ H P)) (h : Full d N C (n :: rest)) :
    ∃ rows, AllRows d C true (n :: rest) rows ∧ n.ktmHidden = after N.ktm rows := by
  induction rest generalizing n with
  | nil => exact ⟨[], rfl, h.2.1⟩
  | cons q rest ih =>
    obtain ⟨⟨⟨row, h1, h2⟩, -, -⟩, -, hf⟩ := h
    obtain ⟨rows, a1, a2⟩ := ih q hf
    exact ⟨rows ++ [row], a1.snoc h1, by rw [h2, a2, after_snoc]⟩

omit [Add κ] [Sub κ] [Zero κ] [DecidableEq H] in
theorem full_csm (n : Node κ H P) (rest : List (Node κ H P)) (h : Full d N C (n :: rest)) :
    ∃ rows, AllRows d C false (n :: rest) rows ∧ n.csmHidden = after N.csm rows ∧
      ∀ rs r, rows = rs ++ [r] → n.csmPrior = some (N.csm (after N.csm rs) r).1 := by
  induction rest generalizing n with
  | nil => exact ⟨[], rfl, h.1, fun rs r he => by simp at he⟩
  | cons q rest ih =>
    obtain ⟨-, ⟨row, h1, h2, h3⟩, hf⟩ := h
    obtain ⟨rows, a1, a2, -⟩ := ih q hf
    refine ⟨rows ++ [row], a1.snoc h1, by rw [h3, a2, after_snoc], fun rs r he => ?_⟩
    obtain ⟨e1, e2⟩ := List.append_inj' he rfl
    simp only [List.cons.injEq, and_true] at e2
    subst e1
    subst e2
    rw [h2, a2]

omit [Add κ] [Sub κ] [Zero κ] [DecidableEq H] in
theorem full_ksm (n : Node κ H P) (rest : List (Node κ H P)) (h : Full d N C (n :: rest)) :
    ∃ j rows, AllRows d C true ((n :: rest).drop j) rows ∧ n.ksmHidden = after N.ksm rows ∧
      (∀ (i : Nat) a b, i < j → (n :: rest)[i]? = some a → (n :: rest)[i + 1]? = some b → a.key = b.key) ∧
      (∀ a b, (n :: rest)[j]? = some a → (n :: rest)[j + 1]? = some b → a.key ≠ b.key) := by
  induction rest generalizing n with
  | nil => exact ⟨0, [], rfl, h.2.2.1, fun i a b hi => by omega, fun a b _ hb => by simp at hb⟩
  | cons q rest ih =>
    obtain ⟨⟨-, hsame, hmoved⟩, -, hf⟩ := h
    by_cases hk : n.key = q.key
    · obtain ⟨j, rows, a1, a2, a3, a4⟩ := ih q hf
      refine ⟨j + 1, rows, a1, by rw [(hsame hk).1]; exact a2, fun i a b hi ha hb => ?_,
        fun a b ha hb => a4 a b ha hb⟩
      cases i with
      | zero =>
        simp only [List.getElem?_cons_succ, List.getElem?_cons_zero, Option.some.injEq] at ha hb
        rw [← ha, ← hb]; exact hk
      | succ i => exact a3 i a b (by omega) ha hb
    · obtain ⟨⟨rows, a1, a2⟩, -⟩ := hmoved hk
      refine ⟨0, rows, a1, a2, fun i a b hi => by omega, fun a b ha hb => ?_⟩
      simp only [List.getElem?_cons_succ, List.getElem?_cons_zero, Option.some.injEq] at ha hb
      rw [← ha, ← hb]; exact hk

omit [Add κ] [Sub κ] [Zero κ] [DecidableEq H] in
/-- The chain of a state in a beam, with the newest node as it is after the CSM. -/
theorem inBeam_links {s : State κ H P} (h : InBeam d N C s) :
    (s.prev = [] → InitNode d s.node) ∧
    (∀ q rest, s.prev = q :: rest → Link d N C s.node q rest ∧ s.node.csmHidden = q.csmHidden ∧
      s.node.csmPrior = q.csmPrior ∧ Full d N C (q :: rest)) := by
  rcases h with ⟨hp, hn⟩ | ⟨q, rest, hp, hl, h1, h2, hf⟩
  · exact ⟨fun _ => hn, fun q rest hq => by rw [hp] at hq; cases hq⟩
  · refine ⟨fun hq => by (rw [hp] at hq; cases hq), fun q' rest' hq => ?_⟩
    rw [hp] at hq
    injection hq with e1 e2
    subst e1; subst e2
    exact ⟨hl, h1, h2, hf⟩

variable [DecidableEq κ] [DecidableEq P]

/-- C89: the hidden state of the KTM in every node of the chain of the returned state is that after the
rows of all its chords, in order and in their final keys. -/
theorem C89_ktm (hd : OK d) (hu : UsesNets d N C) (s : State κ H P)
    (h : d.search = .ok (some s)) (k : Nat) (n : Node κ H P) (rest : List (Node κ H P))
    (hk : (s.node :: s.prev).drop k = n :: rest) :
    ∃ rows, AllRows d C true (n :: rest) rows ∧ n.ktmHidden = after N.ktm rows := by
  obtain ⟨h0, h1⟩ := inBeam_links (search_inv (phases hd hu) hd h)
  cases k with
  | zero =>
    rw [List.drop_zero] at hk
    injection hk with e1 e2
    subst e1; subst e2
    cases hp : s.prev with
    | nil => exact ⟨[], rfl, (h0 hp).2.1⟩
    | cons q rest =>
      obtain ⟨⟨⟨row, a, b⟩, -, -⟩, -, -, hf⟩ := h1 q rest hp
      obtain ⟨rows, a1, a2⟩ := full_ktm q rest hf
      exact ⟨rows ++ [row], a1.snoc a, by rw [b, a2, after_snoc]⟩
  | succ k =>
    rw [List.drop_succ_cons] at hk
    cases hp : s.prev with
    | nil => rw [hp] at hk; simp at hk
    | cons q rest' =>
      have hf := full_drop (h1 q rest' hp).2.2.2 k
      rw [hp] at hk
      rw [hk] at hf
      exact full_ktm n rest hf

/-- C89: the CSM has been run on every node of the chain but the newest and the first one, on the rows
of all its chords; the newest node has the prior and the hidden state of the one before. -/
theorem C89_csm (hd : OK d) (hu : UsesNets d N C) (s : State κ H P)
    (h : d.search = .ok (some s)) :
    (∀ q rest, s.prev = q :: rest → s.node.csmHidden = q.csmHidden ∧ s.node.csmPrior = q.csmPrior) ∧
    (∀ (k : Nat) n rest, s.prev.drop k = n :: rest →
      ∃ rows, AllRows d C false (n :: rest) rows ∧ n.csmHidden = after N.csm rows ∧
        (∀ rs r, rows = rs ++ [r] → n.csmPrior = some (N.csm (after N.csm rs) r).1) ∧
        (rest = [] → ∃ tonic mode, pyGet d.labels.key n.key = .ok (tonic, mode) ∧
          n.csmPrior = some (d.icm (decide (mode = .minor))))) := by
  obtain ⟨-, h1⟩ := inBeam_links (search_inv (phases hd hu) hd h)
  refine ⟨fun q rest hq => ⟨(h1 q rest hq).2.1, (h1 q rest hq).2.2.1⟩, fun k n rest hk => ?_⟩
  cases hp : s.prev with
  | nil => rw [hp] at hk; simp at hk
  | cons q rest' =>
    have hf := full_drop (h1 q rest' hp).2.2.2 k
    rw [hp] at hk
    rw [hk] at hf
    obtain ⟨rows, a1, a2, a3⟩ := full_csm n rest hf
    refine ⟨rows, a1, a2, a3, fun hr => ?_⟩
    subst hr
    exact hf.2.2.2

/-- C89: the hidden state of the KSM in every node of the chain of the returned state is that after the
rows of all chords up to and including the last one on which the key changed. -/
theorem C89_ksm (hd : OK d) (hu : UsesNets d N C) (s : State κ H P)
    (h : d.search = .ok (some s)) (k : Nat) (n : Node κ H P) (rest : List (Node κ H P))
    (hk : (s.node :: s.prev).drop k = n :: rest) :
    ∃ j rows, AllRows d C true ((n :: rest).drop j) rows ∧ n.ksmHidden = after N.ksm rows ∧
      (∀ (i : Nat) a b, i < j → (n :: rest)[i]? = some a → (n :: rest)[i + 1]? = some b → a.key = b.key) ∧
      (∀ a b, (n :: rest)[j]? = some a → (n :: rest)[j + 1]? = some b → a.key ≠ b.key) := by
  obtain ⟨h0, h1⟩ := inBeam_links (search_inv (phases hd hu) hd h)
  cases k with
  | zero =>
    rw [List.drop_zero] at hk
    injection hk with e1 e2
    subst e1; subst e2
    cases hp : s.prev with
    | nil =>
      exact ⟨0, [], rfl, (h0 hp).2.2.1, fun i a b hi => by omega, fun a b _ hb => by simp at hb⟩
    | cons q rest =>
      obtain ⟨⟨-, hsame, hmoved⟩, -, -, hf⟩ := h1 q rest hp
      by_cases hkey : s.node.key = q.key
      · obtain ⟨j, rows, a1, a2, a3, a4⟩ := full_ksm q rest hf
        refine ⟨j + 1, rows, a1, by rw [(hsame hkey).1]; exact a2, fun i a b hi ha hb => ?_,
          fun a b ha hb => a4 a b ha hb⟩
        cases i with
        | zero =>
          simp only [List.getElem?_cons_succ, List.getElem?_cons_zero, Option.some.injEq] at ha hb
          rw [← ha, ← hb]; exact hkey
        | succ i => exact a3 i a b (by omega) ha hb
      · obtain ⟨⟨rows, a1, a2⟩, -⟩ := hmoved hkey
        refine ⟨0, rows, a1, a2, fun i a b hi => by omega, fun a b ha hb => ?_⟩
        simp only [List.getElem?_cons_succ, List.getElem?_cons_zero, Option.some.injEq] at ha hb
        rw [← ha, ← hb]; exact hkey
  | succ k =>
    rw [List.drop_succ_cons] at hk
    cases hp : s.prev with
    | nil => rw [hp] at hk; simp at hk
    | cons q rest' =>
      have hf := full_drop (h1 q rest' hp).2.2.2 k
      rw [hp] at hk
      rw [hk] at hf
      exact full_ksm n rest hf

/-- C89: the costs of each chord of the returned state. In the key of the chord before, it was charged by
the CSM with the prior found after the chords before it, and not by the KSM; in a new key, it was charged
by the KSM after all chords before it and itself in the old key, and not by the CSM. -/
theorem C89_costs (hd : OK d) (hu : UsesNets d N C) (s : State κ H P)
    (h : d.search = .ok (some s)) (k : Nat) (n q : Node κ H P) (rest : List (Node κ H P))
    (hk : (s.node :: s.prev).drop k = n :: q :: rest) :
    (n.key = q.key → n.ksm = none ∧ CsmCost d n q rest) ∧
    (n.key ≠ q.key → n.csm = none ∧ KeyCost d N C n q rest) := by
  obtain ⟨-, h1⟩ := inBeam_links (search_inv (phases hd hu) hd h)
  have hl : Link d N C n q rest := by
    cases k with
    | zero =>
      rw [List.drop_zero] at hk
      injection hk with e1 e2
      subst e1
      exact (h1 q rest e2).1
    | succ k =>
      rw [List.drop_succ_cons] at hk
      cases hp : s.prev with
      | nil => rw [hp] at hk; simp at hk
      | cons q' rest' =>
        have hf := full_drop (h1 q' rest' hp).2.2.2 k
        rw [hp] at hk
        rw [hk] at hf
        exact hf.1
  exact ⟨fun he => (hl.same he).2, fun he => ⟨(hl.moved he).2.1, (hl.moved he).2.2⟩⟩

end

/-! ## A concrete search -/

open Verif.SearchData

/-- Networks whose hidden state is the number of rows seen (so that the hidden states in the nodes of a
result can be read). -/
def countNets : Nets Int Int Nat Nat where
  csm h r := (h.getD 0 + r.length, h.getD 0 + 1)
  ktm h _ := (5, h.getD 0 + 1)
  ksm h _ := (List.replicate 24 (-1 - (h.getD 0 : Int)), h.getD 0 + 1)
  order _ := pyRange 0 24
  maxIndex _ := 2

/-- The small instance of C47 with these networks. -/
def netDemo (n : Nat) (ranges : List (Nat × RangeData Int)) (fc fk : List Int) (C : Caches) :
    SearchData Int Int Nat Nat where
  labels := (demo none n ranges fc fk).labels
  relativeKeys := (demo none n ranges fc fk).relativeKeys
  pitchType := .midi
  beamSize := 10
  hashLength := none
  numInputs := n
  ranges := ranges
  forcedChords := fc
  forcedKeys := fk
  pick := pickMin
  minChange := 3
  maxNoChange := 7
  leProb a b := decide (a ≤ b)
  zeroProb := 0
  logChange _ := -2
  logNoChange _ := -1
  lt a b := decide (a < b)
  ge a b := decide (b ≤ a)
  scale x n := x * n
  ksmExponent x := x
  icm minor := if minor then 1000 else 2000
  csm s := (s.csmInput (demo none n ranges fc fk).labels .midi C).map (countNets.csm s.node.csmHidden)
  csmCost s := .ok (-(s.node.csmPrior.getD 0 : Int))
  ktm s := (ktmInput (demo none n ranges fc fk).labels .midi C s.node s.prev).map
    (countNets.ktm s.node.ktmHidden)
  ksm s := (ksmInput (demo none n ranges fc fk).labels .midi C s.node s.prev).bind
    fun rows => ksmOutput countNets (runNet countNets.ksm s.node.ksmHidden rows)

/-- Four notes and four chords, in keys 3, 3, 4, 4. -/
def fourChords : SearchData Int Int Nat Nat :=
  netDemo 4 [(0, demoRange 1 [1, 0, 2]), (1, demoRange 2 [2, 0, 1]), (2, demoRange 3 [0, 1, 2]),
    (3, demoRange 4 [1, 0, 2])] [0, 1, 0, 1] [3, 3, 4, 4] ⟨[1, 1, 1/2, 1], [3, 2, 3, 1, 3]⟩

example : OK fourChords :=
  ⟨by simp [fourChords, netDemo, demoRange], by simp [fourChords, netDemo], pickMin_mem⟩

example : UsesNets fourChords countNets ⟨[1, 1, 1/2, 1], [3, 2, 3, 1, 3]⟩ :=
  ⟨fun _ => rfl, fun _ => rfl, fun _ => rfl⟩

/-- The result, newest node first: the key and the rows seen by the KTM, the CSM and the KSM. The key
changes at the third chord, on which the KSM has been run on all three. -/
example : (fourChords.search.toOption.bind id).map (fun s => (s.node :: s.prev).map
    fun n => (n.key, n.ktmHidden, n.csmHidden, n.ksmHidden)) =
    some [(4, some 4, some 3, some 3), (4, some 3, some 3, some 3), (3, some 2, some 2, none),
      (3, some 1, some 1, none), (3, none, none, none)] := by decide +kernel

/-- Its CSM priors and its costs of the CSM and the KSM: the third chord is charged `-1 - 2` by the KSM,
which had seen the two chords before. -/
example : (fourChords.search.toOption.bind id).map (fun s => (s.node :: s.prev).map
    fun n => (n.csmPrior, n.csm, n.ksm)) =
    some [(some 67, some (-67), none), (some 67, none, some (-3)), (some 66, some (-65), none),
      (some 65, some (-2000), none), (some 2000, none, none)] := by decide +kernel

end Verif.Hidden
