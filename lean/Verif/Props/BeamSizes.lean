import Verif.Props.SearchExact

/-!
# Larger beams and worse analyses (C153)
-/

namespace Verif.BeamSizes

open Verif State SearchData SearchExact

section
variable {κ ρ H P β : Type} [Add κ] [Sub κ] [Zero κ] {d : SearchData κ ρ H P}
  {ops : BeamOps β (Nat × State κ H P)}

theorem branchLoop_sub {start : Nat} {beams : List β} {s : State κ H P} {r : RangeData κ}
    {ids : List Int} {out : List (State κ H P)} (h : d.branchLoop ops start beams s r ids = .ok out) :
    ∀ t ∈ out, ∃ c ∈ ids, d.branchState start s r c = .ok (some t) := by
  induction ids generalizing out with
  | nil =>
    simp only [branchLoop, Except.ok.injEq] at h
    subst h; simp
  | cons c cs ih =>
    simp only [branchLoop, Bind.bind] at h
    obtain ⟨new, hn, h⟩ := bind_ok h
    have weaken : ∀ {out}, d.branchLoop ops start beams s r cs = .ok out →
        ∀ t ∈ out, ∃ c' ∈ c :: cs, d.branchState start s r c' = .ok (some t) := by
      intro out h t ht
      obtain ⟨c', hc, h'⟩ := ih h t ht
      exact ⟨c', List.mem_cons_of_mem _ hc, h'⟩
    cases new with
    | none => exact weaken h
    | some s' =>
      obtain ⟨fits, -, h⟩ := bind_ok h
      simp only [keepIf] at h
      split at h
      · obtain ⟨l, hl, h⟩ := map_ok h
        subst h
        intro t ht
        rcases List.mem_cons.mp ht with rfl | ht
        · exact ⟨c, List.mem_cons_self, hn⟩
        · exact weaken hl t ht
      · injection h with h
        subst h; simp

theorem branchAll_sub {start : Nat} {beams : List β} {states out : List (State κ H P)}
    (h : d.branchAll ops start beams states = .ok out) :
    ∀ t ∈ out, ∃ s ∈ states, ∃ r ids c, (start, r) ∈ d.ranges ∧
      d.branchIds start s.node.chord r = .ok ids ∧ c ∈ ids ∧ d.branchState start s r c = .ok (some t) := by
  simp only [branchAll] at h
  obtain ⟨ls, hls, h⟩ := map_ok h
  subst h
  have := mapM_all hls (P := fun sr => sr.1 ∈ states ∧ (start, sr.2) ∈ d.ranges)
    (Q := fun l => ∀ t ∈ l, ∃ s ∈ states, ∃ r ids c, (start, r) ∈ d.ranges ∧
      d.branchIds start s.node.chord r = .ok ids ∧ c ∈ ids ∧ d.branchState start s r c = .ok (some t)) ?_ ?_
  · intro t ht
    obtain ⟨l, hl, ht⟩ := List.mem_flatten.mp ht
    exact this l hl t ht
  · intro sr hsr
    simp only [pairs, List.mem_flatMap, List.mem_map] at hsr
    obtain ⟨s, hs', r, hr, rfl⟩ := hsr
    refine ⟨hs', ?_⟩
    simp only [rangesAt, List.mem_map, List.mem_filter, decide_eq_true_eq] at hr
    obtain ⟨⟨a, r'⟩, ⟨hm, rfl⟩, rfl⟩ := hr
    exact hm
  · intro sr l ⟨h1, h2⟩ hl
    simp only [branchRange, Bind.bind] at hl
    obtain ⟨e, -, hl⟩ := bind_ok hl
    split at hl
    · injection hl with hl
      subst hl; simp
    · obtain ⟨ids, hids, hl⟩ := bind_ok hl
      intro t ht
      obtain ⟨c, hc, hb⟩ := branchLoop_sub hl t ht
      exact ⟨sr.1, h1, sr.2, ids, c, h2, hids, hc, hb⟩

/-- The states in the beams are analyses that end at the index of their beam. -/
def Sound (d : SearchData κ ρ H P) (law : Lawful ops) (st : List β × Nat) : Prop :=
  ∀ (i : Nat) b, st.1[i]? = some b → ∀ x, law.mem b x → Analysis d x.2 ∧ x.2.node.changeIndex = i

theorem addState_sound {law : Lawful ops} {st st' : List β × Nat} {s : State κ H P}
    (hst : Sound d law st) (hs : Analysis d s) (h : addState ops st s = .ok st') : Sound d law st' := by
  simp only [addState, Bind.bind] at h
  obtain ⟨b, hb, h⟩ := bind_ok h
  obtain ⟨⟨r, b'⟩, hadd, h⟩ := bind_ok h
  simp only [Except.ok.injEq] at h
  subst h
  have hb' := pyGet_nonneg _ _ _ (Int.natCast_nonneg _) hb
  simp only [Int.toNat_natCast] at hb'
  intro i bi hbi x hx
  simp only [List.getElem?_set] at hbi
  split at hbi
  · rename_i hi
    split at hbi
    · injection hbi with hbi
      subst hbi
      rcases law.add _ _ _ _ _ hadd x hx with rfl | hx
      · exact ⟨hs, hi⟩
      · have := hst _ b hb' x hx
        exact ⟨this.1, this.2.trans hi⟩
    · cases hbi
  · exact hst i bi hbi x hx

theorem step_sound {law : Lawful ops} {st st' : List β × Nat} {start : Nat} (hlt : start < d.numInputs)
    (hst : Sound d law st) (h : d.step ops st start = .ok st') : Sound d law st' := by
  simp only [step, Bind.bind] at h
  obtain ⟨b, hb, h⟩ := bind_ok h
  have hb' := pyGet_nonneg _ _ _ (Int.natCast_nonneg _) hb
  simp only [Int.toNat_natCast] at hb'
  split at h
  · injection h with h
    subst h; exact hst
  · simp only [stepBody, Bind.bind] at h
    obtain ⟨objects, ho, h⟩ := bind_ok h
    obtain ⟨states, hstates, h⟩ := bind_ok h
    obtain ⟨toCheck, hcheck, h⟩ := bind_ok h
    obtain ⟨probs, hprobs, h⟩ := bind_ok h
    obtain ⟨branched, hbr, h⟩ := bind_ok h
    obtain ⟨changed, hchg, h⟩ := bind_ok h
    obtain ⟨changed2, hchg2, h⟩ := bind_ok h
    obtain ⟨st1, hst1, h⟩ := bind_ok h
    obtain ⟨st2, hst2, h⟩ := bind_ok h
    obtain ⟨b2, hb2, h⟩ := bind_ok h
    injection h with h
    subst h
    have h0 : ∀ s ∈ objects.map (·.2), Analysis d s ∧ s.node.changeIndex = start := by
      intro s hs
      obtain ⟨x, hx, rfl⟩ := List.mem_map.mp hs
      exact hst start b hb' x (law.states b objects ho x hx)
    have h1 : ∀ s1 ∈ states, ∃ s, (Analysis d s ∧ s.node.changeIndex = start) ∧
        (s.node.changeIndex = 0 → s1 = s) ∧ (s.node.changeIndex ≠ 0 → d.runCsm s = .ok s1) := by
      simp only [csmStates] at hstates
      split at hstates
      · rename_i hz
        injection hstates with hstates
        subst hstates
        intro s hs
        have := h0 s hs
        exact ⟨s, this, fun _ => rfl, fun hne => absurd (this.2.trans hz) hne⟩
      · rename_i hz
        refine mapM_all hstates h0 ?_
        intro a b ha hab
        exact ⟨a, ha, fun h => absurd (ha.2.symm.trans h) hz, fun _ => hab⟩
    have h3 : ∀ ps ∈ probs, ∃ s, (Analysis d s ∧ s.node.changeIndex = start) ∧ Chord d s ps := by
      refine mapM_all hprobs (P := (· ∈ toCheck)) (fun _ h => h) ?_
      intro s2 ps hs2 hps
      obtain ⟨s1, hs1, r, ids, c, hr, hids, hc, hb⟩ := branchAll_sub hcheck s2 hs2
      obtain ⟨s, hs, e1, e2⟩ := h1 s1 hs1
      have hs' := hs.2
      subst hs'
      exact ⟨s, hs, .mk s1 s2 r ids c ps e1 e2 hr hids hc hb hps⟩
    have h4 : ∀ o ∈ branched, ∃ s ps q rest, (Analysis d s ∧ s.node.changeIndex = start) ∧ Chord d s ps ∧
        ps.2.prev = q :: rest ∧ (∀ t ∈ o.1, ∃ x, (charged d ps q).1 = some x ∧ x.2 = t) ∧
        (∀ t ∈ o.2, (charged d ps q).2 = some t) := by
      refine mapM_all hbr h3 ?_
      rintro ps o ⟨s, hs, hch⟩ ho
      simp only [keyBranch] at ho
      cases hq : ps.2.prev with
      | nil => rw [hq] at ho; cases ho
      | cons q rest =>
        rw [hq] at ho
        simp only [Bind.bind] at ho
        obtain ⟨change, hchange, ho⟩ := bind_ok ho
        obtain ⟨keep, hkeep, ho⟩ := bind_ok ho
        injection ho with ho
        subst ho
        refine ⟨s, ps, q, rest, hs, hch, hq, ?_, ?_⟩
        · intro t ht
          obtain ⟨tested, hx⟩ := keepFits_mem hchange t ht
          exact ⟨_, hx, rfl⟩
        · intro t ht
          obtain ⟨tested, hx⟩ := keepFits_mem hkeep t ht
          obtain ⟨t', ht', he⟩ := Option.map_eq_some_iff.mp hx
          injection he with _ he
          subst he
          exact ht'
    have h5 : ∀ l ∈ changed, ∃ s ps q rest x, (Analysis d s ∧ s.node.changeIndex = start) ∧ Chord d s ps ∧
        ps.2.prev = q :: rest ∧ (charged d ps q).1 = some x ∧ d.keyChanges x.2 = .ok l := by
      refine mapM_all hchg (P := (· ∈ (branched.map (·.1)).flatten)) (fun _ h => h) ?_
      intro y l hy hl
      obtain ⟨l', hl', hyl⟩ := List.mem_flatten.mp hy
      obtain ⟨o, ho, rfl⟩ := List.mem_map.mp hl'
      obtain ⟨s, ps, q, rest, hs, hch, hq, e1, -⟩ := h4 o ho
      obtain ⟨x, hx, rfl⟩ := e1 y hyl
      exact ⟨s, ps, q, rest, x, hs, hch, hq, hx, hl⟩
    have h6 : ∀ t ∈ changed2, Analysis d t := by
      refine mapM_all hchg2 (P := (· ∈ changed.flatten)) (fun _ h => h) ?_
      intro s4 t hs4 ht
      obtain ⟨l, hl, hsl⟩ := List.mem_flatten.mp hs4
      obtain ⟨s, ps, q, rest, x, hs, hch, hq, hx, hk⟩ := h5 l hl
      exact .next s t hs.1 (by rw [hs.2]; exact hlt) (.change ps q rest x l s4 t hch hq hx hk hsl ht)
    have h7 : Sound d law st1 := foldlM_inv hst1 hst h6 (fun s a s' hs ha h => addState_sound hs ha h)
    have h8 : Sound d law st2 := by
      refine foldlM_inv hst2 (P := (· ∈ (branched.map (·.2)).flatten)) h7 (fun _ h => h) ?_
      intro st y st' hst hy h
      simp only [addKept, Bind.bind] at h
      obtain ⟨c, hc, h⟩ := bind_ok h
      obtain ⟨l', hl', hyl⟩ := List.mem_flatten.mp hy
      obtain ⟨o, ho, rfl⟩ := List.mem_map.mp hl'
      obtain ⟨s, ps, q, rest, hs, hch, hq, -, e2⟩ := h4 o ho
      exact addState_sound hst
        (.next s _ hs.1 (by rw [hs.2]; exact hlt) (.keep ps q rest y c hch hq (e2 y hyl) hc)) h
    intro i bi hbi x hx
    simp only [List.getElem?_set] at hbi
    split at hbi
    · split at hbi
      · injection hbi with hbi
        subst hbi
        exact absurd hx (law.empty _ _)
      · cases hbi
    · exact h8 i bi hbi x hx

theorem initialBeams_sound {law : Lawful ops} {st : List β × Nat} (h : d.initialBeams ops = .ok st) :
    Sound d law st := by
  simp only [initialBeams, Bind.bind] at h
  obtain ⟨keys, hkeys, h⟩ := bind_ok h
  obtain ⟨⟨b, next⟩, hb, h⟩ := bind_ok h
  injection h with h
  subst h
  have hI : ∀ x, law.mem b x → Analysis d x.2 ∧ x.2.node.changeIndex = 0 := by
    refine foldlM_inv hb (I := fun st => ∀ x, law.mem st.1 x → Analysis d x.2 ∧ x.2.node.changeIndex = 0)
      (P := (· ∈ keys)) ?_ (fun _ hk => hk) ?_
    · intro x hx; exact absurd hx (law.new _ _)
    · intro s key s' hs hk h
      simp only [addInitial, Bind.bind] at h
      obtain ⟨⟨tonic, mode⟩, htm, h⟩ := bind_ok h
      obtain ⟨⟨r, b'⟩, hadd, h⟩ := bind_ok h
      injection h with h
      subst h
      intro x hx
      rcases law.add _ _ _ _ _ hadd x hx with rfl | hx
      · exact ⟨.first keys key tonic mode hkeys hk htm, rfl⟩
      · exact hs x hx
  intro i bi hbi x hx
  cases i with
  | zero =>
    simp only [List.getElem?_cons_zero, Option.some.injEq] at hbi
    subst hbi; exact hI x hx
  | succ i =>
    simp only [List.getElem?_cons_succ, List.getElem?_replicate] at hbi
    split at hbi
    · injection hbi with hbi
      subst hbi
      exact absurd hx (law.new _ _)
    · cases hbi

theorem searchWith_sound (law : Lawful ops) {s : State κ H P} (h : d.searchWith ops = .ok (some s)) :
    Analysis d s ∧ s.node.changeIndex = d.numInputs := by
  simp only [searchWith, Bind.bind] at h
  obtain ⟨st, hst, h⟩ := bind_ok h
  obtain ⟨st1, hst1, h⟩ := bind_ok h
  obtain ⟨b, hb, h⟩ := bind_ok h
  obtain ⟨top, htop, h⟩ := bind_ok h
  injection h with h
  cases top with
  | none => cases h
  | some x =>
    simp only [Option.map_some, Option.some.injEq] at h
    subst h
    have hb' := pyGet_nonneg _ _ _ (Int.natCast_nonneg _) hb
    simp only [Int.toNat_natCast] at hb'
    have : Sound d law st1 := foldlM_inv hst1 (P := (· ∈ List.range d.numInputs))
      (initialBeams_sound hst) (fun _ h => h)
      (fun s a s' hs ha h => step_sound (List.mem_range.mp ha) hs h)
    exact this _ b hb' x (law.top b x htop)

/-- C153: with any beams, plain or hashed, large or small, an analysis that is returned is one of those
that the ranges, chords and keys allow, and reaches the end of the piece. -/
theorem C153_sound [DecidableEq κ] [DecidableEq H] [DecidableEq P] {s : State κ H P}
    (h : d.search = .ok (some s)) : Analysis d s ∧ s.node.changeIndex = d.numInputs := by
  simp only [search] at h
  split at h
  · exact searchWith_sound (plainLawful _) h
  · exact searchWith_sound (hashedLawful _ _) h

/-- The analyses do not depend on the size of the beams. -/
theorem anySize {n : Nat} {s : State κ H P} (h : Analysis { d with beamSize := n } s) : Analysis d s := by
  have chord : ∀ {s : State κ H P} {ps}, Chord { d with beamSize := n } s ps → Chord d s ps := by
    intro s ps h
    cases h with
    | mk s1 s2 r ids c ps h1 h2 h3 h4 h5 h6 h7 => exact .mk s1 s2 r ids c ps h1 h2 h3 h4 h5 h6 h7
  have loop : ∀ (F : Option Int) (s : State κ H P) o len rels room,
      SearchData.keyLoop { d with beamSize := n } F s o len rels room = d.keyLoop F s o len rels room := by
    intro F s o len rels
    induction rels with
    | nil => intro _; rfl
    | cons rel rels ih =>
      intro room
      have ih' := funext ih
      simp only [keyLoop, ih']
      rfl
  have changes : ∀ s : State κ H P, SearchData.keyChanges { d with beamSize := n } s = d.keyChanges s := by
    intro s
    simp only [keyChanges, loop]
    rfl
  induction h with
  | first keys key tonic mode h1 h2 h3 => exact .first keys key tonic mode h1 h2 h3
  | next s t _ hlt hn ih =>
    refine .next s t ih hlt ?_
    cases hn with
    | keep ps q rest s3 cost h1 h2 h3 h4 => exact .keep ps q rest s3 cost (chord h1) h2 h3 h4
    | change ps q rest x l s4 t h1 h2 h3 h4 h5 h6 =>
      rw [changes] at h4
      exact .change ps q rest x l s4 t (chord h1) h2 h3 h4 h5 h6

/-- C153 (partial): a search with plain beams that have room for all states, and that never takes the
quick exit, finds an analysis that is at least as good as that of the same search with beams of any other
size. What is missing is false: of two beams without that room, the larger one may find the worse
analysis (`C153_fails`). -/
theorem C153_room_partial [DecidableEq κ] [DecidableEq H] [DecidableEq P] {K G O R n : Nat}
    (hd : Roomy d K G O R) (hp : d.hashLength = none) (hsp : Spared d) {res : Option (State κ H P)}
    (h : d.search = .ok res) {t : State κ H P}
    (ht : SearchData.search { d with beamSize := n } = .ok (some t)) :
    ∃ s, res = some s ∧ d.lt s.node.logProb t.node.logProb = false := by
  obtain ⟨h1, h2⟩ := C153_sound ht
  exact (C133_spared_partial hd hp hsp res h).2 t (anySize h1) h2

/-- C153 (partial): nor does the hash help: the search with hashed beams finds nothing better than one
with plain beams with room for all states. -/
theorem C153_hash_partial [DecidableEq κ] [DecidableEq H] [DecidableEq P] {K G O R n : Nat}
    (hd : Roomy d K G O R) (hsp : Spared d) {res : Option (State κ H P)}
    (h : d.searchWith (plainOps d.stateLt) = .ok res) {t : State κ H P}
    (ht : SearchData.search { d with beamSize := n } = .ok (some t)) :
    ∃ s, res = some s ∧ d.lt s.node.logProb t.node.logProb = false := by
  obtain ⟨h1, h2⟩ := C153_sound ht
  exact (searchWith_exact hd hsp res h).2 t (anySize h1) h2

end

/-! ## More branching -/

section
variable {κ ρ H P : Type} [Add κ] [Sub κ] [Zero κ] {d : SearchData κ ρ H P}

omit [Add κ] [Sub κ] [Zero κ] in
/-- The same search with fewer chords (`f`) and fewer keys (`g`) to branch on. -/
def narrow (d : SearchData κ ρ H P) (f g : Nat → Nat) : SearchData κ ρ H P :=
  { d with
    ranges := d.ranges.map fun e => (e.1, { e.2 with maxIndex := f e.2.maxIndex })
    ksm := fun s => (d.ksm s).map fun o => { o with maxIndex := g o.maxIndex } }

omit [Add κ] [Sub κ] [Zero κ] in
theorem branchIds_narrow {f g : Nat → Nat} (hf : ∀ n, f n ≤ n) {start : Nat} {chord : Option Int}
    {r : RangeData κ} {ids : List Int} {c : Int}
    (h : (narrow d f g).branchIds start chord { r with maxIndex := f r.maxIndex } = .ok ids) (hc : c ∈ ids) :
    ∃ ids', d.branchIds start chord r = .ok ids' ∧ c ∈ ids' := by
  have hforced : (narrow d f g).forcedIn (narrow d f g).forcedChords start r.stop =
      d.forcedIn d.forcedChords start r.stop := rfl
  simp only [branchIds, hforced] at h ⊢
  cases hF : d.forcedIn d.forcedChords start r.stop with
  | some F => rw [hF] at h; exact ⟨ids, h, hc⟩
  | none =>
    rw [hF] at h
    simp only at h ⊢
    have hle := hf r.maxIndex
    have more : ∀ {m n : Nat}, m ≤ n → c ∈ r.order.take m → c ∈ r.order.take n := fun hmn hm =>
      (List.take_sublist_take_left hmn).subset hm
    split at h
    · rename_i h1
      split
      · exact ⟨ids, h, hc⟩
      · obtain ⟨a, -, h⟩ := map_ok h
        refine ⟨_, rfl, ?_⟩
        subst h
        split at hc
        · exact more (by omega) hc
        · exact more (by omega) hc
    · rename_i h1
      injection h with h
      subst h
      split
      · rename_i h2
        rw [h2] at hle h1 hc
        have : f 1 = 0 := by omega
        rw [this] at hc
        simp at hc
      · exact ⟨_, rfl, more hle hc⟩

omit [Sub κ] [Zero κ] in
theorem keyLoop_narrow {f g : Nat → Nat} {F : Option Int} {s : State κ H P} {o : KsmOutput κ H} {n : Nat} {len : Int}
    {rels : List Int} {room room' : Nat} (hroom : room ≤ room') {out out' : List (State κ H P)}
    (h : (narrow d f g).keyLoop F s { o with maxIndex := n } len rels room = .ok out)
    (h' : d.keyLoop F s o len rels room' = .ok out') : ∀ t ∈ out, t ∈ out' := by
  induction rels generalizing room room' out out' with
  | nil =>
    simp only [keyLoop, Except.ok.injEq] at h
    subst h; simp
  | cons rel rels ih =>
    simp only [keyLoop, Bind.bind] at h h'
    have htarget : (narrow d f g).targetKey s rel = d.targetKey s rel := rfl
    rw [htarget] at h
    obtain ⟨target, htar, h⟩ := bind_ok h
    rw [htar] at h'
    cases target with
    | none => exact ih hroom h h'
    | some key =>
      simp only [Except.bind] at h h'
      split at h
      · rename_i hs
        rw [if_pos hs] at h'
        exact ih hroom h h'
      · rename_i hs
        rw [if_neg hs] at h'
        obtain ⟨lp, hlp, h⟩ := bind_ok h
        obtain ⟨lp', hlp', h'⟩ := bind_ok h'
        rw [hlp] at hlp'
        injection hlp' with hlp'
        subst hlp'
        obtain ⟨new, hnew, h⟩ := bind_ok h
        obtain ⟨new', hnew', h'⟩ := bind_ok h'
        have : (.ok new : Py (Option (State κ H P))) = .ok new' := hnew.symm.trans hnew'
        injection this with this
        subst this
        cases new with
        | none =>
          simp only [afterKey] at h h'
          split at h
          · injection h with h; subst h; simp
          · rename_i hF
            rw [if_neg hF] at h'
            exact ih hroom h h'
        | some t =>
          simp only [afterKey] at h h'
          have first : t ∈ out' := by
            split at h'
            · injection h' with h'; subst h'; simp
            · obtain ⟨l, -, h'⟩ := map_ok h'
              subst h'; simp
          split at h
          · injection h with h
            subst h
            intro u hu
            simp only [List.mem_singleton] at hu
            subst hu; exact first
          · rename_i hr
            obtain ⟨l, hl, h⟩ := map_ok h
            subst h
            rw [if_neg (by
              intro hc
              refine hr ?_
              rcases hc with hc | hc
              · exact .inl (by omega)
              · exact .inr hc)] at h'
            obtain ⟨l', hl', h'⟩ := map_ok h'
            subst h'
            intro u hu
            rcases List.mem_cons.mp hu with rfl | hu
            · exact List.mem_cons_self
            · exact List.mem_cons_of_mem _ (ih (by omega) hl hl' u hu)

omit [Sub κ] [Zero κ] in
theorem keyChanges_narrow {f g : Nat → Nat} (hg : ∀ n, g n ≤ n) {s : State κ H P} {out out' : List (State κ H P)}
    (h : (narrow d f g).keyChanges s = .ok out) (h' : d.keyChanges s = .ok out') : ∀ t ∈ out, t ∈ out' := by
  simp only [keyChanges, Bind.bind] at h h'
  obtain ⟨o', ho', h'⟩ := bind_ok h'
  obtain ⟨o, ho, h⟩ := bind_ok h
  simp only [narrow, ho', Except.map, Except.ok.injEq] at ho
  subst ho
  have e : setKsm s { o' with maxIndex := g o'.maxIndex } = setKsm s o' := rfl
  rw [e] at h
  cases hq : (setKsm s o').prev with
  | nil => rw [hq] at h; cases h
  | cons q rest =>
    rw [hq] at h h'
    exact keyLoop_narrow (hg _) h h'

/-- The changes of key after the chords of the analyses raise nothing in `d` unless they do in `d'`. -/
def Unraised (d d' : SearchData κ ρ H P) : Prop :=
  ∀ s ps q rest x l, Analysis d s → Chord d s ps → ps.2.prev = q :: rest → (charged d ps q).1 = some x →
    d'.keyChanges x.2 = .ok l → ∃ l', d.keyChanges x.2 = .ok l'

/-- The analyses of a search that branches less are among those of one that branches more, if no change of
key raises in the latter. -/
theorem Analysis.narrow {f g : Nat → Nat} (hf : ∀ n, f n ≤ n) (hg : ∀ n, g n ≤ n)
    (hok : Unraised d (narrow d f g))
    {s : State κ H P} (h : Analysis (narrow d f g) s) : Analysis d s := by
  have chord : ∀ {s : State κ H P} {ps}, Chord (BeamSizes.narrow d f g) s ps → Chord d s ps := by
    intro s ps h
    cases h with
    | mk s1 s2 r ids c ps h1 h2 h3 h4 h5 h6 h7 =>
      obtain ⟨⟨a, r0⟩, hr0, he⟩ := List.mem_map.mp h3
      simp only [Prod.mk.injEq] at he
      obtain ⟨rfl, rfl⟩ := he
      obtain ⟨ids', hi, hc⟩ := branchIds_narrow hf h4 h5
      exact .mk s1 s2 r0 ids' c ps h1 h2 hr0 hi hc h6 h7
  have cost : ∀ s : State κ H P, (BeamSizes.narrow d f g).runHidden s = d.runHidden s := by
    intro s
    simp only [runHidden, Bind.bind]
    have e : (BeamSizes.narrow d f g).runKtm s = d.runKtm s := rfl
    rw [e]
    cases d.runKtm s with
    | error e => rfl
    | ok ps =>
      simp only [Except.bind, BeamSizes.narrow]
      cases d.ksm ps.2 with
      | error e => rfl
      | ok o => rfl
  induction h with
  | first keys key tonic mode h1 h2 h3 => exact .first keys key tonic mode h1 h2 h3
  | next s t _ hlt hn ih =>
    refine .next s t ih hlt ?_
    cases hn with
    | keep ps q rest s3 cost h1 h2 h3 h4 => exact .keep ps q rest s3 cost (chord h1) h2 h3 h4
    | change ps q rest x l s4 t h1 h2 h3 h4 h5 h6 =>
      obtain ⟨l', hl'⟩ := hok _ _ _ _ _ _ ih (chord h1) h2 h3 h4
      rw [cost] at h6
      exact .change ps q rest x l' s4 t (chord h1) h2 h3 hl' (keyChanges_narrow hg h4 hl' s4 h5) h6

/-- C153 (partial): nor does less branching help. A search with plain beams that have room for all states and
never takes the quick exit finds an analysis at least as good as that of the same search with smaller
branching factors for chords and keys, and with beams of any size, plain or hashed. -/
theorem C153_branching_partial [DecidableEq κ] [DecidableEq H] [DecidableEq P] {K G O R n : Nat}
    (hd : Roomy d K G O R) (hsp : Spared d) {f g : Nat → Nat} (hf : ∀ n, f n ≤ n) (hg : ∀ n, g n ≤ n)
    {res : Option (State κ H P)} (h : d.searchWith (plainOps d.stateLt) = .ok res) {t : State κ H P}
    (ht : SearchData.search { narrow d f g with beamSize := n } = .ok (some t)) :
    ∃ s, res = some s ∧ d.lt s.node.logProb t.node.logProb = false := by
  obtain ⟨h1, h2⟩ := C153_sound ht
  exact (searchWith_exact hd hsp res h).2 t (Analysis.narrow hf hg
    (fun _ _ _ _ _ _ hs hc hq hx _ => searchWith_changes hd hsp h hs hc hq hx) (anySize h1)) h2

end

/-- Three notes and three ranges in a row: chord 0 or chord 1 on the first note, chord 0 or chord 2 on the
second, chord 1 on the third. Chord 0 is a little better than chord 1 on the first note; the CSM expects
the second chord rather after chord 1; and it does not expect the last one if chord 1 was two chords ago. -/
def sizeDemo (n : Nat) : SearchData Int Int Unit Unit :=
  { demo none 3 [(0, ⟨1, -1, -50, [-1, -2, -1], [0, 1], 2⟩), (1, ⟨2, -1, -50, [-1, -1, -1], [0, 2], 2⟩),
      (2, ⟨3, -1, -50, [-1, -1, -1], [1], 1⟩)] [-1, -1, -1] [0, -1, -1] with
    beamSize := n
    minChange := 6
    csmCost := fun s => .ok (
      if s.node.chord = some 2 ∧ (s.prev.head?.bind (·.chord)) = some 0 then -4
      else if s.node.chord = some 1 ∧ ((s.prev[1]?).bind (·.chord)) = some 1 then -100 else -1) }

theorem sizeDemo_roomy : Roomy (sizeDemo 4000000) 1 3 2 24 where
  forward := by simp [sizeDemo, demo]
  order := intOrder
  keys keys h' := by
    have : (sizeDemo 4000000).initialKeys = .ok [0] := rfl
    rw [this] at h'
    injection h' with h'
    subst h'; simp
  ranges := by simp [sizeDemo, demo]
  chords := by simp [sizeDemo, demo]
  relatives s o h' := by
    simp only [sizeDemo, demo, Except.ok.injEq] at h'
    subst h'; decide
  size := by simp only [sizeDemo, demo]; decide

theorem sizeDemo_oneStart (n : Nat) : OneStart (sizeDemo n) := by
  simp [OneStart, sizeDemo, demo]

/-- C153 fails: there is no quick exit and no hash, but the search with beams for one state finds a better
analysis than the one with beams for two. The states that fill the larger beam are better at first and
worse at the end. -/
theorem C153_fails : ∃ (d : SearchData Int Int Unit Unit) (s t : State Int Unit Unit),
    OneStart d ∧ d.hashLength = none ∧
    SearchData.search { d with beamSize := 1 } = .ok (some s) ∧
    SearchData.search { d with beamSize := 2 } = .ok (some t) ∧
    d.lt t.node.logProb s.node.logProb = true ∧ s.node.logProb = -15 ∧ t.node.logProb = -112 := by
  obtain ⟨s, hs, hsl⟩ := found (r := (sizeDemo 1).search) (n := -15) (by decide +kernel)
  obtain ⟨t, ht, htl⟩ := found (r := (sizeDemo 2).search) (n := -112) (by decide +kernel)
  refine ⟨sizeDemo 1, s, t, sizeDemo_oneStart 1, rfl, hs, ht, ?_, hsl, htl⟩
  rw [hsl, htl]; decide

/-- With room for all states the best analysis is found; no beam of another size gives a better one. -/
example : ∃ s, (sizeDemo 4000000).search = .ok (some s) ∧ s.node.logProb = -15 ∧
    ∀ n t, (sizeDemo n).search = .ok (some t) → t.node.logProb ≤ -15 := by
  obtain ⟨s, hs, hsl⟩ := found (r := (sizeDemo 4000000).search) (n := -15) (by decide +kernel)
  refine ⟨s, hs, hsl, ?_⟩
  intro n t ht
  obtain ⟨s', e, hle⟩ := C153_room_partial sizeDemo_roomy rfl (sizeDemo_oneStart _).spared hs (n := n) ht
  injection e with e
  subst e
  simp only [sizeDemo, demo, decide_eq_false_iff_not] at hle
  omega

/-- The hashed search of `hashDemo` with beams of any size finds nothing better than the plain one. -/
example (n : Nat) (t : State Int Unit Unit)
    (ht : SearchData.search { hashDemo with beamSize := n } = .ok (some t)) : t.node.logProb ≤ -13 := by
  obtain ⟨s, hs, hsl⟩ := found (r := hashDemo.searchWith (plainOps hashDemo.stateLt)) (n := -13)
    (by decide +kernel)
  obtain ⟨s', e, hle⟩ :=
    C153_hash_partial (hashDemo_roomy (some 1)) (hashDemo_oneStart (some 1)).spared hs (n := n) ht
  injection e with e
  subst e
  simp only [hashDemo, demo, decide_eq_false_iff_not] at hle
  omega

/-- With one chord to branch on per range, `hashDemo` finds -111, where it finds -13 with two; beams of no
size make that better. -/
example : (∃ t, SearchData.search { narrow hashDemo (min 1) id with hashLength := none } = .ok (some t) ∧
      t.node.logProb = -111) ∧
    ∀ n t, SearchData.search { narrow hashDemo (min 1) id with beamSize := n } = .ok (some t) →
      t.node.logProb ≤ -13 := by
  refine ⟨found (by decide +kernel), ?_⟩
  intro n t ht
  obtain ⟨s, hs, hsl⟩ := found (r := hashDemo.searchWith (plainOps hashDemo.stateLt)) (n := -13)
    (by decide +kernel)
  obtain ⟨s', e, hle⟩ := C153_branching_partial (hashDemo_roomy (some 1)) (hashDemo_oneStart (some 1)).spared
    (f := min 1) (g := id) (fun n => Nat.min_le_right 1 n) (fun n => Nat.le_refl n) hs ht
  injection e with e
  subst e
  simp only [hashDemo, demo, decide_eq_false_iff_not] at hle
  omega

end Verif.BeamSizes
