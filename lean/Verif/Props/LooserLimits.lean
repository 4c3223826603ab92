import Verif.Props.Ranges
import Verif.Props.BeamSizes
import Verif.Props.SearchBranch

/-!
# Looser limits (C158)

Looser limits on chord ranges only add candidates, and a search that examines everything finds nothing worse for it.
Looser limits on changes of key may make its result worse.
-/

namespace Verif.LooserLimits

open Verif State SearchData SearchExact BeamSizes

/-! ## The candidate ranges -/

section
variable {π κ δ : Type} [LinearOrder π] [AddCommGroup κ] [AddCommMonoid δ] [LinearOrder δ]

/-- The same piece and probabilities with looser limits: a smaller `min_chord_change_prob`, a greater
`max_no_chord_change_prob`, a greater `max_chord_length`, and some forced chords and keys left out. -/
structure Looser (A A' : RangeInput π κ δ) : Prop where
  n : A'.n = A.n
  changeProb : A'.changeProb = A.changeProb
  changeLog : A'.changeLog = A.changeLog
  noChangeLog : A'.noChangeLog = A.noChangeLog
  dur : A'.dur = A.dur
  minChange : A'.minChange ≤ A.minChange
  maxNoChange : A.maxNoChange ≤ A'.maxNoChange
  maxLen : A.maxLen ≤ A'.maxLen
  forcedChord : ∀ i, A'.forcedChord i = A.forcedChord i ∨ A'.forcedChord i = -1
  forcedKey : ∀ i, A'.forcedKey i = A.forcedKey i ∨ A'.forcedKey i = -1

variable {A A' : RangeInput π κ δ}

omit [AddCommGroup κ] [LinearOrder δ] [LinearOrder π] in
theorem agree_looser (hn : A'.n = A.n) (hd : A'.dur = A.dur) {f f' : Nat → Int}
    (hf : ∀ i, f' i = f i ∨ f' i = -1) {s e : Nat} (h : A.Agree f s e) : A'.Agree f' s e := by
  intro i j h1 h2 h3 h4 h5 h6 h7 h8 h9 h10
  simp only [RangeInput.Valid, hd, hn] at h3 h4 h7 h8
  have hi := (hf (i - 1)).resolve_right h9
  have hj := (hf (j - 1)).resolve_right h10
  rw [hi] at h9
  rw [hj] at h10
  rw [hi, hj]
  exact h i j h1 h2 h3 h4 h5 h6 h7 h8 h9 h10

omit [AddCommGroup κ] in
theorem seg_looser (h : Looser A A') {s e : Nat} (hs : A.Seg s e) : A'.Seg s e where
  lt := hs.lt
  le := by rw [h.n]; exact hs.le
  long := by
    intro i h1 h2 h3 h4
    rw [h.n] at h3
    simp only [RangeInput.Valid, h.dur] at h4
    refine le_trans ?_ h.maxLen
    have := hs.long i h1 h2 h3 h4
    simpa only [RangeInput.charged, RangeInput.span, h.dur] using this
  chords := agree_looser h.n h.dur h.forcedChord hs.chords
  keys := agree_looser h.n h.dur h.forcedKey hs.keys
  inside := by
    intro i h1 h2 h3
    simp only [RangeInput.Valid, h.dur] at h3
    rw [h.changeProb]
    exact le_trans (hs.inside i h1 h2 h3) h.maxNoChange
  stop := by
    intro h1
    rw [h.n] at h1
    have := hs.stop h1
    simp only [RangeInput.Valid, h.dur, h.changeProb]
    exact ⟨this.1, le_trans h.minChange this.2⟩

omit [AddCommGroup κ] in
theorem start_looser (h : Looser A A') {s : Nat} (hs : A.Start s) : A'.Start s := by
  induction hs with
  | zero => exact .zero
  | next s e _ h2 h3 ih => exact .next s e ih (seg_looser h h2) (by rw [h.n]; exact h3)

theorem segLog_looser (h : Looser A A') (s e : Nat) : A'.segLog s e = A.segLog s e := by
  simp only [RangeInput.segLog, RangeInput.insideLog, RangeInput.Valid, h.dur, h.n, h.changeLog, h.noChangeLog]
  congr

theorem sublist_of_ordered {α : Type} {r : α → α → Prop} (hirr : ∀ a, ¬ r a a)
    (htr : ∀ a b c, r a b → r b c → r a c) {l l' : List α} (hl : l.Pairwise r) (hl' : l'.Pairwise r)
    (h : ∀ a ∈ l, a ∈ l') : l.Sublist l' := by
  induction l' generalizing l with
  | nil =>
    cases l with
    | nil => exact List.Sublist.slnil
    | cons a l => exact absurd (h a (by simp)) (by simp)
  | cons b l' ih =>
    cases l with
    | nil => exact List.nil_sublist _
    | cons a l =>
      rw [List.pairwise_cons] at hl hl'
      by_cases hab : a = b
      · subst hab
        refine List.Sublist.cons_cons a (ih hl.2 hl'.2 fun x hx => ?_)
        rcases List.mem_cons.1 (h x (by simp [hx])) with rfl | hx'
        · exact absurd (hl.1 x hx) (hirr x)
        · exact hx'
      · have ha : a ∈ l' := (List.mem_cons.1 (h a (by simp))).resolve_left hab
        refine List.Sublist.cons b (ih (List.pairwise_cons.2 hl) hl'.2 fun x hx => ?_)
        rcases List.mem_cons.1 hx with rfl | hx
        · exact ha
        · rcases List.mem_cons.1 (h x (by simp [hx])) with rfl | hx'
          · exact absurd (htr _ _ _ (hl.1 x hx) (hl'.1 a ha)) (hirr a)
          · exact hx'

/-- C158: with looser limits all candidate ranges are found that were found before, in the same order and with the
same log probabilities, for the range and for joining it on. -/
theorem C158_ranges (h : Looser A A') (hmm : A.minChange ≤ A.maxNoChange) (rs rs' : List (Nat × Nat × κ))
    (rj rj' : List κ) (hr : RangeInput.getChordRanges A = .ok (rs, rj))
    (hr' : RangeInput.getChordRanges A' = .ok (rs', rj')) : (rs.zip rj).Sublist (rs'.zip rj') := by
  have hmm' : A'.minChange ≤ A'.maxNoChange := le_trans h.minChange (le_trans hmm h.maxNoChange)
  obtain ⟨_, _, _, _, _, e1⟩ := RangeInput.getChordRanges_eq A hmm rs rj hr
  obtain ⟨_, _, _, _, _, e2⟩ := RangeInput.getChordRanges_eq A' hmm' rs' rj' hr'
  have hz : ∀ (l : List (Nat × Nat × κ)) (g : Nat × Nat × κ → κ), l.zip (l.map g) = l.map fun r => (r, g r) := by
    intro l g
    induction l with
    | nil => rfl
    | cons a l ih => simp [ih]
  rw [e1, e2, hz, hz, h.noChangeLog, h.changeLog]
  refine List.Sublist.map _ (sublist_of_ordered ?_ ?_ (RangeInput.C26_ordered A hmm rs rj hr)
    (RangeInput.C26_ordered A' hmm' rs' rj' hr') ?_)
  · rintro a (ha | ha) <;> omega
  · rintro a b c (h1 | h1) (h2 | h2) <;> omega
  · rintro ⟨s, e, lp⟩ ha
    obtain ⟨h1, h2, h3⟩ := (RangeInput.C26_exact A hmm rs rj hr s e lp).1 ha
    exact (RangeInput.C26_exact A' hmm' rs' rj' hr' s e lp).2
      ⟨start_looser h h1, seg_looser h h2, by rw [segLog_looser h, h3]⟩

end

/-! ## The search -/

section
variable {κ ρ H P : Type} [Add κ] [Sub κ] [Zero κ] {d : SearchData κ ρ H P}

/-- The analyses with fewer candidate ranges are among those with more. -/
theorem Analysis.fewer {rs : List (Nat × RangeData κ)} (hrs : ∀ e ∈ rs, e ∈ d.ranges) {s : State κ H P}
    (h : Analysis { d with ranges := rs } s) : Analysis d s := by
  have chord : ∀ {s : State κ H P} {ps}, Chord { d with ranges := rs } s ps → Chord d s ps := by
    intro s ps h
    cases h with
    | mk s1 s2 r ids c ps h1 h2 h3 h4 h5 h6 h7 => exact .mk s1 s2 r ids c ps h1 h2 (hrs _ h3) h4 h5 h6 h7
  have loop : ∀ (F : Option Int) (s : State κ H P) o len rels room,
      SearchData.keyLoop { d with ranges := rs } F s o len rels room = d.keyLoop F s o len rels room := by
    intro F s o len rels
    induction rels with
    | nil => intro _; rfl
    | cons rel rels ih =>
      intro room
      have ih' := funext ih
      simp only [keyLoop, ih']
      rfl
  have changes : ∀ s : State κ H P, SearchData.keyChanges { d with ranges := rs } s = d.keyChanges s := by
    intro s
    simp only [keyChanges, loop]
    rfl
  induction h with
  | first keys key tonic mode h1 h2 h3 => exact .first keys key tonic mode h1 h2 h3
  | next s t _ hlt hn ih =>
    refine .next s t ih hlt ?_
    cases hn with
    | keep ps q rest s3 cost h1 h2 h3 h4 => exact .keep ps q rest s3 cost (chord h1) h2 h3 h4
    | change ps q rest x l s4 t h1 h2 h3 h4 h5 h6 =>
      rw [changes] at h4
      exact .change ps q rest x l s4 t (chord h1) h2 h3 h4 h5 h6

/-- C158 (partial): a search with plain beams that have room for all states, and that never takes the quick exit, finds
an analysis at least as good as that of a search over some of its candidate ranges, with beams of any size, plain or
hashed. What is missing is false for the limits on changes of key (`C158_keys_fails`). -/
theorem C158_search_partial [DecidableEq κ] [DecidableEq H] [DecidableEq P] {K G O R n : Nat}
    (hd : Roomy d K G O R) (hsp : Spared d) {rs : List (Nat × RangeData κ)} (hrs : ∀ e ∈ rs, e ∈ d.ranges)
    {res : Option (State κ H P)} (h : d.searchWith (plainOps d.stateLt) = .ok res) {t : State κ H P}
    (ht : SearchData.search { d with ranges := rs, beamSize := n } = .ok (some t)) :
    ∃ s, res = some s ∧ d.lt s.node.logProb t.node.logProb = false := by
  obtain ⟨h1, h2⟩ := C153_sound ht
  exact (searchWith_exact hd hsp res h).2 t
    (Analysis.fewer (d := d) hrs (anySize (d := { d with ranges := rs }) h1)) h2

end

/-- Two notes with a chord each. The key model is unsure of a change of key; the CSM expects the second chord in the
key of D only. A state may keep its key up to the given probability of a change. -/
def keyLimit (maxNo : Int) : SearchData Int Int Unit Unit :=
  { demo none 2 [(0, ⟨1, -1, -50, [-1, -1, -1], [0], 1⟩), (1, ⟨2, -1, -50, [-1, -1, -1], [1], 1⟩)] [-1, -1]
      [0, -1] with
    beamSize := 4000000
    maxNoChange := maxNo
    csmCost := fun s => .ok (if s.node.key = 0 ∧ s.node.changeIndex = 2 then -100 else -1) }

theorem keyLimit_roomy (maxNo : Int) : Roomy (keyLimit maxNo) 1 2 1 24 where
  forward := by simp [keyLimit, demo]
  order := intOrder
  keys keys h' := by
    have : (keyLimit maxNo).initialKeys = .ok [0] := rfl
    rw [this] at h'
    injection h' with h'
    subst h'; simp
  ranges := by simp [keyLimit, demo]
  chords := by simp [keyLimit, demo]
  relatives s o h' := by
    simp only [keyLimit, demo, Except.ok.injEq] at h'
    subst h'; decide
  size := by simp only [keyLimit, demo]; decide

theorem keyLimit_oneStart (maxNo : Int) : OneStart (keyLimit maxNo) := by simp [OneStart, keyLimit, demo]

/-- C158 fails for changes of key: the beams have room for all states and there is no quick exit, but with a greater
`max_no_key_change_prob` - more ways to go on - a worse analysis is found. Where a key may be kept as well as changed,
the states that change it are charged for both. -/
theorem C158_keys_fails : ∃ (d : SearchData Int Int Unit Unit) (s t : State Int Unit Unit),
    OneStart d ∧ d.hashLength = none ∧ (∀ p, Roomy { d with maxNoChange := p } 1 2 1 24) ∧
    SearchData.search { d with maxNoChange := 4 } = .ok (some s) ∧
    SearchData.search { d with maxNoChange := 5 } = .ok (some t) ∧
    d.lt t.node.logProb s.node.logProb = true ∧ s.node.logProb = -9 ∧ t.node.logProb = -10 := by
  obtain ⟨s, hs, hsl⟩ := found (r := (keyLimit 4).search) (n := -9) (by decide +kernel)
  obtain ⟨t, ht, htl⟩ := found (r := (keyLimit 5).search) (n := -10) (by decide +kernel)
  refine ⟨keyLimit 4, s, t, keyLimit_oneStart 4, rfl, fun p => keyLimit_roomy p, hs, ht, ?_, hsl, htl⟩
  rw [hsl, htl]; decide

/-! ## Instances -/

/-- Four notes, the last two at once. -/
def fourNotes (mn mx : ℚ) (len : ℚ) (chords : Nat → Int) : RangeInput ℚ ℚ ℚ where
  n := 4
  changeProb i := if i = 1 then 1 / 2 else 3 / 4
  changeLog i := -i
  noChangeLog i := -2 * i
  dur i := if i = 2 then 0 else 1
  forcedChord := chords
  forcedKey _ := -1
  minChange := mn
  maxNoChange := mx
  maxLen := len

/-- The hypotheses of `C158_ranges` are met, and looser limits give more ranges. -/
example :
    let A := fourNotes (2 / 5) (3 / 5) 2 fun i => if i < 2 then (i : Int) else -1
    let A' := fourNotes (1 / 5) (4 / 5) 3 fun _ => -1
    Looser A A' ∧
    RangeInput.getChordRanges A = .ok ([(0, 1, -1), (1, 2, -2), (2, 4, 0)], [0, -1, -2]) ∧
    RangeInput.getChordRanges A' =
      .ok ([(0, 1, -1), (0, 2, -4), (0, 4, -6), (1, 2, -2), (1, 4, -4), (2, 4, 0)], [0, 0, 0, -1, -1, -2]) := by
  refine ⟨⟨rfl, rfl, rfl, rfl, rfl, ?_, ?_, ?_, fun i => .inr rfl, fun i => .inl rfl⟩, by decide +kernel,
    by decide +kernel⟩ <;> simp only [fourNotes] <;> decide +kernel

/-- Two notes, with a chord each or, at a great cost, with one chord. -/
def wayDemo : SearchData Int Int Unit Unit :=
  { demo none 2 [(0, ⟨1, -1, -50, [-1, -1, -1], [0], 1⟩), (0, ⟨2, -100, -50, [-1, -1, -1], [0], 1⟩),
      (1, ⟨2, -1, -50, [-1, -1, -1], [1], 1⟩)] [-1, -1] [0, -1] with
    beamSize := 4000000
    minChange := 6 }

theorem wayDemo_roomy : Roomy wayDemo 1 3 1 24 where
  forward := by simp [wayDemo, demo]
  order := intOrder
  keys keys h' := by
    have : wayDemo.initialKeys = .ok [0] := rfl
    rw [this] at h'
    injection h' with h'
    subst h'; simp
  ranges := by simp [wayDemo, demo]
  chords := by simp [wayDemo, demo]
  relatives s o h' := by
    simp only [wayDemo, demo, Except.ok.injEq] at h'
    subst h'; decide
  size := by simp only [wayDemo, demo]; decide

/-- The log probabilities after the first chord. -/
theorem wayDemo_first {t : State Int Unit Unit} (h : Next wayDemo (State.initial 0 none (some ())) t) :
    t.node.changeIndex = 1 ∧ t.node.logProb = -4 ∨ t.node.changeIndex = 2 ∧ t.node.logProb = -105 := by
  have chord : ∀ ps, Chord wayDemo (State.initial 0 none (some ())) ps →
      (ps.2.prev.head?.map (·.changeIndex)) = some 0 ∧ ps.2.node.key = 0 ∧
      (ps.2.node.changeIndex = 1 ∧ ps.2.node.logProb = -2 ∨
        ps.2.node.changeIndex = 2 ∧ ps.2.node.logProb = -102) := by
    rintro _ ⟨s1, s2, r, ids, c, ps, h1, h2, hr, hi, hc, hb, hk⟩
    have h1 := h1 rfl
    subst h1
    have e0 : (State.initial 0 none (some ()) : State Int Unit Unit).node.changeIndex = 0 := rfl
    rw [e0] at hr hi hb
    simp only [runKtm, wayDemo, demo, Except.map, Except.ok.injEq] at hk
    subst hk
    simp only [wayDemo, demo, List.mem_cons, Prod.mk.injEq, true_and, List.not_mem_nil, or_false,
      zero_ne_one, false_and] at hr
    rcases hr with rfl | rfl
    · have e : wayDemo.branchIds 0 (State.initial 0 none (some ()) : State Int Unit Unit).node.chord
          ⟨1, -1, -50, [-1, -1, -1], [0], 1⟩ = .ok [0] := rfl
      rw [e] at hi
      injection hi with hi
      subst hi
      rw [List.mem_singleton] at hc
      subst hc
      obtain ⟨x1, x2⟩ := branchState_transition (lp := -1) (by simp [State.initial]) rfl hb
      rw [← and_assoc]
      refine ⟨?_, .inl ⟨x2, ?_⟩⟩
      · simp only [branchState, Bind.bind] at hb
        obtain ⟨lp, -, hb⟩ := bind_ok hb
        rw [if_neg (by simp [State.initial])] at hb
        obtain ⟨root, ct, inv, bass, k, y1, y2, y3, y4, y5, rfl⟩ := chordTransition_some hb
        exact ⟨rfl, rfl⟩
      · simp only [x1]; rfl
    · have e : wayDemo.branchIds 0 (State.initial 0 none (some ()) : State Int Unit Unit).node.chord
          ⟨2, -100, -50, [-1, -1, -1], [0], 1⟩ = .ok [0] := rfl
      rw [e] at hi
      injection hi with hi
      subst hi
      rw [List.mem_singleton] at hc
      subst hc
      obtain ⟨x1, x2⟩ := branchState_transition (lp := -1) (by simp [State.initial]) rfl hb
      rw [← and_assoc]
      refine ⟨?_, .inr ⟨x2, ?_⟩⟩
      · simp only [branchState, Bind.bind] at hb
        obtain ⟨lp, -, hb⟩ := bind_ok hb
        rw [if_neg (by simp [State.initial])] at hb
        obtain ⟨root, ct, inv, bass, k, y1, y2, y3, y4, y5, rfl⟩ := chordTransition_some hb
        exact ⟨rfl, rfl⟩
      · simp only [x1]; rfl
  have opts : ∀ (ps : Int × State Int Unit Unit) (q : Node Int Unit Unit), q.changeIndex = 0 → ps.2.node.key = 0 →
      ps.2.node.changeIndex = 1 ∨ ps.2.node.changeIndex = 2 →
      (charged wayDemo ps q).1 = none ∧ ∀ s3, (charged wayDemo ps q).2 = some s3 →
        s3 = ps.2.addKtm (-1 * (ps.2.node.changeIndex : Int)) := by
    intro ps q hq hk hi
    have hf : wayDemo.keyOptions ps.1 ps.2 q = (false, !ps.2.node.mustKey) := by
      have e : wayDemo.forcedIn wayDemo.forcedKeys 0 ps.2.node.changeIndex = some 0 := by
        rcases hi with hi | hi <;> rw [hi] <;> rfl
      simp only [keyOptions, hq, e, hk, if_true]
    simp only [charged, hf]
    cases ps.2.node.mustKey with
    | true => exact ⟨rfl, fun s3 h => by cases h⟩
    | false =>
      refine ⟨rfl, fun s3 h => ?_⟩
      simp only [chargeKey, Bool.not_false, Option.some.injEq] at h
      rw [← h, hq]
      simp [wayDemo, demo]
  cases h with
  | keep ps q rest s3 cost h1 h2 h3 h4 =>
    obtain ⟨c1, c2, c3⟩ := chord ps h1
    rw [h2] at c1
    simp only [List.head?_cons, Option.map_some, Option.some.injEq] at c1
    have e := (opts ps q c1 c2 (by omega)).2 s3 h3
    simp only [wayDemo, demo, Except.ok.injEq] at h4
    subst h4 e
    simp only [State.addCsm, State.addKtm]
    rcases c3 with ⟨c3, c4⟩ | ⟨c3, c4⟩
    · left; rw [c3, c4]; decide
    · right; rw [c3, c4]; decide
  | change ps q rest x l s4 t h1 h2 h3 h4 h5 h6 =>
    obtain ⟨c1, c2, c3⟩ := chord ps h1
    rw [h2] at c1
    simp only [List.head?_cons, Option.map_some, Option.some.injEq] at c1
    have e := (opts ps q c1 c2 (by omega)).1
    rw [e] at h3
    cases h3

theorem wayDemo_spared : Spared wayDemo := by
  have first : ∀ u, Analysis wayDemo u → u.node.changeIndex = 0 → u = State.initial 0 none (some ()) := by
    intro u hu h0
    cases hu with
    | first keys key tonic mode h1 h2 h3 =>
      have : wayDemo.initialKeys = .ok [0] := rfl
      rw [this] at h1
      injection h1 with h1
      subst h1
      rw [List.mem_singleton] at h2
      subst h2
      rfl
    | next s t _ _ hn =>
      have := hn.forward wayDemo_roomy
      omega
  intro s r u t hs hr hu hn hlt hst
  have hr' : s.node.changeIndex = 1 ∧ r = ⟨2, -1, -50, [-1, -1, -1], [1], 1⟩ := by
    simp only [wayDemo, demo, List.mem_cons, Prod.mk.injEq, List.not_mem_nil, or_false] at hr
    rcases hr with hr | hr | hr
    · omega
    · omega
    · exact hr
  obtain ⟨h1, rfl⟩ := hr'
  have hu0 := first u hu (by omega)
  subst hu0
  have ht : t.node.logProb = -105 := by
    rcases wayDemo_first hn with ⟨h, _⟩ | ⟨_, h⟩
    · simp only at hst; omega
    · exact h
  have hsl : s.node.logProb = -4 := by
    cases hs with
    | first keys key tonic mode h1 h2 h3 => cases h1
    | next v s hv _ hn' =>
      have := hn'.forward wayDemo_roomy
      have hv0 := first v hv (by omega)
      subst hv0
      rcases wayDemo_first hn' with ⟨_, h⟩ | ⟨h, _⟩
      · exact h
      · omega
  rw [ht, hsl]
  rfl

/-- The hypotheses of `C158_search_partial` are met where ranges overlap. Over the two short ranges the search finds -8,
over the long one it finds -105; over all of them -8, and over no choice of them, with no size of beams, more. -/
example : (∃ s, wayDemo.search = .ok (some s) ∧ s.node.logProb = -8) ∧
    (∃ t, SearchData.search { wayDemo with ranges := (wayDemo.ranges.drop 1).take 1 } = .ok (some t) ∧
      t.node.logProb = -105) ∧
    ∀ rs n t, (∀ e ∈ rs, e ∈ wayDemo.ranges) →
      SearchData.search { wayDemo with ranges := rs, beamSize := n } = .ok (some t) → t.node.logProb ≤ -8 := by
  obtain ⟨s, hs, hsl⟩ := found (r := wayDemo.search) (n := -8) (by decide +kernel)
  refine ⟨⟨s, hs, hsl⟩, found (by decide +kernel), ?_⟩
  intro rs n t hrs ht
  obtain ⟨s', e, hle⟩ := C158_search_partial wayDemo_roomy wayDemo_spared hrs hs ht
  injection e with e
  subst e
  simp only [wayDemo, demo, decide_eq_false_iff_not] at hle
  omega

end Verif.LooserLimits
