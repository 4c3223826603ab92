import Verif.Harmony
import Verif.Lemmas.SearchInv
import Verif.Lemmas.Ranges
import Verif.Props.Ranges
import Verif.Props.Search
import Verif.Props.Forced
import Mathlib.Algebra.Group.PUnit

/-!
# Lemmas on `get_harmony`
-/

set_option linter.unusedSectionVars false

namespace Verif

/-! ### The ranges do not depend on the log probabilities -/

namespace RangeInput

section
variable {π κ δ : Type} [LinearOrder π] [Add κ] [Sub κ] [Zero κ] [AddCommMonoid δ] [LinearOrder δ]

/-- The same input without log probabilities. -/
def forget (A : RangeInput π κ δ) : RangeInput π Unit δ :=
  { A with changeLog := fun _ => (), noChangeLog := fun _ => () }

/-- The state of the loops without log probabilities. -/
def forgetState (st : RState κ) : RState Unit :=
  { st with ranges := st.ranges.map fun r => (r.1, r.2.1, ()) }

theorem emit_forget (start n : Nat) (st : RState κ) (p : Nat × κ) (u : Unit) :
    forgetState (emit start n st p) = emit start n (forgetState st) (p.1, u) := by
  by_cases h1 : p.1 < n
  · cases h2 : st.inStarts p.1 <;> simp [emit, forgetState, h1, h2]
  · simp [emit, forgetState, h1]

theorem scan_forget (A : RangeInput π κ δ) (start : Nat) : ∀ (fuel index : Nat) (running : κ) (u : Unit) (rdur : δ)
    (fc fk : List Int) (st : RState κ),
    forgetState (scan A start fuel index running rdur fc fk st) =
      scan A.forget start fuel index u rdur fc fk (forgetState st) := by
  intro fuel
  induction fuel with
  | zero => intro index running u rdur fc fk st; exact emit_forget _ _ _ _ _
  | succ fuel ih =>
    intro index running u rdur fc fk st
    have e1 : A.forget.invalid index = A.invalid index := rfl
    have e2 : A.forget.forcedChord = A.forcedChord := rfl
    have e3 : A.forget.forcedKey = A.forcedKey := rfl
    have e4 : A.forget.dur = A.dur := rfl
    have e5 : A.forget.maxLen = A.maxLen := rfl
    have e6 : A.forget.changeProb = A.changeProb := rfl
    have e7 : A.forget.minChange = A.minChange := rfl
    have e8 : A.forget.maxNoChange = A.maxNoChange := rfl
    have e9 : A.forget.n = A.n := rfl
    simp only [scan, e1, e2, e3, e4, e5, e6, e7, e8, e9]
    repeat' split
    all_goals first
      | rfl
      | exact emit_forget _ _ _ _ _
      | exact ih ..
      | rw [ih _ _ (), emit_forget _ _ _ _ ()]

theorem loop_forget (A : RangeInput π κ δ) : ∀ (fuel : Nat) (st : RState κ),
    forgetState (loop A fuel st) = loop A.forget fuel (forgetState st) := by
  intro fuel
  induction fuel with
  | zero => intro st; rfl
  | succ fuel ih =>
    intro st
    simp only [loop]
    have e1 : (forgetState st).heap = st.heap := rfl
    rw [e1]
    cases heappop (fun a b => decide (a < b)) st.heap with
    | none => rfl
    | some p =>
      simp only
      rw [ih]
      congr 1
      unfold scanStart
      rw [scan_forget _ _ _ _ _ 0]
      rfl

theorem getChordRanges_forget (A : RangeInput π κ δ) {rs : List (Nat × Nat × κ)} {rj : List κ}
    (h : A.getChordRanges = .ok (rs, rj)) :
    (∃ rj', A.forget.getChordRanges = .ok (rs.map fun r => (r.1, r.2.1, ()), rj')) ∧
    rj = rs.map fun r => A.noChangeLog r.1 - A.changeLog r.1 := by
  unfold getChordRanges at h
  split at h
  · cases h
  · rename_i hn
    simp only [Except.ok.injEq, Prod.mk.injEq] at h
    obtain ⟨h1, h2⟩ := h
    constructor
    · have h3 := congrArg RState.ranges (loop_forget A A.n ⟨[], [0], fun i => decide (i = 0)⟩)
      unfold getChordRanges
      rw [if_neg (show ¬ A.forget.n = 0 from hn)]
      refine ⟨((loop A.forget A.n (forgetState (κ := κ) ⟨[], [0], fun i => decide (i = 0)⟩)).ranges.map
        fun r => A.forget.noChangeLog r.1 - A.forget.changeLog r.1), ?_⟩
      rw [← h1]
      have h4 : (forgetState (loop A A.n ⟨[], [0], fun i => decide (i = 0)⟩)).ranges =
        (loop A A.n ⟨[], [0], fun i => decide (i = 0)⟩).ranges.map fun r => (r.1, r.2.1, ()) := rfl
      rw [← h4, h3]
      rfl
    · rw [← h2, h1]

end

end RangeInput

/-! ### States that can not be reached -/

namespace SearchData
open State

section
variable {κ ρ H P : Type} [Add κ] [Sub κ] [Zero κ] {d : SearchData κ ρ H P}

/-- Log probabilities that stay what they are: minus infinity and NaN. -/
structure Absorbing (Dead : κ → Prop) : Prop where
  left : ∀ x y, Dead x → Dead (x + y)
  right : ∀ x y, Dead y → Dead (x + y)
  sub : ∀ x y, Dead x → Dead (x - y)

/-- The state is dead, or has a chord change at each of the places that it has passed. -/
def Passes (Dead : κ → Prop) (F : Nat → Prop) (s : State κ H P) : Prop :=
  Dead s.node.logProb ∨ ∀ i, F i → i < s.node.changeIndex → i ∈ (getChords s).2

theorem Passes.congr {Dead : κ → Prop} {F : Nat → Prop} {s t : State κ H P} (h : Passes Dead F s)
    (h1 : Dead s.node.logProb → Dead t.node.logProb) (h2 : t.node.changeIndex = s.node.changeIndex)
    (h3 : t.prev = s.prev) : Passes Dead F t := by
  rcases h with h | h
  · exact .inl (h1 h)
  · right
    intro i hi hlt
    have := h i hi (by omega)
    have e : (getChords t).2 = (getChords s).2 := by
      unfold getChords
      rw [h3]
      cases s.prev with
      | nil => simp [getChordsAux, h2]
      | cons p ps => simp [getChordsAux, h2]
    rw [e]; exact this

theorem getChords_cons (n p : Node κ H P) (ps : List (Node κ H P)) :
    (getChords ⟨n, p :: ps⟩).2 = (getChords ⟨p, ps⟩).2 ++ [n.changeIndex] := rfl

/-- The search keeps the invariant. -/
def passing (d : SearchData κ ρ H P) (Dead : κ → Prop) (hD : Absorbing Dead) (F : Nat → Prop)
    (hcross : ∀ i a r, F i → (a, r) ∈ d.ranges → ¬ (a < i ∧ i < r.stop))
    (hdead : ∀ i r, F i → (i, r) ∈ d.ranges → Dead r.rejoinLogProb) : PhaseInv d where
  beam := Passes Dead F
  ran := Passes Dead F
  cand := Passes Dead F
  tried ps := Passes Dead F ps.2
  changing := Passes Dead F
  keeping := Passes Dead F
  moved := Passes Dead F
  init key tonic mode _ _ _ _ := by
    right
    intro i hi hlt
    exact absurd hlt (by show ¬ i < 0; omega)
  first s _ _ h := h
  csm s t _ _ h ht := by
    simp only [runCsm] at ht
    obtain ⟨ph, _, rfl⟩ := map_ok ht
    exact h.congr id rfl rfl
  chord s t c r lp hs h hm _ _ ht _ := by
    obtain ⟨root, ct, inv, bass, k, h1, h2, h3, h4, h5, rfl⟩ := chordTransition_some ht
    rcases h with h | h
    · exact .inl (hD.left _ _ h)
    · right
      intro i hi hlt
      rw [getChords_cons, List.mem_append]
      have hlt : i < r.stop := hlt
      by_cases hle : i < s.node.changeIndex
      · left
        have := h i hi hle
        cases hp : s.prev with
        | nil =>
          rw [getChords, hp] at this
          exact this
        | cons p ps =>
          rw [getChords, hp] at this
          exact this
      · by_cases heq : i = s.node.changeIndex
        · left
          subst heq
          unfold getChords
          simp only
          cases s.prev with
          | nil => simp [getChordsAux]
          | cons p ps => simp [getChordsAux]
        · exact absurd ⟨by omega, hlt⟩ (hcross i _ r hi hm)
  rejoin s t _ r lp hs h hm _ _ ht _ := by
    obtain ⟨c, root, ct, inv, bass, tonic, mode, p, ps, hcc, h1, h2, hp, h3, rfl⟩ := rejoin_ok ht
    rcases h with h | h
    · exact .inl (hD.sub _ _ (hD.left _ _ h))
    · by_cases hF : F s.node.changeIndex
      · exact .inl (hD.sub _ _ (hD.right _ _ (hD.right _ _ (hdead _ r hF hm))))
      · right
        intro i hi hlt
        have hlt : i < r.stop := hlt
        have hne : i ≠ s.node.changeIndex := fun he => hF (he ▸ hi)
        have hle : i < s.node.changeIndex := by
          by_contra hn
          exact hcross i _ r hi hm ⟨by omega, hlt⟩
        have := h i hi hle
        rw [getChords, hp] at this
        simp only [getChordsAux, List.mem_append, List.mem_singleton] at this
        simp only [getChords, hp, getChordsAux, List.mem_append, List.mem_singleton]
        rcases this with this | this
        · exact .inl this
        · exact absurd this hne
  ktm s ps _ h ht := by
    simp only [runKtm] at ht
    obtain ⟨ph, _, rfl⟩ := map_ok ht
    exact h.congr id rfl rfl
  branch ps _ _ _ h _ := chargeKey_all (fun s lp h => h.congr (fun h => hD.left _ _ h) rfl rfl)
    (fun s h => h.congr id rfl rfl) h _ _ _
  keep s cost _ h _ := h.congr (fun h => hD.left _ _ h) rfl rfl
  key s t o q rest rel key lp _ h _ hq _ _ _ ht _ := by
    obtain ⟨c, root, ct, inv, bass, tonic, mode, p, ps, hcc, h1, h2, h3, hp, h4, h5, rfl⟩ := keyTransition_some ht
    exact h.congr (fun h => hD.left _ _ h) rfl rfl
  hidden s t _ h ht := by
    simp only [runHidden, Bind.bind] at ht
    obtain ⟨ps, hps, ht⟩ := bind_ok ht
    obtain ⟨o, _, ht⟩ := bind_ok ht
    simp only [runKtm] at hps
    obtain ⟨ph, _, rfl⟩ := map_ok hps
    injection ht with ht
    subst ht
    exact h.congr id rfl rfl

end

end SearchData

/-! ### Unpacking `get_harmony` -/

theorem mapPy_mem {α β : Type} {f : α → Py β} {l : List α} {out : List β} (h : mapPy f l = .ok out) (b : β) :
    b ∈ out ↔ ∃ a ∈ l, f a = .ok b := by
  induction l generalizing out with
  | nil => simp only [mapPy, Except.ok.injEq] at h; subst h; simp
  | cons a l ih =>
    simp only [mapPy] at h
    cases ha : f a with
    | error e => rw [ha] at h; cases h
    | ok c =>
      rw [ha] at h
      cases hl : mapPy f l with
      | error e => rw [hl] at h; cases h
      | ok cs =>
        rw [hl] at h
        injection h with h
        subst h
        simp only [List.mem_cons, exists_eq_or_imp, ih hl, ha, Except.ok.injEq]
        rw [eq_comm]

namespace Joint
open Forced

section
variable {π κ δ ρ H P τ : Type} [LinearOrder π] [Zero π] [One π] [Add κ] [Sub κ] [Zero κ] [DecidableEq κ]
  [DecidableEq H] [DecidableEq P] [AddCommMonoid δ] [LinearOrder δ] [LE τ] [LT τ] [DecidableLE τ]
  [DecidableLT τ]

/-- What is assumed of the parameters. -/
structure WF (m : Joint π κ δ ρ H P) : Prop where
  minPos : 0 < m.minChange
  order : m.minChange ≤ m.maxNoChange
  maxLt : m.maxNoChange < 1
  hash : ∀ k, m.search.hashLength = some k → 1 ≤ k
  pick : ∀ l, l ≠ [] → m.search.pick l ∈ l

/-- The probability of a chord change with the forced ones. -/
def prob (m : Joint π κ δ ρ H P) (chord : ForcedType) (i : Nat) : π :=
  if (i : Int) ∈ chord.nonChanges then 0 else if (i : Int) ∈ chord.changes ∧ i ≠ 0 then 1 else m.ctm i

theorem arrayIndex_mem {n : Nat} {l : List Int} {out : List Nat} (h0 : ∀ c ∈ l, 0 ≤ c) (hn : ∀ c ∈ l, c < n)
    (h : mapPy (arrayIndex n) l = .ok out) (i : Nat) : i ∈ out ↔ (i : Int) ∈ l := by
  rw [mapPy_mem h]
  constructor
  · rintro ⟨a, ha, he⟩
    have := h0 a ha
    rw [arrayIndex, if_pos this, if_pos (hn a ha)] at he
    injection he with he
    have : (i : Int) = a := by omega
    rw [this]; exact ha
  · intro hi
    refine ⟨_, hi, ?_⟩
    rw [arrayIndex, if_pos (h0 _ hi), if_pos (hn _ hi)]
    rfl

/-- What holds of each row of the search. -/
structure Row (m : Joint π κ δ ρ H P) (dur : List δ) (chord key : ForcedType) (a : Nat) (r : RangeData κ) :
    Prop where
  lt : a < r.stop
  le : r.stop ≤ dur.length
  stop : r.stop = dur.length ∨ (dur.getD (r.stop - 1) 0 ≠ 0 ∧ m.minChange ≤ m.prob chord r.stop)
  inside : ∀ i, a < i → i < r.stop → dur.getD (i - 1) 0 ≠ 0 → m.prob chord i ≤ m.maxNoChange
  agree : ∀ i j, a ≤ i → i < r.stop → a ≤ j → j < r.stop → i + 1 < dur.length → j + 1 < dur.length →
    dur.getD i 0 ≠ 0 → dur.getD j 0 ≠ 0 → ∀ f g, labelAt chord i = some f → labelAt chord j = some g → f = g
  long : ∀ i, a < i → i ≤ r.stop → i < dur.length → dur.getD (i - 1) 0 ≠ 0 →
    (m.rangeInput dur [] [] [] []).charged a i ≤ m.maxLen
  rejoin : r.rejoinLogProb = m.logCompl (m.prob chord a) - m.log (m.prob chord a)

/-- The parts of a successful run. -/
structure Run (m : Joint π κ δ ρ H P) (n : Nat) (dur : List δ) (chord key : ForcedType)
    (res : Option (State κ H P)) (rows : List (Nat × RangeData κ)) (cids kids : List Int) : Prop where
  pos : 0 < dur.length
  chordOK : TypeOK dur chord
  keyOK : TypeOK dur key
  cross : CrossOK dur.length chord key
  chordIds : cids = (List.range dur.length).map (fun i => (labelAt chord i).getD (-1))
  keyIds : kids = (List.range dur.length).map (fun i => (labelAt key i).getD (-1))
  row : ∀ a r, (a, r) ∈ rows → Row m dur chord key a r
  search : (m.searchData n rows cids kids).search = .ok res

/-- The classification of a range: what the chord classifier says of the window of its notes. -/
def Classified (m : Joint π κ δ ρ H P) (notes : List (τ × τ)) (a : Nat) (r : RangeData κ) : Prop :=
  ∃ note, notes[a]? = some note ∧ r.priors = m.ccm (rangeStart note.1 notes, r.stop) a ∧
    r.order = m.argsort r.priors ∧ r.maxIndex = m.branch r.priors

theorem run_classified (m : Joint π κ δ ρ H P) (hm : m.WF) {notes : List (τ × τ)} {dur : List δ}
    {chord key : ForcedType} (hc : NonNeg chord) (hk : NonNeg key) {res : Option (State κ H P)}
    (h : m.getHarmony notes dur chord key = .ok res) :
    ∃ rows cids kids, Run m notes.length dur chord key res rows cids kids ∧
      ∀ a r, (a, r) ∈ rows → Classified m notes a r := by
  simp only [getHarmony, Bind.bind] at h
  obtain ⟨_, _, h⟩ := SearchData.bind_ok h
  obtain ⟨⟨cids, kids⟩, hv, h⟩ := SearchData.bind_ok h
  obtain ⟨changes, hch, h⟩ := SearchData.bind_ok h
  obtain ⟨nonChanges, hnc, h⟩ := SearchData.bind_ok h
  obtain ⟨⟨rs, rj⟩, hrs, h⟩ := SearchData.bind_ok h
  obtain ⟨rows, hrows, h⟩ := SearchData.bind_ok h
  obtain ⟨v1, v2, v3, v4, v5⟩ := (C30_accepts_partial dur chord key hc hk cids kids).1 hv
  have hcl : ∀ a r, (a, r) ∈ rows → Classified m notes a r := by
    intro a r har
    obtain ⟨⟨⟨s, e, lp⟩, q⟩, -, hrow⟩ := (mapPy_mem hrows _).1 har
    simp only [rangeRow, Bind.bind] at hrow
    obtain ⟨nt, hnt, hrow⟩ := SearchData.bind_ok hrow
    injection hrow with hrow
    injection hrow with h1 h2
    subst h1
    subst h2
    exact ⟨nt, by simpa using pyGet_nonneg _ _ _ (Int.natCast_nonneg _) hnt, rfl, rfl, rfl⟩
  refine ⟨rows, cids, kids, ⟨?_, v1, v2, v3, v4, v5, ?_, h⟩, hcl⟩
  · by_contra hn
    have h0 : dur.length = 0 := by omega
    unfold RangeInput.getChordRanges at hrs
    rw [if_pos (show (m.rangeInput dur cids kids changes nonChanges).n = 0 from h0)] at hrs
    cases hrs
  · have hmc : ∀ i : Nat, i ∈ changes ↔ ((i : Int) ∈ chord.changes ∧ i ≠ 0) := by
      intro i
      rw [arrayIndex_mem ?_ ?_ hch]
      · simp [dropZero]
      · intro c hcm
        exact hc.1 c (List.mem_filter.1 hcm).1
      · intro c hcm
        obtain ⟨h1, h2⟩ := List.mem_filter.1 hcm
        exact v1.changeBound c h1 (by simpa using h2)
    have hmn : ∀ i : Nat, i ∈ nonChanges ↔ (i : Int) ∈ chord.nonChanges :=
      fun i => arrayIndex_mem hc.2.1 v1.nonChangeBound hnc i
    have hprob : ∀ i, (m.rangeInput dur cids kids changes nonChanges).changeProb i = m.prob chord i := by
      intro i
      show RangeInput.applyForced changes nonChanges m.ctm i = _
      simp only [RangeInput.applyForced, prob, hmc, hmn]
    have hfc : ∀ i, i < dur.length →
        (m.rangeInput dur cids kids changes nonChanges).forcedChord i = (labelAt chord i).getD (-1) := by
      intro i hi
      show cids.getD i (-1) = _
      rw [v4]
      simp [List.getD, hi]
    obtain ⟨⟨rj', hf⟩, hrj⟩ := RangeInput.getChordRanges_forget _ hrs
    intro a r har
    obtain ⟨x, hx, hrow⟩ := (mapPy_mem hrows _).1 har
    obtain ⟨⟨s, e, lp⟩, q⟩ := x
    have hmem := (List.of_mem_zip hx).1
    have hq : q = (m.rangeInput dur cids kids changes nonChanges).noChangeLog s -
        (m.rangeInput dur cids kids changes nonChanges).changeLog s := by
      rw [hrj, List.zip_map_right, List.mem_map] at hx
      obtain ⟨⟨y, z⟩, hyz, he⟩ := hx
      simp only [Prod.map_apply, id_eq, Prod.mk.injEq] at he
      obtain ⟨rfl, rfl⟩ := he
      have : ∀ (l : List (Nat × Nat × κ)) y z, (y, z) ∈ l.zip l → y = z := by
        intro l
        induction l with
        | nil => simp
        | cons b l ih =>
          intro y z hyz
          simp only [List.zip_cons_cons, List.mem_cons, Prod.mk.injEq] at hyz
          rcases hyz with ⟨rfl, rfl⟩ | hyz
          · rfl
          · exact ih y z hyz
      rw [← this _ _ _ hyz]
    simp only [rangeRow, Bind.bind] at hrow
    obtain ⟨nt, _, hrow⟩ := SearchData.bind_ok hrow
    injection hrow with hrow
    injection hrow with h1 h2
    subst h1
    subst h2
    have hmem' : (s, e, ()) ∈ rs.map fun r => (r.1, r.2.1, ()) := List.mem_map.2 ⟨_, hmem, rfl⟩
    obtain ⟨c1, c2, -, c4, c5, c6⟩ := RangeInput.C25_sound _ hm.order _ _ hf s e () hmem'
    have c2 : e ≤ dur.length := c2
    have hlong := ((RangeInput.C26_exact _ hm.order _ _ hf s e ()).1 hmem').2.1.long
    refine ⟨c1, c2, ?_, ?_, ?_, ?_, ?_⟩
    · rcases c4 with c4 | ⟨c4, c7⟩
      · exact .inl c4
      · exact .inr ⟨c4, by rw [← hprob]; exact c7⟩
    · intro i h1 h2 h3
      rw [← hprob]; exact c5 i h1 h2 h3
    · intro i j h1 h2 h3 h4 h5 h6 h7 h8 f g hi hj
      have h2 : i < e := h2
      have h4 : j < e := h4
      have := (c6 i j h1 h2 h3 h4 h5 h6 h7 h8).1
      have ei : (m.rangeInput dur cids kids changes nonChanges).forget.forcedChord i = f := by
        show (m.rangeInput dur cids kids changes nonChanges).forcedChord i = f
        rw [hfc i (by omega), hi]; rfl
      have ej : (m.rangeInput dur cids kids changes nonChanges).forget.forcedChord j = g := by
        show (m.rangeInput dur cids kids changes nonChanges).forcedChord j = g
        rw [hfc j (by omega), hj]; rfl
      rw [ei, ej] at this
      obtain ⟨r1, hr1, rfl⟩ := labelAt_mem chord i f hi
      obtain ⟨r2, hr2, rfl⟩ := labelAt_mem chord j g hj
      have b1 := (v1.range r1 hr1).1
      have b2 := (v1.range r2 hr2).1
      exact this (by omega) (by omega)
    · intro i h1 h2 h3 h4
      exact hlong i h1 h2 h3 ⟨by omega, h4⟩
    · rw [hq, ← hprob]; rfl

theorem run (m : Joint π κ δ ρ H P) (hm : m.WF) {notes : List (τ × τ)} {dur : List δ} {chord key : ForcedType}
    (hc : NonNeg chord) (hk : NonNeg key) {res : Option (State κ H P)}
    (h : m.getHarmony notes dur chord key = .ok res) :
    ∃ rows cids kids, Run m notes.length dur chord key res rows cids kids := by
  obtain ⟨rows, cids, kids, hr, -⟩ := run_classified m hm hc hk h
  exact ⟨rows, cids, kids, hr⟩

end

end Joint

end Verif
