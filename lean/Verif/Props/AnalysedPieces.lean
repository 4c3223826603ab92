import Verif.PieceAnalysis
import Verif.PieceCaches
import Verif.Props.Renumber
import Verif.Props.Eval
import Verif.Lemmas.Search
import Verif.Props.AnnotatedRows

/-!
# C161: what the analysis of a piece depends on
-/

namespace Verif.AnalysedPieces
open Verif State Verif.SearchData Verif.StateInputs Verif.Renumber Verif.Hidden

section
variable {π κ ρ H P : Type}

/-- Where a piece ends: with its last chord, or if it has no labels, with its last note. -/
def Ends (notes : List NoteObj) (chords : Option (List ChordSpan)) (t : Int × ℚ) : Prop :=
  match chords with
  | some l => ∃ c, l.getLast? = some c ∧ c.offset = t
  | none => (∃ n ∈ notes, n.offset = t) ∧ ∀ n ∈ notes, toLex n.offset ≤ toLex t

theorem foldl_max (l : List (Lex (Int × ℚ))) (a t : Lex (Int × ℚ)) (hm : t ∈ a :: l) (hle : ∀ b ∈ a :: l, b ≤ t) :
    l.foldl (fun m x => if m < x then x else m) a = t := by
  induction l generalizing a with
  | nil => exact (List.mem_singleton.1 hm).symm
  | cons b l ih =>
    rw [List.foldl_cons]
    refine ih _ ?_ ?_
    · by_cases hab : a < b
      · rw [if_pos hab]
        rcases List.mem_cons.1 hm with rfl | hm
        · exact absurd (hle b (by simp)) (not_le.2 hab)
        · exact hm
      · rw [if_neg hab]
        rcases List.mem_cons.1 hm with rfl | hm
        · exact List.mem_cons_self
        · rcases List.mem_cons.1 hm with rfl | hm
          · rw [le_antisymm (hle a (by simp)) (not_lt.1 hab)]
            exact List.mem_cons_self
          · exact List.mem_cons_of_mem _ hm
    · intro c hc
      rcases List.mem_cons.1 hc with rfl | hc
      · by_cases hab : a < b
        · rw [if_pos hab]; exact hle b (by simp)
        · rw [if_neg hab]; exact hle a (by simp)
      · exact hle c (by simp [hc])

theorem last_ends {x : Analysed} {t : Int × ℚ} (h : Ends x.notes x.chords t) : x.last = .ok t := by
  obtain ⟨notes, T, chords⟩ := x
  cases chords with
  | some l =>
    obtain ⟨c, hc, rfl⟩ := h
    have hl : (l.map fun c => toLex c.offset).getLast? = some (toLex c.offset) := by
      rw [List.getLast?_map, hc]; rfl
    have hne : (l.map fun c => toLex c.offset) ≠ [] := by
      intro e; rw [e] at hl; cases hl
    have : pyGet (l.map fun c => toLex c.offset) (-1) = .ok (toLex c.offset) := by
      rw [Eval.pyGet_last _ hne]
      rw [List.getLast?_eq_some_getLast hne] at hl
      rw [Option.some.inj hl]
    simp only [Analysed.last, lastOffset, Option.map_some, this, Bind.bind, Except.bind]
    rfl
  | none =>
    obtain ⟨⟨n, hn, rfl⟩, hle⟩ := h
    simp only [Analysed.last, lastOffset, Option.map_none]
    cases notes with
    | nil => cases hn
    | cons a l =>
      simp only [List.map_cons, maxTime, Bind.bind, Except.bind]
      rw [foldl_max (l.map fun n => toLex n.offset) (toLex a.offset) (toLex n.offset)]
      · rfl
      · rw [← List.map_cons (f := fun n : NoteObj => toLex n.offset)]
        exact List.mem_map_of_mem hn
      · intro b hb
        rw [← List.map_cons (f := fun n : NoteObj => toLex n.offset)] at hb
        obtain ⟨m, hm, rfl⟩ := List.mem_map.1 hb
        exact hle m hm

/-! ## The search of `Harmony.lean` -/

/-- The joint model of `Harmony.lean` with the outputs of the networks for a piece. -/
def jointOf [Zero π] (N : Analyser π κ ρ H P) (x : Analysed) (cache : List ℚ) (last : Int × ℚ) (inputs : List (List ℚ))
    (C : Caches) : Joint π κ ℚ ρ H P :=
  { N.params with
    ctm := fun i => (N.ctm inputs).getD i 0
    search := N.search C
    ccm := fun w change =>
      match pieceChordInput x.notes x.measures cache last 2 w change none with
      | .ok v => N.ccm v
      | .error _ => [] }

theorem rows_eq [Zero π] (N : Analyser π κ ρ H P) (x : Analysed) (cache : List ℚ) (last : Int × ℚ) (inputs : List (List ℚ))
    (C : Caches) : ∀ (rs : List (Nat × Nat × κ)) (ls : List κ) (ws : List (Nat × Nat)) (vs : List (List (List ℚ))),
    mapPy (Analyser.window x) rs = .ok ws →
    (ws.zip ((rs.map fun r => r.1).zip (ws.map fun _ => (none : Option ChordSpan)))).mapM (fun y =>
      pieceChordInput x.notes x.measures cache last 2 y.1 y.2.1 y.2.2) = .ok vs →
    mapPy ((jointOf N x cache last inputs C).rangeRow x.times) (rs.zip ls) =
      .ok (((rs.zip ls).zip (vs.map N.ccm)).map (Analyser.row (N.withProbs (N.ctm inputs) C))) := by
  intro rs
  induction rs with
  | nil => intro ls ws vs _ _; rfl
  | cons r rs ih =>
    intro ls ws vs hw hv
    cases ls with
    | nil => rfl
    | cons l ls =>
      simp only [mapPy] at hw
      cases hwr : Analyser.window x r with
      | error e => rw [hwr] at hw; cases hw
      | ok w =>
        rw [hwr] at hw
        simp only at hw
        cases hws : mapPy (Analyser.window x) rs with
        | error e => rw [hws] at hw; cases hw
        | ok ws' =>
          rw [hws] at hw
          simp only at hw
          have hw := Except.ok.inj hw
          subst hw
          simp only [List.map_cons, List.zip_cons_cons, List.mapM_cons, Bind.bind] at hv
          obtain ⟨v, hv1, hv⟩ := SearchData.bind_ok hv
          obtain ⟨vs', hv2, hv⟩ := SearchData.bind_ok hv
          have hv := Except.ok.inj hv
          subst hv
          have := ih ls ws' vs' hws hv2
          simp only [List.zip_cons_cons, List.map_cons, mapPy, this]
          simp only [Analyser.window, Bind.bind] at hwr
          obtain ⟨n, hn, hwr⟩ := SearchData.bind_ok hwr
          have hwr := Except.ok.inj hwr
          subst hwr
          have hn' : pyGet x.times (r.1 : Int) = .ok (toLex n.onset, toLex n.offset) := by
            simp only [Analysed.times, pyGet_map, hn]
            rfl
          have hrow : (jointOf N x cache last inputs C).rangeRow x.times (r, l) =
              .ok (Analyser.row (N.withProbs (N.ctm inputs) C) ((r, l), N.ccm v)) := by
            simp only [Joint.rangeRow, hn', Bind.bind, Except.bind, jointOf, hv1]
            rfl
          rw [hrow]

/-! ## The analysis -/

variable [LE π] [DecidableLE π] [LT π] [DecidableLT π] [Zero π] [One π] [Add κ] [Sub κ] [Zero κ]
    [DecidableEq κ] [DecidableEq H] [DecidableEq P]

theorem analyse_last (N : Analyser π κ ρ H P) (notes : List NoteObj) (T : List (Measure ℚ))
    (chords chords' : Option (List ChordSpan)) (h : (Analysed.mk notes T chords).last = (Analysed.mk notes T chords').last)
    (chord key : ForcedType) :
    N.analyse ⟨notes, T, chords⟩ chord key = N.analyse ⟨notes, T, chords'⟩ chord key := by
  have h1 : (Analysed.mk notes T chords).cache = (Analysed.mk notes T chords').cache := by
    simp only [Analysed.cache, h]
  have h2 : ∀ ws cs, chordNoteInputs notes chords T 2 (some ws) (some cs) =
      chordNoteInputs notes chords' T 2 (some ws) (some cs) := by
    intro ws cs
    have e1 := h
    simp only [Analysed.last] at e1
    have e2 : lastOffset (chords.map fun l => l.map fun c => toLex c.offset) (notes.map fun n => toLex n.offset) =
        lastOffset (chords'.map fun l => l.map fun c => toLex c.offset) (notes.map fun n => toLex n.offset) := by
      revert e1
      cases lastOffset (chords.map fun l => l.map fun c => toLex c.offset) (notes.map fun n => toLex n.offset) <;>
        cases lastOffset (chords'.map fun l => l.map fun c => toLex c.offset) (notes.map fun n => toLex n.offset) <;>
        intro e1 <;> simp_all [Bind.bind, Except.bind]
    cases chords <;> cases chords' <;> simp only [chordNoteInputs, e2] <;> rfl
  have h3 : Analyser.window (κ := κ) (Analysed.mk notes T chords) = Analyser.window (Analysed.mk notes T chords') := rfl
  have h4 : (Analysed.mk notes T chords).caches = (Analysed.mk notes T chords').caches := rfl
  simp only [Analyser.analyse, h1, h2, h3, h4]

/-- C161 (partial: the last chord ends where the other analysis ends): the analysis does not depend on the labels of the
piece. -/
theorem C161_labels_partial (N : Analyser π κ ρ H P) (notes : List NoteObj) (T : List (Measure ℚ))
    (chords chords' : Option (List ChordSpan)) (t : Int × ℚ) (h : Ends notes chords t) (h' : Ends notes chords' t)
    (chord key : ForcedType) :
    N.analyse ⟨notes, T, chords⟩ chord key = N.analyse ⟨notes, T, chords'⟩ chord key :=
  analyse_last N notes T chords chords' (by rw [last_ends h, last_ends h']) chord key

/-- C161: what the models of the search read of a piece: a duration and an onset level for each note, and the offset level
of the last one. They are those of `PieceCaches.lean` if the piece has labels. -/
theorem C161_caches (x : Analysed) (cache : List ℚ) (C : Caches) (h : x.cache = .ok cache) (hC : x.caches cache = .ok C) :
    C.durations = cache ∧ cache.length = x.notes.length ∧
    (∃ n, x.notes.getLast? = some n ∧
      C.levels = x.notes.map (fun n => (n.onsetLevel : Int)) ++ [(n.offsetLevel : Int)]) ∧
    ∀ y : ClassPiece, y.notes = x.notes → y.measures = x.measures → x.chords = some (y.chords.map Prod.fst) →
      pieceCaches y = .ok C := by
  have h0 := h
  simp only [Analysed.cache, Bind.bind] at h
  obtain ⟨t, ht, h⟩ := SearchData.bind_ok h
  have hlen : cache.length = x.notes.length := by
    have key : ∀ {α β : Type} (f : α → Py β) (l : List α) (out : List β), mapPy f l = .ok out →
        out.length = l.length := by
      intro α β f l
      induction l with
      | nil => intro out h; cases h; rfl
      | cons a l ih =>
        intro out h
        simp only [mapPy] at h
        cases ha : f a with
        | error e => rw [ha] at h; cases h
        | ok b =>
          rw [ha] at h
          cases hl : mapPy f l with
          | error e => rw [hl] at h; cases h
          | ok bs => rw [hl] at h; cases h; simp [ih bs hl]
    rw [durationCache] at h
    rw [key _ _ _ h]
    simp only [List.length_zip, List.length_map, List.length_append, List.length_drop, List.length_singleton]
    omega
  have hC0 := hC
  simp only [Analysed.caches, makeCaches, Bind.bind] at hC
  obtain ⟨last, hl, hC⟩ := SearchData.bind_ok hC
  have hC := Except.ok.inj hC
  subst hC
  have hz : ∀ {β : Type} (f : ℚ → β), ((cache.zip x.notes).map fun p => f p.1) = cache.map f := by
    intro β f
    refine (List.map_map (f := Prod.fst) (g := f) (l := cache.zip x.notes)).symm.trans ?_
    rw [List.map_fst_zip (by omega)]
  have hz' : ∀ {β : Type} (f : NoteObj → β), ((cache.zip x.notes).map fun p => f p.2) = x.notes.map f := by
    intro β f
    refine (List.map_map (f := Prod.snd) (g := f) (l := cache.zip x.notes)).symm.trans ?_
    rw [List.map_snd_zip (by omega)]
  refine ⟨?_, hlen, ?_, fun y hn hm hc => ?_⟩
  · simp only [List.map_map, Function.comp_def]
    exact (hz id).trans (List.map_id _)
  · have hne : x.notes ≠ [] := by
      intro e
      rw [e, List.zip_nil_right, List.map_nil] at hl
      cases hl
    refine ⟨_, List.getLast?_eq_some_getLast hne, ?_⟩
    simp only [List.map_map, Function.comp_def]
    rw [hz' fun n => (n.onsetLevel : Int)]
    have hne' : ((cache.zip x.notes).map fun p => (p.1, (p.2.onsetLevel : Int), (p.2.offsetLevel : Int))) ≠ [] := by
      intro e
      rw [e] at hl
      cases hl
    rw [Eval.pyGet_last _ hne'] at hl
    have hl := Except.ok.inj hl
    have h1 := congrArg (fun l => l.getLast?) (hz' fun n => (n.offsetLevel : Int))
    have h2 : ((cache.zip x.notes).map fun p => (p.1, (p.2.onsetLevel : Int), (p.2.offsetLevel : Int))).getLast? =
        some last := by rw [List.getLast?_eq_some_getLast hne', hl]
    have h3 : ((cache.zip x.notes).map fun p => (p.2.offsetLevel : Int)).getLast? = some last.2.2 := by
      have := congrArg (Option.map fun q : ℚ × Int × Int => q.2.2) h2
      rw [← List.getLast?_map, List.map_map] at this
      exact this
    simp only [h3, List.getLast?_map, List.getLast?_eq_some_getLast hne, Option.map_some] at h1
    rw [Option.some.inj h1]
  · simp only [pieceCaches, Bind.bind, hn, hm]
    simp only [Analysed.last, Bind.bind, hc, Option.map_some, List.map_map] at ht
    obtain ⟨t', ht', ht⟩ := SearchData.bind_ok ht
    have ht := Except.ok.inj ht
    subst ht
    simp only [Function.comp_def] at ht'
    rw [ht']
    simp only [Except.bind, h]
    exact hC0

/-- C161: the analysis is that of `Harmony.lean`, with the networks applied to what they read of the piece. -/
theorem C161_harmony (N : Analyser π κ ρ H P) (x : Analysed) (chord key : ForcedType) (r : Option (State κ H P))
    (h : N.analyse x chord key = .ok r) :
    ∃ last cache inputs C, x.last = .ok last ∧ x.cache = .ok cache ∧ ctmInputs x.notes cache = .ok inputs ∧
      x.caches cache = .ok C ∧ (jointOf N x cache last inputs C).getHarmony x.times cache chord key = .ok r := by
  simp only [Analyser.analyse, Bind.bind] at h
  obtain ⟨cache, hcache, h⟩ := SearchData.bind_ok h
  obtain ⟨C, hC, h⟩ := SearchData.bind_ok h
  obtain ⟨ids, hids, h⟩ := SearchData.bind_ok h
  obtain ⟨inputs, hin, h⟩ := SearchData.bind_ok h
  obtain ⟨changes, h1, h⟩ := SearchData.bind_ok h
  obtain ⟨nonChanges, h2, h⟩ := SearchData.bind_ok h
  obtain ⟨rs, hrs, h⟩ := SearchData.bind_ok h
  obtain ⟨ws, hws, h⟩ := SearchData.bind_ok h
  obtain ⟨vs, hvs, h⟩ := SearchData.bind_ok h
  have hcache' := hcache
  simp only [Analysed.cache, Bind.bind] at hcache'
  obtain ⟨last, hlast, hcache'⟩ := SearchData.bind_ok hcache'
  have hrows := rows_eq N x cache last inputs C rs.1 rs.2 ws vs hws (by
    simp only [Analysed.last, Bind.bind] at hlast
    obtain ⟨t, ht, hlast⟩ := SearchData.bind_ok hlast
    have hlast := Except.ok.inj hlast
    subst hlast
    simp only [chordNoteInputs, Option.isNone_some, Bool.or_false, Bind.bind, Except.bind] at hvs
    rw [ht] at hvs
    simp only at hvs
    rw [hcache'] at hvs
    exact hvs)
  have hne : ∃ n, pyGet x.times (-1) = .ok n := by
    simp only [Analysed.caches, makeCaches, Bind.bind] at hC
    obtain ⟨y, hy, -⟩ := SearchData.bind_ok hC
    have hx : x.notes ≠ [] := by
      intro e
      rw [e, List.zip_nil_right] at hy
      cases hy
    refine ⟨(toLex (x.notes.getLast hx).onset, toLex (x.notes.getLast hx).offset), ?_⟩
    simp only [Analysed.times, pyGet_map, Eval.pyGet_last _ hx]
    rfl
  obtain ⟨n, hn⟩ := hne
  refine ⟨last, cache, inputs, C, hlast, hcache, hin, hC, ?_⟩
  simp only [Joint.getHarmony, Bind.bind, hn, hids, h1, h2, Except.bind]
  have e1 : (jointOf N x cache last inputs C).rangeInput cache ids.1 ids.2 changes nonChanges =
      (N.withProbs (N.ctm inputs) C).rangeInput cache ids.1 ids.2 changes nonChanges := rfl
  rw [e1, hrs]
  simp only [hrows]
  rw [← h]
  simp only [Analysed.times, List.length_map]
  rfl

/-! ## The numbers of the measures -/

/-- The piece some measures later. -/
def shiftAnalysed (k : Int) (x : Analysed) : Analysed :=
  ⟨x.notes.map (shiftNote k), x.measures.map (shiftMeasure k), x.chords.map (List.map (shiftSpan k))⟩

theorem last_shift (k : Int) (x : Analysed) : (shiftAnalysed k x).last = x.last.map (later k) := by
  let f : Lex (Int × ℚ) → Lex (Int × ℚ) := fun a => toLex (later k (ofLex a))
  have hlt : ∀ a b, f a < f b ↔ a < b := later_lt
  have ho : ((shiftAnalysed k x).notes.map fun n => toLex n.offset) = (x.notes.map fun n => toLex n.offset).map f := by
    simp only [shiftAnalysed, List.map_map]; rfl
  have hc : ((shiftAnalysed k x).chords.map fun l : List ChordSpan => l.map fun c => toLex c.offset) =
      (x.chords.map fun l : List ChordSpan => l.map fun c => toLex c.offset).map (List.map f) := by
    simp only [shiftAnalysed]
    cases x.chords with
    | none => rfl
    | some l => simp only [Option.map_some, List.map_map]; rfl
  simp only [Analysed.last, ho, hc, lastOffset_map hlt]
  cases lastOffset (x.chords.map fun l : List ChordSpan => l.map fun c => toLex c.offset)
      (x.notes.map fun n => toLex n.offset) <;> rfl

theorem cache_shift (k : Int) (x : Analysed) : (shiftAnalysed k x).cache = x.cache := by
  simp only [Analysed.cache, last_shift]
  cases x.last with
  | error e => rfl
  | ok t =>
    simp only [Except.map, Bind.bind, Except.bind]
    have hn : (shiftAnalysed k x).notes.map NoteObj.onset = (x.notes.map NoteObj.onset).map (later k) := by
      simp only [shiftAnalysed, List.map_map]; rfl
    rw [hn]
    exact durationCache_shift x.measures _ t

/-- C161: the analysis does not depend on the numbers of the measures. -/
theorem C161_numbers (N : Analyser π κ ρ H P) (k : Int) (x : Analysed) (chord key : ForcedType) :
    N.analyse (shiftAnalysed k x) chord key = N.analyse x chord key := by
  have h1 := cache_shift k x
  have h2 : ∀ cache, (shiftAnalysed k x).caches cache = x.caches cache := by
    intro cache
    simp only [Analysed.caches, shiftAnalysed, List.zip_map_right, List.map_map]
    rfl
  have h3 : ∀ cache, ctmInputs (shiftAnalysed k x).notes cache = ctmInputs x.notes cache := by
    intro cache
    simp only [ctmInputs, shiftAnalysed]
    rw [List.zip_map_left, mapM_shift _ (Prod.map (shiftNote k) id) _ (fun y => rfl)]
    rfl
  have h4 : Analyser.window (κ := κ) (shiftAnalysed k x) = Analyser.window x := by
    funext r
    let f : Lex (Int × ℚ) → Lex (Int × ℚ) := fun a => toLex (later k (ofLex a))
    have hlt : ∀ a b, f a < f b ↔ a < b := later_lt
    have hle : ∀ a b, f a ≤ f b ↔ a ≤ b := later_le
    have ht : (shiftAnalysed k x).times = x.times.map fun n => (f n.1, f n.2) := by
      simp only [Analysed.times, shiftAnalysed, List.map_map]; rfl
    simp only [Analyser.window, ht]
    simp only [shiftAnalysed, pyGet_map]
    cases pyGet x.notes (r.1 : Int) with
    | error e => rfl
    | ok n =>
      simp only [Except.map, Bind.bind, Except.bind]
      have := rangeStart_map hlt hle (toLex n.onset) x.times
      rw [← this]
      rfl
  have h5 : ∀ ws cs, chordNoteInputs (shiftAnalysed k x).notes (shiftAnalysed k x).chords (shiftAnalysed k x).measures 2
      (some ws) (some cs) = chordNoteInputs x.notes x.chords x.measures 2 (some ws) (some cs) :=
    fun ws cs => C154_inputs x.notes x.chords x.measures 2 (some ws) (some cs)
  have h6 : (shiftAnalysed k x).notes.length = x.notes.length := by simp [shiftAnalysed]
  simp only [Analyser.analyse, h1, h2, h3, h4, h5, h6]

end

/-! ## A concrete case -/

/-- The search with the labels of `Verif.AnnotatedRows`. -/
def demoSearch (C : Caches) : SearchData Int Int Nat Nat :=
  { AnnotatedRows.exSearch with
    csm := fun s => (s.csmInput AnnotatedRows.exLabels .tpc C).map (AnnotatedRows.seenNets.csm s.node.csmHidden)
    ktm := fun s => (State.ktmInput AnnotatedRows.exLabels .tpc C s.node s.prev).map
      (AnnotatedRows.seenNets.ktm s.node.ktmHidden)
    ksm := fun s => (State.ksmInput AnnotatedRows.exLabels .tpc C s.node s.prev).bind fun rows =>
      ksmOutput AnnotatedRows.seenNets (runNet AnnotatedRows.seenNets.ksm s.node.ksmHidden rows) }

/-- Chords change at the second note if the last note is followed by the end after more than a whole note. -/
def demoAnalyser : Analyser ℚ Int Int Nat Nat where
  params := ⟨4, 1/4, 3/4, fun _ => 0, fun _ => -1, fun _ => -1, fun _ _ => [],
    fun p => if p.getD 0 0 < -5 then [1, 0, 2] else [0, 1, 2], fun _ => 1, AnnotatedRows.exSearch⟩
  ctm inputs := inputs.map fun _ => if inputs.flatten.sum ≤ 14 then 0 else 1
  ccm v := [-v.length, -20, -30]
  search := demoSearch

/-- C in the first measure, and E in the second one. -/
def demoNotes : List NoteObj := [⟨15, 5, (0, 0), 3, 1, (1, 0), 3, .tpc, 0⟩, ⟨19, 5, (1, 0), 3, 1, (2, 0), 3, .tpc, 0⟩]

def demoMeasures : List (Measure ℚ) := TablePiece.exMeasures.map (·.measure)

def noForces : ForcedType := ⟨[], [], [], 0⟩

def shown (r : Py (Option (State Int Nat Nat))) : Py (Option ((List (Option Int) × List Nat) × (List Int × List Nat))) :=
  r.map fun o => o.map fun s => (getChords s, getKeys s)

/-- Labels for the two notes whose last chord lasts until after the last note. -/
def longLabels : List ChordSpan := [⟨(0, 0), (1, 0), 1⟩, ⟨(1, 0), (2, 1/2), 3/2⟩]

theorem demo_none : shown (demoAnalyser.analyse ⟨demoNotes, demoMeasures, none⟩ noForces noForces) =
    .ok (some (([some 1], [0, 2]), [37], [0, 2])) := by decide +kernel

theorem demo_long : shown (demoAnalyser.analyse ⟨demoNotes, demoMeasures, some longLabels⟩ noForces noForces) =
    .ok (some (([some 0], [0, 2]), [36], [0, 2])) := by decide +kernel

/-- C161 fails for labels that end elsewhere: with the same networks, the same notes and the same measures, the chords
and the keys that are found differ if the piece has labels, and the last chord lasts until after the last note. -/
theorem C161_end_fails :
    ∃ (N : Analyser ℚ Int Int Nat Nat) (notes : List NoteObj) (T : List (Measure ℚ)) (labels : List ChordSpan)
      (s s' : State Int Nat Nat),
      N.analyse ⟨notes, T, none⟩ noForces noForces = .ok (some s) ∧
      N.analyse ⟨notes, T, some labels⟩ noForces noForces = .ok (some s') ∧
      getChords s ≠ getChords s' ∧ getKeys s ≠ getKeys s' := by
  have h1 := demo_none
  have h2 := demo_long
  generalize ha : demoAnalyser.analyse ⟨demoNotes, demoMeasures, none⟩ noForces noForces = a at h1
  generalize hb : demoAnalyser.analyse ⟨demoNotes, demoMeasures, some longLabels⟩ noForces noForces = b at h2
  cases a with
  | error e => cases h1
  | ok a =>
    cases b with
    | error e => cases h2
    | ok b =>
      cases a with
      | none => cases Except.ok.inj h1
      | some s =>
        cases b with
        | none => cases Except.ok.inj h2
        | some s' =>
          have h1 := Option.some.inj (Except.ok.inj h1)
          have h2 := Option.some.inj (Except.ok.inj h2)
          simp only [Prod.mk.injEq] at h1 h2
          refine ⟨_, _, _, _, s, s', ha, hb, ?_, ?_⟩
          · rw [h1.1, h2.1]; decide
          · rw [h1.2, h2.2]; decide

/-- The two notes end where one chord with both of them ends. -/
example : Ends demoNotes none (2, 0) ∧ Ends demoNotes (some [⟨(0, 0), (2, 0), 2⟩]) (2, 0) := by
  refine ⟨⟨⟨_, List.mem_cons_of_mem _ List.mem_cons_self, rfl⟩, ?_⟩, _, rfl, rfl⟩
  decide +kernel

/-- With that chord the analysis is found, and it is that without labels. -/
example : shown (demoAnalyser.analyse ⟨demoNotes, demoMeasures, some [⟨(0, 0), (2, 0), 2⟩]⟩ noForces noForces) =
    .ok (some (([some 1], [0, 2]), [37], [0, 2])) := by decide +kernel

/-- It is also that of the same notes seven measures later. -/
example : shown (demoAnalyser.analyse (shiftAnalysed 7 ⟨demoNotes, demoMeasures, none⟩) noForces noForces) =
    .ok (some (([some 1], [0, 2]), [37], [0, 2])) := by
  rw [C161_numbers]
  exact demo_none

end Verif.AnalysedPieces
