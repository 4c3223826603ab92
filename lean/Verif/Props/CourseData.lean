import Verif.CourseData
import Verif.Props.GridSearch
import Verif.Props.Checkpoints
import Verif.Props.Pitch

/-!
# C138: the course data
-/

namespace Verif.CourseData
open Verif.GridSearch Verif.Checkpoints

/-! ## Which files are visited -/

theorem headD_pySplit (a : Char) (s : Str) : (pySplit [a] s).headD [] = s.takeWhile fun c => c ≠ a := by
  induction s with
  | nil => rfl
  | cons c s ih =>
    rw [pySplit_char_cons]
    by_cases h : c = a
    · simp [h]
    · obtain ⟨w, ws, hw⟩ := splitSub_char a s
      have hw' : pySplit [a] s = w :: ws := hw
      rw [hw'] at ih
      simp only [h, if_false, hw'] 
      simp only [List.headD_cons] at ih
      simp [h, ih]

theorem mem_takeWhile {p : Char → Bool} {l : Str} {c : Char} (h : c ∈ l.takeWhile p) : p c = true :=
  List.all_eq_true.mp (List.all_takeWhile (p := p) (l := l)) c h

theorem strip_no_lead (s : Str) (h : ∀ c, s.head? = some c → isSpace c = false) :
    ∃ t, s = strip s ++ t ∧ ∀ c ∈ t, isSpace c = true := by
  have h1 : s.dropWhile isSpace = s := by
    cases s with
    | nil => rfl
    | cons c s => simp [h c rfl]
  unfold strip
  rw [h1]
  refine ⟨(s.reverse.takeWhile isSpace).reverse, ?_, ?_⟩
  · rw [← List.reverse_append, List.takeWhile_append_dropWhile, List.reverse_reverse]
  · intro c hc
    rw [List.mem_reverse] at hc
    exact mem_takeWhile hc

theorem strip_last (s : Str) (c : Char) (h : (strip s).getLast? = some c) : isSpace c = false := by
  unfold strip at h
  rw [List.getLast?_reverse] at h
  have := List.head?_dropWhile_not isSpace (s.dropWhile isSpace).reverse
  rw [h] at this
  simpa using this

theorem strip_head (s : Str) (c : Char) (h : (strip s).head? = some c) : isSpace c = false := by
  have h1 : strip s <+: s.dropWhile isSpace := by
    unfold strip
    have := List.dropWhile_suffix isSpace (l := (s.dropWhile isSpace).reverse)
    have := List.reverse_prefix.mpr this
    simpa using this
  obtain ⟨t, ht⟩ := h1
  have := List.head?_dropWhile_not isSpace s
  rw [← ht, List.head?_append, h] at this
  simpa using this

/-- A name without white space in front begins with its composer. -/
theorem composer_prefix (s : Str) (h : ∀ c, s.head? = some c → isSpace c = false) : composerOf s <+: s := by
  have h1 : ∀ c, (s.takeWhile fun c => c ≠ '-').head? = some c → isSpace c = false := by
    intro c hc
    cases s with
    | nil => simp at hc
    | cons d s =>
      rw [List.takeWhile_cons] at hc
      split at hc
      · exact h c hc
      · simp at hc
  obtain ⟨t, ht, _⟩ := strip_no_lead _ h1
  unfold composerOf
  rw [headD_pySplit]
  exact List.IsPrefix.trans ⟨t, ht.symm⟩ (List.takeWhile_prefix _)

theorem composer_dash (s : Str) : '-' ∉ composerOf s := by
  unfold composerOf
  rw [headD_pySplit]
  intro h
  have h1 : '-' ∈ s.takeWhile fun c => c ≠ '-' := by
    unfold strip at h
    rw [List.mem_reverse] at h
    exact (List.dropWhile_sublist _).subset (List.mem_reverse.mp ((List.dropWhile_sublist _).subset h))
  have := mem_takeWhile h1
  simp at this

/-- A composer with which a name begins is a first part of the composer of the name. -/
theorem prefix_composer (s t : Str) (h : ∀ c, t.head? = some c → isSpace c = false) (hp : composerOf s <+: t) :
    composerOf s <+: composerOf t := by
  have h1 : ∀ c, (t.takeWhile fun c => c ≠ '-').head? = some c → isSpace c = false := by
    intro c hc
    cases t with
    | nil => simp at hc
    | cons d t =>
      rw [List.takeWhile_cons] at hc
      split at hc
      · exact h c hc
      · simp at hc
  have h2 : composerOf s <+: t.takeWhile fun c => c ≠ '-' := by
    obtain ⟨u, hu⟩ := hp
    rw [← hu, List.takeWhile_append_of_pos]
    · exact List.prefix_append _ _
    · intro c hc
      have := composer_dash s
      simp only [ne_eq, decide_not, Bool.not_eq_eq_eq_not, Bool.not_true, decide_eq_false_iff_not]
      rintro rfl
      exact this hc
  obtain ⟨u, hu, hsp⟩ := strip_no_lead _ h1
  have h3 : composerOf t = strip (t.takeWhile fun c => c ≠ '-') := by
    unfold composerOf
    rw [headD_pySplit]
  rw [h3]
  rw [hu] at h2
  rcases List.prefix_or_prefix_of_prefix h2 (List.prefix_append _ u) with h4 | ⟨w, hw⟩
  · exact h4
  · by_cases hn : w = []
    · rw [← hw, hn, List.append_nil]
    · exfalso
      have h5 : (composerOf s).getLast? = some (w.getLast hn) := by
        rw [← hw, List.getLast?_append, List.getLast?_eq_some_getLast hn]; rfl
      have h6 := strip_last _ _ h5
      rw [← hw, List.prefix_append_right_inj] at h2
      have h7 := hsp _ (h2.subset (List.getLast_mem hn))
      rw [h6] at h7
      cases h7

theorem mem_composers {files : List CourseFile} {c : Str} :
    c ∈ composers files ↔ ∃ f ∈ files, composerOf f.corpus = c := by
  unfold composers
  rw [(sortTexts_perm _).mem_iff, List.mem_dedup, List.mem_map]

theorem composers_nodup (files : List CourseFile) : (composers files).Nodup := by
  unfold composers
  rw [(sortTexts_perm _).nodup_iff]
  exact List.nodup_dedup _

theorem mem_visits {files : List CourseFile} {v : Str × CourseFile} :
    v ∈ courseVisits files ↔ v.2 ∈ files ∧ v.1 <+: v.2.corpus ∧ ∃ f ∈ files, composerOf f.corpus = v.1 := by
  unfold courseVisits filesOfComposer
  simp only [List.mem_flatMap, List.mem_map, List.mem_filter, List.isPrefixOf_iff_prefix, mem_composers]
  constructor
  · rintro ⟨c, hc, f, ⟨hf, hp⟩, rfl⟩
    exact ⟨hf, hp, hc⟩
  · rintro ⟨h1, h2, h3⟩
    exact ⟨v.1, h3, v.2, ⟨h1, h2⟩, rfl⟩

/-- The elements with one of some keys, key by key. -/
theorem by_keys {α : Type} (key : α → Str) (l : List α) : ∀ cs : List Str, cs.Nodup →
    (cs.flatMap fun c => l.filter fun x => decide (key x = c)).Perm (l.filter fun x => decide (key x ∈ cs))
  | [], _ => by simp
  | c :: cs, h => by
    rw [List.nodup_cons] at h
    rw [List.flatMap_cons]
    refine ((List.Perm.append_left _ (by_keys key l cs h.2))).trans ?_
    have h1 := List.filter_append_perm (fun x => decide (key x = c)) (l.filter fun x => decide (key x ∈ c :: cs))
    refine (List.Perm.of_eq ?_).trans h1
    rw [List.filter_filter, List.filter_filter]
    congr 1
    · apply List.filter_congr
      intro x _
      by_cases hx : key x = c <;> simp [hx]
    · apply List.filter_congr
      intro x _
      by_cases hx : key x = c
      · simp [hx, h.1]
      · simp [hx]

/-- C138: if no name of a corpus begins with white space, and the composer of no corpus is a proper first part of that
of another one, then the loops visit each file once, under its own composer. -/
theorem C138_visits_partial (files : List CourseFile)
    (hsp : ∀ f ∈ files, ∀ c, f.corpus.head? = some c → isSpace c = false)
    (hpre : ∀ f ∈ files, ∀ g ∈ files, composerOf f.corpus <+: composerOf g.corpus →
      composerOf f.corpus = composerOf g.corpus) :
    ((courseVisits files).map Prod.snd).Perm files ∧ ∀ v ∈ courseVisits files, v.1 = composerOf v.2.corpus := by
  constructor
  · have h1 : (courseVisits files).map Prod.snd =
        (composers files).flatMap fun c => files.filter fun f => decide (composerOf f.corpus = c) := by
      unfold courseVisits filesOfComposer
      rw [List.map_flatMap, List.flatMap_def, List.flatMap_def]
      congr 1
      apply List.map_congr_left
      intro c hc
      obtain ⟨f, hf, rfl⟩ := mem_composers.mp hc
      rw [List.map_map, show (Prod.snd ∘ fun g : CourseFile => (composerOf f.corpus, g)) = id from rfl, List.map_id]
      apply List.filter_congr
      intro g hg
      rw [Bool.eq_iff_iff, List.isPrefixOf_iff_prefix, decide_eq_true_iff]
      constructor
      · intro h
        exact (hpre f hf g hg (prefix_composer _ _ (hsp g hg) h)).symm
      · intro h
        rw [← h]
        exact composer_prefix _ (hsp g hg)
    rw [h1]
    refine (by_keys _ _ _ (composers_nodup files)).trans (List.Perm.of_eq ?_)
    rw [List.filter_eq_self]
    intro f hf
    simpa using mem_composers.mpr ⟨f, hf, rfl⟩
  · intro v hv
    obtain ⟨h1, h2, f, hf, h3⟩ := mem_visits.mp hv
    rw [← h3] at h2 ⊢
    exact hpre f hf _ h1 (prefix_composer _ _ (hsp _ h1) h2)

/-- C138: where the composer of a corpus is a proper first part of another one, the files of the other one are visited
under both. -/
theorem C138_twice_fails (files : List CourseFile) (f g : CourseFile) (hf : f ∈ files) (hg : g ∈ files)
    (hsp : ∀ c, g.corpus.head? = some c → isSpace c = false)
    (hpre : composerOf f.corpus <+: composerOf g.corpus) (hne : composerOf f.corpus ≠ composerOf g.corpus) :
    ∃ v w, v ∈ courseVisits files ∧ w ∈ courseVisits files ∧ v.2 = g ∧ w.2 = g ∧ v.1 ≠ w.1 := by
  have h := composer_prefix g.corpus hsp
  exact ⟨(composerOf f.corpus, g), (composerOf g.corpus, g), mem_visits.mpr ⟨hg, hpre.trans h, f, hf, rfl⟩,
    mem_visits.mpr ⟨hg, h, g, hg, rfl⟩, rfl, rfl, hne⟩

/-- C138: a file whose corpus has a name with white space in front is never visited, unless a composer is empty. -/
theorem C138_space_fails (files : List CourseFile) (g : CourseFile) (c : Char) (rest : Str)
    (hg : g.corpus = c :: rest) (hc : isSpace c = true) (hne : ∀ f ∈ files, composerOf f.corpus ≠ []) :
    ∀ v ∈ courseVisits files, v.2 ≠ g := by
  rintro ⟨d, f⟩ hv rfl
  obtain ⟨_, h2, f', hf', h3⟩ := mem_visits.mp hv
  simp only at h2 h3
  rw [← h3, hg] at h2
  obtain ⟨t, ht⟩ := h2
  cases hcase : composerOf f'.corpus with
  | nil => exact hne f' hf' hcase
  | cons x xs =>
    rw [hcase] at ht
    have h4 := strip_head _ x (by rw [show strip _ = composerOf f'.corpus from rfl, hcase]; rfl)
    simp only [List.cons_append, List.cons.injEq] at ht
    rw [ht.1, hc] at h4
    cases h4

/-! ## What is written -/

theorem addSymbols (l : ModeLabels) (mode : KeyMode) (symbols : List Str) : l.add mode symbols = .error .typeError := by
  cases mode <;> rfl

theorem symbols_ok : ∀ keys : List Key, ∃ ss, keys.mapM keySymbol = .ok ss
  | [] => ⟨[], rfl⟩
  | k :: ks => by
    obtain ⟨ss, h⟩ := symbols_ok ks
    obtain ⟨d, hd, _⟩ := C10_tpc (k.localTonic - k.globalTonic) k.globalMode
    refine ⟨(d ++ [':'] ++ modeName k.localMode) :: ss, ?_⟩
    rw [List.mapM_cons, h]
    simp only [keySymbol, hd, Bind.bind, Except.bind]
    rfl

/-- No line of keys is ever finished. -/
theorem keyLine_error (labels : ModeLabels) (p : KeyedPiece) :
    keyLine labels p = .error (if p.keys = [] then .indexError else .typeError) := by
  obtain ⟨ss, h⟩ := symbols_ok p.keys
  unfold keyLine
  rw [h]
  cases hk : p.keys with
  | nil => rfl
  | cons k ks =>
    have h0 : pyGet (k :: ks) 0 = .ok k := by
      simp [pyGet]
    simp only [h0, Bind.bind, Except.bind, addSymbols]
    rfl

theorem coursePiece_error (composer : Str) (p : KeyedPiece) (st : CourseState) :
    coursePiece composer p st = .error (if p.keys = [] then .indexError else .typeError,
      { st.files with key := appendTo (csvName composer) [] st.files.key }) := by
  unfold coursePiece
  simp only [keyLine_error]

/-- The loops end at the first piece. -/
theorem courseLoop_eq (st : CourseState) : ∀ vs : List (Str × CourseFile),
    ((∀ v ∈ vs, ∀ p, v.2.piece ≠ .ok p) ∧ courseLoop vs st = .ok st) ∨
    ∃ v ∈ vs, ∃ p, v.2.piece = .ok p ∧ courseLoop vs st =
      .error (if p.keys = [] then .indexError else .typeError,
        { st.files with key := appendTo (csvName v.1) [] st.files.key })
  | [] => Or.inl ⟨by simp, rfl⟩
  | v :: vs => by
    cases hp : v.2.piece with
    | ok p =>
      refine Or.inr ⟨v, List.mem_cons_self, p, hp, ?_⟩
      unfold courseLoop courseStep
      rw [hp]
      simp only [coursePiece_error]
    | error e =>
      have h1 : courseLoop (v :: vs) st = courseLoop vs st := by
        rw [courseLoop]
        unfold courseStep
        rw [hp]
      rw [h1]
      rcases courseLoop_eq st vs with ⟨h2, h3⟩ | ⟨w, hw, p, h2, h3⟩
      · refine Or.inl ⟨?_, h3⟩
        intro w hw p
        rcases List.mem_cons.mp hw with rfl | hw
        · rw [hp]
          intro h
          cases h
        · exact h2 w hw p
      · exact Or.inr ⟨w, List.mem_cons_of_mem _ hw, p, h2, h3⟩

/-- C138: if any of the visited files gives a piece, then the script ends with an exception: there is one file, which is
empty, and the vocabularies are those which were there before. If all pieces have keys it is a `TypeError`. -/
theorem C138_lines_fails (files : List CourseFile) (old : TextFiles) (v : Str × CourseFile) (p : KeyedPiece)
    (hv : v ∈ courseVisits files) (hp : v.2.piece = .ok p) :
    ∃ e name, createCourseData files old = (⟨[(name, [])], [], old⟩, some e) ∧
      ((∀ f ∈ files, ∀ q, f.piece = .ok q → q.keys ≠ []) → e = .typeError) := by
  rcases courseLoop_eq ⟨⟨[], [], old⟩, ⟨[], []⟩, ⟨[], []⟩⟩ (courseVisits files) with ⟨h, _⟩ | ⟨w, hw, q, hq, h⟩
  · exact absurd hp (h v hv p)
  · refine ⟨_, csvName w.1, by unfold createCourseData; rw [h]; rfl, ?_⟩
    intro hk
    rw [if_neg (hk w.2 (mem_visits.mp hw).1 q hq)]

theorem lookup_writeText (name text n : Str) (fs : TextFiles) :
    (writeText name text fs).lookup n = if n = name then some text else fs.lookup n := by
  unfold writeText
  induction fs with
  | nil =>
    by_cases h : n = name
    · simp [h]
    · simp [h, List.lookup]
  | cons f fs ih =>
    by_cases hf : f.1 = name
    · rw [List.filter_cons_of_neg (by simpa using hf), ih]
      by_cases h : n = name
      · rw [if_pos h, if_pos h]
      · rw [if_neg h, if_neg h, List.lookup_cons]
        have : (n == f.1) = false := by simpa [hf] using h
        rw [this]
    · rw [List.filter_cons_of_pos (by simpa using hf), List.cons_append, List.lookup_cons, List.lookup_cons, ih]
      by_cases h : n = name
      · have : (n == f.1) = false := by
          rw [beq_eq_false_iff_ne, h]
          exact fun e => hf e.symm
        rw [this, if_pos h]
      · rw [if_neg h, if_neg h]

/-- C138: the script comes to its end just if no visited file gives a piece; then no lines are written, and the six
vocabularies are empty. -/
theorem C138_end_partial (files : List CourseFile) (old : TextFiles) :
    ((createCourseData files old).2 = none ↔ ∀ v ∈ courseVisits files, ∀ p, v.2.piece ≠ .ok p) ∧
    ((createCourseData files old).2 = none → (createCourseData files old).1.key = [] ∧
      (createCourseData files old).1.chord = [] ∧
      ∀ what ∈ ["chord".toList, "key".toList], ∀ kind ∈ ["_vocab_major.txt".toList, "_vocab_minor.txt".toList,
        "_vocab_full.txt".toList], (createCourseData files old).1.vocab.lookup (what ++ kind) = some []) := by
  rcases courseLoop_eq ⟨⟨[], [], old⟩, ⟨[], []⟩, ⟨[], []⟩⟩ (courseVisits files) with ⟨h1, h⟩ | ⟨w, hw, q, hq, h⟩
  · unfold createCourseData
    rw [h]
    refine ⟨⟨fun _ => h1, fun _ => rfl⟩, fun _ => ⟨rfl, rfl, ?_⟩⟩
    intro what hw kind hk
    simp only [List.mem_cons, List.not_mem_nil, or_false] at hw hk
    simp only [writeVocabs, lookup_writeText]
    rcases hw with rfl | rfl <;> rcases hk with rfl | rfl | rfl <;> rfl
  · unfold createCourseData
    rw [h]
    exact ⟨⟨fun h => (by cases h), fun h => absurd hq (h w hw q)⟩, fun h => (by cases h)⟩

/-- A piece in two keys with two chords. -/
def twoKeys : KeyedPiece where
  chords := [⟨2, 2, 2, .major, .major, 0, 3, 3, 1, .tpc⟩, ⟨3, 3, 3, .major, .major, 0, 3, 3, 1, .tpc⟩]
  keyChanges := [0, 1]
  keys := [⟨2, 2, 2, .major, .major, .major, .tpc⟩, ⟨3, 3, 2, .major, .major, .major, .tpc⟩]

/-- Files of three corpora; one of them cannot be read. -/
def threeFiles : List CourseFile :=
  [⟨"WFBach - Sonatas".toList, .ok twoKeys⟩, ⟨"Bach - Suites".toList, .error .keyError⟩,
   ⟨"Bach - Solo".toList, .ok twoKeys⟩]

example : (courseVisits threeFiles).map (fun v => (v.1, v.2.corpus)) =
    [("Bach".toList, "Bach - Suites".toList), ("Bach".toList, "Bach - Solo".toList),
     ("WFBach".toList, "WFBach - Sonatas".toList)] := by decide +kernel

example : createCourseData threeFiles [("old".toList, [])] =
    (⟨[("Bach.csv".toList, [])], [], [("old".toList, [])]⟩, some .typeError) := by decide +kernel

/-- The line that is never written. -/
example : twoKeys.keys.mapM keySymbol = .ok ["I:MAJOR".toList, "V:MAJOR".toList] := by decide +kernel

example : (courseVisits (⟨"Bachmann - Songs".toList, .ok twoKeys⟩ :: threeFiles)).map (fun v => (v.1, v.2.corpus)) =
    [("Bach".toList, "Bachmann - Songs".toList), ("Bach".toList, "Bach - Suites".toList),
     ("Bach".toList, "Bach - Solo".toList), ("Bachmann".toList, "Bachmann - Songs".toList),
     ("WFBach".toList, "WFBach - Sonatas".toList)] := by decide +kernel

example : courseVisits [⟨" Bach".toList, .ok twoKeys⟩] = [] ∧
    (createCourseData [⟨" Bach".toList, .ok twoKeys⟩] []).2 = none := by
  constructor <;> rfl

end Verif.CourseData
