import Verif.TrainScript
import Verif.Props.Checkpoints
import Verif.Props.H5Files
import Verif.Props.KwargsJson
import Verif.Props.ChordTraining

/-!
# C142: what is trained is what is loaded
-/

namespace Verif.TrainScript

open Verif Verif.Checkpoints Verif.GridSearch

/-! ### Directories and versions -/

theorem joinPath_eq (a b : Str) (h : a ≠ []) (h' : a.getLast? ≠ some '/') : joinPath a b = a ++ '/' :: b := by
  rw [joinPath, if_neg]
  rintro (e | e)
  · exact h e
  · exact h' e

theorem last_join (a b : Str) (hb : b ≠ []) : (a ++ '/' :: b).getLast? = b.getLast? := by
  rw [List.getLast?_append_of_ne_nil _ (by simp), List.getLast?_cons]
  cases h : b.getLast? with
  | none => exact absurd (List.getLast?_eq_none_iff.1 h) hb
  | some x => rfl

/-- A directory as it is usually given: not empty, and without a final slash. -/
def IsDir (d : Str) : Prop := d ≠ [] ∧ d.getLast? ≠ some '/'

theorem IsDir.join {a b : Str} (hb : IsDir b) : IsDir (a ++ '/' :: b) :=
  ⟨by simp, by rw [last_join _ _ hb.1]; exact hb.2⟩

theorem isDir_of {b : Str} (h : b ≠ []) (h' : '/' ∉ b) : IsDir b :=
  ⟨h, fun e => h' (List.mem_of_getLast? e)⟩

theorem slash_version (v : Nat) : '/' ∉ intStr (v : Int) := by
  intro h
  rcases intStr_chars _ _ h with h | h <;> revert h <;> decide

theorem trainedPath_eq {dir model : Str} (hd : IsDir dir) (hm : model ≠ []) (hm' : '/' ∉ model) (v : Nat) (f : Str) :
    trainedPath dir model v f = ckptPath dir model (intStr v) f := by
  have h1 := (isDir_of hm hm').join (a := dir)
  have h2 := (isDir_of (b := chars% "lightning_logs") (by decide) (by decide)).join (a := dir ++ '/' :: model)
  have h3 := (isDir_of (b := (chars% "version_") ++ intStr (v : Int)) (by simp) (by
    rw [List.mem_append]
    rintro (h | h)
    · revert h; decide
    · exact slash_version v h)).join (a := dir ++ '/' :: model ++ '/' :: (chars% "lightning_logs"))
  have h4 := (isDir_of (b := chars% "checkpoints") (by decide) (by decide)).join
    (a := dir ++ '/' :: model ++ '/' :: (chars% "lightning_logs") ++ '/' :: ((chars% "version_") ++ intStr (v : Int)))
  rw [trainedPath, joinPath_eq _ _ hd.1 hd.2, joinPath_eq _ _ h1.1 h1.2, joinPath_eq _ _ h2.1 h2.2,
    joinPath_eq _ _ h3.1 h3.2, joinPath_eq _ _ h4.1 h4.2]
  simp [ckptPath]

/-- How many of the runs are runs of a model. -/
def countRuns (runs : List TrainRun) (model : Str) : Nat := (runs.filter fun r => r.model = model).length

theorem foldr_max_append (l : List Nat) (n : Nat) : (l ++ [n]).foldr max 0 = max (l.foldr max 0) n := by
  induction l with
  | nil => simp
  | cons a l ih => simp only [List.cons_append, List.foldr_cons, ih, Nat.max_assoc]

theorem trainAll_append (runs : List TrainRun) (r : TrainRun) :
    trainAll (runs ++ [r]) = trainStep (trainAll runs) r := by
  simp [trainAll, List.foldl_append]

theorem next_all (runs : List TrainRun) (model : Str) : nextVersion (trainAll runs) model = countRuns runs model := by
  induction runs using List.reverseRecOn with
  | nil => rfl
  | append_singleton l r ih =>
    rw [trainAll_append]
    by_cases h : r.model = model
    · subst h
      have : nextVersion (trainStep (trainAll l) r) r.model =
          max (nextVersion (trainAll l) r.model) (nextVersion (trainAll l) r.model + 1) := by
        conv_lhs => rw [nextVersion, trainStep, List.filter_append, List.map_append]
        simp only [decide_true, List.filter_cons_of_pos, List.filter_nil, List.map_cons, List.map_nil]
        rw [foldr_max_append]
        rfl
      rw [this, ih]
      simp [countRuns, List.filter_append]
    · have : nextVersion (trainStep (trainAll l) r) model = nextVersion (trainAll l) model := by
        simp [nextVersion, trainStep, List.filter_append, h]
      rw [this, ih]
      simp [countRuns, List.filter_append, h]

theorem mem_all (runs : List TrainRun) (r : TrainRun) (v : Nat) : (r, v) ∈ trainAll runs ↔
    ∃ before after, runs = before ++ r :: after ∧ v = countRuns before r.model := by
  induction runs using List.reverseRecOn generalizing r v with
  | nil => simp [trainAll]
  | append_singleton l x ih =>
    rw [trainAll_append, trainStep, List.mem_append, ih, List.mem_singleton, Prod.mk.injEq, next_all]
    constructor
    · rintro (⟨b, a, rfl, h⟩ | ⟨rfl, rfl⟩)
      · exact ⟨b, a ++ [x], by simp, h⟩
      · exact ⟨l, [], rfl, rfl⟩
    · rintro ⟨b, a, e, h⟩
      rcases List.eq_nil_or_concat a with rfl | ⟨a', y, rfl⟩
      · obtain ⟨rfl, e'⟩ := List.append_inj' e rfl
        cases e'
        exact Or.inr ⟨rfl, h⟩
      · have e2 : l ++ [x] = (b ++ r :: a') ++ [y] := by rw [e]; simp
        obtain ⟨rfl, -⟩ := List.append_inj' e2 rfl
        exact Or.inl ⟨b, a', rfl, h⟩

/-- The runs of models of the search, which write files that are taken for checkpoints. -/
def Usual (runs : List TrainRun) : Prop := ∀ r ∈ runs, r.model ∈ modelNames ∧ ∀ f ∈ r.files, CkptName f

theorem name_ne {name : Str} (h : name ∈ modelNames) : name ≠ [] := by
  rintro rfl
  revert h
  decide

theorem ckptPath_inj {dir a a' t t' f f' : Str} (ha : '/' ∉ a) (ha' : '/' ∉ a') (ht : '/' ∉ t) (ht' : '/' ∉ t')
    (hf : '/' ∉ f) (hf' : '/' ∉ f') (h : ckptPath dir a t f = ckptPath dir a' t' f') : a = a' ∧ t = t' ∧ f = f' := by
  have e := congrArg (pySplit ['/']) h
  rw [split_ckptPath _ _ _ _ ha ht hf, split_ckptPath _ _ _ _ ha' ht' hf', List.append_cancel_left_eq] at e
  simp only [List.cons.injEq, List.append_cancel_left_eq, and_true, true_and] at e
  exact e

/-- The checkpoints of a model in the directory are those of its runs; each has the number of the run. -/
theorem mem_paths {dir name : Str} (hd : IsDir dir) (hn : name ∈ modelNames) {runs : List TrainRun} (hu : Usual runs)
    (t f : Str) (ht : '/' ∉ t) (hf : '/' ∉ f) :
    ckptPath dir name t f ∈ trainedPaths dir (trainAll runs) ↔
      ∃ before r after, runs = before ++ r :: after ∧ r.model = name ∧ f ∈ r.files ∧
        t = intStr (countRuns before name : Nat) := by
  simp only [trainedPaths, List.mem_flatMap, List.mem_map]
  constructor
  · rintro ⟨⟨r, v⟩, hx, g, hg, e⟩
    obtain ⟨b, a, rfl, hv⟩ := (mem_all _ _ _).1 hx
    obtain ⟨hr, hfs⟩ := hu r (by simp)
    simp only at hg e hv
    rw [trainedPath_eq hd (name_ne hr) (names_ok hr).1] at e
    obtain ⟨e1, e2, e3⟩ := ckptPath_inj (names_ok hr).1 (names_ok hn).1 (slash_version v) ht (hfs g hg).1 hf e
    subst e1 e3
    exact ⟨b, r, a, rfl, rfl, hg, by rw [← e2, hv]⟩
  · rintro ⟨b, r, a, rfl, rfl, hg, rfl⟩
    exact ⟨(r, countRuns b r.model), (mem_all _ _ _).2 ⟨b, a, rfl, rfl⟩, f, hg,
      trainedPath_eq hd (name_ne hn) (names_ok hn).1 _ _⟩

theorem countRuns_append (a b : List TrainRun) (m : Str) : countRuns (a ++ b) m = countRuns a m + countRuns b m := by
  simp [countRuns]

/-- Two runs of the same model in the same list with the same number are the same run. -/
theorem same_run {b r a b' r' a' : _} {name : Str} (h : b ++ r :: a = b' ++ r' :: a') (hr : r.model = name)
    (hr' : r'.model = name) (hc : countRuns b name = countRuns b' name) : b = b' ∧ r = r' := by
  induction b generalizing b' with
  | nil =>
    cases b' with
    | nil => cases h; exact ⟨rfl, rfl⟩
    | cons x b' =>
      cases h
      simp [countRuns, hr] at hc
  | cons x b ih =>
    cases b' with
    | nil =>
      cases h
      simp [countRuns, hr'] at hc
    | cons y b' =>
      simp only [List.cons_append, List.cons.injEq] at h
      obtain ⟨rfl, h⟩ := h
      have : countRuns b name = countRuns b' name := by
        rw [show x :: b = [x] ++ b from rfl, show x :: b' = [x] ++ b' from rfl, countRuns_append,
          countRuns_append] at hc
        omega
      obtain ⟨rfl, rfl⟩ := ih h this
      exact ⟨rfl, rfl⟩

theorem digit_length : ∀ v : Fin 10, (intStr ((v : Nat) : Int)).length = 1 := by decide +kernel

/-- C142: the model of the last of at most ten runs is the one which is loaded by default. -/
theorem C142_latest_partial (dir : Str) (hd : IsDir dir) (hp : Plain dir) (name : Str) (hn : name ∈ modelNames)
    (before after : List TrainRun) (r : TrainRun) (hu : Usual (before ++ r :: after)) (hr : r.model = name)
    (hf : r.files ≠ []) (ha : countRuns after name = 0) (hc : countRuns before name < 10) :
    ∃ f ∈ r.files, findCheckpoint (trainedPaths dir (trainAll (before ++ r :: after))) dir name (defaultPath name, none) =
      some (trainedPath dir name (countRuns before name) f) := by
  have hlt : ∀ b x a, before ++ r :: after = b ++ x :: a → x.model = name → countRuns b name ≤ countRuns before name := by
    intro b x a e hx
    have := congrArg (countRuns · name) e
    simp only [countRuns_append, show r :: after = [r] ++ after from rfl, show x :: a = [x] ++ a from rfl, ha] at this
    have h1 : countRuns [r] name = 1 := by simp [countRuns, hr]
    have h2 : countRuns [x] name = 1 := by simp [countRuns, hx]
    omega
  obtain ⟨h1, h2⟩ := C126_latest_partial (trainedPaths dir (trainAll (before ++ r :: after))) dir hp name hn 1 (by
    intro t f hf ht hm
    obtain ⟨b, x, a, e, hx, -, rfl⟩ := (mem_paths hd hn hu t f ht hf.1).1 hm
    exact ⟨_, rfl, digit_length ⟨countRuns b name, by have := hlt b x a e hx; omega⟩⟩)
  obtain ⟨f, hfr⟩ := List.exists_mem_of_ne_nil _ hf
  have hfc : ∀ f ∈ r.files, CkptName f := (hu r (by simp)).2
  have hmem := (mem_paths hd hn hu _ f (slash_version _) (hfc f hfr).1).2 ⟨before, r, after, rfl, hr, hfr, rfl⟩
  cases hc' : findCheckpoint (trainedPaths dir (trainAll (before ++ r :: after))) dir name (defaultPath name, none) with
  | none => exact absurd hmem (h1.1 hc' _ f (hfc f hfr))
  | some p =>
    obtain ⟨hin, v, g, hg, rfl, hmax⟩ := h2 p hc'
    obtain ⟨b, x, a, e, hx, hgx, ev⟩ := (mem_paths hd hn hu _ g (slash_version _) hg.1).1 hin
    have ev' := Verif.H5Files.intStr_inj ev
    have hv : v = countRuns b name := by exact_mod_cast ev'
    have h3 := hmax _ f (hfc f hfr) hmem
    have h4 := hlt b x a e hx
    obtain ⟨rfl, rfl⟩ := same_run e hr hx (by omega)
    refine ⟨g, hgx, ?_⟩
    rw [trainedPath_eq hd (name_ne hn) (names_ok hn).1, hv]

/-- C142 fails from the eleventh run on: once the tenth has written a checkpoint, none of the next eighty is loaded by
default. -/
theorem C142_latest_fails (dir : Str) (hd : IsDir dir) (hp : Plain dir) (name : Str) (hn : name ∈ modelNames)
    (before between after : List TrainRun) (tenth r : TrainRun)
    (hu : Usual (before ++ tenth :: between ++ r :: after)) (ht : tenth.model = name) (hf : tenth.files ≠ [])
    (h9 : countRuns before name = 9) (hb : countRuns between name < 80) :
    ∃ p, findCheckpoint (trainedPaths dir (trainAll (before ++ tenth :: between ++ r :: after))) dir name
        (defaultPath name, none) = some p ∧
      ∀ f, p ≠ trainedPath dir name (countRuns (before ++ tenth :: between) name) f := by
  obtain ⟨f, hfr⟩ := List.exists_mem_of_ne_nil _ hf
  have hfc := (hu tenth (by simp)).2 f hfr
  have hmem := (mem_paths hd hn hu _ f (slash_version _) hfc.1).2
    ⟨before, tenth, between ++ r :: after, by simp, ht, hfr, rfl⟩
  rw [h9] at hmem
  obtain ⟨p, e, h⟩ := C126_latest_fails _ dir hp name hn f hfc hmem
  refine ⟨p, e, fun g => ?_⟩
  rw [trainedPath_eq hd (name_ne hn) (names_ok hn).1]
  have h1 : countRuns [tenth] name = 1 := by simp [countRuns, ht]
  have hc : countRuns (before ++ tenth :: between) name = 10 + countRuns between name := by
    rw [show tenth :: between = [tenth] ++ between from rfl, countRuns_append, countRuns_append]
    omega
  exact h _ g (by omega) (by omega)

/-- C142: with the number of a run as version, a checkpoint of that run is loaded, however many there are; the script
exits if the run has written none, or if there are not so many runs. -/
theorem C142_version (dir : Str) (hd : IsDir dir) (hp : Plain dir) (name : Str) (hn : name ∈ modelNames)
    (runs : List TrainRun) (hu : Usual runs) (path : Str) (v : Nat) :
    (∀ p, findCheckpoint (trainedPaths dir (trainAll runs)) dir name (path, some (v : Int)) = some p →
      ∃ before r after f, runs = before ++ r :: after ∧ r.model = name ∧ countRuns before name = v ∧ f ∈ r.files ∧
        p = trainedPath dir name v f) ∧
    ∀ before r after, runs = before ++ r :: after → r.model = name → countRuns before name = v → r.files ≠ [] →
      ∃ f ∈ r.files, findCheckpoint (trainedPaths dir (trainAll runs)) dir name (path, some (v : Int)) =
        some (trainedPath dir name v f) := by
  obtain ⟨h1, h2⟩ := C126_version (trainedPaths dir (trainAll runs)) dir hp name hn path v
  have key : ∀ p, findCheckpoint (trainedPaths dir (trainAll runs)) dir name (path, some (v : Int)) = some p →
      ∃ before r after f, runs = before ++ r :: after ∧ r.model = name ∧ countRuns before name = v ∧ f ∈ r.files ∧
        p = trainedPath dir name v f := by
    intro p hpp
    obtain ⟨hin, f, hf, rfl⟩ := h2 p hpp
    obtain ⟨b, x, a, e, hx, hfx, ev⟩ := (mem_paths hd hn hu _ f (slash_version _) hf.1).1 hin
    have ev' := Verif.H5Files.intStr_inj ev
    exact ⟨b, x, a, f, e, hx, by exact_mod_cast ev'.symm, hfx,
      (trainedPath_eq hd (name_ne hn) (names_ok hn).1 _ _).symm⟩
  refine ⟨key, ?_⟩
  rintro before r after rfl hr rfl hf
  obtain ⟨f, hfr⟩ := List.exists_mem_of_ne_nil _ hf
  have hfc : CkptName f := (hu r (by simp)).2 f hfr
  have hmem := (mem_paths hd hn hu _ f (slash_version _) hfc.1).2 ⟨before, r, after, rfl, hr, hfr, rfl⟩
  cases hc : findCheckpoint (trainedPaths dir (trainAll (before ++ r :: after))) dir name
      (path, some (countRuns before name : Int)) with
  | none => exact absurd hmem (h1.1 hc f hfc)
  | some p =>
    obtain ⟨b, x, a, g, e, hx, hcx, hg, rfl⟩ := key p hc
    obtain ⟨rfl, rfl⟩ := same_run e hr hx hcx.symm
    exact ⟨g, hg, rfl⟩

/-- C142: the initial chord prior is written where it is read by default. -/
theorem C142_icm (dir : Str) (hd : IsDir dir) :
    pyReplace (chars% "`--checkpoint`") dir defaultIcm = icmTrainedPath dir := by
  have h1 := (isDir_of (b := chars% "icm") (by decide) (by decide)).join (a := dir)
  rw [icmTrainedPath, joinPath_eq _ _ hd.1 hd.2, joinPath_eq _ _ h1.1 h1.2]
  have e : defaultIcm = [] ++ ('`' :: (chars% "--checkpoint`")) ++ (chars% "/icm/initial_chord_prior.json") := rfl
  rw [pyReplace, e, pySplit_cons _ _ _ _ (by simp), pySplit_word _ _ _ (by decide)]
  simp [pyJoin]

/-! ### The class -/

theorem out_ne (t : PitchType) : chordOneHotLength t true true false noReduction ≠ MAX_RELATIVE_TPC - MIN_RELATIVE_TPC := by
  cases t <;> decide +kernel

/-- C142: a checkpoint of a chord sequence model is loaded as the class of which it was trained, with its
hyperparameters and weights. -/
theorem C142_class {ω : Type} (saved : Str → CsmModel × ω) (path : Str) (classes : List Str)
    (hc : modelClasses.lookup (chars% "csm") = some classes) :
    loadFirst (fun cls p => csmLoad (saved p) cls) path classes = .ok (saved path) := by
  have hc' : classes = [TrainClass.csm.className, TrainClass.csmPitch.className] := by
    have : modelClasses.lookup (chars% "csm") = some [TrainClass.csm.className, TrainClass.csmPitch.className] := by
      decide +kernel
    rw [this] at hc
    exact (Option.some.inj hc).symm
  subst hc'
  rcases h : saved path with ⟨m, w⟩
  cases m with
  | simple s red inv => simp [loadFirst, h, csmLoad, csmRebuild]
  | pitchBased s =>
    have hne : (CsmModel.simple s noReduction true).shapes ≠ (CsmModel.pitchBased s).shapes := by
      intro e
      have e' := congrArg List.getLast? e
      simp only [CsmModel.shapes, CsmModel.sizes] at e'
      simp only [List.getLast?_append, List.getLast?_cons_cons, List.getLast?_singleton, Option.some_or,
        Option.some.injEq, Prod.mk.injEq, true_and, List.cons.injEq, and_true] at e'
      exact out_ne _ e'
    have hcls : ¬ TrainClass.csmPitch.className = TrainClass.csm.className := by decide
    simp [loadFirst, h, csmLoad, csmRebuild, hne, hcls, CsmModel.sizes]

/-- The order of the classes matters: the other way round, a model with only one type of chords and without inversions
would be loaded as a pitch based one. -/
theorem C142_order_needed : ∃ m : CsmModel, (∀ s, m ≠ .pitchBased s) ∧
    ∃ s, loadFirst (fun cls _ => csmLoad (m, ()) cls) [] [TrainClass.csmPitch.className, TrainClass.csm.className] =
      .ok (.pitchBased s, ()) := by
  refine ⟨.simple ⟨.tpc, .tpc, .tpc, noReduction, true, 64, 1, 128, 256⟩ (fun _ => .major) false, by simp, ?_⟩
  refine ⟨⟨.tpc, .tpc, .tpc, noReduction, true, 64, 1, 128, 256⟩, ?_⟩
  have hs : (CsmModel.pitchBased ⟨.tpc, .tpc, .tpc, noReduction, true, 64, 1, 128, 256⟩).shapes =
      (CsmModel.simple ⟨.tpc, .tpc, .tpc, noReduction, true, 64, 1, 128, 256⟩ (fun _ => .major) false).shapes := by
    decide +kernel
  have hcls : ¬ TrainClass.csmPitch.className = TrainClass.csm.className := by decide
  simp [loadFirst, csmLoad, csmRebuild, hcls, CsmModel.sizes, hs]

/-- C142: what a run trains is of one of the classes with which its model is loaded. -/
theorem C142_trained (model : Str) (pitchBased : Bool) (c : TrainClass) (h : trainClass model pitchBased = some c) :
    model ∈ modelNames ∧ ∃ classes, modelClasses.lookup model = some classes ∧ c.className ∈ classes := by
  simp only [trainClass] at h
  split at h
  · subst_vars; cases h; exact ⟨by decide, _, rfl, by decide⟩
  split at h
  · subst_vars; cases h; exact ⟨by decide, _, rfl, by decide⟩
  split at h
  · subst_vars; cases pitchBased <;> cases h <;> exact ⟨by decide, _, rfl, by decide⟩
  split at h
  · subst_vars; cases h; exact ⟨by decide, _, rfl, by decide⟩
  split at h
  · subst_vars; cases h; exact ⟨by decide, _, rfl, by decide⟩
  · cases h

/-- C142: the chord sequence model of the last of at most ten runs is loaded by default, of the class as which it was
trained, with its hyperparameters and weights. -/
theorem C142_csm_partial {ω : Type} (saved : Str → CsmModel × ω) (dir : Str) (hd : IsDir dir) (hp : Plain dir)
    (before after : List TrainRun) (r : TrainRun) (hu : Usual (before ++ r :: after)) (hr : r.model = (chars% "csm"))
    (hf : r.files ≠ []) (ha : countRuns after (chars% "csm") = 0) (hc : countRuns before (chars% "csm") < 10)
    (classes : List Str) (hcl : modelClasses.lookup (chars% "csm") = some classes) :
    ∃ f ∈ r.files,
      loadModel (trainedPaths dir (trainAll (before ++ r :: after))) (fun cls p => csmLoad (saved p) cls) dir
        ((chars% "csm", classes), (defaultPath (chars% "csm"), none)) =
        .ok (chars% "csm", saved (trainedPath dir (chars% "csm") (countRuns before (chars% "csm")) f)) := by
  obtain ⟨f, hfr, e⟩ := C142_latest_partial dir hd hp (chars% "csm") (by decide) before after r hu hr hf ha hc
  refine ⟨f, hfr, ?_⟩
  simp only [loadModel, e, C142_class saved _ classes hcl]

/-! ### The arguments -/

theorem bindNamed_ok (params : List Str) (bound kws args : List (Str × TrainValue)) :
    bindNamed params bound kws = .ok args ↔
      args = bound ++ kws ∧ (kws.map Prod.fst).Nodup ∧
        ∀ k ∈ kws.map Prod.fst, k ∈ params ∧ k ∉ bound.map Prod.fst := by
  induction kws generalizing bound with
  | nil => simp [bindNamed, eq_comm]
  | cons x rest ih =>
    obtain ⟨k, v⟩ := x
    simp only [bindNamed]
    by_cases h1 : k ∈ bound.map Prod.fst
    · rw [if_pos h1]
      simp only [reduceCtorEq, false_iff]
      rintro ⟨-, -, h⟩
      exact (h k (by simp)).2 h1
    · rw [if_neg h1]
      by_cases h2 : k ∈ params
      · rw [if_pos h2, ih]
        simp only [List.map_append, List.map_cons, List.map_nil, List.mem_append, List.nodup_cons,
          List.append_assoc, List.singleton_append, List.mem_cons, List.not_mem_nil, or_false, not_or]
        constructor
        · rintro ⟨e, hn, h⟩
          refine ⟨e, ⟨fun hk => (h k hk).2.2 rfl, hn⟩, ?_⟩
          rintro k' (rfl | hk')
          · exact ⟨h2, h1⟩
          · exact ⟨(h k' hk').1, (h k' hk').2.1⟩
        · rintro ⟨e, ⟨hk, hn⟩, h⟩
          exact ⟨e, hn, fun k' hk' => ⟨(h k' (Or.inr hk')).1, (h k' (Or.inr hk')).2, by rintro rfl; exact hk hk'⟩⟩
      · rw [if_neg h2]
        simp only [reduceCtorEq, false_iff]
        rintro ⟨-, -, h⟩
        exact h2 (h k (by simp)).1

/-- The parameters of a class which a file of arguments may give. -/
def Free (c : TrainClass) (k : Str) : Prop :=
  match c with
  | .ccm => k ∈ [chars% "reduction", chars% "use_inversions", chars% "transposition_range", chars% "lstm_layers",
      chars% "lstm_hidden_dim", chars% "hidden_dim", chars% "dropout"]
  | .ctm => k ∈ [chars% "embed_dim", chars% "lstm_layers", chars% "lstm_hidden_dim", chars% "hidden_dim", chars% "dropout"]
  | .csm => k ∈ [chars% "input_reduction", chars% "output_reduction", chars% "use_input_inversions",
      chars% "use_output_inversions", chars% "embed_dim", chars% "lstm_layers", chars% "lstm_hidden_dim",
      chars% "hidden_dim", chars% "dropout"]
  | .csmPitch => k ∈ [chars% "input_reduction", chars% "use_input_inversions", chars% "embed_dim", chars% "lstm_layers",
      chars% "lstm_hidden_dim", chars% "hidden_dim", chars% "dropout"]
  | .ktm | .ksm => k ∈ [chars% "embed_dim", chars% "lstm_layers", chars% "lstm_hidden_dim", chars% "hidden_dim",
      chars% "dropout", chars% "use_inversions", chars% "reduction"]

theorem free_iff (c : TrainClass) (k : Str) :
    (k ∈ c.params ∧ k ∉ (c.params.zip c.positional).map Prod.fst ∧ k ≠ (chars% "learning_rate")) ↔ Free c k := by
  constructor
  · rintro ⟨h1, h2, h3⟩
    cases c <;> simp only [TrainClass.params, TrainClass.positional, List.zip_cons_cons, List.zip_nil_right,
      List.map_cons, List.map_nil, List.mem_cons, List.not_mem_nil, or_false, not_or, Free] at h1 h2 ⊢ <;> tauto
  · intro h
    cases c <;> simp only [Free, List.mem_cons, List.not_mem_nil, or_false] at h <;>
      rcases h with rfl | rfl | rfl | rfl | rfl | rfl | rfl | rfl | rfl <;> decide +kernel

theorem loadKwargFields_keys (l : List (Str × KwJson)) (kw : List (Str × KwValue)) (h : loadKwargFields l = .ok kw) :
    kw.map Prod.fst = l.map Prod.fst := by
  induction l generalizing kw with
  | nil => cases h; rfl
  | cons x rest ih =>
    obtain ⟨k, v⟩ := x
    simp only [loadKwargFields, Bind.bind, Except.bind] at h
    cases hx : loadKwarg k v with
    | error e => rw [hx] at h; cases h
    | ok y =>
      rw [hx] at h
      cases hr : loadKwargFields rest with
      | error e => rw [hr] at h; cases h
      | ok ys =>
        rw [hr] at h
        cases h
        simp [ih ys hr]

theorem trainArgs_ok (c : TrainClass) (lr : ℚ) (file : Option (List (Str × KwJson))) (args : List (Str × TrainValue)) :
    trainArgs c lr file = .ok args ↔ ∃ kw, loadKwargs file = .ok kw ∧ (kw.map Prod.fst).Nodup ∧
      (∀ k ∈ kw.map Prod.fst, Free c k) ∧
      args = c.params.zip c.positional ++ (chars% "learning_rate", .rate lr) :: kw.map fun x => (x.1, .kwarg x.2) := by
  simp only [trainArgs, Bind.bind, Except.bind]
  cases hk : loadKwargs file with
  | error e => simp
  | ok kw =>
    have hm : (kw.map fun x => ((x.1, TrainValue.kwarg x.2) : Str × TrainValue)).map Prod.fst = kw.map Prod.fst := by
      simp [List.map_map, Function.comp_def]
    have hlr : (chars% "learning_rate") ∈ c.params ∧
        (chars% "learning_rate") ∉ (c.params.zip c.positional).map Prod.fst := by
      cases c <;> decide +kernel
    simp only [bindNamed_ok, Except.ok.injEq, exists_eq_left', List.map_cons, hm, List.nodup_cons, List.mem_cons]
    constructor
    · rintro ⟨e, ⟨h1, h2⟩, h3⟩
      refine ⟨h2, fun k hk => (free_iff c k).1 ⟨(h3 k (Or.inr hk)).1, (h3 k (Or.inr hk)).2, ?_⟩, e⟩
      rintro rfl
      exact h1 hk
    · rintro ⟨h2, h3, e⟩
      refine ⟨e, ⟨fun h => ((free_iff c _).2 (h3 _ h)).2.2 rfl, h2⟩, ?_⟩
      rintro k (rfl | hk)
      · exact hlr
      · exact ⟨((free_iff c k).2 (h3 k hk)).1, ((free_iff c k).2 (h3 k hk)).2.1⟩

/-- C142: the arguments of a file are accepted exactly if they can be read and each is a parameter of the class which
the script does not set itself; then each has its value, and the rate of learning is the one of the command line. -/
theorem C142_kwargs (c : TrainClass) (lr : ℚ) (fields : List (Str × KwJson)) (hn : (fields.map Prod.fst).Nodup) :
    ((∃ args, trainArgs c lr (some fields) = .ok args) ↔
      (∃ kw, loadKwargs (some fields) = .ok kw) ∧ ∀ k ∈ fields.map Prod.fst, Free c k) ∧
    ∀ args kw, trainArgs c lr (some fields) = .ok args → loadKwargs (some fields) = .ok kw →
      (args.map Prod.fst).Nodup ∧ (∀ k v, (k, v) ∈ kw → (k, .kwarg v) ∈ args) ∧
      (chars% "learning_rate", .rate lr) ∈ args := by
  refine ⟨?_, ?_⟩
  · constructor
    · rintro ⟨args, h⟩
      obtain ⟨kw, h1, h2, h3, -⟩ := (trainArgs_ok _ _ _ _).1 h
      exact ⟨⟨kw, h1⟩, by rw [← loadKwargFields_keys fields kw h1]; exact h3⟩
    · rintro ⟨⟨kw, h1⟩, h2⟩
      rw [← loadKwargFields_keys fields kw h1] at h2 hn
      exact ⟨_, (trainArgs_ok _ _ _ _).2 ⟨kw, h1, hn, h2, rfl⟩⟩
  · intro args kw h hk
    obtain ⟨kw', h1, h2, h3, rfl⟩ := (trainArgs_ok _ _ _ _).1 h
    rw [h1] at hk
    cases hk
    refine ⟨?_, fun k v hkv => ?_, by simp⟩
    · have hm : (kw.map fun x => ((x.1, TrainValue.kwarg x.2) : Str × TrainValue)).map Prod.fst = kw.map Prod.fst := by
        simp [List.map_map, Function.comp_def]
      have hlr : (chars% "learning_rate") ∉ (c.params.zip c.positional).map Prod.fst := by
        cases c <;> decide +kernel
      have hnd : ((c.params.zip c.positional).map Prod.fst).Nodup := by
        cases c <;> decide +kernel
      rw [List.map_append, List.map_cons, hm, List.nodup_append]
      refine ⟨hnd, List.nodup_cons.2 ⟨fun hc => ((free_iff c _).2 (h3 _ hc)).2.2 rfl, h2⟩, ?_⟩
      intro a ha b hb
      rcases List.mem_cons.1 hb with rfl | hb
      · rintro rfl; exact hlr ha
      · rintro rfl; exact ((free_iff c _).2 (h3 _ hb)).2.1 ha
    · exact List.mem_append_right _ (List.mem_cons_of_mem _ (List.mem_map.2 ⟨(k, v), hkv, rfl⟩))

/-- C142: a rate of learning in the file is a `TypeError` for every model. -/
theorem C142_rate_fails (c : TrainClass) (lr : ℚ) (kw : List (Str × KwValue)) (fields : List (Str × KwJson))
    (hk : loadKwargs (some fields) = .ok kw) (h : (chars% "learning_rate") ∈ fields.map Prod.fst) :
    trainArgs c lr (some fields) = .error .typeError := by
  have h' : ∀ e, trainArgs c lr (some fields) = .error e → e = .typeError := by
    intro e
    simp only [trainArgs, Bind.bind, Except.bind, hk]
    generalize c.params.zip c.positional = b
    generalize (chars% "learning_rate", TrainValue.rate lr) ::
      kw.map (fun x => ((x.1, TrainValue.kwarg x.2) : Str × TrainValue)) = l
    induction l generalizing b with
    | nil => intro h; cases h
    | cons x l ih =>
      obtain ⟨k, v⟩ := x
      simp only [bindNamed]
      split
      · intro h; cases h; rfl
      split
      · exact ih _
      · intro h; cases h; rfl
  cases ht : trainArgs c lr (some fields) with
  | error e => rw [h' e ht]
  | ok args =>
    obtain ⟨kw', h1, -, h3, -⟩ := (trainArgs_ok _ _ _ _).1 ht
    have hf := h3 (chars% "learning_rate") (by rw [loadKwargFields_keys fields kw' h1]; exact h)
    exact absurd rfl ((free_iff c _).2 hf).2.2

/-- C142: a file for the pitch based chord sequence model is also one for the other one. -/
theorem C142_pitch_kwargs (lr : ℚ) (file : Option (List (Str × KwJson))) (args : List (Str × TrainValue))
    (h : trainArgs .csmPitch lr file = .ok args) : trainArgs .csm lr file = .ok args := by
  obtain ⟨kw, h1, h2, h3, e⟩ := (trainArgs_ok _ _ _ _).1 h
  refine (trainArgs_ok _ _ _ _).2 ⟨kw, h1, h2, fun k hk => ?_, e⟩
  have := h3 k hk
  simp only [Free, List.mem_cons, List.not_mem_nil, or_false] at this ⊢
  tauto

/-- What train.py itself says about each parameter (train.py:154-205). -/
def fixedArgs : TrainClass → List (Str × TrainValue)
  | .ccm => [(chars% "input_type", .piece .score), (chars% "input_pitch", .pitch .tpc), (chars% "output_pitch", .pitch .tpc)]
  | .ctm => [(chars% "input_type", .piece .score), (chars% "pitch_type", .pitch .tpc)]
  | .csm | .csmPitch | .ksm => [(chars% "input_chord_pitch_type", .pitch .tpc), (chars% "input_key_pitch_type", .pitch .tpc),
      (chars% "output_pitch_type", .pitch .tpc)]
  | .ktm => [(chars% "input_chord_pitch_type", .pitch .tpc), (chars% "input_key_pitch_type", .pitch .tpc)]

/-- C142: whatever the file of arguments says, scores with spelled pitches are trained on, with the given learning
rate. -/
theorem C142_fixed (c : TrainClass) (lr : ℚ) (file : Option (List (Str × KwJson))) (args : List (Str × TrainValue))
    (h : trainArgs c lr file = .ok args) :
    (∀ x ∈ fixedArgs c, args.lookup x.1 = some x.2) ∧ args.lookup (chars% "learning_rate") = some (.rate lr) := by
  obtain ⟨kw, -, -, -, rfl⟩ := (trainArgs_ok c lr file args).1 h
  have e : c.params.zip c.positional = fixedArgs c := by cases c <;> decide +kernel
  have e' : (fixedArgs c).lookup (chars% "learning_rate") = none := by cases c <;> decide +kernel
  have e'' : ∀ x ∈ fixedArgs c, (fixedArgs c).lookup x.1 = some x.2 := by cases c <;> decide +kernel
  have ha : ∀ (l m : List (Str × TrainValue)) k, (l ++ m).lookup k = ((l.lookup k).or (m.lookup k)) :=
    fun _ _ _ => List.lookup_append
  rw [e]
  refine ⟨fun x hx => ?_, ?_⟩
  · rw [ha, e'' x hx]
    rfl
  · rw [ha, e', List.lookup_cons]
    simp

/-- C142: the input of a chord sequence model with the pitch types of its data is as wide as the rows it is trained
on. -/
theorem C142_width {pieces : List KeyedPiece} {z : CsmSizes} (hu : ChordTraining.Uniform pieces z.chordType z.keyType)
    {d : ChordSeqData} (hd : chordSeqData pieces = .ok d) (s : CsmSettings) (is : List Nat) (out : List CsmRow)
    (h : d.batch s is = .ok out) : ∀ r ∈ out, ∀ row ∈ r.inputs, row.length = z.inputDim := by
  obtain ⟨-, -, hl, L, -, ht⟩ := (ChordTraining.C129_batch hu hd s is).1 out h
  intro r hr row hrow
  obtain ⟨k, hk⟩ := List.mem_iff_getElem?.1 hr
  have hk' : k < is.length := hl ▸ (List.getElem?_eq_some_iff.1 hk).1
  obtain ⟨x, r', -, hr', t⟩ := ht k is[k] (List.getElem?_eq_getElem hk')
  rw [hk] at hr'
  have := Option.some.inj hr'
  subst this
  exact t.width row hrow

/-! ### Examples -/

/-- Three runs of two models; the one which is stopped early uses up a version. -/
example : trainedPaths (chars% "checkpoints") (trainAll [⟨chars% "csm", [chars% "a.ckpt"]⟩, ⟨chars% "ktm", [chars% "b.ckpt"]⟩,
    ⟨chars% "csm", []⟩, ⟨chars% "csm", [chars% "c.ckpt"]⟩]) =
    ["checkpoints/csm/lightning_logs/version_0/checkpoints/a.ckpt".toList,
      "checkpoints/ktm/lightning_logs/version_0/checkpoints/b.ckpt".toList,
      "checkpoints/csm/lightning_logs/version_2/checkpoints/c.ckpt".toList] := by
  decide +kernel

/-- Eleven runs of one model: the tenth is loaded. -/
example : findCheckpoint (trainedPaths (chars% "c") (trainAll (List.replicate 11 ⟨chars% "csm", [chars% "a.ckpt"]⟩)))
    (chars% "c") (chars% "csm") (defaultPath (chars% "csm"), none) =
      some "c/csm/lightning_logs/version_9/checkpoints/a.ckpt".toList := by
  decide +kernel

/-- A file with two arguments, and one with an argument which only the other chord sequence model has. -/
example : trainArgs .csmPitch (1 / 1000) (some [(chars% "embed_dim", .other 32), (chars% "dropout", .other 1)]) =
    .ok [(chars% "input_chord_pitch_type", .pitch .tpc), (chars% "input_key_pitch_type", .pitch .tpc),
      (chars% "output_pitch_type", .pitch .tpc), (chars% "learning_rate", .rate (1 / 1000)),
      (chars% "embed_dim", .kwarg (.other 32)), (chars% "dropout", .kwarg (.other 1))] ∧
    trainArgs .csmPitch (1 / 1000) (some [(chars% "use_output_inversions", .other 0)]) = .error .typeError ∧
    (∃ args, trainArgs .csm (1 / 1000) (some [(chars% "use_output_inversions", .other 0)]) = .ok args) :=
  ⟨by decide +kernel, by decide +kernel, _, rfl⟩

/-- The rows of a batch of the two pieces of ChordTraining.lean fit a model of MIDI pitches. -/
example : (chordSeqData ChordTraining.demo >>= fun d => d.batch ChordTraining.demoSettings [1, 0]).map
    (fun l => l.all fun r => r.inputs.all fun row => row.length ==
      (CsmSizes.mk .midi .midi .midi triadReduction true 64 1 64 64).inputDim) = .ok true := by
  decide +kernel

/-- The hypotheses of `C142_latest_partial` hold. -/
example : IsDir (chars% "checkpoints") ∧ Plain (chars% "checkpoints") ∧
    Usual [⟨chars% "csm", [chars% "epoch=3.ckpt"]⟩, ⟨chars% "ktm", []⟩] := by
  refine ⟨⟨by decide, by decide⟩, ⟨by decide, by decide, by decide⟩, ?_⟩
  intro r hr
  simp only [List.mem_cons, List.not_mem_nil, or_false] at hr
  rcases hr with rfl | rfl
  · refine ⟨by decide, fun f hf => ?_⟩
    simp only [List.mem_singleton] at hf
    subst hf
    exact ⟨by decide, by decide, chars% "epoch=3", rfl⟩
  · exact ⟨by decide, by simp⟩

end Verif.TrainScript
