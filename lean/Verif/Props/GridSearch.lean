import Verif.GridSearch
import Verif.Props.OutputFiles
import Mathlib.Data.List.Forall2
import Mathlib.Data.List.Nodup
import Mathlib.Tactic.IntervalCases

/-!
# C113: the commands of a grid search
-/

namespace Verif.GridSearch

open Verif

/-! ### Splitting at a single character -/

theorem splitSub_char (a : Char) (s : Str) : ∃ w ws, splitSub [a] 0 s = w :: ws := by
  cases s with
  | nil => exact ⟨_, _, rfl⟩
  | cons c s =>
    rw [splitSub]
    split
    · exact ⟨_, _, rfl⟩
    · split <;> exact ⟨_, _, rfl⟩

theorem pySplit_char_cons (a c : Char) (s : Str) :
    pySplit [a] (c :: s) = if c = a then [] :: pySplit [a] s
      else match pySplit [a] s with
        | [] => [[c]]
        | w :: ws => (c :: w) :: ws := by
  simp only [pySplit]
  rw [splitSub]
  by_cases h : c = a
  · subst h; simp [List.isPrefixOf]
  · have : a ≠ c := fun e => h e.symm
    simp only [List.isPrefixOf, beq_iff_eq, this, h, Bool.and_true, if_false]
    rfl

/-- The components of two texts with the separator between them. -/
theorem pySplit_char_append (a : Char) (u v : Str) :
    pySplit [a] (u ++ a :: v) = pySplit [a] u ++ pySplit [a] v := by
  induction u with
  | nil => rw [List.nil_append, pySplit_char_cons, if_pos rfl]; rfl
  | cons c u ih =>
    rw [List.cons_append, pySplit_char_cons, pySplit_char_cons, ih]
    obtain ⟨w, ws, h⟩ := splitSub_char a u
    have h' : pySplit [a] u = w :: ws := h
    split
    · simp
    · rw [h']; rfl

/-- Joining what was split. -/
theorem pyJoin_pySplit (a : Char) (s : Str) : pyJoin [a] (pySplit [a] s) = s := by
  induction s with
  | nil => rfl
  | cons c s ih =>
    rw [pySplit_char_cons]
    obtain ⟨w, ws, h⟩ := splitSub_char a s
    have h' : pySplit [a] s = w :: ws := h
    rw [h'] at ih ⊢
    split
    · rename_i hc
      simp [pyJoin, ih, hc]
    · cases ws with
      | nil => simpa [pyJoin] using ih
      | cons v vs => simp only [pyJoin, List.cons_append, List.append_assoc] at ih ⊢; rw [ih]

/-! ### Reading the options -/

/-- Words which are read as the given attributes, whatever follows. -/
def Parses (words : List Str) (opts : List (Dest × Str)) : Prop :=
  ∀ rest, parseOptions (words ++ rest) = (parseOptions rest).map (opts ++ ·)

theorem parses_nil : Parses [] [] := by
  intro rest; cases h : parseOptions rest <;> simp [h]

theorem parses_append {w₁ w₂ o₁ o₂} (h₁ : Parses w₁ o₁) (h₂ : Parses w₂ o₂) : Parses (w₁ ++ w₂) (o₁ ++ o₂) := by
  intro rest
  rw [List.append_assoc, h₁, h₂]
  cases parseOptions rest <;> simp

theorem parses_value (w : Str) (d : Dest) (v : Str) (h : testOptions.lookup w = some (d, true))
    (hv : isValue v = true) : Parses [w, v] [(d, v)] := by
  intro rest
  simp [parseOptions, h, hv]

theorem parses_flag (w : Str) (d : Dest) (h : testOptions.lookup w = some (d, false)) : Parses [w] [(d, [])] := by
  intro rest
  simp [parseOptions, h]

theorem parses_if {c : Prop} [Decidable c] {w o} (h : c → Parses w o) :
    Parses (if c then w else []) (if c then o else []) := by
  split
  · exact h ‹_›
  · exact parses_nil

theorem lastOf_append (d : Dest) (l m : List (Dest × Str)) : lastOf d (l ++ m) = (lastOf d m).or (lastOf d l) := by
  induction l with
  | nil => simp [lastOf]
  | cons p l ih => simp [lastOf, ih, Option.or_assoc]

theorem lastOf_if (d : Dest) (c : Prop) [Decidable c] (l : List (Dest × Str)) :
    lastOf d (if c then l else []) = if c then lastOf d l else none := by
  split <;> rfl

/-! ### Texts that can be printed -/

/-- A text without characters that mean something to the shell, which does not look like an option. -/
def Text (w : Str) : Prop := w ≠ [] ∧ (∀ c ∈ w, isPlain c = true) ∧ w.head? ≠ some '-'

theorem Text.isValue {w : Str} (h : Text w) : isValue w = true := by
  obtain ⟨_, _, h⟩ := h
  unfold Verif.isValue
  split
  · simp at h
  · rfl

theorem intStr_isValue (i : Int) : isValue (intStr i) = true := by
  unfold isValue
  split
  · rename_i s h
    rw [intStr_eq] at h
    split at h
    · simp only [List.cons.injEq, true_and] at h
      subst h
      simp only [List.all_eq_true]
      exact fun c hc => digit_toDigits _ c hc
    · obtain ⟨c, t, hc, hd⟩ := toDigits_head i.natAbs
      rw [hc] at h
      simp only [List.cons.injEq] at h
      rw [h.1] at hd
      exact absurd hd (by decide)
  · rfl

theorem isPlain_digit (c : Char) (h : c.isDigit = true ∨ c = '-') : isPlain c = true := by
  rcases h with h | rfl
  · simp [isPlain, Char.isAlphanum, h]
  · decide

/-- A word that can be printed: not empty and without special characters. -/
def Word (w : Str) : Prop := w ≠ [] ∧ ∀ c ∈ w, isPlain c = true

theorem Text.word {w : Str} (h : Text w) : Word w := ⟨h.1, h.2.1⟩

theorem intStr_word (i : Int) : Word (intStr i) :=
  ⟨intStr_ne_nil i, fun c hc => isPlain_digit c (intStr_chars i c hc)⟩

theorem word_append {u v : Str} (hu : Word u) (hv : Word v) : Word (u ++ v) := by
  refine ⟨by simp [hu.1], fun c hc => ?_⟩
  rcases List.mem_append.1 hc with h | h
  · exact hu.2 c h
  · exact hv.2 c h

theorem mem_pyJoin (sep : Str) (ws : List Str) (c : Char) (h : c ∈ pyJoin sep ws) : c ∈ sep ∨ ∃ w ∈ ws, c ∈ w := by
  induction ws with
  | nil => simp [pyJoin] at h
  | cons w ws ih =>
    cases ws with
    | nil => exact .inr ⟨w, by simp, by simpa [pyJoin] using h⟩
    | cons v vs =>
      rw [pyJoin, List.mem_append, List.mem_append] at h
      · rcases h with (h | h) | h
        · exact .inr ⟨w, by simp, h⟩
        · exact .inl h
        · rcases ih h with h | ⟨x, hx, hc⟩
          · exact .inl h
          · exact .inr ⟨x, List.mem_cons_of_mem _ hx, hc⟩
      · simp

/-- The shell takes a line of words apart again. -/
theorem shellWords_join (ws : List Str) (hne : ws ≠ []) (h : ∀ w ∈ ws, Word w) :
    shellWords (pyJoin [' '] ws) = some ws := by
  have hall : (pyJoin [' '] ws).all (fun c => isPlain c || c == ' ') = true := by
    rw [List.all_eq_true]
    intro c hc
    rcases mem_pyJoin _ _ _ hc with h' | ⟨w, hw, hc⟩
    · simp only [List.mem_singleton] at h'; simp [h']
    · simp [(h w hw).2 c hc]
  rw [shellWords, if_pos hall, pySplit_join ' ' [] ws _ hne]
  · congr 1
    rw [List.filter_eq_self]
    exact fun w hw => decide_eq_true (h w hw).1
  · intro w hw hc
    exact absurd ((h w hw).2 _ hc) (by decide)

/-! ### The arguments of a grid search -/

/-- Arguments which can be printed. Checkpoints are the defaults or texts; a value of a hyperparameter is a text
without `_` whose parts between `/` are neither empty nor `.`, as the texts of numbers and fractions are. -/
structure Printable (a : GridArgs) : Prop where
  h5Dir : Text a.h5Dir
  icmJson : a.icmJson = defaultIcm ∨ Text a.icmJson
  checkpoint : Text a.checkpoint
  input : Text a.input
  output : Text a.output
  models : a.models.length = 5
  model : ∀ (i : Nat) (m : Str × Option Int) (n : Str), a.models[i]? = some m → modelNames[i]? = some n →
    m.2 = none → m.1 = defaultPath n ∨ Text m.1
  values : a.values.length = 12
  value : ∀ l ∈ a.values, ∀ v ∈ l, Text v

/-- What `test.py` should see for a combination of values: the hyperparameters are the values, the checkpoints are
looked for at the same places, everything else is as given to the grid search, and the log is `test.log`. -/
structure Same (a : GridArgs) (values : List Str) (t : TestArgs) : Prop where
  values : t.values = values
  threads : t.threads = a.threads
  seed : t.seed = a.seed
  h5Dir : t.h5Dir = a.h5Dir
  icmJson : t.icmJson = a.icmJson
  checkpoint : t.checkpoint = a.checkpoint
  xml : t.xml = a.xml
  test : t.test = a.test
  input : t.input = a.input
  log : t.log = some (chars% "test.log")
  models : t.models.length = a.models.length
  model : ∀ (i : Nat) (m m' : Str × Option Int) (n : Str), a.models[i]? = some m → t.models[i]? = some m' →
    modelNames[i]? = some n → checkpointGlob t.checkpoint n m' = checkpointGlob a.checkpoint n m ∧ m'.2 = m.2
  others : t.defaults = false ∧ t.fhDefaults = false ∧ t.verbose = false ∧ t.noH5 = false ∧ t.forces = none ∧
    t.average = none ∧ t.id = none

/-- The attributes of a model. -/
def modelOpts (i : Nat) (n : Str) (m : Str × Option Int) : List (Dest × Str) :=
  match m.2 with
  | some v => [(.version i, intStr v)]
  | none => if m.1 ≠ defaultPath n then [(.model i, m.1)] else []

theorem parses_model (i : Nat) (n : Str) (m : Str × Option Int) (hn : modelNames[i]? = some n)
    (hm : m.2 = none → m.1 = defaultPath n ∨ Text m.1) : Parses (modelTokens n m) (modelOpts i n m) := by
  have h1 : testOptions.lookup (chars% "--" ++ n) = some (.model i, true) ∧
      testOptions.lookup (chars% "--" ++ n ++ chars% "-version") = some (.version i, true) := by
    have hi : i < 5 := (List.getElem?_eq_some_iff.1 hn).1
    interval_cases i <;>
      simp only [modelNames, List.getElem?_cons_zero, List.getElem?_cons_succ, Option.some.injEq] at hn <;>
      subst hn <;> decide +kernel
  obtain ⟨p, v⟩ := m
  cases v with
  | some v => exact parses_value _ _ _ h1.2 (intStr_isValue v)
  | none =>
    refine parses_if fun hp => parses_value _ _ _ h1.1 ?_
    rcases hm rfl with h | h
    · exact absurd h hp
    · exact h.isValue

/-- The attributes which do not change. -/
def staticOpts (a : GridArgs) : List (Dest × Str) :=
  (match a.threads with
    | some t => [(.threads, intStr t)]
    | none => []) ++
  (if a.seed ≠ 0 then [(.seed, intStr a.seed)] else []) ++
  (if a.h5Dir ≠ chars% "h5_data" then [(.h5, a.h5Dir)] else []) ++
  (if a.icmJson ≠ defaultIcm then [(.icm, a.icmJson)] else []) ++
  (if a.checkpoint ≠ chars% "checkpoints" then [(.checkpoint, a.checkpoint)] else []) ++
  (if a.xml then [(.xml, [])] else []) ++
  (if a.test then [(.test, [])] else []) ++
  (if a.input ≠ chars% "corpus_data" then [(.input, a.input)] else [])

theorem parses_models (a : GridArgs) (h : Printable a) :
    Parses ((modelNames.zip a.models).flatMap fun p => modelTokens p.1 p.2)
      ((modelNames.zip a.models).zipIdx.flatMap fun p => modelOpts p.2 p.1.1 p.1.2) := by
  have key : ∀ (l : List (Str × Str × Option Int)) (k : Nat),
      (∀ (i : Nat) (p : Str × Str × Option Int), l[i]? = some p →
        modelNames[k + i]? = some p.1 ∧ (p.2.2 = none → p.2.1 = defaultPath p.1 ∨ Text p.2.1)) →
      Parses (l.flatMap fun p => modelTokens p.1 p.2) ((l.zipIdx k).flatMap fun p => modelOpts p.2 p.1.1 p.1.2) := by
    intro l
    induction l with
    | nil => exact fun _ _ => parses_nil
    | cons p l ih =>
      intro k hl
      rw [List.flatMap_cons, List.zipIdx_cons, List.flatMap_cons]
      have h0 := hl 0 p rfl
      refine parses_append (parses_model k p.1 p.2 h0.1 h0.2) (ih (k + 1) fun i q hq => ?_)
      have := hl (i + 1) q (by simpa using hq)
      rwa [show k + 1 + i = k + (i + 1) by omega]
  refine key _ 0 fun i p hp => ?_
  rw [List.getElem?_zip_eq_some] at hp
  rw [Nat.zero_add]
  exact ⟨hp.1, h.model i p.2 p.1 hp.2 hp.1⟩

theorem parses_static (a : GridArgs) (h : Printable a) :
    Parses (staticArgs a) (staticOpts a ++ (modelNames.zip a.models).zipIdx.flatMap fun p => modelOpts p.2 p.1.1 p.1.2) := by
  unfold staticArgs staticOpts
  refine parses_append ?_ (parses_models a h)
  refine parses_append (parses_append (parses_append (parses_append (parses_append (parses_append (parses_append
    ?_ ?_) ?_) ?_) ?_) ?_) ?_) ?_
  · cases a.threads with
    | none => exact parses_nil
    | some t => exact parses_value _ _ _ (by decide +kernel) (intStr_isValue t)
  · exact parses_if fun _ => parses_value _ _ _ (by decide +kernel) (intStr_isValue _)
  · exact parses_if fun _ => parses_value _ _ _ (by decide +kernel) h.h5Dir.isValue
  · exact parses_if fun hi => parses_value _ _ _ (by decide +kernel) (h.icmJson.resolve_left hi).isValue
  · exact parses_if fun _ => parses_value _ _ _ (by decide +kernel) h.checkpoint.isValue
  · exact parses_if fun _ => parses_flag _ _ (by decide +kernel)
  · exact parses_if fun _ => parses_flag _ _ (by decide +kernel)
  · exact parses_if fun _ => parses_value _ _ _ (by decide +kernel) h.input.isValue

/-- The attributes of the hyperparameters. -/
def hyperOpts (values : List Str) : List (Dest × Str) := values.zipIdx.map fun p => (.hyper p.2, p.1)

theorem parses_hyper (values : List Str) (hl : values.length = 12) (hv : ∀ v ∈ values, isValue v = true) :
    Parses ((hyperNames.zip values).flatMap fun p => [chars% "--" ++ dashed p.1, p.2]) (hyperOpts values) := by
  have key : ∀ (ns vs : List Str) (k : Nat), ns.length = vs.length →
      (∀ (i : Nat) (n : Str), ns[i]? = some n →
        testOptions.lookup (chars% "--" ++ dashed n) = some (.hyper (k + i), true)) →
      (∀ v ∈ vs, isValue v = true) →
      Parses ((ns.zip vs).flatMap fun p => [chars% "--" ++ dashed p.1, p.2])
        ((vs.zipIdx k).map fun p => (Dest.hyper p.2, p.1)) := by
    intro ns
    induction ns with
    | nil =>
      intro vs k hl _ _
      have : vs = [] := List.length_eq_zero_iff.1 (by simpa using hl.symm)
      subst this
      exact parses_nil
    | cons n ns ih =>
      intro vs k hl hn hv
      cases vs with
      | nil => simp at hl
      | cons v vs =>
        simp only [List.zip_cons_cons, List.flatMap_cons, List.zipIdx_cons, List.map_cons]
        refine parses_append (o₁ := [(Dest.hyper k, v)]) (parses_value _ _ _ (hn 0 n rfl) (hv v (by simp)))
          (ih vs (k + 1) (by simpa using hl) (fun i m hm => ?_) fun x hx => hv x (List.mem_cons_of_mem _ hx))
        rw [show k + 1 + i = k + (i + 1) by omega]
        exact hn (i + 1) m (by simpa using hm)
  refine key hyperNames values 0 (by rw [hl]; rfl) (fun i n hn => ?_) hv
  have hi : i < 12 := (List.getElem?_eq_some_iff.1 hn).1
  interval_cases i <;>
    simp only [hyperNames, List.getElem?_cons_zero, List.getElem?_cons_succ, Option.some.injEq] at hn <;>
    subst hn <;> decide +kernel

theorem lastOf_hyper (values : List Str) (d : Dest) :
    lastOf d (hyperOpts values) = match d with
      | .hyper i => values[i]?
      | _ => none := by
  have key : ∀ (vs : List Str) (k : Nat), lastOf d ((vs.zipIdx k).map fun p => (Dest.hyper p.2, p.1)) =
      match d with
      | .hyper i => if k ≤ i then vs[i - k]? else none
      | _ => none := by
    intro vs
    induction vs with
    | nil => intro k; cases d <;> simp [lastOf]
    | cons v vs ih =>
      intro k
      rw [List.zipIdx_cons, List.map_cons, lastOf, ih]
      cases d <;> simp only [Option.none_or, reduceCtorEq, if_false, Dest.hyper.injEq]
      rename_i i
      by_cases h : k = i
      · subst h
        have : ¬ k + 1 ≤ k := by omega
        simp [this]
      · by_cases h' : k ≤ i
        · have h1 : k + 1 ≤ i := by omega
          have h2 : i - k = (i - (k + 1)) + 1 := by omega
          rw [if_neg h, if_pos h1, if_pos h', h2]
          simp
        · have h1 : ¬ k + 1 ≤ i := by omega
          rw [if_neg h, if_neg h1, if_neg h']
          rfl
  have := key values 0
  rw [hyperOpts, this]
  cases d <;> simp

theorem lastOf_modelOpts (d : Dest) (i : Nat) (n : Str) (m : Str × Option Int) :
    lastOf d (modelOpts i n m) = match d with
      | .version j => if i = j then m.2.map intStr else none
      | .model j => if i = j ∧ m.2 = none ∧ m.1 ≠ defaultPath n then some m.1 else none
      | _ => none := by
  obtain ⟨p, v⟩ := m
  cases v with
  | some v => cases d <;> simp [modelOpts, lastOf]
  | none =>
    simp only [modelOpts]
    rw [lastOf_if]
    cases d <;> simp [lastOf]
    rename_i j
    by_cases h : i = j <;> by_cases h' : p = defaultPath n <;> simp [h, h']

/-- The attributes of the models. -/
def modelsOpts (a : GridArgs) : List (Dest × Str) :=
  (modelNames.zip a.models).zipIdx.flatMap fun p => modelOpts p.2 p.1.1 p.1.2

theorem lastOf_models (a : GridArgs) (d : Dest) :
    lastOf d (modelsOpts a) = match d with
      | .version i => ((modelNames.zip a.models)[i]?).bind fun p => p.2.2.map intStr
      | .model i => ((modelNames.zip a.models)[i]?).bind fun p =>
        if p.2.2 = none ∧ p.2.1 ≠ defaultPath p.1 then some p.2.1 else none
      | _ => none := by
  have key : ∀ (l : List (Str × Str × Option Int)) (k : Nat),
      lastOf d ((l.zipIdx k).flatMap fun p => modelOpts p.2 p.1.1 p.1.2) =
      match d with
      | .version i => if k ≤ i then (l[i - k]?).bind fun p => p.2.2.map intStr else none
      | .model i => if k ≤ i then (l[i - k]?).bind fun p =>
        if p.2.2 = none ∧ p.2.1 ≠ defaultPath p.1 then some p.2.1 else none else none
      | _ => none := by
    intro l
    induction l with
    | nil => intro k; cases d <;> simp [lastOf]
    | cons v vs ih =>
      intro k
      rw [List.zipIdx_cons, List.flatMap_cons, lastOf_append, ih, lastOf_modelOpts]
      cases d <;> simp only [Option.none_or]
      all_goals
        rename_i i
        by_cases h : k = i
        · subst h
          have : ¬ k + 1 ≤ k := by omega
          simp [this]
        · by_cases h' : k ≤ i
          · have h1 : k + 1 ≤ i := by omega
            have h2 : i - k = (i - (k + 1)) + 1 := by omega
            rw [if_pos h1, if_pos h', h2]
            simp [h]
          · have h1 : ¬ k + 1 ≤ i := by omega
            simp [h1, h', h]
  have := key (modelNames.zip a.models) 0
  rw [modelsOpts, this]
  cases d <;> simp

/-- A model as `test.py` sees it. -/
def seenModel (n : Str) (m : Str × Option Int) : Str × Option Int :=
  (if m.2 = none ∧ m.1 ≠ defaultPath n then m.1 else defaultPath n, m.2)

/-- All attributes of a command. -/
def allOpts (a : GridArgs) (values : List Str) : List (Dest × Str) :=
  staticOpts a ++ modelsOpts a ++ [(.output, joinDir a.output (gridDir values))] ++ [(.log, chars% "test.log")] ++
    hyperOpts values

theorem lastOf_static (a : GridArgs) (d : Dest) :
    lastOf d (staticOpts a) = match d with
      | .threads => a.threads.map intStr
      | .seed => if a.seed ≠ 0 then some (intStr a.seed) else none
      | .h5 => if a.h5Dir ≠ chars% "h5_data" then some a.h5Dir else none
      | .icm => if a.icmJson ≠ defaultIcm then some a.icmJson else none
      | .checkpoint => if a.checkpoint ≠ chars% "checkpoints" then some a.checkpoint else none
      | .xml => if a.xml then some [] else none
      | .test => if a.test then some [] else none
      | .input => if a.input ≠ chars% "corpus_data" then some a.input else none
      | _ => none := by
  have ht : lastOf d (match a.threads with
      | some t => [(Dest.threads, intStr t)]
      | none => []) = if d = .threads then a.threads.map intStr else none := by
    cases a.threads with
    | none => simp [lastOf]
    | some t => simp [lastOf, eq_comm]
  rw [staticOpts]
  simp only [lastOf_append, lastOf_if, ht]
  cases d <;> simp [lastOf]

theorem parseInt_str (i : Int) : parseInt (intStr i) = .ok i := by
  have := parseInt_intStr i [] [] (by simp) (by simp)
  simpa using this

theorem testArgs_command (a : GridArgs) (h : Printable a) (values : List Str) (hl : values.length = 12)
    (hv : ∀ v ∈ values, Text v) (hd : isValue (joinDir a.output (gridDir values)) = true) :
    ∃ t, testArgs (commandArgs a values) = some t ∧ Same a values t ∧
      t.output = joinDir a.output (gridDir values) := by
  have hp : parseOptions (commandArgs a values) = some (allOpts a values) := by
    have := parses_append (parses_append (parses_append (parses_static a h)
      (parses_value (chars% "--output") .output (joinDir a.output (gridDir values)) (by decide +kernel) hd))
      (parses_value (chars% "--log") .log (chars% "test.log") (by decide +kernel) (by decide)))
      (parses_hyper values hl fun v hv' => (hv v hv').isValue)
    have h2 := this []
    rw [List.append_nil] at h2
    rw [commandArgs, h2]
    simp [parseOptions, allOpts, modelsOpts]
  have hlast : ∀ d, lastOf d (allOpts a values) = ((lastOf d (hyperOpts values)).or
      ((lastOf d [(.log, chars% "test.log")]).or ((lastOf d [(.output, joinDir a.output (gridDir values))]).or
        ((lastOf d (modelsOpts a)).or (lastOf d (staticOpts a)))))) := by
    intro d
    simp only [allOpts, lastOf_append]
  have hmodel : ∀ (i : Nat) (n : Str) (m : Str × Option Int), modelNames[i]? = some n → a.models[i]? = some m →
      modelArg (allOpts a values) i n = some (seenModel n m) := by
    intro i n m hn hmi
    have hz : (modelNames.zip a.models)[i]? = some (n, m) := List.getElem?_zip_eq_some.2 ⟨hn, hmi⟩
    have h1 : lastOf (.version i) (allOpts a values) = m.2.map intStr := by
      rw [hlast, lastOf_hyper, lastOf_models, lastOf_static]
      simp [lastOf, hz]
    have h2 : lastOf (.model i) (allOpts a values) =
        if m.2 = none ∧ m.1 ≠ defaultPath n then some m.1 else none := by
      rw [hlast, lastOf_hyper, lastOf_models, lastOf_static]
      simp [lastOf, hz]
    rw [modelArg, intOf, h1, h2]
    obtain ⟨q, v⟩ := m
    cases v with
    | some v => simp [parseInt_str, seenModel]
    | none => by_cases hq : q = defaultPath n <;> simp [seenModel, hq]
  have hmodels : (modelNames.zipIdx.mapM fun p => modelArg (allOpts a values) p.2 p.1) =
      some ((modelNames.zip a.models).map fun p => seenModel p.1 p.2) := by
    have hmap : ∀ (l : List (Str × Str × Option Int)) (k : Nat),
        (∀ (i : Nat) (p : Str × Str × Option Int), l[i]? = some p →
          modelArg (allOpts a values) (k + i) p.1 = some (seenModel p.1 p.2)) →
        (((l.map Prod.fst).zipIdx k).mapM fun p => modelArg (allOpts a values) p.2 p.1) =
          some (l.map fun p => seenModel p.1 p.2) := by
      intro l
      induction l with
      | nil => intro k _; rfl
      | cons p l ih =>
        intro k hk
        have h0 := hk 0 p rfl
        have h1 := ih (k + 1) fun i q hq => by
          have := hk (i + 1) q (by simpa using hq)
          rwa [show k + 1 + i = k + (i + 1) by omega]
        simp only [List.map_cons, List.zipIdx_cons, List.mapM_cons, Nat.add_zero] at h0 h1 ⊢
        rw [h0, h1]
        rfl
    have hfst : (modelNames.zip a.models).map Prod.fst = modelNames :=
      List.map_fst_zip (by rw [h.models]; decide)
    have := hmap (modelNames.zip a.models) 0 fun i p hp => by
      rw [List.getElem?_zip_eq_some] at hp
      rw [Nat.zero_add]
      exact hmodel i p.1 p.2 hp.1 hp.2
    rwa [hfst] at this
  have hthreads : intOf .threads (allOpts a values) none = some a.threads := by
    rw [intOf, hlast, lastOf_hyper, lastOf_models, lastOf_static]
    cases a.threads <;> simp [lastOf, parseInt_str]
  have hseed : intOf .seed (allOpts a values) (some 0) = some (some a.seed) := by
    rw [intOf, hlast, lastOf_hyper, lastOf_models, lastOf_static]
    by_cases h0 : a.seed = 0 <;> simp [lastOf, parseInt_str, h0]
  have hid : intOf .id (allOpts a values) none = some none := by
    rw [intOf, hlast, lastOf_hyper, lastOf_models, lastOf_static]
    simp [lastOf]
  have hdef : ∀ (s e : Str), (if s ≠ e then some s else none).getD e = s := by
    intro s e
    by_cases hs : s = e <;> simp [hs]
  have hvals : (hyperDefaults.zipIdx.map fun p => (lastOf (.hyper p.2) (allOpts a values)).getD p.1) = values := by
    apply List.ext_getElem?
    intro i
    rw [List.getElem?_map, List.getElem?_zipIdx]
    by_cases hi : i < 12
    · have h1 : hyperDefaults[i]? = some (hyperDefaults[i]'hi) := List.getElem?_eq_getElem hi
      have h2 : values[i]? = some (values[i]'(by omega)) := List.getElem?_eq_getElem (by omega)
      rw [h1]
      simp only [Option.map_some, Nat.zero_add, hlast, lastOf_hyper, h2, Option.some_or, Option.getD_some]
    · have h1 : hyperDefaults[i]? = none := List.getElem?_eq_none (by simp [hyperDefaults]; omega)
      have h2 : values[i]? = none := List.getElem?_eq_none (by omega)
      rw [h1, h2]
      rfl
  refine ⟨_, by
    rw [testArgs, hp]
    simp only [Option.bind_eq_bind, Option.bind_some, hthreads, hseed, hid, hmodels, hvals]
    rfl, ?_, ?_⟩
  · constructor <;> simp only [hlast, lastOf_hyper, lastOf_models, lastOf_static]
    all_goals try rfl
    · exact hdef _ _
    · exact hdef _ _
    · exact hdef _ _
    · cases a.xml <;> rfl
    · cases a.test <;> rfl
    · exact hdef _ _
    · simp [h.models, modelNames]
    · intro i m m' n h1 h2 h3
      rw [List.getElem?_map, List.getElem?_zip_eq_some (z := (n, m)).2 ⟨h3, h1⟩] at h2
      simp only [Option.map_some, Option.some.injEq] at h2
      subst h2
      obtain ⟨q, v⟩ := m
      refine ⟨?_, rfl⟩
      have hc : (((none : Option Str).or ((lastOf Dest.checkpoint [(Dest.log, chars% "test.log")]).or
        ((lastOf Dest.checkpoint [(Dest.output, joinDir a.output (gridDir values))]).or ((none : Option Str).or
          (if a.checkpoint ≠ chars% "checkpoints" then some a.checkpoint else none))))).getD (chars% "checkpoints")) =
          a.checkpoint := hdef _ _
      rw [hc]
      cases v with
      | some v => simp [checkpointGlob, seenModel]
      | none => by_cases hq : q = defaultPath n <;> simp [checkpointGlob, seenModel, hq]
    · simp [lastOf]
  · simp only [hlast, lastOf_hyper, lastOf_models, lastOf_static]
    rfl

/-! ### Combinations -/

theorem mem_pyProduct (ls : List (List Str)) (v : List Str) :
    v ∈ pyProduct ls ↔ List.Forall₂ (fun x l => x ∈ l) v ls := by
  induction ls generalizing v with
  | nil => simp [pyProduct]
  | cons l ls ih =>
    simp only [pyProduct, List.mem_flatMap, List.mem_map]
    constructor
    · rintro ⟨x, hx, w, hw, rfl⟩
      exact .cons hx ((ih w).1 hw)
    · intro h
      cases h with
      | cons hx hw => exact ⟨_, hx, _, (ih _).2 hw, rfl⟩

theorem length_pyProduct (ls : List (List Str)) : (pyProduct ls).length = (ls.map List.length).prod := by
  induction ls with
  | nil => rfl
  | cons l ls ih => simp [pyProduct, List.length_flatMap, ih]

theorem nodup_pyProduct (ls : List (List Str)) (h : ∀ l ∈ ls, l.Nodup) : (pyProduct ls).Nodup := by
  induction ls with
  | nil => simp [pyProduct]
  | cons l ls ih =>
    rw [pyProduct, List.nodup_flatMap]
    constructor
    · intro x _
      exact (ih fun l hl => h l (List.mem_cons_of_mem _ hl)).map fun a b hab => by simpa using hab
    · refine (h l (by simp)).imp ?_
      intro x y hxy z hx hy
      simp only [List.mem_map] at hx hy
      obtain ⟨u, _, rfl⟩ := hx
      obtain ⟨w, _, hw⟩ := hy
      exact hxy (by simpa using (List.cons.inj hw).1.symm)

theorem abbreviations : hyperNames.map abbreviation =
    [chars% "mccp", chars% "mnccp", chars% "mcl", chars% "mkcp", chars% "mnkcp", chars% "bs", chars% "mcbf",
      chars% "tcbp", chars% "mkbf", chars% "tkbp", chars% "hl", chars% "ke"] := by decide +kernel

/-- The parts of the name of a directory. -/
def dirParts (values : List Str) : List Str :=
  ((hyperNames.map abbreviation).zip values).map fun p => p.1 ++ ['-'] ++ p.2

theorem dirParts_word (values : List Str) (hv : ∀ v ∈ values, Word v) (w : Str) (hw : w ∈ dirParts values) : Word w := by
  rw [dirParts, List.mem_map] at hw
  obtain ⟨⟨n, v⟩, hp, rfl⟩ := hw
  have hn : Word n := by
    have := (List.of_mem_zip hp).1
    rw [abbreviations] at this
    have key : ∀ x ∈ [chars% "mccp", chars% "mnccp", chars% "mcl", chars% "mkcp", chars% "mnkcp", chars% "bs",
      chars% "mcbf", chars% "tcbp", chars% "mkbf", chars% "tkbp", chars% "hl", chars% "ke"],
        x ≠ [] ∧ ∀ c ∈ x, isPlain c = true := by decide +kernel
    exact key n this
  exact word_append (word_append hn ⟨by simp, by decide⟩) (hv v (List.of_mem_zip hp).2)

theorem gridDir_word (values : List Str) (hl : values.length = 12) (hv : ∀ v ∈ values, Word v) :
    Word (gridDir values) ∧ (gridDir values).head? = some 'm' := by
  have hh : ∃ s, gridDir values = 'm' :: s := by
    cases values with
    | nil => simp at hl
    | cons v vs =>
      cases vs with
      | nil => simp at hl
      | cons w vs =>
        rw [gridDir, abbreviations]
        simp only [List.zip_cons_cons, List.map_cons, pyJoin, List.cons_append]
        exact ⟨_, rfl⟩
  obtain ⟨s, hs⟩ := hh
  refine ⟨⟨by simp [hs], fun c hc => ?_⟩, by simp [hs]⟩
  rcases mem_pyJoin _ _ _ hc with h | ⟨w, hw, h⟩
  · simp only [List.mem_singleton] at h; subst h; decide
  · exact (dirParts_word values hv w hw).2 c h

theorem joinDir_text (output dir : Str) (ho : Text output) (hd : Word dir) (hm : dir.head? = some 'm') :
    Text (joinDir output dir) := by
  rw [joinDir]
  split
  · exact ⟨hd.1, hd.2, by simp [hm]⟩
  · split
    · refine ⟨by simp, fun c hc => ?_, by simp⟩
      rcases List.mem_cons.1 hc with rfl | h
      · decide
      · exact hd.2 c h
    · have := word_append (word_append ho.word (v := ['/']) ⟨by simp, by decide⟩) hd
      refine ⟨this.1, this.2, ?_⟩
      obtain ⟨h1, _, h3⟩ := ho
      cases output with
      | nil => exact absurd rfl h1
      | cons c s => simpa using h3

theorem commandArgs_word (a : GridArgs) (h : Printable a) (values : List Str) (hl : values.length = 12)
    (hv : ∀ v ∈ values, Text v) (w : Str) (hw : w ∈ commandArgs a values) : Word w := by
  have hd := gridDir_word values hl fun v hv' => (hv v hv').word
  have ho := joinDir_text a.output (gridDir values) h.output hd.1 hd.2
  have hif : ∀ (c : Prop) [Decidable c] (l : List Str), (c → ∀ x ∈ l, Word x) → w ∈ (if c then l else []) → Word w := by
    intro c _ l hc hx
    split at hx
    · exact hc ‹_› w hx
    · simp at hx
  have two : ∀ (x y : Str), Word x → Word y → ∀ z ∈ [x, y], Word z := by
    intro x y hx hy z hz
    simp only [List.mem_cons, List.not_mem_nil, or_false] at hz
    rcases hz with rfl | rfl <;> assumption
  have hlit : ∀ s : Str, s ≠ [] ∧ (∀ c ∈ s, isPlain c = true) → Word s := fun _ h => h
  simp only [commandArgs, staticArgs, List.mem_append] at hw
  rcases hw with (((((((((((hw | hw) | hw) | hw) | hw) | hw) | hw) | hw) | hw) | hw) | hw) | hw)
  · cases ht : a.threads with
    | none => simp [ht] at hw
    | some t =>
      rw [ht] at hw
      exact two _ _ (hlit _ (by decide)) (intStr_word t) w hw
  · exact hif _ _ (fun _ => two _ _ (hlit _ (by decide)) (intStr_word _)) hw
  · exact hif _ _ (fun _ => two _ _ (hlit _ (by decide)) h.h5Dir.word) hw
  · exact hif _ _ (fun hi => two _ _ (hlit _ (by decide)) (h.icmJson.resolve_left hi).word) hw
  · exact hif _ _ (fun _ => two _ _ (hlit _ (by decide)) h.checkpoint.word) hw
  · exact hif _ _ (fun _ x hx => by
      simp only [List.mem_singleton] at hx; subst hx; exact hlit _ (by decide)) hw
  · exact hif _ _ (fun _ x hx => by
      simp only [List.mem_singleton] at hx; subst hx; exact hlit _ (by decide)) hw
  · exact hif _ _ (fun _ => two _ _ (hlit _ (by decide)) h.input.word) hw
  · rw [List.mem_flatMap] at hw
    obtain ⟨⟨n, m⟩, hp, hw⟩ := hw
    obtain ⟨i, hi⟩ := List.mem_iff_getElem?.1 hp
    rw [List.getElem?_zip_eq_some] at hi
    have hn : Word n := by
      have key : ∀ x ∈ modelNames, x ≠ [] ∧ ∀ c ∈ x, isPlain c = true := by decide +kernel
      exact key n (List.of_mem_zip hp).1
    have hdash : Word (chars% "--") := hlit _ (by decide)
    obtain ⟨q, v⟩ := m
    cases v with
    | some v => exact two _ _ (word_append (word_append hdash hn) (hlit _ (by decide))) (intStr_word v) w hw
    | none =>
      refine hif _ _ (fun hq => two _ _ (word_append hdash hn) ?_) hw
      exact ((h.model i _ n hi.2 hi.1 rfl).resolve_left hq).word
  · exact two _ _ (hlit _ (by decide)) ho.word w hw
  · exact two _ _ (hlit _ (by decide)) (hlit _ (by decide)) w hw
  · rw [List.mem_flatMap] at hw
    obtain ⟨⟨n, v⟩, hp, hw⟩ := hw
    have hn : Word (chars% "--" ++ dashed n) := by
      have key : ∀ x ∈ hyperNames, (chars% "--" ++ dashed x) ≠ [] ∧ ∀ c ∈ (chars% "--" ++ dashed x), isPlain c = true := by
        decide +kernel
      exact key n (List.of_mem_zip hp).1
    exact two _ _ hn (hv v (List.of_mem_zip hp).2).word w hw

theorem runLine_command (a : GridArgs) (h : Printable a) (values : List Str) (hl : values.length = 12)
    (hv : ∀ v ∈ values, Text v) :
    ∃ t, runLine (chars% "python test.py " ++ pyJoin [' '] (commandArgs a values)) = some t ∧ Same a values t ∧
      t.output = joinDir a.output (gridDir values) := by
  have hd := gridDir_word values hl fun v hv' => (hv v hv').word
  obtain ⟨t, ht, hs, ho⟩ := testArgs_command a h values hl hv (joinDir_text a.output _ h.output hd.1 hd.2).isValue
  refine ⟨t, ?_, hs, ho⟩
  have hne : ∃ w ws, commandArgs a values = w :: ws := by
    cases hc : commandArgs a values with
    | nil => simp [commandArgs] at hc
    | cons w ws => exact ⟨_, _, rfl⟩
  obtain ⟨w, ws, hc⟩ := hne
  have hline : chars% "python test.py " ++ pyJoin [' '] (commandArgs a values) =
      pyJoin [' '] (chars% "python" :: chars% "test.py" :: commandArgs a values) := by
    rw [hc]; simp [pyJoin]
  rw [runLine, hline, shellWords_join _ (by simp)]
  · simp [ht]
  · intro x hx
    simp only [List.mem_cons] at hx
    rcases hx with rfl | rfl | hx
    · exact ⟨by decide, by decide⟩
    · exact ⟨by decide, by decide⟩
    · exact commandArgs_word a h values hl hv x hx

theorem combination (a : GridArgs) (h : Printable a) (values : List Str)
    (hv : List.Forall₂ (fun x l => x ∈ l) values a.values) : values.length = 12 ∧ ∀ v ∈ values, Text v := by
  refine ⟨by rw [hv.length_eq, h.values], fun v hv' => ?_⟩
  obtain ⟨i, hi⟩ := List.mem_iff_getElem?.1 hv'
  have hlt : i < values.length := (List.getElem?_eq_some_iff.1 hi).1
  have h2 := List.forall₂_iff_get.1 hv
  have h3 := h2.2 i hlt (by rw [← h2.1]; exact hlt)
  have : values.get ⟨i, hlt⟩ = v := by simpa using (List.getElem?_eq_some_iff.1 hi).2
  rw [this] at h3
  exact h.value _ (List.get_mem _ _) v h3

/-! ### Directories -/

/-- The parts of a text between `/` are neither empty nor `.`. -/
def PathLike (s : Str) : Prop := ∀ c ∈ pySplit ['/'] s, c ≠ [] ∧ c ≠ ['.']

theorem PathLike.parts {s : Str} (h : PathLike s) : pathParts s = pySplit ['/'] s := by
  rw [pathParts, List.filter_eq_self]
  exact fun c hc => decide_eq_true (h c hc)

theorem pathParts_inj {s t : Str} (hs : PathLike s) (ht : PathLike t) (h : pathParts s = pathParts t) : s = t := by
  rw [hs.parts, ht.parts] at h
  rw [← pyJoin_pySplit '/' s, h, pyJoin_pySplit]

/-- A text put before another one: the last part of the first and the first part of the second are joined. -/
theorem pySplit_append (a : Char) (u v : Str) :
    ∃ us x y vs, pySplit [a] u = us ++ [x] ∧ pySplit [a] v = y :: vs ∧ pySplit [a] (u ++ v) = us ++ (x ++ y) :: vs := by
  obtain ⟨y, vs, hv⟩ := splitSub_char a v
  have hv' : pySplit [a] v = y :: vs := hv
  induction u with
  | nil => exact ⟨[], [], y, vs, rfl, hv', by simpa using hv'⟩
  | cons c u ih =>
    obtain ⟨us, x, y', vs', h1, h2, h3⟩ := ih
    obtain ⟨rfl, rfl⟩ : y = y' ∧ vs = vs' := by simpa using hv'.symm.trans h2
    rw [List.cons_append, pySplit_char_cons, pySplit_char_cons, h1, h3]
    split
    · exact ⟨[] :: us, x, y, vs, rfl, hv', rfl⟩
    · cases us with
      | nil => exact ⟨[], c :: x, y, vs, rfl, hv', rfl⟩
      | cons u' us => exact ⟨(c :: u') :: us, x, y, vs, rfl, hv', rfl⟩

theorem PathLike.append {u v : Str} (hu : PathLike u) (hv : PathLike v) : PathLike (u ++ v) := by
  obtain ⟨us, x, y, vs, h1, h2, h3⟩ := pySplit_append '/' u v
  intro c hc
  rw [h3] at hc
  simp only [List.mem_append, List.mem_cons] at hc
  have hx := hu x (by simp [h1])
  have hy := hv y (by simp [h2])
  rcases hc with hc | rfl | hc
  · exact hu c (by simp [h1, hc])
  · refine ⟨by simp [hx.1], fun h => ?_⟩
    have hl := congrArg List.length h
    have h1 := List.length_pos_iff.2 hx.1
    have h2 := List.length_pos_iff.2 hy.1
    simp only [List.length_append, List.length_singleton] at hl
    omega
  · exact hv c (by simp [h2, hc])

theorem pathLike_join (ws : List Str) (hne : ws ≠ []) (h : ∀ w ∈ ws, PathLike w) : PathLike (pyJoin ['_'] ws) := by
  have h_ : PathLike ['_'] := by
    intro c hc
    rw [pySplit_word '/' [] ['_'] (by decide)] at hc
    simp only [List.mem_singleton] at hc
    subst hc
    decide
  induction ws with
  | nil => exact absurd rfl hne
  | cons w ws ih =>
    cases ws with
    | nil => exact h w (by simp)
    | cons v vs =>
      rw [pyJoin]
      · exact ((h w (by simp)).append h_).append (ih (by simp) fun x hx => h x (List.mem_cons_of_mem _ hx))
      · simp

/-- The text of a number or a fraction: no `_`, and parts between `/` which are neither empty nor `.`. -/
def Number (v : Str) : Prop := '_' ∉ v ∧ PathLike v

theorem dirParts_number (values : List Str) (hv : ∀ v ∈ values, Number v) (w : Str) (hw : w ∈ dirParts values) :
    '_' ∉ w ∧ PathLike w := by
  rw [dirParts, List.mem_map] at hw
  obtain ⟨⟨n, v⟩, hp, rfl⟩ := hw
  have hn : '_' ∉ n ++ ['-'] ∧ '/' ∉ n ++ ['-'] ∧ 1 < (n ++ ['-']).length := by
    have := (List.of_mem_zip hp).1
    rw [abbreviations] at this
    have key : ∀ x ∈ [chars% "mccp", chars% "mnccp", chars% "mcl", chars% "mkcp", chars% "mnkcp", chars% "bs",
      chars% "mcbf", chars% "tcbp", chars% "mkbf", chars% "tkbp", chars% "hl", chars% "ke"],
        '_' ∉ x ++ ['-'] ∧ '/' ∉ x ++ ['-'] ∧ 1 < (x ++ ['-']).length := by decide +kernel
    exact key n this
  have hvn := hv v (List.of_mem_zip hp).2
  refine ⟨?_, PathLike.append ?_ hvn.2⟩
  · rw [List.mem_append]
    rintro (h | h)
    · exact hn.1 h
    · exact hvn.1 h
  · intro c hc
    rw [pySplit_word '/' [] _ hn.2.1] at hc
    simp only [List.mem_singleton] at hc
    subst hc
    refine ⟨by simp, fun h => ?_⟩
    rw [h] at hn
    exact absurd hn.2.2 (by decide)

theorem gridDir_inj (v w : List Str) (hv : v.length = 12) (hw : w.length = 12) (nv : ∀ x ∈ v, Number x)
    (nw : ∀ x ∈ w, Number x) (h : gridDir v = gridDir w) : v = w := by
  have hlen : ∀ u : List Str, u.length = 12 → (dirParts u).length = 12 := by
    intro u hu
    simp [dirParts, abbreviations, hu]
  have hne : ∀ u : List Str, u.length = 12 → dirParts u ≠ [] := by
    intro u hu h0
    have := hlen u hu
    rw [h0] at this
    simp at this
  have h1 : dirParts v = dirParts w := by
    rw [← pySplit_join '_' [] (dirParts v) (fun x hx => (dirParts_number v nv x hx).1) (hne v hv),
      ← pySplit_join '_' [] (dirParts w) (fun x hx => (dirParts_number w nw x hx).1) (hne w hw)]
    exact congrArg _ h
  apply List.ext_getElem (by omega)
  intro i hi hj
  have h2 : (dirParts v)[i]'(by rw [hlen v hv]; omega) = (dirParts w)[i]'(by rw [hlen w hw]; omega) := by
    simp only [h1]
  simp only [dirParts, List.getElem_map, List.getElem_zip] at h2
  exact List.append_cancel_left h2

theorem pathParts_joinDir (output dir : Str) :
    pathParts (joinDir output dir) = pathParts output ++ pathParts dir := by
  rw [joinDir]
  split
  · rename_i h; subst h; rfl
  · split
    · rename_i h
      subst h
      rw [pathParts, pathParts, pathParts, pySplit_char_cons, if_pos rfl]
      rfl
    · rw [pathParts, pathParts, pathParts, List.append_assoc, List.singleton_append, pySplit_char_append,
        List.filter_append]

theorem gridDir_pathLike (values : List Str) (hl : values.length = 12) (hv : ∀ v ∈ values, Number v) :
    PathLike (gridDir values) := by
  refine pathLike_join (dirParts values) (fun h0 => ?_) fun w hw => (dirParts_number values hv w hw).2
  have : (dirParts values).length = 12 := by simp [dirParts, abbreviations, hl]
  rw [h0] at this
  simp at this

/-! ### C113 -/

/-- C113: a line is printed for every combination of the values, and running it evaluates with these values. -/
theorem C113_combinations_partial (a : GridArgs) (h : Printable a) (values : List Str)
    (hv : List.Forall₂ (fun x l => x ∈ l) values a.values) :
    ∃ line ∈ gridCommands a, ∃ t, runLine line = some t ∧ Same a values t := by
  obtain ⟨t, ht, hs, _⟩ := runLine_command a h values (combination a h values hv).1 (combination a h values hv).2
  exact ⟨_, List.mem_map.2 ⟨values, (mem_pyProduct _ _).2 hv, rfl⟩, t, ht, hs⟩

/-- C113: every line is for a combination of the values, and there are as many lines as combinations. -/
theorem C113_lines_partial (a : GridArgs) (h : Printable a) :
    (∀ line ∈ gridCommands a, ∃ values t, List.Forall₂ (fun x l => x ∈ l) values a.values ∧ runLine line = some t ∧
      Same a values t) ∧
    (gridCommands a).length = (a.values.map List.length).prod := by
  constructor
  · intro line hline
    obtain ⟨values, hv, rfl⟩ := List.mem_map.1 hline
    rw [mem_pyProduct] at hv
    obtain ⟨t, ht, hs, _⟩ := runLine_command a h values (combination a h values hv).1 (combination a h values hv).2
    exact ⟨values, t, hv, ht, hs⟩
  · rw [gridCommands, List.length_map, length_pyProduct]

/-- C113: no two lines write to the same directory, if no value is given twice for a hyperparameter; all directories
are within the given one. -/
theorem C113_directories_partial (a : GridArgs) (h : Printable a) (hn : ∀ l ∈ a.values, l.Nodup)
    (hnum : ∀ l ∈ a.values, ∀ v ∈ l, Number v) :
    (gridCommands a).Pairwise (fun l₁ l₂ => ∀ t₁ t₂, runLine l₁ = some t₁ → runLine l₂ = some t₂ →
      pathParts t₁.output ≠ pathParts t₂.output) ∧
    ∀ line ∈ gridCommands a, ∃ t, runLine line = some t ∧ pathParts a.output <+: pathParts t.output ∧
      pathParts t.output ≠ pathParts a.output := by
  have hnumber : ∀ values : List Str, List.Forall₂ (fun x l => x ∈ l) values a.values → ∀ v ∈ values, Number v := by
    intro values hv v hv'
    obtain ⟨i, hi⟩ := List.mem_iff_getElem?.1 hv'
    have hlt : i < values.length := (List.getElem?_eq_some_iff.1 hi).1
    have h2 := List.forall₂_iff_get.1 hv
    have h3 := h2.2 i hlt (by rw [← h2.1]; exact hlt)
    have : values.get ⟨i, hlt⟩ = v := by simpa using (List.getElem?_eq_some_iff.1 hi).2
    rw [this] at h3
    exact hnum _ (List.get_mem _ _) v h3
  constructor
  · rw [gridCommands, List.pairwise_map]
    refine (nodup_pyProduct a.values hn).imp_of_mem ?_
    intro v w hv hw hvw t₁ t₂ h1 h2 heq
    rw [mem_pyProduct] at hv hw
    have cv := combination a h v hv
    have cw := combination a h w hw
    obtain ⟨s₁, g1, _, o1⟩ := runLine_command a h v cv.1 cv.2
    obtain ⟨s₂, g2, _, o2⟩ := runLine_command a h w cw.1 cw.2
    rw [g1, Option.some.injEq] at h1
    rw [g2, Option.some.injEq] at h2
    subst h1 h2
    have pv := gridDir_pathLike v cv.1 (hnumber v hv)
    have pw := gridDir_pathLike w cw.1 (hnumber w hw)
    rw [o1, o2, pathParts_joinDir, pathParts_joinDir] at heq
    exact hvw (gridDir_inj v w cv.1 cw.1 (hnumber v hv) (hnumber w hw) (pathParts_inj pv pw (List.append_cancel_left heq)))
  · intro line hline
    obtain ⟨v, hv, rfl⟩ := List.mem_map.1 hline
    rw [mem_pyProduct] at hv
    have cv := combination a h v hv
    obtain ⟨t, ht, _, ho⟩ := runLine_command a h v cv.1 cv.2
    have pv := gridDir_pathLike v cv.1 (hnumber v hv)
    refine ⟨t, ht, ?_, ?_⟩
    · rw [ho, pathParts_joinDir]
      exact List.prefix_append _ _
    · rw [ho, pathParts_joinDir]
      intro hc
      rw [List.append_right_eq_self, pv.parts] at hc
      obtain ⟨w, ws, hw⟩ := splitSub_char '/' (gridDir v)
      have : pySplit ['/'] (gridDir v) = w :: ws := hw
      rw [hc] at this
      simp at this

/-- A grid search with default arguments, two values of the second hyperparameter and two of the third one. -/
def exampleArgs (input : Str) : GridArgs :=
  { threads := some 4, seed := 0, h5Dir := chars% "h5_data", icmJson := defaultIcm, checkpoint := chars% "ckpt",
    xml := false, test := true, input := input, output := chars% "out",
    models := [(defaultPath (chars% "ccm"), none), (chars% "ctm.ckpt", none), (chars% "ignored", some 2),
      (defaultPath (chars% "ktm"), none), (defaultPath (chars% "ksm"), none)],
    values := (hyperDefaults.map ([·])).set 1 [chars% "0.45", chars% "0.5"] |>.set 2 [chars% "8", chars% "1/2"] }

/-- C113 fails in general: a path with a blank is printed without quotes, and no line can be run. -/
theorem C113_fails : (gridCommands (exampleArgs (chars% "my data"))).length = 4 ∧
    ∀ line ∈ gridCommands (exampleArgs (chars% "my data")), runLine line = none := by
  decide +kernel

/-- C113 fails for a path that begins with a dash, too: it is taken for an option. -/
theorem C113_dash_fails : (gridCommands (exampleArgs (chars% "-data"))).length = 4 ∧
    ∀ line ∈ gridCommands (exampleArgs (chars% "-data")), runLine line = none := by
  decide +kernel

/-- C113: what `test.py` makes of a single option for a hyperparameter: all others have their defaults. -/
theorem C113_option (j : Nat) (option v : Str) (hv : isValue v = true)
    (hj : [chars% "--min-chord-change-prob", chars% "--max-no-chord-change-prob", chars% "--max-chord-length",
      chars% "--min-key-change-prob", chars% "--max-no-key-change-prob", chars% "--beam-size",
      chars% "--max-chord-branching-factor", chars% "--target-chord-branch-prob", chars% "--max-key-branching-factor",
      chars% "--target-key-branch-prob", chars% "--hash-length", chars% "--ksm-exponent"][j]? = some option) :
    (testArgs [option, v]).map TestArgs.values =
      some ([chars% "0.25", chars% "0.45", chars% "8", chars% "0.05", chars% "0.75", chars% "50", chars% "5",
        chars% "0.75", chars% "2", chars% "0.5", chars% "5", chars% "50"].set j v) := by
  have hlt : j < 12 := (List.getElem?_eq_some_iff.1 hj).1
  have hp : parseOptions [option, v] = some [(.hyper j, v)] := by
    have hl : testOptions.lookup option = some (.hyper j, true) := by
      interval_cases j <;> simp only [List.getElem?_cons_zero, List.getElem?_cons_succ, Option.some.injEq] at hj <;>
        subst hj <;> decide +kernel
    simp only [parseOptions, hl, hv, if_true, Option.map_some]
  simp only [testArgs, hp, intOf, lastOf, modelArg, reduceCtorEq, if_false, Option.or_none, Option.bind_eq_bind,
    Option.bind_some, Option.map_some]
  interval_cases j <;> rfl

/-- The arguments of the example can be printed. -/
theorem example_printable : Printable (exampleArgs (chars% "data")) := by
  have text : ∀ s : Str, (s ≠ [] ∧ (∀ c ∈ s, isPlain c = true) ∧ s.head? ≠ some '-') → Text s := fun _ h => h
  constructor
  · exact text _ (by decide)
  · exact .inl rfl
  · exact text _ (by decide)
  · exact text _ (by decide)
  · exact text _ (by decide)
  · rfl
  · intro i m n hm hn hv
    have hi : i < 5 := (List.getElem?_eq_some_iff.1 hn).1
    interval_cases i <;>
      simp only [exampleArgs, modelNames, List.getElem?_cons_zero, List.getElem?_cons_succ, Option.some.injEq] at hm hn <;>
      subst hm hn
    · exact .inl rfl
    · exact .inr (text _ (by decide))
    · simp at hv
    · exact .inl rfl
    · exact .inl rfl
  · rfl
  · have key : ∀ l ∈ (exampleArgs (chars% "data")).values, ∀ v ∈ l,
        v ≠ [] ∧ (∀ c ∈ v, isPlain c = true) ∧ v.head? ≠ some '-' := by decide +kernel
    exact key

/-- The four lines of the example. -/
example : (gridCommands (exampleArgs (chars% "data"))).map (fun l => (runLine l).map fun t => t.values.take 3) =
    [some [chars% "0.25", chars% "0.45", chars% "8"], some [chars% "0.25", chars% "0.45", chars% "1/2"],
      some [chars% "0.25", chars% "0.5", chars% "8"], some [chars% "0.25", chars% "0.5", chars% "1/2"]] := by
  decide +kernel

/-- The directory of the second line, within another one because of the fraction. -/
example : (gridCommands (exampleArgs (chars% "data")))[1]?.bind (fun l => (runLine l).map fun t => pathParts t.output) =
    some [chars% "out", chars% "mccp-0.25_mnccp-0.45_mcl-1",
      chars% "2_mkcp-0.05_mnkcp-0.75_bs-50_mcbf-5_tcbp-0.75_mkbf-2_tkbp-0.5_hl-5_ke-50"] := by
  decide +kernel

/-- The values of the example are different numbers. -/
example : (∀ l ∈ (exampleArgs (chars% "data")).values, l.Nodup) ∧
    ∀ l ∈ (exampleArgs (chars% "data")).values, ∀ v ∈ l, '_' ∉ v ∧ ∀ c ∈ pySplit ['/'] v, c ≠ [] ∧ c ≠ ['.'] := by
  decide +kernel

/-- The checkpoint of the third model, whose version is given, is looked for in the directory of that version. -/
example : (runLine ((gridCommands (exampleArgs (chars% "data"))).headD [])).map (fun t =>
      t.models.map fun m => checkpointGlob t.checkpoint (chars% "csm") m) =
    some [chars% "`--checkpoint`/ccm/lightning_logs/version_*/checkpoints/*.ckpt", chars% "ctm.ckpt",
      chars% "ckpt/csm/lightning_logs/version_2/checkpoints/*.ckpt",
      chars% "`--checkpoint`/ktm/lightning_logs/version_*/checkpoints/*.ckpt",
      chars% "`--checkpoint`/ksm/lightning_logs/version_*/checkpoints/*.ckpt"] := by
  decide +kernel

end Verif.GridSearch
