import Verif.Checkpoints
import Verif.Props.GridSearch
import Mathlib.Data.List.Forall2
import Mathlib.Data.List.Infix

/-!
# C126: the models of a run are those which are asked for
-/

namespace Verif.Checkpoints

open Verif Verif.GridSearch

/-! ### Texts in order -/

theorem textLe_total (s t : Str) : textLe s t = true ∨ textLe t s = true := by
  induction s generalizing t with
  | nil => exact Or.inl rfl
  | cons a s ih =>
    cases t with
    | nil => exact Or.inr rfl
    | cons b t =>
      simp only [textLe]
      by_cases h1 : a.toNat < b.toNat
      · simp [h1]
      · by_cases h2 : b.toNat < a.toNat
        · simp [h2]
        · have h3 : a = b := Char.toNat_inj.1 (by omega)
          subst h3
          simpa using ih t

theorem textLe_trans {s t u : Str} (h1 : textLe s t = true) (h2 : textLe t u = true) : textLe s u = true := by
  induction s generalizing t u with
  | nil => rfl
  | cons a s ih =>
    cases t with
    | nil => cases h1
    | cons b t =>
      cases u with
      | nil => cases h2
      | cons c u =>
        simp only [textLe] at h1 h2 ⊢
        by_cases hab : a.toNat < b.toNat
        · by_cases hbc : b.toNat < c.toNat
          · rw [if_pos (by omega)]
          · rw [if_neg hbc] at h2
            by_cases e : b = c
            · subst e; rw [if_pos hab]
            · rw [if_neg e] at h2; cases h2
        · rw [if_neg hab] at h1
          by_cases e : a = b
          · subst e
            rw [if_pos rfl] at h1
            by_cases hbc : a.toNat < c.toNat
            · rw [if_pos hbc]
            · rw [if_neg hbc] at h2 ⊢
              by_cases e' : a = c
              · subst e'
                rw [if_pos rfl] at h2 ⊢
                exact ih h1 h2
              · rw [if_neg e'] at h2; cases h2
          · rw [if_neg e] at h1; cases h1

theorem sortTexts_perm (l : List Str) : (sortTexts l).Perm l := List.perm_insertionSort _ l

theorem sortTexts_sorted (l : List Str) : (sortTexts l).Pairwise fun s t => textLe s t = true := by
  have : IsTrans Str (fun s t => textLe s t = true) := ⟨fun _ _ _ => textLe_trans⟩
  have : Std.Total (fun s t : Str => textLe s t = true) := ⟨textLe_total⟩
  exact List.pairwise_insertionSort _ l

/-- The last one of the sorted texts is the greatest. -/
theorem last_sorted (l : List Str) :
    ((sortTexts l).getLast? = none ↔ l = []) ∧
    ∀ p, (sortTexts l).getLast? = some p → p ∈ l ∧ ∀ q ∈ l, textLe q p = true := by
  constructor
  · rw [List.getLast?_eq_none_iff]
    constructor
    · intro h
      have := (sortTexts_perm l).length_eq
      rw [h] at this
      exact List.length_eq_zero_iff.1 this.symm
    · rintro rfl
      rfl
  · intro p hp
    obtain ⟨r, hr⟩ := List.getLast?_eq_some_iff.1 hp
    have hs := sortTexts_sorted l
    rw [hr] at hs
    refine ⟨(sortTexts_perm l).subset (by rw [hr]; simp), fun q hq => ?_⟩
    have hq' : q ∈ sortTexts l := (sortTexts_perm l).symm.subset hq
    rw [hr, List.mem_append] at hq'
    rcases hq' with h | h
    · exact (List.pairwise_append.1 hs).2.2 q h p (by simp)
    · rw [List.mem_singleton.1 h]
      rcases textLe_total p p with h | h <;> exact h

theorem textLe_append (u s t : Str) : textLe (u ++ s) (u ++ t) = textLe s t := by
  induction u with
  | nil => rfl
  | cons a u ih => simp [textLe, ih]

/-! ### Patterns -/

/-- A text without the special characters of a pattern. -/
def Plain (s : Str) : Prop := '*' ∉ s ∧ '?' ∉ s ∧ '[' ∉ s

theorem fnMatch_cons (c : Char) (p s : Str) : fnMatch (c :: p) s =
    if c = '*' then s.tails.any fun t => fnMatch p t
    else match s with
      | [] => false
      | d :: t => (c = '?' || c = d) && fnMatch p t := by
  rw [fnMatch.eq_def]
  rfl

theorem fnMatch_append {p : Str} (hp : Plain p) (q s : Str) :
    fnMatch (p ++ q) s = true ↔ ∃ t, s = p ++ t ∧ fnMatch q t = true := by
  induction p generalizing s with
  | nil => simp
  | cons c p ih =>
    obtain ⟨h1, h2, h3⟩ := hp
    have hp' : Plain p := ⟨fun h => h1 (List.mem_cons_of_mem _ h), fun h => h2 (List.mem_cons_of_mem _ h),
      fun h => h3 (List.mem_cons_of_mem _ h)⟩
    have c1 : c ≠ '*' := fun h => h1 (by simp [h])
    have c2 : c ≠ '?' := fun h => h2 (by simp [h])
    rw [List.cons_append, fnMatch_cons, if_neg c1]
    cases s with
    | nil => simp
    | cons d s =>
      simp only [c2, decide_false, Bool.false_or, Bool.and_eq_true, decide_eq_true_eq, ih hp', List.cons_append,
        List.cons.injEq]
      constructor
      · rintro ⟨rfl, t, rfl, h⟩
        exact ⟨t, ⟨rfl, rfl⟩, h⟩
      · rintro ⟨t, ⟨rfl, rfl⟩, h⟩
        exact ⟨rfl, t, rfl, h⟩

theorem fnMatch_plain {p : Str} (hp : Plain p) (s : Str) : fnMatch p s = true ↔ s = p := by
  have := fnMatch_append hp [] s
  rw [List.append_nil] at this
  rw [this]
  constructor
  · rintro ⟨t, rfl, h⟩
    have : t = [] := by simpa [fnMatch] using h
    simp [this]
  · rintro rfl
    exact ⟨[], by simp, rfl⟩

theorem fnMatch_star (q s : Str) : fnMatch ('*' :: q) s = true ↔ ∃ u t, s = u ++ t ∧ fnMatch q t = true := by
  rw [fnMatch_cons, if_pos rfl, List.any_eq_true]
  constructor
  · rintro ⟨t, ht, h⟩
    obtain ⟨u, rfl⟩ := (List.mem_tails _ _).1 ht
    exact ⟨u, t, rfl, h⟩
  · rintro ⟨u, t, rfl, h⟩
    exact ⟨t, (List.mem_tails _ _).2 (List.suffix_append _ _), h⟩

theorem nameMatch_plain {p : Str} (hp : Plain p) (s : Str) : nameMatch p s = true ↔ s = p := by
  rw [nameMatch, Bool.and_eq_true, fnMatch_plain hp]
  constructor
  · exact fun h => h.2
  · rintro rfl
    refine ⟨?_, rfl⟩
    by_cases h : s.head? = some '.' <;> simp [h]

/-- `version_*`. -/
theorem nameMatch_version (d : Str) :
    nameMatch (chars% "version_*") d = true ↔ ∃ t, d = (chars% "version_") ++ t := by
  have e : (chars% "version_*") = (chars% "version_") ++ ['*'] := rfl
  have hp : Plain (chars% "version_") := ⟨by decide, by decide, by decide⟩
  rw [nameMatch, e, Bool.and_eq_true, fnMatch_append hp]
  constructor
  · rintro ⟨_, t, h, _⟩
    exact ⟨t, h⟩
  · rintro ⟨t, rfl⟩
    exact ⟨by simp, t, rfl, (fnMatch_star _ _).2 ⟨t, [], by simp, rfl⟩⟩

/-- A file which is taken for a checkpoint: `*.ckpt`. -/
def CkptName (f : Str) : Prop := '/' ∉ f ∧ f.head? ≠ some '.' ∧ ∃ b, f = b ++ (chars% ".ckpt")

theorem nameMatch_ckpt (f : Str) (hf : '/' ∉ f) : nameMatch (chars% "*.ckpt") f = true ↔ CkptName f := by
  have e : (chars% "*.ckpt") = '*' :: (chars% ".ckpt") := rfl
  have hp : Plain (chars% ".ckpt") := ⟨by decide, by decide, by decide⟩
  rw [nameMatch, e, Bool.and_eq_true, fnMatch_star]
  simp only [fnMatch_plain hp]
  constructor
  · rintro ⟨h, u, t, rfl, rfl⟩
    exact ⟨hf, by simpa using h, u, rfl⟩
  · rintro ⟨_, h, b, rfl⟩
    exact ⟨by simpa using h, b, _, rfl, rfl⟩

theorem mem_pySplit (a : Char) (s w : Str) (h : w ∈ pySplit [a] s) : a ∉ w := by
  induction s generalizing w with
  | nil =>
    have : w = [] := by simpa [pySplit, splitSub] using h
    simp [this]
  | cons c s ih =>
    rw [pySplit_char_cons] at h
    split at h
    · rcases List.mem_cons.1 h with rfl | h
      · simp
      · exact ih w h
    · rename_i hc
      obtain ⟨x, xs, hx⟩ := splitSub_char a s
      have hx' : pySplit [a] s = x :: xs := hx
      rw [hx'] at h
      rcases List.mem_cons.1 h with rfl | h
      · have := ih x (by simp [hx'])
        simp [this]
        exact fun e => hc e.symm
      · exact ih w (by simp [hx', h])

theorem pathMatch_iff (p s : Str) : pathMatch p s = true ↔
    List.Forall₂ (fun a b => nameMatch a b = true) (pySplit ['/'] p) (pySplit ['/'] s) := by
  rw [pathMatch, Bool.and_eq_true, beq_iff_eq, List.all_eq_true, List.forall₂_iff_zip]
  constructor
  · rintro ⟨h1, h2⟩
    exact ⟨h1, fun h => h2 _ h⟩
  · rintro ⟨h1, h2⟩
    exact ⟨h1, fun x h => h2 h⟩

theorem forall₂_plain {D : List Str} (hD : ∀ w ∈ D, Plain w) (X cs : List Str) :
    List.Forall₂ (fun a b => nameMatch a b = true) (D ++ X) cs ↔
      ∃ ys, cs = D ++ ys ∧ List.Forall₂ (fun a b => nameMatch a b = true) X ys := by
  induction D generalizing cs with
  | nil => simp
  | cons w D ih =>
    have h1 := hD w (by simp)
    have h2 := ih (fun w h => hD w (List.mem_cons_of_mem _ h))
    rw [List.cons_append]
    constructor
    · intro h
      cases h with
      | cons ha hr =>
        obtain ⟨ys, rfl, h⟩ := (h2 _).1 hr
        exact ⟨ys, by rw [(nameMatch_plain h1 _).1 ha]; rfl, h⟩
    · rintro ⟨ys, rfl, h⟩
      exact .cons ((nameMatch_plain h1 _).2 rfl) ((h2 _).2 ⟨ys, rfl, h⟩)

theorem pySplit_plain {s : Str} (hs : Plain s) : ∀ w ∈ pySplit ['/'] s, Plain w := by
  have : ∀ w ∈ pySplit ['/'] s, ∀ c ∈ w, c ∈ s := by
    clear hs
    induction s with
    | nil =>
      intro w h c hc
      have : w = [] := by simpa [pySplit, splitSub] using h
      simp [this] at hc
    | cons d s ih =>
      intro w h c hc
      rw [pySplit_char_cons] at h
      split at h
      · rcases List.mem_cons.1 h with rfl | h
        · cases hc
        · exact List.mem_cons_of_mem _ (ih w h c hc)
      · obtain ⟨x, xs, hx⟩ := splitSub_char '/' s
        have hx' : pySplit ['/'] s = x :: xs := hx
        rw [hx'] at h ih
        rcases List.mem_cons.1 h with rfl | h
        · rcases List.mem_cons.1 hc with rfl | hc
          · simp
          · exact List.mem_cons_of_mem _ (ih x (by simp) c hc)
        · exact List.mem_cons_of_mem _ (ih w (by simp [h]) c hc)
  intro w hw
  exact ⟨fun h => hs.1 (this w hw _ h), fun h => hs.2.1 (this w hw _ h), fun h => hs.2.2 (this w hw _ h)⟩

theorem pySplit_inj {a : Char} {s t : Str} (h : pySplit [a] s = pySplit [a] t) : s = t := by
  rw [← pyJoin_pySplit a s, h, pyJoin_pySplit]

/-- The path of a checkpoint of a version of a model. -/
def ckptPath (dir name version file : Str) : Str :=
  dir ++ '/' :: (name ++ '/' :: ((chars% "lightning_logs") ++ '/' :: ((chars% "version_") ++ version ++
    '/' :: ((chars% "checkpoints") ++ '/' :: file))))

theorem split_ckptPath (dir name version file : Str) (hn : '/' ∉ name) (hv : '/' ∉ version) (hf : '/' ∉ file) :
    pySplit ['/'] (ckptPath dir name version file) =
      pySplit ['/'] dir ++ [name, chars% "lightning_logs", (chars% "version_") ++ version, chars% "checkpoints", file] := by
  have h1 : '/' ∉ (chars% "version_") ++ version := by
    rw [List.mem_append]
    rintro (h | h)
    · revert h; decide
    · exact hv h
  rw [ckptPath, pySplit_char_append, pySplit_char_append, pySplit_char_append, pySplit_char_append, pySplit_char_append,
    pySplit_word _ _ _ hn, pySplit_word _ _ _ h1, pySplit_word _ _ _ hf,
    pySplit_word _ _ (chars% "lightning_logs") (by decide), pySplit_word _ _ (chars% "checkpoints") (by decide)]
  rfl

/-! ### The patterns of checkpoints -/

/-- The facts about the names of models which are used. -/
theorem names_ok {name : Str} (h : name ∈ modelNames) : '/' ∉ name ∧ '`' ∉ name ∧ Plain name := by
  simp only [modelNames, List.mem_cons, List.not_mem_nil, or_false] at h
  rcases h with rfl | rfl | rfl | rfl | rfl <;> exact ⟨by decide, by decide, by decide, by decide, by decide⟩

theorem glob_default (dir : Str) {name : Str} (hn : name ∈ modelNames) :
    pyReplace (chars% "`--checkpoint`") dir (defaultPath name) = ckptPath dir name ['*'] (chars% "*.ckpt") := by
  have e : defaultPath name = [] ++ ('`' :: (chars% "--checkpoint`")) ++
      ('/' :: (name ++ (chars% "/lightning_logs/version_*/checkpoints/*.ckpt"))) := rfl
  have hr : '`' ∉ '/' :: (name ++ (chars% "/lightning_logs/version_*/checkpoints/*.ckpt")) := by
    have := (names_ok hn).2.1
    rw [List.mem_cons, List.mem_append]
    rintro (h | h | h)
    · revert h; decide
    · exact this h
    · revert h; decide
  rw [pyReplace, e, pySplit_cons _ _ _ _ (by simp), pySplit_word _ _ _ hr]
  simp [pyJoin, ckptPath]

theorem pySplit_under_star (w rest : Str) (h : '*' ∉ w) :
    pySplit ['_', '*'] (w ++ ['_', '*'] ++ rest) = w :: pySplit ['_', '*'] rest := by
  simp only [pySplit]
  induction w with
  | nil =>
    have hp : ['_', '*'].isPrefixOf ('_' :: '*' :: rest) = true := by simp [List.isPrefixOf]
    change splitSub _ 0 ('_' :: '*' :: rest) = _
    rw [splitSub, if_pos hp]
    rfl
  | cons c w ih =>
    simp only [List.mem_cons, not_or] at h
    have hp : ¬ ['_', '*'].isPrefixOf (c :: (w ++ ['_', '*'] ++ rest)) = true := by
      cases w with
      | nil => simp [List.isPrefixOf]
      | cons d w =>
        simp only [List.mem_cons, not_or] at h
        simp [List.isPrefixOf, h.2.1]
    rw [List.cons_append, List.cons_append, splitSub, if_neg hp, ih h.2]

theorem glob_version {dir : Str} (hd : Plain dir) {name : Str} (hn : name ∈ modelNames) (v : Int) :
    pyReplace (chars% "_*") ('_' :: intStr v) (ckptPath dir name ['*'] (chars% "*.ckpt")) =
      ckptPath dir name (intStr v) (chars% "*.ckpt") := by
  have e : ckptPath dir name ['*'] (chars% "*.ckpt") =
      (dir ++ '/' :: (name ++ (chars% "/lightning_logs/version"))) ++ ['_', '*'] ++ (chars% "/checkpoints/*.ckpt") := by
    simp [ckptPath]
  have hw : '*' ∉ dir ++ '/' :: (name ++ (chars% "/lightning_logs/version")) := by
    have := (names_ok hn).2.2.1
    rw [List.mem_append, List.mem_cons, List.mem_append]
    rintro (h | h | h | h)
    · exact hd.1 h
    · revert h; decide
    · exact this h
    · revert h; decide
  rw [pyReplace, e, pySplit_under_star _ _ hw, pySplit_word _ _ _ (by decide)]
  simp [pyJoin, ckptPath]

theorem match_path {dir : Str} (hd : Plain dir) {name : Str} (hn : name ∈ modelNames) (V : Str) (hV : '/' ∉ V) (s : Str) :
    pathMatch (ckptPath dir name V (chars% "*.ckpt")) s = true ↔
      ∃ d f, pySplit ['/'] s = pySplit ['/'] dir ++ [name, chars% "lightning_logs", d, chars% "checkpoints", f] ∧
        nameMatch ((chars% "version_") ++ V) d = true ∧ nameMatch (chars% "*.ckpt") f = true := by
  obtain ⟨h1, _, h2⟩ := names_ok hn
  rw [pathMatch_iff, split_ckptPath _ _ _ _ h1 hV (by decide), forall₂_plain (pySplit_plain hd)]
  have p1 : Plain (chars% "lightning_logs") := ⟨by decide, by decide, by decide⟩
  have p2 : Plain (chars% "checkpoints") := ⟨by decide, by decide, by decide⟩
  constructor
  · rintro ⟨ys, e, h⟩
    cases h with | cons a h => cases h with | cons b h => cases h with | cons c h => cases h with | cons d h =>
      cases h with | cons f h =>
        cases h
        rw [nameMatch_plain h2] at a
        rw [nameMatch_plain p1] at b
        rw [nameMatch_plain p2] at d
        subst a b d
        exact ⟨_, _, e, c, f⟩
  · rintro ⟨d, f, e, h3, h4⟩
    exact ⟨_, e, .cons ((nameMatch_plain h2 _).2 rfl) (.cons ((nameMatch_plain p1 _).2 rfl) (.cons h3
      (.cons ((nameMatch_plain p2 _).2 rfl) (.cons h4 .nil))))⟩

theorem match_version {dir : Str} (hd : Plain dir) {name : Str} (hn : name ∈ modelNames) (v : Int) (s : Str) :
    pathMatch (ckptPath dir name (intStr v) (chars% "*.ckpt")) s = true ↔
      ∃ f, CkptName f ∧ s = ckptPath dir name (intStr v) f := by
  have hc : ∀ c, c.isDigit = false → c ≠ '-' → c ∉ intStr v := by
    intro c h1 h2 h
    rcases intStr_chars v c h with h | h
    · rw [h1] at h; cases h
    · exact h2 h
  have hV := hc '/' (by decide) (by decide)
  have hp : Plain ((chars% "version_") ++ intStr v) := by
    refine ⟨?_, ?_, ?_⟩ <;> rw [List.mem_append] <;> rintro (h | h)
    · revert h; decide
    · exact hc _ (by decide) (by decide) h
    · revert h; decide
    · exact hc _ (by decide) (by decide) h
    · revert h; decide
    · exact hc _ (by decide) (by decide) h
  rw [match_path hd hn _ hV]
  constructor
  · rintro ⟨d, f, e, h1, h2⟩
    have hf : '/' ∉ f := mem_pySplit '/' s f (by rw [e]; simp)
    rw [nameMatch_plain hp] at h1
    subst h1
    refine ⟨f, (nameMatch_ckpt f hf).1 h2, pySplit_inj (a := '/') ?_⟩
    rw [e, split_ckptPath _ _ _ _ (names_ok hn).1 hV hf]
  · rintro ⟨f, h, rfl⟩
    exact ⟨_, f, split_ckptPath _ _ _ _ (names_ok hn).1 hV h.1, (nameMatch_plain hp _).2 rfl,
      (nameMatch_ckpt f h.1).2 h⟩

theorem match_any {dir : Str} (hd : Plain dir) {name : Str} (hn : name ∈ modelNames) (s : Str) :
    pathMatch (ckptPath dir name ['*'] (chars% "*.ckpt")) s = true ↔
      ∃ t f, '/' ∉ t ∧ CkptName f ∧ s = ckptPath dir name t f := by
  rw [match_path hd hn _ (by decide)]
  constructor
  · rintro ⟨d, f, e, h1, h2⟩
    have hf : '/' ∉ f := mem_pySplit '/' s f (by rw [e]; simp)
    have hd' : '/' ∉ d := mem_pySplit '/' s d (by rw [e]; simp)
    obtain ⟨t, rfl⟩ := (nameMatch_version d).1 h1
    have ht : '/' ∉ t := fun h => hd' (List.mem_append_right _ h)
    refine ⟨t, f, ht, (nameMatch_ckpt f hf).1 h2, pySplit_inj (a := '/') ?_⟩
    rw [e, split_ckptPath _ _ _ _ (names_ok hn).1 ht hf]
  · rintro ⟨t, f, ht, h, rfl⟩
    exact ⟨_, f, split_ckptPath _ _ _ _ (names_ok hn).1 ht h.1, (nameMatch_version _).2 ⟨t, rfl⟩,
      (nameMatch_ckpt f h.1).2 h⟩

theorem find_last (paths : List Str) (checkpoint name : Str) (m : Str × Option Int) :
    (findCheckpoint paths checkpoint name m = none ↔
      ∀ q ∈ paths, pathMatch (checkpointGlob checkpoint name m) q = false) ∧
    ∀ p, findCheckpoint paths checkpoint name m = some p →
      p ∈ paths ∧ pathMatch (checkpointGlob checkpoint name m) p = true ∧
      ∀ q ∈ paths, pathMatch (checkpointGlob checkpoint name m) q = true → textLe q p = true := by
  obtain ⟨h1, h2⟩ := last_sorted (paths.filter (pathMatch (checkpointGlob checkpoint name m)))
  refine ⟨?_, fun p hp => ?_⟩
  · rw [findCheckpoint, h1, List.filter_eq_nil_iff]
    simp
  · obtain ⟨h3, h4⟩ := h2 p hp
    rw [List.mem_filter] at h3
    exact ⟨h3.1, h3.2, fun q hq hm => h4 q (List.mem_filter.2 ⟨hq, hm⟩)⟩

/-! ### C126 -/

/-- C126: a checkpoint which is given by its path is the one which is loaded; without it, the script exits. -/
theorem C126_given (paths : List Str) (dir name path : Str) (hp : Plain path) (hne : path ≠ defaultPath name) :
    findCheckpoint paths dir name (path, none) = if path ∈ paths then some path else none := by
  have hg : checkpointGlob dir name (path, none) = path := by simp [checkpointGlob, hne]
  have hm : ∀ q, pathMatch path q = true ↔ q = path := by
    intro q
    have := forall₂_plain (pySplit_plain hp) [] (pySplit ['/'] q)
    rw [List.append_nil] at this
    rw [pathMatch_iff, this]
    constructor
    · rintro ⟨ys, e, h⟩
      cases h
      rw [List.append_nil] at e
      exact pySplit_inj e
    · rintro rfl
      exact ⟨[], by simp, .nil⟩
  obtain ⟨h1, h2⟩ := find_last paths dir name (path, none)
  rw [hg] at h1 h2
  by_cases h : path ∈ paths
  · rw [if_pos h]
    cases hc : findCheckpoint paths dir name (path, none) with
    | none =>
      have := h1.1 hc path h
      rw [(hm path).2 rfl] at this
      cases this
    | some p => rw [(hm p).1 (h2 p hc).2.1]
  · rw [if_neg h, h1]
    intro q hq
    rw [← Bool.not_eq_true, hm]
    rintro rfl
    exact h hq

/-- C126: with a version, the checkpoint is one of that version, whatever path is given; without such a checkpoint
the script exits. -/
theorem C126_version (paths : List Str) (dir : Str) (hd : Plain dir) (name : Str) (hn : name ∈ modelNames)
    (path : Str) (v : Int) :
    (findCheckpoint paths dir name (path, some v) = none ↔
      ∀ f, CkptName f → ckptPath dir name (intStr v) f ∉ paths) ∧
    ∀ p, findCheckpoint paths dir name (path, some v) = some p →
      p ∈ paths ∧ ∃ f, CkptName f ∧ p = ckptPath dir name (intStr v) f := by
  have hg : checkpointGlob dir name (path, some v) = ckptPath dir name (intStr v) (chars% "*.ckpt") := by
    simp only [checkpointGlob, Option.isSome_some, or_true, if_true]
    rw [glob_default dir hn, glob_version hd hn]
  obtain ⟨h1, h2⟩ := find_last paths dir name (path, some v)
  rw [hg] at h1 h2
  refine ⟨?_, fun p hp => ?_⟩
  · rw [h1]
    constructor
    · intro h f hf hq
      have := h _ hq
      rw [(match_version hd hn v _).2 ⟨f, hf, rfl⟩] at this
      cases this
    · intro h q hq
      rw [← Bool.not_eq_true, match_version hd hn]
      rintro ⟨f, hf, rfl⟩
      exact h f hf hq
  · obtain ⟨a, b, _⟩ := h2 p hp
    exact ⟨a, (match_version hd hn v p).1 b⟩

/-- The checkpoint without path and version is the last one of all versions. -/
theorem find_any (paths : List Str) (dir : Str) (hd : Plain dir) (name : Str) (hn : name ∈ modelNames) :
    (findCheckpoint paths dir name (defaultPath name, none) = none ↔
      ∀ t f, '/' ∉ t → CkptName f → ckptPath dir name t f ∉ paths) ∧
    ∀ p, findCheckpoint paths dir name (defaultPath name, none) = some p →
      p ∈ paths ∧ (∃ t f, '/' ∉ t ∧ CkptName f ∧ p = ckptPath dir name t f) ∧
      ∀ t f, '/' ∉ t → CkptName f → ckptPath dir name t f ∈ paths → textLe (ckptPath dir name t f) p = true := by
  have hg : checkpointGlob dir name (defaultPath name, none) = ckptPath dir name ['*'] (chars% "*.ckpt") := by
    simp only [checkpointGlob, true_or, if_true]
    exact glob_default dir hn
  obtain ⟨h1, h2⟩ := find_last paths dir name (defaultPath name, none)
  rw [hg] at h1 h2
  refine ⟨?_, fun p hp => ?_⟩
  · rw [h1]
    constructor
    · intro h t f ht hf hq
      have := h _ hq
      rw [(match_any hd hn _).2 ⟨t, f, ht, hf, rfl⟩] at this
      cases this
    · intro h q hq
      rw [← Bool.not_eq_true, match_any hd hn]
      rintro ⟨t, f, ht, hf, rfl⟩
      exact h t f ht hf hq
  · obtain ⟨a, b, c⟩ := h2 p hp
    exact ⟨a, (match_any hd hn p).1 b, fun t f ht hf hq => c _ hq ((match_any hd hn _).2 ⟨t, f, ht, hf, rfl⟩)⟩

theorem ckptPath_le (dir name t t' f f' : Str) : textLe (ckptPath dir name t f) (ckptPath dir name t' f') =
    textLe (t ++ '/' :: ((chars% "checkpoints") ++ '/' :: f)) (t' ++ '/' :: ((chars% "checkpoints") ++ '/' :: f')) := by
  have e : ∀ t f, ckptPath dir name t f = (dir ++ '/' :: (name ++ '/' :: ((chars% "lightning_logs") ++ '/' ::
      (chars% "version_")))) ++ (t ++ '/' :: ((chars% "checkpoints") ++ '/' :: f)) := by
    intro t f
    simp [ckptPath]
  rw [e, e, textLe_append]

theorem digit_bounds (c : Char) (h : c.isDigit = true) : 48 ≤ c.toNat ∧ c.toNat ≤ 57 := by
  simp only [Char.isDigit, Bool.and_eq_true, decide_eq_true_eq] at h
  exact ⟨h.1, h.2⟩

theorem digits_value (c : Char) (s : Str) : Nat.ofDigitChars 10 (c :: s) 0 =
    (c.toNat - 48) * 10 ^ s.length + Nat.ofDigitChars 10 s 0 := by
  rw [Nat.ofDigitChars_cons, Nat.ofDigitChars_eq_ofDigitChars_zero]
  simp [Nat.mul_comm]

theorem digits_lt (s : Str) (h : ∀ c ∈ s, c.isDigit = true) : Nat.ofDigitChars 10 s 0 < 10 ^ s.length := by
  induction s with
  | nil => simp
  | cons c s ih =>
    have h1 := ih fun c hc => h c (List.mem_cons_of_mem _ hc)
    have h2 := digit_bounds c (h c (by simp))
    rw [digits_value, List.length_cons, Nat.pow_succ]
    have : (c.toNat - 48) * 10 ^ s.length ≤ 9 * 10 ^ s.length := Nat.mul_le_mul_right _ (by omega)
    omega

/-- Numbers with equally many digits are in order as their texts are. -/
theorem digits_le (s t r r' : Str) (hl : s.length = t.length) (hs : ∀ c ∈ s, c.isDigit = true)
    (ht : ∀ c ∈ t, c.isDigit = true) (h : textLe (s ++ r) (t ++ r') = true) :
    Nat.ofDigitChars 10 s 0 ≤ Nat.ofDigitChars 10 t 0 := by
  induction s generalizing t with
  | nil =>
    cases t with
    | nil => simp
    | cons => cases hl
  | cons c s ih =>
    cases t with
    | nil => cases hl
    | cons d t =>
      have hl' : s.length = t.length := by simpa using hl
      have hs' := fun c hc => hs c (List.mem_cons_of_mem _ hc)
      have ht' := fun c hc => ht c (List.mem_cons_of_mem _ hc)
      have b1 := digit_bounds c (hs c (by simp))
      have b2 := digit_bounds d (ht d (by simp))
      rw [digits_value, digits_value, hl']
      simp only [List.cons_append, textLe] at h
      split at h
      · have h1 := digits_lt s hs'
        rw [hl'] at h1
        have : (c.toNat - 48 + 1) * 10 ^ t.length ≤ (d.toNat - 48) * 10 ^ t.length :=
          Nat.mul_le_mul_right _ (by omega)
        rw [Nat.add_mul] at this
        omega
      · split at h
        · rename_i e
          subst e
          have := ih t hl' hs' ht' h
          omega
        · cases h

theorem intStr_nat (v : Nat) : intStr (v : Int) = Nat.toDigits 10 v := by
  rw [intStr_eq, if_neg (by omega)]
  simp

/-- C126: without path and version, the checkpoint is one of the newest version if all versions have equally many
digits; without any checkpoint the script exits. -/
theorem C126_latest_partial (paths : List Str) (dir : Str) (hd : Plain dir) (name : Str) (hn : name ∈ modelNames)
    (n : Nat) (hv : ∀ t f, CkptName f → '/' ∉ t → ckptPath dir name t f ∈ paths →
      ∃ v : Nat, t = intStr v ∧ (intStr v).length = n) :
    (findCheckpoint paths dir name (defaultPath name, none) = none ↔
      ∀ (v : Nat) f, CkptName f → ckptPath dir name (intStr v) f ∉ paths) ∧
    ∀ p, findCheckpoint paths dir name (defaultPath name, none) = some p →
      p ∈ paths ∧ ∃ (v : Nat) (f : Str), CkptName f ∧ p = ckptPath dir name (intStr v) f ∧
        ∀ (v' : Nat) f', CkptName f' → ckptPath dir name (intStr v') f' ∈ paths → v' ≤ v := by
  have hs : ∀ v : Nat, '/' ∉ intStr (v : Int) := by
    intro v h
    rcases intStr_chars _ _ h with h | h <;> revert h <;> decide
  obtain ⟨h1, h2⟩ := find_any paths dir hd name hn
  refine ⟨?_, fun p hp => ?_⟩
  · rw [h1]
    constructor
    · exact fun h v f hf => h _ f (hs v) hf
    · intro h t f ht hf hq
      obtain ⟨v, rfl, _⟩ := hv t f hf ht hq
      exact h v f hf hq
  · obtain ⟨a, ⟨t, f, ht, hf, rfl⟩, c⟩ := h2 p hp
    obtain ⟨v, rfl, hl⟩ := hv t f hf ht a
    refine ⟨a, v, f, hf, rfl, fun v' f' hf' hq => ?_⟩
    obtain ⟨w, e, hl'⟩ := hv _ f' hf' (hs v') hq
    rw [← e] at hl'
    have hle := c _ f' (hs v') hf' hq
    rw [ckptPath_le] at hle
    have := digits_le _ _ _ _ (hl'.trans hl.symm) (by
      intro c hc
      rw [intStr_nat] at hc
      exact digit_toDigits _ _ hc) (by
      intro c hc
      rw [intStr_nat] at hc
      exact digit_toDigits _ _ hc) hle
    rw [intStr_nat, intStr_nat, Nat.ofDigitChars_ten_toDigits, Nat.ofDigitChars_ten_toDigits] at this
    exact this

theorem two_digits : ∀ v : Fin 80, ∃ c s, Nat.toDigits 10 (v + 10) = c :: s ∧ c.toNat < 57 := by
  have : ∀ v : Fin 80, ((Nat.toDigits 10 (v + 10)).head?.any fun c => decide (c.toNat < 57)) = true := by
    decide +kernel
  intro v
  have h := this v
  cases e : Nat.toDigits 10 (v + 10) with
  | nil => rw [e] at h; cases h
  | cons c s =>
    rw [e] at h
    exact ⟨c, s, rfl, by simpa using h⟩

/-- C126 fails without that: as soon as there is a version 9, none of the versions 10 to 89 is ever loaded. -/
theorem C126_latest_fails (paths : List Str) (dir : Str) (hd : Plain dir) (name : Str) (hn : name ∈ modelNames)
    (f : Str) (hf : CkptName f) (h9 : ckptPath dir name (intStr 9) f ∈ paths) :
    ∃ p, findCheckpoint paths dir name (defaultPath name, none) = some p ∧
      ∀ (v : Nat) f', 10 ≤ v → v < 90 → p ≠ ckptPath dir name (intStr v) f' := by
  obtain ⟨h1, h2⟩ := find_any paths dir hd name hn
  have hs : '/' ∉ intStr 9 := by decide +kernel
  cases hc : findCheckpoint paths dir name (defaultPath name, none) with
  | none => exact absurd h9 (h1.1 hc _ f hs hf)
  | some p =>
    refine ⟨p, rfl, ?_⟩
    rintro v f' hv hv' rfl
    have hle := (h2 _ hc).2.2 _ f hs hf h9
    obtain ⟨c, s, e, hlt⟩ := two_digits ⟨v - 10, by omega⟩
    rw [show v - 10 + 10 = v by omega] at e
    have e9 : intStr 9 = ['9'] := by decide +kernel
    rw [ckptPath_le, intStr_nat, e, e9] at hle
    simp only [List.cons_append, List.nil_append, textLe] at hle
    have : ('9' : Char).toNat = 57 := by decide
    rw [if_neg (by omega), if_neg (by rintro rfl; omega)] at hle
    cases hle

/-! ### The models which are loaded -/

theorem loadFirst_ok {μ : Type} (load : Str → Str → Py μ) (path : Str) (cs : List Str) (m : μ) :
    loadFirst load path cs = .ok m ↔
      ∃ before c after, cs = before ++ c :: after ∧ load c path = .ok m ∧
        ∀ b ∈ before, ∃ e, load b path = .error e := by
  induction cs with
  | nil => simp [loadFirst]
  | cons c cs ih =>
    simp only [loadFirst]
    cases hc : load c path with
    | ok m' =>
      constructor
      · intro h
        cases h
        exact ⟨[], c, cs, rfl, hc, by simp⟩
      · rintro ⟨b, d, a, e, h1, h2⟩
        cases b with
        | nil =>
          cases e
          rw [hc] at h1
          cases h1
          rfl
        | cons b bs =>
          cases e
          obtain ⟨x, hx⟩ := h2 c (by simp)
          rw [hc] at hx
          cases hx
    | error x =>
      simp only [ih]
      constructor
      · rintro ⟨b, d, a, rfl, h1, h2⟩
        refine ⟨c :: b, d, a, rfl, h1, ?_⟩
        intro y hy
        rcases List.mem_cons.1 hy with rfl | hy
        · exact ⟨x, hc⟩
        · exact h2 y hy
      · rintro ⟨b, d, a, e, h1, h2⟩
        cases b with
        | nil =>
          cases e
          rw [hc] at h1
          cases h1
        | cons b bs =>
          cases e
          exact ⟨bs, d, a, rfl, h1, fun y hy => h2 y (by simp [hy])⟩

theorem loadFirst_error {μ : Type} (load : Str → Str → Py μ) (path : Str) (cs : List Str) (x : H5Stop)
    (h : loadFirst load path cs = .error x) :
    x = .raised .valueError ∧ ∀ c ∈ cs, ∃ e, load c path = .error e := by
  induction cs with
  | nil =>
    cases h
    exact ⟨rfl, by simp⟩
  | cons c cs ih =>
    simp only [loadFirst] at h
    cases hc : load c path with
    | ok m' => rw [hc] at h; cases h
    | error y =>
      rw [hc] at h
      obtain ⟨h1, h2⟩ := ih h
      refine ⟨h1, fun d hd => ?_⟩
      rcases List.mem_cons.1 hd with rfl | hd
      · exact ⟨y, hc⟩
      · exact h2 d hd

/-- The model `m` of the name `name` is loaded from the checkpoint which is found for it, by the first of the classes
for that name which can load it. -/
def Loaded {μ : Type} (paths : List Str) (load : Str → Str → Py μ) (checkpoint name : Str) (classes : List Str)
    (arg : Str × Option Int) (m : μ) : Prop :=
  ∃ path before c after, findCheckpoint paths checkpoint name arg = some path ∧ classes = before ++ c :: after ∧
    load c path = .ok m ∧ ∀ b ∈ before, ∃ e, load b path = .error e

theorem loadModel_ok {μ : Type} (paths : List Str) (load : Str → Str → Py μ) (checkpoint name : Str)
    (classes : List Str) (arg : Str × Option Int) (r : Str × μ) :
    loadModel paths load checkpoint ((name, classes), arg) = .ok r ↔
      r.1 = name ∧ Loaded paths load checkpoint name classes arg r.2 := by
  simp only [loadModel, Loaded]
  cases findCheckpoint paths checkpoint name arg with
  | none => simp
  | some path =>
    simp only
    cases hl : loadFirst load path classes with
    | ok m =>
      obtain ⟨a, b⟩ := r
      constructor
      · intro h
        cases h
        obtain ⟨x, c, y, h⟩ := (loadFirst_ok load path classes m).1 hl
        exact ⟨rfl, path, x, c, y, rfl, h⟩
      · rintro ⟨rfl, _, x, c, y, e, h⟩
        cases e
        have := (loadFirst_ok load path classes b).2 ⟨x, c, y, h⟩
        rw [hl] at this
        cases this
        rfl
    | error e =>
      simp only [reduceCtorEq, false_iff]
      rintro ⟨-, _, x, c, y, e', h⟩
      cases e'
      have := (loadFirst_ok load path classes r.2).2 ⟨x, c, y, h⟩
      rw [hl] at this
      cases this

/-- C126: the models which are loaded are the five of the search, each from the checkpoint found for it, and the
initial chord model from its own file; nothing else. -/
theorem C126_loaded {μ : Type} (paths : List Str) (load : Str → Str → Py μ) (loadJson : Str → Py μ)
    (checkpoint icmJson : Str) (ccm ctm csm ktm ksm : Str × Option Int) (ms : List (Str × μ)) :
    loadModels paths load loadJson checkpoint icmJson [ccm, ctm, csm, ktm, ksm] = .ok ms ↔
      ∃ a b c d e i,
        ms = [(chars% "ccm", a), (chars% "ctm", b), (chars% "csm", c), (chars% "ktm", d), (chars% "ksm", e),
          (chars% "icm", i)] ∧
        Loaded paths load checkpoint (chars% "ccm") [chars% "SimpleChordClassifier"] ccm a ∧
        Loaded paths load checkpoint (chars% "ctm") [chars% "SimpleChordTransitionModel"] ctm b ∧
        Loaded paths load checkpoint (chars% "csm")
          [chars% "SimpleChordSequenceModel", chars% "PitchBasedChordSequenceModel"] csm c ∧
        Loaded paths load checkpoint (chars% "ktm") [chars% "SimpleKeyTransitionModel"] ktm d ∧
        Loaded paths load checkpoint (chars% "ksm") [chars% "SimpleKeySequenceModel"] ksm e ∧
        loadJson (pyReplace (chars% "`--checkpoint`") checkpoint icmJson) = .ok i := by
  have bind_iff : ∀ {α β : Type} (x : Except H5Stop α) (f : α → Except H5Stop β) (y : β),
      (x >>= f) = .ok y ↔ ∃ a, x = .ok a ∧ f a = .ok y := by
    intro α β x f y
    cases x with
    | ok a => simp [bind, Except.bind]
    | error e => simp [bind, Except.bind]
  have hj : ∀ i, loadIcm loadJson checkpoint icmJson = .ok i ↔
      i.1 = (chars% "icm") ∧ loadJson (pyReplace (chars% "`--checkpoint`") checkpoint icmJson) = .ok i.2 := by
    rintro ⟨n, i⟩
    simp only [loadIcm]
    cases loadJson (pyReplace (chars% "`--checkpoint`") checkpoint icmJson) with
    | ok m => simp [eq_comm]
    | error e => simp
  simp only [loadModels, modelClasses, List.zip_cons_cons, List.zip_nil_right, List.mapM_cons, List.mapM_nil,
    bind_iff, pure, Except.pure, Except.ok.injEq, loadModel_ok, hj]
  constructor
  · rintro ⟨_, ⟨⟨_, a⟩, ⟨rfl, ha⟩, _, ⟨⟨_, b⟩, ⟨rfl, hb⟩, _, ⟨⟨_, c⟩, ⟨rfl, hc⟩, _, ⟨⟨_, d⟩, ⟨rfl, hd⟩, _,
      ⟨⟨_, e⟩, ⟨rfl, he⟩, _, rfl, rfl⟩, rfl⟩, rfl⟩, rfl⟩, rfl⟩, ⟨_, i⟩, ⟨rfl, hi⟩, rfl⟩
    exact ⟨a, b, c, d, e, i, rfl, ha, hb, hc, hd, he, hi⟩
  · rintro ⟨a, b, c, d, e, i, rfl, ha, hb, hc, hd, he, hi⟩
    exact ⟨_, ⟨(_, a), ⟨rfl, ha⟩, _, ⟨(_, b), ⟨rfl, hb⟩, _, ⟨(_, c), ⟨rfl, hc⟩, _, ⟨(_, d), ⟨rfl, hd⟩, _,
      ⟨(_, e), ⟨rfl, he⟩, _, rfl, rfl⟩, rfl⟩, rfl⟩, rfl⟩, rfl⟩, (_, i), ⟨rfl, hi⟩, rfl⟩

/-- C126: the script exits with code 2 exactly if a checkpoint is missing and all models before it are loaded. -/
theorem C126_exits {μ : Type} (paths : List Str) (load : Str → Str → Py μ) (loadJson : Str → Py μ)
    (checkpoint icmJson : Str) (models : List (Str × Option Int)) (code : Nat) :
    loadModels paths load loadJson checkpoint icmJson models = .error (.exit code) ↔
      code = 2 ∧ ∃ k : Nat, ∃ name classes arg, modelClasses[k]? = some (name, classes) ∧ models[k]? = some arg ∧
        findCheckpoint paths checkpoint name arg = none ∧
        ∀ j : Nat, j < k → ∀ name' classes' arg', modelClasses[j]? = some (name', classes') → models[j]? = some arg' →
          ∃ m, Loaded paths load checkpoint name' classes' arg' m := by
  have key : ∀ (cs : List (Str × List Str)) (models : List (Str × Option Int)),
      (cs.zip models).mapM (loadModel paths load checkpoint) = .error (.exit code) ↔
      code = 2 ∧ ∃ k : Nat, ∃ name classes arg, cs[k]? = some (name, classes) ∧ models[k]? = some arg ∧
        findCheckpoint paths checkpoint name arg = none ∧
        ∀ j : Nat, j < k → ∀ name' classes' arg', cs[j]? = some (name', classes') → models[j]? = some arg' →
          ∃ m, Loaded paths load checkpoint name' classes' arg' m := by
    intro cs
    induction cs with
    | nil => intro models; simp [pure, Except.pure]
    | cons x cs ih =>
      obtain ⟨n, c⟩ := x
      intro models
      cases models with
      | nil => simp [pure, Except.pure]
      | cons a models =>
        rw [List.zip_cons_cons, List.mapM_cons]
        cases hx : loadModel paths load checkpoint ((n, c), a) with
        | ok r =>
          have hr := (loadModel_ok _ _ _ _ _ _ _).1 hx
          have : ∀ y : Except H5Stop (List (Str × μ)), (((Except.ok r : Except H5Stop (Str × μ)) >>= fun r =>
              y >>= fun rs => pure (r :: rs)) = .error (.exit code)) ↔ y = .error (.exit code) := by
            intro y
            cases y with
            | ok v => simp [bind, Except.bind, pure, Except.pure]
            | error e => simp [bind, Except.bind]
          rw [this, ih]
          refine and_congr_right fun _ => ?_
          constructor
          · rintro ⟨k, name, classes, arg, h1, h2, h3, h4⟩
            refine ⟨k + 1, name, classes, arg, by simpa using h1, by simpa using h2, h3, ?_⟩
            intro j hj n' c' a' e1 e2
            cases j with
            | zero =>
              simp only [List.getElem?_cons_zero, Option.some.injEq, Prod.mk.injEq] at e1 e2
              obtain ⟨rfl, rfl⟩ := e1
              subst e2
              exact ⟨_, hr.2⟩
            | succ j => exact h4 j (by omega) _ _ _ (by simpa using e1) (by simpa using e2)
          · rintro ⟨k, name, classes, arg, h1, h2, h3, h4⟩
            cases k with
            | zero =>
              simp only [List.getElem?_cons_zero, Option.some.injEq, Prod.mk.injEq] at h1 h2
              obtain ⟨rfl, rfl⟩ := h1
              subst h2
              obtain ⟨p, _, _, _, e, _⟩ := hr.2
              rw [h3] at e
              cases e
            | succ k =>
              refine ⟨k, name, classes, arg, by simpa using h1, by simpa using h2, h3, ?_⟩
              intro j hj n' c' a' e1 e2
              exact h4 (j + 1) (by omega) n' c' a' (by simpa using e1) (by simpa using e2)
        | error e =>
          change (.error e = Except.error (H5Stop.exit code)) ↔ _
          rw [Except.error.injEq]
          have hno : ∀ m, ¬ Loaded paths load checkpoint n c a m := by
            intro m h
            have := (loadModel_ok paths load checkpoint n c a (n, m)).2 ⟨rfl, h⟩
            rw [hx] at this
            cases this
          simp only [loadModel] at hx
          constructor
          · rintro rfl
            cases hf : findCheckpoint paths checkpoint n a with
            | none =>
              rw [hf] at hx
              cases hx
              exact ⟨rfl, 0, n, c, a, rfl, rfl, hf, fun j hj => absurd hj (by omega)⟩
            | some p =>
              rw [hf] at hx
              simp only at hx
              cases hl : loadFirst load p c with
              | ok m => rw [hl] at hx; cases hx
              | error y =>
                rw [hl] at hx
                cases hx
                cases (loadFirst_error _ _ _ _ hl).1
          · rintro ⟨rfl, k, name, classes, arg, h1, h2, h3, h4⟩
            cases k with
            | zero =>
              simp only [List.getElem?_cons_zero, Option.some.injEq, Prod.mk.injEq] at h1 h2
              obtain ⟨rfl, rfl⟩ := h1
              subst h2
              rw [h3] at hx
              cases hx
              rfl
            | succ k =>
              obtain ⟨m, h⟩ := h4 0 (by omega) n c a rfl rfl
              exact absurd h (hno m)
  rw [← key]
  simp only [loadModels]
  cases (modelClasses.zip models).mapM (loadModel paths load checkpoint) with
  | error e => simp [bind, Except.bind]
  | ok r =>
    simp only [bind, Except.bind, reduceCtorEq, iff_false]
    simp only [loadIcm]
    cases loadJson (pyReplace (chars% "`--checkpoint`") checkpoint icmJson) <;> simp

/-! ### Examples -/

/-- Three versions of the chord classifier, and a hidden file. -/
def exPaths : List Str :=
  [chars% "ck/ccm/lightning_logs/version_0/checkpoints/e.ckpt", chars% "ck/ccm/lightning_logs/version_9/checkpoints/e.ckpt",
    chars% "ck/ccm/lightning_logs/version_10/checkpoints/e.ckpt", chars% "ck/ccm/lightning_logs/version_11/checkpoints/.e.ckpt"]

example : exPaths[1] = ckptPath (chars% "ck") (chars% "ccm") (intStr 9) (chars% "e.ckpt") := by decide +kernel
example : CkptName (chars% "e.ckpt") := by
  refine ⟨by decide, by decide, ?_⟩
  exact ⟨chars% "e", rfl⟩
example : findCheckpoint exPaths (chars% "ck") (chars% "ccm") (defaultPath (chars% "ccm"), none) = exPaths[1]? := by
  decide +kernel
example : findCheckpoint exPaths (chars% "ck") (chars% "ccm") (chars% "other", some 10) = exPaths[2]? := by
  decide +kernel
example : findCheckpoint exPaths (chars% "ck") (chars% "ccm") (defaultPath (chars% "ccm"), some 11) = none := by
  decide +kernel
example : findCheckpoint exPaths (chars% "ck") (chars% "ccm") (exPaths[0], none) = some exPaths[0] := by
  decide +kernel

/-- A loader which knows one class only. -/
def exLoad (c path : Str) : Py Str :=
  if c = (chars% "PitchBasedChordSequenceModel") then .ok path else .error .keyError

example : loadFirst exLoad (chars% "p") [chars% "SimpleChordSequenceModel", chars% "PitchBasedChordSequenceModel"] =
    .ok (chars% "p") := rfl
example : loadModels exPaths (fun _ p => .ok p) .ok (chars% "ck") (chars% "`--checkpoint`/i.json")
    (modelNames.map fun n => (exPaths[0], if n = (chars% "ccm") then some 10 else none)) = .ok
      [(chars% "ccm", exPaths[2]), (chars% "ctm", exPaths[0]), (chars% "csm", exPaths[0]), (chars% "ktm", exPaths[0]),
        (chars% "ksm", exPaths[0]), (chars% "icm", chars% "ck/i.json")] := by
  refine (C126_loaded _ _ _ _ _ _ _ _ _ _ _).2
    ⟨_, _, _, _, _, _, rfl, ⟨exPaths[2], [], _, _, ?_, rfl, rfl, by simp⟩, ⟨exPaths[0], [], _, _, ?_, rfl, rfl, by simp⟩,
      ⟨exPaths[0], [], _, _, ?_, rfl, rfl, by simp⟩, ⟨exPaths[0], [], _, _, ?_, rfl, rfl, by simp⟩,
      ⟨exPaths[0], [], _, _, ?_, rfl, rfl, by simp⟩, by decide +kernel⟩ <;> decide +kernel

end Verif.Checkpoints
