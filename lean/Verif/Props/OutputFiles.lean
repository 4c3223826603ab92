import Verif.OutputFiles
import Verif.Lemmas.PyStr

/-!
# C108: files of the pieces
-/

namespace Verif.Output

/-- A piece as `load_pieces` names it: its id and its path in the input directory, of the given kind (`tsv` or `mxl`). -/
structure Source where
  id : Nat
  folders : List Str
  stem : Str
  deriving DecidableEq

/-- `"{id}: {folders}/{stem}{ext}"`. -/
def Source.name (ext : Str) (s : Source) : Str :=
  intStr s.id ++ [':'] ++ [' '] ++ pyJoin ['/'] (s.folders ++ [s.stem ++ ext])

/-- A component of a path: not empty, not `.`, without `/`. The code also needs that there is no space. -/
def Component (c : Str) : Prop := c ≠ [] ∧ c ≠ ['.'] ∧ '/' ∉ c ∧ ' ' ∉ c

/-- The path of a piece consists of components, and the file has a name before its extension. -/
def Source.Valid (s : Source) : Prop := (∀ c ∈ s.folders, Component c) ∧ s.stem ≠ [] ∧ '/' ∉ s.stem ∧ ' ' ∉ s.stem

/-- An extension: a full stop and three characters. -/
def Extension (ext : Str) : Prop := ext = ['.', 't', 's', 'v'] ∨ ext = ['.', 'm', 'x', 'l']

theorem Extension.comp {ext : Str} (h : Extension ext) {stem : Str} (h1 : stem ≠ []) (h2 : '/' ∉ stem)
    (h3 : ' ' ∉ stem) : Component (stem ++ ext) := by
  have e : ext.length = 4 ∧ '/' ∉ ext ∧ ' ' ∉ ext := by rcases h with rfl | rfl <;> decide
  refine ⟨by simp [h1], ?_, by simp [h2, e.2.1], by simp [h3, e.2.2]⟩
  intro hx
  have := congrArg List.length hx
  simp only [List.length_append, e.1, List.length_singleton] at this
  omega

theorem join_free (a : Char) (ha : a ≠ '/') (ws : List Str) (h : ∀ w ∈ ws, a ∉ w) : a ∉ pyJoin ['/'] ws := by
  induction ws with
  | nil => simp [pyJoin]
  | cons w ws ih =>
    cases ws with
    | nil => simpa [pyJoin] using h w (by simp)
    | cons v ws =>
      have := ih (fun x hx => h x (List.mem_cons_of_mem _ hx))
      simp only [pyJoin, List.mem_append, List.mem_singleton, not_or] at this ⊢
      exact ⟨⟨h w (by simp), ha⟩, this⟩

theorem join_head (ws : List Str) (hne : ws ≠ []) (h : ∀ w ∈ ws, Component w) :
    (pyJoin ['/'] ws).head? ≠ some '/' := by
  have key : ∀ w : Str, Component w → ∀ r : Str, (w ++ r).head? ≠ some '/' := by
    intro w hw r
    cases w with
    | nil => exact absurd rfl hw.1
    | cons c w =>
      simp only [List.cons_append, List.head?_cons, ne_eq, Option.some.injEq]
      rintro rfl
      exact hw.2.2.1 (by simp)
  cases ws with
  | nil => exact absurd rfl hne
  | cons w ws =>
    cases ws with
    | nil => simpa [pyJoin] using key w (h w (by simp)) []
    | cons v ws =>
      rw [pyJoin, List.append_assoc]
      · exact key w (h w (by simp)) _
      · simp

theorem lastWord_name (ext : Str) (he : Extension ext) (s : Source) (hs : s.Valid) :
    lastWord (s.name ext) = pyJoin ['/'] (s.folders ++ [s.stem ++ ext]) := by
  have hc : ∀ w ∈ s.folders ++ [s.stem ++ ext], Component w := by
    intro w hw
    rw [List.mem_append, List.mem_singleton] at hw
    rcases hw with hw | rfl
    · exact hs.1 w hw
    · exact he.comp hs.2.1 hs.2.2.1 hs.2.2.2
  have h1 : ' ' ∉ intStr (s.id : Int) ++ [':'] := by
    rw [List.mem_append, not_or]
    refine ⟨fun h => ?_, by decide⟩
    rcases intStr_chars _ _ h with h | h <;> exact absurd h (by decide)
  rw [lastWord, Source.name, pySplit_cons ' ' [] _ _ h1,
    pySplit_word ' ' [] _ (join_free ' ' (by decide) _ fun w hw => (hc w hw).2.2.2)]
  rfl

theorem parts_name (ext : Str) (he : Extension ext) (s : Source) (hs : s.Valid) :
    pathParts (lastWord (s.name ext)) = s.folders ++ [s.stem ++ ext] ∧
      ∀ dir, pathIn dir (lastWord (s.name ext)) = dir ++ s.folders ++ [s.stem ++ ext] := by
  have hc : ∀ w ∈ s.folders ++ [s.stem ++ ext], Component w := by
    intro w hw
    rw [List.mem_append, List.mem_singleton] at hw
    rcases hw with hw | rfl
    · exact hs.1 w hw
    · exact he.comp hs.2.1 hs.2.2.1 hs.2.2.2
  have h1 : pathParts (lastWord (s.name ext)) = s.folders ++ [s.stem ++ ext] := by
    rw [lastWord_name ext he s hs, pathParts, pySplit_join '/' [] _ (fun w hw => (hc w hw).2.2.1) (by simp),
      List.filter_eq_self]
    intro w hw
    exact decide_eq_true ⟨(hc w hw).1, (hc w hw).2.1⟩
  refine ⟨h1, fun dir => ?_⟩
  rw [pathIn, h1, lastWord_name ext he s hs, if_neg (join_head _ (by simp) hc), List.append_assoc]

theorem writes_name {α : Type} (ext : Str) (he : Extension ext) (s : Source) (hs : s.Valid) (dir : FilePath)
    (t : PieceTables α) :
    evaluateWrites dir (some (s.name ext)) (some t) =
      [(dir ++ s.folders ++ [s.stem ++ resultsEnd], t.results), (dir ++ s.folders ++ [s.stem ++ midiEnd], t.midi),
        (dir ++ s.folders ++ [s.stem ++ ext], t.labels)] := by
  have e : ext.length = 4 := by rcases he with rfl | rfl <;> rfl
  simp only [evaluateWrites, (parts_name ext he s hs).2 dir]
  simp [e]

theorem lookup_of_unique {α : Type} (ws : List (FilePath × α)) (p : FilePath) (v : α) (h : (p, v) ∈ ws)
    (hu : ∀ v', (p, v') ∈ ws → v' = v) : ws.lookup p = some v := by
  induction ws with
  | nil => cases h
  | cons w ws ih =>
    obtain ⟨q, x⟩ := w
    rw [List.lookup_cons]
    by_cases hq : p = q
    · subst hq
      rw [beq_self_eq_true]
      exact congrArg some (hu x (by simp))
    · rw [beq_eq_false_iff_ne.mpr hq]
      refine ih ?_ fun v' hv' => hu v' (List.mem_cons_of_mem _ hv')
      rcases List.mem_cons.mp h with h | h
      · cases h; exact absurd rfl hq
      · exact h

theorem contentOf_unique {α : Type} (ws : List (FilePath × α)) (p : FilePath) (v : α) (h : (p, v) ∈ ws)
    (hu : ∀ v', (p, v') ∈ ws → v' = v) : contentOf ws p = some v :=
  lookup_of_unique _ p v (List.mem_reverse.mpr h) fun v' hv' => hu v' (List.mem_reverse.mp hv')

theorem contentOf_mem {α : Type} {ws : List (FilePath × α)} {p : FilePath} {v : α} (h : contentOf ws p = some v) :
    (p, v) ∈ ws := by
  rw [contentOf] at h
  rw [← List.mem_reverse]
  generalize ws.reverse = l at h
  induction l with
  | nil => cases h
  | cons w l ih =>
    obtain ⟨q, x⟩ := w
    rw [List.lookup_cons] at h
    by_cases hq : p = q
    · subst hq
      rw [beq_self_eq_true] at h
      cases h; simp
    · rw [beq_eq_false_iff_ne.mpr hq] at h
      exact List.mem_cons_of_mem _ (ih h)

/-- The pieces given to `evaluate`. -/
def named {β : Type} (ext : Str) (pieces : List (Source × Option β)) : List (Option Str × Option β) :=
  pieces.map fun p => (some (p.1.name ext), p.2)

theorem mem_evaluate {α : Type} (ext : Str) (he : Extension ext) (dir : FilePath)
    (pieces : List (Source × Option (PieceTables α))) (hv : ∀ p ∈ pieces, p.1.Valid) (q : FilePath) (v : α) :
    (q, v) ∈ evaluateFiles dir (named ext pieces) ↔ ∃ s t, (s, some t) ∈ pieces ∧
      ((q = dir ++ s.folders ++ [s.stem ++ resultsEnd] ∧ v = t.results) ∨
       (q = dir ++ s.folders ++ [s.stem ++ midiEnd] ∧ v = t.midi) ∨
       (q = dir ++ s.folders ++ [s.stem ++ ext] ∧ v = t.labels)) := by
  simp only [evaluateFiles, named, List.mem_flatMap, List.mem_map]
  constructor
  · rintro ⟨x, ⟨⟨s, o⟩, hm, rfl⟩, hx⟩
    cases o with
    | none => simp [evaluateWrites] at hx
    | some t =>
      simp only [writes_name ext he s (hv _ hm)] at hx
      refine ⟨s, t, hm, ?_⟩
      simpa using hx
  · rintro ⟨s, t, hm, h⟩
    refine ⟨_, ⟨(s, some t), hm, rfl⟩, ?_⟩
    simp only [writes_name ext he s (hv _ hm)]
    simpa using h

/-- Two files in folders. -/
theorem path_inj {dir f₁ f₂ : FilePath} {a b : Str} (h : dir ++ f₁ ++ [a] = dir ++ f₂ ++ [b]) : f₁ = f₂ ∧ a = b := by
  have := List.append_inj' h rfl
  exact ⟨List.append_cancel_left this.1, by simpa using this.2⟩

/-- `"_results"` and `"_results_midi"`. -/
def reserved : List Str := [['_', 'r', 'e', 's', 'u', 'l', 't', 's'],
  ['_', 'r', 'e', 's', 'u', 'l', 't', 's', '_', 'm', 'i', 'd', 'i']]

theorem ends_ne (a b : Str) : a ++ resultsEnd ≠ b ++ midiEnd := by
  intro h
  have := congrArg (fun l : Str => (l.reverse.drop 4).head?) h
  simp [resultsEnd, midiEnd] at this

theorem label_results {ext : Str} (he : Extension ext) {a b : Str} (h : a ++ ext = b ++ resultsEnd) :
    ∃ r ∈ reserved, a = b ++ r := by
  have hs : resultsEnd = ['_', 'r', 'e', 's', 'u', 'l', 't', 's'] ++ ['.', 't', 's', 'v'] := rfl
  rw [hs, ← List.append_assoc] at h
  refine ⟨_, List.mem_cons_self, (List.append_inj' h ?_).1⟩
  rcases he with rfl | rfl <;> rfl

theorem label_midi {ext : Str} (he : Extension ext) {a b : Str} (h : a ++ ext = b ++ midiEnd) :
    ∃ r ∈ reserved, a = b ++ r := by
  have hs : midiEnd = ['_', 'r', 'e', 's', 'u', 'l', 't', 's', '_', 'm', 'i', 'd', 'i'] ++ ['.', 't', 's', 'v'] := rfl
  rw [hs, ← List.append_assoc] at h
  refine ⟨_, List.mem_cons_of_mem _ List.mem_cons_self, (List.append_inj' h ?_).1⟩
  rcases he with rfl | rfl <;> rfl

/-! ## `evaluate` -/

/-- C108 (partial: names without spaces, and no piece is called as the results of another one): after `evaluate`, the
labels, results and MIDI results of each piece with an output are in its own three files, in the folder of the piece. -/
theorem C108_evaluate_partial {α : Type} (ext : Str) (he : Extension ext) (dir : FilePath)
    (pieces : List (Source × Option (PieceTables α))) (hv : ∀ p ∈ pieces, p.1.Valid)
    (hd : ∀ p ∈ pieces, ∀ q ∈ pieces, p.1.folders = q.1.folders → p.1.stem = q.1.stem → p = q)
    (hr : ∀ p ∈ pieces, ∀ q ∈ pieces, ∀ r ∈ reserved, p.1.folders = q.1.folders → p.1.stem ≠ q.1.stem ++ r)
    (s : Source) (t : PieceTables α) (hm : (s, some t) ∈ pieces) :
    contentOf (evaluateFiles dir (named ext pieces)) (dir ++ s.folders ++ [s.stem ++ ext]) = some t.labels ∧
    contentOf (evaluateFiles dir (named ext pieces))
      (dir ++ s.folders ++ [s.stem ++ "_results.tsv".toList]) = some t.results ∧
    contentOf (evaluateFiles dir (named ext pieces))
      (dir ++ s.folders ++ [s.stem ++ "_results_midi.tsv".toList]) = some t.midi := by
  have same : ∀ s' t', (s', some t') ∈ pieces → s.folders = s'.folders → s.stem = s'.stem → t' = t := by
    intro s' t' hm' h1 h2
    have := hd _ hm _ hm' h1 h2
    simp only [Prod.mk.injEq, Option.some.injEq] at this
    exact this.2.symm
  have e1 : "_results.tsv".toList = resultsEnd := by decide
  have e2 : "_results_midi.tsv".toList = midiEnd := by decide
  rw [e1, e2]
  refine ⟨contentOf_unique _ _ _ ?_ ?_, contentOf_unique _ _ _ ?_ ?_, contentOf_unique _ _ _ ?_ ?_⟩
  · exact (mem_evaluate ext he dir pieces hv _ _).mpr ⟨s, t, hm, .inr (.inr ⟨rfl, rfl⟩)⟩
  · intro v' hv'
    obtain ⟨s', t', hm', h⟩ := (mem_evaluate ext he dir pieces hv _ _).mp hv'
    rcases h with ⟨h, rfl⟩ | ⟨h, rfl⟩ | ⟨h, rfl⟩
    · obtain ⟨r, hr', hx⟩ := label_results he (path_inj h).2
      exact absurd hx (hr _ hm _ hm' r hr' (path_inj h).1)
    · obtain ⟨r, hr', hx⟩ := label_midi he (path_inj h).2
      exact absurd hx (hr _ hm _ hm' r hr' (path_inj h).1)
    · rw [same s' t' hm' (path_inj h).1 (List.append_cancel_right (path_inj h).2)]
  · exact (mem_evaluate ext he dir pieces hv _ _).mpr ⟨s, t, hm, .inl ⟨rfl, rfl⟩⟩
  · intro v' hv'
    obtain ⟨s', t', hm', h⟩ := (mem_evaluate ext he dir pieces hv _ _).mp hv'
    rcases h with ⟨h, rfl⟩ | ⟨h, rfl⟩ | ⟨h, rfl⟩
    · rw [same s' t' hm' (path_inj h).1 (List.append_cancel_right (path_inj h).2)]
    · exact absurd (path_inj h).2 (ends_ne _ _)
    · obtain ⟨r, hr', hx⟩ := label_results he (path_inj h).2.symm
      exact absurd hx (hr _ hm' _ hm r hr' (path_inj h).1.symm)
  · exact (mem_evaluate ext he dir pieces hv _ _).mpr ⟨s, t, hm, .inr (.inl ⟨rfl, rfl⟩)⟩
  · intro v' hv'
    obtain ⟨s', t', hm', h⟩ := (mem_evaluate ext he dir pieces hv _ _).mp hv'
    rcases h with ⟨h, rfl⟩ | ⟨h, rfl⟩ | ⟨h, rfl⟩
    · exact absurd (path_inj h).2.symm (ends_ne _ _)
    · rw [same s' t' hm' (path_inj h).1 (List.append_cancel_right (path_inj h).2)]
    · obtain ⟨r, hr', hx⟩ := label_midi he (path_inj h).2.symm
      exact absurd hx (hr _ hm' _ hm r hr' (path_inj h).1.symm)

/-- C108 does not hold for names with spaces: only what follows the last space counts, so the labels of the first of
two pieces `x b` and `y b` are in no file. -/
theorem C108_evaluate_fails {α : Type} (dir : FilePath) (id₁ id₂ : Nat) (x y b : Str) (t₁ t₂ : PieceTables α)
    (hb : ' ' ∉ b) (p : FilePath) (v : α)
    (h : contentOf (evaluateFiles dir [(some (intStr id₁ ++ [':', ' '] ++ x ++ [' '] ++ b), some t₁),
      (some (intStr id₂ ++ [':', ' '] ++ y ++ [' '] ++ b), some t₂)]) p = some v) :
    v = t₂.labels ∨ v = t₂.results ∨ v = t₂.midi := by
  have last : ∀ a : Str, lastWord (a ++ [' '] ++ b) = b := by
    intro a
    rw [lastWord]
    have key : ∀ n (a : Str), a.length ≤ n → (pySplit [' '] (a ++ [' '] ++ b)).getLastD [] = b := by
      intro n
      induction n with
      | zero =>
        intro a ha
        have : a = [] := List.length_eq_zero_iff.mp (by omega)
        subst this
        rw [pySplit_cons ' ' [] [] b (by simp), pySplit_word ' ' [] b hb]; rfl
      | succ n ih =>
        intro a ha
        by_cases hs : ' ' ∈ a
        · obtain ⟨l, r, rfl, hl⟩ := List.eq_append_cons_of_mem hs
          have e : l ++ ' ' :: r ++ [' '] ++ b = l ++ [' '] ++ (r ++ [' '] ++ b) := by simp
          rw [e, pySplit_cons ' ' [] l _ hl]
          have := ih r (by simp at ha; omega)
          cases hx : pySplit [' '] (r ++ [' '] ++ b) with
          | nil =>
            exfalso
            rw [hx] at this
            by_cases hr : ' ' ∈ r
            · obtain ⟨l', r', rfl, hl'⟩ := List.eq_append_cons_of_mem hr
              have e' : l' ++ ' ' :: r' ++ [' '] ++ b = l' ++ [' '] ++ (r' ++ [' '] ++ b) := by simp
              rw [e', pySplit_cons ' ' [] l' _ hl'] at hx
              cases hx
            · rw [pySplit_cons ' ' [] r b hr] at hx; cases hx
          | cons w ws => rw [hx] at this; simpa using this
        · rw [pySplit_cons ' ' [] a b hs, pySplit_word ' ' [] b hb]; rfl
    exact key a.length a (Nat.le_refl _)
  simp only [evaluateFiles, List.flatMap_cons, List.flatMap_nil, List.append_nil, evaluateWrites, last] at h
  rw [contentOf] at h
  simp only [List.reverse_cons, List.reverse_nil, List.nil_append, List.cons_append, List.lookup_cons] at h
  split at h
  · cases h; simp
  · split at h
    · cases h; simp
    · split at h
      · cases h; simp
      · simp_all

/-! ## `annotate` -/

theorem stemOf_ext (ext : Str) (he : Extension ext) (stem : Str) (h : stem ≠ []) : stemOf (stem ++ ext) = stem := by
  rcases he with rfl | rfl <;> simp [stemOf, h]

/-- C108 (partial: no two pieces with files of the same name): after `annotate`, the labels of each piece with an
output are in the file of its name. -/
theorem C108_annotate_partial {α : Type} (ext : Str) (he : Extension ext) (dir : FilePath)
    (pieces : List (Source × Option α)) (hv : ∀ p ∈ pieces, p.1.Valid)
    (hd : ∀ p ∈ pieces, ∀ q ∈ pieces, p.1.stem = q.1.stem → p = q)
    (s : Source) (t : α) (hm : (s, some t) ∈ pieces) :
    contentOf (annotateFiles dir (named ext pieces)) (dir ++ [s.stem ++ ".tsv".toList]) = some t := by
  have w : ∀ s' (o : Option α), (s', o) ∈ pieces → annotateWrites dir (some (s'.name ext)) o =
      match o with | none => [] | some x => [(dir ++ [s'.stem ++ ['.', 't', 's', 'v']], x)] := by
    intro s' o hm'
    cases o with
    | none => rfl
    | some x =>
      have hv' := hv _ hm'
      simp [annotateWrites, (parts_name ext he s' hv').1, stemOf_ext ext he s'.stem hv'.2.1]
  have e : ".tsv".toList = ['.', 't', 's', 'v'] := by decide
  rw [e]
  refine contentOf_unique _ _ _ ?_ ?_
  · simp only [annotateFiles, named, List.mem_flatMap, List.mem_map]
    refine ⟨_, ⟨(s, some t), hm, rfl⟩, ?_⟩
    simp only [w s (some t) hm, List.mem_singleton]
  · intro v' hv'
    simp only [annotateFiles, named, List.mem_flatMap, List.mem_map] at hv'
    obtain ⟨_, ⟨⟨s', o⟩, hm', rfl⟩, hx⟩ := hv'
    simp only [w s' o hm'] at hx
    cases o with
    | none => cases hx
    | some x =>
      simp only [List.mem_singleton, Prod.mk.injEq] at hx
      have h1 := List.append_cancel_left hx.1
      simp only [List.cons.injEq, and_true] at h1
      have := hd _ hm _ hm' (List.append_cancel_right h1)
      simp only [Prod.mk.injEq, Option.some.injEq] at this
      rw [hx.2, this.2]

/-- C108 does not hold for `annotate`: of two pieces with files of the same name in different folders (as the
movements of different collections), only the labels of the second one are kept. -/
theorem C108_annotate_fails {α : Type} (ext : Str) (he : Extension ext) (dir : FilePath) (s₁ s₂ : Source) (t₁ t₂ : α)
    (h₁ : s₁.Valid) (h₂ : s₂.Valid) (hs : s₁.stem = s₂.stem) :
    contentOf (annotateFiles dir (named ext [(s₁, some t₁), (s₂, some t₂)])) (dir ++ [s₁.stem ++ ".tsv".toList]) =
      some t₂ ∧
    ∀ p v, contentOf (annotateFiles dir (named ext [(s₁, some t₁), (s₂, some t₂)])) p = some v → v = t₂ := by
  have e : ".tsv".toList = ['.', 't', 's', 'v'] := by decide
  have w : annotateFiles dir (named ext [(s₁, some t₁), (s₂, some t₂)]) =
      [(dir ++ [s₁.stem ++ ['.', 't', 's', 'v']], t₁), (dir ++ [s₁.stem ++ ['.', 't', 's', 'v']], t₂)] := by
    simp [annotateFiles, named, annotateWrites, (parts_name ext he _ h₁).1, (parts_name ext he _ h₂).1,
      stemOf_ext ext he _ h₂.2.1, hs]
  rw [w, e]
  refine ⟨by simp [contentOf], ?_⟩
  intro p v h
  simp only [contentOf, List.reverse_cons, List.reverse_nil, List.nil_append, List.cons_append,
    List.lookup_cons, List.lookup_nil] at h
  split at h
  · exact (Option.some.inj h).symm
  · cases h

/-! ## Cases -/

/-- `K279-1` of two collections. -/
def sample : List (Source × Option (PieceTables Nat)) :=
  [(⟨0, [['a']], ['K']⟩, some ⟨1, 2, 3⟩), (⟨1, [['b']], ['K']⟩, some ⟨4, 5, 6⟩), (⟨2, [['b']], ['L']⟩, none)]

example : ((⟨0, [['a']], ['K']⟩ : Source).name ['.', 't', 's', 'v']) =
    ['0', ':', ' ', 'a', '/', 'K', '.', 't', 's', 'v'] := by decide +kernel
example : (evaluateFiles [['o']] (named ['.', 't', 's', 'v'] sample)).map Prod.snd = [2, 3, 1, 5, 6, 4] := by
  decide +kernel
example : contentOf (evaluateFiles [['o']] (named ['.', 't', 's', 'v'] sample)) [['o'], ['a'], ['K', '.', 't', 's', 'v']]
    = some 1 := by decide +kernel
/-- The labels of a piece `K_results` are written over the results of a piece `K`. -/
example : contentOf (evaluateFiles [['o']] (named ['.', 't', 's', 'v']
    [(⟨0, [], ['K']⟩, some ⟨1, 2, 3⟩), (⟨1, [], ['K'] ++ ['_', 'r', 'e', 's', 'u', 'l', 't', 's']⟩, some ⟨4, 5, 6⟩)]))
    [['o'], ['K'] ++ resultsEnd] = some 4 := by decide +kernel

end Verif.Output
