import Verif.WriteScores
import Verif.Props.OutputFiles
import Verif.Props.ForcesJson

/-!
# C143: labels are written onto the scores of their pieces
-/

namespace Verif.WriteScores

open Verif Verif.Output

/-! ### The files of a name -/

/-- A name without full stops and the other special characters of regular expressions. -/
def PlainName (b : Str) : Prop := ∀ c ∈ b, c ∉ ['.', '\\', '^', '$', '*', '+', '?', '{', '}', '[', ']', '|', '(', ')']

theorem nameRegex_plain (b : Str) (h : '.' ∉ b) (s : Str) : nameRegex b s = literal b s := by
  induction b generalizing s with
  | nil => simp [nameRegex, literal]
  | cons c b ih =>
    simp only [List.mem_cons, not_or] at h
    cases s with
    | nil => simp [nameRegex, literal]
    | cons d s =>
      have hc : ¬ c = '.' := fun e => h.1 e.symm
      simp only [nameRegex, hc, false_and, or_false, ih h.2, literal, List.isPrefixOf_cons_cons, List.length_cons,
        List.drop_succ_cons]
      by_cases e : c = d
      · simp [e]
      · simp [e]

theorem search_isSome {β : Type} (f : Str → List β) (s : Str) :
    (search f s).isSome = true ↔ ∃ t, t <:+ s ∧ f t ≠ [] := by
  induction s with
  | nil =>
    rw [search]
    cases h : f [] with
    | nil => simp [h]
    | cons a l => simp [h]
  | cons c s ih =>
    rw [search]
    cases h : f (c :: s) with
    | nil =>
      simp only [List.head?_nil, ih]
      constructor
      · rintro ⟨t, h1, h2⟩
        exact ⟨t, h1.trans (List.suffix_cons c s), h2⟩
      · rintro ⟨t, h1, h2⟩
        rcases List.suffix_cons_iff.1 h1 with rfl | h1
        · exact absurd h h2
        · exact ⟨t, h1, h2⟩
    | cons a l =>
      simp only [List.head?_cons, Option.isSome_some, true_iff]
      exact ⟨c :: s, List.suffix_refl _, by simp [h]⟩

theorem literal_some (b s r : Str) : literal b s = some r ↔ s = b ++ r := by
  rw [literal]
  constructor
  · intro h
    split at h
    · rename_i hp
      obtain ⟨t, rfl⟩ := List.isPrefixOf_iff_prefix.1 hp
      cases h
      simp
    · cases h
  · rintro rfl
    rw [if_pos (List.isPrefixOf_iff_prefix.2 (List.prefix_append _ _))]
    simp

theorem fileRegex_ne (b s : Str) (h : '.' ∉ b) :
    fileRegex b s ≠ [] ↔ b ++ mscxEnd <+: s ∨ b ++ tsvEnd <+: s := by
  simp only [fileRegex, nameRegex_plain b h]
  cases hl : literal b s with
  | none =>
    simp only [ne_eq, not_true_eq_false, false_iff, not_or]
    constructor <;>
    · rintro ⟨t, rfl⟩
      rw [List.append_assoc, (literal_some b _ _).2 rfl] at hl
      cases hl
  | some r =>
    have e := (literal_some b s r).1 hl
    subst e
    simp only [ne_eq, List.append_eq_nil_iff, Option.toList_eq_nil_iff, not_and_or, ← Option.isSome_iff_ne_none]
    rw [Verif.ForcesJson.literal_isSome, Verif.ForcesJson.literal_isSome, List.prefix_append_right_inj,
      List.prefix_append_right_inj]

/-- C143: with a plain name, the files which are parsed are those in whose names the name with one of the two endings
occurs. -/
theorem C143_picks (b : Str) (hb : PlainName b) (names : List Str) (n : Str) :
    n ∈ pickedFiles b names ↔ n ∈ names ∧ (b ++ ".mscx".toList <:+: n ∨ b ++ ".tsv".toList <:+: n) := by
  have hb' : '.' ∉ b := fun h => hb _ h (by simp)
  rw [pickedFiles, List.mem_filter, search_isSome]
  refine and_congr_right fun _ => ?_
  constructor
  · rintro ⟨t, ht, hne⟩
    rcases (fileRegex_ne b t hb').1 hne with h | h
    · exact Or.inl (h.isInfix.trans ht.isInfix)
    · exact Or.inr (h.isInfix.trans ht.isInfix)
  · rintro (⟨x, y, rfl⟩ | ⟨x, y, rfl⟩)
    · refine ⟨b ++ mscxEnd ++ y, ⟨x, by simp [mscxEnd]⟩, (fileRegex_ne b _ hb').2 (Or.inl (List.prefix_append _ _))⟩
    · refine ⟨b ++ tsvEnd ++ y, ⟨x, by simp [tsvEnd]⟩, (fileRegex_ne b _ hb').2 (Or.inr (List.prefix_append _ _))⟩

/-- A name with a full stop only before its ending. -/
theorem infix_end {b s e e' : Str} (hs : '.' ∉ s) (he : '.' ∉ e) :
    b ++ '.' :: e' <:+: s ++ '.' :: e ↔ b <:+ s ∧ e' <+: e := by
  constructor
  · rintro ⟨x, y, h⟩
    have h' : (x ++ b) ++ '.' :: (e' ++ y) = s ++ '.' :: e := by rw [← h]; simp
    rcases List.append_eq_append_iff.1 h' with ⟨a, h1, h2⟩ | ⟨a, h1, h2⟩
    · cases a with
      | nil =>
        rw [List.append_nil] at h1
        simp only [List.nil_append, List.cons.injEq, true_and] at h2
        exact ⟨⟨x, h1.symm⟩, ⟨y, h2⟩⟩
      | cons c a =>
        simp only [List.cons_append, List.cons.injEq] at h2
        rw [← h2.1] at h1
        exact absurd (by rw [h1]; simp) hs
    · cases a with
      | nil =>
        rw [List.append_nil] at h1
        simp only [List.nil_append, List.cons.injEq, true_and] at h2
        exact ⟨⟨x, h1⟩, ⟨y, h2.symm⟩⟩
      | cons c a =>
        simp only [List.cons_append, List.cons.injEq] at h2
        exact absurd (show '.' ∈ e by rw [h2.2]; simp) he
  · rintro ⟨⟨x, rfl⟩, ⟨y, rfl⟩⟩
    exact ⟨x, y, by simp⟩

/-- C143: of the scores and tables in a directory, those are parsed whose names end with the name of the piece: its own
always, another one exactly if its name ends with it. -/
theorem C143_suffix (b : Str) (hb : PlainName b) (names : List Str) (s ext : Str) (hs : '.' ∉ s)
    (he : ext = ".mscx".toList ∨ ext = ".tsv".toList) :
    s ++ ext ∈ pickedFiles b names ↔ s ++ ext ∈ names ∧ b <:+ s := by
  rw [C143_picks b hb]
  refine and_congr_right fun _ => ?_
  have e1 : ".mscx".toList = '.' :: ['m', 's', 'c', 'x'] := rfl
  have e2 : ".tsv".toList = '.' :: ['t', 's', 'v'] := rfl
  rcases he with rfl | rfl
  · rw [e1, e2, infix_end hs (by decide), infix_end hs (by decide)]
    simp
  · rw [e1, e2, infix_end hs (by decide), infix_end hs (by decide)]
    simp

/-- C143 (partial: no other name ends with the name of the piece): of the scores and tables in a directory, exactly
those of the piece are parsed. -/
theorem C143_own_partial (b : Str) (hb : PlainName b) (stems : List Str) (hs : ∀ s ∈ stems, '.' ∉ s)
    (h : ∀ s ∈ stems, b <:+ s → s = b) (names : List Str)
    (hn : ∀ n ∈ names, ∃ s ∈ stems, n = s ++ ".mscx".toList ∨ n = s ++ ".tsv".toList) (n : Str) :
    n ∈ pickedFiles b names ↔ n ∈ names ∧ (n = b ++ ".mscx".toList ∨ n = b ++ ".tsv".toList) := by
  have hb' : '.' ∉ b := fun h => hb _ h (by simp)
  constructor
  · intro hp
    have hm : n ∈ names := (List.mem_filter.1 hp).1
    obtain ⟨s, hs', rfl | rfl⟩ := hn n hm
    · have := h s hs' ((C143_suffix b hb names s _ (hs s hs') (Or.inl rfl)).1 hp).2
      exact ⟨hm, Or.inl (by rw [this])⟩
    · have := h s hs' ((C143_suffix b hb names s _ (hs s hs') (Or.inr rfl)).1 hp).2
      exact ⟨hm, Or.inr (by rw [this])⟩
  · rintro ⟨hm, rfl | rfl⟩
    · exact (C143_suffix b hb names b _ hb' (Or.inl rfl)).2 ⟨hm, List.suffix_refl _⟩
    · exact (C143_suffix b hb names b _ hb' (Or.inr rfl)).2 ⟨hm, List.suffix_refl _⟩

/-- C143 fails without that: the score and the table of every piece whose name ends with the name of the piece are
parsed with it. -/
theorem C143_own_fails (b : Str) (hb : PlainName b) (x : Str) (hx : '.' ∉ x) (names : List Str)
    (h1 : x ++ b ++ ".mscx".toList ∈ names) (h2 : x ++ b ++ ".tsv".toList ∈ names) :
    x ++ b ++ ".mscx".toList ∈ pickedFiles b names ∧ x ++ b ++ ".tsv".toList ∈ pickedFiles b names := by
  have hb' : '.' ∉ b := fun h => hb _ h (by simp)
  have hs : '.' ∉ x ++ b := by simp [hx, hb']
  exact ⟨(C143_suffix b hb names _ _ hs (Or.inl rfl)).2 ⟨h1, x, rfl⟩,
    (C143_suffix b hb names _ _ hs (Or.inr rfl)).2 ⟨h2, x, rfl⟩⟩

/-- C143 fails for a name with a full stop: in its place any character is accepted. -/
theorem C143_dot_fails (a b : Str) (_ha : PlainName a) (hb : PlainName b) (c : Char) (hc : c ≠ '\n') (names : List Str)
    (h : a ++ c :: b ++ ".mscx".toList ∈ names) : a ++ c :: b ++ ".mscx".toList ∈ pickedFiles (a ++ '.' :: b) names := by
  rw [pickedFiles, List.mem_filter]
  refine ⟨h, (search_isSome _ _).2 ⟨_, List.suffix_refl _, ?_⟩⟩
  have key : ∀ (a : Str) (r : Str), nameRegex (a ++ '.' :: b) (a ++ c :: b ++ r) = some r := by
    intro a r
    induction a with
    | nil =>
      have hb' : '.' ∉ b := fun h => hb _ h (by simp)
      simp only [List.nil_append, List.cons_append, nameRegex, nameRegex_plain b hb', (literal_some b _ r).2 rfl]
      rw [if_pos (Or.inr ⟨trivial, hc⟩)]
    | cons d a ih =>
      simp only [List.cons_append, nameRegex, true_or, if_true] at ih ⊢
      exact ih
  simp only [fileRegex, key]
  have : literal mscxEnd ".mscx".toList = some [] := by decide
  rw [this]
  simp

/-! ### The calls -/

/-- Folders and names which are not hidden. -/
def Visible (s : Source) : Prop := (∀ c ∈ s.folders, c.head? ≠ some '.') ∧ s.stem.head? ≠ some '.'

theorem mem_calls (out ann : FilePath) (files : List FilePath) (x : FilePath × FilePath × Str) :
    x ∈ scoreCalls out ann files ↔ ∃ p ∈ files, isTsv p = true ∧
      x = (out ++ p.dropLast, ann ++ p.dropLast, stemOf (p.getLastD [])) := by
  simp only [scoreCalls, tsvFiles, List.mem_map, List.mem_insertionSort, List.mem_filter, and_assoc]
  exact ⟨fun ⟨p, h1, h2, h3⟩ => ⟨p, h1, h2, h3.symm⟩, fun ⟨p, h1, h2, h3⟩ => ⟨p, h1, h2, h3.symm⟩⟩

theorem isTsv_file (folders : List Str) (n : Str) (hf : ∀ c ∈ folders, c.head? ≠ some '.') (hn : n.head? ≠ some '.') :
    isTsv (folders ++ [n]) = true ↔ ".tsv".toList <:+ n := by
  have h1 : (folders ++ [n]).all (fun c => c.head? != some '.') = true := by
    rw [List.all_eq_true]
    intro c hc
    rw [List.mem_append, List.mem_singleton] at hc
    rcases hc with hc | rfl
    · simpa using hf c hc
    · simpa using hn
  rw [isTsv, h1, Bool.true_and, List.isSuffixOf_iff_suffix]
  simp [tsvEnd, List.getLastD_eq_getLast?]

/-- The files below the output directory after `evaluate`. -/
def Written {α : Type} (ext : Str) (out : FilePath) (pieces : List (Source × Option (PieceTables α)))
    (files : List FilePath) : Prop :=
  ∀ p, p ∈ files ↔ ∃ v, (out ++ p, v) ∈ evaluateFiles out (named ext pieces)

theorem mem_written {α : Type} {ext : Str} (he : Extension ext) {out : FilePath}
    {pieces : List (Source × Option (PieceTables α))} (hv : ∀ p ∈ pieces, p.1.Valid) {files : List FilePath}
    (hw : Written ext out pieces files) (p : FilePath) : p ∈ files ↔ ∃ s t, (s, some t) ∈ pieces ∧
      (p = s.folders ++ [s.stem ++ resultsEnd] ∨ p = s.folders ++ [s.stem ++ midiEnd] ∨
        p = s.folders ++ [s.stem ++ ext]) := by
  rw [hw p]
  simp only [mem_evaluate ext he out pieces hv, List.append_assoc, List.append_cancel_left_eq]
  constructor
  · rintro ⟨v, s, t, hm, h⟩
    exact ⟨s, t, hm, h.imp And.left (Or.imp And.left And.left)⟩
  · rintro ⟨s, t, hm, h | h | h⟩
    · exact ⟨t.results, s, t, hm, Or.inl ⟨h, rfl⟩⟩
    · exact ⟨t.midi, s, t, hm, Or.inr (Or.inl ⟨h, rfl⟩)⟩
    · exact ⟨t.labels, s, t, hm, Or.inr (Or.inr ⟨h, rfl⟩)⟩

theorem head_append {s e : Str} (hs : s ≠ []) (h : s.head? ≠ some '.') : (s ++ e).head? ≠ some '.' := by
  cases s with
  | nil => exact absurd rfl hs
  | cons a s => simpa using h

theorem results_eq (s : Str) : s ++ resultsEnd = (s ++ "_results".toList) ++ ['.', 't', 's', 'v'] := by
  simp [resultsEnd]

theorem midi_eq (s : Str) : s ++ midiEnd = (s ++ "_results_midi".toList) ++ ['.', 't', 's', 'v'] := by
  simp [midiEnd]

/-- C143: after `evaluate`, labels are written for each piece from and to its own folder, under its own name; and also
under the names of the two tables of results. -/
theorem C143_calls {α : Type} (out ann : FilePath) (pieces : List (Source × Option (PieceTables α)))
    (hv : ∀ p ∈ pieces, p.1.Valid ∧ Visible p.1) (files : List FilePath)
    (hw : Written ".tsv".toList out pieces files) (l a : FilePath) (b : Str) :
    (l, a, b) ∈ scoreCalls out ann files ↔ ∃ s t, (s, some t) ∈ pieces ∧ l = out ++ s.folders ∧ a = ann ++ s.folders ∧
      (b = s.stem ∨ b = s.stem ++ "_results".toList ∨ b = s.stem ++ "_results_midi".toList) := by
  have he : Extension ".tsv".toList := Or.inl rfl
  have hst : ∀ x : Str, x ≠ [] → stemOf (x ++ ['.', 't', 's', 'v']) = x := stemOf_ext _ (Or.inl rfl)
  rw [mem_calls]
  simp only [mem_written he (fun p hp => (hv p hp).1) hw, Prod.mk.injEq]
  have tsv : ∀ x : Str, ".tsv".toList <:+ x ++ ['.', 't', 's', 'v'] := fun x => ⟨x, rfl⟩
  constructor
  · rintro ⟨p, ⟨s, t, hm, h⟩, -, rfl, rfl, rfl⟩
    have hne := (hv _ hm).1.2.1
    refine ⟨s, t, hm, ?_⟩
    rcases h with rfl | rfl | rfl
    · rw [results_eq]
      simp [List.getLastD_eq_getLast?, -List.append_assoc, hst]
    · rw [midi_eq]
      simp [List.getLastD_eq_getLast?, -List.append_assoc, hst]
    · have := hst s.stem hne
      simp [List.getLastD_eq_getLast?, -List.append_assoc, this]
  · rintro ⟨s, t, hm, rfl, rfl, h⟩
    obtain ⟨hva, hvf, hvs⟩ := hv _ hm
    have hne := hva.2.1
    rcases h with rfl | rfl | rfl
    · refine ⟨s.folders ++ [s.stem ++ ['.', 't', 's', 'v']], ⟨s, t, hm, Or.inr (Or.inr rfl)⟩, ?_⟩
      refine ⟨(isTsv_file _ _ hvf (head_append hne hvs)).2 (tsv _), ?_⟩
      simp [List.getLastD_eq_getLast?, hst s.stem hne]
    · refine ⟨s.folders ++ [s.stem ++ resultsEnd], ⟨s, t, hm, Or.inl rfl⟩, ?_⟩
      refine ⟨(isTsv_file _ _ hvf (head_append hne hvs)).2 (by rw [results_eq]; exact tsv _), ?_⟩
      rw [results_eq]
      simp [List.getLastD_eq_getLast?, -List.append_assoc, hst]
    · refine ⟨s.folders ++ [s.stem ++ midiEnd], ⟨s, t, hm, Or.inr (Or.inl rfl)⟩, ?_⟩
      refine ⟨(isTsv_file _ _ hvf (head_append hne hvs)).2 (by rw [midi_eq]; exact tsv _), ?_⟩
      rw [midi_eq]
      simp [List.getLastD_eq_getLast?, -List.append_assoc, hst]

/-- C143 fails for pieces from MusicXML: their labels are in files `.mxl`, and are written onto no score; only the
tables of results are tried. -/
theorem C143_xml_fails {α : Type} (out ann : FilePath) (pieces : List (Source × Option (PieceTables α)))
    (hv : ∀ p ∈ pieces, p.1.Valid ∧ Visible p.1) (files : List FilePath)
    (hw : Written ".mxl".toList out pieces files) (l a : FilePath) (b : Str) (h : (l, a, b) ∈ scoreCalls out ann files) :
    ∃ s t, (s, some t) ∈ pieces ∧ l = out ++ s.folders ∧
      (b = s.stem ++ "_results".toList ∨ b = s.stem ++ "_results_midi".toList) := by
  have he : Extension ".mxl".toList := Or.inr rfl
  have hst : ∀ x : Str, x ≠ [] → stemOf (x ++ ['.', 't', 's', 'v']) = x := stemOf_ext _ (Or.inl rfl)
  obtain ⟨p, hp, ht, e⟩ := (mem_calls _ _ _ _).1 h
  obtain ⟨s, t, hm, hor⟩ := (mem_written he (fun p hp => (hv p hp).1) hw p).1 hp
  obtain ⟨hva, hvf, hvs⟩ := hv _ hm
  simp only [Prod.mk.injEq] at e
  obtain ⟨rfl, -, rfl⟩ := e
  refine ⟨s, t, hm, ?_⟩
  clear h
  rcases hor with rfl | rfl | rfl
  · rw [results_eq]
    simp [List.getLastD_eq_getLast?, -List.append_assoc, hst]
  · rw [midi_eq]
    simp [List.getLastD_eq_getLast?, -List.append_assoc, hst]
  · rw [isTsv_file _ _ hvf (head_append hva.2.1 hvs)] at ht
    obtain ⟨y, hy⟩ := ht
    have := congrArg (fun l : Str => l.reverse.head?) hy
    simp at this

/-- C143 fails after `annotate`: whatever the folder of a piece is, its score is looked for in the directory of
annotations itself. -/
theorem C143_annotate_fails {α : Type} (out ann : FilePath) (pieces : List (Option Str × Option α))
    (files : List FilePath) (hw : ∀ p, p ∈ files ↔ ∃ v, (out ++ p, v) ∈ annotateFiles out pieces) (l a : FilePath)
    (b : Str) (h : (l, a, b) ∈ scoreCalls out ann files) : l = out ∧ a = ann := by
  obtain ⟨p, hp, -, e⟩ := (mem_calls _ _ _ _).1 h
  obtain ⟨v, hv⟩ := (hw p).1 hp
  simp only [annotateFiles, List.mem_flatMap] at hv
  obtain ⟨⟨n, t⟩, -, hx⟩ := hv
  cases n with
  | none => simp [annotateWrites] at hx
  | some n =>
    cases t with
    | none => simp [annotateWrites] at hx
    | some t =>
      simp only [annotateWrites, List.mem_singleton, Prod.mk.injEq, List.append_cancel_left_eq] at hx
      obtain ⟨rfl, -⟩ := hx
      simp only [Prod.mk.injEq, List.dropLast_singleton, List.append_nil] at e
      exact ⟨e.1, e.2.1⟩

/-! ### Examples -/

/-- Two pieces of which the name of one ends with that of the other. -/
example : pickedFiles "op18".toList (["op18.mscx", "op18.tsv", "op18_results.tsv", "2op18.mscx", "op181.mscx"].map String.toList) =
    ["op18.mscx", "op18.tsv", "2op18.mscx"].map String.toList := by decide +kernel

/-- A name with a full stop. -/
example : pickedFiles "op.18".toList (["op.18.mscx", "op-18.mscx", "op18.mscx"].map String.toList) =
    ["op.18.mscx", "op-18.mscx"].map String.toList := by decide +kernel

/-- The calls for one piece, in order. -/
example : scoreCalls [['o']] [['a']] [["Bach".toList, "x.tsv".toList], ["Bach".toList, "x_results.tsv".toList],
      ["Bach".toList, "x_inferred.mscx".toList], [".h".toList, "x.tsv".toList]] =
    [([['o'], "Bach".toList], [['a'], "Bach".toList], ['x']),
      ([['o'], "Bach".toList], [['a'], "Bach".toList], "x_results".toList)] := by decide +kernel

/-- The hypotheses of `C143_calls` hold for a piece. -/
example : ∃ files, Written ".tsv".toList [['o']] [(⟨1, ["Bach".toList], ['x']⟩, some (⟨1, 2, 3⟩ : PieceTables Nat))] files ∧
    Source.Valid ⟨1, ["Bach".toList], ['x']⟩ ∧ Visible ⟨1, ["Bach".toList], ['x']⟩ := by
  have hv : Source.Valid ⟨1, ["Bach".toList], ['x']⟩ :=
    ⟨by intro c hc; rw [List.mem_singleton] at hc; subst hc; exact ⟨by decide, by decide, by decide, by decide⟩,
      by decide, by decide, by decide⟩
  refine ⟨[["Bach".toList, "x_results.tsv".toList], ["Bach".toList, "x_results_midi.tsv".toList],
    ["Bach".toList, "x.tsv".toList]], ?_, hv, ⟨by decide, by decide⟩⟩
  intro p
  have hv' : ∀ p ∈ [((⟨1, ["Bach".toList], ['x']⟩ : Source), some (⟨1, 2, 3⟩ : PieceTables Nat))], p.1.Valid := by
    intro p hp
    rw [List.mem_singleton] at hp
    subst hp
    exact hv
  simp only [mem_evaluate ".tsv".toList (Or.inl rfl) _ _ hv', List.mem_singleton, Prod.mk.injEq, Option.some.injEq]
  constructor
  · intro hp
    simp only [List.mem_cons, List.not_mem_nil, or_false] at hp
    rcases hp with rfl | rfl | rfl
    · exact ⟨2, _, _, ⟨rfl, rfl⟩, Or.inl ⟨rfl, rfl⟩⟩
    · exact ⟨3, _, _, ⟨rfl, rfl⟩, Or.inr (Or.inl ⟨rfl, rfl⟩)⟩
    · exact ⟨1, _, _, ⟨rfl, rfl⟩, Or.inr (Or.inr ⟨rfl, rfl⟩)⟩
  · rintro ⟨v, s, t, ⟨rfl, rfl⟩, h⟩
    simp only [List.cons_append, List.nil_append, List.cons.injEq, true_and] at h
    rcases h with ⟨rfl, -⟩ | ⟨rfl, -⟩ | ⟨rfl, -⟩
    · exact List.mem_cons_self
    · exact List.mem_cons_of_mem _ List.mem_cons_self
    · exact List.mem_cons_of_mem _ (List.mem_cons_of_mem _ List.mem_cons_self)

end Verif.WriteScores
