import Verif.CorpusReading
import Verif.Props.Repeats
import Verif.Props.MergeTies

/-!
Lemmas on the loading of corpus tables.
-/

namespace Verif.CorpusReading

open Verif.Repeats

/-! ### Selection of files -/

theorem filter_or {α : Type} (key : α → Nat) (p q : α → Bool)
    (hpq : ∀ r s, p r = true → q s = true → key r < key s) (rows : List α)
    (hs : rows.Pairwise (fun a b => key a ≤ key b)) :
    rows.filter (fun r => p r || q r) = rows.filter p ++ rows.filter q := by
  induction rows with
  | nil => rfl
  | cons r rs ih =>
    rw [List.pairwise_cons] at hs
    have ih := ih hs.2
    cases hp : p r with
    | true =>
      have hq : q r = false := by
        cases hq : q r with
        | false => rfl
        | true => exact absurd (hpq r r hp hq) (by omega)
      simp [hp, hq, ih]
    | false =>
      cases hq : q r with
      | false => simp [hp, hq, ih]
      | true =>
        have hnil : rs.filter p = [] := by
          rw [List.filter_eq_nil_iff]
          intro s hsm hps
          have h1 := hpq s r hps hq
          have h2 := hs.1 s hsm
          omega
        rw [hnil, List.nil_append] at ih
        simp [hp, hq, ih, hnil]

theorem flatMap_filter {α : Type} (fileOf : α → Nat) (files : List CorpusFile)
    (hf : (files.map (·.id)).Pairwise (· < ·)) (rows : List α)
    (hs : rows.Pairwise (fun a b => fileOf a ≤ fileOf b)) :
    (files.flatMap fun f => rows.filter (fun r => fileOf r == f.id)) =
      rows.filter (fun r => decide (fileOf r ∈ files.map (·.id))) := by
  induction files with
  | nil => simp
  | cons f fs ih =>
    rw [List.map_cons, List.pairwise_cons] at hf
    rw [List.flatMap_cons, ih hf.2,
      ← filter_or fileOf (fun r => fileOf r == f.id) (fun r => decide (fileOf r ∈ fs.map (·.id))) _ rows hs]
    · apply List.filter_congr
      intro r _
      rw [Bool.eq_iff_iff]
      simp
    · intro r s h1 h2
      simp only [beq_iff_eq, decide_eq_true_eq] at h1 h2
      rw [h1]; exact hf.1 _ h2

theorem locFiles_ok {α : Type} (fileOf : α → Nat) (files : List CorpusFile)
    (hf : (files.map (·.id)).Pairwise (· < ·)) (rows : List α)
    (hs : rows.Pairwise (fun a b => fileOf a ≤ fileOf b))
    (hall : ∀ f ∈ files, ∃ r ∈ rows, fileOf r = f.id) :
    locFiles fileOf rows files = .ok (rows.filter (fun r => decide (fileOf r ∈ files.map (·.id)))) := by
  unfold locFiles
  rw [if_pos, flatMap_filter fileOf files hf rows hs]
  rw [List.all_eq_true]
  intro f hfm
  obtain ⟨r, hr, he⟩ := hall f hfm
  rw [List.any_eq_true]
  exact ⟨r, hr, by simpa using he⟩

/-- The files which are loaded: those before `count`, without the piece which is left out. -/
def chosen (files : List CorpusFile) (count : Option Nat) : List CorpusFile :=
  match count with
  | none => files.filter (fun f => decide (f.name ≠ "c11n08_Rondeau.tsv"))
  | some n => (files.take n).filter (fun f => decide (f.name ≠ "c11n08_Rondeau.tsv"))

theorem keepFiles_cut (files : List CorpusFile) (count : Option Nat) :
    keepFiles (cutFiles count files) = chosen files count := by
  cases count <;> rfl

/-- The rows of the loaded files. -/
def rowsOf {α : Type} (fileOf : α → Nat) (files : List CorpusFile) (count : Option Nat) (rows : List α) :
    List α :=
  rows.filter (fun r => decide (fileOf r ∈ (chosen files count).map (·.id)))

theorem cutFiles_sublist (files : List CorpusFile) (count : Option Nat) :
    (cutFiles count files).Sublist files := by
  cases count with
  | none => exact List.Sublist.refl _
  | some n => exact List.take_sublist _ _

theorem chosen_sublist (files : List CorpusFile) (count : Option Nat) :
    (chosen files count).Sublist (cutFiles count files) := by
  rw [← keepFiles_cut]; exact List.filter_sublist

theorem cutRows_ok {α : Type} (fileOf : α → Nat) (files : List CorpusFile) (count : Option Nat)
    (hf : (files.map (·.id)).Pairwise (· < ·)) (rows : List α)
    (hs : rows.Pairwise (fun a b => fileOf a ≤ fileOf b))
    (hall : count ≠ none → ∀ f ∈ cutFiles count files, ∃ r ∈ rows, fileOf r = f.id) :
    ∃ rows', cutRows fileOf count rows (cutFiles count files) = .ok rows' ∧ rows'.Sublist rows ∧
      rows'.filter (fun r => decide (fileOf r ∈ (chosen files count).map (·.id))) =
        rowsOf fileOf files count rows ∧
      ∀ f ∈ cutFiles count files, (∃ r ∈ rows, fileOf r = f.id) → ∃ r ∈ rows', fileOf r = f.id := by
  cases hc : count with
  | none => exact ⟨rows, rfl, List.Sublist.refl _, rfl, fun _ _ h => h⟩
  | some n =>
    rw [hc] at hall
    have h := locFiles_ok fileOf (cutFiles (some n) files)
      (hf.sublist ((cutFiles_sublist files (some n)).map _)) rows hs (hall (by simp))
    refine ⟨_, h, List.filter_sublist, ?_, ?_⟩
    · rw [List.filter_filter]
      apply List.filter_congr
      intro r _
      by_cases hr : fileOf r ∈ (chosen files (some n)).map (·.id)
      · have := ((chosen_sublist files (some n)).map (·.id)).subset hr
        simp only [hr, this, decide_true, Bool.and_self]
      · simp only [hr, decide_false, Bool.false_and]
    · intro f hfm ⟨r, hr, he⟩
      refine ⟨r, List.mem_filter.2 ⟨hr, ?_⟩, he⟩
      rw [decide_eq_true_eq, he]
      exact List.mem_map_of_mem hfm

/-! ### Valid rows -/

/-- The row starts inside of a measure of the table. -/
def Inside (M : List (FileMeasure ℚ)) (file : Nat) (mc : Int) (x : ℚ) : Prop :=
  ∃ m ∈ M, m.file = file ∧ m.mc = mc ∧ m.offset ≤ x ∧ x < m.actDur + m.offset

/-- The same, as a computation. -/
def insideB (M : List (FileMeasure ℚ)) (file : Nat) (mc : Int) (o : Option ℚ) : Bool :=
  M.any fun m => decide (m.file = file ∧ m.mc = mc) && validOnset m o

theorem insideB_iff (M : List (FileMeasure ℚ)) (file : Nat) (mc : Int) (o : Option ℚ) :
    insideB M file mc o = true ↔ ∃ x, o = some x ∧ Inside M file mc x := by
  unfold insideB Inside
  cases o with
  | none => simp [validOnset]
  | some x =>
    simp only [List.any_eq_true, validOnset, Bool.and_eq_true, decide_eq_true_eq, Option.some.injEq,
      exists_eq_left', and_assoc]

/-- No measure is there twice. -/
def Single (M : List (FileMeasure ℚ)) : Prop :=
  M.Pairwise (fun a b => a.file = b.file → a.mc < b.mc)

theorem matching_cases {M : List (FileMeasure ℚ)} (h : Single M) (file : Nat) (mc : Int) :
    matchingMeasures M file mc = [] ∨ ∃ m, matchingMeasures M file mc = [m] := by
  have hp : (matchingMeasures M file mc).Pairwise (fun a b => a.file = b.file → a.mc < b.mc) :=
    h.sublist List.filter_sublist
  have hm : ∀ m ∈ matchingMeasures M file mc, m.file = file ∧ m.mc = mc := by
    intro m hm; simpa using (List.mem_filter.1 hm).2
  match hl : matchingMeasures M file mc with
  | [] => exact .inl rfl
  | [m] => exact .inr ⟨m, rfl⟩
  | a :: b :: l =>
    rw [hl] at hp hm
    have h1 := hm a (by simp)
    have h2 := hm b (by simp)
    have := (List.pairwise_cons.1 hp).1 b (by simp) (by rw [h1.1, h2.1])
    omega

theorem any_filter_single {M : List (FileMeasure ℚ)} (file : Nat) (mc : Int) (o : Option ℚ) :
    insideB M file mc o = (matchingMeasures M file mc).any (fun m => validOnset m o) := by
  unfold insideB matchingMeasures
  rw [List.any_filter]

theorem removeUnmatched_eq {α : Type} (fileOf : α → Nat) (mcOf : α → Int) (rows : List α)
    {M : List (FileMeasure ℚ)} (h : Single M) :
    removeUnmatched fileOf mcOf rows M =
      rows.filter (fun r => !(matchingMeasures M (fileOf r) (mcOf r)).isEmpty) := by
  unfold removeUnmatched
  induction rows with
  | nil => rfl
  | cons r rs ih =>
    rw [List.flatMap_cons, ih, List.filter_cons]
    rcases matching_cases h (fileOf r) (mcOf r) with e | ⟨m, e⟩ <;> simp [e]

theorem onsetMask_eq {α : Type} (fileOf : α → Nat) (mcOf : α → Int) (onsetOf : α → Option ℚ)
    (rows : List α) {M : List (FileMeasure ℚ)} (h : Single M) :
    onsetMask fileOf mcOf onsetOf rows M =
      rows.map (fun r => insideB M (fileOf r) (mcOf r) (onsetOf r)) := by
  unfold onsetMask
  induction rows with
  | nil => rfl
  | cons r rs ih =>
    rw [List.flatMap_cons, ih, List.map_cons, any_filter_single]
    rcases matching_cases h (fileOf r) (mcOf r) with e | ⟨m, e⟩ <;> simp [e]

theorem applyMask_map {α : Type} (g : α → Bool) (rows : List α) :
    applyMask rows (rows.map g) = .ok (rows.filter g) := by
  unfold applyMask
  split
  · rename_i h
    rw [List.all_map, List.all_eq_true] at h
    rw [List.filter_eq_self.2 (fun a ha => by simpa using h a ha)]
  · rw [if_pos (List.length_map _)]
    congr 1
    clear * -
    induction rows with
    | nil => rfl
    | cons r rs ih =>
      cases hg : g r <;> simp [hg, ih]

/-- The rows which start inside of a measure are kept. -/
theorem valid_rows {α : Type} (fileOf : α → Nat) (mcOf : α → Int) (onsetOf : α → Option ℚ) (q : α → Bool)
    (rows : List α) {M : List (FileMeasure ℚ)} (h : Single M) :
    applyMask ((removeUnmatched fileOf mcOf rows M).filter q)
      (onsetMask fileOf mcOf onsetOf ((removeUnmatched fileOf mcOf rows M).filter q) M) =
    .ok (rows.filter (fun r => insideB M (fileOf r) (mcOf r) (onsetOf r) && q r)) := by
  rw [onsetMask_eq _ _ _ _ h, applyMask_map, removeUnmatched_eq _ _ _ h, List.filter_filter,
    List.filter_filter]
  congr 1
  apply List.filter_congr
  intro r _
  rw [any_filter_single]
  cases matchingMeasures M (fileOf r) (mcOf r) <;> simp

/-! ### The measures -/

theorem rowsOf_sublist {α : Type} (fileOf : α → Nat) (files : List CorpusFile) (count : Option Nat)
    (rows : List α) : (rowsOf fileOf files count rows).Sublist rows := List.filter_sublist

theorem mem_rowsOf {α : Type} (fileOf : α → Nat) (files : List CorpusFile) (count : Option Nat)
    (rows : List α) (r : α) :
    r ∈ rowsOf fileOf files count rows ↔ r ∈ rows ∧ ∃ f ∈ chosen files count, f.id = fileOf r := by
  simp [rowsOf]

theorem clean_rowsOf {measures : List (RawMeasure ℚ)} (h : CleanRows measures) (files : List CorpusFile)
    (count : Option Nat) : CleanRows (rowsOf (·.file) files count measures) := by
  refine ⟨h.grouped.sublist (rowsOf_sublist _ _ _ _), h.sorted.sublist (rowsOf_sublist _ _ _ _), ?_⟩
  intro r hr n hn h1
  obtain ⟨hr1, f, hf, he⟩ := (mem_rowsOf _ _ _ _ _).1 hr
  obtain ⟨r', h2, h3, h4⟩ := h.inside r hr1 n hn h1
  exact ⟨r', (mem_rowsOf _ _ _ _ _).2 ⟨h2, f, hf, by rw [h3]; exact he⟩, h3, h4⟩

theorem several {measures : List (RawMeasure ℚ)} (h : CleanRows measures) {a b : RawMeasure ℚ}
    (ha : a ∈ measures) (hb : b ∈ measures) (hab : a.file ≠ b.file) : SeveralFiles measures := by
  intro x y hx hy hxy
  have hg := List.pairwise_iff_getElem.1 h.grouped
  obtain ⟨h0, rfl⟩ := List.getElem?_eq_some_iff.1 hx
  obtain ⟨h1, rfl⟩ := List.getElem?_eq_some_iff.1 hy
  have key : ∀ z ∈ measures, z.file = measures[0].file := by
    intro z hz
    obtain ⟨k, hk, rfl⟩ := List.getElem_of_mem hz
    have l1 : measures[0].file ≤ measures[k].file := by
      rcases Nat.eq_zero_or_pos k with rfl | h
      · exact Nat.le_refl _
      · exact hg 0 k h0 hk h
    have l2 : measures[k].file ≤ measures[measures.length - 1].file := by
      by_cases he : k = measures.length - 1
      · subst he; exact Nat.le_refl _
      · exact hg k (measures.length - 1) hk h1 (by omega)
    rw [← hxy] at l2
    exact Nat.le_antisymm l2 l1
  exact hab ((key a ha).trans (key b hb).symm)

/-- A row of the table without repeats is a row of the table. -/
theorem removeRepeats_from (rows : List (RawMeasure ℚ)) (b : Bool) (m : FileMeasure ℚ)
    (hm : m ∈ removeRepeats rows b) :
    ∃ r ∈ rows, m.file = r.file ∧ m.mc = r.mc ∧ m.actDur = r.actDur ∧ m.offset = r.offset := by
  have hsub : ∀ x ∈ markRows rows, ∃ r ∈ rows, x.row.file = r.file ∧ x.row.mc = r.mc ∧
      x.row.actDur = r.actDur ∧ x.row.offset = r.offset := by
    intro x hx
    obtain ⟨i, hi⟩ := List.mem_iff_getElem?.mp hx
    rw [markRows_getElem?] at hi
    cases hr : rows[i]? with
    | none => rw [hr] at hi; simp at hi
    | some r =>
      rw [hr, Option.map_some, Option.some.injEq] at hi
      subst hi
      exact ⟨r, List.mem_of_getElem? hr, rfl, rfl, rfl, rfl⟩
  unfold removeRepeats at hm
  obtain ⟨x, hx, rfl⟩ := List.mem_map.1 hm
  cases b with
  | true => exact hsub x ((prune_sublist _ _).subset (by simpa using hx))
  | false => exact hsub x (by simpa using hx)

theorem single_removeRepeats {rows : List (RawMeasure ℚ)} (h : CleanRows rows) (b : Bool) :
    Single (removeRepeats rows b) := by
  have hmark : ((markRows rows).map (·.row)).Pairwise
      (fun a b => a.file = b.file → a.mc < b.mc) := by
    rw [List.pairwise_map, List.pairwise_iff_getElem]
    intro i j hi hj hij hfile
    have hlen : (markRows rows).length = rows.length := by simp [markRows]
    have e1 := markRows_getElem? rows i
    have e2 := markRows_getElem? rows j
    rw [List.getElem?_eq_getElem hi, List.getElem?_eq_getElem (by omega : i < rows.length)] at e1
    rw [List.getElem?_eq_getElem hj, List.getElem?_eq_getElem (by omega : j < rows.length)] at e2
    simp only [Option.map_some, Option.some.injEq] at e1 e2
    rw [e1, e2] at hfile ⊢
    exact List.pairwise_iff_getElem.1 h.sorted i j (by omega) (by omega) hij hfile
  unfold Single removeRepeats
  cases b with
  | true =>
    exact hmark.sublist ((prune_sublist _ _).map _)
  | false => exact hmark

end Verif.CorpusReading
