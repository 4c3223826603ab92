import Verif.Corpus
import Verif.Props.Corpus

/-!
# C53: removal of repeats
-/

namespace Verif.Repeats

variable {δ : Type}

/-- Rows which are reached from a start row along the links within a file. -/
inductive Reach (rows : List (Marked δ)) : Marked δ → Prop
  | start (r : Marked δ) : r ∈ rows → r.start = true → Reach rows r
  | step (p r : Marked δ) : Reach rows p → r ∈ rows → p.row.file = r.row.file →
      p.row.next = some r.row.mc → Reach rows r

theorem Reach.mem {rows : List (Marked δ)} {r : Marked δ} (h : Reach rows r) : r ∈ rows := by
  cases h <;> assumption

theorem mem_pruneOnce (rows : List (Marked δ)) (r : Marked δ) :
    r ∈ pruneOnce rows ↔ r ∈ rows ∧
      (r.start = true ∨ ∃ p ∈ rows, p.row.file = r.row.file ∧ p.row.next = some r.row.mc) := by
  simp [pruneOnce]

theorem prune_sublist (fuel : Nat) (rows : List (Marked δ)) : List.Sublist (prune fuel rows) rows := by
  induction fuel generalizing rows with
  | zero => exact List.Sublist.refl _
  | succ fuel ih =>
    rw [prune]
    split
    · exact List.Sublist.refl _
    · exact (ih _).trans List.filter_sublist

theorem prune_fixed (fuel : Nat) (rows : List (Marked δ)) (hf : rows.length < fuel) :
    pruneOnce (prune fuel rows) = prune fuel rows := by
  induction fuel generalizing rows with
  | zero => omega
  | succ fuel ih =>
    rw [prune]
    split
    · rename_i h
      exact List.Sublist.eq_of_length List.filter_sublist h
    · rename_i h
      have hle : (pruneOnce rows).length ≤ rows.length := List.length_filter_le _ _
      exact ih _ (by omega)

theorem Reach.prune_mem {rows : List (Marked δ)} {r : Marked δ} (h : Reach rows r) (fuel : Nat) :
    r ∈ prune fuel rows := by
  have gen : ∀ (fuel : Nat) (cur : List (Marked δ)), (∀ x, Reach rows x → x ∈ cur) →
      ∀ x, Reach rows x → x ∈ prune fuel cur := by
    intro fuel
    induction fuel with
    | zero => intro cur hc x hx; exact hc x hx
    | succ fuel ih =>
      intro cur hc x hx
      rw [prune]
      split
      · exact hc x hx
      · apply ih _ _ x hx
        intro y hy
        rw [mem_pruneOnce]
        refine ⟨hc y hy, ?_⟩
        cases hy with
        | start _ _ hs => exact .inl hs
        | step p _ hp _ hf hn => exact .inr ⟨p, hc p hp, hf, hn⟩
  exact gen fuel rows (fun x hx => hx.mem) r h

theorem exists_lower (rows : List (Marked δ)) : ∃ L : Int, ∀ r ∈ rows, L ≤ r.row.mc := by
  induction rows with
  | nil => exact ⟨0, by simp⟩
  | cons a l ih =>
    obtain ⟨L, hL⟩ := ih
    refine ⟨min L a.row.mc, ?_⟩
    intro r hr
    rcases List.mem_cons.mp hr with rfl | hr
    · omega
    · have := hL r hr; omega

/-- The links of a table have no loops: there is a number for each measure which grows along the links. -/
def Acyclic (L : List (FileMeasure δ)) : Prop :=
  ∃ rank : Nat → Int → Nat, ∀ m ∈ L, ∀ n, m.next = some n → rank m.file m.mc < rank m.file n

/-- The rows which are kept are the reachable rows. -/
theorem prune_iff {rows : List (Marked δ)} (hac : Acyclic (rows.map (·.row))) (fuel : Nat)
    (hf : rows.length < fuel) (r : Marked δ) : r ∈ prune fuel rows ↔ Reach rows r := by
  refine ⟨?_, fun h => h.prune_mem fuel⟩
  obtain ⟨rank, hrank⟩ := hac
  have hsub := prune_sublist fuel rows
  have gen : ∀ (n : Nat) (r : Marked δ), rank r.row.file r.row.mc ≤ n → r ∈ prune fuel rows →
      Reach rows r := by
    intro n
    induction n with
    | zero =>
      intro r hn hr
      have hr' := hr
      rw [← prune_fixed fuel rows hf, mem_pruneOnce] at hr
      rcases hr.2 with hs | ⟨p, hp, hfile, hnext⟩
      · exact .start r (hsub.subset hr') hs
      · have h1 := hrank p.row (List.mem_map_of_mem (hsub.subset hp)) _ hnext
        rw [hfile] at h1
        omega
    | succ n ih =>
      intro r hn hr
      have hr' := hr
      rw [← prune_fixed fuel rows hf, mem_pruneOnce] at hr
      rcases hr.2 with hs | ⟨p, hp, hfile, hnext⟩
      · exact .start r (hsub.subset hr') hs
      · have h1 := hrank p.row (List.mem_map_of_mem (hsub.subset hp)) _ hnext
        rw [← hfile] at hn
        rw [hfile] at h1
        exact .step p r (ih p (by rw [hfile] at hn ⊢; omega) hp) (hsub.subset hr') hfile hnext
  exact gen _ r (Nat.le_refl _)

/-- Among the reachable rows of a file, the link of a row leads to the next one. -/
theorem reach_gap {rows : List (Marked δ)}
    (hfw : ∀ r, Reach rows r → ∀ n, r.row.next = some n → r.row.mc < n) (f : Nat)
    (hstart : ∀ s ∈ rows, s.start = true → s.row.file = f → ∀ r ∈ rows, r.row.file = f → s.row.mc ≤ r.row.mc)
    (huniq : ∀ a ∈ rows, ∀ b ∈ rows, a.row.file = f → b.row.file = f → a.row.mc = b.row.mc → a = b) :
    ∀ p x, Reach rows p → Reach rows x → p.row.file = f → x.row.file = f → p.row.mc < x.row.mc →
      ∃ y, Reach rows y ∧ y.row.file = f ∧ p.row.next = some y.row.mc ∧ y.row.mc ≤ x.row.mc := by
  obtain ⟨L, hL⟩ := exists_lower rows
  have gen : ∀ (n : Nat) (p x : Marked δ), (x.row.mc - L).toNat ≤ n → Reach rows p → Reach rows x →
      p.row.file = f → x.row.file = f → p.row.mc < x.row.mc →
      ∃ y, Reach rows y ∧ y.row.file = f ∧ p.row.next = some y.row.mc ∧ y.row.mc ≤ x.row.mc := by
    intro n
    induction n with
    | zero =>
      intro p x hn hp hx _ _ hlt
      have := hL p hp.mem
      omega
    | succ n ih =>
      intro p x hn hp hx hpf hxf hlt
      have hLp := hL p hp.mem
      cases hx with
      | start _ hm hs => have := hstart x hm hs hxf p hp.mem hpf; omega
      | step q _ hq hm hf hnext =>
        have hqf : q.row.file = f := by omega
        have hqlt := hfw q hq _ hnext
        rcases lt_trichotomy p.row.mc q.row.mc with h | h | h
        · obtain ⟨y, h1, h2, h3, h4⟩ := ih p q (by omega) hp hq hpf hqf h
          exact ⟨y, h1, h2, h3, by omega⟩
        · have : p = q := huniq p hp.mem q hq.mem hpf hqf h
          subst this
          exact ⟨x, .step p x hq hm hf hnext, hxf, hnext, le_refl _⟩
        · obtain ⟨y, h1, h2, h3, h4⟩ := ih q p (by omega) hq hp hqf hpf h
          rw [hnext] at h3; injection h3 with h3
          omega
  intro p x
  exact gen _ p x (Nat.le_refl _)

theorem markRows_getElem? (rows : List (RawMeasure δ)) (i : Nat) :
    (markRows rows)[i]? = (rows[i]?).map (fun r =>
      { row := { file := r.file, mc := r.mc, actDur := r.actDur, offset := r.offset,
                 next := nextOf r (rolledNext (rows.map (·.file)) i) },
        start := rolledPrev (rows.map (·.file)) i }) := by
  rw [markRows, List.getElem?_map, List.getElem?_zipIdx]
  cases rows[i]? <;> simp

theorem maxOf_spec (l : List Int) (h : l ≠ []) :
    ∃ n ∈ l, maxOf l = some n ∧ ∀ x ∈ l, x ≤ n := by
  match l with
  | [] => exact absurd rfl h
  | a :: l =>
    have gen : ∀ (l : List Int) (a : Int), (l.foldl max a = a ∨ l.foldl max a ∈ l) ∧ a ≤ l.foldl max a ∧
        ∀ x ∈ l, x ≤ l.foldl max a := by
      intro l
      induction l with
      | nil => intro a; simp
      | cons b l ih =>
        intro a
        obtain ⟨h1, h2, h3⟩ := ih (max a b)
        rw [List.foldl_cons]
        refine ⟨?_, by omega, ?_⟩
        · rcases h1 with h1 | h1
          · rw [h1]
            rcases le_total a b with hab | hab
            · right; rw [max_eq_right hab]; exact List.mem_cons_self ..
            · left; exact max_eq_left hab
          · exact .inr (List.mem_cons_of_mem _ h1)
        · intro x hx
          rcases List.mem_cons.mp hx with rfl | hx
          · omega
          · exact h3 x hx
    obtain ⟨h1, h2, h3⟩ := gen l a
    refine ⟨_, ?_, rfl, ?_⟩
    · rcases h1 with h1 | h1
      · rw [h1]; exact List.mem_cons_self ..
      · exact List.mem_cons_of_mem _ h1
    · intro x hx
      rcases List.mem_cons.mp hx with rfl | hx
      · exact h2
      · exact h3 x hx

theorem nextOf_none (r : RawMeasure δ) (b : Bool) (h : r.nexts = [] ∨ -1 ∈ r.nexts ∨ b = true) :
    nextOf r b = none := by
  rw [nextOf, if_pos]
  rcases h with h | h | h
  · exact .inl (by rw [h]; rfl)
  · exact .inr (.inl h)
  · exact .inr (.inr h)

theorem nextOf_some (r : RawMeasure δ) (h1 : r.nexts ≠ []) (h2 : -1 ∉ r.nexts) :
    ∃ n ∈ r.nexts, nextOf r false = some n ∧ ∀ x ∈ r.nexts, x ≤ n := by
  rw [nextOf, if_neg (by simp [h1, h2])]
  split
  · exact maxOf_spec _ h1
  · rename_i hl
    match hn : r.nexts with
    | [] => exact absurd hn h1
    | [a] => exact ⟨a, by simp⟩
    | _ :: _ :: _ => rw [hn] at hl; simp at hl

/-- The next row is of the same file. For the last row there is none. -/
def Continues (rows : List (RawMeasure δ)) (i : Nat) (r : RawMeasure δ) : Prop :=
  ∃ r', rows[i + 1]? = some r' ∧ r'.file = r.file

/-- The first and the last row are of different files. -/
def SeveralFiles (rows : List (RawMeasure δ)) : Prop :=
  ∀ a b, rows[0]? = some a → rows[rows.length - 1]? = some b → a.file ≠ b.file

theorem rolledNext_iff (rows : List (RawMeasure δ)) (hfiles : SeveralFiles rows) (i : Nat)
    (r : RawMeasure δ) (hi : rows[i]? = some r) :
    rolledNext (rows.map (·.file)) i = true ↔ ¬ Continues rows i r := by
  have hlt := (List.getElem?_eq_some_iff.mp hi).1
  rw [rolledNext, decide_eq_true_eq, List.length_map, List.getElem?_map, List.getElem?_map, hi, Continues]
  by_cases hl : i + 1 < rows.length
  · rw [Nat.mod_eq_of_lt hl, List.getElem?_eq_getElem hl]; simp
  · have he : i + 1 = rows.length := by omega
    have h0 : 0 < rows.length := by omega
    rw [he, Nat.mod_self, List.getElem?_eq_none (Nat.le_refl _), List.getElem?_eq_getElem h0]
    have := hfiles _ r (List.getElem?_eq_getElem h0) (by rw [← he, Nat.add_sub_cancel]; exact hi)
    simpa using this

theorem rolledPrev_iff (rows : List (RawMeasure δ)) (hfiles : SeveralFiles rows) (i : Nat)
    (r : RawMeasure δ) (hi : rows[i]? = some r) :
    rolledPrev (rows.map (·.file)) i = true ↔
      ∀ r', i ≠ 0 → rows[i - 1]? = some r' → r'.file ≠ r.file := by
  have hlt := (List.getElem?_eq_some_iff.mp hi).1
  rw [rolledPrev, decide_eq_true_eq, List.length_map, List.getElem?_map, List.getElem?_map, hi]
  cases i with
  | zero =>
    have hl : rows.length - 1 < rows.length := by omega
    rw [Nat.zero_add, Nat.mod_eq_of_lt hl, List.getElem?_eq_getElem hl]
    have := hfiles r _ hi (List.getElem?_eq_getElem hl)
    simpa using this.symm
  | succ i =>
    have hl : i < rows.length := by omega
    rw [show i + 1 + rows.length - 1 = i + rows.length by omega, Nat.add_mod_right,
      Nat.mod_eq_of_lt hl, Nat.add_sub_cancel, List.getElem?_eq_getElem hl]
    simp

/-- C53: every row gets the greatest of its options; the last row of a file, a row without options, and a
row with the option -1 (the end of the piece) get none. -/
theorem C53_next_partial (rows : List (RawMeasure δ)) (hfiles : SeveralFiles rows) (i : Nat) (r : RawMeasure δ)
    (hi : rows[i]? = some r) :
    ∃ m, (removeRepeats rows false)[i]? = some m ∧ m.file = r.file ∧ m.mc = r.mc ∧ m.actDur = r.actDur ∧
      m.offset = r.offset ∧
      ((¬ Continues rows i r ∨ r.nexts = [] ∨ -1 ∈ r.nexts) → m.next = none) ∧
      (Continues rows i r → r.nexts ≠ [] → -1 ∉ r.nexts →
        ∃ n ∈ r.nexts, m.next = some n ∧ ∀ x ∈ r.nexts, x ≤ n) := by
  refine ⟨_, by
    simp only [removeRepeats, Bool.false_eq_true, if_false]
    rw [List.getElem?_map, markRows_getElem?, hi]; rfl, rfl, rfl, rfl, rfl, ?_, ?_⟩
  · intro h
    apply nextOf_none
    rcases h with h | h | h
    · exact .inr (.inr ((rolledNext_iff rows hfiles i r hi).2 h))
    · exact .inl h
    · exact .inr (.inl h)
  · intro h h1 h2
    have : rolledNext (rows.map (·.file)) i = false := by
      cases hr : rolledNext (rows.map (·.file)) i
      · rfl
      · exact absurd h ((rolledNext_iff rows hfiles i r hi).1 hr)
    have hs := nextOf_some r h1 h2
    rw [← this] at hs
    exact hs

/-- The measures of a table which are met from the first measure of a file along the links. -/
inductive Reachable (L : List (FileMeasure δ)) : FileMeasure δ → Prop
  | first (i : Nat) (m : FileMeasure δ) : L[i]? = some m →
      (∀ m', i ≠ 0 → L[i - 1]? = some m' → m'.file ≠ m.file) → Reachable L m
  | next (p m : FileMeasure δ) : Reachable L p → m ∈ L → p.file = m.file → p.next = some m.mc →
      Reachable L m

theorem removeRepeats_false (rows : List (RawMeasure δ)) :
    removeRepeats rows false = (markRows rows).map (·.row) := by simp [removeRepeats]

theorem reach_iff (rows : List (RawMeasure δ)) (hfiles : SeveralFiles rows) (m : FileMeasure δ) :
    (∃ x, Reach (markRows rows) x ∧ x.row = m) ↔ Reachable (removeRepeats rows false) m := by
  rw [removeRepeats_false]
  have hprev : ∀ i x, (markRows rows)[i]? = some x → (x.start = true ↔
      ∀ m', i ≠ 0 → ((markRows rows).map (·.row))[i - 1]? = some m' → m'.file ≠ x.row.file) := by
    intro i x hi
    rw [markRows_getElem?] at hi
    cases hr : rows[i]? with
    | none => rw [hr] at hi; simp at hi
    | some r =>
      rw [hr, Option.map_some, Option.some.injEq] at hi
      subst hi
      simp only
      rw [rolledPrev_iff rows hfiles i r hr, List.getElem?_map, markRows_getElem?]
      cases rows[i - 1]? with
      | none => simp
      | some r' => simp
  constructor
  · rintro ⟨x, hx, rfl⟩
    induction hx with
    | start x hm hs =>
      obtain ⟨i, hi⟩ := List.mem_iff_getElem?.mp hm
      exact .first i x.row (by rw [List.getElem?_map, hi]; rfl) ((hprev i x hi).1 hs)
    | step p x _ hm hf hn ih => exact .next p.row x.row ih (List.mem_map_of_mem hm) hf hn
  · intro h
    induction h with
    | first i m hi hfirst =>
      rw [List.getElem?_map] at hi
      cases hx : (markRows rows)[i]? with
      | none => rw [hx] at hi; cases hi
      | some x =>
        rw [hx, Option.map_some, Option.some.injEq] at hi
        subst hi
        exact ⟨x, .start x (List.mem_of_getElem? hx) ((hprev i x hx).2 hfirst), rfl⟩
    | next p m _ hm hf hn ih =>
      obtain ⟨y, hy, rfl⟩ := ih
      obtain ⟨x, hx, rfl⟩ := List.mem_map.mp hm
      exact ⟨x, .step y x hy hx hf hn, rfl⟩

/-- C53: the measures which are kept are those which can be reached from the first measure of their
file. -/
theorem C53_reachable_partial (rows : List (RawMeasure δ)) (hfiles : SeveralFiles rows)
    (hac : Acyclic (removeRepeats rows false)) (m : FileMeasure δ) :
    m ∈ removeRepeats rows true ↔ Reachable (removeRepeats rows false) m := by
  rw [← reach_iff rows hfiles]
  rw [removeRepeats_false] at hac
  simp only [removeRepeats, if_true, List.mem_map]
  constructor
  · rintro ⟨x, hx, rfl⟩
    exact ⟨x, (prune_iff hac _ (Nat.lt_succ_self _) x).1 hx, rfl⟩
  · rintro ⟨x, hx, rfl⟩
    exact ⟨x, hx.prune_mem _, rfl⟩

/-- A table of measures in order, whose options are measures of the same file. -/
structure CleanRows (rows : List (RawMeasure δ)) : Prop where
  grouped : rows.Pairwise (fun a b => a.file ≤ b.file)
  sorted : rows.Pairwise (fun a b => a.file = b.file → a.mc < b.mc)
  inside : ∀ r ∈ rows, ∀ n ∈ r.nexts, n ≠ -1 → ∃ r' ∈ rows, r'.file = r.file ∧ r'.mc = n

/-- C53: what is left of each file is a chain of linked measures, from the first measure of the file to a
measure without a link. -/
theorem C53_chain_partial (rows : List (RawMeasure δ)) (hclean : CleanRows rows) (hfiles : SeveralFiles rows)
    (hac : Acyclic (removeRepeats rows false))
    (hon : ∀ m, Reachable (removeRepeats rows false) m → ∀ n, m.next = some n → m.mc < n) (f : Nat) (r0 : RawMeasure δ) (hr0 : r0 ∈ rows) (hf0 : r0.file = f) :
    FullChain (measuresOf (removeRepeats rows true) f) (measuresOf (removeRepeats rows true) f) ∧
      ∃ m, (measuresOf (removeRepeats rows true) f)[0]? = some m ∧
        ∀ r ∈ rows, r.file = f → m.mc ≤ r.mc := by
  have hmk : ∀ (i : Nat) x, (markRows rows)[i]? = some x → ∃ r, rows[i]? = some r ∧ x.row.file = r.file ∧
      x.row.mc = r.mc ∧ x.row.next = nextOf r (rolledNext (rows.map (·.file)) i) ∧
      x.start = rolledPrev (rows.map (·.file)) i := by
    intro i x hi
    rw [markRows_getElem?] at hi
    cases hr : rows[i]? with
    | none => rw [hr] at hi; simp at hi
    | some r =>
      rw [hr, Option.map_some, Option.some.injEq] at hi
      subst hi
      exact ⟨r, rfl, rfl, rfl, rfl, rfl⟩
  have hfw : ∀ x, Reach (markRows rows) x → ∀ n, x.row.next = some n → x.row.mc < n :=
    fun x hx => hon x.row ((reach_iff rows hfiles x.row).1 ⟨x, hx, rfl⟩)
  rw [removeRepeats_false] at hac
  have hlen : (markRows rows).length = rows.length := by simp [markRows]
  have hpair : (markRows rows).Pairwise (fun a b => a.row.file = b.row.file → a.row.mc < b.row.mc) := by
    rw [List.pairwise_iff_getElem]
    intro i j hi hj hij hfile
    obtain ⟨r, hr, h1, h2, _⟩ := hmk i _ (List.getElem?_eq_getElem hi)
    obtain ⟨r', hr', h1', h2', _⟩ := hmk j _ (List.getElem?_eq_getElem hj)
    obtain ⟨_, rfl⟩ := List.getElem?_eq_some_iff.mp hr
    obtain ⟨_, rfl⟩ := List.getElem?_eq_some_iff.mp hr'
    rw [h2, h2']
    exact List.pairwise_iff_getElem.mp hclean.sorted i j _ _ hij (by rw [← h1, ← h1', hfile])
  have huniq : ∀ a ∈ markRows rows, ∀ b ∈ markRows rows, a.row.file = f → b.row.file = f →
      a.row.mc = b.row.mc → a = b := by
    intro a ha b hb hfa hfb he
    obtain ⟨i, hi, rfl⟩ := List.getElem_of_mem ha
    obtain ⟨j, hj, rfl⟩ := List.getElem_of_mem hb
    rcases Nat.lt_trichotomy i j with h | h | h
    · have := List.pairwise_iff_getElem.mp hpair i j hi hj h (by rw [hfa, hfb]); omega
    · subst h; rfl
    · have := List.pairwise_iff_getElem.mp hpair j i hj hi h (by rw [hfa, hfb]); omega
  have hstart : ∀ s ∈ markRows rows, s.start = true → s.row.file = f → ∀ r ∈ markRows rows,
      r.row.file = f → s.row.mc ≤ r.row.mc := by
    intro s hs hst hsf r hr hrf
    obtain ⟨i, hi, rfl⟩ := List.getElem_of_mem hs
    obtain ⟨j, hj, rfl⟩ := List.getElem_of_mem hr
    rcases Nat.lt_trichotomy i j with h | h | h
    · have := List.pairwise_iff_getElem.mp hpair i j hi hj h (by rw [hsf, hrf]); omega
    · subst h; exact le_refl _
    · exfalso
      obtain ⟨a, ha, ha1, _, _, ha2⟩ := hmk i _ (List.getElem?_eq_getElem hi)
      obtain ⟨b, hb, hb1, _⟩ := hmk j _ (List.getElem?_eq_getElem hj)
      rw [hst] at ha2
      have hil : i - 1 < rows.length := by omega
      have hne := (rolledPrev_iff rows hfiles i a ha).1 ha2.symm _ (by omega)
        (List.getElem?_eq_getElem hil)
      obtain ⟨_, rfl⟩ := List.getElem?_eq_some_iff.mp ha
      obtain ⟨_, rfl⟩ := List.getElem?_eq_some_iff.mp hb
      have hg := List.pairwise_iff_getElem.mp hclean.grouped
      have h1 := hg (i - 1) i hil (by omega) (by omega)
      have h2 : rows[j].file ≤ rows[i - 1].file := by
        rcases Nat.lt_or_eq_of_le (by omega : j ≤ i - 1) with h' | h'
        · exact hg j (i - 1) (by omega) hil h'
        · simp only [h']; exact Nat.le_refl _
      omega
  -- the rows of the file
  let Q := (prune ((markRows rows).length + 1) (markRows rows)).filter (fun x => decide (x.row.file = f))
  have hK : measuresOf (removeRepeats rows true) f = Q.map (fun x => x.row.toMeasure) := by
    simp only [measuresOf, removeRepeats, if_true, Q]
    rw [List.filter_map, List.map_map]
    rfl
  have hQ : ∀ x, x ∈ Q ↔ Reach (markRows rows) x ∧ x.row.file = f := by
    intro x
    simp only [Q, List.mem_filter, decide_eq_true_eq, prune_iff hac _ (Nat.lt_succ_self _)]
  have hQs : Q.Pairwise (fun a b => a.row.mc < b.row.mc) := by
    have hsub : List.Sublist Q (markRows rows) := List.filter_sublist.trans (prune_sublist _ _)
    refine (hpair.sublist hsub).imp_of_mem ?_
    intro a b ha hb h
    exact h (by rw [((hQ a).1 ha).2, ((hQ b).1 hb).2])
  have hQi := List.pairwise_iff_getElem.mp hQs
  have hle : ∀ (i j : Nat) (hi : i < Q.length) (hj : j < Q.length), i ≤ j → Q[i].row.mc ≤ Q[j].row.mc := by
    intro i j hi hj hij
    rcases Nat.lt_or_eq_of_le hij with h | rfl
    · exact (hQi i j hi hj h).le
    · exact le_refl _
  have hget : ∀ (k : Nat) m, (Q.map (fun x => x.row.toMeasure))[k]? = some m →
      ∃ hk : k < Q.length, m = Q[k].row.toMeasure := by
    intro k m hm
    obtain ⟨hk, he⟩ := List.getElem?_eq_some_iff.mp hm
    rw [List.length_map] at hk
    exact ⟨hk, by rw [← he, List.getElem_map]⟩
  have hnext : ∀ x ∈ markRows rows, x.row.file = f → ∀ n, x.row.next = some n →
      ∃ z ∈ markRows rows, z.row.file = f ∧ z.row.mc = n := by
    intro x hx hxf n hn
    obtain ⟨i, hi⟩ := List.mem_iff_getElem?.mp hx
    obtain ⟨r, hr, h1, h2, h3, _⟩ := hmk i x hi
    rw [h3] at hn
    cases hroll : rolledNext (rows.map (·.file)) i with
    | true => rw [hroll, nextOf_none r true (.inr (.inr rfl))] at hn; cases hn
    | false =>
      rw [hroll] at hn
      by_cases h1' : r.nexts = []
      · rw [nextOf_none r false (.inl h1')] at hn; cases hn
      by_cases h2' : -1 ∈ r.nexts
      · rw [nextOf_none r false (.inr (.inl h2'))] at hn; cases hn
      obtain ⟨a, hain, ha, _⟩ := nextOf_some r h1' h2'
      rw [ha] at hn; injection hn with hn
      subst hn
      obtain ⟨r', hr', hf', hmc'⟩ := hclean.inside r (List.mem_of_getElem? hr) a hain
        (by rintro rfl; exact h2' hain)
      obtain ⟨j, hj⟩ := List.mem_iff_getElem?.mp hr'
      have hz := markRows_getElem? rows j
      rw [hj, Option.map_some] at hz
      refine ⟨_, List.mem_of_getElem? hz, ?_, hmc'⟩
      show r'.file = f
      rw [hf', ← h1, hxf]
  have hfind : ∀ m ∈ Q.map (fun x => x.row.toMeasure),
      findMeasure (Q.map (fun x => x.row.toMeasure)) m.mc = some m := by
    intro m hm
    rw [findMeasure]
    cases hfd : (Q.map (fun x => x.row.toMeasure)).find? (fun a => decide (a.mc = m.mc)) with
    | none =>
      rw [List.find?_eq_none] at hfd
      have := hfd m hm; simp at this
    | some a =>
      have ha := List.mem_of_find?_eq_some hfd
      have hae : a.mc = m.mc := by simpa using List.find?_some hfd
      obtain ⟨x, hx, rfl⟩ := List.mem_map.mp ha
      obtain ⟨y, hy, rfl⟩ := List.mem_map.mp hm
      have := huniq x ((hQ x).1 hx).1.mem y ((hQ y).1 hy).1.mem ((hQ x).1 hx).2 ((hQ y).1 hy).2 hae
      rw [this]
  rw [hK]
  refine ⟨⟨⟨hfind, ?_, ?_⟩, ?_⟩, ?_⟩
  · intro k m m' hm hm'
    obtain ⟨hk, rfl⟩ := hget k m hm
    obtain ⟨hk', rfl⟩ := hget (k + 1) m' hm'
    obtain ⟨hx1, hx2⟩ := (hQ _).1 (List.getElem_mem hk)
    obtain ⟨hy1, hy2⟩ := (hQ _).1 (List.getElem_mem hk')
    obtain ⟨z, hz1, hz2, hz3, hz4⟩ := reach_gap hfw f hstart huniq _ _ hx1 hy1 hx2 hy2
      (hQi k (k + 1) hk hk' (Nat.lt_succ_self _))
    have hlt := hfw _ hx1 _ hz3
    obtain ⟨l, hl, rfl⟩ := List.getElem_of_mem ((hQ z).2 ⟨hz1, hz2⟩)
    have h1 : k < l := by
      by_contra hc
      have := hle l k hl hk (by omega); omega
    have h2 : l ≤ k + 1 := by
      by_contra hc
      have := hQi (k + 1) l hk' hl (by omega); omega
    obtain rfl : l = k + 1 := by omega
    exact hz3
  · rw [List.pairwise_map]; exact hQs
  · intro m hm
    obtain ⟨hk, rfl⟩ := hget _ m hm
    simp only [List.length_map] at hk ⊢
    cases hn : Q[(List.length Q) - 1].row.next with
    | none => simp
    | some n =>
      exfalso
      obtain ⟨hx1, hx2⟩ := (hQ _).1 (List.getElem_mem (by omega : Q.length - 1 < Q.length))
      obtain ⟨z, hz, hzf, hzmc⟩ := hnext _ hx1.mem hx2 n hn
      have hzr : Reach (markRows rows) z := .step _ z hx1 hz (by rw [hx2, hzf]) (by rw [hn, hzmc])
      obtain ⟨l, hl, rfl⟩ := List.getElem_of_mem ((hQ z).2 ⟨hzr, hzf⟩)
      have h1 := hfw _ hx1 n hn
      have h2 := hle l (Q.length - 1) hl (by omega) (by omega)
      omega
  · -- the first row of the file is a start row
    have hex : ∃ s ∈ markRows rows, s.start = true ∧ s.row.file = f := by
      obtain ⟨j, hj⟩ := List.mem_iff_getElem?.mp hr0
      have gen : ∀ (j : Nat) r, rows[j]? = some r → r.file = f →
          ∃ s ∈ markRows rows, s.start = true ∧ s.row.file = f := by
        intro j
        induction j with
        | zero =>
          intro r hr hf
          have hz := markRows_getElem? rows 0
          rw [hr, Option.map_some] at hz
          refine ⟨_, List.mem_of_getElem? hz, ?_, hf⟩
          exact (rolledPrev_iff rows hfiles 0 r hr).2 (fun _ h => absurd rfl h)
        | succ j ih =>
          intro r hr hf
          have hjl : j < rows.length := by have := (List.getElem?_eq_some_iff.mp hr).1; omega
          by_cases hfj : rows[j].file = f
          · exact ih _ (List.getElem?_eq_getElem hjl) hfj
          · have hz := markRows_getElem? rows (j + 1)
            rw [hr, Option.map_some] at hz
            refine ⟨_, List.mem_of_getElem? hz, ?_, hf⟩
            refine (rolledPrev_iff rows hfiles (j + 1) r hr).2 (fun r' _ h => ?_)
            rw [Nat.add_sub_cancel, List.getElem?_eq_getElem hjl] at h
            injection h with h
            rw [← h, hf]; exact hfj
      exact gen j r0 hj hf0
    obtain ⟨s, hs, hst, hsf⟩ := hex
    have hsQ : s ∈ Q := (hQ s).2 ⟨.start s hs hst, hsf⟩
    have hpos : 0 < Q.length := List.length_pos_of_mem hsQ
    refine ⟨Q[0].row.toMeasure, by rw [List.getElem?_map, List.getElem?_eq_getElem hpos]; rfl, ?_⟩
    intro r hr hf
    obtain ⟨l, hl, rfl⟩ := List.getElem_of_mem hsQ
    have h1 := hle 0 l hpos hl (by omega)
    obtain ⟨j, hj⟩ := List.mem_iff_getElem?.mp hr
    have hz := markRows_getElem? rows j
    rw [hj, Option.map_some] at hz
    have h2 := hstart _ hs hst hsf _ (List.mem_of_getElem? hz) hf
    exact le_trans h1 h2

/-- C53 fails if all measures are of one file: no measure is left. -/
theorem C53_fails_single_file (rows : List (RawMeasure δ)) (f : Nat) (hf : ∀ r ∈ rows, r.file = f)
    (hac : Acyclic (removeRepeats rows false)) : removeRepeats rows true = [] := by
  rw [removeRepeats_false] at hac
  have hmark : ∀ x ∈ markRows rows, x.start = false := by
    intro x hx
    obtain ⟨i, hi⟩ := List.mem_iff_getElem?.mp hx
    rw [markRows_getElem?] at hi
    cases hr : rows[i]? with
    | none => rw [hr] at hi; simp at hi
    | some r =>
      have hlt := (List.getElem?_eq_some_iff.mp hr).1
      rw [hr, Option.map_some, Option.some.injEq] at hi
      subst hi
      show rolledPrev (rows.map (·.file)) i = false
      have hj : (i + rows.length - 1) % rows.length < rows.length := Nat.mod_lt _ (by omega)
      rw [rolledPrev, decide_eq_false_iff_not, not_not, List.length_map, List.getElem?_map,
        List.getElem?_map, hr, List.getElem?_eq_getElem hj]
      simp only [Option.map_some]
      rw [hf _ (List.getElem_mem hj), hf _ (List.mem_of_getElem? hr)]
  have hno : ∀ x, ¬ Reach (markRows rows) x := by
    intro x hx
    induction hx with
    | start x hm hs => rw [hmark x hm] at hs; cases hs
    | step _ _ _ _ _ _ ih => exact ih
  simp only [removeRepeats, if_true, List.map_eq_nil_iff]
  rw [List.eq_nil_iff_forall_not_mem]
  intro x hx
  exact hno x ((prune_iff hac _ (Nat.lt_succ_self _) x).1 hx)

/-- A piece with a repeat of its first two measures and a first and second ending, and a short piece. -/
def exRaw : List (RawMeasure ℚ) :=
  [⟨0, 1, 1, 0, [2]⟩, ⟨0, 2, 1, 0, [3, 4]⟩, ⟨0, 3, 1, 0, [1]⟩, ⟨0, 4, 1, 0, [5]⟩, ⟨0, 5, 1, 0, [-1]⟩,
    ⟨1, 1, 1, 0, [2]⟩, ⟨1, 2, 1, 0, [1, -1]⟩]

/-- The first ending is removed; with the first piece only, everything is removed. -/
example : (removeRepeats exRaw true).map (fun m => (m.file, m.mc, m.next)) =
    [(0, 1, some 2), (0, 2, some 4), (0, 4, some 5), (0, 5, none), (1, 1, some 2), (1, 2, none)] ∧
    removeRepeats (exRaw.take 5) true = [] := by decide +kernel

/-- The hypotheses hold for this table. -/
example : CleanRows exRaw ∧ SeveralFiles exRaw ∧ Acyclic (removeRepeats exRaw false) := by
  refine ⟨⟨by decide +kernel, by decide +kernel, by decide +kernel⟩, ?_, ?_⟩
  · intro a b ha hb
    simp [exRaw] at ha hb
    subst ha; subst hb; decide
  · refine ⟨fun _ mc => if mc = 3 then 0 else mc.toNat, ?_⟩
    intro m hm n hn
    have hall : ∀ m ∈ removeRepeats exRaw false, (m.next.map (fun n =>
        decide ((if m.mc = 3 then 0 else m.mc.toNat) < (if n = 3 then 0 else n.toNat)))).getD true = true := by
      decide +kernel
    have := hall m hm
    rw [hn] at this
    simpa using this

end Verif.Repeats
