import Verif.H5Files
import Verif.Lemmas.PyStr
import Verif.Props.LoadPieces
import Verif.Props.Vectors
import Mathlib.Algebra.Order.BigOperators.Group.List

/-!
# C125: the files of data sets hold the splits
-/

namespace Verif.H5Files

open Verif.Datasets (C45_partition C45_disjoint)
open Verif.LoadPieces (C92_split C92_fails_missing exPiece dicts_exist)

/-! ## Names -/

theorem intStr_inj {i j : Int} (h : intStr i = intStr j) : i = j := by
  have := signedOf_intStr i
  rw [h, signedOf_intStr] at this
  injection this with this
  exact this.symm

theorem split_last {A A' B B' : Str} (hB : '_' ∉ B) (hB' : '_' ∉ B') (h : A ++ '_' :: B = A' ++ '_' :: B') :
    A = A' ∧ B = B' := by
  have key : ∀ (A B : Str), '_' ∉ B → (A ++ '_' :: B).reverse.takeWhile (· ≠ '_') = B.reverse := by
    intro A B hB
    rw [List.reverse_append, List.reverse_cons, List.append_assoc, List.takeWhile_append_of_pos]
    · simp
    · intro c hc
      rw [List.mem_reverse] at hc
      simp only [decide_not, Bool.not_eq_eq_eq_not, Bool.not_true, decide_eq_false_iff_not]
      rintro rfl
      exact hB hc
  have hBB : B = B' := by
    have h1 := key A B hB
    rw [h, key A' B' hB'] at h1
    exact (List.reverse_injective h1).symm
  subst hBB
  exact ⟨List.append_cancel_right h, rfl⟩

theorem under_free (seed : Int) (e : Str) (he : '_' ∉ e) : '_' ∉ intStr seed ++ e := by
  intro h
  rcases List.mem_append.1 h with h | h
  · rcases intStr_chars seed _ h with h | h <;> revert h <;> decide
  · exact he h

theorem h5Name_eq (c : H5Class) (s : Str) (seed : Int) :
    h5Name c s seed = (c.name ++ '_' :: s ++ chars% "_seed") ++ '_' :: (intStr seed ++ chars% ".h5") := by
  simp [h5Name]

theorem pklName_eq (s : Str) (seed : Int) :
    pklName s seed = (chars% "pieces_" ++ s ++ chars% "_seed") ++ '_' :: (intStr seed ++ chars% ".pkl") := by
  simp [pklName]

theorem h5Name_inj {c c' : H5Class} {s s' : Str} {seed seed' : Int} (hs : s ∈ splitNames) (hs' : s' ∈ splitNames)
    (h : h5Name c s seed = h5Name c' s' seed') : c = c' ∧ s = s' ∧ seed = seed' := by
  rw [h5Name_eq, h5Name_eq] at h
  obtain ⟨h1, h2⟩ := split_last (under_free _ _ (by decide)) (under_free _ _ (by decide)) h
  have h3 := intStr_inj (List.append_cancel_right h2)
  have h4 := List.append_cancel_right h1
  simp only [splitNames, List.mem_cons, List.not_mem_nil, or_false] at hs hs'
  have : c = c' ∧ s = s' := by
    rcases hs with rfl | rfl | rfl <;> rcases hs' with rfl | rfl | rfl <;> cases c <;> cases c' <;>
      first | exact ⟨rfl, rfl⟩ | exact absurd h4 (by decide)
  exact ⟨this.1, this.2, h3⟩

theorem pklName_inj {s s' : Str} {seed seed' : Int} (h : pklName s seed = pklName s' seed') : s = s' ∧ seed = seed' := by
  rw [pklName_eq, pklName_eq] at h
  obtain ⟨h1, h2⟩ := split_last (under_free _ _ (by decide)) (under_free _ _ (by decide)) h
  exact ⟨List.append_cancel_left (List.append_cancel_right h1), intStr_inj (List.append_cancel_right h2)⟩

theorem pkl_ne_h5 (s s' : Str) (c : H5Class) (seed seed' : Int) : pklName s seed ≠ h5Name c s' seed' := by
  intro h
  rw [pklName_eq, h5Name_eq] at h
  have := congrArg List.getLast? (split_last (under_free _ _ (by decide)) (under_free _ _ (by decide)) h).2
  simp at this

/-! ## Writing -/

theorem writeAll_other {δ ι : Type} (ws : List (Str × H5Content δ ι)) (dir : H5Dir δ ι) (n : Str)
    (h : ∀ w ∈ ws, w.1 ≠ n) : writeAll dir ws n = dir n := by
  induction ws generalizing dir with
  | nil => rfl
  | cons w ws ih =>
    show writeAll (writeFile dir w.1 w.2) ws n = dir n
    rw [ih _ fun w' hw' => h w' (by simp [hw']), writeFile, if_neg]
    exact fun e => h w (by simp) e.symm

theorem writeAll_mem {δ ι : Type} (ws : List (Str × H5Content δ ι)) (dir : H5Dir δ ι) (n : Str) (c : H5Content δ ι)
    (hm : (n, c) ∈ ws) (h : ∀ w ∈ ws, w.1 = n → w.2 = c) : writeAll dir ws n = some c := by
  induction ws generalizing dir with
  | nil => cases hm
  | cons w ws ih =>
    show writeAll (writeFile dir w.1 w.2) ws n = some c
    by_cases hin : (n, c) ∈ ws
    · exact ih _ hin fun w' hw' => h w' (by simp [hw'])
    · have hw : w = (n, c) := by
        rcases List.mem_cons.1 hm with e | e
        · exact e.symm
        · exact absurd e hin
      subst hw
      rw [writeAll_other, writeFile, if_pos rfl]
      intro w' hw' e
      have := h w' (by simp [hw']) e
      exact hin (by rw [← e, ← this]; exact hw')

theorem mem_h5Writes {δ ι : Type} (seed : Int) (cols : List (Option (List δ))) (ids : List (List ι)) (n : Str)
    (x : H5Content δ ι) :
    (n, x) ∈ h5Writes seed cols ids ↔ ∃ (i1 i2 : Nat) (c : H5Class) (s : Str) (d : δ) (is : List ι),
      datasetClasses[i1]? = some c ∧ splitNames[i2]? = some s ∧ tableEntry cols i1 i2 = some d ∧
      ids[i2]? = some is ∧ n = h5Name c s seed ∧ x = .data d is := by
  simp only [h5Writes, List.mem_flatMap]
  constructor
  · rintro ⟨⟨c, i1⟩, h1, ⟨s, i2⟩, h2, h3⟩
    rw [List.mem_zipIdx_iff_getElem?] at h1 h2
    simp only at h3
    split at h3
    · rename_i d is h4 h5
      simp only [List.mem_singleton, Prod.mk.injEq] at h3
      exact ⟨i1, i2, c, s, d, is, h1, h2, h4, h5, h3.1, h3.2⟩
    · cases h3
  · rintro ⟨i1, i2, c, s, d, is, h1, h2, h3, h4, rfl, rfl⟩
    refine ⟨(c, i1), List.mem_zipIdx_iff_getElem?.2 h1, (s, i2), List.mem_zipIdx_iff_getElem?.2 h2, ?_⟩
    simp [h3, h4]

theorem class_index (c : H5Class) : ∃ i : Nat, datasetClasses[i]? = some c := by
  cases c
  · exact ⟨0, rfl⟩
  · exact ⟨1, rfl⟩
  · exact ⟨2, rfl⟩
  · exact ⟨3, rfl⟩
  · exact ⟨4, rfl⟩

theorem classes_nodup : datasetClasses.Nodup := by decide

theorem splits_nodup : splitNames.Nodup := by decide

theorem index_unique {α : Type} {l : List α} (h : l.Nodup) {i j : Nat} {a : α} (hi : l[i]? = some a)
    (hj : l[j]? = some a) : i = j := by
  obtain ⟨h1, e1⟩ := List.getElem?_eq_some_iff.1 hi
  obtain ⟨h2, e2⟩ := List.getElem?_eq_some_iff.1 hj
  exact (List.Nodup.getElem_inj_iff h).1 (e1.trans e2.symm)

theorem mapM_get {α β : Type} (f : α → Py β) (l : List α) (bs : List β) (h : l.mapM f = .ok bs) (i : Nat) (a : α)
    (ha : l[i]? = some a) : ∃ b, bs[i]? = some b ∧ f a = .ok b := by
  induction l generalizing bs i with
  | nil => simp at ha
  | cons x l ih =>
    rw [List.mapM_cons] at h
    obtain ⟨b, h1, h2⟩ := Verif.Datasets.bind_ok h
    obtain ⟨bs', h3, h4⟩ := Verif.Datasets.bind_ok h2
    injection h4 with h4
    subst h4
    cases i with
    | zero =>
      simp at ha
      subst ha
      exact ⟨b, rfl, h1⟩
    | succ i =>
      obtain ⟨b', e1, e2⟩ := ih bs' h3 i (by simpa using ha)
      exact ⟨b', by simpa using e1, e2⟩

theorem columns_spec {π δ : Type} (mk : H5Class → List π → Py δ) (ps : List (List π)) (cols : List (Option (List δ)))
    (h : datasetColumns datasetClasses mk ps = .ok cols) (k : Nat) (P : List π) (hP : ps[k]? = some P) :
    (P = [] → cols[k]? = some none) ∧
    (P ≠ [] → ∃ col, cols[k]? = some (some col) ∧ datasetClasses.mapM (fun c => mk c P) = .ok col) := by
  induction ps generalizing cols k with
  | nil => simp at hP
  | cons Q ps ih =>
    rw [datasetColumns] at h
    by_cases hQ : Q.length = 0
    · rw [if_pos hQ] at h
      obtain ⟨cols', h1, h2⟩ := Verif.Datasets.bind_ok h
      injection h2 with h2
      subst h2
      cases k with
      | zero =>
        simp at hP
        subst hP
        exact ⟨fun _ => rfl, fun hne => absurd (List.length_eq_zero_iff.1 hQ) hne⟩
      | succ k => simpa using ih cols' h1 k (by simpa using hP)
    · rw [if_neg hQ] at h
      obtain ⟨col, h0, h⟩ := Verif.Datasets.bind_ok h
      obtain ⟨cols', h1, h2⟩ := Verif.Datasets.bind_ok h
      injection h2 with h2
      subst h2
      cases k with
      | zero =>
        simp at hP
        subst hP
        exact ⟨fun e => absurd (by simp [e]) hQ, fun _ => ⟨col, rfl, h0⟩⟩
      | succ k => simpa using ih cols' h1 k (by simpa using hP)

theorem writePieces_spec {μ δ ι : Type} (seed : Int) (l : List (Str × List (PieceObj μ))) (dir dir' : H5Dir δ ι)
    (hnd : (l.map Prod.fst).Nodup) (h : writePieces seed l dir = .ok dir') :
    (∀ s P, (s, P) ∈ l → P ≠ [] → ∃ ds, P.mapM PieceObj.toDict = .ok ds ∧ dir' (pklName s seed) = some (.dicts ds)) ∧
    (∀ n, (∀ s P, (s, P) ∈ l → P ≠ [] → n ≠ pklName s seed) → dir' n = dir n) := by
  induction l generalizing dir with
  | nil =>
    injection h with h
    subst h
    exact ⟨fun s P hm => (by cases hm), fun n _ => rfl⟩
  | cons x l ih =>
    obtain ⟨t, Q⟩ := x
    simp only [List.map_cons, List.nodup_cons] at hnd
    rw [writePieces] at h
    by_cases hQ : Q.length > 0
    · rw [if_pos hQ] at h
      obtain ⟨ds, h1, h2⟩ := Verif.Datasets.bind_ok h
      obtain ⟨i1, i2⟩ := ih _ hnd.2 h2
      constructor
      · intro s P hm hne
        rcases List.mem_cons.1 hm with e | e
        · injection e with e1 e2
          subst e1 e2
          refine ⟨ds, h1, ?_⟩
          rw [i2, writeFile, if_pos rfl]
          intro s' P' hm' _ he
          have := (pklName_inj he).1
          subst this
          exact hnd.1 (List.mem_map.2 ⟨_, hm', rfl⟩)
        · exact i1 s P e hne
      · intro n hn
        rw [i2 n fun s P hm hne => hn s P (by simp [hm]) hne, writeFile, if_neg]
        exact hn t Q (by simp) (by rintro rfl; simp at hQ)
    · rw [if_neg hQ] at h
      obtain ⟨i1, i2⟩ := ih _ hnd.2 h
      have hQ0 : Q = [] := List.length_eq_zero_iff.1 (by omega)
      constructor
      · intro s P hm hne
        rcases List.mem_cons.1 hm with e | e
        · injection e with e1 e2
          subst e1 e2
          exact absurd hQ0 hne
        · exact i1 s P e hne
      · intro n hn
        exact i2 n fun s P hm hne => hn s P (by simp [hm]) hne

theorem bind_ok' {α β : Type} {x : Except H5Stop α} {f : α → Except H5Stop β} {b : β} (h : x.bind f = .ok b) :
    ∃ a, x = .ok a ∧ f a = .ok b := by
  cases x with
  | error e => cases h
  | ok a => exact ⟨a, rfl, h⟩

theorem orRaise_ok {α : Type} {x : Py α} {a : α} (h : orRaise x = .ok a) : x = .ok a := by
  cases x with
  | error e => cases h
  | ok b => injection h with h; rw [h]

/-! ## The script -/

section

variable {ι μ δ : Type}

theorem normal_props {splits props : List ℚ} (h : normalizeSplits splits = .ok props) :
    (∀ s ∈ splits, 0 ≤ s) ∧ splits.sum ≠ 0 ∧ props = splits.map (· / splits.sum) := by
  rw [normalizeSplits] at h
  split at h
  · cases h
  · rename_i h1
    split at h
    · cases h
    · rename_i h2
      injection h with h
      refine ⟨fun s hs => ?_, h2, h.symm⟩
      by_contra hlt
      exact h1 (List.any_eq_true.2 ⟨s, hs, by simpa using hlt⟩)

theorem sum_div (l : List ℚ) (c : ℚ) : (l.map (· / c)).sum = l.sum / c := by
  induction l with
  | nil => simp
  | cons a l ih => simp only [List.map_cons, List.sum_cons, ih]; ring

theorem props_good {splits props : List ℚ} (h : normalizeSplits splits = .ok props) :
    (∀ s ∈ props, 0 ≤ s) ∧ props.sum = 1 ∧ props.length = splits.length := by
  obtain ⟨h1, h2, rfl⟩ := normal_props h
  have h0 : 0 ≤ splits.sum := List.sum_nonneg h1
  refine ⟨?_, by rw [sum_div, div_self h2], by simp⟩
  intro s hs
  obtain ⟨x, hx, rfl⟩ := List.mem_map.1 hs
  exact div_nonneg (h1 x hx) h0

/-- C125: the script ends with status 1, without writing, exactly for proportions of which one is negative or all
are zero. -/
theorem C125_exits (ids : List ι) (parse : ι → Py (PieceObj μ)) (mk : H5Class → List (PieceObj μ) → Py δ)
    (shuffled : List Nat) (splits : List ℚ) (seed : Int) (dir : H5Dir δ ι) :
    (∃ code, createH5 ids parse mk shuffled splits seed dir = .error (.exit code)) ↔
      (∃ s ∈ splits, s < 0) ∨ ∀ s ∈ splits, s = 0 := by
  constructor
  · rintro ⟨code, h⟩
    rw [createH5] at h
    cases hn : normalizeSplits splits with
    | error e =>
      rw [normalizeSplits] at hn
      split at hn
      · rename_i h1
        obtain ⟨s, hs, hlt⟩ := List.any_eq_true.1 h1
        exact .inl ⟨s, hs, by simpa using hlt⟩
      · rename_i h1
        split at hn
        · rename_i h2
          right
          have hpos : ∀ s ∈ splits, 0 ≤ s := by
            intro s hs
            by_contra hlt
            exact h1 (List.any_eq_true.2 ⟨s, hs, by simpa using hlt⟩)
          clear h h1 hn
          induction splits with
          | nil => simp
          | cons a l ih =>
            rw [List.sum_cons] at h2
            have ha := hpos a (by simp)
            have hl : 0 ≤ l.sum := List.sum_nonneg fun s hs => hpos s (by simp [hs])
            intro s hs
            rcases List.mem_cons.1 hs with rfl | hs
            · linarith
            · exact ih (by linarith) (fun s hs => hpos s (by simp [hs])) s hs
        · cases hn
    | ok props =>
      rw [hn] at h
      simp only [Bind.bind, Except.bind] at h
      cases h1 : splitPieces ids (fun i => orNone (parse i)) shuffled props with
      | error e => rw [h1] at h; cases h
      | ok out =>
        rw [h1] at h
        simp only [orRaise] at h
        cases h2 : datasetColumns datasetClasses mk out.2 with
        | error e => rw [h2] at h; cases h
        | ok cols =>
          rw [h2] at h
          simp only [] at h
          cases h3 : writePieces seed (splitNames.zip out.2) dir with
          | error e => rw [h3] at h; cases h
          | ok d => rw [h3] at h; cases h
  · intro h
    refine ⟨1, ?_⟩
    have hn : normalizeSplits splits = .error (.exit 1) := by
      rw [normalizeSplits]
      rcases h with ⟨s, hs, hlt⟩ | h
      · rw [if_pos (List.any_eq_true.2 ⟨s, hs, by simpa using hlt⟩)]
      · split
        · rfl
        · rw [if_pos (List.sum_eq_zero h)]
    rw [createH5, hn]
    rfl

/-- C125: what a successful run has written. For each split with pieces, the file of pieces and the files of all five
data sets are those of the ids and pieces of the split; nothing else has changed in the directory: neither files of
other seeds, nor files of this seed for a split without pieces. -/
theorem C125_written (ids : List ι) (parse : ι → Py (PieceObj μ)) (mk : H5Class → List (PieceObj μ) → Py δ)
    (shuffled : List Nat) (splits : List ℚ) (h3 : splits.length = 3) (seed : Int) (dir dir' : H5Dir δ ι)
    (hsh : shuffled.Perm (List.range (ids.filter fun i => (orNone (parse i)).isSome).length))
    (hrun : createH5 ids parse mk shuffled splits seed dir = .ok dir') :
    ∃ out, splitPieces ids (fun i => orNone (parse i)) shuffled (splits.map (· / splits.sum)) = .ok out ∧
      out.1.length = 3 ∧ out.2.length = 3 ∧
      (∀ (k : Nat) s I P, splitNames[k]? = some s → out.1[k]? = some I → out.2[k]? = some P → P ≠ [] →
        (∃ ds, P.mapM PieceObj.toDict = .ok ds ∧ dir' (pklName s seed) = some (.dicts ds)) ∧
        ∀ c, ∃ d, mk c P = .ok d ∧ dir' (h5Name c s seed) = some (.data d I)) ∧
      ∀ n, (∀ (k : Nat) s P, splitNames[k]? = some s → out.2[k]? = some P → P ≠ [] →
        n ≠ pklName s seed ∧ ∀ c, n ≠ h5Name c s seed) → dir' n = dir n := by
  rw [createH5] at hrun
  obtain ⟨props, hn, hrun⟩ := bind_ok' hrun
  obtain ⟨out, ho, hrun⟩ := bind_ok' hrun
  obtain ⟨cols, hc, hrun⟩ := bind_ok' hrun
  obtain ⟨dir1, hd, hrun⟩ := bind_ok' hrun
  injection hrun with hrun
  subst hrun
  have ho := orRaise_ok ho
  have hc := orRaise_ok hc
  have hd := orRaise_ok hd
  obtain ⟨g1, g2, g3⟩ := props_good hn
  obtain ⟨parts, hp1, hp2, _⟩ :=
    C45_partition ids (fun i => orNone (parse i)) shuffled props g1 (by rw [g2]; norm_num) hsh
  have hprops := (normal_props hn).2.2
  rw [hp1] at ho
  injection ho with ho
  rw [← hprops]
  have l1 : out.1.length = 3 := by rw [← ho]; simp [hp2, g3, h3]
  have l2 : out.2.length = 3 := by rw [← ho]; simp [hp2, g3, h3]
  refine ⟨out, by rw [hp1, ho], l1, l2, ?_⟩
  have hz : (splitNames.zip out.2).map Prod.fst = splitNames := by
    rw [List.map_fst_zip]
    rw [l2]; decide
  obtain ⟨w1, w2⟩ := writePieces_spec seed (splitNames.zip out.2) dir dir1 (by rw [hz]; exact splits_nodup) hd
  have hzip : ∀ s P, (s, P) ∈ splitNames.zip out.2 ↔ ∃ k : Nat, splitNames[k]? = some s ∧ out.2[k]? = some P := by
    intro s P
    rw [List.mem_iff_getElem?]
    simp only [List.getElem?_zip_eq_some]
  constructor
  · intro k s I P hs hI hP hne
    constructor
    · obtain ⟨ds, e1, e2⟩ := w1 s P ((hzip s P).2 ⟨k, hs, hP⟩) hne
      refine ⟨ds, e1, ?_⟩
      rw [writeAll_other, e2]
      rintro ⟨n, x⟩ hw e
      obtain ⟨i1, i2, c, s', d, is, _, _, _, _, rfl, _⟩ := (mem_h5Writes seed cols out.1 n x).1 hw
      exact pkl_ne_h5 _ _ _ _ _ e.symm
    · intro c
      obtain ⟨col, hcol, hmk⟩ := (columns_spec mk out.2 cols hc k P hP).2 hne
      obtain ⟨i1, hi1⟩ := class_index c
      obtain ⟨d, hd1, hd2⟩ := mapM_get _ _ _ hmk i1 c hi1
      refine ⟨d, hd2, ?_⟩
      apply writeAll_mem
      · rw [mem_h5Writes]
        exact ⟨i1, k, c, s, d, I, hi1, hs, by rw [tableEntry, hcol]; exact hd1, hI, rfl, rfl⟩
      · rintro ⟨n, x⟩ hw e
        obtain ⟨i1', k', c', s', d', is, f1, f2, f3, f4, rfl, rfl⟩ := (mem_h5Writes seed cols out.1 n x).1 hw
        obtain ⟨e1, e2, _⟩ := h5Name_inj (List.mem_iff_getElem?.2 ⟨_, f2⟩) (List.mem_iff_getElem?.2 ⟨_, hs⟩) e
        subst e1 e2
        have q1 := index_unique classes_nodup hi1 f1
        have q2 := index_unique splits_nodup hs f2
        subst q1 q2
        rw [tableEntry, hcol] at f3
        rw [hI] at f4
        simp only [hd1, Option.some.injEq] at f3 f4
        rw [f3, f4]
  · intro n hn'
    rw [writeAll_other, w2]
    · intro s P hm hne
      obtain ⟨k, e1, e2⟩ := (hzip s P).1 hm
      exact (hn' k s P e1 e2 hne).1
    · rintro ⟨m, x⟩ hw e
      obtain ⟨i1, k, c, s, d, is, f1, f2, f3, f4, rfl, rfl⟩ := (mem_h5Writes seed cols out.1 m x).1 hw
      have hk : k < out.2.length := by
        have := (List.getElem?_eq_some_iff.1 f2).1
        rw [l2]; exact this
      by_cases hne : out.2[k] = []
      · have := (columns_spec mk out.2 cols hc k _ (List.getElem?_eq_getElem hk)).1 hne
        rw [tableEntry, this] at f3
        cases f3
      · exact (hn' k s _ f2 (List.getElem?_eq_getElem hk) hne).2 c e.symm

theorem columns_total {π : Type} (mk : H5Class → List π → Py δ) (ps : List (List π))
    (h : ∀ P ∈ ps, P ≠ [] → ∀ c, ∃ d, mk c P = .ok d) : ∃ cols, datasetColumns datasetClasses mk ps = .ok cols := by
  induction ps with
  | nil => exact ⟨[], rfl⟩
  | cons P ps ih =>
    obtain ⟨cols, hc⟩ := ih fun Q hQ => h Q (by simp [hQ])
    rw [datasetColumns]
    by_cases hP : P.length = 0
    · rw [if_pos hP, hc]
      exact ⟨_, rfl⟩
    · rw [if_neg hP, hc]
      obtain ⟨col, h1, _⟩ := Verif.Vectors.mapM_all (fun c => mk c P) datasetClasses fun c _ =>
        h P (by simp) (by rintro rfl; simp at hP) c
      rw [h1]
      exact ⟨_, rfl⟩

theorem writePieces_total (seed : Int) (l : List (Str × List (PieceObj μ))) (dir : H5Dir δ ι)
    (h : ∀ x ∈ l, ∀ p ∈ x.2, p.chords ≠ none ∧ p.keys ≠ none) : ∃ dir', writePieces seed l dir = .ok dir' := by
  induction l generalizing dir with
  | nil => exact ⟨dir, rfl⟩
  | cons x l ih =>
    obtain ⟨s, P⟩ := x
    rw [writePieces]
    by_cases hP : P.length > 0
    · obtain ⟨ds, hds, _⟩ := dicts_exist P (h (s, P) (by simp))
      rw [if_pos hP, hds]
      exact ih _ fun y hy => h y (by simp [hy])
    · rw [if_neg hP]
      exact ih _ fun y hy => h y (by simp [hy])

/-- C125: the script succeeds for all other proportions, if the pieces have chords and keys and the data sets can be
made. -/
theorem C125_total (ids : List ι) (parse : ι → Py (PieceObj μ)) (mk : H5Class → List (PieceObj μ) → Py δ)
    (shuffled : List Nat) (splits : List ℚ) (seed : Int) (dir : H5Dir δ ι)
    (hsh : shuffled.Perm (List.range (ids.filter fun i => (orNone (parse i)).isSome).length))
    (hs : ∀ s ∈ splits, 0 ≤ s) (hx : ∃ s ∈ splits, s ≠ 0)
    (hparse : ∀ i p, parse i = .ok p → p.chords ≠ none ∧ p.keys ≠ none)
    (hmk : ∀ P, P ≠ [] → (∀ p ∈ P, ∃ i ∈ ids, parse i = .ok p) → ∀ c, ∃ d, mk c P = .ok d) :
    ∃ dir', createH5 ids parse mk shuffled splits seed dir = .ok dir' := by
  have hn : ∃ props, normalizeSplits splits = .ok props := by
    rw [normalizeSplits, if_neg, if_neg]
    · exact ⟨_, rfl⟩
    · intro h0
      obtain ⟨s, hm, hne⟩ := hx
      have := List.single_le_sum hs s hm
      rw [h0] at this
      exact hne (le_antisymm this (hs s hm))
    · intro h
      obtain ⟨s, hm, hlt⟩ := List.any_eq_true.1 h
      exact absurd (hs s hm) (by simpa using hlt)
  obtain ⟨props, hn⟩ := hn
  obtain ⟨g1, g2, g3⟩ := props_good hn
  obtain ⟨parts, hp1, hp2, hp3, _⟩ :=
    C45_partition ids (fun i => orNone (parse i)) shuffled props g1 (by rw [g2]; norm_num) hsh
  have hpiece : ∀ P ∈ parts.map (List.map Prod.snd), ∀ p ∈ P, ∃ i ∈ ids, parse i = .ok p := by
    intro P hP p hp
    obtain ⟨part, hpart, rfl⟩ := List.mem_map.1 hP
    obtain ⟨⟨i, q⟩, hiq, rfl⟩ := List.mem_map.1 hp
    have := hp3.mem_iff.1 (List.mem_flatten.2 ⟨part, hpart, hiq⟩)
    obtain ⟨j, hj, e⟩ := List.mem_filterMap.1 this
    cases hpj : parse j with
    | error x => rw [hpj] at e; cases e
    | ok r =>
      rw [hpj] at e
      simp only [orNone, Option.map_some, Option.some.injEq, Prod.mk.injEq] at e
      exact ⟨j, hj, by rw [hpj, e.2]⟩
  obtain ⟨cols, hc⟩ := columns_total mk (parts.map (List.map Prod.snd)) fun P hP hne => hmk P hne (hpiece P hP)
  obtain ⟨dir1, hd⟩ := writePieces_total seed (splitNames.zip (parts.map (List.map Prod.snd))) dir (by
    rintro ⟨s, P⟩ hm p hp
    obtain ⟨i, _, hi⟩ := hpiece P (List.of_mem_zip hm).2 p hp
    exact hparse i p hi)
  rw [createH5, hn]
  simp only [Bind.bind, Except.bind, hp1, orRaise, hc, hd]
  exact ⟨_, rfl⟩

/-! ## Splits -/

/-- What a run from a directory without files of its seed leaves: every split has all its files or none. -/
theorem fresh_files (ids : List ι) (parse : ι → Py (PieceObj μ)) (mk : H5Class → List (PieceObj μ) → Py δ)
    (shuffled : List Nat) (splits : List ℚ) (h3 : splits.length = 3) (seed : Int) (dir dir' : H5Dir δ ι)
    (hids : ids.Nodup)
    (hsh : shuffled.Perm (List.range (ids.filter fun i => (orNone (parse i)).isSome).length))
    (hfresh : ∀ s ∈ splitNames, dir (pklName s seed) = none ∧ ∀ c, dir (h5Name c s seed) = none)
    (hrun : createH5 ids parse mk shuffled splits seed dir = .ok dir') :
    ∃ props out, splitPieces ids (fun i => orNone (parse i)) shuffled props = .ok out ∧
      (∀ s ∈ props, 0 ≤ s) ∧ props.sum ≠ 0 ∧ out.1.length = 3 ∧ out.2.length = 3 ∧
      ∀ (k : Nat) s I P, splitNames[k]? = some s → out.1[k]? = some I → out.2[k]? = some P →
        I.length = P.length ∧
        (P = [] → dir' (pklName s seed) = none ∧ ∀ c, dir' (h5Name c s seed) = none) ∧
        (P ≠ [] → (∃ ds, P.mapM PieceObj.toDict = .ok ds ∧ dir' (pklName s seed) = some (.dicts ds)) ∧
          ∀ c, ∃ d, mk c P = .ok d ∧ dir' (h5Name c s seed) = some (.data d I)) := by
  have hn : ∃ props, normalizeSplits splits = .ok props := by
    rw [createH5] at hrun
    obtain ⟨props, hn, _⟩ := bind_ok' hrun
    exact ⟨props, hn⟩
  obtain ⟨props, hn⟩ := hn
  obtain ⟨g1, g2, g3⟩ := props_good hn
  have hprops := (normal_props hn).2.2
  have hne1 : props.sum ≠ 0 := by rw [g2]; norm_num
  obtain ⟨out, ho, l1, l2, hw, hother⟩ := C125_written ids parse mk shuffled splits h3 seed dir dir' hsh hrun
  rw [← hprops] at ho
  refine ⟨props, out, ho, g1, hne1, l1, l2, ?_⟩
  obtain ⟨_, _, hlen, _⟩ := C45_disjoint ids _ shuffled props g1 hne1 hids hsh out ho
  intro k s I P hs hI hP
  refine ⟨?_, ?_, hw k s I P hs hI hP⟩
  · have e1 : (out.1.map List.length)[k]? = some I.length := by rw [List.getElem?_map, hI]; rfl
    rw [hlen, List.getElem?_map, hP] at e1
    simp only [Option.map_some, Option.some.injEq] at e1
    exact e1.symm
  · intro hP0
    have hsm := List.mem_iff_getElem?.2 ⟨_, hs⟩
    constructor
    · rw [hother, (hfresh s hsm).1]
      intro k' s' P' hs' hP' hne'
      refine ⟨fun e => ?_, fun c e => pkl_ne_h5 _ _ _ _ _ e⟩
      have := (pklName_inj e).1
      subst this
      have q := index_unique splits_nodup hs hs'
      subst q
      rw [hP, hP0] at hP'
      injection hP' with hP'
      exact hne' hP'.symm
    · intro c
      rw [hother, (hfresh s hsm).2 c]
      intro k' s' P' hs' hP' hne'
      refine ⟨fun e => pkl_ne_h5 _ _ _ _ _ e.symm, fun c' e => ?_⟩
      have := (h5Name_inj hsm (List.mem_iff_getElem?.2 ⟨_, hs'⟩) e).2.1
      subst this
      have q := index_unique splits_nodup hs hs'
      subst q
      rw [hP, hP0] at hP'
      injection hP' with hP'
      exact hne' hP'.symm

theorem flatten_disjoint {α : Type} (L : List (List α)) (h : L.flatten.Nodup) (j k : Nat) (A B : List α)
    (hA : L[j]? = some A) (hB : L[k]? = some B) (a : α) (ha : a ∈ A) (hb : a ∈ B) : j = k := by
  rw [List.nodup_flatten] at h
  by_contra hjk
  obtain ⟨h1, e1⟩ := List.getElem?_eq_some_iff.1 hA
  obtain ⟨h2, e2⟩ := List.getElem?_eq_some_iff.1 hB
  rw [List.pairwise_iff_getElem] at h
  subst e1 e2
  rcases Nat.lt_or_gt_of_ne hjk with hlt | hlt
  · exact h.2 j k h1 h2 hlt ha hb
  · exact h.2 k j h2 h1 hlt hb ha

/-- C125, for a directory without files of the seed: the files of all data sets of a split have the same ids; two splits
have no id in common; and the ids in the files are those of the pieces that can be parsed. -/
theorem C125_splits_partial (ids : List ι) (parse : ι → Py (PieceObj μ)) (mk : H5Class → List (PieceObj μ) → Py δ)
    (shuffled : List Nat) (splits : List ℚ) (h3 : splits.length = 3) (seed : Int) (dir dir' : H5Dir δ ι)
    (hids : ids.Nodup)
    (hsh : shuffled.Perm (List.range (ids.filter fun i => (orNone (parse i)).isSome).length))
    (hfresh : ∀ s ∈ splitNames, dir (pklName s seed) = none ∧ ∀ c, dir (h5Name c s seed) = none)
    (hrun : createH5 ids parse mk shuffled splits seed dir = .ok dir') :
    (∀ s ∈ splitNames, ∀ c c', idsOfFile dir' (h5Name c s seed) = idsOfFile dir' (h5Name c' s seed)) ∧
    (∀ s ∈ splitNames, ∀ s' ∈ splitNames, ∀ c c' I I', s ≠ s' → idsOfFile dir' (h5Name c s seed) = some I →
      idsOfFile dir' (h5Name c' s' seed) = some I' → ∀ i ∈ I, i ∉ I') ∧
    (∀ c i, (∃ s ∈ splitNames, ∃ I, idsOfFile dir' (h5Name c s seed) = some I ∧ i ∈ I) ↔
      i ∈ ids ∧ ∃ p, parse i = .ok p) ∧
    ∀ s ∈ splitNames, ∀ c I, idsOfFile dir' (h5Name c s seed) = some I → I.Nodup ∧ I ≠ [] := by
  obtain ⟨props, out, ho, g1, g2, l1, l2, hf⟩ :=
    fresh_files ids parse mk shuffled splits h3 seed dir dir' hids hsh hfresh hrun
  obtain ⟨hnd, hmem, _, _⟩ := C45_disjoint ids _ shuffled props g1 g2 hids hsh out ho
  have hidx : ∀ s ∈ splitNames, ∃ (k : Nat) (I : List ι) (P : List (PieceObj μ)),
      splitNames[k]? = some s ∧ out.1[k]? = some I ∧ out.2[k]? = some P := by
    intro s hs
    obtain ⟨k, hk⟩ := List.mem_iff_getElem?.1 hs
    have hlt : k < 3 := (List.getElem?_eq_some_iff.1 hk).1
    exact ⟨k, out.1[k], out.2[k], hk, List.getElem?_eq_getElem (by omega), List.getElem?_eq_getElem (by omega)⟩
  have hfile : ∀ (k : Nat) s I P c, splitNames[k]? = some s → out.1[k]? = some I → out.2[k]? = some P →
      idsOfFile dir' (h5Name c s seed) = if I = [] then none else some I := by
    intro k s I P c hs hI hP
    obtain ⟨hl, he, hne⟩ := hf k s I P hs hI hP
    by_cases hP0 : P = []
    · have hI0 : I = [] := List.length_eq_zero_iff.1 (by rw [hl, hP0]; rfl)
      rw [idsOfFile, (he hP0).2 c, if_pos hI0]
    · have hI0 : I ≠ [] := fun e => hP0 (List.length_eq_zero_iff.1 (by rw [← hl, e]; rfl))
      obtain ⟨d, _, hd⟩ := (hne hP0).2 c
      rw [idsOfFile, hd, if_neg hI0]
  have hsome : ∀ s ∈ splitNames, ∀ c I, idsOfFile dir' (h5Name c s seed) = some I →
      ∃ k : Nat, splitNames[k]? = some s ∧ out.1[k]? = some I ∧ I ≠ [] := by
    intro s hs c I h
    obtain ⟨k, J, P, e1, e2, e3⟩ := hidx s hs
    rw [hfile k s J P c e1 e2 e3] at h
    by_cases hJ : J = []
    · rw [if_pos hJ] at h; cases h
    · rw [if_neg hJ] at h
      injection h with h
      subst h
      exact ⟨k, e1, e2, hJ⟩
  refine ⟨?_, ?_, ?_, ?_⟩
  · intro s hs c c'
    obtain ⟨k, J, P, e1, e2, e3⟩ := hidx s hs
    rw [hfile k s J P c e1 e2 e3, hfile k s J P c' e1 e2 e3]
  · intro s hs s' hs' c c' I I' hne h1 h2 i hi hi'
    obtain ⟨k, e1, e2, _⟩ := hsome s hs c I h1
    obtain ⟨k', e1', e2', _⟩ := hsome s' hs' c' I' h2
    have := flatten_disjoint out.1 hnd k k' I I' e2 e2' i hi hi'
    subst this
    rw [e1] at e1'
    injection e1' with e
    exact hne e
  · intro c i
    have hor : (∃ p, (fun i => orNone (parse i)) i = some p) ↔ ∃ p, parse i = .ok p := by
      cases hp : parse i with
      | error e => simp [orNone, hp]
      | ok p => simp [orNone, hp]
    rw [← hor, ← hmem i]
    constructor
    · rintro ⟨s, hs, I, h, hi⟩
      obtain ⟨k, _, e2, _⟩ := hsome s hs c I h
      exact List.mem_flatten.2 ⟨I, List.mem_iff_getElem?.2 ⟨k, e2⟩, hi⟩
    · intro h
      obtain ⟨I, hI, hi⟩ := List.mem_flatten.1 h
      obtain ⟨k, hk⟩ := List.mem_iff_getElem?.1 hI
      have hlt : k < 3 := by rw [← l1]; exact (List.getElem?_eq_some_iff.1 hk).1
      have hs : splitNames[k]? = some (splitNames[k]'hlt) := List.getElem?_eq_getElem hlt
      refine ⟨_, List.mem_iff_getElem?.2 ⟨k, hs⟩, I, ?_, hi⟩
      rw [hfile k _ I out.2[k] c hs hk (List.getElem?_eq_getElem (by omega)), if_neg]
      rintro rfl
      cases hi
  · intro s hs c I h
    obtain ⟨k, _, e2, hne⟩ := hsome s hs c I h
    exact ⟨(List.nodup_flatten.1 hnd).1 I (List.mem_iff_getElem?.2 ⟨k, e2⟩), hne⟩

/-- C125: after a run from a directory without files of the seed, evaluation loads exactly the pieces of the validation
or test split, each from its own rows, and the initial chord prior is trained on those of the training split. -/
theorem C125_loaded_partial [DecidableEq ι] (ids all : List ι) (parse : ι → Py (PieceObj μ)) (measures : ι → Py μ)
    (mk : H5Class → List (PieceObj μ) → Py δ)
    (shuffled : List Nat) (splits : List ℚ) (h3 : splits.length = 3) (seed : Int) (dir dir' : H5Dir δ ι)
    (hids : ids.Nodup)
    (hsh : shuffled.Perm (List.range (ids.filter fun i => (orNone (parse i)).isSome).length))
    (hparse : ∀ i p, parse i = .ok p → measures i = .ok p.measures ∧ p.chords ≠ none ∧ p.keys ≠ none)
    (hfresh : ∀ s ∈ splitNames, dir (pklName s seed) = none ∧ ∀ c, dir (h5Name c s seed) = none)
    (hrun : createH5 ids parse mk shuffled splits seed dir = .ok dir') :
    (∀ (test : Bool) I, idsOfFile dir' (h5Name .chordTransition (if test then testName else validName) seed) = some I →
      ∃ l, testPieces all parse measures dir' test seed none = .ok l ∧ l.map Prod.fst = I ∧
        (∀ x ∈ l, parse x.1 = .ok x.2) ∧
        ∀ x ∈ l, testPieces all parse measures dir' test seed (some x.1) = .ok [x]) ∧
    ∀ I, idsOfFile dir' (h5Name .chordTransition trainName seed) = some I →
      ∃ l, icmPieces all parse measures dir' seed = .ok l ∧ l.map Prod.fst = I ∧ ∀ x ∈ l, parse x.1 = .ok x.2 := by
  obtain ⟨props, out, ho, g1, g2, l1, l2, hf⟩ :=
    fresh_files ids parse mk shuffled splits h3 seed dir dir' hids hsh hfresh hrun
  have main : ∀ s ∈ splitNames, ∀ I, idsOfFile dir' (h5Name .chordTransition s seed) = some I →
      ∃ l, loadFromTables all parse measures (some I) (dictsOfFile dir' (pklName s seed)) none = .ok l ∧
        l.map Prod.fst = I ∧ (∀ x ∈ l, parse x.1 = .ok x.2) ∧
        ∀ x ∈ l, loadFromTables all parse measures (some I) (dictsOfFile dir' (pklName s seed)) (some x.1) =
          .ok [x] := by
    intro s hs I h
    obtain ⟨k, hk⟩ := List.mem_iff_getElem?.1 hs
    have hlt : k < 3 := (List.getElem?_eq_some_iff.1 hk).1
    have hI : out.1[k]? = some out.1[k] := List.getElem?_eq_getElem (by omega)
    have hP : out.2[k]? = some out.2[k] := List.getElem?_eq_getElem (by omega)
    generalize out.1[k] = J at hI
    generalize out.2[k] = P at hP
    obtain ⟨hl, he, hne⟩ := hf k s J P hk hI hP
    by_cases hP0 : P = []
    · rw [idsOfFile, (he hP0).2] at h; cases h
    · obtain ⟨⟨ds, hds, hpkl⟩, hd⟩ := hne hP0
      obtain ⟨d, _, hd⟩ := hd .chordTransition
      rw [idsOfFile, hd] at h
      injection h with h
      subst h
      have hJ0 : J ≠ [] := fun e => hP0 (List.length_eq_zero_iff.1 (by rw [← hl, e]; rfl))
      obtain ⟨ds', q1, q2, q3, q4, q5⟩ := C92_split ids parse measures shuffled props g1 g2 hids hsh hparse out ho k J P
        hI hP hJ0 all
      rw [hds] at q1
      injection q1 with q1
      subst q1
      have harg : dictsOfFile dir' (pklName s seed) = .found ds := by rw [dictsOfFile, hpkl]
      rw [harg]
      refine ⟨J.zip P, q2, List.map_fst_zip (by omega), ?_, ?_⟩
      · rintro ⟨i, p⟩ hx
        obtain ⟨j, hj⟩ := List.mem_iff_getElem?.1 hx
        rw [List.getElem?_zip_eq_some] at hj
        exact q4 j i p hj.1 hj.2
      · rintro ⟨i, p⟩ hx
        obtain ⟨j, hj⟩ := List.mem_iff_getElem?.1 hx
        rw [List.getElem?_zip_eq_some] at hj
        exact q5 j i p hj.1 hj.2
  constructor
  · intro test I h
    have hm : (if test then testName else validName) ∈ splitNames := by cases test <;> decide
    obtain ⟨l, e1, e2, e3, e4⟩ := main _ hm I h
    refine ⟨l, ?_, e2, e3, fun x hx => ?_⟩
    · rw [testPieces, h]; exact e1
    · rw [testPieces, h]; exact e4 x hx
  · intro I h
    obtain ⟨l, e1, e2, e3, _⟩ := main _ (by decide) I h
    exact ⟨l, by rw [icmPieces, h]; exact e1, e2, e3⟩

/-- C125 fails for a split without pieces: evaluation of that split raises an exception, although there is nothing
to evaluate. -/
theorem C125_fails_empty [DecidableEq ι] (all : List ι) (parse : ι → Py (PieceObj μ)) (measures : ι → Py μ)
    (dir : H5Dir δ ι) (test : Bool) (seed : Int) (specific : Option ι)
    (h : dir (pklName (if test then testName else validName) seed) = none) :
    testPieces all parse measures dir test seed specific = .error .nameError := by
  rw [testPieces, show dictsOfFile dir (pklName (if test then testName else validName) seed) = .missing by rw [dictsOfFile, h]]
  exact C92_fails_missing _ _ _ _ _

theorem split_zero {α : Type} (l : List α) (prop : ℚ) (splits : List ℚ) (parts : List (List α))
    (h : splitFrom l prop splits = .ok parts) (k : Nat) (hk : splits[k]? = some 0) : parts[k]? = some [] := by
  induction splits generalizing prop parts k with
  | nil => simp at hk
  | cons s rest ih =>
    rw [splitFrom] at h
    obtain ⟨part, h1, h⟩ := Verif.Datasets.bind_ok h
    obtain ⟨ps, h2, h⟩ := Verif.Datasets.bind_ok h
    injection h with h
    subst h
    cases k with
    | zero =>
      simp at hk
      subst hk
      rw [splitPart, add_zero, sub_self, if_pos rfl] at h1
      injection h1 with h1
      simp [h1]
    | succ k => simpa using ih _ ps h2 k (by simpa using hk)

theorem pieces_zero {π : Type} (ids : List ι) (parse : ι → Option π) (shuffled : List Nat) (splits : List ℚ)
    (out : List (List ι) × List (List π)) (h : splitPieces ids parse shuffled splits = .ok out) (k : Nat)
    (hk : splits[k]? = some 0) : out.1[k]? = some [] ∧ out.2[k]? = some [] := by
  rw [splitPieces] at h
  obtain ⟨_, _, h⟩ := Verif.Datasets.bind_ok h
  obtain ⟨_, _, h⟩ := Verif.Datasets.bind_ok h
  obtain ⟨_, _, h⟩ := Verif.Datasets.bind_ok h
  obtain ⟨_, h1, h⟩ := Verif.Datasets.bind_ok h
  obtain ⟨_, h2, h⟩ := Verif.Datasets.bind_ok h
  injection h with h
  subst h
  have hk' : (splits.map (· / splits.sum))[k]? = some 0 := by rw [List.getElem?_map, hk]; simp
  exact ⟨split_zero _ _ _ _ h2 k hk', split_zero _ _ _ _ h1 k hk'⟩

/-- C125 fails in a directory with files of the same seed: if all pieces now go into the training split, a validation
file of an earlier run stays, and its pieces are validated on as well as trained on. -/
theorem C125_fails_stale (ids : List ι) (parse : ι → Py (PieceObj μ)) (mk : H5Class → List (PieceObj μ) → Py δ)
    (shuffled : List Nat) (a : ℚ) (seed : Int) (dir dir' : H5Dir δ ι) (hids : ids.Nodup)
    (hsh : shuffled.Perm (List.range (ids.filter fun i => (orNone (parse i)).isSome).length))
    (hrun : createH5 ids parse mk shuffled [a, 0, 0] seed dir = .ok dir') (c : H5Class) (J : List ι)
    (hJ : idsOfFile dir (h5Name c validName seed) = some J) (i : ι) (hi : i ∈ J) (hin : i ∈ ids) (p : PieceObj μ)
    (hp : parse i = .ok p) :
    idsOfFile dir' (h5Name c validName seed) = some J ∧
      ∃ I, idsOfFile dir' (h5Name c trainName seed) = some I ∧ i ∈ I ∧ i ∈ J := by
  have hn : ∃ props, normalizeSplits [a, 0, 0] = .ok props := by
    rw [createH5] at hrun
    obtain ⟨props, hn, _⟩ := bind_ok' hrun
    exact ⟨props, hn⟩
  obtain ⟨props, hn⟩ := hn
  obtain ⟨g1, g2, g3⟩ := props_good hn
  have hprops := (normal_props hn).2.2
  have hne1 : props.sum ≠ 0 := by rw [g2]; norm_num
  obtain ⟨out, ho, l1, l2, hw, hother⟩ := C125_written ids parse mk shuffled [a, 0, 0] rfl seed dir dir' hsh hrun
  have z1 := pieces_zero ids _ shuffled _ out ho 1 (by simp)
  have z2 := pieces_zero ids _ shuffled _ out ho 2 (by simp)
  rw [← hprops] at ho
  obtain ⟨_, hmem, hlen, _⟩ := C45_disjoint ids _ shuffled props g1 hne1 hids hsh out ho
  have hmem := (hmem i).2 ⟨hin, p, by rw [hp]; rfl⟩
  obtain ⟨⟨I0, o1⟩, o2⟩ : (∃ I0, out.1 = [I0, [], []]) ∧ True := by
    refine ⟨?_, trivial⟩
    obtain ⟨o1, o2⟩ := out
    simp only at z1 z2 l1
    match o1, l1, z1.1, z2.1 with
    | [x, y, z], _, e1, e2 =>
      simp at e1 e2
      subst e1 e2
      exact ⟨x, rfl⟩
  have hiI : i ∈ I0 := by rw [o1] at hmem; simpa using hmem
  have hP : out.2[0]? = some out.2[0] := List.getElem?_eq_getElem (by omega)
  have hPl : I0.length = out.2[0].length := by
    have e1 : (out.1.map List.length)[0]? = some I0.length := by rw [o1]; rfl
    rw [hlen, List.getElem?_map, hP] at e1
    simpa using e1.symm
  have hPne : out.2[0] ≠ [] := by
    intro e
    rw [e] at hPl
    rw [List.length_eq_zero_iff.1 hPl] at hiI
    cases hiI
  constructor
  · rw [← hJ, idsOfFile, idsOfFile, hother]
    intro k s P hs hP' hne
    refine ⟨fun e => pkl_ne_h5 _ _ _ _ _ e.symm, fun c' e => ?_⟩
    have := (h5Name_inj (by decide) (List.mem_iff_getElem?.2 ⟨_, hs⟩) e).2.1
    subst this
    have q := index_unique splits_nodup hs (show splitNames[1]? = some validName from rfl)
    subst q
    rw [z1.2] at hP'
    injection hP' with hP'
    exact hne hP'.symm
  · obtain ⟨_, hd⟩ := hw 0 trainName I0 out.2[0] rfl (by rw [o1]; rfl) hP hPne
    obtain ⟨d, _, hd⟩ := hd c
    exact ⟨I0, by rw [idsOfFile, hd], hiI, hi⟩

end

/-! ## Examples -/

/-- Two pieces, told apart by their measures. -/
def exParse (i : Nat) : Py (PieceObj Nat) := .ok { exPiece with measures := i }

/-- A data set that is the list of the measures. -/
def exMk (_ : H5Class) (P : List (PieceObj Nat)) : Py (List Nat) := .ok (P.map (·.measures))

/-- The ids in the training and the validation file after a run. -/
def exIds (r : Except H5Stop (H5Dir (List Nat) Nat)) : Option (Option (List Nat) × Option (List Nat)) :=
  match r with
  | .ok dir => some (idsOfFile dir (h5Name .keySequence trainName 4), idsOfFile dir (h5Name .keySequence validName 4))
  | .error _ => none

/-- Two pieces in two splits; then both in the training split, with the validation file of the first run. -/
example :
    exIds (createH5 [3, 7] exParse exMk [1, 0] [1, 1, 0] 4 fun _ => none) = some (some [7], some [3]) ∧
    exIds (createH5 [3, 7] exParse exMk [1, 0] [1, 1, 0] 4 (fun _ => none) >>=
      createH5 [3, 7] exParse exMk [1, 0] [1, 0, 0] 4) = some (some [7, 3], some [3]) ∧
    exIds (createH5 [3, 7] exParse exMk [1, 0] [1, 0, 0] 4 fun _ => none) = some (some [7, 3], none) := by
  decide +kernel

/-- What is evaluated or trained on after a run. -/
def exLoad (splits : List ℚ) (load : H5Dir (List Nat) Nat → Py (List (Nat × PieceObj Nat))) :
    Option (Py (List (Nat × PieceObj Nat))) :=
  ((createH5 [3, 7] exParse exMk [1, 0] splits 4 fun _ => none).map load).toOption

/-- The pieces that are evaluated and trained on, and the exceptional ends. -/
example :
    exLoad [1, 1, 0] (fun dir => testPieces [3, 7] exParse .ok dir false 4 none) =
      some (.ok [(3, { exPiece with measures := 3 })]) ∧
    exLoad [1, 1, 0] (fun dir => testPieces [3, 7] exParse .ok dir true 4 none) = some (.error .nameError) ∧
    exLoad [1, 1, 0] (fun dir => icmPieces [3, 7] exParse .ok dir 4) = some (.ok [(7, exPiece)]) ∧
    exLoad [2, -1, 0] (fun dir => icmPieces [3, 7] exParse .ok dir 4) = none := by
  decide +kernel

example : h5Name .chordTransition validName 4 = chars% "ChordTransitionDataset_valid_seed_4.h5" ∧
    pklName testName 10 = chars% "pieces_test_seed_10.pkl" := by decide +kernel

end Verif.H5Files
