import Verif.Forward
import Verif.Props.Inference

/-!
# C127, C128: what the neural networks compute
-/

namespace Verif.Forward

open Verif

variable {S O : Type}

/-! ### One sequence -/

/-- `nn.LSTM` with one direction on one sequence, from the states of its layers. -/
def runUni : List (Cell S) → List S → List Vec → List Vec × List S
  | c :: cs, s :: ss, xs =>
    let r := runCell c s xs
    let q := runUni cs ss r.1
    (q.1, r.2 :: q.2)
  | _, _, xs => (xs, [])

theorem runCell_append (c : Cell S) (s : S) (xs ys : List Vec) :
    runCell c s (xs ++ ys) = ((runCell c s xs).1 ++ (runCell c (runCell c s xs).2 ys).1,
      (runCell c (runCell c s xs).2 ys).2) := by
  induction xs generalizing s with
  | nil => rfl
  | cons x xs ih => simp only [List.cons_append, runCell, ih]

theorem runCell_length (c : Cell S) (s : S) (xs : List Vec) : (runCell c s xs).1.length = xs.length := by
  induction xs generalizing s with
  | nil => rfl
  | cons x xs ih => simp only [runCell, List.length_cons, ih]

theorem runUni_length (cs : List (Cell S)) (ss : List S) (xs : List Vec) : (runUni cs ss xs).1.length = xs.length := by
  induction cs generalizing ss xs with
  | nil => simp [runUni]
  | cons c cs ih =>
    cases ss with
    | nil => simp [runUni]
    | cons s ss => simp only [runUni, ih, runCell_length]

theorem runUni_hidden (cs : List (Cell S)) (ss : List S) (h : ss.length = cs.length) (xs : List Vec) :
    (runUni cs ss xs).2.length = cs.length := by
  induction cs generalizing ss xs with
  | nil => simp [runUni]
  | cons c cs ih =>
    cases ss with
    | nil => simp at h
    | cons s ss => simp only [runUni, List.length_cons, ih ss (by simpa using h)]

/-- A sequence may be read in parts. -/
theorem runUni_append (cs : List (Cell S)) (ss : List S) (h : ss.length = cs.length) (xs ys : List Vec) :
    runUni cs ss (xs ++ ys) = ((runUni cs ss xs).1 ++ (runUni cs (runUni cs ss xs).2 ys).1,
      (runUni cs (runUni cs ss xs).2 ys).2) := by
  induction cs generalizing ss xs ys with
  | nil => simp [runUni]
  | cons c cs ih =>
    cases ss with
    | nil => simp at h
    | cons s ss => simp only [runUni, runCell_append, ih ss (by simpa using h)]

/-! ### Transposition -/

theorem transpose01_length (k : Nat) (m : List (List S)) : (transpose01 k m).length = k := by simp [transpose01]

theorem filterMap_column {α : Type} (m : List (List α)) (j : Nat) (h : ∀ r ∈ m, j < r.length) :
    (m.filterMap (·[j]?)).length = m.length ∧ ∀ i : Nat, (m.filterMap (·[j]?))[i]? = m[i]?.bind (·[j]?) := by
  induction m with
  | nil => simp
  | cons r m ih =>
    have hj : j < r.length := h r (by simp)
    have hr : r[j]? = some r[j] := List.getElem?_eq_getElem hj
    obtain ⟨h1, h2⟩ := ih fun r hr => h r (by simp [hr])
    rw [List.filterMap_cons, hr]
    refine ⟨by simp [h1], fun i => ?_⟩
    cases i with
    | zero => simp [hr]
    | succ i => simpa using h2 i

theorem filterMap_total {α β : Type} (f : α → Option β) (l : List α) (h : ∀ x ∈ l, ∃ v, f x = some v) :
    (l.filterMap f).length = l.length ∧ ∀ i : Nat, (l.filterMap f)[i]? = l[i]?.bind f := by
  induction l with
  | nil => simp
  | cons x l ih =>
    obtain ⟨v, hv⟩ := h x (by simp)
    obtain ⟨h1, h2⟩ := ih fun x hx => h x (by simp [hx])
    rw [List.filterMap_cons, hv]
    refine ⟨by simp [h1], fun i => ?_⟩
    cases i with
    | zero => simp [hv]
    | succ i => simpa using h2 i

theorem transpose01_rows (k : Nat) (m : List (List S)) (h : ∀ r ∈ m, r.length = k) :
    ∀ r ∈ transpose01 k m, r.length = m.length := by
  intro r hr
  simp only [transpose01, List.mem_map, List.mem_range] at hr
  obtain ⟨j, hj, rfl⟩ := hr
  exact (filterMap_column m j fun r hr => by rw [h r hr]; exact hj).1

theorem transpose01_get (k : Nat) (m : List (List S)) (h : ∀ r ∈ m, r.length = k) (i j : Nat) (hj : j < k) :
    ((transpose01 k m)[j]?).bind (·[i]?) = m[i]?.bind (·[j]?) := by
  have : (transpose01 k m)[j]? = some (m.filterMap (·[j]?)) := by
    simp [transpose01, hj]
  rw [this]
  exact (filterMap_column m j fun r hr => by rw [h r hr]; exact hj).2 i

/-- Transposing twice gives the tensor back. -/
theorem transpose01_twice (k : Nat) (m : List (List S)) (h : ∀ r ∈ m, r.length = k) :
    transpose01 m.length (transpose01 k m) = m := by
  have h1 := transpose01_rows k m h
  apply List.ext_getElem?
  intro i
  by_cases hi : i < m.length
  · have hm : m[i]? = some m[i] := List.getElem?_eq_getElem hi
    have : (transpose01 m.length (transpose01 k m))[i]? = some ((transpose01 k m).filterMap (·[i]?)) := by
      simp [transpose01, hi]
    rw [this, hm]
    congr 1
    obtain ⟨h2, h3⟩ := filterMap_column (transpose01 k m) i fun r hr => by rw [h1 r hr]; exact hi
    rw [transpose01_length] at h2
    have hk := h m[i] (List.getElem_mem hi)
    apply List.ext_getElem?
    intro j
    by_cases hj : j < k
    · rw [h3, transpose01_get k m h i j hj, hm]
      rfl
    · rw [List.getElem?_eq_none (by omega), List.getElem?_eq_none (by omega)]
  · rw [List.getElem?_eq_none (by rw [transpose01_length]; omega), List.getElem?_eq_none (by omega)]

theorem transpose01_succ (k : Nat) (m : List (List S)) :
    transpose01 (k + 1) m = m.filterMap List.head? :: transpose01 k (m.map List.tail) := by
  simp only [transpose01, List.range_succ_eq_map, List.map_cons, List.map_map]
  congr 1
  · congr 1
    funext r
    cases r <;> rfl
  · apply List.map_congr_left
    intro j _
    rw [List.filterMap_map]
    apply List.filterMap_congr
    intro r _
    cases r <;> simp

/-! ### A batch -/

/-- The packed sequences are read each on its own. -/
theorem packedUni_eq (cs : List (Cell S)) (cols : List (List S)) (seqs : List (List Vec))
    (hl : cols.length = seqs.length) (hc : ∀ c ∈ cols, c.length = cs.length) :
    packedUni cs (transpose01 cs.length cols) seqs =
      (List.zipWith (fun c s => (runUni cs c s).1) cols seqs,
        transpose01 cs.length (List.zipWith (fun c s => (runUni cs c s).2) cols seqs)) := by
  induction cs generalizing cols seqs with
  | nil =>
    simp only [packedUni, List.length_nil, transpose01, List.range_zero, List.map_nil, Prod.mk.injEq, and_true]
    induction seqs generalizing cols with
    | nil => simp
    | cons s seqs ih =>
      cases cols with
      | nil => simp at hl
      | cons c cols =>
        rw [List.zipWith_cons_cons, ← ih cols (by simpa using hl) fun c hc' => hc c (by simp [hc'])]
        simp [runUni]
  | cons c cs ih =>
    obtain ⟨hs, ts, rfl, e1, e2⟩ : ∃ (hs : List S) (ts : List (List S)), cols = List.zipWith List.cons hs ts ∧
        hs.length = ts.length ∧ ts.length = seqs.length := by
      have : ∀ cols : List (List S), (∀ l ∈ cols, l.length = cs.length + 1) →
          ∃ (hs : List S) (ts : List (List S)), cols = List.zipWith List.cons hs ts ∧
            hs.length = ts.length ∧ ts.length = cols.length := by
        intro cols
        induction cols with
        | nil => exact fun _ => ⟨[], [], rfl, rfl, rfl⟩
        | cons l cols ih =>
          intro h
          obtain ⟨hs, ts, e, h1, h2⟩ := ih fun l hl => h l (by simp [hl])
          cases l with
          | nil => have := h [] (by simp); simp at this
          | cons a l => exact ⟨a :: hs, l :: ts, by simp [e], by simp [h1], by simp [h2]⟩
      obtain ⟨hs, ts, e, h1, h2⟩ := this cols hc
      exact ⟨hs, ts, e, h1, h2.trans hl⟩
    have hts : ∀ l ∈ ts, l.length = cs.length := by
      clear ih hl e2
      induction ts generalizing hs with
      | nil => simp
      | cons t ts ih =>
        cases hs with
        | nil => simp at e1
        | cons a hs =>
          intro l hl
          rcases List.mem_cons.1 hl with rfl | hl
          · have := hc (a :: l) (by simp)
            simpa using this
          · exact ih hs (fun l hl => hc l (by rw [List.zipWith_cons_cons]; exact List.mem_cons_of_mem _ hl))
              (by simpa using e1) l hl
    have key : ∀ (seqs : List (List Vec)) (hs : List S) (ts : List (List S)), hs.length = ts.length →
        ts.length = seqs.length →
        (List.zipWith List.cons hs ts).filterMap List.head? = hs ∧
        (List.zipWith List.cons hs ts).map List.tail = ts ∧
        ((List.zipWith (runCell c) hs seqs).map Prod.fst).length = ts.length ∧
        List.zipWith (fun l s => (runUni cs l s).1) ts ((List.zipWith (runCell c) hs seqs).map Prod.fst) =
          List.zipWith (fun l s => (runUni (c :: cs) l s).1) (List.zipWith List.cons hs ts) seqs ∧
        (List.zipWith (fun l s => (runUni (c :: cs) l s).2) (List.zipWith List.cons hs ts) seqs).filterMap List.head? =
          (List.zipWith (runCell c) hs seqs).map Prod.snd ∧
        (List.zipWith (fun l s => (runUni (c :: cs) l s).2) (List.zipWith List.cons hs ts) seqs).map List.tail =
          List.zipWith (fun l s => (runUni cs l s).2) ts ((List.zipWith (runCell c) hs seqs).map Prod.fst) := by
      intro seqs
      induction seqs with
      | nil =>
        intro hs ts h1 h2
        have h2 : ts = [] := List.length_eq_zero_iff.1 h2
        subst h2
        have h1 : hs = [] := List.length_eq_zero_iff.1 h1
        subst h1
        simp
      | cons x seqs ih =>
        intro hs ts h1 h2
        cases ts with
        | nil => simp at h2
        | cons t ts =>
          cases hs with
          | nil => simp at h1
          | cons a hs =>
            obtain ⟨a1, a2, a3, a4, a5, a6⟩ := ih hs ts (by simpa using h1) (by simpa using h2)
            simp only [List.zipWith_cons_cons, List.filterMap_cons, List.head?_cons, List.map_cons, List.tail_cons,
              a1, a2, a4, a5, a6, List.length_cons, a3, runUni, and_self]
    obtain ⟨a1, a2, a3, a4, a5, a6⟩ := key seqs hs ts e1 e2
    rw [List.length_cons, transpose01_succ, packedUni, a1, a2, ih ts _ a3.symm hts, a4, transpose01_succ, a5, a6]

/-- The layers and states fit. -/
theorem initHidden_eq (N : UniNet S O) (n : Nat) :
    N.initHidden n = transpose01 N.cells.length (List.replicate n (List.replicate N.cells.length N.zero)) := by
  apply List.ext_getElem?
  intro j
  by_cases hj : j < N.cells.length
  · simp [UniNet.initHidden, transpose01, hj, List.filterMap_replicate]
  · rw [List.getElem?_eq_none (by simp [UniNet.initHidden]; omega),
      List.getElem?_eq_none (by simp [transpose01]; omega)]

/-- What the network does with a row of a batch: outputs of the LSTM and last states. -/
def alone (N : UniNet S O) (x : List Vec × Nat × List S) : List Vec × List S :=
  runUni N.cells x.2.2 ((x.1.take (max 1 x.2.1)).map N.embed)

/-- A row of a batch that can be read. -/
def RowOk (k : Nat) (x : List Vec × Nat × List S) : Prop :=
  0 < x.1.length ∧ x.2.1 ≤ x.1.length ∧ x.2.2.length = k

theorem packPadded_ok (b : List (List Vec × Nat)) (h : ∀ x ∈ b, 0 < x.1.length ∧ x.2 ≤ x.1.length) (f : Vec → Vec) :
    packPadded ((b.map (·.1)).map (·.map f)) ((b.map (·.2)).map (max 1)) =
      .ok (b.map fun x => (x.1.take (max 1 x.2)).map f) := by
  rw [packPadded, if_pos]
  · congr 1
    clear h
    induction b with
    | nil => rfl
    | cons x b ih => simp only [List.map_cons, List.zipWith_cons_cons, ih, List.map_take]
  · refine ⟨by simp, ?_⟩
    induction b with
    | nil => simp
    | cons x b ih =>
      simp only [List.map_cons, List.zip_cons_cons, List.mem_cons, forall_eq_or_imp, List.length_map]
      have := h x (by simp)
      exact ⟨by omega, ih fun x hx => h x (by simp [hx])⟩

theorem zipWith_same {α β γ : Type} (f : α → β) (g : α → γ) {δ : Type} (k : β → γ → δ) (l : List α) :
    List.zipWith k (l.map f) (l.map g) = l.map fun x => k (f x) (g x) := by
  induction l with
  | nil => rfl
  | cons a l ih => simp [ih]

theorem lstm_batch (N : UniNet S O) (b : List (List Vec × Nat × List S)) (hb : ∀ x ∈ b, RowOk N.cells.length x) :
    N.lstm (b.map (·.1)) (b.map (·.2.1)) (some (transpose01 N.cells.length (b.map (·.2.2)))) =
      .ok (padPacked N.padding (b.map fun x => (alone N x).1), transpose01 N.cells.length (b.map fun x => (alone N x).2)) := by
  have hp := packPadded_ok (b.map fun x => (x.1, x.2.1)) (by
    intro x hx
    obtain ⟨y, hy, rfl⟩ := List.mem_map.1 hx
    exact ⟨(hb y hy).1, (hb y hy).2.1⟩) N.embed
  simp only [List.map_map, Function.comp_def] at hp
  have hc : ∀ c ∈ b.map (·.2.2), c.length = N.cells.length := by
    intro c hc
    obtain ⟨y, hy, rfl⟩ := List.mem_map.1 hc
    exact (hb y hy).2.2
  simp only [UniNet.lstm, List.map_map, Function.comp_def, hp, Option.getD_some, Bind.bind, Except.bind]
  rw [if_pos ⟨transpose01_length _ _, by
    intro r hr
    rw [transpose01_rows _ _ hc r hr, List.length_map, List.length_map]⟩]
  rw [packedUni_eq _ _ _ (by simp) hc, zipWith_same, zipWith_same]
  rfl

/-- The shape of a call that does not raise. -/
theorem lstm_ok (N : UniNet S O) (rows : List (List Vec)) (lengths : List Nat) (hidden : Option (List (List S)))
    (r : List (List Vec) × List (List S)) (h : N.lstm rows lengths hidden = .ok r) :
    ∃ b : List (List Vec × Nat × List S), rows = b.map (·.1) ∧ lengths = b.map (·.2.1) ∧
      (hidden.getD (N.initHidden rows.length)) = transpose01 N.cells.length (b.map (·.2.2)) ∧
      (∀ x ∈ b, RowOk N.cells.length x) := by
  simp only [UniNet.lstm, packPadded] at h
  split at h
  · rename_i h1
    simp only [Bind.bind, Except.bind] at h
    split at h
    · rename_i h2
      obtain ⟨h1a, h1b⟩ := h1
      obtain ⟨h2a, h2b⟩ := h2
      rw [List.length_map, List.length_map] at h1a
      generalize hidden.getD (N.initHidden rows.length) = hh at *
      have ht := transpose01_twice rows.length hh h2b
      rw [h2a] at ht
      have hl : (transpose01 rows.length hh).length = rows.length := transpose01_length _ _
      have hr := transpose01_rows rows.length hh h2b
      rw [h2a] at hr
      refine ⟨rows.zip (lengths.zip (transpose01 rows.length hh)), ?_, ?_, ?_, ?_⟩
      · exact (List.map_fst_zip (by rw [List.length_zip, hl, h1a]; omega)).symm
      · have : ((rows.zip (lengths.zip (transpose01 rows.length hh))).map Prod.snd).map Prod.fst = lengths := by
          rw [List.map_snd_zip (by rw [List.length_zip, hl, h1a]; omega), List.map_fst_zip (by omega)]
        rw [List.map_map] at this
        exact this.symm
      · have : ((rows.zip (lengths.zip (transpose01 rows.length hh))).map Prod.snd).map Prod.snd =
            transpose01 rows.length hh := by
          rw [List.map_snd_zip (by rw [List.length_zip, hl, h1a]; omega), List.map_snd_zip (by omega)]
        rw [List.map_map] at this
        exact (by rw [← ht]; congr 1; rw [ht]; exact this.symm)
      · rintro ⟨row, n, st⟩ hx
        obtain ⟨i, hi⟩ := List.mem_iff_getElem?.1 hx
        rw [List.getElem?_zip_eq_some, List.getElem?_zip_eq_some] at hi
        obtain ⟨e1, e2, e3⟩ := hi
        have := h1b (row.map N.embed, max 1 n) (List.mem_iff_getElem?.2 ⟨i, by
          rw [List.getElem?_zip_eq_some]
          exact ⟨by simp [e1], by simp [e2]⟩⟩)
        simp only [List.length_map] at this
        exact ⟨by simp only; omega, by simp only; omega, hr st (List.mem_of_getElem? e3)⟩
    · cases h
  · cases h

theorem padPacked_take {α : Type} (padding : α) (rows : List (List α)) (i : Nat) :
    (padPacked padding rows)[i]? = rows[i]?.map fun r =>
      r ++ List.replicate (maxLength (rows.map List.length) - r.length) padding := by
  simp [padPacked]

theorem padPacked_one {α : Type} (padding : α) (r : List α) : padPacked padding [r] = [r] := by
  simp [padPacked, maxLength]

/-- The states of one row, as the hidden states of a batch of that row. -/
def oneColumn (h : List (List S)) (i : Nat) : List (List S) := (h.filterMap (·[i]?)).map fun s => [s]

theorem transpose01_one (l : List S) : transpose01 l.length [l] = l.map fun s => [s] := by
  apply List.ext_getElem?
  intro i
  by_cases h : i < l.length
  · simp [transpose01, h]
  · rw [List.getElem?_eq_none (by rw [transpose01_length]; omega), List.getElem?_eq_none (by simp; omega)]

theorem oneColumn_transpose (k : Nat) (m : List (List S)) (h : ∀ r ∈ m, r.length = k) (i : Nat) (l : List S)
    (hi : m[i]? = some l) : oneColumn (transpose01 k m) i = transpose01 k [l] := by
  have hl : l.length = k := h l (List.mem_of_getElem? hi)
  have hlt : i < m.length := by
    by_contra hc
    rw [List.getElem?_eq_none (by omega)] at hi
    cases hi
  have : (transpose01 m.length (transpose01 k m))[i]? = some ((transpose01 k m).filterMap (·[i]?)) := by
    simp [transpose01, hlt]
  rw [transpose01_twice k m h, hi] at this
  rw [oneColumn, ← Option.some.inj this, ← hl, transpose01_one]

/-- C127: the outputs and hidden states of a row of a batch are those which the network gives for that row alone,
without padding. -/
theorem C127_forward (N : UniNet S O) (rows : List (List Vec)) (lengths : List Nat) (hidden : Option (List (List S)))
    (outs : List (List O)) (hid : List (List S)) (h : N.forward rows lengths hidden = .ok (outs, hid)) :
    outs.length = rows.length ∧ ∀ (i : Nat) (row : List Vec) (n : Nat), rows[i]? = some row → lengths[i]? = some n →
      ∃ o, outs[i]? = some o ∧ N.forward [row.take (max 1 n)] [max 1 n] (hidden.map fun h => oneColumn h i) =
        .ok ([o.take (max 1 n)], oneColumn hid i) := by
  simp only [UniNet.forward] at h
  cases hr : N.lstm rows lengths hidden with
  | error e => rw [hr] at h; cases h
  | ok r =>
    obtain ⟨b, rfl, rfl, e3, hb⟩ := lstm_ok N rows lengths hidden r hr
    have hL : N.lstm (b.map (·.1)) (b.map (·.2.1)) hidden =
        N.lstm (b.map (·.1)) (b.map (·.2.1)) (some (transpose01 N.cells.length (b.map (·.2.2)))) := by
      simp only [UniNet.lstm, e3, Option.getD_some]
    rw [hL, lstm_batch N b hb] at h
    simp only [Bind.bind, Except.bind, Except.ok.injEq, Prod.mk.injEq] at h
    obtain ⟨rfl, rfl⟩ := h
    refine ⟨by simp [padPacked], ?_⟩
    intro i row n h1 h2
    rw [List.getElem?_map, Option.map_eq_some_iff] at h1
    obtain ⟨x, hx, rfl⟩ := h1
    rw [List.getElem?_map, hx, Option.map_some, Option.some.injEq] at h2
    subst h2
    have hxb := hb x (List.mem_of_getElem? hx)
    refine ⟨_, by rw [List.getElem?_map, padPacked_take, List.getElem?_map, hx]; rfl, ?_⟩
    have hcol : (hidden.map fun h => oneColumn h i).getD (N.initHidden 1) = transpose01 N.cells.length [x.2.2] := by
      have h3 : ∀ r ∈ b.map (·.2.2), r.length = N.cells.length := by
        intro r hr
        obtain ⟨y, hy, rfl⟩ := List.mem_map.1 hr
        exact (hb y hy).2.2
      cases hidden with
      | some hh =>
        simp only [Option.getD_some] at e3
        simp only [Option.map_some, Option.getD_some]
        rw [e3]
        exact oneColumn_transpose _ _ h3 i _ (by simp [hx])
      | none =>
        simp only [Option.getD_none] at e3
        simp only [Option.map_none, Option.getD_none]
        rw [initHidden_eq] at e3 ⊢
        have := congrArg (transpose01 b.length) e3
        have t1 := transpose01_twice N.cells.length (b.map (·.2.2)) h3
        rw [List.length_map] at t1
        have t2 := transpose01_twice N.cells.length
          (List.replicate b.length (List.replicate N.cells.length N.zero)) (by simp)
        rw [List.length_replicate] at t2
        rw [List.length_map, t1, t2] at this
        have h4 : (b.map (·.2.2))[i]? = some x.2.2 := by simp [hx]
        rw [← this, List.getElem?_replicate] at h4
        split at h4
        · rw [← Option.some.inj h4]
          rfl
        · cases h4
    have h5 := lstm_batch N [(x.1.take (max 1 x.2.1), max 1 x.2.1, x.2.2)] (by
      intro y hy
      simp only [List.mem_singleton] at hy
      subst hy
      obtain ⟨q1, q2, q3⟩ := hxb
      refine ⟨?_, ?_, q3⟩ <;> simp only [List.length_take] <;> omega)
    have h6 : N.lstm [x.1.take (max 1 x.2.1)] [max 1 x.2.1] (hidden.map fun h => oneColumn h i) =
        N.lstm [x.1.take (max 1 x.2.1)] [max 1 x.2.1] (some (transpose01 N.cells.length [x.2.2])) := by
      simp only [UniNet.lstm, List.length_singleton, hcol, Option.getD_some]
    simp only [List.map_cons, List.map_nil] at h5
    simp only [UniNet.forward, h6, h5, Bind.bind, Except.bind, padPacked_one]
    have ha : alone N (x.1.take (max 1 x.2.1), max 1 x.2.1, x.2.2) = alone N x := by
      simp only [alone, List.take_take]
      congr 3
      omega
    rw [ha]
    have hlen : (alone N x).1.length = max 1 x.2.1 := by
      obtain ⟨q1, q2, q3⟩ := hxb
      simp only [alone, runUni_length, List.length_map, List.length_take]
      omega
    congr 2
    · rw [List.map_append, List.take_append_of_le_length (by rw [List.length_map]; omega), List.take_of_length_le
        (by rw [List.length_map]; omega)]
      rfl
    · symm
      refine oneColumn_transpose _ _ ?_ i _ (by simp [hx])
      intro r hr
      obtain ⟨y, hy, rfl⟩ := List.mem_map.1 hr
      exact runUni_hidden _ _ (hb y hy).2.2 _

/-- The output of the model at the end of a row. -/
theorem gather_last {α : Type} (padding : α) (b : List (List α × Nat)) (h : ∀ x ∈ b, x.1.length = max 1 x.2) :
    ((padPacked padding (b.map (·.1))).zip ((b.map (·.2)).map (max 1))).mapM
      (fun x => pyGet x.1 ((x.2 : Int) - 1)) = .ok (b.filterMap fun x => x.1.getLast?) := by
  rw [padPacked]
  generalize maxLength ((b.map (·.1)).map List.length) = M
  induction b with
  | nil => rfl
  | cons x b ih =>
    have hx := h x (by simp)
    have hne : x.1 ≠ [] := by
      intro e
      rw [e] at hx
      simp at hx
      omega
    have hg : pyGet (x.1 ++ List.replicate (M - x.1.length) padding) (((max 1 x.2 : Nat) : Int) - 1) =
        .ok (x.1.getLast hne) := by
      have e : (((max 1 x.2 : Nat) : Int) - 1) = ((x.1.length - 1 : Nat) : Int) := by rw [hx]; omega
      have hlt : x.1.length - 1 < x.1.length := by omega
      rw [e]
      refine Inference.pyGet_nat _ _ _ ?_
      rw [List.getElem?_append_left hlt, List.getElem?_eq_getElem hlt, List.getLast_eq_getElem]
    have ih := ih fun x hx => h x (by simp [hx])
    simp only [List.map_cons, List.zip_cons_cons, List.mapM_cons]
    rw [hg]
    simp only [Bind.bind, Except.bind] at ih ⊢
    rw [ih]
    simp [pure, Except.pure, List.getLast?_eq_getLast_of_ne_nil hne]

theorem forward_batch (N : UniNet S O) (b : List (List Vec × Nat × List S)) (hb : ∀ x ∈ b, RowOk N.cells.length x) :
    N.forward (b.map (·.1)) (b.map (·.2.1)) (some (transpose01 N.cells.length (b.map (·.2.2)))) =
      .ok ((padPacked N.padding (b.map fun x => (alone N x).1)).map (·.map N.head),
        transpose01 N.cells.length (b.map fun x => (alone N x).2)) := by
  simp only [UniNet.forward, lstm_batch N b hb, Bind.bind, Except.bind]

theorem alone_length (N : UniNet S O) (x : List Vec × Nat × List S) (h : RowOk N.cells.length x) :
    (alone N x).1.length = max 1 x.2.1 := by
  obtain ⟨q1, q2, q3⟩ := h
  simp only [alone, runUni_length, List.length_map, List.length_take]
  omega

theorem forwardLast_batch (N : UniNet S O) (b : List (List Vec × Nat × List S)) (hb : ∀ x ∈ b, RowOk N.cells.length x) :
    N.forwardLast (b.map (·.1)) (b.map (·.2.1)) (some (transpose01 N.cells.length (b.map (·.2.2)))) =
      .ok ((b.filterMap fun x => (alone N x).1.getLast?).map N.head,
        transpose01 N.cells.length (b.map fun x => (alone N x).2)) := by
  have h := gather_last N.padding (b.map fun x => ((alone N x).1, x.2.1)) (by
    intro y hy
    obtain ⟨x, hx, rfl⟩ := List.mem_map.1 hy
    exact alone_length N x (hb x hx))
  simp only [List.map_map, Function.comp_def, List.filterMap_map] at h
  simp only [UniNet.forwardLast, lstm_batch N b hb, Bind.bind, Except.bind, List.map_map, Function.comp_def]
  rw [h]

/-- A call that does not raise is a call with a batch. -/
theorem lstm_hidden (N : UniNet S O) (b : List (List Vec × Nat × List S)) (hidden : Option (List (List S)))
    (e : hidden.getD (N.initHidden (b.map (·.1)).length) = transpose01 N.cells.length (b.map (·.2.2))) :
    N.lstm (b.map (·.1)) (b.map (·.2.1)) hidden =
      N.lstm (b.map (·.1)) (b.map (·.2.1)) (some (transpose01 N.cells.length (b.map (·.2.2)))) := by
  simp only [UniNet.lstm, e, Option.getD_some]

/-! ### Step by step -/

/-- The states `h` are those after the network has read the sequence `past` from its beginning. -/
def Remembers (N : UniNet S O) (past : List Vec) (h : Option (List S)) : Prop :=
  (past = [] ∧ h = none) ∨
    past ≠ [] ∧ ∃ outs hs, h = some hs ∧ N.lstm [past] [past.length] none = .ok (outs, hs.map fun s => [s])

theorem lstm_one (N : UniNet S O) (xs : List Vec) (h : xs ≠ []) :
    N.lstm [xs] [xs.length] none =
      .ok ([(runUni N.cells (List.replicate N.cells.length N.zero) (xs.map N.embed)).1],
        ((runUni N.cells (List.replicate N.cells.length N.zero) (xs.map N.embed)).2.map fun s => [s])) := by
  have hp : 0 < xs.length := List.length_pos_iff.2 h
  have hb := lstm_batch N [(xs, xs.length, List.replicate N.cells.length N.zero)] (by
    intro x hx
    rw [List.mem_singleton] at hx
    subst hx
    exact ⟨hp, Nat.le_refl _, by simp⟩)
  have hl := lstm_hidden N [(xs, xs.length, List.replicate N.cells.length N.zero)] none (by
    simp only [Option.getD_none, initHidden_eq, List.map_cons, List.map_nil, List.length_singleton]
    rfl)
  simp only [List.map_cons, List.map_nil] at hb hl
  rw [hl]
  have e : alone N (xs, xs.length, List.replicate N.cells.length N.zero) =
      runUni N.cells (List.replicate N.cells.length N.zero) (xs.map N.embed) := by
    simp only [alone]
    rw [Nat.max_eq_right (by omega), List.take_length]
  rw [hb, e, padPacked_one]
  have h2 := transpose01_one (runUni N.cells (List.replicate N.cells.length N.zero) (xs.map N.embed)).2
  rw [runUni_hidden _ _ (by simp)] at h2
  rw [h2]

theorem remembers_eq (N : UniNet S O) (past : List Vec) (h : Option (List S)) (hr : Remembers N past h) :
    h.getD (List.replicate N.cells.length N.zero) =
      (runUni N.cells (List.replicate N.cells.length N.zero) (past.map N.embed)).2 := by
  rcases hr with ⟨rfl, rfl⟩ | ⟨hne, outs, hs, rfl, e⟩
  · have : ∀ (cs : List (Cell S)), (runUni cs (List.replicate cs.length N.zero) []).2 = List.replicate cs.length N.zero := by
      intro cs
      induction cs with
      | nil => rfl
      | cons c cs ih => simp only [runUni, List.length_cons, List.replicate_succ, runCell, ih]
    exact (this N.cells).symm
  · rw [lstm_one N past hne] at e
    simp only [Except.ok.injEq, Prod.mk.injEq] at e
    have := congrArg (List.map List.head?) e.2
    simp only [List.map_map, Function.comp_def, List.head?_cons] at this
    have inj : ∀ a b : List S, a.map some = b.map some → a = b := fun a b h =>
      List.map_injective_iff.2 (Option.some_injective S) h
    exact (inj _ _ this).symm

theorem itemHidden_states (N : UniNet S O) (hidden : List (Option (List S)))
    (hl : ∀ h ∈ hidden, ∀ hs, h = some hs → hs.length = N.cells.length) (i : Nat) (h : Option (List S))
    (hi : hidden[i]? = some h) :
    UniNet.itemHidden (N.statesHidden hidden) i = h.getD (List.replicate N.cells.length N.zero) := by
  have key : ∀ (l : List (Option (List S))) (k : Nat) (cols : List (List S)), cols.length = k + l.length →
      (∀ c ∈ cols, c.length = N.cells.length) → (∀ h ∈ l, ∀ hs, h = some hs → hs.length = N.cells.length) →
      (l.zipIdx k).foldl UniNet.setHidden (transpose01 N.cells.length cols) =
      transpose01 N.cells.length (cols.take k ++ List.zipWith (fun c h => h.getD c) (cols.drop k) l) := by
    intro l
    induction l with
    | nil =>
      intro k cols h1 _ _
      simp only [List.zipIdx_nil, List.foldl_nil, List.zipWith_nil_right, List.append_nil]
      rw [List.take_of_length_le (by simpa using h1.le)]
    | cons h l ih =>
      intro k cols h1 h2 h3
      rw [List.length_cons] at h1
      have hk : k < cols.length := by omega
      have hd : cols.drop k = cols[k] :: cols.drop (k + 1) := List.drop_eq_getElem_cons hk
      rw [List.zipIdx_cons, List.foldl_cons, hd, List.zipWith_cons_cons]
      cases h with
      | none =>
        rw [UniNet.setHidden, ih (k + 1) cols (by omega) h2 fun h hh => h3 h (by simp [hh])]
        rw [List.take_succ_eq_append_getElem hk, List.append_assoc]
        rfl
      | some hs =>
        have hh := h3 (some hs) (by simp) hs rfl
        have hset : List.zipWith (fun row s => row.set k s) (transpose01 N.cells.length cols) hs =
            transpose01 N.cells.length (cols.set k hs) := by
          apply List.ext_getElem?
          intro j
          by_cases hj : j < N.cells.length
          · have hjs : hs[j]? = some hs[j] := List.getElem?_eq_getElem (by omega)
            have e1 : (transpose01 N.cells.length cols)[j]? = some (cols.filterMap (·[j]?)) := by
              simp [transpose01, hj]
            have e2 : (transpose01 N.cells.length (cols.set k hs))[j]? = some ((cols.set k hs).filterMap (·[j]?)) := by
              simp [transpose01, hj]
            rw [List.getElem?_zipWith, e1, e2, hjs]
            simp only [Option.some.injEq]
            have hlt : ∀ r ∈ cols, j < r.length := fun r hr => by rw [h2 r hr]; exact hj
            have hlt' : ∀ r ∈ cols.set k hs, j < r.length := by
              intro r hr
              rcases List.mem_or_eq_of_mem_set hr with hr | rfl
              · exact hlt r hr
              · omega
            obtain ⟨_, f2⟩ := filterMap_column cols j hlt
            obtain ⟨f3, f4⟩ := filterMap_column (cols.set k hs) j hlt'
            apply List.ext_getElem?
            intro i
            rw [f4, List.getElem?_set, List.getElem?_set, f2]
            split
            · rw [if_pos (by rw [(filterMap_column cols j hlt).1]; exact hk)]
              simp [hjs]
            · rfl
          · rw [List.getElem?_eq_none (by rw [List.length_zipWith, transpose01_length]; omega),
              List.getElem?_eq_none (by rw [transpose01_length]; omega)]
        rw [UniNet.setHidden, hset, ih (k + 1) (cols.set k hs) (by rw [List.length_set]; omega) (by
          intro c hc
          rcases List.mem_or_eq_of_mem_set hc with hc | rfl
          · exact h2 c hc
          · exact hh) fun h hh => h3 h (by simp [hh])]
        rw [List.take_succ_eq_append_getElem (by rw [List.length_set]; exact hk), List.drop_set_of_lt (by omega),
          List.take_set_of_le (Nat.le_refl _)]
        simp
  have := key hidden 0 (List.replicate hidden.length (List.replicate N.cells.length N.zero)) (by simp) (by simp) hl
  rw [UniNet.statesHidden, initHidden_eq, this]
  have hi' : i < hidden.length := by
    by_contra hc
    rw [List.getElem?_eq_none (by omega)] at hi
    cases hi
  have hz : ∀ (l : List (Option (List S))) (z : List S),
      List.zipWith (fun c h => h.getD c) (List.replicate l.length z) l = l.map (·.getD z) := by
    intro l z
    induction l with
    | nil => rfl
    | cons a l ih => simp only [List.length_cons, List.replicate_succ, List.zipWith_cons_cons, ih, List.map_cons]
  rw [List.take_zero, List.drop_zero, List.nil_append, hz]
  have hrow : ∀ r ∈ hidden.map (·.getD (List.replicate N.cells.length N.zero)), r.length = N.cells.length := by
    intro r hr
    obtain ⟨h, hh, rfl⟩ := List.mem_map.1 hr
    cases h with
    | none => simp
    | some hs => exact hl _ hh hs rfl
  have t := transpose01_twice N.cells.length _ hrow
  have t2 := congrArg (fun l => l[i]?) t
  simp only [List.getElem?_map, hi, Option.map_some] at t2
  rw [transpose01, List.getElem?_map, List.getElem?_range (by simpa using hi')] at t2
  exact Option.some.inj t2

theorem remembers_length (N : UniNet S O) (past : List Vec) (h : Option (List S)) (hr : Remembers N past h) :
    (h.getD (List.replicate N.cells.length N.zero)).length = N.cells.length := by
  rw [remembers_eq N past h hr]
  exact runUni_hidden _ _ (by simp) _

theorem remembers_more (N : UniNet S O) (past xs : List Vec) (hx : xs ≠ []) (h : Option (List S))
    (hr : Remembers N past h) :
    Remembers N (past ++ xs)
      (some (runUni N.cells (h.getD (List.replicate N.cells.length N.zero)) (xs.map N.embed)).2) := by
  have hne : past ++ xs ≠ [] := by simp [hx]
  have h1 := lstm_one N _ hne
  rw [List.map_append, runUni_append _ _ (by simp), ← remembers_eq N past h hr] at h1
  exact Or.inr ⟨hne, _, _, rfl, h1⟩

/-- C128: running the network by one step for each state gives the output which it would give at the end of the whole
sequence of rows of that state, and the states after that sequence. -/
theorem C128_step (N : UniNet S O) (size : Nat) (hs : 0 < size) (l : List (List Vec × Vec × Option (List S)))
    (hl : ∀ x ∈ l, Remembers N x.1 x.2.2) :
    ∃ res, N.runStates size (l.map fun x => [x.2.1]) (l.map (·.2.2)) = .ok res ∧ res.length = l.length ∧
      ∀ (i : Nat) x r, l[i]? = some x → res[i]? = some r →
        Remembers N (x.1 ++ [x.2.1]) (some r.2) ∧
        ∃ outs hid, N.forward [x.1 ++ [x.2.1]] [x.1.length + 1] none = .ok ([outs], hid) ∧ outs.getLast? = some r.1 := by
  have hlen : ∀ h ∈ l.map (·.2.2), ∀ hs, h = some hs → hs.length = N.cells.length := by
    rintro h hh hs rfl
    obtain ⟨x, hx, e⟩ := List.mem_map.1 hh
    have := remembers_length N x.1 x.2.2 (hl x hx)
    rw [e] at this
    exact this
  -- the items
  let z := List.replicate N.cells.length N.zero
  have hitems : ((l.map fun x => [x.2.1]).zipIdx.map fun x => (x.1, UniNet.itemHidden (N.statesHidden (l.map (·.2.2))) x.2)) =
      l.map fun x => ([x.2.1], x.2.2.getD z) := by
    apply List.ext_getElem?
    intro i
    rw [List.getElem?_map, List.getElem?_zipIdx, List.getElem?_map, List.getElem?_map]
    cases hi : l[i]? with
    | none => rfl
    | some x =>
      simp only [Option.map_some, Nat.zero_add, Option.some.injEq, Prod.mk.injEq, true_and]
      exact itemHidden_states N _ hlen i x.2.2 (by simp [hi])
  let f : List Vec × List S → O × List S := fun x =>
    (N.head ((runUni N.cells x.2 (x.1.map N.embed)).1.headD []), (runUni N.cells x.2 (x.1.map N.embed)).2)
  have hbatch : ∀ b ∈ loaderBatches size (l.map fun x => ([x.2.1], x.2.2.getD z)), (do
      let r ← N.runOneStep (b.map (·.1)) (b.map (·.2))
      let out ← r.1.mapM fun o => pyGet o 0
      Except.ok (out.zip (transpose01 b.length r.2)) : Py (List (O × List S))) = .ok (b.map f) := by
    intro b hb
    have hrow : ∀ x ∈ b, x.1.length = 1 ∧ x.2.length = N.cells.length := by
      intro x hx
      obtain ⟨y, hy, rfl⟩ := List.mem_map.1 (Inference.mem_batches hb hx)
      exact ⟨rfl, remembers_length N _ _ (hl y hy)⟩
    have h1 := forward_batch N (b.map fun x => (x.1, 1, x.2)) (by
      intro y hy
      obtain ⟨x, hx, rfl⟩ := List.mem_map.1 hy
      have := hrow x hx
      exact ⟨by simp only; omega, by simp only; omega, this.2⟩)
    simp only [List.map_map, Function.comp_def, List.map_const'] at h1
    have hal : ∀ x ∈ b, alone N (x.1, 1, x.2) = runUni N.cells x.2 (x.1.map N.embed) := by
      intro x hx
      simp only [alone]
      rw [List.take_of_length_le (by rw [(hrow x hx).1]; omega)]
    have h2 : transpose01 b.length (transpose01 N.cells.length (b.map fun x => (alone N (x.1, 1, x.2)).2)) =
        b.map fun x => (alone N (x.1, 1, x.2)).2 := by
      have := transpose01_twice N.cells.length (b.map fun x => (alone N (x.1, 1, x.2)).2) (by
        intro r hr
        obtain ⟨x, hx, rfl⟩ := List.mem_map.1 hr
        exact runUni_hidden _ _ (hrow x hx).2 _)
      rwa [List.length_map] at this
    have h3 : ((padPacked N.padding (b.map fun x => (alone N (x.1, 1, x.2)).1)).map (·.map N.head)).mapM
        (fun o => pyGet o 0) = .ok (b.map fun x => (f x).1) := by
      rw [padPacked, List.map_map, List.map_map]
      generalize maxLength _ = M
      have : ∀ b' : List (List Vec × List S), (∀ x ∈ b', x ∈ b) →
          (b'.map ((fun r => List.map N.head r) ∘ (fun r => r ++ List.replicate (M - r.length) N.padding) ∘
            fun x => (alone N (x.1, 1, x.2)).1)).mapM (fun o => pyGet o 0) = .ok (b'.map fun x => (f x).1) := by
        intro b'
        induction b' with
        | nil => exact fun _ => rfl
        | cons x b' ih =>
          intro hsub
          have hx := hsub x (by simp)
          have hlx : (runUni N.cells x.2 (x.1.map N.embed)).1.length = 1 := by
            rw [runUni_length, List.length_map, (hrow x hx).1]
          rw [List.map_cons, List.mapM_cons, ih fun x hx => hsub x (by simp [hx])]
          simp only [Function.comp_def, hal x hx, f]
          cases hc : (runUni N.cells x.2 (x.1.map N.embed)).1 with
          | nil => rw [hc] at hlx; cases hlx
          | cons v vs => simp [pyGet, Bind.bind, Except.bind, pure, Except.pure, hc]
      exact this b fun _ h => h
    simp only [UniNet.runOneStep, List.length_map, h1, Bind.bind, Except.bind]
    rw [h3]
    simp only
    rw [h2, List.zip_map']
    congr 1
    apply List.map_congr_left
    intro x hx
    rw [hal x hx]
  have hres : N.runStates size (l.map fun x => [x.2.1]) (l.map (·.2.2)) =
      .ok (l.map fun x => f ([x.2.1], x.2.2.getD z)) := by
    simp only [UniNet.runStates]
    rw [hitems, mapM_ok _ _ _ hbatch]
    simp only [Bind.bind, Except.bind]
    rw [← List.map_flatten, Inference.loaderBatches_flatten size hs, List.map_map]
    rfl
  refine ⟨_, hres, by simp, ?_⟩
  intro i x r hx hr
  rw [List.getElem?_map, hx, Option.map_some, Option.some.injEq] at hr
  subst hr
  have hxl := hl x (List.mem_of_getElem? hx)
  refine ⟨remembers_more N x.1 [x.2.1] (by simp) x.2.2 hxl, ?_⟩
  have h1 := lstm_one N (x.1 ++ [x.2.1]) (by simp)
  rw [List.length_append, List.length_singleton] at h1
  refine ⟨_, _, by simp only [UniNet.forward, h1, Bind.bind, Except.bind, List.map_cons, List.map_nil]; rfl, ?_⟩
  rw [List.map_append, runUni_append _ _ (by simp), ← remembers_eq N x.1 x.2.2 hxl]
  have hlx : (runUni N.cells (x.2.2.getD z) [N.embed x.2.1]).1.length = 1 := by
    rw [runUni_length]; rfl
  simp only [f, z, List.map_cons, List.map_nil] at hlx ⊢
  cases hc : (runUni N.cells (x.2.2.getD (List.replicate N.cells.length N.zero)) [N.embed x.2.1]).1 with
  | nil => rw [hc] at hlx; cases hlx
  | cons v vs =>
    rw [hc] at hlx
    have : vs = [] := by
      rw [List.length_cons] at hlx
      exact List.length_eq_zero_iff.1 (by omega)
    subst this
    simp

/-- C128: running the key sequence model for each state on the rows since its last key change gives the output at the end
of all rows of that state, and the states after them. The rows of the batch are padded to any length. -/
theorem C128_segments (N : UniNet S O) (l : List (List Vec × List Vec × List Vec × Option (List S)))
    (hl : ∀ x ∈ l, Remembers N x.1 x.2.2.2 ∧ x.2.1 ≠ []) :
    ∃ outs hid, N.getOutput (l.map fun x => x.2.1 ++ x.2.2.1) (l.map (·.2.1.length))
        (l.map fun x => x.2.2.2.getD (List.replicate N.cells.length N.zero)) = .ok (outs, hid) ∧
      outs.length = l.length ∧ ∀ (i : Nat) x o, l[i]? = some x → outs[i]? = some o →
        N.forwardLast [x.1 ++ x.2.1] [x.1.length + x.2.1.length] none = .ok ([o], oneColumn hid i) ∧
        Remembers N (x.1 ++ x.2.1) (some (hid.filterMap (·[i]?))) := by
  let z := List.replicate N.cells.length N.zero
  let M := maxLength (l.map (·.2.1.length))
  let g : List Vec × List Vec × List Vec × Option (List S) → List Vec × Nat × List S := fun x =>
    ((x.2.1 ++ x.2.2.1).take M, x.2.1.length, x.2.2.2.getD z)
  have hM : ∀ x ∈ l, x.2.1.length ≤ M := fun x hx =>
    Datasets.le_maxLength (List.mem_map.2 ⟨x, hx, rfl⟩)
  have hpos : ∀ x ∈ l, 0 < x.2.1.length := fun x hx => List.length_pos_iff.2 (hl x hx).2
  have hok : ∀ x ∈ l, RowOk N.cells.length (g x) := by
    intro x hx
    have h1 := hM x hx
    have h2 := hpos x hx
    refine ⟨?_, ?_, remembers_length N _ _ (hl x hx).1⟩ <;>
      simp only [g, List.length_take, List.length_append] <;> omega
  have hal : ∀ x ∈ l, alone N (g x) = runUni N.cells (x.2.2.2.getD z) (x.2.1.map N.embed) := by
    intro x hx
    have h1 := hM x hx
    have h2 := hpos x hx
    simp only [alone, g]
    rw [Nat.max_eq_right (by omega), List.take_take, Nat.min_eq_left h1, List.take_append_of_le_length (Nat.le_refl _),
      List.take_length]
  have hb := forwardLast_batch N (l.map g) (by
    intro y hy
    obtain ⟨x, hx, rfl⟩ := List.mem_map.1 hy
    exact hok x hx)
  simp only [List.map_map, Function.comp_def, List.filterMap_map] at hb
  have hlast : ∀ x ∈ l, ∃ v, (alone N (g x)).1.getLast? = some v := by
    intro x hx
    have : (alone N (g x)).1 ≠ [] := by
      intro e
      have := alone_length N (g x) (hok x hx)
      rw [e] at this
      simp at this
      omega
    exact ⟨_, List.getLast?_eq_getLast_of_ne_nil this⟩
  obtain ⟨hlen, hget⟩ := filterMap_total (fun x => (alone N (g x)).1.getLast?) l hlast
  have hrows : ∀ r ∈ l.map fun x => (alone N (g x)).2, r.length = N.cells.length := by
    intro r hr
    obtain ⟨x, hx, rfl⟩ := List.mem_map.1 hr
    exact runUni_hidden _ _ (hok x hx).2.2 _
  refine ⟨_, _, by simpa only [UniNet.getOutput, List.map_map, Function.comp_def] using hb, by rw [List.length_map, hlen], ?_⟩
  intro i x o hx ho
  have hxl := List.mem_of_getElem? hx
  have h1 := lstm_one N (x.1 ++ x.2.1) (by simp [(hl x hxl).2])
  have hrun : runUni N.cells (List.replicate N.cells.length N.zero) ((x.1 ++ x.2.1).map N.embed) =
      ((runUni N.cells (List.replicate N.cells.length N.zero) (x.1.map N.embed)).1 ++ (alone N (g x)).1,
        (alone N (g x)).2) := by
    rw [List.map_append, runUni_append _ _ (by simp), ← remembers_eq N x.1 x.2.2.2 (hl x hxl).1, hal x hxl]
  have hcol : oneColumn (transpose01 N.cells.length (l.map fun x => (alone N (g x)).2)) i =
      (alone N (g x)).2.map fun s => [s] := by
    rw [oneColumn_transpose _ _ hrows i (alone N (g x)).2 (by simp [hx]), ← transpose01_one,
      show (alone N (g x)).2.length = N.cells.length from runUni_hidden _ _ (hok x hxl).2.2 _]
  have hcol' : (transpose01 N.cells.length (l.map fun x => (alone N (g x)).2)).filterMap (·[i]?) = (alone N (g x)).2 := by
    have := congrArg (List.map List.head?) hcol
    simp only [oneColumn, List.map_map, Function.comp_def, List.head?_cons] at this
    exact List.map_injective_iff.2 (Option.some_injective S) this
  rw [List.getElem?_map, hget, hx, Option.bind_some, Option.map_eq_some_iff] at ho
  obtain ⟨v, hv, rfl⟩ := ho
  refine ⟨?_, ?_⟩
  · rw [hcol]
    rw [hrun] at h1
    simp only [List.length_append] at h1
    have hp := hpos x hxl
    have hg := gather_last N.padding [((runUni N.cells (List.replicate N.cells.length N.zero) (x.1.map N.embed)).1 ++
      (alone N (g x)).1, x.1.length + x.2.1.length)] (by
        intro y hy
        rw [List.mem_singleton] at hy
        subst hy
        simp only [List.length_append, runUni_length, List.length_map, hal x hxl]
        omega)
    simp only [List.map_cons, List.map_nil, padPacked_one, List.zip_cons_cons, List.zip_nil_right] at hg
    simp only [UniNet.forwardLast, h1, List.map_cons, List.map_nil]
    simp only [Bind.bind, Except.bind, List.zip_cons_cons, List.zip_nil_right] at hg ⊢
    rw [hg]
    simp only [List.filterMap_cons, List.filterMap_nil, List.getLast?_append, hv]
    rfl
  · rw [hcol']
    have := remembers_more N x.1 x.2.1 (hl x hxl).2 x.2.2.2 (hl x hxl).1
    rw [hal x hxl]
    exact this

/-! ### Two directions -/

/-- The outputs of the layers below the last one, for a sequence alone. -/
def below (zero : S) : List (BiCell S) → List Vec → List Vec
  | [], xs => xs
  | c :: cs, xs => below zero cs ((runBiCell zero c xs).map fun x => x.1 ++ x.2)

theorem runBiCell_length (zero : S) (c : BiCell S) (xs : List Vec) : (runBiCell zero c xs).length = xs.length := by
  simp [runBiCell, runCell_length]

theorem runBi_snoc (zero : S) (cs : List (BiCell S)) (c : BiCell S) (xs : List Vec) :
    runBi zero (cs ++ [c]) xs = runBiCell zero c (below zero cs xs) := by
  induction cs generalizing xs with
  | nil => rfl
  | cons d cs ih =>
    cases cs with
    | nil => rfl
    | cons e cs =>
      rw [List.cons_append, List.cons_append, runBi, ← List.cons_append, ih]
      · rfl
      · exact fun h => by cases h

theorem below_length (zero : S) (cs : List (BiCell S)) (xs : List Vec) : (below zero cs xs).length = xs.length := by
  induction cs generalizing xs with
  | nil => rfl
  | cons c cs ih => simp only [below, ih, List.length_map, runBiCell_length]

theorem runCell_last (c : Cell S) (s : S) (xs : List Vec) (h : xs ≠ []) :
    (runCell c s xs).1.getLast? = some (c.out (xs.foldl c.step s)) := by
  induction xs generalizing s with
  | nil => exact absurd rfl h
  | cons x xs ih =>
    cases xs with
    | nil => rfl
    | cons y ys =>
      rw [runCell, List.foldl_cons, ← ih (c.step s x) (by simp)]
      have : (runCell c (c.step s x) (y :: ys)).1 ≠ [] := by simp [runCell]
      simp only
      rw [List.getLast?_cons_of_ne_nil this]

/-- What the chord classifier gives for a window: the output of the head for the last state of the forward direction,
which has read the window from its first to its last note, and of the backward direction, which has read it from its last
to its first note. -/
def readsBoth (N : BiNet S O) (cs : List (BiCell S)) (c : BiCell S) (w : List Vec) : O :=
  N.head (c.fwd.out ((below N.zero cs (w.map N.embed)).foldl c.fwd.step N.zero) ++
    c.bwd.out ((below N.zero cs (w.map N.embed)).reverse.foldl c.bwd.step N.zero))

theorem lstm_bi (N : BiNet S O) (b : List (List Vec × Nat)) (hb : ∀ x ∈ b, 0 < x.1.length ∧ x.2 ≤ x.1.length) :
    N.lstm (b.map (·.1)) (b.map (·.2)) = .ok (padPacked (N.padding, N.padding)
      (b.map fun x => runBi N.zero N.cells ((x.1.take (max 1 x.2)).map N.embed))) := by
  rw [BiNet.lstm, packPadded_ok b hb N.embed]
  simp only [Bind.bind, Except.bind, List.map_map, Function.comp_def]

/-- C127: the classification of a batch with at least two windows, each with its own padding, is that of each window
alone, read from both sides. -/
theorem C127_classify (N : BiNet S O) (cs : List (BiCell S)) (c : BiCell S) (hc : N.cells = cs ++ [c]) (d : Nat)
    (b : List (List Vec × List Vec)) (hb : ∀ x ∈ b, x.1 ≠ []) :
    N.classify d (b.map fun x => x.1 ++ x.2) (b.map (·.1.length)) =
      if b.length = 1 ∨ d = 1 then .error .indexError else .ok (b.map fun x => readsBoth N cs c x.1) := by
  have hp : ∀ x ∈ b, 0 < x.1.length := fun x hx => List.length_pos_iff.2 (hb x hx)
  have h1 := lstm_bi N (b.map fun x => (x.1 ++ x.2, x.1.length)) (by
    intro y hy
    obtain ⟨x, hx, rfl⟩ := List.mem_map.1 hy
    have := hp x hx
    simp only [List.length_append]
    omega)
  simp only [List.map_map, Function.comp_def] at h1
  have e : (b.map fun x => runBi N.zero N.cells (((x.1 ++ x.2).take (max 1 x.1.length)).map N.embed)) =
      b.map fun x => runBiCell N.zero c (below N.zero cs (x.1.map N.embed)) := by
    apply List.map_congr_left
    intro x hx
    have := hp x hx
    rw [Nat.max_eq_right (by omega), List.take_append_of_le_length (Nat.le_refl _), List.take_length, hc, runBi_snoc]
  rw [e] at h1
  have hlen : ∀ x ∈ b, (runBiCell N.zero c (below N.zero cs (x.1.map N.embed))).length = x.1.length := by
    intro x _
    rw [runBiCell_length, below_length, List.length_map]
  have hfst : ∀ x ∈ b, ((runBiCell N.zero c (below N.zero cs (x.1.map N.embed))).map Prod.fst)[x.1.length - 1]? =
      some (c.fwd.out ((below N.zero cs (x.1.map N.embed)).foldl c.fwd.step N.zero)) := by
    intro x hx
    have hne : below N.zero cs (x.1.map N.embed) ≠ [] := by
      rw [← List.length_pos_iff, below_length, List.length_map]
      exact hp x hx
    rw [runBiCell, List.map_fst_zip (by simp [runCell_length]), ← runCell_last _ _ _ hne, List.getLast?_eq_getElem?,
      runCell_length, below_length, List.length_map]
  have hsnd : ∀ x ∈ b, ((runBiCell N.zero c (below N.zero cs (x.1.map N.embed))).map Prod.snd)[0]? =
      some (c.bwd.out ((below N.zero cs (x.1.map N.embed)).reverse.foldl c.bwd.step N.zero)) := by
    intro x hx
    have hne : (below N.zero cs (x.1.map N.embed)).reverse ≠ [] := by
      rw [← List.length_pos_iff, List.length_reverse, below_length, List.length_map]
      exact hp x hx
    rw [runBiCell, List.map_snd_zip (by simp [runCell_length]), ← runCell_last _ _ _ hne, ← List.head?_eq_getElem?,
      List.head?_reverse]
  have hlast : ((padPacked (N.padding, N.padding) (b.map fun x => runBiCell N.zero c (below N.zero cs
      (x.1.map N.embed)))).zip ((b.map (·.1.length)).map (max 1))).mapM
      (fun x => pyGet (x.1.map Prod.fst) ((x.2 : Int) - 1)) =
      .ok (b.map fun x => c.fwd.out ((below N.zero cs (x.1.map N.embed)).foldl c.fwd.step N.zero)) := by
    rw [padPacked]
    generalize maxLength _ = M
    rw [List.map_map, List.map_map, List.zip_map']
    simp only [List.mapM_map, Function.comp_def]
    refine mapM_ok _ _ b fun x hx => ?_
    have := hp x hx
    have e : ((max 1 x.1.length : Nat) : Int) - 1 = ((x.1.length - 1 : Nat) : Int) := by omega
    rw [e]
    apply Inference.pyGet_nat
    rw [List.map_append, List.getElem?_append_left (by rw [List.length_map, hlen x hx]; omega), hfst x hx]
  have hfirst : (padPacked (N.padding, N.padding) (b.map fun x => runBiCell N.zero c (below N.zero cs
      (x.1.map N.embed)))).mapM (fun x => pyGet (x.map Prod.snd) 0) =
      .ok (b.map fun x => c.bwd.out ((below N.zero cs (x.1.map N.embed)).reverse.foldl c.bwd.step N.zero)) := by
    rw [padPacked]
    generalize maxLength _ = M
    simp only [List.map_map, List.mapM_map, Function.comp_def]
    refine mapM_ok _ _ b fun x hx => ?_
    have := hp x hx
    apply Inference.pyGet_nat _ 0
    rw [List.map_append, List.getElem?_append_left (by rw [List.length_map, hlen x hx]; omega), hsnd x hx]
  simp only [BiNet.classify, h1, Bind.bind, Except.bind, hlast, hfirst, List.length_map]
  simp only [List.zip_map', List.map_map, Function.comp_def, readsBoth]

theorem mem_rangeStep (stop step : Nat) (hs : 0 < step) (fuel start x : Nat) (hf : stop ≤ start + fuel) :
    x ∈ rangeStep start stop step fuel ↔ x < stop ∧ ∃ k, x = start + k * step := by
  induction fuel generalizing start with
  | zero =>
    simp only [rangeStep, List.not_mem_nil, false_iff, not_and, not_exists]
    intro h k e
    have : 0 ≤ k * step := Nat.zero_le _
    omega
  | succ fuel ih =>
    rw [rangeStep]
    split
    · rw [List.mem_cons, ih (start + step) (by omega)]
      constructor
      · rintro (rfl | ⟨h, k, rfl⟩)
        · exact ⟨by assumption, 0, by simp⟩
        · exact ⟨h, k + 1, by rw [Nat.succ_mul]; omega⟩
      · rintro ⟨h, k, rfl⟩
        cases k with
        | zero => left; simp
        | succ k => right; exact ⟨h, k, by rw [Nat.succ_mul]; omega⟩
    · simp only [List.not_mem_nil, false_iff, not_and, not_exists]
      intro h k e
      have : 0 ≤ k * step := Nat.zero_le _
      omega

/-- A batch of one item exists exactly if one item is left over. -/
theorem batch_one {α : Type} (size : Nat) (hs : 2 ≤ size) (items : List α) :
    (∃ b ∈ loaderBatches size items, b.length = 1) ↔ items.length % size = 1 := by
  have hm := fun x => mem_rangeStep items.length size (by omega) items.length 0 x (by omega)
  simp only [loaderBatches, List.mem_map, exists_exists_and_eq_and, hm, List.length_take, List.length_drop, Nat.zero_add]
  constructor
  · rintro ⟨x, ⟨h, k, rfl⟩, e⟩
    have : items.length = 1 + size * k := by rw [Nat.mul_comm size k]; omega
    rw [this, Nat.add_mul_mod_self_left, Nat.mod_eq_of_lt (by omega)]
  · intro e
    have h1 := Nat.div_add_mod items.length size
    refine ⟨items.length / size * size, ⟨?_, _, rfl⟩, ?_⟩ <;> rw [Nat.mul_comm] <;> omega

theorem mapM_outcome {α β : Type} (f : α → Py β) (g : α → β) (e : PyErr) (l : List α)
    (h : ∀ x ∈ l, f x = .ok (g x) ∨ f x = .error e) (hx : ∃ x ∈ l, f x = .error e) : l.mapM f = .error e := by
  induction l with
  | nil => obtain ⟨x, hx, _⟩ := hx; cases hx
  | cons a l ih =>
    rw [List.mapM_cons]
    rcases h a (by simp) with ha | ha
    · obtain ⟨x, hx, hxe⟩ := hx
      rcases List.mem_cons.1 hx with rfl | hx
      · rw [ha] at hxe; cases hxe
      · rw [ha, ih (fun y hy => h y (List.mem_cons_of_mem _ hy)) ⟨x, hx, hxe⟩]
        rfl
    · rw [ha]; rfl

theorem classify_batch (N : BiNet S O) (cs : List (BiCell S)) (c : BiCell S) (hc : N.cells = cs ++ [c]) (d : Nat)
    (hd : d ≠ 1) (zero : Vec) (windows : List (List Vec)) (hw : ∀ w ∈ windows, w ≠ []) (size M : Nat) (b : List (List Vec × Nat))
    (hb : b ∈ loaderBatches size (windows.map fun w => (w ++ List.replicate (M - w.length) zero, w.length))) :
    N.classify d (b.map (·.1)) (b.map (·.2)) =
      if b.length = 1 then .error .indexError else .ok (b.map fun x => readsBoth N cs c (x.1.take x.2)) := by
  have hx : ∀ x ∈ b, ∃ w ∈ windows, x = (w ++ List.replicate (M - w.length) zero, w.length) := by
    intro x hx
    obtain ⟨w, hw, rfl⟩ := List.mem_map.1 (Inference.mem_batches hb hx)
    exact ⟨w, hw, rfl⟩
  have key := C127_classify N cs c hc d (b.map fun x => (x.1.take x.2, x.1.drop x.2)) (by
    intro y hy
    obtain ⟨x, hxb, rfl⟩ := List.mem_map.1 hy
    obtain ⟨w, hwm, rfl⟩ := hx x hxb
    simpa using hw w hwm)
  simp only [List.map_map, Function.comp_def, List.take_append_drop, List.length_map, hd, or_false] at key
  rw [← key]
  congr 1
  apply List.map_congr_left
  intro x hxb
  obtain ⟨w, -, rfl⟩ := hx x hxb
  simp

/-- C127, the part that holds: unless one window is left over for the last batch, the classification of each range of a
piece is that of its own window, however many ranges there are and whatever the size of the batches is. -/
theorem C127_classifications_partial (N : BiNet S O) (cs : List (BiCell S)) (c : BiCell S) (hc : N.cells = cs ++ [c])
    (d size : Nat) (hd : d ≠ 1) (hs : 2 ≤ size) (zero : Vec) (windows : List (List Vec)) (hw : ∀ w ∈ windows, w ≠ [])
    (hn : windows.length % size ≠ 1) :
    N.classifications d size zero windows = .ok (windows.map (readsBoth N cs c)) := by
  simp only [BiNet.classifications]
  generalize maxLength _ = M
  rw [mapM_ok _ (fun b => b.map fun x => readsBoth N cs c (x.1.take x.2))]
  · simp only [Bind.bind, Except.bind]
    rw [← List.map_flatten, Inference.loaderBatches_flatten _ (by omega), List.map_map]
    congr 1
    apply List.map_congr_left
    intro w _
    simp
  · intro b hb
    rw [classify_batch N cs c hc d hd zero windows hw size M b hb, if_neg]
    intro h1
    apply hn
    have := (batch_one size hs _).1 ⟨b, hb, h1⟩
    simpa using this

/-- C127 fails: if one window is left over for the last batch, the classification of the piece raises an exception,
whatever the network and the windows are. In particular a piece with one range cannot be classified. -/
theorem C127_classifications_fails (N : BiNet S O) (cs : List (BiCell S)) (c : BiCell S) (hc : N.cells = cs ++ [c])
    (d size : Nat) (hd : d ≠ 1) (hs : 2 ≤ size) (zero : Vec) (windows : List (List Vec)) (hw : ∀ w ∈ windows, w ≠ [])
    (hn : windows.length % size = 1) :
    N.classifications d size zero windows = .error .indexError := by
  simp only [BiNet.classifications]
  generalize maxLength _ = M
  have h := fun b hb => classify_batch N cs c hc d hd zero windows hw size M b hb
  rw [mapM_outcome _ (fun b => b.map fun x => readsBoth N cs c (x.1.take x.2)) .indexError]
  · rfl
  · intro b hb
    rw [h b hb]
    split
    · exact Or.inr rfl
    · exact Or.inl rfl
  · obtain ⟨b, hb, h1⟩ := (batch_one size hs (windows.map fun w => (w ++ List.replicate (M - w.length) zero,
      w.length))).2 (by simpa using hn)
    exact ⟨b, hb, by rw [h b hb, if_pos h1]⟩

theorem runBi_length (zero : S) (cells : List (BiCell S)) (hc : cells ≠ []) (xs : List Vec) :
    (runBi zero cells xs).length = xs.length := by
  obtain ⟨cs, c, rfl⟩ : ∃ cs c, cells = cs ++ [c] := ⟨_, _, (List.dropLast_append_getLast hc).symm⟩
  rw [runBi_snoc, runBiCell_length, below_length]

/-- C127: the chord transition model. The outputs for each sequence of a batch, up to the length of the sequence, are
those for the sequence alone, one for each of its inputs. -/
theorem C127_transitions (N : BiNet S O) (hc : N.cells ≠ []) (b : List (List Vec × List Vec)) (hb : ∀ x ∈ b, x.1 ≠ []) :
    ∃ outs, N.forward (b.map fun x => x.1 ++ x.2) (b.map (·.1.length)) = .ok outs ∧ outs.length = b.length ∧
      ∀ (i : Nat) x o, b[i]? = some x → outs[i]? = some o →
        N.changeProbs x.1 = .ok (o.take x.1.length) ∧ (o.take x.1.length).length = x.1.length := by
  have hp : ∀ x ∈ b, 0 < x.1.length := fun x hx => List.length_pos_iff.2 (hb x hx)
  have h1 := lstm_bi N (b.map fun x => (x.1 ++ x.2, x.1.length)) (by
    intro y hy
    obtain ⟨x, hx, rfl⟩ := List.mem_map.1 hy
    have := hp x hx
    simp only [List.length_append]
    omega)
  simp only [List.map_map, Function.comp_def] at h1
  simp only [BiNet.forward, h1, Bind.bind, Except.bind]
  refine ⟨_, rfl, by simp [padPacked], ?_⟩
  intro i x o hx ho
  have hpx := hp x (List.mem_of_getElem? hx)
  have h2 := lstm_bi N [(x.1, x.1.length)] (by
    intro y hy
    simp only [List.mem_singleton] at hy
    subst hy
    exact ⟨hpx, Nat.le_refl _⟩)
  simp only [List.map_cons, List.map_nil] at h2
  rw [List.getElem?_map, padPacked_take, List.getElem?_map, hx] at ho
  simp only [Option.map_some, Option.some.injEq] at ho
  have e : max 1 x.1.length = x.1.length := by omega
  rw [e, List.take_append_of_le_length (Nat.le_refl _), List.take_length] at ho
  have hl : (runBi N.zero N.cells (x.1.map N.embed)).length = x.1.length := by
    rw [runBi_length _ _ hc, List.length_map]
  have ht : o.take x.1.length = (runBi N.zero N.cells (x.1.map N.embed)).map fun x => N.head (x.1 ++ x.2) := by
    rw [← ho, List.map_append, List.take_append_of_le_length (by simp [hl]), List.take_of_length_le (by simp [hl])]
  constructor
  · simp only [BiNet.changeProbs, BiNet.forward, List.take_length, h2, e, padPacked_one, Bind.bind, Except.bind,
      List.map_cons, List.map_nil]
    rw [show pyGet [(runBi N.zero N.cells (x.1.map N.embed)).map fun x => N.head (x.1 ++ x.2)] 0 =
      .ok ((runBi N.zero N.cells (x.1.map N.embed)).map fun x => N.head (x.1 ++ x.2)) from rfl, ht]
    simp only
    rw [List.take_of_length_le (by simp [hl])]
  · rw [ht, List.length_map, hl]

/-! ### Examples -/

/-- A layer that weighs what it has read: its state is twice the last one plus the sum of the input. -/
def weigh (n : ℚ) : Cell ℚ := ⟨fun s x => 2 * s + n * x.sum, fun s => [s]⟩

/-- A network with two such layers. -/
def uni : UniNet ℚ ℚ := ⟨fun x => x ++ [1], [weigh 1, weigh 3], 0, [0], fun x => x.sum - 1⟩

/-- A network with two layers in both directions. -/
def bi : BiNet ℚ ℚ := ⟨id, [⟨weigh 1, weigh 2⟩, ⟨weigh 3, weigh 5⟩], 0, [0], fun x => x.sum - 1⟩

/-- Two sequences in one batch, the second of them padded, and the second one alone. -/
example : uni.forward [[[1], [2], [3]], [[4], [7], [9]]] [3, 1] none =
      .ok ([[5, 32, 119], [14, -1, -1]], [[18, 5], [120, 15]]) ∧
    uni.forward [[[4]]] [1] none = .ok ([[14]], [[5], [15]]) := by decide +kernel

/-- The states of two searches, one of them new; running a step from a stored state gives the last output and the state
of the whole sequence. -/
example : uni.runStates 2 [[[3]], [[4]]] [some [7, 33], none] = .ok [(119, [18, 120]), (14, [5, 15])] ∧
    uni.forward [[[1], [2]]] [2] none = .ok ([[5, 32]], [[7], [33]]) ∧
    uni.forward [[[1], [2], [3]]] [3] none = .ok ([[5, 32, 119]], [[18], [120]]) := by decide +kernel

/-- A segment of a piece from a stored state, beside one of another length. -/
example : uni.getOutput [[[2], [3]], [[4], [0]]] [2, 1] [[2, 6], [0, 0]] = .ok ([119, 14], [[18, 5], [120, 15]]) ∧
    uni.forwardLast [[[1], [2], [3]]] [3] none = .ok ([119], [[18], [120]]) := by decide +kernel

/-- Windows of different lengths, in batches of two and of three; one left over raises. -/
example : bi.classifications 128 2 [0] [[[1]], [[1], [2]], [[5], [2], [3]], [[4]]] =
      .ok [23, 224, 2005, 95] ∧
    bi.classifications 128 4 [0] [[[1]], [[1], [2]], [[5], [2], [3]], [[4]]] = .ok [23, 224, 2005, 95] ∧
    bi.classifications 128 3 [0] [[[1]], [[1], [2]], [[5], [2], [3]], [[4]]] = .error .indexError ∧
    bi.classifications 128 512 [0] [[[1]]] = .error .indexError := by decide +kernel

/-- The transitions of two pieces in one batch, and of the second alone. -/
example : bi.forward [[[1], [2]], [[5], [0]]] [2, 1] = .ok [[167, 129], [119, -1]] ∧
    bi.changeProbs [[5]] = .ok [119] := by decide +kernel

end Verif.Forward
