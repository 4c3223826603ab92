import Verif.Props.AnalysedPieces
import Verif.Props.Forced
import Verif.Lemmas.Harmony

/-!
# What matters of forced labels

Claim about /repo/harmonic_inference/models/joint_model.py:373-503 (`_validate_and_load_forced_labels`), 505-629
(`get_harmony`) and 652-667 (`_apply_forced_chord_changes`): of the forced changes, which are sets, and the forced labels,
which are dictionaries of ranges, only what is forced at each note matters, not how and in which order it is written.
-/

namespace Verif.ForcedSets
open Forced

/-- Note `i` of `n` notes is in the range of a label; negative bounds count from the end. -/
def At (n : Nat) (r : (Int × Int) × Int) (i : Nat) : Prop := sliceIdx n r.1.1 ≤ i ∧ i < sliceIdx n r.1.2

instance (n : Nat) (r : (Int × Int) × Int) (i : Nat) : Decidable (At n r i) := by unfold At; infer_instance

/-- The same is forced at each of `n` notes. A change at the first note does not count. -/
structure SameForces (n : Nat) (t t' : ForcedType) : Prop where
  maxId : t'.maxId = t.maxId
  changes : ∀ c, c ≠ 0 → (c ∈ t.changes ↔ c ∈ t'.changes)
  nonChanges : ∀ c, c ∈ t.nonChanges ↔ c ∈ t'.nonChanges
  valid : (∀ r ∈ t.labels, 0 ≤ r.2 ∧ r.2 < t.maxId) ↔ ∀ r ∈ t'.labels, 0 ≤ r.2 ∧ r.2 < t.maxId
  labels : ∀ i, i < n → ∀ l, (∃ r ∈ t.labels, At n r i ∧ r.2 = l) ↔ ∃ r ∈ t'.labels, At n r i ∧ r.2 = l

theorem SameForces.symm {n : Nat} {t t' : ForcedType} (h : SameForces n t t') : SameForces n t' t where
  maxId := h.maxId.symm
  changes c hc := (h.changes c hc).symm
  nonChanges c := (h.nonChanges c).symm
  valid := by rw [h.maxId]; exact h.valid.symm
  labels i hi l := (h.labels i hi l).symm

/-- When loading succeeds and what it gives. -/
theorem load_ok (n : Nat) (maxId : Int) (labels : List ((Int × Int) × Int)) (ids ids' : List Int) (hn : ids.length = n) :
    loadLabels maxId labels ids = .ok ids' ↔
      (∀ r ∈ labels, 0 ≤ r.2 ∧ r.2 < maxId) ∧
      (∀ r ∈ labels, ∀ (i : Nat) (x : Int), ids[i]? = some x → At n r i → x = -1 ∨ x = r.2) ∧
      (∀ r ∈ labels, ∀ q ∈ labels, ∀ i : Nat, i < n → At n r i → At n q i → r.2 = q.2) ∧
      ids'.length = n ∧
      ∀ i, i < n → (∀ r ∈ labels, At n r i → ids'[i]? = some r.2) ∧
        ((∀ r ∈ labels, ¬At n r i) → ids'[i]? = ids[i]?) := by
  induction labels generalizing ids with
  | nil =>
    simp only [loadLabels, List.not_mem_nil, false_imp_iff, implies_true, true_and, true_imp_iff, Except.ok.injEq]
    constructor
    · rintro rfl; exact ⟨hn, fun _ _ => rfl⟩
    · rintro ⟨h1, h2⟩
      refine List.ext_getElem? fun i => ?_
      by_cases hi : i < n
      · exact (h2 i hi).symm
      · rw [List.getElem?_eq_none (by omega), List.getElem?_eq_none (by omega)]
  | cons hd rest ih =>
    obtain ⟨⟨s, e⟩, l⟩ := hd
    have hlt : ∀ (i : Nat) (x : Int), ids[i]? = some x → i < n := by
      intro i x hx; rw [← hn]; exact (List.getElem?_eq_some_iff.mp hx).1
    have hget : ∀ i : Nat, (fill ids (sliceIdx n s) (sliceIdx n e) l)[i]? =
        (ids[i]?).map (fun x => if At n ((s, e), l) i then l else x) := fun i => fill_get ..
    rw [loadLabels]
    simp only [List.mem_cons, forall_eq_or_imp]
    by_cases hl : l < 0 ∨ l ≥ maxId
    · rw [if_pos hl]
      constructor
      · intro h; cases h
      · rintro ⟨⟨h, _⟩, _⟩; omega
    rw [if_neg hl, hn]
    by_cases hall : ((ids.drop (sliceIdx n s)).take (sliceIdx n e - sliceIdx n s)).all
          (fun x => decide (x = -1) || decide (x = l)) = true
    · rw [if_pos hall, ih _ (by rw [fill_length, hn])]
      rw [slice_all] at hall
      have hall' : ∀ (i : Nat) (x : Int), ids[i]? = some x → At n ((s, e), l) i → x = -1 ∨ x = l := by
        intro i x hx hi
        simpa using hall i x hx hi.1 hi.2
      constructor
      · rintro ⟨h1, h2, h3, h4, h5⟩
        have hun : ∀ r ∈ rest, ∀ i : Nat, i < n → At n ((s, e), l) i → At n r i → l = r.2 := by
          intro r hr i hi ha hb
          have := h2 r hr i l (by rw [hget, List.getElem?_eq_getElem (by omega)]; simp [ha]) hb
          rcases this with h | h
          · omega
          · exact h
        refine ⟨⟨by omega, h1⟩, ⟨hall', ?_⟩, ⟨⟨fun _ _ _ _ => trivial, hun⟩, ?_⟩, h4, ?_⟩
        · intro r hr i x hx hi
          by_cases ha : At n ((s, e), l) i
          · rw [← hun r hr i (hlt i x hx) ha hi]; exact hall' i x hx ha
          · exact h2 r hr i x (by rw [hget, hx]; simp [ha]) hi
        · intro r hr
          exact ⟨fun i hi ha hb => (hun r hr i hi hb ha).symm, h3 r hr⟩
        · intro i hi
          refine ⟨⟨fun ha => ?_, (h5 i hi).1⟩, fun h => ?_⟩
          · by_cases hr : ∃ r ∈ rest, At n r i
            · obtain ⟨r, hr, hb⟩ := hr
              rw [(h5 i hi).1 r hr hb, ← hun r hr i hi ha hb]
            · rw [(h5 i hi).2 fun r hr' hb => hr ⟨r, hr', hb⟩, hget, List.getElem?_eq_getElem (by omega)]
              simp [ha]
          · rw [(h5 i hi).2 h.2, hget, List.getElem?_eq_getElem (by omega)]
            simp [h.1]
      · rintro ⟨⟨_, h1⟩, ⟨h2, h2'⟩, ⟨⟨_, hun⟩, h3⟩, h4, h5⟩
        refine ⟨h1, ?_, fun r hr => (h3 r hr).2, h4, ?_⟩
        · intro r hr i x hx hi
          rw [hget] at hx
          cases hy : ids[i]? with
          | none => rw [hy] at hx; cases hx
          | some y =>
            rw [hy] at hx
            have hx : (if At n ((s, e), l) i then l else y) = x := Option.some.inj hx
            by_cases ha : At n ((s, e), l) i
            · rw [if_pos ha] at hx
              exact .inr (hx ▸ hun r hr i (hlt i y hy) ha hi)
            · rw [if_neg ha] at hx
              exact hx ▸ h2' r hr i y hy hi
        · intro i hi
          refine ⟨(h5 i hi).1.2, fun h => ?_⟩
          have hi' : ids[i]? = some (ids[i]'(by omega)) := List.getElem?_eq_getElem (by omega)
          rw [hget]
          by_cases ha : At n ((s, e), l) i
          · rw [(h5 i hi).1.1 ha, hi']; simp [ha]
          · rw [(h5 i hi).2 ⟨ha, h⟩, hi']; simp [ha]
    · rw [if_neg hall]
      constructor
      · intro h; cases h
      · rintro ⟨_, ⟨h2, _⟩, _⟩
        exfalso
        apply hall
        rw [slice_all]
        intro i x hx ha hb
        simpa using h2 i x hx ⟨ha, hb⟩

theorem load_same {n : Nat} {t t' : ForcedType} (h : SameForces n t t') {ids : List Int}
    (hl : loadLabels t.maxId t.labels (List.replicate n (-1)) = .ok ids) :
    loadLabels t'.maxId t'.labels (List.replicate n (-1)) = .ok ids := by
  rw [load_ok n _ _ _ _ List.length_replicate] at hl ⊢
  obtain ⟨h1, -, h3, h4, h5⟩ := hl
  rw [h.maxId]
  refine ⟨h.valid.1 h1, ?_, ?_, h4, ?_⟩
  · intro r _ i x hx _
    rw [List.getElem?_replicate] at hx
    split at hx
    · exact .inl (Option.some.inj hx).symm
    · cases hx
  · intro r hr q hq i hi ha hb
    obtain ⟨r', hr', ha', e1⟩ := (h.labels i hi r.2).2 ⟨r, hr, ha, rfl⟩
    obtain ⟨q', hq', hb', e2⟩ := (h.labels i hi q.2).2 ⟨q, hq, hb, rfl⟩
    rw [← e1, ← e2]
    exact h3 r' hr' q' hq' i hi ha' hb'
  · intro i hi
    refine ⟨fun r hr ha => ?_, fun hno => ?_⟩
    · obtain ⟨r', hr', ha', e1⟩ := (h.labels i hi r.2).2 ⟨r, hr, ha, rfl⟩
      rw [← e1]
      exact (h5 i hi).1 r' hr' ha'
    · refine (h5 i hi).2 fun r hr ha => ?_
      obtain ⟨r', hr', ha', -⟩ := (h.labels i hi r.2).1 ⟨r, hr, ha, rfl⟩
      exact hno r' hr' ha'

theorem dropZero_same {n : Nat} {t t' : ForcedType} (h : SameForces n t t') (c : Int) :
    c ∈ dropZero t.changes ↔ c ∈ dropZero t'.changes := by
  rw [mem_dropZero, mem_dropZero]
  by_cases h0 : c = 0
  · simp [h0]
  · rw [h.changes c h0]

section
variable {δ : Type} [DecidableEq δ] [Zero δ]

theorem validateType_same {dur : List δ} {t t' : ForcedType} (h : SameForces dur.length t t') {ids : List Int}
    (hv : validateType dur t = .ok ids) : validateType dur t' = .ok ids := by
  simp only [validateType, bind_unit, bind_ok (α := List Int), raiseIf_ok, checkMax_ok, forAll_ok,
    Except.ok.injEq] at hv ⊢
  obtain ⟨b1, b2, b3, b4, ids', l, b5, b6, rfl⟩ := hv
  simp only [← dropZero_same h, ← h.nonChanges]
  exact ⟨b1, b2, b3, b4, _, load_same h l, b5, b6, rfl⟩

theorem validate_same {dur : List δ} {chord chord' key key' : ForcedType} (hc : SameForces dur.length chord chord')
    (hk : SameForces dur.length key key') {ids : List Int × List Int} (hv : validate dur chord key = .ok ids) :
    validate dur chord' key' = .ok ids := by
  simp only [validate, bind_unit, bind_ok (α := List Int), forAll_ok, Except.ok.injEq] at hv ⊢
  obtain ⟨cids, h1, kids, h2, h3, h4, rfl⟩ := hv
  refine ⟨cids, validateType_same hc h1, kids, validateType_same hk h2, ?_, ?_, rfl⟩
  · intro c hc'
    have := h3 c ((dropZero_same hk c).2 hc')
    simp only [checkKeyChange, bind_unit, raiseIf_ok] at this ⊢
    rw [← hc.nonChanges]
    exact this
  · exact fun c hc' => h4 c ((hc.nonChanges c).2 hc')

end

theorem mapPy_all {α β : Type} {f : α → Py β} {l l' : List α} (hm : ∀ a, a ∈ l ↔ a ∈ l') {out : List β}
    (h : mapPy f l = .ok out) : ∃ out', mapPy f l' = .ok out' ∧ ∀ b, b ∈ out ↔ b ∈ out' := by
  have hok : ∀ a ∈ l', ∃ b, f a = .ok b := by
    intro a ha
    have ha := (hm a).2 ha
    clear hm
    induction l generalizing out with
    | nil => cases ha
    | cons x l ih =>
      simp only [mapPy] at h
      cases hx : f x with
      | error e => rw [hx] at h; cases h
      | ok b =>
        rw [hx] at h
        cases hl : mapPy f l with
        | error e => rw [hl] at h; cases h
        | ok bs =>
          rcases List.mem_cons.1 ha with rfl | ha
          · exact ⟨b, hx⟩
          · exact ih hl ha
  have hex : ∃ out', mapPy f l' = .ok out' := by
    clear hm
    induction l' with
    | nil => exact ⟨[], rfl⟩
    | cons x l' ih =>
      obtain ⟨b, hb⟩ := hok x (List.mem_cons_self ..)
      obtain ⟨bs, hbs⟩ := ih fun a ha => hok a (List.mem_cons_of_mem _ ha)
      exact ⟨b :: bs, by simp only [mapPy, hb, hbs]⟩
  obtain ⟨out', ho⟩ := hex
  refine ⟨out', ho, fun b => ?_⟩
  rw [mapPy_mem h, mapPy_mem ho]
  exact ⟨fun ⟨a, ha, e⟩ => ⟨a, (hm a).1 ha, e⟩, fun ⟨a, ha, e⟩ => ⟨a, (hm a).2 ha, e⟩⟩

theorem mapPy_len {α β : Type} {f : α → Py β} {l : List α} {out : List β} (h : mapPy f l = .ok out) :
    out.length = l.length := by
  induction l generalizing out with
  | nil => cases h; rfl
  | cons x l ih =>
    simp only [mapPy] at h
    cases hx : f x with
    | error e => rw [hx] at h; cases h
    | ok b =>
      rw [hx] at h
      cases hl : mapPy f l with
      | error e => rw [hl] at h; cases h
      | ok bs => rw [hl] at h; cases h; simp [ih hl]

theorem cache_length {x : Analysed} {cache : List ℚ} (h : x.cache = .ok cache) : cache.length = x.notes.length := by
  simp only [Analysed.cache, bind_ok] at h
  obtain ⟨t, -, h⟩ := h
  rw [durationCache] at h
  rw [mapPy_len h]
  simp only [List.length_zip, List.length_map, List.length_append, List.length_drop, List.length_singleton]
  omega

theorem toOption_same {α : Type} {a b : Py α} (h : ∀ s, a = .ok s → b = .ok s) (h' : ∀ s, b = .ok s → a = .ok s) :
    a.toOption = b.toOption := by
  cases a with
  | ok s => rw [h s rfl]
  | error e =>
    cases b with
    | ok s => cases h' s rfl
    | error e' => rfl

theorem rangeInput_same {π κ ρ H P δ : Type} [Zero π] [One π] [Zero δ] (m : Joint π κ δ ρ H P) (dur : List δ) (cids kids : List Int)
    {c c' n n' : List Nat} (hc : ∀ b, b ∈ c ↔ b ∈ c') (hn : ∀ b, b ∈ n ↔ b ∈ n') :
    m.rangeInput dur cids kids c n = m.rangeInput dur cids kids c' n' := by
  have : RangeInput.applyForced c n m.ctm = RangeInput.applyForced c' n' m.ctm := by
    funext i
    simp only [RangeInput.applyForced, hc, hn]
  simp only [Joint.rangeInput, this]

section
variable {π κ ρ H P : Type} [LE π] [DecidableLE π] [LT π] [DecidableLT π] [Zero π] [One π] [Add κ] [Sub κ] [Zero κ]
    [DecidableEq κ] [DecidableEq H] [DecidableEq P]

theorem analyse_same (N : Analyser π κ ρ H P) (x : Analysed) {chord chord' key key' : ForcedType}
    (hc : SameForces x.notes.length chord chord') (hk : SameForces x.notes.length key key') (s : Option (State κ H P))
    (h : N.analyse x chord key = .ok s) : N.analyse x chord' key' = .ok s := by
  simp only [Analyser.analyse, bind_ok] at h ⊢
  obtain ⟨cache, h1, C, h2, ids, h3, inputs, h4, changes, h5, nonChanges, h6, rs, h7, windows, h8, vectors, h9, h10⟩ := h
  have hl := cache_length h1
  rw [← hl] at hc hk
  obtain ⟨changes', c1, c2⟩ := mapPy_all (dropZero_same hc) h5
  obtain ⟨nonChanges', n1, n2⟩ := mapPy_all hc.nonChanges h6
  exact ⟨cache, h1, C, h2, ids, validate_same hc hk h3, inputs, h4, changes', c1, nonChanges', n1, rs,
    rangeInput_same (N.withProbs (N.ctm inputs) C) cache ids.1 ids.2 c2 n2 ▸ h7, windows, h8, vectors, h9, h10⟩

/-- C163: forces that are the same at each note give the same analysis, or both raise. -/
theorem C163_forces (N : Analyser π κ ρ H P) (x : Analysed) (chord chord' key key' : ForcedType)
    (hc : SameForces x.notes.length chord chord') (hk : SameForces x.notes.length key key') :
    (N.analyse x chord' key').toOption = (N.analyse x chord key).toOption :=
  toOption_same (analyse_same N x hc.symm hk.symm) (analyse_same N x hc hk)

end

theorem perm_same (n : Nat) {t t' : ForcedType} (hm : t'.maxId = t.maxId) (h1 : t.changes.Perm t'.changes)
    (h2 : t.nonChanges.Perm t'.nonChanges) (h3 : t.labels.Perm t'.labels) : SameForces n t t' where
  maxId := hm
  changes _ _ := h1.mem_iff
  nonChanges _ := h2.mem_iff
  valid := by simp only [h3.mem_iff]
  labels _ _ _ := by simp only [h3.mem_iff]

section
variable {π κ ρ H P : Type} [LE π] [DecidableLE π] [LT π] [DecidableLT π] [Zero π] [One π] [Add κ] [Sub κ] [Zero κ]
    [DecidableEq κ] [DecidableEq H] [DecidableEq P]

/-- C163: the order in which changes and labels are written does not matter. -/
theorem C163_order (N : Analyser π κ ρ H P) (x : Analysed) (chord key : ForcedType) {cs ns ks ms : List Int}
    {ls qs : List ((Int × Int) × Int)} (h1 : chord.changes.Perm cs) (h2 : chord.nonChanges.Perm ns)
    (h3 : chord.labels.Perm ls) (h4 : key.changes.Perm ks) (h5 : key.nonChanges.Perm ms) (h6 : key.labels.Perm qs) :
    (N.analyse x ⟨cs, ns, ls, chord.maxId⟩ ⟨ks, ms, qs, key.maxId⟩).toOption = (N.analyse x chord key).toOption :=
  C163_forces N x _ _ _ _ (perm_same _ rfl h1 h2 h3) (perm_same _ rfl h4 h5 h6)

/-- C163: a label for notes `a` to `c` is the same as this label for `a` to `b` and for `b` to `c`. -/
theorem C163_split (N : Analyser π κ ρ H P) (x : Analysed) (chord key : ForcedType)
    (ls : List ((Int × Int) × Int)) (a b c l : Int) (h0 : 0 ≤ a) (h1 : a ≤ b) (h2 : b ≤ c) :
    (N.analyse x { chord with labels := ((a, b), l) :: ((b, c), l) :: ls } key).toOption =
      (N.analyse x { chord with labels := ((a, c), l) :: ls } key).toOption ∧
    (N.analyse x chord { key with labels := ((a, b), l) :: ((b, c), l) :: ls }).toOption =
      (N.analyse x chord { key with labels := ((a, c), l) :: ls }).toOption := by
  have hs : ∀ t : ForcedType, SameForces x.notes.length { t with labels := ((a, c), l) :: ls }
      { t with labels := ((a, b), l) :: ((b, c), l) :: ls } := by
    intro t
    refine ⟨rfl, fun _ _ => Iff.rfl, fun _ => Iff.rfl, ?_, fun i hi m => ?_⟩
    · simp
    · have e : At x.notes.length ((a, c), l) i ↔
          At x.notes.length ((a, b), l) i ∨ At x.notes.length ((b, c), l) i := by
        simp only [At, sliceIdx_le _ _ _ h0 hi, sliceIdx_le _ _ _ (h0.trans h1) hi,
          lt_sliceIdx _ _ _ (h0.trans h1) hi, lt_sliceIdx _ _ _ ((h0.trans h1).trans h2) hi]
        omega
      simp only [List.mem_cons, exists_eq_or_imp, e]
      tauto
  have hr : ∀ t : ForcedType, SameForces x.notes.length t t := fun t =>
    perm_same _ rfl (.refl _) (.refl _) (.refl _)
  exact ⟨C163_forces N x _ _ _ _ (hs chord) (hr key), C163_forces N x _ _ _ _ (hr chord) (hs key)⟩

/-- C163: a forced change at the first note, and a label for no note, do not matter. -/
theorem C163_nothing (N : Analyser π κ ρ H P) (x : Analysed) (chord key : ForcedType) (a b l : Int) (h0 : 0 ≤ a)
    (hab : b ≤ a) (hb : 0 ≤ b) (hl : 0 ≤ l ∧ l < chord.maxId) :
    (N.analyse x { chord with changes := 0 :: chord.changes, labels := ((a, b), l) :: chord.labels } key).toOption =
      (N.analyse x chord key).toOption := by
  refine C163_forces N x _ _ _ _ ⟨rfl, ?_, fun _ => Iff.rfl, ?_, fun i hi m => ?_⟩
    (perm_same _ rfl (.refl _) (.refl _) (.refl _))
  · intro c hc; simp [hc]
  · simp [hl]
  · have e : ¬At x.notes.length ((a, b), l) i := by
      simp only [At, sliceIdx_le _ _ _ h0 hi, lt_sliceIdx _ _ _ hb hi]
      omega
    simp only [List.mem_cons, exists_eq_or_imp, e, false_and, false_or]

end

/-- Which exception is raised may depend on the order. -/
example : validate [1, 1] ⟨[], [], [((0, 1), 1), ((0, 1), 2), ((1, 2), 99)], 24⟩ ⟨[], [], [], 24⟩ =
      (.error .attributeError : Py (List Int × List Int)) ∧
    validate [1, 1] ⟨[], [], [((1, 2), 99), ((0, 1), 1), ((0, 1), 2)], 24⟩ ⟨[], [], [], 24⟩ =
      (.error .typeError : Py (List Int × List Int)) := by
  decide

/-- Labels with negative bounds, in another order, and one of them in two parts. -/
example : SameForces 4 ⟨[2, 0, 3], [1], [((0, 2), 7), ((2, 4), 9)], 24⟩
    ⟨[3, 2], [1], [((-2, 4), 9), ((1, 2), 7), ((0, 1), 7)], 24⟩ where
  maxId := rfl
  changes c hc := by simp only [List.mem_cons, List.not_mem_nil, or_false]; omega
  nonChanges _ := Iff.rfl
  valid := by simp
  labels i hi l := by
    obtain rfl | rfl | rfl | rfl : i = 0 ∨ i = 1 ∨ i = 2 ∨ i = 3 := by omega
    all_goals simp [At, sliceIdx]

open AnalysedPieces in
/-- A piece and two ways to write the same forces, for which an analysis is found. -/
example : shown (demoAnalyser.analyse ⟨demoNotes, demoMeasures, none⟩ ⟨[0], [], [((0, 2), 1)], 2⟩ ⟨[], [], [], 0⟩) =
      shown (demoAnalyser.analyse ⟨demoNotes, demoMeasures, none⟩ ⟨[], [], [((1, 2), 1), ((0, 1), 1)], 2⟩ ⟨[], [], [], 0⟩) ∧
    ((demoAnalyser.analyse ⟨demoNotes, demoMeasures, none⟩ ⟨[0], [], [((0, 2), 1)], 2⟩ ⟨[], [], [], 0⟩).toOption.bind
      id).isSome = true := by
  decide +kernel

end Verif.ForcedSets
