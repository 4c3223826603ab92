import Verif.CorpusReading

/-!
Property C99: the tables of an aggregated corpus.
-/

namespace Verif.Aggregate

/-- The rows of a table come after each other by file, and by row in a file. -/
def Earlier {ρ : Type} (a b : Nat × Nat × ρ) : Prop := a.1 < b.1 ∨ (a.1 = b.1 ∧ a.2.1 < b.2.1)

/-- The written table `t` holds the rows of these files: `rowsOf f` are the rows of the table of a file, if it
can be read. -/
def Holds {ρ : Type} (found : List (FoundFile ρ)) (rowsOf : FoundFile ρ → Option (List ρ))
    (t : Option (List (Nat × Nat × ρ))) : Prop :=
  (t = none ↔ ∀ f ∈ found, rowsOf f = none) ∧
  ∀ rows, t = some rows → rows.Pairwise Earlier ∧
    ∀ k i r, (k, i, r) ∈ rows ↔ ∃ f l, found[k]? = some f ∧ rowsOf f = some l ∧ l[i]? = some r

/-- The rows of the tables which can be read, from the number `n` on. -/
def spec {ρ : Type} (rowsOf : FoundFile ρ → Option (List ρ)) : Nat → List (FoundFile ρ) → List (Nat × List ρ)
  | _, [] => []
  | n, f :: fs =>
    match rowsOf f with
    | none => spec rowsOf (n + 1) fs
    | some l => (n, l) :: spec rowsOf (n + 1) fs

theorem addDf_eq {ρ : Type} (dfs : List (List ρ)) (o : Option (List ρ)) : addDf dfs o = dfs ++ o.toList := by
  cases o <;> simp [addDf]

theorem addIndex_eq {ρ : Type} (xs : List Nat) (n : Nat) (o : Option (List ρ)) :
    addIndex xs n o = xs ++ (o.map fun _ => n).toList := by
  cases o <;> simp [addIndex]

theorem spec_cons {ρ : Type} (rowsOf : FoundFile ρ → Option (List ρ)) (n : Nat) (f : FoundFile ρ)
    (fs : List (FoundFile ρ)) :
    spec rowsOf n (f :: fs) = ((rowsOf f).map fun l => (n, l)).toList ++ spec rowsOf (n + 1) fs := by
  rw [spec]
  cases rowsOf f <;> rfl

/-- The lists of the loop. -/
theorem loop {ρ : Type} (found : List (FoundFile ρ)) : ∀ s : Aggregation ρ,
    found.foldl aggregateStep s =
      { files := s.files ++ found.map fun f => (f.corpus, f.name)
        chordDfs := s.chordDfs ++ (spec (·.chords) s.files.length found).map (·.2)
        noteDfs := s.noteDfs ++ (spec (·.notes) s.files.length found).map (·.2)
        measureDfs := s.measureDfs ++ (spec (·.measures) s.files.length found).map (·.2)
        chordIndexes := s.chordIndexes ++ (spec (·.chords) s.files.length found).map (·.1)
        noteIndexes := s.noteIndexes ++ (spec (·.notes) s.files.length found).map (·.1)
        measureIndexes := s.measureIndexes ++ (spec (·.measures) s.files.length found).map (·.1) } := by
  induction found with
  | nil => intro s; simp [spec]
  | cons f fs ih =>
    intro s
    rw [List.foldl_cons, ih]
    simp only [aggregateStep, addDf_eq, addIndex_eq, spec_cons, List.length_append, List.length_cons,
      List.length_nil, List.map_append, List.append_assoc, List.map_cons, List.singleton_append, Nat.zero_add]
    cases f.chords <;> cases f.notes <;> cases f.measures <;> rfl

theorem mem_spec {ρ : Type} (rowsOf : FoundFile ρ → Option (List ρ)) (found : List (FoundFile ρ)) :
    ∀ n k l, (k, l) ∈ spec rowsOf n found ↔ n ≤ k ∧ ∃ f, found[k - n]? = some f ∧ rowsOf f = some l := by
  induction found with
  | nil => intro n k l; simp [spec]
  | cons f fs ih =>
    intro n k l
    rw [spec_cons, List.mem_append, ih]
    constructor
    · rintro (h | ⟨h1, g, h2, h3⟩)
      · cases hf : rowsOf f with
        | none => rw [hf] at h; cases h
        | some l' =>
          rw [hf] at h
          simp only [Option.map_some, Option.toList_some, List.mem_singleton, Prod.mk.injEq] at h
          obtain ⟨rfl, rfl⟩ := h
          exact ⟨Nat.le_refl _, f, by simp, hf⟩
      · refine ⟨by omega, g, ?_, h3⟩
        rw [show k - n = (k - (n + 1)) + 1 by omega, List.getElem?_cons_succ]; exact h2
    · rintro ⟨h1, g, h2, h3⟩
      rcases Nat.eq_or_lt_of_le h1 with rfl | hlt
      · left
        rw [Nat.sub_self, List.getElem?_cons_zero] at h2
        obtain rfl := Option.some.inj h2
        rw [h3]; simp
      · right
        rw [show k - n = (k - (n + 1)) + 1 by omega, List.getElem?_cons_succ] at h2
        exact ⟨hlt, g, h2, h3⟩

theorem spec_sorted {ρ : Type} (rowsOf : FoundFile ρ → Option (List ρ)) (found : List (FoundFile ρ)) :
    ∀ n, (spec rowsOf n found).Pairwise (fun a b => a.1 < b.1) := by
  induction found with
  | nil => intro n; exact .nil
  | cons f fs ih =>
    intro n
    rw [spec_cons, List.pairwise_append]
    refine ⟨?_, ih _, ?_⟩
    · cases rowsOf f <;> simp
    · intro a ha b hb
      obtain ⟨h1, _⟩ := (mem_spec rowsOf fs (n + 1) b.1 b.2).1 hb
      cases hf : rowsOf f with
      | none => rw [hf] at ha; cases ha
      | some l =>
        rw [hf] at ha
        simp only [Option.map_some, Option.toList_some, List.mem_singleton] at ha
        rw [ha]; exact h1

theorem concat_spec {ρ : Type} (rowsOf : FoundFile ρ → Option (List ρ)) (found : List (FoundFile ρ)) :
    Holds found rowsOf (concatKeys ((spec rowsOf 0 found).map (·.2)) ((spec rowsOf 0 found).map (·.1))) := by
  have hzip : ((spec rowsOf 0 found).map (·.1)).zip ((spec rowsOf 0 found).map (·.2)) = spec rowsOf 0 found := by
    rw [List.zip_map', List.map_id']
  unfold concatKeys
  rw [hzip]
  constructor
  · split
    · rename_i h
      rw [List.isEmpty_iff, List.map_eq_nil_iff] at h
      refine ⟨fun _ f hf => ?_, fun _ => rfl⟩
      obtain ⟨k, hk⟩ := List.mem_iff_getElem?.1 hf
      cases hr : rowsOf f with
      | none => rfl
      | some l =>
        have := (mem_spec rowsOf found 0 k l).2 ⟨Nat.zero_le _, f, by simpa using hk, hr⟩
        rw [h] at this; cases this
    · rename_i h
      refine ⟨fun hn => (by cases hn), fun hall => absurd ?_ h⟩
      rw [List.isEmpty_iff, List.map_eq_nil_iff, List.eq_nil_iff_forall_not_mem]
      rintro ⟨k, l⟩ hkl
      obtain ⟨_, f, hf, hr⟩ := (mem_spec rowsOf found 0 k l).1 hkl
      rw [hall f (List.mem_of_getElem? hf)] at hr
      cases hr
  · intro rows hrows
    split at hrows
    · cases hrows
    · injection hrows with hrows
      subst hrows
      constructor
      · rw [List.pairwise_flatMap]
        constructor
        · rintro ⟨k, l⟩ _
          rw [List.pairwise_map, List.pairwise_iff_getElem]
          intro i j hi hj hij
          right
          simpa using hij
        · refine (spec_sorted rowsOf found 0).imp ?_
          rintro ⟨k, l⟩ ⟨k', l'⟩ hlt x hx y hy
          obtain ⟨a, _, rfl⟩ := List.mem_map.1 hx
          obtain ⟨b, _, rfl⟩ := List.mem_map.1 hy
          exact .inl hlt
      · intro k i r
        rw [List.mem_flatMap]
        constructor
        · rintro ⟨⟨k', l⟩, hs, hx⟩
          obtain ⟨⟨r', i'⟩, hri, he⟩ := List.mem_map.1 hx
          simp only [Prod.mk.injEq] at he
          obtain ⟨rfl, rfl, rfl⟩ := he
          obtain ⟨_, f, hf, hr⟩ := (mem_spec rowsOf found 0 k' l).1 hs
          exact ⟨f, l, by simpa using hf, hr, List.mk_mem_zipIdx_iff_getElem?.1 hri⟩
        · rintro ⟨f, l, hf, hr, hl⟩
          refine ⟨(k, l), (mem_spec rowsOf found 0 k l).2 ⟨Nat.zero_le _, f, by simpa using hf, hr⟩, ?_⟩
          exact List.mem_map.2 ⟨(r, i), List.mk_mem_zipIdx_iff_getElem?.2 hl, rfl⟩

/-- **C99.** Nothing is written if no file is found. Otherwise, `files.tsv` holds each of the files under its
number; and the other tables hold, for each file whose table can be read, its rows in order, under the number of
the file in `files.tsv`, also if other tables cannot be read. -/
theorem C99_tables {ρ : Type} (found : List (FoundFile ρ)) :
    (aggregateAnnotations found = none ↔ found = []) ∧
    ∀ w, aggregateAnnotations found = some w →
      (w.files.length = found.length ∧ ∀ (k : Nat) f, found[k]? = some f →
        w.files[k]? = some (k, f.corpus, f.name)) ∧
      Holds found (·.chords) w.chords ∧ Holds found (·.notes) w.notes ∧
      Holds found (·.measures) w.measures := by
  unfold aggregateAnnotations
  simp only [loop, List.nil_append, List.length_nil]
  constructor
  · split
    · rename_i h
      simpa using h
    · rename_i h
      simpa using h
  · intro w hw
    split at hw
    · cases hw
    · injection hw with hw
      subst hw
      refine ⟨⟨by simp, ?_⟩, concat_spec _ _, concat_spec _ _, concat_spec _ _⟩
      intro k f hk
      simp [List.getElem?_zipIdx, hk]

/-- **C99.** The numbers of the rows are what the loading of the corpus needs: files are in order, each table is
in the order of the files, and no index is there twice. -/
theorem C99_index {ρ : Type} (found : List (FoundFile ρ)) (w : Written ρ)
    (hw : aggregateAnnotations found = some w) :
    (w.files.map (·.1)).Pairwise (· < ·) ∧
    ∀ t, (some t = w.chords ∨ some t = w.notes ∨ some t = w.measures) →
      (t.map (·.1)).Pairwise (· ≤ ·) ∧ (t.map fun r => (r.1, r.2.1)).Nodup ∧
      ∀ r ∈ t, r.1 ∈ w.files.map (·.1) := by
  obtain ⟨_, h⟩ := C99_tables found
  obtain ⟨⟨hl, hf⟩, h1, h2, h3⟩ := h w hw
  have hget : ∀ k : Nat, k < found.length → ∃ c, w.files[k]? = some (k, c) := fun k hk =>
    ⟨_, hf k _ (List.getElem?_eq_getElem hk)⟩
  have key : ∀ (rowsOf : FoundFile ρ → Option (List ρ)) t, Holds found rowsOf (some t) →
      (t.map (·.1)).Pairwise (· ≤ ·) ∧ (t.map fun r => (r.1, r.2.1)).Nodup ∧
      ∀ r ∈ t, r.1 ∈ w.files.map (·.1) := by
    intro rowsOf t ht
    obtain ⟨p, m⟩ := ht.2 t rfl
    refine ⟨?_, ?_, ?_⟩
    · rw [List.pairwise_map]
      refine p.imp ?_
      rintro a b (h | ⟨h, _⟩) <;> omega
    · rw [List.Nodup, List.pairwise_map]
      refine p.imp ?_
      rintro a b (h | ⟨_, h⟩) he <;> simp only [Prod.mk.injEq] at he <;> omega
    · rintro ⟨k, i, r⟩ hr
      obtain ⟨f, l, hk, _⟩ := (m k i r).1 hr
      obtain ⟨c, hc⟩ := hget k (List.getElem?_eq_some_iff.1 hk).1
      exact List.mem_map.2 ⟨_, List.mem_of_getElem? hc, rfl⟩
  constructor
  · rw [List.pairwise_map, List.pairwise_iff_getElem]
    intro i j hi hj hij
    obtain ⟨c, hc⟩ := hget i (by omega)
    obtain ⟨d, hd⟩ := hget j (by omega)
    rw [List.getElem?_eq_getElem hi] at hc
    rw [List.getElem?_eq_getElem hj] at hd
    rw [Option.some.inj hc, Option.some.inj hd]
    exact hij
  · rintro t (ht | ht | ht)
    · rw [← ht] at h1; exact key _ t h1
    · rw [← ht] at h2; exact key _ t h2
    · rw [← ht] at h3; exact key _ t h3

/-- Three files; the chords of the second one, and the measures of the third one, cannot be read. -/
def exFound : List (FoundFile String) :=
  [⟨"c", "a.tsv", some ["I", "V"], some ["n"], some ["m"]⟩, ⟨"c", "b.tsv", none, some ["p", "q"], some ["m"]⟩,
    ⟨"d", "a.tsv", some ["i"], some ["r"], none⟩]

example : aggregateAnnotations exFound = some
    { files := [(0, "c", "a.tsv"), (1, "c", "b.tsv"), (2, "d", "a.tsv")]
      chords := some [(0, 0, "I"), (0, 1, "V"), (2, 0, "i")]
      notes := some [(0, 0, "n"), (1, 0, "p"), (1, 1, "q"), (2, 0, "r")]
      measures := some [(0, 0, "m"), (1, 0, "m")] } := by decide

end Verif.Aggregate
