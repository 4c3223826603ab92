import Verif.LoadPieces
import Verif.Props.Datasets
import Verif.Props.Notes

/-!
# C92: pieces survive their dictionaries, and are loaded under their own ids
-/

namespace Verif.LoadPieces

open Verif.Datasets (bind_ok C45_disjoint)

/-! ## Dictionaries -/

theorem note_trip (n : NoteObj) : noteOfDict n.toDict = .ok n := rfl

theorem chord_trip (c : SeriesChord) : chordOfDict c.toDict = .ok c := rfl

theorem key_trip (k : Key) : keyOfDict k.toDict = .ok k := rfl

theorem mapM_trip {α β : Type} (f : α → β) (g : β → Py α) (h : ∀ a, g (f a) = .ok a) (l : List α) :
    (l.map f).mapM g = .ok l := by
  induction l with
  | nil => rfl
  | cons a l ih =>
    rw [List.map_cons, List.mapM_cons, h, ih]
    rfl

/-- C92: an annotated piece has a dictionary, and the piece made from it (with any table of measures) has the
same notes, chords, keys and indices. What is missing: pieces without annotations, see
`C92_fails_unannotated`. -/
theorem C92_dict_partial {μ ν : Type} (p : PieceObj μ) (hc : p.chords ≠ none) (hk : p.keys ≠ none) :
    ∃ d, p.toDict = .ok d ∧ ∀ m : ν, pieceOfDict m d =
      .ok ⟨m, p.notes, p.chords, p.keys, p.chordChanges, p.chordRanges, p.keyChanges⟩ := by
  obtain ⟨ms, ns, cs, ks, a, b, c⟩ := p
  cases cs with
  | none => exact absurd rfl hc
  | some cs =>
    cases ks with
    | none => exact absurd rfl hk
    | some ks =>
      refine ⟨_, rfl, fun m => ?_⟩
      unfold pieceOfDict
      simp only [mapM_trip _ _ note_trip, mapM_trip _ _ chord_trip, mapM_trip _ _ key_trip, Bind.bind, Except.bind]

/-- C92 fails for pieces without annotations: they have no dictionary. -/
theorem C92_fails_unannotated {μ : Type} (p : PieceObj μ) (h : p.chords = none) :
    p.toDict = .error .typeError := by
  unfold PieceObj.toDict
  rw [h]
  rfl

/-! ## Tables -/

/-- The body of the loop for one piece with a dictionary. -/
theorem load_dicts {ι μ : Type} (measures : ι → Py μ) (parse : ι → Py (PieceObj μ)) (I : List ι)
    (P : List (PieceObj μ)) (ds : List PieceDict) (hl : I.length = P.length) (hd : P.mapM PieceObj.toDict = .ok ds)
    (hpm : ∀ (j : Nat) i p, I[j]? = some i → P[j]? = some p → measures i = .ok p.measures ∧ p.chords ≠ none ∧
      p.keys ≠ none) :
    (I.zip (ds.map some)).mapM (fun x => (match x.2 with
      | none => do
        let p ← parse x.1
        .ok (x.1, p)
      | some d => do
        let m ← measures x.1
        let p ← pieceOfDict m d
        .ok (x.1, p) : Py (ι × PieceObj μ))) = .ok (I.zip P) := by
  induction I generalizing P ds with
  | nil => rfl
  | cons i I ih =>
    cases P with
    | nil => simp at hl
    | cons p P =>
      rw [List.mapM_cons] at hd
      obtain ⟨d, h1, h2⟩ := bind_ok hd
      obtain ⟨ds', h3, h4⟩ := bind_ok h2
      injection h4 with h4
      subst h4
      obtain ⟨hm, hc, hk⟩ := hpm 0 i p rfl rfl
      obtain ⟨d', e1, e2⟩ := C92_dict_partial (ν := μ) p hc hk
      rw [h1] at e1
      injection e1 with e1
      subst e1
      have := ih P ds' (by simpa using hl) h3 (fun j i p hi hp => hpm (j + 1) i p (by simpa using hi)
        (by simpa using hp))
      rw [List.map_cons, List.zip_cons_cons, List.mapM_cons, this]
      simp only [hm, e2 p.measures, Bind.bind, Except.bind]
      rfl

theorem dicts_exist {μ : Type} (P : List (PieceObj μ)) (h : ∀ p ∈ P, p.chords ≠ none ∧ p.keys ≠ none) :
    ∃ ds, P.mapM PieceObj.toDict = .ok ds ∧ ds.length = P.length := by
  induction P with
  | nil => exact ⟨[], rfl, rfl⟩
  | cons p P ih =>
    obtain ⟨ds, h1, h2⟩ := ih fun q hq => h q (by simp [hq])
    obtain ⟨d, h3, -⟩ := C92_dict_partial (ν := Unit) p (h p (by simp)).1 (h p (by simp)).2
    refine ⟨d :: ds, ?_, by simp [h2]⟩
    rw [List.mapM_cons, h3, h1]
    rfl

theorem mapM_toDict_get {μ : Type} (P : List (PieceObj μ)) (ds : List PieceDict) (h : P.mapM PieceObj.toDict = .ok ds)
    (j : Nat) (p : PieceObj μ) (hp : P[j]? = some p) : ∃ d, ds[j]? = some d ∧ p.toDict = .ok d := by
  induction P generalizing ds j with
  | nil => simp at hp
  | cons q P ih =>
    rw [List.mapM_cons] at h
    obtain ⟨d, h1, h2⟩ := bind_ok h
    obtain ⟨ds', h3, h4⟩ := bind_ok h2
    injection h4 with h4
    subst h4
    cases j with
    | zero =>
      simp at hp
      subst hp
      exact ⟨d, rfl, h1⟩
    | succ j =>
      obtain ⟨d', e1, e2⟩ := ih ds' h3 j (by simpa using hp)
      exact ⟨d', by simpa using e1, e2⟩

/-- C92: the pieces of a split, written as dictionaries and loaded with the ids of the split, are the pieces
that are made from the tables for these ids, under these ids; and with one id, only the piece for that id. -/
theorem C92_split {ι μ : Type} [DecidableEq ι] (ids : List ι) (parse : ι → Py (PieceObj μ)) (measures : ι → Py μ)
    (shuffled : List Nat) (splits : List ℚ) (hs : ∀ s ∈ splits, 0 ≤ s) (hsum : splits.sum ≠ 0) (hids : ids.Nodup)
    (hsh : shuffled.Perm (List.range (ids.filter fun i => (orNone (parse i)).isSome).length))
    (hparse : ∀ i p, parse i = .ok p → measures i = .ok p.measures ∧ p.chords ≠ none ∧ p.keys ≠ none)
    (out : List (List ι) × List (List (PieceObj μ)))
    (ho : splitPieces ids (fun i => orNone (parse i)) shuffled splits = .ok out)
    (k : Nat) (I : List ι) (P : List (PieceObj μ)) (hI : out.1[k]? = some I) (hP : out.2[k]? = some P)
    (hne : I ≠ []) (all : List ι) :
    ∃ ds, P.mapM PieceObj.toDict = .ok ds ∧
      loadFromTables all parse measures (some I) (.found ds) none = .ok (I.zip P) ∧ I.length = P.length ∧
      (∀ (j : Nat) i p, I[j]? = some i → P[j]? = some p → parse i = .ok p) ∧
      (∀ (j : Nat) i p, I[j]? = some i → P[j]? = some p →
        loadFromTables all parse measures (some I) (.found ds) (some i) = .ok [(i, p)]) := by
  obtain ⟨hnd, hmem, hlen, hal⟩ := C45_disjoint ids (fun i => orNone (parse i)) shuffled splits hs hsum hids hsh out ho
  have hPI : I.length = P.length := by
    have h1 : (out.1.map List.length)[k]? = some I.length := by rw [List.getElem?_map, hI]; rfl
    have h2 : (out.2.map List.length)[k]? = some P.length := by rw [List.getElem?_map, hP]; rfl
    rw [hlen, h2] at h1
    injection h1 with h1
    exact h1.symm
  have hpar : ∀ (j : Nat) i p, I[j]? = some i → P[j]? = some p → parse i = .ok p := by
    intro j i p hi hp
    have := hal k j I P i p hI hP hi hp
    cases hh : parse i with
    | error e => rw [hh] at this; cases this
    | ok q => rw [hh] at this; injection this with this; rw [this]
  have hInd : I.Nodup := (List.nodup_flatten.1 hnd).1 I (List.mem_of_getElem? hI)
  have hgetI : ∀ j, j < P.length → ∃ i, I[j]? = some i := fun j hj => ⟨I[j], List.getElem?_eq_getElem (by omega)⟩
  obtain ⟨ds, hd, hdl⟩ := dicts_exist P (by
    intro p hp
    obtain ⟨j, hj⟩ := List.mem_iff_getElem?.1 hp
    obtain ⟨i, hi⟩ := hgetI j (List.getElem?_eq_some_iff.1 hj).1
    exact (hparse i p (hpar j i p hi hj)).2)
  have hids' : idsOr all (some I) = I := by
    cases I with
    | nil => exact absurd rfl hne
    | cons a I => rfl
  refine ⟨ds, hd, ?_, hPI, hpar, ?_⟩
  · unfold loadFromTables
    simp only [hids', pieceDicts, onlyId, Bind.bind, Except.bind]
    exact load_dicts measures parse I P ds hPI hd fun j i p hi hp => hparse i p (hpar j i p hi hp)
  · intro j i p hi hp
    obtain ⟨d, hdj, hdp⟩ := mapM_toDict_get P ds hd j p hp
    obtain ⟨hm, hc, hk⟩ := hparse i p (hpar j i p hi hp)
    obtain ⟨d', e1, e2⟩ := C92_dict_partial (ν := μ) p hc hk
    rw [hdp] at e1
    injection e1 with e1
    subst e1
    have hj : I.idxOf i = j := by
      obtain ⟨hj, hji⟩ := List.getElem?_eq_some_iff.1 hi
      rw [← hji]
      exact List.Nodup.idxOf_getElem hInd j hj
    have hg : pyGet (ds.map some) ((I.idxOf i : Nat) : Int) = .ok (some d) := by
      rw [hj]
      exact pyGet_ofNat _ j _ (by rw [List.getElem?_map, hdj]; rfl)
    unfold loadFromTables
    simp only [hids', pieceDicts, onlyId, Bind.bind, Except.bind, if_pos (List.mem_of_getElem? hi), hg]
    simp only [List.zip_cons_cons, List.zip_nil_right, List.mapM_cons, List.mapM_nil, hm, e2, Bind.bind, Except.bind]
    rfl

/-- C92: without a file of dictionaries, the pieces are those made from the tables. -/
theorem C92_tables {ι μ : Type} [DecidableEq ι] (all : List ι) (parse : ι → Py (PieceObj μ)) (measures : ι → Py μ)
    (l : List (ι × PieceObj μ)) (fileIds : Option (List ι)) (specific : Option ι)
    (h : loadFromTables all parse measures fileIds .none specific = .ok l) :
    (∀ x ∈ l, parse x.1 = .ok x.2) ∧
    (∀ i, specific = some i → l.map (·.1) = [i] ∧ i ∈ idsOr all fileIds) ∧
    (specific = none → l.map (·.1) = idsOr all fileIds) := by
  have body : ∀ (ids : List ι) (l : List (ι × PieceObj μ)),
      (ids.zip (List.replicate ids.length (none : Option PieceDict))).mapM (fun x => (match x.2 with
        | none => do
          let p ← parse x.1
          .ok (x.1, p)
        | some d => do
          let m ← measures x.1
          let p ← pieceOfDict m d
          .ok (x.1, p) : Py (ι × PieceObj μ))) = .ok l → (∀ x ∈ l, parse x.1 = .ok x.2) ∧ l.map (·.1) = ids := by
    intro ids
    induction ids with
    | nil => intro l h; injection h with h; subst h; simp
    | cons i ids ih =>
      intro l h
      rw [List.length_cons, List.replicate_succ, List.zip_cons_cons, List.mapM_cons] at h
      obtain ⟨a, h1, h2⟩ := bind_ok h
      obtain ⟨as, h3, h4⟩ := bind_ok h2
      injection h4 with h4
      subst h4
      obtain ⟨p, h5, h6⟩ := bind_ok h1
      injection h6 with h6
      subst h6
      obtain ⟨i1, i2⟩ := ih as h3
      refine ⟨?_, by simp [i2]⟩
      intro x hx
      rcases List.mem_cons.1 hx with rfl | hx
      · exact h5
      · exact i1 x hx
  unfold loadFromTables at h
  simp only [pieceDicts, Bind.bind, Except.bind] at h
  cases specific with
  | none =>
    obtain ⟨a, b⟩ := body _ l h
    exact ⟨a, (by rintro i ⟨⟩), fun _ => b⟩
  | some i =>
    simp only [onlyId, Bind.bind, Except.bind] at h
    by_cases hi : i ∈ idsOr all fileIds
    · rw [if_pos hi] at h
      have hg : pyGet (List.replicate (idsOr all fileIds).length (none : Option PieceDict))
          ((List.idxOf i (idsOr all fileIds) : Nat) : Int) = .ok none :=
        pyGet_ofNat _ _ _ (by rw [List.getElem?_replicate, if_pos (List.idxOf_lt_length_of_mem hi)])
      simp only [hg] at h
      obtain ⟨a, b⟩ := body [i] l h
      refine ⟨a, ?_, (by rintro ⟨⟩)⟩
      rintro j ⟨⟩
      exact ⟨b, hi⟩
    · rw [if_neg hi] at h
      cases h

/-- C92 fails if the file of dictionaries is not there, whatever the other arguments are: an
`UnboundLocalError`. -/
theorem C92_fails_missing {ι μ : Type} [DecidableEq ι] (all : List ι) (parse : ι → Py (PieceObj μ))
    (measures : ι → Py μ) (fileIds : Option (List ι)) (specific : Option ι) :
    loadFromTables all parse measures fileIds .missing specific = .error .nameError := rfl

/-! ## Scores -/

theorem filter_later {α : Type} (q : α → Bool) (l : List α) (k : Nat) (a : α) (h : (l.filter q)[k]? = some a) :
    ∃ k', k ≤ k' ∧ l[k']? = some a := by
  induction l generalizing k with
  | nil => simp at h
  | cons b l ih =>
    by_cases hb : q b = true
    · rw [List.filter_cons_of_pos hb] at h
      cases k with
      | zero => exact ⟨0, le_refl _, by simpa using h⟩
      | succ k =>
        obtain ⟨k', h1, h2⟩ := ih k (by simpa using h)
        exact ⟨k' + 1, by omega, by simpa using h2⟩
    · rw [List.filter_cons_of_neg hb] at h
      obtain ⟨k', h1, h2⟩ := ih k h
      exact ⟨k' + 1, by omega, by simpa using h2⟩

theorem filter_same {α β : Type} (q : α → Bool) (nm : α → β) (l : List α) (hnd : (l.map nm).Nodup) (i : Nat) (a : α)
    (ha : l[i]? = some a) :
    ((l.filter q).map nm)[i]? = some (nm a) ↔ ∀ (j : Nat) b, j ≤ i → l[j]? = some b → q b = true := by
  induction l generalizing i with
  | nil => simp at ha
  | cons b l ih =>
    obtain ⟨hb1, hb2⟩ := List.nodup_cons.1 (by simpa using hnd : (nm b :: l.map nm).Nodup)
    by_cases hb : q b = true
    · rw [List.filter_cons_of_pos hb, List.map_cons]
      cases i with
      | zero =>
        simp at ha
        subst ha
        constructor
        · intro _ j c hj hc
          have : j = 0 := by omega
          subst this
          simp at hc
          rw [← hc]; exact hb
        · intro _; rfl
      | succ i =>
        have := ih hb2 i (by simpa using ha)
        rw [List.getElem?_cons_succ, this]
        constructor
        · intro h j c hj hc
          cases j with
          | zero => simp at hc; rw [← hc]; exact hb
          | succ j => exact h j c (by omega) (by simpa using hc)
        · intro h j c hj hc
          exact h (j + 1) c (by omega) (by simpa using hc)
    · rw [List.filter_cons_of_neg hb]
      constructor
      · intro h
        exfalso
        rw [List.getElem?_map, Option.map_eq_some_iff] at h
        obtain ⟨c, hc, hn⟩ := h
        obtain ⟨k', h1, h2⟩ := filter_later q l i c hc
        have hk : (l.map nm)[k']? = some (nm a) := by rw [List.getElem?_map, h2]; simp [hn]
        cases i with
        | zero =>
          simp at ha
          subst ha
          exact hb1 (List.mem_of_getElem? hk)
        | succ i =>
          have ha' : (l.map nm)[i]? = some (nm a) := by
            rw [List.getElem?_map, (by simpa using ha : l[i]? = some a)]; rfl
          obtain ⟨g1, g2⟩ := List.getElem?_eq_some_iff.1 hk
          obtain ⟨g3, g4⟩ := List.getElem?_eq_some_iff.1 ha'
          have := (List.Nodup.getElem_inj_iff hb2 (hi := g1) (hj := g3)).1 (by rw [g2, g4])
          omega
      · intro h
        exact absurd (h 0 b (by omega) rfl) hb

theorem get_nat {α : Type} {l : List α} {i : Nat} {a : α} (h : pyGet l (i : Int) = .ok a) : l[i]? = some a := by
  have := pyGet_nonneg l (i : Int) a (by omega) h
  simpa using this

/-- The loop over scores without dictionaries. -/
theorem scores_body {μ : Type} (xmls : List Str) (csvs : List (Option Str)) (parse : Str → Option Str → Py (PieceObj μ))
    (measures : Str → Py μ) (ids : List Int) (n : Nat) (l : List (Int × Str × PieceObj μ))
    (h : (ids.zip (List.replicate n (none : Option PieceDict))).mapM (fun x => (do
      let xml ← pyGet xmls x.1
      match x.2 with
      | none => do
        let csv ← pyGet csvs x.1
        let p ← parse xml csv
        .ok (x.1, xml, p)
      | some d => do
        let m ← measures xml
        let p ← pieceOfDict m d
        .ok (x.1, xml, p) : Py (Int × Str × PieceObj μ))) = .ok l) :
    l.map (·.1) = ids.take n ∧ ∀ x ∈ l, pyGet xmls x.1 = .ok x.2.1 ∧
      ∃ csv, pyGet csvs x.1 = .ok csv ∧ parse x.2.1 csv = .ok x.2.2 := by
  induction ids generalizing n l with
  | nil =>
    simp only [List.zip_nil_left, List.mapM_nil] at h
    injection h with h; subst h; simp
  | cons i ids ih =>
    cases n with
    | zero =>
      simp only [List.replicate_zero, List.zip_nil_right, List.mapM_nil] at h
      injection h with h; subst h; simp
    | succ n =>
      rw [List.replicate_succ, List.zip_cons_cons, List.mapM_cons] at h
      obtain ⟨a, h1, h2⟩ := bind_ok h
      obtain ⟨as, h3, h4⟩ := bind_ok h2
      injection h4 with h4
      subst h4
      obtain ⟨xml, h5, h6⟩ := bind_ok h1
      obtain ⟨csv, h7, h8⟩ := bind_ok h6
      obtain ⟨p, h9, h10⟩ := bind_ok h8
      injection h10 with h10
      subst h10
      obtain ⟨i1, i2⟩ := ih n as h3
      refine ⟨by simp [i1], ?_⟩
      intro x hx
      rcases List.mem_cons.1 hx with rfl | hx
      · exact ⟨h5, csv, h7, h9⟩
      · exact i2 x hx

theorem load_all {μ : Type} (xmls : List Str) (csvs : List (Option Str)) (parse : Str → Option Str → Py (PieceObj μ))
    (measures : Str → Py μ) (l : List (Int × Str × PieceObj μ))
    (h : loadFromScores xmls csvs parse measures none .none none = .ok l) :
    l.map (·.1) = (List.range xmls.length).map (fun (i : Nat) => (i : Int)) ∧
    ∀ x ∈ l, pyGet xmls x.1 = .ok x.2.1 ∧ ∃ csv, pyGet csvs x.1 = .ok csv ∧ parse x.2.1 csv = .ok x.2.2 := by
  unfold loadFromScores at h
  obtain ⟨a, b⟩ := scores_body xmls csvs parse measures _ _ l h
  refine ⟨?_, b⟩
  rw [a]
  exact List.take_of_length_le (by simp [idsOr])

/-- C92: a single score is loaded without labels. -/
theorem C92_file {μ : Type} (file : Str) (parse : Str → Option Str → Py (PieceObj μ)) (measures : Str → Py μ) :
    loadFile file parse measures none .none none = (parse file none).map (fun p => [(0, file, p)]) := by
  have h1 : pyGet [file] 0 = .ok file := rfl
  have h2 : pyGet [(none : Option Str)] 0 = .ok none := rfl
  have e : (List.map (fun (i : Nat) => (i : Int)) (List.range 1)).zip (List.replicate 1 (none : Option PieceDict)) =
      [(0, none)] := by decide
  simp only [loadFile, loadFromScores, idsOr, pieceDicts, onlyId, List.length_cons, List.length_nil, Nat.zero_add,
    Bind.bind, Except.bind, e, List.mapM_cons, List.mapM_nil, h1, h2, Pure.pure, Except.pure]
  cases parse file none <;> rfl

/-- C92: from a directory in which all scores have labels, all scores are loaded in order, each with its own
labels. What is missing: scores without labels, see `C92_fails_shift` and `C92_fails_unlabelled`. -/
theorem C92_scores_partial {μ : Type} (files : List ScoreFile) (parse : Str → Option Str → Py (PieceObj μ))
    (measures : Str → Py μ) (hlab : ∀ f ∈ files, f.labelled = true) (l : List (Int × Str × PieceObj μ))
    (h : loadDirectory files parse measures none .none none = .ok l) :
    l.map (fun x => x.2.1) = files.map (·.name) ∧ ∀ x ∈ l, parse x.2.1 (some x.2.1) = .ok x.2.2 := by
  have hf : files.filter (·.labelled) = files := List.filter_eq_self.2 hlab
  unfold loadDirectory listScores at h
  rw [hf] at h
  obtain ⟨a, b⟩ := load_all _ _ _ _ _ h
  have key : ∀ (x : Int × Str × PieceObj μ) (i : Nat), x ∈ l → x.1 = i → (files.map (·.name))[i]? = some x.2.1 ∧
      parse x.2.1 (some x.2.1) = .ok x.2.2 := by
    intro x i hx hi
    obtain ⟨h1, csv, h2, h3⟩ := b x hx
    rw [hi] at h1 h2
    have e1 := get_nat h1
    have e2 := get_nat h2
    rw [List.getElem?_map, e1] at e2
    injection e2 with e2
    exact ⟨e1, by rw [e2]; exact h3⟩
  constructor
  · refine List.ext_getElem? fun i => ?_
    have hl : l.length = files.length := by simpa using congrArg List.length a
    by_cases hi : i < l.length
    · have hx := List.getElem?_eq_getElem hi
      have e : (l.map (·.1))[i]? = some (i : Int) := by rw [a]; simp [show i < files.length by omega]
      rw [List.getElem?_map, hx] at e
      injection e with e
      have := (key l[i] i (List.getElem_mem hi) e).1
      rw [List.getElem?_map, hx, this]
      rfl
    · rw [List.getElem?_eq_none (by simp; omega), List.getElem?_eq_none (by simp; omega)]
  · intro x hx
    have : x.1 ∈ l.map (·.1) := List.mem_map_of_mem hx
    rw [a, List.mem_map] at this
    obtain ⟨i, _, hi⟩ := this
    exact (key x i hx hi.symm).2

/-- C92 fails: a score is loaded with the labels (`csv`) that come at its place among all labels; they are its own
exactly if it and all scores before it have labels. -/
theorem C92_fails_shift {μ : Type} (files : List ScoreFile) (hnd : (files.map (·.name)).Nodup)
    (parse : Str → Option Str → Py (PieceObj μ)) (measures : Str → Py μ) (l : List (Int × Str × PieceObj μ))
    (h : loadDirectory files parse measures none .none none = .ok l) (i : Nat) (f : ScoreFile)
    (hf : files[i]? = some f) :
    ∃ csv p, l[i]? = some ((i : Int), f.name, p) ∧ parse f.name (some csv) = .ok p ∧
      (csv = f.name ↔ ∀ (j : Nat) g, j ≤ i → files[j]? = some g → g.labelled = true) := by
  unfold loadDirectory listScores at h
  obtain ⟨a, b⟩ := load_all _ _ _ _ _ h
  have hi : i < l.length := by
    have hl : l.length = files.length := by simpa using congrArg List.length a
    rw [hl]; exact (List.getElem?_eq_some_iff.1 hf).1
  have hx := List.getElem?_eq_getElem hi
  have e : (l.map (·.1))[i]? = some (i : Int) := by
    rw [a]; simp [(List.getElem?_eq_some_iff.1 hf).1]
  rw [List.getElem?_map, hx] at e
  injection e with e
  obtain ⟨h1, csv, h2, h3⟩ := b l[i] (List.getElem_mem hi)
  have e : l[i].1 = (i : Int) := e
  rw [e] at h1 h2
  have e1 := get_nat h1
  have e2 := get_nat h2
  simp only at e1 e2
  rw [List.getElem?_map, hf] at e1
  injection e1 with e1
  rw [List.getElem?_map, Option.map_eq_some_iff] at e2
  obtain ⟨c, e3, e4⟩ := e2
  have e1 : f.name = l[i].2.1 := e1
  refine ⟨c, l[i].2.2, ?_, ?_, ?_⟩
  · rw [hx, e1, ← e]
  · rw [e1, e4]; exact h3
  · rw [← filter_same (·.labelled) (·.name) files hnd i f hf, e3, Option.some.injEq]

/-- C92 fails: scores without any labels cannot be loaded from a directory. -/
theorem C92_fails_unlabelled {μ : Type} (files : List ScoreFile) (hne : files ≠ [])
    (hlab : ∀ f ∈ files, f.labelled = false) (parse : Str → Option Str → Py (PieceObj μ)) (measures : Str → Py μ) :
    loadDirectory files parse measures none .none none = .error .indexError := by
  have hf : files.filter (·.labelled) = [] := by
    rw [List.filter_eq_nil_iff]
    intro f hf
    rw [hlab f hf]; decide
  cases files with
  | nil => exact absurd rfl hne
  | cons f fs =>
    unfold loadDirectory listScores loadFromScores
    rw [hf]
    simp only [List.map_cons, List.length_cons, List.range_succ_eq_map, idsOr, pieceDicts, onlyId, Bind.bind,
      Except.bind, List.replicate_succ, List.zip_cons_cons, List.mapM_cons, List.map_nil]
    rfl

/-- C92 fails: the ids that are stored with the dictionaries count the scores with labels, but are looked up
among all scores. It is the same score exactly if it and all scores before it have labels. -/
theorem C92_fails_ids (files : List ScoreFile) (hnd : (files.map (·.name)).Nodup) (i : Nat) (f : ScoreFile)
    (hf : files[i]? = some f) :
    (listScores files).1[i]? = some f.name ∧
    ((labelledScores files)[i]? = some f.name ↔
      ∀ (j : Nat) g, j ≤ i → files[j]? = some g → g.labelled = true) :=
  ⟨by simp only [listScores, List.getElem?_map, hf, Option.map_some],
    filter_same ScoreFile.labelled ScoreFile.name files hnd i f hf⟩

/-! ## Cases -/

/-- A piece with one chord. -/
def exPiece : PieceObj Nat :=
  ⟨7, [⟨15, 5, (0, 0), 3, 1, (1, 0), 3, .tpc, 0⟩],
   some [⟨⟨15, 15, 15, .major, .major, 0, 3, 3, 1, .tpc⟩, (0, 0), (1, 0), none⟩],
   some [⟨15, 15, 15, .major, .major, .major, .tpc⟩], some [0], some [(0, 1)], some [0]⟩

example : (exPiece.toDict.bind (pieceOfDict 7)) = .ok exPiece := by decide +kernel

/-- Two files, of which only the second is in the split. Without ids, its dictionary is loaded as the first file,
with the measures of the first. -/
example :
    let parse : Nat → Py (PieceObj Nat) := fun i => .ok { exPiece with measures := i }
    (exPiece.toDict.bind fun d => loadFromTables [3, 7] parse .ok (some [7]) (.found [d]) none) =
      .ok [(7, exPiece)] ∧
    (exPiece.toDict.bind fun d => loadFromTables [3, 7] parse .ok none (.found [d]) none) =
      .ok [(3, { exPiece with measures := 3 })] := by decide +kernel

/-- Two scores, the first without labels. -/
def exFiles : List ScoreFile := [⟨['a'], false⟩, ⟨['b'], true⟩]

/-- A piece whose measures tell its labels. -/
def exParse (_ : Str) (c : Option Str) : Py (PieceObj (Option Str)) := .ok ⟨c, [], none, none, none, none, none⟩

/-- The first score gets the labels of the second, which cannot be loaded. -/
example :
    (loadDirectory exFiles exParse (fun _ => .ok none) (some [0]) .none none).map
      (fun l => l.map (fun x => (x.2.1, x.2.2.measures))) = .ok [(['a'], some ['b'])] ∧
    (loadDirectory exFiles exParse (fun _ => .ok none) none .none none).map
      (fun l => l.map (fun x => (x.2.1, x.2.2.measures))) = .error .indexError := by decide +kernel

end Verif.LoadPieces
