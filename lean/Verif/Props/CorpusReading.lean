import Verif.Lemmas.CorpusReading

/-!
Property C97: the notes and the chords of the cleaned corpus tables.
Tables of two files that are `Sound` are at the end of `Verif/Props/CorpusChords.lean` (`exSound`).
-/

namespace Verif.CorpusReading

open Verif.Repeats Verif.MergeTies

/-! ### What is claimed -/

/-- The tables of a corpus. The tables are sorted by file; each file has measures and notes; and if repeats
are removed, the links lead from each measure which can be reached to a later one. -/
structure Sound (files : List CorpusFile) (measures : List (RawMeasure ℚ)) (notes : List RawNote)
    (count : Option Nat) : Prop where
  ids : (files.map (·.id)).Pairwise (· < ·)
  clean : CleanRows measures
  hasMeasure : ∀ f ∈ files, ∃ m ∈ measures, m.file = f.id
  lasting : ∀ m ∈ measures, 0 < m.actDur
  acyclic : Acyclic (removeRepeats (rowsOf (·.file) files count measures) false)
  forward : ∀ m, Reachable (removeRepeats (rowsOf (·.file) files count measures) false) m →
    ∀ n, m.next = some n → m.mc < n
  hasNote : ∀ f ∈ files, ∃ n ∈ notes, n.file = f.id
  grouped : notes.Pairwise (fun a b => a.file ≤ b.file)
  index : (notes.map fun n => (n.file, n.note)).Nodup
  long : ∀ n ∈ notes, 0 ≤ n.dur
  tied : ∀ n ∈ notes, n.tied = none ∨ n.tied = some 1 ∨ n.tied = some 0 ∨ n.tied = some (-1)

/-- The chords of a corpus, if there are any: the table is sorted by file, and each file before `count` has a
chord. -/
def SoundChords (files : List CorpusFile) (chords : Option (List RawChord)) (count : Option Nat) : Prop :=
  ∀ cs, chords = some cs → cs.Pairwise (fun a b => a.file ≤ b.file) ∧
    ∀ n, count = some n → ∀ f ∈ files.take n, ∃ c ∈ cs, c.file = f.id

/-- Two files at least are loaded. -/
def TwoFiles (files : List CorpusFile) (count : Option Nat) : Prop :=
  ∃ f ∈ chosen files count, ∃ g ∈ chosen files count, f.id ≠ g.id

/-- The onset of a note: the column `mn_onset`, or, where that is missing, `onset`. -/
def StartsAt (n : RawNote) (x : ℚ) : Prop :=
  n.onset = some x ∨ (n.onset = none ∧ n.oldOnset = some x)

/-- The note is of a file which is loaded, and starts inside of a measure of the table. -/
def ValidNote (files : List CorpusFile) (count : Option Nat) (M : List (FileMeasure ℚ)) (n : RawNote)
    (x : ℚ) : Prop :=
  (∃ f ∈ chosen files count, f.id = n.file) ∧ StartsAt n x ∧ Inside M n.file n.mc x

/-- A note of the result is this note of the table. -/
def SameNote (r : RawNote) (x : ℚ) (n : TieNote) : Prop :=
  n.file = r.file ∧ n.note = r.note ∧ n.mc = r.mc ∧ n.onset = x ∧ n.midi = r.midi ∧ n.voice = r.voice ∧
    n.staff = r.staff ∧ n.grace = r.grace

/-! ### Proof -/

theorem fill_starts (n : RawNote) (x : ℚ) : (fillNote n).onset = some x ↔ StartsAt n x := by
  unfold fillNote StartsAt
  cases n.onset <;> simp

section
variable {files : List CorpusFile} {measures : List (RawMeasure ℚ)} {notes : List RawNote}
  {chords : Option (List RawChord)} {count : Option Nat}

/-- The measures of the result. -/
def table (files : List CorpusFile) (measures : List (RawMeasure ℚ)) (count : Option Nat) :
    List (FileMeasure ℚ) :=
  removeRepeats (rowsOf (·.file) files count measures) true

theorem cutChords_ok (hs : Sound files measures notes count) (hc : SoundChords files chords count) :
    cutChords count (cutFiles count files) (chosen files count) chords =
      .ok (chords.map (rowsOf (·.file) files count)) := by
  unfold cutChords
  cases hcs : chords with
  | none => rfl
  | some cs =>
    obtain ⟨h1, h2⟩ := hc cs hcs
    obtain ⟨cs', e1, _, e2, _⟩ := cutRows_ok (fun c : RawChord => c.file) files count hs.ids cs h1 (by
      intro hn f hf
      cases hk : count with
      | none => exact absurd hk hn
      | some n => rw [hk] at hf; exact h2 n hk f hf)
    simp only [e1, Option.map_some, e2]

theorem load_eq (hs : Sound files measures notes count) (hc : SoundChords files chords count)
    (h0 : chosen files count ≠ []) (ord : List TiePair → List TiePair) (fuel : Nat) :
    loadCleanCorpus ord fuel files measures notes chords count =
      (match cleanNotes ord fuel (table files measures count)
          ((rowsOf (·.file) files count notes).map fillNote) with
        | .error e => .error e
        | .ok out => withChords fuel (chosen files count) (table files measures count) out
            (chords.map (rowsOf (·.file) files count))) := by
  have hsub : (chosen files count).Sublist files :=
    (chosen_sublist files count).trans (cutFiles_sublist files count)
  have hids := hs.ids.sublist (hsub.map (·.id))
  obtain ⟨ms, a1, a2, a3, a4⟩ := cutRows_ok (fun m : RawMeasure ℚ => m.file) files count hs.ids measures
    hs.clean.grouped (fun _ f hf => hs.hasMeasure f ((cutFiles_sublist files count).subset hf))
  obtain ⟨ns, b1, b2, b3, b4⟩ := cutRows_ok (fun m : RawNote => m.file) files count hs.ids notes
    hs.grouped (fun _ f hf => hs.hasNote f ((cutFiles_sublist files count).subset hf))
  have c1 := locFiles_ok (fun m : RawMeasure ℚ => m.file) (chosen files count) hids ms
    (hs.clean.grouped.sublist a2) (fun f hf => a4 f ((chosen_sublist files count).subset hf)
      (hs.hasMeasure f (hsub.subset hf)))
  have c2 := locFiles_ok (fun m : RawNote => m.file) (chosen files count) hids ns
    (hs.grouped.sublist b2) (fun f hf => b4 f ((chosen_sublist files count).subset hf)
      (hs.hasNote f (hsub.subset hf)))
  rw [a3] at c1
  rw [b3] at c2
  have hne : (rowsOf (fun m : RawMeasure ℚ => m.file) files count measures).isEmpty = false := by
    rw [List.isEmpty_eq_false_iff]
    obtain ⟨f, hf⟩ := List.exists_mem_of_ne_nil _ h0
    obtain ⟨m, hm, he⟩ := hs.hasMeasure f (hsub.subset hf)
    exact List.ne_nil_of_mem ((mem_rowsOf _ _ _ _ _).2 ⟨hm, f, hf, he.symm⟩)
  unfold loadCleanCorpus
  simp only [a1, b1, keepFiles_cut, c1, c2, cutChords_ok hs hc, Bind.bind, Except.bind, hne, table,
    Bool.false_eq_true, if_false]
  generalize cleanNotes ord fuel _ _ = q
  cases q <;> rfl

theorem table_chain (hs : Sound files measures notes count) (h2 : TwoFiles files count) {f : CorpusFile}
    (hf : f ∈ chosen files count) :
    FullChain (measuresOf (table files measures count) f.id)
      (measuresOf (table files measures count) f.id) ∧
    ∃ m, (measuresOf (table files measures count) f.id)[0]? = some m ∧
      ∀ r ∈ measures, r.file = f.id → m.mc ≤ r.mc := by
  have hsub : (chosen files count).Sublist files :=
    (chosen_sublist files count).trans (cutFiles_sublist files count)
  have hcl := clean_rowsOf hs.clean files count
  have hm : ∀ g ∈ chosen files count, ∃ r ∈ rowsOf (fun m : RawMeasure ℚ => m.file) files count measures,
      r.file = g.id := by
    intro g hg
    obtain ⟨r, hr, he⟩ := hs.hasMeasure g (hsub.subset hg)
    exact ⟨r, (mem_rowsOf _ _ _ _ _).2 ⟨hr, g, hg, he.symm⟩, he⟩
  have hsev : SeveralFiles (rowsOf (fun m : RawMeasure ℚ => m.file) files count measures) := by
    obtain ⟨g, hg, g', hg', hne⟩ := h2
    obtain ⟨a, ha, ea⟩ := hm g hg
    obtain ⟨b, hb, eb⟩ := hm g' hg'
    exact several hcl ha hb (by rw [ea, eb]; exact hne)
  obtain ⟨r0, hr0, e0⟩ := hm f hf
  obtain ⟨h, m, hm0, hle⟩ := C53_chain_partial _ hcl hsev hs.acyclic hs.forward f.id r0 hr0 e0
  refine ⟨h, m, hm0, fun r hr he => hle r ?_ he⟩
  exact (mem_rowsOf _ _ _ _ _).2 ⟨hr, f, hf, he.symm⟩

theorem table_single (hs : Sound files measures notes count) : Single (table files measures count) :=
  single_removeRepeats (clean_rowsOf hs.clean files count) true

theorem table_from (m : FileMeasure ℚ) (hm : m ∈ table files measures count) :
    (∃ f ∈ chosen files count, f.id = m.file) ∧
    ∃ r ∈ measures, m.file = r.file ∧ m.mc = r.mc ∧ m.actDur = r.actDur ∧ m.offset = r.offset := by
  obtain ⟨r, hr, h1, h2⟩ := removeRepeats_from _ _ m hm
  obtain ⟨h3, f, hf, he⟩ := (mem_rowsOf _ _ _ _ _).1 hr
  exact ⟨⟨f, hf, by rw [h1]; exact he⟩, r, h3, h1, h2⟩

theorem mem_measuresOf (M : List (FileMeasure ℚ)) (f : Nat) (m : Measure ℚ) :
    m ∈ measuresOf M f ↔ ∃ x ∈ M, x.file = f ∧ x.toMeasure = m := by
  simp [measuresOf, and_assoc]

/-- A note which is valid has an offset at its end. -/
theorem addOffset_ok (hs : Sound files measures notes count) (h2 : TwoFiles files count) {r : RawNote}
    {x : ℚ} (hd : 0 ≤ r.dur) (ho : r.onset = some x)
    (hi : Inside (table files measures count) r.file r.mc x) {fuel : Nat}
    (hfuel : measures.length ≤ fuel) :
    ∃ n, addOffset (table files measures count) fuel r = .ok n ∧ SameNote r x n ∧ n.dur = r.dur ∧
      n.tied = r.tied ∧
      ∃ p, At (measuresOf (table files measures count) r.file) n.mc n.onset p ∧
        At (measuresOf (table files measures count) r.file) n.offMc n.offBeat (p + n.dur) := by
  obtain ⟨m, hm, hfile, hmc, hle, hlt⟩ := hi
  obtain ⟨⟨f, hf, hfm⟩, _⟩ := table_from m hm
  obtain ⟨hchain, _⟩ := table_chain hs h2 hf
  rw [hfm, hfile] at hchain
  have hmem : m.toMeasure ∈ measuresOf (table files measures count) r.file :=
    (mem_measuresOf _ _ _).2 ⟨m, hm, hfile, rfl⟩
  obtain ⟨i, hi⟩ := List.mem_iff_getElem?.1 hmem
  have hlen : (measuresOf (table files measures count) r.file).length ≤ fuel := by
    refine Nat.le_trans (measuresOf_length _ _) (Nat.le_trans ?_ hfuel)
    have h1 : (table files measures count).length ≤
        (rowsOf (fun m : RawMeasure ℚ => m.file) files count measures).length := by
      unfold table removeRepeats
      simp only [if_true, List.length_map]
      refine Nat.le_trans (prune_sublist _ _).length_le ?_
      simp [markRows]
    exact Nat.le_trans h1 (rowsOf_sublist _ _ _ _).length_le
  have hdur : ∀ m ∈ measuresOf (table files measures count) r.file, 0 < m.actDur := by
    intro m' hm'
    obtain ⟨y, hy, _, rfl⟩ := (mem_measuresOf _ _ _).1 hm'
    obtain ⟨_, q, hq, _, _, he, _⟩ := table_from y hy
    show 0 < y.actDur
    rw [he]; exact hs.lasting q hq
  obtain ⟨j, m', beat, hij, hj, hok, hpos, _, _⟩ := C33_offset hchain hdur i m.toMeasure hi x r.dur hle hd
    fuel hlen
  have hok : noteOffset (measuresOf (table files measures count) r.file) fuel r.mc x r.dur =
      .ok (m'.mc, some beat) := by rw [← hmc]; exact hok
  refine ⟨_, by unfold addOffset; rw [ho]; simp only [hok]; rfl, ⟨rfl, rfl, rfl, rfl, rfl, rfl, rfl, rfl⟩,
    rfl, rfl, chainPos (measuresOf (table files measures count) r.file) i x, ?_, ?_⟩
  · exact ⟨i, m.toMeasure, hi, hmc, rfl⟩
  · exact ⟨j, m', hj, rfl, hpos.symm⟩

theorem mapPy_forall₂ {α β : Type} (f : α → Py β) (Q : α → β → Prop) (l : List α)
    (h : ∀ a ∈ l, ∃ b, f a = .ok b ∧ Q a b) : ∃ out, mapPy f l = .ok out ∧ List.Forall₂ Q l out := by
  induction l with
  | nil => exact ⟨[], rfl, .nil⟩
  | cons a l ih =>
    obtain ⟨out, h1, h2⟩ := ih (fun x hx => h x (List.mem_cons_of_mem _ hx))
    obtain ⟨b, hb, hq⟩ := h a (List.mem_cons_self ..)
    exact ⟨b :: out, by rw [mapPy, hb, h1], .cons hq h2⟩

theorem mapPy_map {α β γ : Type} (f : β → Py γ) (g : α → β) (l : List α) :
    mapPy f (l.map g) = mapPy (fun a => f (g a)) l := by
  induction l with
  | nil => rfl
  | cons a l ih => simp only [List.map_cons, mapPy, ih]

/-- The valid notes of the table. -/
def validNotes (files : List CorpusFile) (measures : List (RawMeasure ℚ)) (notes : List RawNote)
    (count : Option Nat) : List RawNote :=
  ((rowsOf (·.file) files count notes)).filter fun r =>
    insideB (table files measures count) r.file r.mc (fillNote r).onset

theorem mem_validNotes (r : RawNote) : r ∈ validNotes files measures notes count ↔
    r ∈ notes ∧ ∃ x, ValidNote files count (table files measures count) r x := by
  unfold validNotes ValidNote
  rw [List.mem_filter, mem_rowsOf, insideB_iff]
  simp only [fill_starts]
  constructor
  · rintro ⟨⟨h1, h2⟩, x, h3, h4⟩; exact ⟨h1, x, h2, h3, h4⟩
  · rintro ⟨h1, x, h2, h3, h4⟩; exact ⟨⟨h1, h2⟩, x, h3, h4⟩

/-- What is known of the note of a row. -/
def NoteOf (files : List CorpusFile) (measures : List (RawMeasure ℚ)) (count : Option Nat) (r : RawNote)
    (n : TieNote) : Prop :=
  ∃ x, ValidNote files count (table files measures count) r x ∧ SameNote r x n ∧ n.dur = r.dur ∧
    n.tied = r.tied ∧
    ∃ p, At (measuresOf (table files measures count) r.file) n.mc n.onset p ∧
      At (measuresOf (table files measures count) r.file) n.offMc n.offBeat (p + n.dur)

theorem cleanNotes_eq (hs : Sound files measures notes count) (h2 : TwoFiles files count)
    (ord : List TiePair → List TiePair) {fuel : Nat} (hfuel : measures.length ≤ fuel) :
    ∃ ts, List.Forall₂ (NoteOf files measures count) (validNotes files measures notes count) ts ∧
      cleanNotes ord fuel (table files measures count)
        ((rowsOf (·.file) files count notes).map fillNote) = mergeTies ord fuel ts := by
  have hne : (table files measures count).isEmpty = false := by
    have h2' := h2
    obtain ⟨f, hf, _⟩ := h2'
    obtain ⟨_, m, hm, _⟩ := table_chain hs h2 hf
    obtain ⟨x, hx, _⟩ := (mem_measuresOf _ _ _).1 (List.mem_of_getElem? hm)
    rw [List.isEmpty_eq_false_iff]
    exact List.ne_nil_of_mem hx
  have hv := valid_rows (fun n : RawNote => n.file) (fun n => n.mc) (fun n => n.onset) (fun _ => true)
    ((rowsOf (fun n : RawNote => n.file) files count notes).map fillNote) (table_single hs)
  have htrue : ∀ l : List RawNote, l.filter (fun _ => true) = l := fun l => by simp
  rw [htrue, List.filter_map] at hv
  have hfilt : (rowsOf (fun n : RawNote => n.file) files count notes).filter
      ((fun r : RawNote => insideB (table files measures count) r.file r.mc r.onset && true) ∘ fillNote) =
      validNotes files measures notes count := by
    unfold validNotes
    apply List.filter_congr
    intro r _
    simp only [Function.comp, Bool.and_true]
    rfl
  rw [hfilt] at hv
  obtain ⟨ts, ht1, ht2⟩ := mapPy_forall₂
    (fun r => addOffset (table files measures count) fuel (fillNote r)) (NoteOf files measures count)
    (validNotes files measures notes count) (by
      intro r hr
      obtain ⟨hrn, x, hch, hst, hin⟩ := (mem_validNotes r).1 hr
      obtain ⟨n, e1, e2, e3, e4, e5⟩ := addOffset_ok (r := fillNote r) hs h2 (hs.long r hrn)
        ((fill_starts r x).2 hst) hin hfuel
      exact ⟨n, e1, x, ⟨hch, hst, hin⟩, e2, e3, e4, e5⟩)
  rw [← mapPy_map] at ht1
  refine ⟨ts, ht2, ?_⟩
  · unfold cleanNotes
    simp only [hv, Bind.bind, Except.bind, hne, Bool.false_eq_true, if_false, ht1]

/-- A chain of notes ends as long after its start as its notes last together. -/
theorem chain_end (T : Int → List (Measure ℚ)) (c : List TieNote) :
    ∀ h l, c.head? = some h → c.getLast? = some l → List.IsChain Follows c →
      (∀ x ∈ c, Chain (T x.file) (T x.file)) →
      (∀ x ∈ c, ∃ p, At (T x.file) x.mc x.onset p ∧ At (T x.file) x.offMc x.offBeat (p + x.dur)) →
      ∃ p, At (T h.file) h.mc h.onset p ∧
        At (T h.file) l.offMc l.offBeat (p + (c.map TieNote.dur).sum) := by
  induction c with
  | nil => intro h l hh; cases hh
  | cons x c ih =>
    intro h l hh hl hc hT hx
    obtain rfl : x = h := by simpa using hh
    cases c with
    | nil =>
      obtain rfl : x = l := by simpa using hl
      obtain ⟨p, h1, h2⟩ := hx x (by simp)
      exact ⟨p, h1, by simpa using h2⟩
    | cons y c =>
      rw [List.isChain_cons_cons] at hc
      obtain ⟨⟨f1, _, f3, f4⟩, hc⟩ := hc
      obtain ⟨q, q1, q2⟩ := ih y l rfl (by rw [← hl]; simp) hc
        (fun z hz => hT z (List.mem_cons_of_mem _ hz)) (fun z hz => hx z (List.mem_cons_of_mem _ hz))
      obtain ⟨p, p1, p2⟩ := hx x (by simp)
      rw [← f1] at q1 q2
      rw [f3, f4] at p2
      have he : q = p + x.dur := At.unique (hT x (by simp)) q1 p2
      refine ⟨p, p1, ?_⟩
      rw [he] at q2
      rw [List.map_cons, List.sum_cons, ← add_assoc]
      exact q2

theorem forall₂_left {α β : Type} {R : α → β → Prop} {l : List α} {t : List β} (h : List.Forall₂ R l t)
    {a : α} (ha : a ∈ l) : ∃ b ∈ t, R a b := by
  induction h with
  | nil => cases ha
  | cons h _ ih =>
    rcases List.mem_cons.1 ha with rfl | ha
    · exact ⟨_, List.mem_cons_self .., h⟩
    · obtain ⟨b, hb, hr⟩ := ih ha
      exact ⟨b, List.mem_cons_of_mem _ hb, hr⟩

theorem forall₂_right {α β : Type} {R : α → β → Prop} {l : List α} {t : List β} (h : List.Forall₂ R l t)
    {b : β} (hb : b ∈ t) : ∃ a ∈ l, R a b := forall₂_left h.flip hb

theorem forall₂_sum {α β : Type} {R : α → β → Prop} (f : α → ℚ) (g : β → ℚ) {l : List α} {t : List β}
    (h : List.Forall₂ R l t) (hr : ∀ a b, R a b → g b = f a) : (t.map g).sum = (l.map f).sum := by
  induction h with
  | nil => rfl
  | cons h _ ih => rw [List.map_cons, List.map_cons, List.sum_cons, List.sum_cons, ih, hr _ _ h]

theorem forall₂_map {α β γ : Type} {R : α → β → Prop} (f : α → γ) (g : β → γ) {l : List α} {t : List β}
    (h : List.Forall₂ R l t) (hr : ∀ a b, R a b → g b = f a) : t.map g = l.map f := by
  induction h with
  | nil => rfl
  | cons h _ ih => rw [List.map_cons, List.map_cons, ih, hr _ _ h]

/-- The notes which are merged are fit to be merged. -/
theorem input_of (hs : Sound files measures notes count) {ts : List TieNote}
    (ht : List.Forall₂ (NoteOf files measures count) (validNotes files measures notes count) ts) :
    Input ts := by
  constructor
  · rw [forall₂_map (fun r : RawNote => ((r.file : Int), (r.note : Int))) _ ht (by
      rintro a b ⟨x, _, ⟨h1, h2, _⟩, _⟩
      rw [h1, h2])]
    have h1 : ((validNotes files measures notes count).map fun n => (n.file, n.note)).Nodup :=
      hs.index.sublist ((List.filter_sublist.trans (rowsOf_sublist _ _ _ _)).map _)
    have h2 := h1.map (f := fun p : Nat × Nat => ((p.1 : Int), (p.2 : Int))) (by
      rintro ⟨a, b⟩ ⟨c, d⟩ h
      simpa using h)
    rw [List.map_map] at h2
    exact h2
  · intro n hn
    obtain ⟨r, hr, x, _, _, _, h, _⟩ := forall₂_right ht hn
    rw [h]
    exact hs.tied r ((mem_validNotes r).1 hr).1

/-- **C97.** The notes which are loaded: each of them is a note of the table which starts inside of a measure
that is left, and ends as long after its start as it lasts, also if tied notes have been merged into it.
Notes without ties are as they were; and for each file and each pitch, the notes last as long together as the
valid notes of the table. -/
theorem C97_notes_partial (hs : Sound files measures notes count) (hc : SoundChords files chords count)
    (h2 : TwoFiles files count) {ord : List TiePair → List TiePair} (hord : ∀ l, (ord l).Perm l)
    {fuel : Nat} (hf1 : measures.length ≤ fuel) (hf2 : 2 * notes.length ≤ fuel) {out : CleanFrames}
    (he : loadCleanCorpus ord fuel files measures notes chords count = .ok out) :
    (∀ n ∈ out.notes, ∃ r ∈ notes, ∃ x, ValidNote files count out.measures r x ∧ SameNote r x n ∧
      ∃ p, At (measuresOf out.measures r.file) n.mc n.onset p ∧
        At (measuresOf out.measures r.file) n.offMc n.offBeat (p + n.dur)) ∧
    (∀ r ∈ notes, ∀ x, ValidNote files count out.measures r x → (r.grace = true ∨ r.tied = none) →
      ∃ n ∈ out.notes, SameNote r x n ∧ n.dur = r.dur ∧ n.tied = r.tied) ∧
    (out.notes.map fun n => (n.file, n.note)).Nodup ∧ out.notes.Pairwise Before ∧
    ∃ valid : List RawNote, valid.Sublist notes ∧
      (∀ r ∈ notes, r ∈ valid ↔ ∃ x, ValidNote files count out.measures r x) ∧
      ∀ f m, (out.notes.map fun n => if n.file = f ∧ n.midi = m then n.dur else 0).sum =
        (valid.map fun r => if (r.file : Int) = f ∧ r.midi = m then r.dur else 0).sum := by
  have hne : chosen files count ≠ [] := by
    obtain ⟨f, hf, _⟩ := h2
    exact List.ne_nil_of_mem hf
  obtain ⟨ts, ht, hcl⟩ := cleanNotes_eq hs h2 ord hf1
  have hin := input_of hs ht
  have hlen : 2 * ts.length ≤ fuel := by
    have e := ht.length_eq
    have h1 : (validNotes files measures notes count).length ≤ notes.length :=
      (List.filter_sublist.trans (rowsOf_sublist _ _ _ _)).length_le
    omega
  obtain ⟨res, chains, merged, hm, hsort, hperm, hch, hmer⟩ := C94_merge hord hin hlen
  rw [load_eq hs hc hne, hcl, hm] at he
  have hout : out.notes = res ∧ out.measures = table files measures count := by
    simp only [withChords] at he
    cases hcs : chords.map (rowsOf (fun c : RawChord => c.file) files count) with
    | none =>
      rw [hcs] at he
      injection he with he
      exact ⟨by rw [← he], by rw [← he]⟩
    | some cs =>
      rw [hcs] at he
      simp only at he
      cases hcc : cleanChords fuel (table files measures count) (cs.map fillChord) with
      | error e => rw [hcc] at he; cases he
      | ok cs' =>
        rw [hcc] at he
        injection he with he
        exact ⟨by rw [← he], by rw [← he]⟩
  obtain ⟨hn, hM⟩ := hout
  rw [hn, hM]
  have hnote : ∀ n ∈ ts, ∃ r ∈ notes, NoteOf files measures count r n := by
    intro n hn
    obtain ⟨r, hr, h⟩ := forall₂_right ht hn
    exact ⟨r, ((mem_validNotes r).1 hr).1, h⟩
  let T : Int → List (Measure ℚ) := fun f => measuresOf (table files measures count) f.toNat
  have hT : ∀ n ∈ ts, Chain (T n.file) (T n.file) ∧
      ∃ p, At (T n.file) n.mc n.onset p ∧ At (T n.file) n.offMc n.offBeat (p + n.dur) := by
    intro n hn
    obtain ⟨r, _, x, ⟨⟨f, hf, hfe⟩, _⟩, ⟨h1, _⟩, _, _, hp⟩ := hnote n hn
    have e : T n.file = measuresOf (table files measures count) r.file := by
      show measuresOf _ n.file.toNat = _
      rw [h1, Int.toNat_natCast]
    rw [e]
    refine ⟨?_, hp⟩
    rw [← hfe]
    exact (table_chain hs h2 hf).1.toChain
  refine ⟨?_, ?_, (C94_index hord hin hlen hm).1, hsort, validNotes files measures notes count,
    List.filter_sublist.trans (rowsOf_sublist _ _ _ _), ?_, ?_⟩
  · intro n hn
    rcases List.mem_append.1 (hperm.mem_iff.1 hn) with h | h
    · obtain ⟨r, hr, x, hv, hsame, _, _, hp⟩ := hnote n (List.mem_filter.1 h).1
      exact ⟨r, hr, x, hv, hsame, hp⟩
    · obtain ⟨c, hc, hd, l, hh, hl, hchain, hne⟩ := forall₂_right hmer h
      have hmem : ∀ x ∈ c, x ∈ ts := fun x hx =>
        (List.mem_filter.1 (hch.mem_iff.1 (List.mem_flatten.2 ⟨c, hc, hx⟩))).1
      have hdc : hd ∈ c := List.mem_of_head? hh
      obtain ⟨p, p1, p2⟩ := chain_end T c hd l hh hl hchain (fun x hx => (hT x (hmem x hx)).1)
        (fun x hx => (hT x (hmem x hx)).2)
      obtain ⟨r, hr, x, hv, hsame, _⟩ := hnote hd (hmem hd hdc)
      have e : T hd.file = measuresOf (table files measures count) r.file := by
        show measuresOf _ hd.file.toNat = _
        rw [hsame.1, Int.toNat_natCast]
      rw [e] at p1 p2
      refine ⟨r, hr, x, hv, ?_, p, ?_, ?_⟩
      · rw [hne]; exact hsame
      · rw [hne]; exact p1
      · rw [hne]; exact p2
  · intro r hr x hv hg
    obtain ⟨n, hn, y, hv', hsame, hd, ht', _⟩ := forall₂_left ht ((mem_validNotes r).2 ⟨hr, x, hv⟩)
    have hxy : y = x := by
      have h1 := (fill_starts r y).2 hv'.2.1
      rw [(fill_starts r x).2 hv.2.1] at h1
      exact (Option.some.inj h1).symm
    subst hxy
    refine ⟨n, hperm.mem_iff.2 (List.mem_append.2 (.inl (List.mem_filter.2 ⟨hn, ?_⟩))), hsame, hd, ht'⟩
    obtain ⟨_, _, _, _, _, _, _, h8⟩ := hsame
    unfold isTied
    rw [h8, ht']
    rcases hg with hg | hg <;> simp [hg]
  · intro r hr
    rw [mem_validNotes]
    exact ⟨fun h => h.2, fun h => ⟨hr, h⟩⟩
  · intro f m
    rw [C94_duration hord hin hlen hm f m]
    refine forall₂_sum _ _ ht ?_
    rintro r n ⟨x, _, ⟨h1, _, _, _, h5, _⟩, hd, _⟩
    rw [h1, h5, hd]

/-- **C97.** The loading of the notes ends without an exception. -/
theorem C97_total_partial (hs : Sound files measures notes count) (h2 : TwoFiles files count)
    {ord : List TiePair → List TiePair} (hord : ∀ l, (ord l).Perm l)
    {fuel : Nat} (hf1 : measures.length ≤ fuel) (hf2 : 2 * notes.length ≤ fuel) :
    ∃ out, loadCleanCorpus ord fuel files measures notes none count = .ok out := by
  have hne : chosen files count ≠ [] := by
    obtain ⟨f, hf, _⟩ := h2
    exact List.ne_nil_of_mem hf
  obtain ⟨ts, ht, hcl⟩ := cleanNotes_eq hs h2 ord hf1
  have hlen : 2 * ts.length ≤ fuel := by
    have e := ht.length_eq
    have h1 : (validNotes files measures notes count).length ≤ notes.length :=
      (List.filter_sublist.trans (rowsOf_sublist _ _ _ _)).length_le
    omega
  obtain ⟨res, _, _, hm, _⟩ := C94_merge hord (input_of hs ht) hlen
  have hc : SoundChords files none count := by
    intro _ h
    cases h
  exact ⟨_, by rw [load_eq hs hc hne, hcl, hm]; rfl⟩

/-- **C97.** The files and the measures which are loaded: the files before `count`, without the piece which is
left out; the measures are rows of the table of these files, and those of a file are linked from its first
measure to one without a link. -/
theorem C97_tables_partial (hs : Sound files measures notes count) (hc : SoundChords files chords count)
    (h2 : TwoFiles files count) {ord : List TiePair → List TiePair} {fuel : Nat} {out : CleanFrames}
    (he : loadCleanCorpus ord fuel files measures notes chords count = .ok out) :
    (∀ f, f ∈ out.files ↔ ∃ k : Nat, files[k]? = some f ∧ f.name ≠ "c11n08_Rondeau.tsv" ∧
      ∀ n, count = some n → k < n) ∧
    out.files.Sublist files ∧
    (∀ m ∈ out.measures, (∃ f ∈ out.files, f.id = m.file) ∧
      ∃ r ∈ measures, m.file = r.file ∧ m.mc = r.mc ∧ m.actDur = r.actDur ∧ m.offset = r.offset) ∧
    ∀ f ∈ out.files, FullChain (measuresOf out.measures f.id) (measuresOf out.measures f.id) ∧
      ∃ m, (measuresOf out.measures f.id)[0]? = some m ∧ ∀ r ∈ measures, r.file = f.id → m.mc ≤ r.mc := by
  have hne : chosen files count ≠ [] := by
    obtain ⟨f, hf, _⟩ := h2
    exact List.ne_nil_of_mem hf
  rw [load_eq hs hc hne] at he
  have hout : out.files = chosen files count ∧ out.measures = table files measures count := by
    cases hn : cleanNotes ord fuel (table files measures count)
        ((rowsOf (fun n : RawNote => n.file) files count notes).map fillNote) with
    | error e => rw [hn] at he; cases he
    | ok ns =>
      rw [hn] at he
      simp only [withChords] at he
      cases hcs : chords.map (rowsOf (fun c : RawChord => c.file) files count) with
      | none =>
        rw [hcs] at he
        injection he with he
        exact ⟨by rw [← he], by rw [← he]⟩
      | some cs =>
        rw [hcs] at he
        simp only at he
        cases hcc : cleanChords fuel (table files measures count) (cs.map fillChord) with
        | error e => rw [hcc] at he; cases he
        | ok cs' =>
          rw [hcc] at he
          injection he with he
          exact ⟨by rw [← he], by rw [← he]⟩
  obtain ⟨h3, h4⟩ := hout
  rw [h3, h4]
  refine ⟨?_, (chosen_sublist files count).trans (cutFiles_sublist files count), fun m hm => table_from m hm,
    fun f hf => table_chain hs h2 hf⟩
  intro f
  unfold chosen
  cases count with
  | none =>
    rw [List.mem_filter, decide_eq_true_eq, List.mem_iff_getElem?]
    constructor
    · rintro ⟨⟨k, hk⟩, hn⟩; exact ⟨k, hk, hn, fun n h => by cases h⟩
    · rintro ⟨k, hk, hn, _⟩; exact ⟨⟨k, hk⟩, hn⟩
  | some n =>
    rw [List.mem_filter, decide_eq_true_eq, List.mem_iff_getElem?]
    simp only [List.getElem?_take]
    constructor
    · rintro ⟨⟨k, hk⟩, hn⟩
      split at hk
      · rename_i hlt
        exact ⟨k, hk, hn, fun m h => by injection h with h; omega⟩
      · cases hk
    · rintro ⟨k, hk, hn, hlt⟩
      exact ⟨⟨k, by rw [if_pos (hlt n rfl)]; exact hk⟩, hn⟩

/-- **C97** fails for a single file, in particular for `count=1`: no measure of it is left, and the loading
ends with an `IndexError`. -/
theorem C97_fails_single_file (hs : Sound files measures notes count) (hc : SoundChords files chords count)
    {f : CorpusFile} (h1 : chosen files count = [f]) (ord : List TiePair → List TiePair) (fuel : Nat) :
    loadCleanCorpus ord fuel files measures notes chords count = .error .indexError := by
  have hM : table files measures count = [] := by
    refine C53_fails_single_file _ f.id ?_ hs.acyclic
    intro r hr
    obtain ⟨_, g, hg, he⟩ := (mem_rowsOf _ _ _ _ _).1 hr
    rw [h1, List.mem_singleton] at hg
    rw [← he, hg]
  have hun : ∀ l : List RawNote, removeUnmatched (·.file) (·.mc) l ([] : List (FileMeasure ℚ)) = [] := by
    intro l
    induction l with
    | nil => rfl
    | cons a l ih => exact ih
  rw [load_eq hs hc (by rw [h1]; simp), hM]
  simp only [cleanNotes, hun]
  rfl

/-- **C97** fails with a `count` if there is a file before it without chords: the loading ends with a
`KeyError`, although the same table is fine without a `count`. -/
theorem C97_fails_no_chords (hs : Sound files measures notes count) {n : Nat} (hn : count = some n)
    {cs : List RawChord} {f : CorpusFile} (hf : f ∈ files.take n) (hno : ∀ c ∈ cs, c.file ≠ f.id)
    (ord : List TiePair → List TiePair) (fuel : Nat) :
    loadCleanCorpus ord fuel files measures notes (some cs) count = .error .keyError := by
  have hsub : (chosen files count).Sublist files :=
    (chosen_sublist files count).trans (cutFiles_sublist files count)
  have hids := hs.ids.sublist (hsub.map (·.id))
  obtain ⟨ms, a1, a2, a3, a4⟩ := cutRows_ok (fun m : RawMeasure ℚ => m.file) files count hs.ids measures
    hs.clean.grouped (fun _ f hf => hs.hasMeasure f ((cutFiles_sublist files count).subset hf))
  obtain ⟨ns, b1, b2, b3, b4⟩ := cutRows_ok (fun m : RawNote => m.file) files count hs.ids notes
    hs.grouped (fun _ f hf => hs.hasNote f ((cutFiles_sublist files count).subset hf))
  have c1 := locFiles_ok (fun m : RawMeasure ℚ => m.file) (chosen files count) hids ms
    (hs.clean.grouped.sublist a2) (fun f hf => a4 f ((chosen_sublist files count).subset hf)
      (hs.hasMeasure f (hsub.subset hf)))
  have c2 := locFiles_ok (fun m : RawNote => m.file) (chosen files count) hids ns
    (hs.grouped.sublist b2) (fun f hf => b4 f ((chosen_sublist files count).subset hf)
      (hs.hasNote f (hsub.subset hf)))
  have hcut : cutChords count (cutFiles count files) (chosen files count) (some cs) = .error .keyError := by
    have : cutRows (fun c : RawChord => c.file) count cs (cutFiles count files) = .error .keyError := by
      rw [hn]
      unfold cutRows locFiles
      rw [if_neg]
      rw [List.all_eq_true]
      intro h
      have := h f hf
      rw [List.any_eq_true] at this
      obtain ⟨c, hc, he⟩ := this
      exact hno c hc (by simpa using he)
    unfold cutChords
    simp only [this]
  unfold loadCleanCorpus
  simp only [a1, b1, keepFiles_cut, c1, c2, hcut, Bind.bind, Except.bind]

end

end Verif.CorpusReading
