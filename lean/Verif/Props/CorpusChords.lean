import Verif.Props.CorpusReading

/-!
Property C98: the chords of the cleaned corpus tables.
-/

namespace Verif.CorpusReading

open Verif.Repeats Verif.MergeTies

/-! ### What is claimed -/

/-- The onset of a chord: the column `mn_onset`, or, where that is missing, `onset`. -/
def ChordStartsAt (c : RawChord) (x : ℚ) : Prop :=
  c.onset = some x ∨ (c.onset = none ∧ c.oldOnset = some x)

/-- The chord is of a file which is loaded, has a numeral, and starts inside of a measure of the table. -/
def ValidChord (files : List CorpusFile) (count : Option Nat) (M : List (FileMeasure ℚ)) (c : RawChord)
    (x : ℚ) : Prop :=
  (∃ f ∈ chosen files count, f.id = c.file) ∧ ChordStartsAt c x ∧ Inside M c.file c.mc x ∧
    ∃ s, c.numeral = some s ∧ s ≠ "@none"

/-- A table of chords in order. -/
def ChordsInOrder (cs : List RawChord) : Prop :=
  cs.Pairwise (fun a b => a.file ≤ b.file ∧ (a.file = b.file → a.mc ≤ b.mc ∧
    (a.mc = b.mc → ∀ x y, ChordStartsAt a x → ChordStartsAt b y → x ≤ y)))

/-- The chord of the result is this chord of the table. -/
def SameChord (r : RawChord) (x : ℚ) (c : RawChord) : Prop :=
  c.file = r.file ∧ c.chord = r.chord ∧ c.mc = r.mc ∧ c.onset = some x ∧ c.numeral = r.numeral

/-! ### Proof -/

theorem fillChord_starts (c : RawChord) (x : ℚ) : (fillChord c).onset = some x ↔ ChordStartsAt c x := by
  unfold fillChord ChordStartsAt
  cases c.onset <;> simp

/-! #### Positions of a chain -/

theorem sum_take_mono (T : List (Measure ℚ)) (hd : ∀ m ∈ T, 0 < m.actDur) (i j : Nat) (h : i ≤ j) :
    ((T.take i).map (·.actDur)).sum ≤ ((T.take j).map (·.actDur)).sum := by
  induction j with
  | zero => obtain rfl : i = 0 := by omega
            exact le_refl _
  | succ j ih =>
    rcases Nat.lt_or_ge j i with hji | hij
    · obtain rfl : i = j + 1 := by omega
      exact le_refl _
    · refine le_trans (ih hij) ?_
      by_cases hl : j < T.length
      · rw [sum_take_succ T j T[j] (List.getElem?_eq_getElem hl)]
        have := hd T[j] (List.getElem_mem hl)
        linarith
      · rw [List.take_of_length_le (by omega), List.take_of_length_le (by omega)]

/-- A place inside of a measure of a chain. -/
def InMeasure (T : List (Measure ℚ)) (mc : Int) (x : ℚ) : Prop :=
  ∃ m ∈ T, m.mc = mc ∧ m.offset ≤ x ∧ x < m.actDur + m.offset

theorem At.bounds {T : List (Measure ℚ)} (h : Chain T T) {mc : Int} {x p : ℚ} (ha : At T mc x p)
    (hi : InMeasure T mc x) : ∃ i m, T[i]? = some m ∧ m.mc = mc ∧
      p = ((T.take i).map (·.actDur)).sum + (x - m.offset) ∧
      ((T.take i).map (·.actDur)).sum ≤ p ∧ p < ((T.take (i + 1)).map (·.actDur)).sum := by
  obtain ⟨i, m, hm, hmc, hp⟩ := ha
  obtain ⟨m', hm', hmc', h1, h2⟩ := hi
  obtain ⟨j, hj⟩ := List.mem_iff_getElem?.1 hm'
  have hij := (h.mono i j m m' hm hj).2.1 (by rw [hmc, hmc'])
  subst hij
  rw [hm] at hj
  obtain rfl := Option.some.inj hj
  have hp : p = ((T.take i).map (·.actDur)).sum + (x - m.offset) := by
    rw [hp, chainPos, hm]; simp
  refine ⟨i, m, hm, hmc, hp, ?_, ?_⟩
  · linarith
  · rw [sum_take_succ T i m hm]; linarith

/-- Places in order have positions in order, and places with the same position are the same. -/
theorem At.order {T : List (Measure ℚ)} (h : Chain T T) (hd : ∀ m ∈ T, 0 < m.actDur) {mc mc' : Int}
    {x y p q : ℚ} (ha : At T mc x p) (hb : At T mc' y q) (hi : InMeasure T mc x) (hj : InMeasure T mc' y)
    (hle : mc ≤ mc' ∧ (mc = mc' → x ≤ y)) : p ≤ q ∧ (p = q → mc = mc' ∧ x = y) := by
  obtain ⟨i, m, hm, hmc, hp, p1, p2⟩ := At.bounds h ha hi
  obtain ⟨j, m', hm', hmc', hq, q1, q2⟩ := At.bounds h hb hj
  by_cases he : mc = mc'
  · have hij := (h.mono i j m m' hm hm').2.1 (by rw [hmc, hmc', he])
    subst hij
    rw [hm] at hm'
    obtain rfl := Option.some.inj hm'
    have := hle.2 he
    constructor
    · rw [hp, hq]; linarith
    · intro hpq
      refine ⟨he, ?_⟩
      rw [hp, hq] at hpq; linarith
  · have hlt : m.mc < m'.mc := by have := hle.1; omega
    have hij := (h.mono i j m m' hm hm').1.1 hlt
    have hs := sum_take_mono T hd (i + 1) j hij
    constructor
    · linarith
    · intro hpq; linarith

theorem At.before_end {T : List (Measure ℚ)} (h : Chain T T) (hd : ∀ m ∈ T, 0 < m.actDur) {mc : Int}
    {x p : ℚ} (ha : At T mc x p) (hi : InMeasure T mc x) : p < (T.map (·.actDur)).sum := by
  obtain ⟨i, m, hm, _, _, _, p2⟩ := At.bounds h ha hi
  have hl := (List.getElem?_eq_some_iff.1 hm).1
  have hs := sum_take_mono T hd (i + 1) T.length (by omega)
  rw [List.take_length] at hs
  linarith

/-! #### Chords which last -/

section
variable {β : Type} (file : β → Nat) (pos : β → ℚ) (place : β → Int × ℚ) (en : β → ChordEnd ℚ)
  (fin : β → ChordEnd ℚ)

/-- What is known of two rows of the table. -/
def Step (a b : β) : Prop :=
  (file a = file b → en a = ⟨(place b).1, some (place b).2, some (pos b - pos a)⟩ ∧ pos a ≤ pos b ∧
    (pos a = pos b → place a = place b)) ∧
  (file a ≠ file b → en a = fin a)

/-- What is known of two rows of the result. -/
def Step' (a b : β) : Prop :=
  (file a = file b → en a = ⟨(place b).1, some (place b).2, some (pos b - pos a)⟩ ∧ pos a < pos b) ∧
  (file a ≠ file b → en a = fin a)

theorem filter_lasts (l : List β) : ∀ b, (∀ z ∈ b :: l, lasts (fin z) = true) →
    List.IsChain (Step file pos place en fin) (b :: l) →
    (∀ z, (b :: l).getLast? = some z → en z = fin z) →
    ∃ h t, (b :: l).filter (fun x => lasts (en x)) = h :: t ∧ file h = file b ∧ place h = place b ∧
      pos h = pos b ∧ List.IsChain (Step' file pos place en fin) (h :: t) ∧
      ∀ z, (h :: t).getLast? = some z → en z = fin z := by
  induction l with
  | nil =>
    intro b hfin _ hl
    have he := hl b rfl
    refine ⟨b, [], ?_, rfl, rfl, rfl, List.isChain_singleton _, hl⟩
    rw [List.filter_cons_of_pos (by rw [he]; exact hfin b (by simp))]; rfl
  | cons c l ih =>
    intro b hfin hc hl
    rw [List.isChain_cons_cons] at hc
    obtain ⟨⟨h1, h2⟩, hc⟩ := hc
    obtain ⟨h, t, e, f1, f2, f3, f4, f5⟩ := ih c (fun z hz => hfin z (List.mem_cons_of_mem _ hz)) hc
      (fun z hz => hl z (by rw [← hz]; simp))
    by_cases hf : file b = file c
    · obtain ⟨g1, g2, g3⟩ := h1 hf
      by_cases hp : pos b = pos c
      · have hno : ¬ (lasts (en b) = true) := by
          rw [g1]; simp [lasts, hp]
        refine ⟨h, t, ?_, by rw [f1, hf], by rw [f2, g3 hp], by rw [f3, hp], f4, f5⟩
        rw [List.filter_cons_of_neg (by exact hno)]; exact e
      · have hlt : pos b < pos c := lt_of_le_of_ne g2 hp
        have hyes : lasts (en b) = true := by
          rw [g1]; simp only [lasts, Bool.not_eq_true', decide_eq_false_iff_not, not_le]; linarith
        refine ⟨b, h :: t, ?_, rfl, rfl, rfl, ?_, ?_⟩
        · rw [List.filter_cons_of_pos (by exact hyes), e]
        · rw [List.isChain_cons_cons]
          refine ⟨⟨fun _ => ?_, fun hn => absurd (hf.trans f1.symm) hn⟩, f4⟩
          rw [f2, f3]; exact ⟨g1, hlt⟩
        · intro z hz
          exact f5 z (by rw [← hz]; simp)
    · have hb := h2 hf
      refine ⟨b, h :: t, ?_, rfl, rfl, rfl, ?_, ?_⟩
      · rw [List.filter_cons_of_pos (by rw [hb]; exact hfin b (by simp)), e]
      · rw [List.isChain_cons_cons]
        refine ⟨⟨fun hn => absurd (hn.trans f1) hf, fun _ => hb⟩, f4⟩
      · intro z hz
        exact f5 z (by rw [← hz]; simp)

/-- A chord which does not last has one at the same place which does. -/
theorem filter_place (l : List β) (hfin : ∀ z ∈ l, lasts (fin z) = true)
    (hc : List.IsChain (Step file pos place en fin) l)
    (hl : ∀ z, l.getLast? = some z → en z = fin z) :
    ∀ b ∈ l, ∃ h ∈ l.filter (fun x => lasts (en x)), file h = file b ∧ place h = place b := by
  induction l with
  | nil => intro b hb; cases hb
  | cons a l ih =>
    intro b hb
    rcases List.mem_cons.1 hb with rfl | hb
    · obtain ⟨h, t, e, f1, f2, _⟩ := filter_lasts file pos place en fin l b hfin hc hl
      exact ⟨h, by rw [e]; simp, f1, f2⟩
    · cases l with
      | nil => cases hb
      | cons c l =>
        rw [List.isChain_cons_cons] at hc
        obtain ⟨h, hh, f⟩ := ih (fun z hz => hfin z (List.mem_cons_of_mem _ hz)) hc.2
          (fun z hz => hl z (by rw [← hz]; simp)) b hb
        refine ⟨h, ?_, f⟩
        rw [List.filter_cons]
        split
        · exact List.mem_cons_of_mem _ hh
        · exact hh

end

/-- Elements of a part of a list without repetitions are in the order of the list. -/
theorem index_of_sublist {α : Type} {l' l : List α} (hs : l'.Sublist l) (hn : l.Nodup) {a b : α} {i j k m : Nat}
    (hk : l'[k]? = some a) (hm : l'[m]? = some b) (hi : l[i]? = some a) (hj : l[j]? = some b) (hij : i < j) :
    k < m := by
  rcases Nat.lt_trichotomy k m with h | rfl | h
  · exact h
  · rw [hk] at hm
    obtain rfl := Option.some.inj hm
    have := (List.getElem?_inj (List.getElem?_eq_some_iff.1 hi).1 hn).1 (hi.trans hj.symm)
    omega
  · exfalso
    obtain ⟨lk, rfl⟩ := List.getElem?_eq_some_iff.1 hk
    obtain ⟨lm, rfl⟩ := List.getElem?_eq_some_iff.1 hm
    have hp : l.Pairwise (fun x y => ∀ u v : Nat, l[u]? = some x → l[v]? = some y → u < v) := by
      rw [List.pairwise_iff_getElem]
      intro u v hu hv huv u' v' h1 h2
      have e1 := (List.getElem?_inj hu hn).1 ((List.getElem?_eq_getElem hu).trans h1.symm)
      have e2 := (List.getElem?_inj hv hn).1 ((List.getElem?_eq_getElem hv).trans h2.symm)
      omega
    have := List.pairwise_iff_getElem.1 (hp.sublist hs) m k lm lk h j i hj hi
    omega

section
variable {files : List CorpusFile} {measures : List (RawMeasure ℚ)} {notes : List RawNote}
  {cs : List RawChord} {count : Option Nat}

/-- The valid chords of the table. -/
def validChords (files : List CorpusFile) (measures : List (RawMeasure ℚ)) (cs : List RawChord)
    (count : Option Nat) : List RawChord :=
  (rowsOf (·.file) files count cs).filter fun c =>
    insideB (table files measures count) c.file c.mc (fillChord c).onset && !noNumeral c

theorem numeral_iff (c : RawChord) :
    (!noNumeral c) = true ↔ ∃ s, c.numeral = some s ∧ s ≠ "@none" := by
  unfold noNumeral
  cases c.numeral with
  | none => simp
  | some s => simp

theorem mem_validChords (c : RawChord) : c ∈ validChords files measures cs count ↔
    c ∈ cs ∧ ∃ x, ValidChord files count (table files measures count) c x := by
  unfold validChords ValidChord
  rw [List.mem_filter, mem_rowsOf, Bool.and_eq_true, insideB_iff, numeral_iff]
  simp only [fillChord_starts]
  constructor
  · rintro ⟨⟨h1, h2⟩, ⟨x, h3, h4⟩, h5⟩; exact ⟨h1, x, h2, h3, h4, h5⟩
  · rintro ⟨h1, x, h2, h3, h4, h5⟩; exact ⟨⟨h1, h2⟩, ⟨x, h3, h4⟩, h5⟩

/-- The row of a chord with an onset. -/
def toRow (c : RawChord) : ChordRow ℚ := ⟨c.file, c.mc, c.onset.getD 0, c.timesig⟩

theorem mapPy_pure {α β : Type} (f : α → Py β) (g : α → β) (l : List α) (h : ∀ a ∈ l, f a = .ok (g a)) :
    mapPy f l = .ok (l.map g) := by
  induction l with
  | nil => rfl
  | cons a l ih =>
    rw [mapPy, h a (by simp), ih fun x hx => h x (List.mem_cons_of_mem _ hx)]
    rfl

/-- The end of the file of a chord at a position. -/
def fileEnd (T : List (Measure ℚ)) (p : ℚ) (e : ChordEnd ℚ) : Prop :=
  ∃ l, T[T.length - 1]? = some l ∧
    e = ⟨l.mc, some (l.actDur + l.offset), some ((T.map (·.actDur)).sum - p)⟩

/-- **C98.** The chords which are loaded. The chords of a file which is loaded, with a numeral and a start
inside of a measure that is left, are in the result, but for those which start at the same place as a later
one: of these, only the last one is left. Each chord ends where the next one of its file starts, the last one
at the end of its file, and all of them have a positive duration, which is the distance from start to end. -/
theorem C98_chords_partial (hs : Sound files measures notes count)
    (hc : SoundChords files (some cs) count) (h2 : TwoFiles files count) (hord' : ChordsInOrder cs)
    (hv2 : ∃ a ∈ cs, ∃ b ∈ cs, a.file ≠ b.file ∧
      (∃ x, ValidChord files count (table files measures count) a x) ∧
      ∃ y, ValidChord files count (table files measures count) b y)
    {ord : List TiePair → List TiePair} (hord : ∀ l, (ord l).Perm l)
    {fuel : Nat} (hf1 : measures.length ≤ fuel) (hf2 : 2 * notes.length ≤ fuel) :
    ∃ out res, loadCleanCorpus ord fuel files measures notes (some cs) count = .ok out ∧
      out.chords = some res ∧ out.measures = table files measures count ∧
      (∀ c e, (c, e) ∈ res → ∃ r ∈ cs, ∃ x, ValidChord files count out.measures r x ∧ SameChord r x c) ∧
      (res.map fun p => (p.1.file, p.1.chord)).Sublist (cs.map fun c => (c.file, c.chord)) ∧
      (∀ r ∈ cs, ∀ x, ValidChord files count out.measures r x →
        ∃ c e, (c, e) ∈ res ∧ c.file = r.file ∧ c.mc = r.mc ∧ c.onset = some x) ∧
      ((cs.map fun c => (c.file, c.chord)).Nodup → ∀ (i j : Nat) r r' x, i < j → cs[i]? = some r →
        cs[j]? = some r' → r.file = r'.file → r.mc = r'.mc → ValidChord files count out.measures r x →
        ValidChord files count out.measures r' x → (r.file, r.chord) ∉ res.map fun p => (p.1.file, p.1.chord)) ∧
      (∀ (k : Nat) c e, res[k]? = some (c, e) →
        ∃ x p, c.onset = some x ∧ At (measuresOf out.measures c.file) c.mc x p ∧
          (∃ d, 0 < d ∧ e.duration = some d) ∧
          (∀ c' e', res[k + 1]? = some (c', e') → c.file = c'.file →
            ∃ x' p', c'.onset = some x' ∧ At (measuresOf out.measures c.file) c'.mc x' p' ∧
              e = ⟨c'.mc, some x', some (p' - p)⟩) ∧
          ((∀ c' e', res[k + 1]? = some (c', e') → c.file ≠ c'.file) →
            fileEnd (measuresOf out.measures c.file) p e)) := by
  classical
  have hne : chosen files count ≠ [] := by
    obtain ⟨f, hf, _⟩ := h2
    exact List.ne_nil_of_mem hf
  -- the notes do not fail
  obtain ⟨ts, ht, hcl⟩ := cleanNotes_eq hs h2 ord hf1
  have hin := input_of hs ht
  have hlen : 2 * ts.length ≤ fuel := by
    have e := ht.length_eq
    have h1 : (validNotes files measures notes count).length ≤ notes.length :=
      (List.filter_sublist.trans (rowsOf_sublist _ _ _ _)).length_le
    omega
  obtain ⟨ns, _, _, hm, _⟩ := C94_merge hord hin hlen
  -- the valid chords
  let M := table files measures count
  let W := validChords files measures cs count
  let V := W.map fillChord
  have hV : applyMask
      ((removeUnmatched (·.file) (·.mc) ((rowsOf (·.file) files count cs).map fillChord) M).filter
        (fun c => !noNumeral c))
      (onsetMask (·.file) (·.mc) (·.onset)
        ((removeUnmatched (·.file) (·.mc) ((rowsOf (·.file) files count cs).map fillChord) M).filter
        (fun c => !noNumeral c)) M) = .ok V := by
    rw [valid_rows _ _ _ _ _ (table_single hs), List.filter_map]
    rfl
  have hVx : ∀ c ∈ V, ∃ x, c.onset = some x ∧ Inside M c.file c.mc x ∧
      ∃ f ∈ chosen files count, f.id = c.file := by
    intro c hcV
    obtain ⟨r, hr, rfl⟩ := List.mem_map.1 hcV
    obtain ⟨_, x, hch, hst, hi, _⟩ := (mem_validChords r).1 hr
    exact ⟨x, (fillChord_starts r x).2 hst, hi, hch⟩
  have hrows : mapPy chordRow V = .ok (V.map toRow) := by
    apply mapPy_pure
    intro c hcV
    obtain ⟨x, hx, _⟩ := hVx c hcV
    unfold chordRow toRow
    rw [hx]; rfl
  have hchain : ∀ c ∈ V, FullChain (measuresOf M c.file) (measuresOf M c.file) := by
    intro c hcV
    obtain ⟨_, _, _, f, hf, he⟩ := hVx c hcV
    rw [← he]; exact (table_chain hs h2 hf).1
  have hdur : ∀ f, ∀ m ∈ measuresOf M f, 0 < m.actDur := by
    intro f m' hm'
    obtain ⟨y, hy, _, rfl⟩ := (mem_measuresOf _ _ _).1 hm'
    obtain ⟨_, q, hq, _, _, he, _⟩ := table_from y hy
    show 0 < y.actDur
    rw [he]; exact hs.lasting q hq
  have hInM : ∀ c ∈ V, InMeasure (measuresOf M c.file) c.mc (c.onset.getD 0) := by
    intro c hcV
    obtain ⟨x, hx, ⟨m, hm, h1, h2, h3, h4⟩, _⟩ := hVx c hcV
    rw [hx]
    exact ⟨m.toMeasure, (mem_measuresOf _ _ _).2 ⟨m, hm, h1, rfl⟩, h2, h3, h4⟩
  have hAt : ∀ c ∈ V, ∃ p, At (measuresOf M c.file) c.mc (c.onset.getD 0) p := by
    intro c hcV
    obtain ⟨m, hm, hmc, _⟩ := hInM c hcV
    obtain ⟨i, hi⟩ := List.mem_iff_getElem?.1 hm
    exact ⟨_, i, m, hi, hmc, rfl⟩
  have hVord : V.Pairwise (fun a b => a.file ≤ b.file ∧ (a.file = b.file → a.mc ≤ b.mc ∧
      (a.mc = b.mc → a.onset.getD 0 ≤ b.onset.getD 0))) := by
    rw [List.pairwise_map]
    have hW : W.Pairwise _ := hord'.sublist (List.filter_sublist.trans (rowsOf_sublist _ _ _ _))
    refine hW.imp_of_mem ?_
    intro a b ha hb ⟨h1, h2⟩
    refine ⟨h1, fun hf => ⟨(h2 hf).1, fun hmc => ?_⟩⟩
    obtain ⟨_, x, _, hx, _⟩ := (mem_validChords a).1 ha
    obtain ⟨_, y, _, hy, _⟩ := (mem_validChords b).1 hb
    rw [(fillChord_starts a x).2 hx, (fillChord_starts b y).2 hy]
    exact (h2 hf).2 hmc x y hx hy
  have hget : ∀ (k : Nat) c, (V.map toRow)[k]? = some c → ∃ v, V[k]? = some v ∧ c = toRow v := by
    intro k c hk
    rw [List.getElem?_map] at hk
    cases hv : V[k]? with
    | none => rw [hv] at hk; cases hk
    | some v => rw [hv] at hk; exact ⟨v, rfl, (Option.some.inj hk).symm⟩
  have hfit : ChordsFit M (V.map toRow) := by
    refine ⟨?_, ?_, ?_⟩
    · intro c hcm
      obtain ⟨v, hv, rfl⟩ := List.mem_map.1 hcm
      exact hchain v hv
    · intro c hcm
      obtain ⟨v, hv, rfl⟩ := List.mem_map.1 hcm
      obtain ⟨m, hm, hmc, _⟩ := hInM v hv
      exact ⟨m, hm, hmc⟩
    · intro k c c' hk hk' hf
      obtain ⟨v, hv, rfl⟩ := hget k c hk
      obtain ⟨v', hv', rfl⟩ := hget (k + 1) c' hk'
      obtain ⟨l1, rfl⟩ := List.getElem?_eq_some_iff.1 hv
      obtain ⟨l2, rfl⟩ := List.getElem?_eq_some_iff.1 hv'
      exact ((List.pairwise_iff_getElem.1 hVord k (k + 1) l1 l2 (by omega)).2 hf).1
  have hfiles : ∀ a b, (V.map toRow)[0]? = some a →
      (V.map toRow)[(V.map toRow).length - 1]? = some b → a.file ≠ b.file := by
    intro a b ha hb hab
    obtain ⟨v, hv, rfl⟩ := hget 0 a ha
    obtain ⟨v', hv', rfl⟩ := hget _ b hb
    rw [List.length_map] at hv'
    obtain ⟨l1, rfl⟩ := List.getElem?_eq_some_iff.1 hv
    obtain ⟨l2, rfl⟩ := List.getElem?_eq_some_iff.1 hv'
    have hab : V[0].file = V[V.length - 1].file := hab
    have hg := List.pairwise_iff_getElem.1 hVord
    have key : ∀ z ∈ V, z.file = V[0].file := by
      intro z hz
      obtain ⟨k, hk, rfl⟩ := List.getElem_of_mem hz
      have q1 : V[0].file ≤ V[k].file := by
        rcases Nat.eq_zero_or_pos k with rfl | h
        · exact Nat.le_refl _
        · exact (hg 0 k l1 hk h).1
      have q2 : V[k].file ≤ V[V.length - 1].file := by
        by_cases he : k = V.length - 1
        · subst he; exact Nat.le_refl _
        · exact (hg k (V.length - 1) hk l2 (by omega)).1
      omega
    obtain ⟨r, hr, r', hr', hne, hx, hy⟩ := hv2
    have m1 := key _ (List.mem_map_of_mem (f := fillChord) ((mem_validChords r).2 ⟨hr, hx⟩))
    have m2 := key _ (List.mem_map_of_mem (f := fillChord) ((mem_validChords r').2 ⟨hr', hy⟩))
    exact hne (m1.trans m2.symm)
  have hMl : M.length ≤ fuel := by
    refine Nat.le_trans ?_ hf1
    have h1 : M.length ≤ (rowsOf (fun m : RawMeasure ℚ => m.file) files count measures).length := by
      show (table files measures count).length ≤ _
      unfold table removeRepeats
      simp only [if_true, List.length_map]
      refine Nat.le_trans (prune_sublist _ _).length_le ?_
      simp [markRows]
    exact Nat.le_trans h1 (rowsOf_sublist _ _ _ _).length_le
  obtain ⟨ends, he, hel, hinner, hlast⟩ := C34_rows_partial hfit hfiles fuel hMl
  rw [List.length_map] at hel
  let L := V.zip ends
  have hok : cleanChords fuel M ((rowsOf (·.file) files count cs).map fillChord) =
      .ok (L.filter fun p => lasts p.2) := by
    unfold cleanChords
    simp only [hV, Bind.bind, Except.bind, hrows, he]
    rfl
  refine ⟨⟨chosen files count, M, some (L.filter fun p => lasts p.2), ns⟩, L.filter fun p => lasts p.2, ?_,
    rfl, rfl, ?_⟩
  · rw [load_eq hs hc hne, hcl, hm]
    show withChords _ _ _ _ (some _) = _
    unfold withChords
    have hok' := hok
    simp only [M] at hok'
    simp only [hok']
    rfl
  -- positions
  let pos : RawChord × ChordEnd ℚ → ℚ := fun b =>
    if h : ∃ p, At (measuresOf M b.1.file) b.1.mc (b.1.onset.getD 0) p then Classical.choose h else 0
  have hpos : ∀ c ∈ V, ∀ e, At (measuresOf M c.file) c.mc (c.onset.getD 0) (pos (c, e)) := by
    intro c hcV e
    have h := hAt c hcV
    show At _ _ _ (if h : _ then _ else _)
    rw [dif_pos h]
    exact Classical.choose_spec h
  let fin : RawChord × ChordEnd ℚ → ChordEnd ℚ := fun b =>
    match (measuresOf M b.1.file)[(measuresOf M b.1.file).length - 1]? with
    | none => b.2
    | some l => ⟨l.mc, some (l.actDur + l.offset),
        some (((measuresOf M b.1.file).map (·.actDur)).sum - pos b)⟩
  have hLV : ∀ b ∈ L, b.1 ∈ V := fun b hb => (List.of_mem_zip hb).1
  have hfin : ∀ b ∈ L, fileEnd (measuresOf M b.1.file) (pos b) (fin b) ∧ lasts (fin b) = true := by
    intro b hb
    have hbV := hLV b hb
    obtain ⟨m, hm, _⟩ := hInM b.1 hbV
    have hlp : (measuresOf M b.1.file).length - 1 < (measuresOf M b.1.file).length := by
      have := List.length_pos_of_mem hm; omega
    have hlt : pos b < ((measuresOf M b.1.file).map (·.actDur)).sum :=
      At.before_end (hchain b.1 hbV).toChain (hdur _) (hpos b.1 hbV b.2) (hInM b.1 hbV)
    have hfe : fin b = ⟨(measuresOf M b.1.file)[(measuresOf M b.1.file).length - 1].mc,
        some ((measuresOf M b.1.file)[(measuresOf M b.1.file).length - 1].actDur +
          (measuresOf M b.1.file)[(measuresOf M b.1.file).length - 1].offset),
        some (((measuresOf M b.1.file).map (·.actDur)).sum - pos b)⟩ := by
      show (match (measuresOf M b.1.file)[(measuresOf M b.1.file).length - 1]? with
        | none => _ | some l => _) = _
      rw [List.getElem?_eq_getElem hlp]
    refine ⟨⟨_, List.getElem?_eq_getElem hlp, hfe⟩, ?_⟩
    rw [hfe]
    simp only [lasts, Bool.not_eq_true', decide_eq_false_iff_not, not_le]
    linarith
  have hLget : ∀ (k : Nat) b, L[k]? = some b → V[k]? = some b.1 ∧ ends[k]? = some b.2 := by
    intro k b hk
    rw [List.getElem?_zip_eq_some] at hk
    exact hk
  have hstep : List.IsChain (Step (fun b => b.1.file) pos (fun b => (b.1.mc, b.1.onset.getD 0))
      (fun b => b.2) fin) L := by
    rw [List.isChain_iff_getElem]
    intro k hk
    obtain ⟨a1, a2⟩ := hLget k _ (List.getElem?_eq_getElem (by omega : k < L.length))
    obtain ⟨b1, b2⟩ := hLget (k + 1) _ (List.getElem?_eq_getElem hk)
    have aV := List.mem_of_getElem? a1
    have bV := List.mem_of_getElem? b1
    have ra : (V.map toRow)[k]? = some (toRow L[k].1) := by rw [List.getElem?_map, a1]; rfl
    have rb : (V.map toRow)[k + 1]? = some (toRow L[k + 1].1) := by rw [List.getElem?_map, b1]; rfl
    constructor
    · intro hf
      have hpa := hpos _ aV L[k].2
      have hpb := hpos _ bV L[k + 1].2
      have hf' : L[k].1.file = L[k + 1].1.file := hf
      rw [← hf'] at hpb
      have h1 := hinner k _ _ ra rb hf _ _ hpa hpb
      rw [a2] at h1
      have hmB := hInM _ bV
      rw [← hf'] at hmB
      obtain ⟨l1, e1⟩ := List.getElem?_eq_some_iff.1 a1
      obtain ⟨l2, e2⟩ := List.getElem?_eq_some_iff.1 b1
      have hoo := List.pairwise_iff_getElem.1 hVord k (k + 1) l1 l2 (by omega)
      rw [e1, e2] at hoo
      obtain ⟨o1, o2⟩ := At.order (hchain _ aV).toChain (hdur _) hpa hpb (hInM _ aV) hmB (hoo.2 hf')
      refine ⟨Option.some.inj h1, o1, fun hpe => ?_⟩
      obtain ⟨q1, q2⟩ := o2 hpe
      exact Prod.ext q1 q2
    · intro hf
      have hl := hlast k _ ra (by
        intro c' hc'
        rw [rb] at hc'
        rw [← Option.some.inj hc']
        exact fun h => hf h.symm) _ (hpos _ aV L[k].2)
      obtain ⟨l, hl1, hl2⟩ := hl
      rw [a2] at hl2
      obtain ⟨⟨l', g1, g2⟩, _⟩ := hfin L[k] (List.getElem_mem _)
      have hl1 : (measuresOf M L[k].1.file)[(measuresOf M L[k].1.file).length - 1]? = some l := hl1
      rw [hl1] at g1
      obtain rfl := Option.some.inj g1
      rw [g2]
      exact Option.some.inj hl2
  have hlastL : ∀ z, L.getLast? = some z → z.2 = fin z := by
    intro z hz
    rw [List.getLast?_eq_getElem?] at hz
    obtain ⟨a1, a2⟩ := hLget _ z hz
    have hll : L.length = V.length := by simp [L, hel]
    have aV := List.mem_of_getElem? a1
    have ra : (V.map toRow)[L.length - 1]? = some (toRow z.1) := by rw [List.getElem?_map, a1]; rfl
    have hpz := hpos _ aV z.2
    obtain ⟨l, hl1, hl2⟩ := hlast _ _ ra (by
      intro c' hc'
      have := (List.getElem?_eq_some_iff.1 hc').1
      have h3 := (List.getElem?_eq_some_iff.1 ra).1
      rw [List.length_map] at this
      omega) _ hpz
    rw [a2] at hl2
    obtain ⟨⟨l', g1, g2⟩, _⟩ := hfin z (List.mem_of_getElem? hz)
    have hl1 : (measuresOf M z.1.file)[(measuresOf M z.1.file).length - 1]? = some l := hl1
    rw [hl1] at g1
    obtain rfl := Option.some.inj g1
    rw [g2]
    exact Option.some.inj hl2
  have hback : ∀ b ∈ L, ∃ r ∈ cs, ∃ x, ValidChord files count M r x ∧ SameChord r x b.1 := by
    intro b hb
    obtain ⟨r, hr, he⟩ := List.mem_map.1 (hLV b hb)
    obtain ⟨h1, x, h2⟩ := (mem_validChords r).1 hr
    refine ⟨r, h1, x, h2, ?_⟩
    rw [← he]
    exact ⟨rfl, rfl, rfl, (fillChord_starts r x).2 h2.2.1, rfl⟩
  refine ⟨?_, ?_, ?_, ?_, ?_⟩
  · intro c e hce
    exact hback (c, e) (List.mem_filter.1 hce).1
  · have s1 : ((L.filter fun p => lasts p.2).map fun p => (p.1.file, p.1.chord)).Sublist
        (L.map fun p => (p.1.file, p.1.chord)) := List.filter_sublist.map _
    refine s1.trans ?_
    have e1 : (L.map fun p => (p.1.file, p.1.chord)) = V.map fun c => (c.file, c.chord) := by
      have : L.map Prod.fst = V := List.map_fst_zip (by rw [hel])
      rw [← this, List.map_map]
      rfl
    rw [e1]
    show ((W.map fillChord).map _).Sublist _
    rw [List.map_map]
    exact (List.filter_sublist.trans (rowsOf_sublist _ _ _ _)).map _
  · intro r hr x hv
    have hrV : fillChord r ∈ V := List.mem_map_of_mem ((mem_validChords r).2 ⟨hr, x, hv⟩)
    obtain ⟨k, hk⟩ := List.mem_iff_getElem?.1 hrV
    have hkl := (List.getElem?_eq_some_iff.1 hk).1
    have hkL : L[k]? = some (fillChord r, ends[k]) := by
      rw [List.getElem?_zip_eq_some]
      exact ⟨hk, List.getElem?_eq_getElem (by omega)⟩
    obtain ⟨h, hh, g1, g2⟩ := filter_place (fun b => b.1.file) pos (fun b => (b.1.mc, b.1.onset.getD 0))
      (fun b => b.2) fin L (fun z hz => (hfin z hz).2) hstep hlastL _ (List.mem_of_getElem? hkL)
    refine ⟨h.1, h.2, hh, g1, congrArg Prod.fst g2, ?_⟩
    obtain ⟨y, hy, _⟩ := hVx h.1 (hLV h (List.mem_filter.1 hh).1)
    have := congrArg Prod.snd g2
    simp only [hy, (fillChord_starts r x).2 hv.2.1, Option.getD_some] at this
    rw [hy, this]
  · -- only the last one of a place is left
    intro hnd i j r r' x hij hi hj hrf hrm hv hv' hmem
    obtain ⟨⟨c, e⟩, hce, hid⟩ := List.mem_map.1 hmem
    obtain ⟨hceL, hlast'⟩ := List.mem_filter.1 hce
    have hsubW : W.Sublist cs := List.filter_sublist.trans (rowsOf_sublist _ _ _ _)
    have hrW : r ∈ W := (mem_validChords r).2 ⟨List.mem_of_getElem? hi, x, hv⟩
    have hrW' : r' ∈ W := (mem_validChords r').2 ⟨List.mem_of_getElem? hj, x, hv'⟩
    have hcr : c = fillChord r := by
      obtain ⟨q, hq, rfl⟩ := List.mem_map.1 (hLV _ hceL)
      have : q = r := List.inj_on_of_nodup_map (hnd.sublist (hsubW.map _)) hq hrW hid
      rw [this]
    -- both are in the table of valid chords, one after the other
    obtain ⟨k, hk⟩ := List.mem_iff_getElem?.1 hrW
    obtain ⟨l, hl⟩ := List.mem_iff_getElem?.1 hrW'
    have hkl : k < l := index_of_sublist hsubW (List.Nodup.of_map _ hnd) hk hl hi hj hij
    have hWV : ∀ (n : Nat) q, W[n]? = some q → V[n]? = some (fillChord q) := by
      intro n q hq
      show (W.map fillChord)[n]? = _
      rw [List.getElem?_map, hq]; rfl
    obtain ⟨n, hn⟩ := List.mem_iff_getElem?.1 hceL
    obtain ⟨hn1, hn2⟩ := hLget n _ hn
    have hVnd : (V.map fun c => (c.file, c.chord)).Nodup := by
      show ((W.map fillChord).map _).Nodup
      rw [List.map_map]
      exact hnd.sublist (hsubW.map _)
    have hnk : n = k := by
      have h1 := (List.getElem?_eq_some_iff.1 hn1).1
      have h2 := hWV k r hk
      rw [← hcr] at h2
      exact (List.getElem?_inj h1 (List.Nodup.of_map _ hVnd)).1 (hn1.trans h2.symm)
    subst hnk
    have hl2 := hWV l r' hl
    have hlV := (List.getElem?_eq_some_iff.1 hl2).1
    have hll : L.length = V.length := by simp [L, hel]
    have hnL : n + 1 < L.length := by omega
    have hst := List.isChain_iff_getElem.1 hstep n hnL
    have hnE := (List.getElem?_eq_some_iff.1 hn).2
    rw [hnE] at hst
    obtain ⟨b1, b2⟩ := hLget (n + 1) _ (List.getElem?_eq_getElem hnL)
    have hg := List.pairwise_iff_getElem.1 hVord
    have hkV : n < V.length := by omega
    have hnV : n + 1 < V.length := by omega
    have eV : V[n] = c := (List.getElem?_eq_some_iff.1 hn1).2
    have eB : V[n + 1] = L[n + 1].1 := (List.getElem?_eq_some_iff.1 b1).2
    have eR : V[l] = fillChord r' := (List.getElem?_eq_some_iff.1 hl2).2
    have o1 := hg n (n + 1) hkV hnV (by omega)
    rw [eV, eB] at o1
    have o2 : L[n + 1].1.file ≤ r'.file ∧ (L[n + 1].1.file = r'.file → L[n + 1].1.mc ≤ r'.mc ∧
        (L[n + 1].1.mc = r'.mc → L[n + 1].1.onset.getD 0 ≤ x)) := by
      have hx' : (fillChord r').onset.getD 0 = x := by rw [(fillChord_starts r' x).2 hv'.2.1]; rfl
      rcases Nat.eq_or_lt_of_le hkl with h | h
      · have e1 : L[n + 1].1 = fillChord r' := by
          rw [← eB, ← eR]; congr 1
        rw [e1, hx']
        exact ⟨Nat.le_refl _, fun _ => ⟨le_refl _, fun _ => le_refl _⟩⟩
      · have := hg (n + 1) l hnV hlV h
        rw [eB, eR, hx'] at this
        exact this
    have hcx : c.onset.getD 0 = x := by rw [hcr, (fillChord_starts r x).2 hv.2.1]; rfl
    have hcf : c.file = r.file := by rw [hcr]; rfl
    have hcm : c.mc = r.mc := by rw [hcr]; rfl
    have hbf : c.file = L[n + 1].1.file := by omega
    obtain ⟨p1, p2⟩ := o1.2 hbf
    obtain ⟨p3, p4⟩ := o2.2 (by omega)
    have hbm : L[n + 1].1.mc = c.mc := by omega
    have hbx : L[n + 1].1.onset.getD 0 = c.onset.getD 0 := by
      refine le_antisymm ?_ (p2 hbm.symm)
      rw [hcx]; exact p4 (by omega)
    obtain ⟨g1, _, _⟩ := hst.1 hbf
    have hpb := hpos _ (List.mem_of_getElem? b1) L[n + 1].2
    have hpc := hpos _ (hLV _ hceL) e
    rw [hbm, hbx, ← hbf] at hpb
    have heq : pos L[n + 1] = pos (c, e) := At.unique (hchain _ (hLV _ hceL)).toChain hpb hpc
    have g1 : e = _ := g1
    rw [g1] at hlast'
    simp [lasts, heq] at hlast'
  · -- the steps of the result
    have hres : List.IsChain (Step' (fun b => b.1.file) pos (fun b => (b.1.mc, b.1.onset.getD 0))
        (fun b => b.2) fin) (L.filter fun p => lasts p.2) ∧
        ∀ z, (L.filter fun p => lasts p.2).getLast? = some z → z.2 = fin z := by
      cases hL : L with
      | nil => exact ⟨List.isChain_nil, by simp⟩
      | cons b l =>
        rw [hL] at hstep hlastL hfin
        obtain ⟨h, t, e, _, _, _, c1, c2⟩ := filter_lasts (fun b => b.1.file) pos
          (fun b => (b.1.mc, b.1.onset.getD 0)) (fun b => b.2) fin l b (fun z hz => (hfin z hz).2) hstep hlastL
        rw [e]
        exact ⟨c1, c2⟩
    obtain ⟨hr1, hr2⟩ := hres
    rw [List.isChain_iff_getElem] at hr1
    intro k c e hk
    have hbL : (c, e) ∈ L := (List.mem_filter.1 (List.mem_of_getElem? hk)).1
    have hcV := hLV _ hbL
    obtain ⟨x, hx, _⟩ := hVx c hcV
    have hp := hpos c hcV e
    rw [hx, Option.getD_some] at hp
    obtain ⟨hk1, hk2⟩ := List.getElem?_eq_some_iff.1 hk
    have hend : (∀ c' e', (L.filter fun p => lasts p.2)[k + 1]? = some (c', e') → c.file ≠ c'.file) →
        e = fin (c, e) := by
      intro hno
      by_cases hlt : k + 1 < (L.filter fun p => lasts p.2).length
      · have := (hr1 k hlt).2
        rw [hk2] at this
        exact this (hno _ _ (List.getElem?_eq_getElem hlt))
      · refine hr2 (c, e) ?_
        rw [List.getLast?_eq_getElem?, show (L.filter fun p => lasts p.2).length - 1 = k by omega]
        exact hk
    have hnext : ∀ c' e', (L.filter fun p => lasts p.2)[k + 1]? = some (c', e') → c.file = c'.file →
        ∃ x' p', c'.onset = some x' ∧ At (measuresOf M c.file) c'.mc x' p' ∧
          e = ⟨c'.mc, some x', some (p' - pos (c, e))⟩ ∧ 0 < p' - pos (c, e) := by
      intro c' e' hk' hf
      obtain ⟨hl', hk2'⟩ := List.getElem?_eq_some_iff.1 hk'
      have hst := (hr1 k hl').1
      rw [hk2, hk2'] at hst
      obtain ⟨q1, q2⟩ := hst hf
      have hcV' := hLV _ (List.mem_filter.1 (List.mem_of_getElem? hk')).1
      obtain ⟨x', hx', _⟩ := hVx c' hcV'
      have hp' := hpos c' hcV' e'
      simp only [hx', Option.getD_some] at hp' q1
      rw [← hf] at hp'
      exact ⟨x', _, hx', hp', q1, by linarith⟩
    refine ⟨x, pos (c, e), hx, hp, ?_, ?_, ?_⟩
    · by_cases hno : ∀ c' e', (L.filter fun p => lasts p.2)[k + 1]? = some (c', e') → c.file ≠ c'.file
      · have h1 := hend hno
        obtain ⟨⟨l, _, g2⟩, g3⟩ := hfin (c, e) hbL
        rw [← h1] at g2 g3
        refine ⟨_, ?_, by rw [g2]⟩
        rw [g2] at g3
        simpa [lasts] using g3
      · push Not at hno
        obtain ⟨c', e', hk', hf⟩ := hno
        obtain ⟨x', p', _, _, h1, h2⟩ := hnext c' e' hk' hf
        exact ⟨_, h2, by rw [h1]⟩
    · intro c' e' hk' hf
      obtain ⟨x', p', h1, h2, h3, _⟩ := hnext c' e' hk' hf
      exact ⟨x', p', h1, h2, h3⟩
    · intro hno
      have h1 := hend hno
      obtain ⟨g, _⟩ := hfin (c, e) hbL
      rw [← h1] at g
      exact g

end

/-! ### Cases -/

/-- Three files; the second one is left out. -/
def exFiles : List CorpusFile := [⟨0, "a.tsv"⟩, ⟨1, "c11n08_Rondeau.tsv"⟩, ⟨2, "b.tsv"⟩]

/-- A piece with a repeat of its first two measures and a first and a second ending, and two short pieces. -/
def exMeasureRows : List (RawMeasure ℚ) :=
  [⟨0, 1, 1, 0, [2]⟩, ⟨0, 2, 1, 0, [3, 4]⟩, ⟨0, 3, 1, 0, [1]⟩, ⟨0, 4, 1, 0, [5]⟩, ⟨0, 5, 1, 0, [-1]⟩,
    ⟨1, 1, 1, 0, [1]⟩, ⟨2, 1, 1, 0, [2]⟩, ⟨2, 2, 1, 0, [1, -1]⟩]

/-- Two tied notes over the second ending, a note of the first ending, a note after the end of its measure, a
note with an onset in the old column, and a note of the piece which is left out. -/
def exNoteRows : List RawNote :=
  [⟨0, 0, 2, some (1/2), none, 1/2, 60, 1, 1, false, some 1⟩,
    ⟨0, 1, 3, some 0, none, 1, 60, 1, 1, false, none⟩,
    ⟨0, 2, 4, some 0, none, 1/4, 60, 1, 1, false, some (-1)⟩,
    ⟨0, 3, 4, some 1, none, 1/4, 62, 1, 1, false, none⟩,
    ⟨1, 0, 1, some 0, none, 1, 60, 1, 1, false, none⟩,
    ⟨2, 0, 1, none, some (1/2), 1, 64, 1, 1, false, none⟩]

/-- Two chords at one place, a chord of the first ending, and a chord without a numeral. -/
def exChordRows : List RawChord :=
  [⟨0, 0, 1, some 0, none, 1, some "I"⟩, ⟨0, 1, 2, some (1/2), none, 1, some "V"⟩,
    ⟨0, 2, 2, some (1/2), none, 1, some "vi"⟩, ⟨0, 3, 3, some 0, none, 1, some "I"⟩,
    ⟨0, 4, 4, some 0, none, 1, some "@none"⟩, ⟨0, 5, 5, some 0, none, 1, some "I"⟩,
    ⟨2, 0, 1, some (1/2), none, 1, some "I"⟩]

theorem exSound : Sound exFiles exMeasureRows exNoteRows none := by
  have hrows : (removeRepeats (rowsOf (fun m : RawMeasure ℚ => m.file) exFiles none exMeasureRows) false) =
      [⟨⟨1, 1, 0, some 2⟩, 0⟩, ⟨⟨2, 1, 0, some 4⟩, 0⟩, ⟨⟨3, 1, 0, some 1⟩, 0⟩, ⟨⟨4, 1, 0, some 5⟩, 0⟩,
        ⟨⟨5, 1, 0, none⟩, 0⟩, ⟨⟨1, 1, 0, some 2⟩, 2⟩, ⟨⟨2, 1, 0, none⟩, 2⟩] := by decide +kernel
  have htab : (removeRepeats (rowsOf (fun m : RawMeasure ℚ => m.file) exFiles none exMeasureRows) true) =
      [⟨⟨1, 1, 0, some 2⟩, 0⟩, ⟨⟨2, 1, 0, some 4⟩, 0⟩, ⟨⟨4, 1, 0, some 5⟩, 0⟩,
        ⟨⟨5, 1, 0, none⟩, 0⟩, ⟨⟨1, 1, 0, some 2⟩, 2⟩, ⟨⟨2, 1, 0, none⟩, 2⟩] := by decide +kernel
  have hcl : CleanRows exMeasureRows := ⟨by decide +kernel, by decide +kernel, by decide +kernel⟩
  have hac : Acyclic (removeRepeats (rowsOf (fun m : RawMeasure ℚ => m.file) exFiles none exMeasureRows)
      false) := by
    refine ⟨fun _ mc => if mc = 3 then 0 else mc.toNat, ?_⟩
    intro m hm n hn
    rw [hrows] at hm
    have hall : ∀ m ∈ ([⟨⟨1, 1, 0, some 2⟩, 0⟩, ⟨⟨2, 1, 0, some 4⟩, 0⟩, ⟨⟨3, 1, 0, some 1⟩, 0⟩,
        ⟨⟨4, 1, 0, some 5⟩, 0⟩, ⟨⟨5, 1, 0, none⟩, 0⟩, ⟨⟨1, 1, 0, some 2⟩, 2⟩,
        ⟨⟨2, 1, 0, none⟩, 2⟩] : List (FileMeasure ℚ)), (m.next.map (fun n =>
        decide ((if m.mc = 3 then 0 else m.mc.toNat) < (if n = 3 then 0 else n.toNat)))).getD true = true := by
      decide +kernel
    have := hall m hm
    rw [hn] at this
    simpa using this
  refine ⟨by decide, hcl, by decide +kernel, by decide +kernel, hac, ?_, by decide +kernel, by decide +kernel,
    by decide +kernel, by decide +kernel, by decide +kernel⟩
  intro m hm n hn
  have hsev : SeveralFiles (rowsOf (fun m : RawMeasure ℚ => m.file) exFiles none exMeasureRows) :=
    several (a := ⟨0, 1, 1, 0, [2]⟩) (b := ⟨2, 1, 1, 0, [2]⟩) (clean_rowsOf hcl _ _) (by decide +kernel)
      (by decide +kernel) (by decide)
  have hmem := (C53_reachable_partial _ hsev hac m).2 hm
  rw [htab] at hmem
  have hall : ∀ m ∈ ([⟨⟨1, 1, 0, some 2⟩, 0⟩, ⟨⟨2, 1, 0, some 4⟩, 0⟩,
      ⟨⟨4, 1, 0, some 5⟩, 0⟩, ⟨⟨5, 1, 0, none⟩, 0⟩, ⟨⟨1, 1, 0, some 2⟩, 2⟩,
      ⟨⟨2, 1, 0, none⟩, 2⟩] : List (FileMeasure ℚ)), (m.next.map (fun n => decide (m.mc < n))).getD true =
        true := by decide +kernel
  have := hall m hmem
  rw [hn] at this
  simpa using this

/-- The hypotheses hold for these tables. -/
example : SoundChords exFiles (some exChordRows) none ∧ TwoFiles exFiles none ∧
    ChordsInOrder exChordRows ∧
    (∃ a ∈ exChordRows, ∃ b ∈ exChordRows, a.file ≠ b.file ∧
      (∃ x, ValidChord exFiles none (table exFiles exMeasureRows none) a x) ∧
      ∃ y, ValidChord exFiles none (table exFiles exMeasureRows none) b y) := by
  have htab : table exFiles exMeasureRows none =
      [⟨⟨1, 1, 0, some 2⟩, 0⟩, ⟨⟨2, 1, 0, some 4⟩, 0⟩, ⟨⟨4, 1, 0, some 5⟩, 0⟩,
        ⟨⟨5, 1, 0, none⟩, 0⟩, ⟨⟨1, 1, 0, some 2⟩, 2⟩, ⟨⟨2, 1, 0, none⟩, 2⟩] := by decide +kernel
  refine ⟨?_, ⟨⟨0, "a.tsv"⟩, by decide, ⟨2, "b.tsv"⟩, by decide, by decide⟩, ?_, ?_⟩
  · intro cs hcs
    injection hcs with hcs
    subst hcs
    exact ⟨by decide +kernel, fun n h => by cases h⟩
  · have key : exChordRows.Pairwise (fun a b => a.file ≤ b.file ∧ (a.file = b.file → a.mc ≤ b.mc ∧
        (a.mc = b.mc → a.onset.getD 0 ≤ b.onset.getD 0))) := by decide +kernel
    have hon : ∀ c ∈ exChordRows, c.onset ≠ none := by decide +kernel
    refine key.imp_of_mem ?_
    intro a b ha hb ⟨h1, h2⟩
    refine ⟨h1, fun hf => ⟨(h2 hf).1, fun hmc x y hx hy => ?_⟩⟩
    have h3 := (h2 hf).2 hmc
    rcases hx with hx | ⟨hx, _⟩
    · rcases hy with hy | ⟨hy, _⟩
      · rw [hx, hy] at h3; exact h3
      · exact absurd hy (hon b hb)
    · exact absurd hx (hon a ha)
  · refine ⟨⟨0, 0, 1, some 0, none, 1, some "I"⟩, by decide +kernel,
      ⟨2, 0, 1, some (1/2), none, 1, some "I"⟩, by decide +kernel, by decide, ⟨0, ?_⟩, ⟨1/2, ?_⟩⟩
    · refine ⟨⟨⟨0, "a.tsv"⟩, by decide, rfl⟩, .inl rfl, ?_, "I", rfl, by decide⟩
      rw [htab]
      exact ⟨⟨⟨1, 1, 0, some 2⟩, 0⟩, by simp, rfl, rfl, by norm_num, by norm_num⟩
    · refine ⟨⟨⟨2, "b.tsv"⟩, by decide, rfl⟩, .inl rfl, ?_, "I", rfl, by decide⟩
      rw [htab]
      exact ⟨⟨⟨1, 1, 0, some 2⟩, 2⟩, by simp, rfl, rfl, by norm_num, by norm_num⟩

/-- The tied notes become one which ends in the second ending; notes at wrong places are left out. -/
example : ((loadCleanCorpus id 16 exFiles exMeasureRows exNoteRows (some exChordRows) none).map
      fun out => out.notes.map fun n => (n.file, n.note, n.dur, n.offMc, n.offBeat)) =
    .ok [(0, 0, 3/4, 4, 1/4), (2, 0, 1, 2, 1/2)] := by decide +kernel

/-- Of the two chords at one place, the second one is left, and lasts until the next chord of its file. -/
example : ((loadCleanCorpus id 16 exFiles exMeasureRows exNoteRows (some exChordRows) none).map
      fun out => out.chords.map fun l => l.map fun p => (p.1.file, p.1.chord, p.2)) =
    .ok (some [(0, 0, ⟨2, some (1/2), some (3/2)⟩), (0, 2, ⟨5, some 0, some (3/2)⟩),
      (0, 5, ⟨5, some 1, some 1⟩), (2, 0, ⟨2, some 1, some (3/2)⟩)]) := by decide +kernel

/-- With `count=1` there is an error; with `count=3`, too, as there is a file without chords. -/
example : (loadCleanCorpus id 16 exFiles exMeasureRows exNoteRows (some exChordRows) (some 1)).map
      (fun out => out.notes.length) = .error .indexError ∧
    (loadCleanCorpus id 16 exFiles exMeasureRows exNoteRows (some exChordRows) (some 3)).map
      (fun out => out.notes.length) = .error .keyError ∧
    (loadCleanCorpus id 16 exFiles exMeasureRows exNoteRows none (some 3)).map
      (fun out => out.notes.length) = .ok 2 := by decide +kernel

/-- **C98, negation.** If only one file has chords, its last chord has no duration, and no next place. -/
theorem C98_fails_single_file :
    ((loadCleanCorpus id 16 exFiles exMeasureRows exNoteRows
        (some (exChordRows.filter fun c => c.file == 0)) none).map
      fun out => out.chords.map fun l => l.map fun p => (p.1.file, p.1.chord, p.2.duration)) =
    .ok (some [(0, 0, some (3/2)), (0, 2, some (3/2)), (0, 5, none)]) := by decide +kernel

end Verif.CorpusReading
