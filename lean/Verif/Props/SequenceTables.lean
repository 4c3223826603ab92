import Verif.Props.ChordTraining
import Verif.Props.KeyTraining
import Verif.Props.TablePiece
import Verif.Props.KeyChange
import Verif.Props.LabelTable

/-!
# C150: which pieces the chord sequence and key models can be trained on, and what they are trained on
-/

namespace Verif.SequenceTables

open Verif.Vectors Verif.KeyDatasets Verif.ChordTraining Verif.KeyChange

/-- At most `n` fifths apart. -/
def Near (n p tonic : Int) : Prop := -n ≤ p - tonic ∧ p - tonic ≤ n

/-- The root and the bass are near a tonic. -/
def ChordNear (n : Int) (c : Chord ℚ) (tonic : Int) : Prop := Near n c.root tonic ∧ Near n c.bass tonic

/-- A chord as it is read from a table. -/
structure Spelled (c : Chord ℚ) : Prop where
  pitchType : c.pitchType = .tpc
  inversion : 0 ≤ c.inversion ∧ c.inversion < inversionCount c.chordType
  onset : 0 ≤ c.onsetLevel ∧ c.onsetLevel < 4
  offset : 0 ≤ c.offsetLevel ∧ c.offsetLevel < 4

/-- Pieces as they are read from tables. -/
structure SpelledPiece (x : KeyedPiece) : Prop where
  valid : KeyedPiece.Valid x
  chords : ∀ c ∈ x.chords, Spelled c
  keys : ∀ k ∈ x.keys, k.tonicType = .tpc

/-! ## Either a result or a `ValueError` -/

/-- `f` gives a result if `P`, and raises a `ValueError` otherwise. -/
def Accepts {α : Type} (r : Py α) (P : Prop) : Prop := (P → ∃ a, r = .ok a) ∧ (¬ P → r = .error .valueError)

theorem Accepts.ok_iff {α : Type} {r : Py α} {P : Prop} (h : Accepts r P) : (∃ a, r = .ok a) ↔ P := by
  constructor
  · rintro ⟨a, ha⟩
    by_contra hp
    rw [h.2 hp] at ha
    cases ha
  · exact h.1

theorem Accepts.bind {α β : Type} {r : Py α} {f : α → Py β} {P Q : Prop} (h : Accepts r P)
    (hf : ∀ a, r = .ok a → Accepts (f a) Q) : Accepts (r >>= f) (P ∧ Q) := by
  by_cases hp : P
  · obtain ⟨a, ha⟩ := h.1 hp
    have := hf a ha
    rw [ha]
    refine ⟨fun hq => ?_, fun hq => ?_⟩
    · exact this.1 hq.2
    · exact this.2 fun q => hq ⟨hp, q⟩
  · rw [h.2 hp]
    exact ⟨fun hq => absurd hq.1 hp, fun _ => rfl⟩

theorem Accepts.congr {α : Type} {r : Py α} {P Q : Prop} (h : Accepts r P) (hpq : P ↔ Q) : Accepts r Q :=
  ⟨fun q => h.1 (hpq.2 q), fun q => h.2 fun p => q (hpq.1 p)⟩

theorem accepts_ok {α : Type} (a : α) : Accepts (.ok a : Py α) True := ⟨fun _ => ⟨a, rfl⟩, fun h => absurd trivial h⟩

theorem accepts_mapM {α β : Type} {f : α → Py β} {P : α → Prop} (l : List α) (h : ∀ a ∈ l, Accepts (f a) (P a)) :
    Accepts (l.mapM f) (∀ a ∈ l, P a) := by
  induction l with
  | nil => exact (accepts_ok []).congr (by simp)
  | cons a l ih =>
    rw [List.mapM_cons]
    refine (Accepts.bind (Q := ∀ a ∈ l, P a) (h a (by simp)) fun b _ => ?_).congr (by simp)
    exact (Accepts.bind (Q := True) (ih fun x hx => h x (by simp [hx])) fun bs _ => accepts_ok _).congr (by simp)

/-! ## Chords -/

/-- The largest distance that can be encoded. -/
def bound (pad : Bool) : Int := if pad then 19 else 14

theorem relative_accepts (p t : Int) (pad : Bool) :
    Accepts (absoluteToRelative p t .tpc false pad) (Near (bound pad) p t) := by
  have hb : relBound false pad = bound pad := by cases pad <;> rfl
  rw [C05_tpc, hb]
  refine ⟨fun h => ?_, fun h => ?_⟩
  · rw [if_pos (show -bound pad ≤ p - t ∧ p - t ≤ bound pad from h)]; exact ⟨_, rfl⟩
  · rw [if_neg (show ¬ (-bound pad ≤ p - t ∧ p - t ≤ bound pad) from h)]

theorem oneHot_accepts {n : Nat} {i : Int} (h0 : 0 ≤ i) (h1 : i < n) : Accepts (oneHot n i) True := by
  rw [oneHot_ok h0 h1]
  exact accepts_ok _

theorem relative_range {p t r : Int} {pad : Bool} (h : absoluteToRelative p t .tpc false pad = .ok r) :
    0 ≤ r ∧ r < relPitches .tpc pad := by
  have hb : relBound false pad = bound pad := by cases pad <;> rfl
  have hr : (relPitches .tpc pad : Int) = 2 * bound pad + 1 := by cases pad <;> decide
  rw [C05_tpc, hb] at h
  split at h
  · injection h with h
    omega
  · cases h

theorem inversions_le (t : ChordType) : inversionCount t ≤ 4 := by cases t <;> decide

/-- A chord can be encoded relative to a tonic iff its root and its bass are near it. -/
theorem toVec_accepts {c : Chord ℚ} (hc : Spelled c) (rel : Option Key) (pad : Bool) (red : Reduction) :
    Accepts (c.toVec rel pad red) (ChordNear (bound pad) c (c.tonicFor rel)) := by
  have hi := hc.inversion
  have h4 := inversions_le c.chordType
  rw [Chord.toVec]
  simp only [hc.pitchType]
  refine (Accepts.bind (Q := Near (bound pad) c.bass (c.tonicFor rel)) (relative_accepts _ _ _) fun r hr => ?_)
  obtain ⟨r0, r1⟩ := relative_range hr
  refine (Accepts.bind (P := True) (Q := Near (bound pad) c.bass (c.tonicFor rel)) (oneHot_accepts r0 r1) fun v _ => ?_).congr
    (by simp)
  refine (Accepts.bind (P := True) (Q := Near (bound pad) c.bass (c.tonicFor rel)) (oneHot_accepts (by
    cases red c.chordType <;> decide) (by cases red c.chordType <;> decide)) fun v _ => ?_).congr (by simp)
  refine (Accepts.bind (Q := True) (relative_accepts _ _ _) fun b hb => ?_).congr (by simp)
  obtain ⟨b0, b1⟩ := relative_range hb
  refine (Accepts.bind (P := True) (Q := True) (oneHot_accepts b0 b1) fun v _ => ?_).congr (by simp)
  refine (Accepts.bind (P := True) (Q := True) (oneHot_accepts hi.1 (by omega)) fun v _ => ?_).congr (by simp)
  refine (Accepts.bind (P := True) (Q := True) (oneHot_accepts hc.onset.1 hc.onset.2) fun v _ => ?_).congr (by simp)
  refine (Accepts.bind (P := True) (Q := True) (oneHot_accepts hc.offset.1 hc.offset.2) fun v _ => ?_).congr (by simp)
  exact accepts_ok _

theorem changeVector_tpc {p k : Key} (hp : p.tonicType = .tpc) :
    ∃ v, p.changeVector k = .ok v ∧ v.length = keyChangeVectorLength .tpc false := by
  by_cases h : ∃ r, Interval p k r
  · obtain ⟨r, hr⟩ := h
    obtain ⟨v, h1, h2, -⟩ := C42_vector p k r hr
    exact ⟨v, h1, by rw [h2, hp]⟩
  · refine ⟨_, (changeVector_out h).2, ?_⟩
    rw [List.length_append, hot_length, zeros_length]
    rfl

theorem row_accepts {c : Chord ℚ} (hc : Spelled c) (change : Option (Key × Key))
    (hk : ∀ p k, change = some (p, k) → p.tonicType = .tpc) (pad : Bool) :
    Accepts (sequenceRow c .tpc change pad) (ChordNear (bound pad) c c.keyTonic) := by
  rw [sequenceRow]
  refine (Accepts.bind (Q := True) (toVec_accepts hc none pad noReduction) fun v hv => ?_).congr (by
    simp [Chord.tonicFor])
  cases change with
  | none => exact accepts_ok _
  | some x =>
    obtain ⟨p, k⟩ := x
    obtain ⟨kv, h1, h2⟩ := changeVector_tpc (k := k) (hk p k rfl)
    refine (Accepts.bind (P := True) (Q := True) (by rw [h1]; exact accepts_ok _) fun w hw => ?_).congr (by simp)
    rw [h1] at hw
    injection hw with hw
    subst hw
    rw [if_neg (by omega)]
    exact accepts_ok _

theorem index_accepts {c : Chord ℚ} (hc : Spelled c) :
    Accepts (c.oneHotIndex true true false noReduction) (Near 14 c.root c.keyTonic) := by
  rw [Chord.oneHotIndex]
  simp only [hc.pitchType]
  refine (Accepts.bind (Q := True) (relative_accepts _ _ false) fun r hr => ?_).congr (by simp [bound])
  obtain ⟨r0, r1⟩ := relative_range hr
  have h := (C01_accepts_iff c.chordType r .tpc c.inversion true true false noReduction).1.2 ⟨⟨r0, r1⟩, fun _ => by
    have := hc.inversion
    rw [specInversions_eq]
    exact this⟩
  exact ⟨fun _ => h, fun h => absurd trivial h⟩

/-! ## Segments -/

theorem segment_mem {prevs : List (Option Key)} {keys : List Key} {starts stops : List Nat} {s : KeySegment}
    (h : s ∈ keySegments prevs keys starts stops) : ∃ j : Nat, prevs[j]? = some s.prev ∧ keys[j]? = some s.key ∧
      starts[j]? = some s.start ∧ stops[j]? = some s.stop := by
  obtain ⟨j, hj⟩ := List.getElem?_of_mem h
  simp only [keySegments, List.getElem?_map, Option.map_eq_some_iff] at hj
  obtain ⟨⟨⟨⟨p, k⟩, a⟩, b⟩, h1, rfl⟩ := hj
  rw [List.getElem?_zip_eq_some] at h1
  obtain ⟨h1, h4⟩ := h1
  rw [List.getElem?_zip_eq_some] at h1
  obtain ⟨h1, h3⟩ := h1
  rw [List.getElem?_zip_eq_some] at h1
  exact ⟨j, h1.1, h1.2, h3, h4⟩

theorem segment_bounds {prevs : List (Option Key)} {keys : List Key} {a n : Nat} {cs : List Nat} {s : KeySegment}
    (hp : (a :: cs ++ [n]).Pairwise (· < ·)) (h : s ∈ keySegments prevs keys (a :: cs) (cs ++ [n])) :
    a ≤ s.start ∧ s.start < s.stop ∧ s.stop ≤ n := by
  obtain ⟨j, -, -, h1, h2⟩ := segment_mem h
  have hj := (List.getElem?_eq_some_iff.1 h2).1
  rw [List.length_append, List.length_singleton] at hj
  have e1 : (a :: cs ++ [n])[j]? = some s.start := by rw [List.getElem?_append_left (by simpa using hj)]; exact h1
  have e2 : (a :: cs ++ [n])[j + 1]? = some s.stop := by simpa using h2
  have e3 : (a :: cs ++ [n])[cs.length + 1]? = some n := by simp
  obtain ⟨l1, e1⟩ := List.getElem?_eq_some_iff.1 e1
  obtain ⟨l2, e2⟩ := List.getElem?_eq_some_iff.1 e2
  obtain ⟨l3, e3⟩ := List.getElem?_eq_some_iff.1 e3
  have hpg := List.pairwise_iff_getElem.1 hp
  refine ⟨?_, ?_, ?_⟩
  · by_cases hz : j = 0
    · subst hz
      exact Nat.le_of_eq e1
    · have := hpg 0 j (by omega) l1 (by omega)
      rw [e1] at this
      exact Nat.le_of_lt this
  · have := hpg j (j + 1) l1 l2 (by omega)
    rw [e1, e2] at this
    exact this
  · by_cases hz : j + 1 = cs.length + 1
    · have : s.stop = n := by
        have : (a :: cs ++ [n])[j + 1] = (a :: cs ++ [n])[cs.length + 1] := by congr 1
        rw [e2, e3] at this
        exact this
      omega
    · have := hpg (j + 1) (cs.length + 1) l2 l3 (by omega)
      rw [e2, e3] at this
      omega

theorem rows_accept {pad : Bool} {s : KeySegment} {chords : List (Chord ℚ)} (hc : ∀ c ∈ chords, Spelled c)
    (hs : s.start < s.stop) (hl : s.stop ≤ chords.length) (hk : ∀ p, s.prev = some p → p.tonicType = .tpc) :
    Accepts (s.rows chords .tpc pad)
      (∀ (i : Nat) c, s.start ≤ i → i < s.stop → chords[i]? = some c → ChordNear (bound pad) c c.keyTonic) := by
  have hlen : (slice chords s.start s.stop).length = s.stop - s.start := by
    simp only [slice, List.length_take, List.length_drop]; omega
  have hget : ∀ j, j < s.stop - s.start → (slice chords s.start s.stop)[j]? = chords[s.start + j]? := by
    intro j hj
    rw [slice, List.getElem?_take_of_lt hj, List.getElem?_drop]
  rw [KeySegment.rows]
  simp only
  rw [if_neg (by
    rw [List.isEmpty_iff]
    intro h
    rw [h] at hlen
    simp at hlen
    omega)]
  refine (accepts_mapM (P := fun x => ChordNear (bound pad) x.1 x.1.keyTonic) _ ?_).congr ?_
  · rintro ⟨c, j⟩ hx
    have hm : c ∈ chords := by
      have h1 := List.fst_mem_of_mem_zipIdx hx
      rw [slice] at h1
      exact List.mem_of_mem_drop (List.mem_of_mem_take h1)
    refine row_accepts (hc c hm) _ ?_ pad
    intro p k h
    unfold KeySegment.changeAt at h
    split at h
    · obtain ⟨q, hq, e⟩ := Option.map_eq_some_iff.1 h
      injection e with e _
      subst e
      exact hk q hq
    · cases h
  · constructor
    · intro h i c h1 h2 h3
      refine h (c, i - s.start) ?_
      rw [List.mem_iff_getElem?]
      refine ⟨i - s.start, ?_⟩
      rw [List.getElem?_zipIdx, hget _ (by omega), show s.start + (i - s.start) = i by omega, h3]
      simp
    · rintro h ⟨c, j⟩ hx
      obtain ⟨i, hi⟩ := List.getElem?_of_mem hx
      rw [List.getElem?_zipIdx] at hi
      obtain ⟨c', h1, e⟩ := Option.map_eq_some_iff.1 hi
      injection e with e _
      subst e
      have hil : i < s.stop - s.start := by rw [← hlen]; exact (List.getElem?_eq_some_iff.1 h1).1
      rw [hget i hil] at h1
      exact h (s.start + i) c' (by omega) (by omega) h1

theorem segments_accept {pad : Bool} {chords : List (Chord ℚ)} (hc : ∀ c ∈ chords, Spelled c) {n a : Nat} {cs : List Nat}
    {k : Key} {ks : List Key} (hn : n ≤ chords.length) (hlen : ks.length = cs.length)
    (hp : (a :: cs ++ [n]).Pairwise (· < ·)) (hk : ∀ l ∈ k :: ks, l.tonicType = .tpc) :
    Accepts ((keySegments (none :: (k :: ks).dropLast.map some) (k :: ks) (a :: cs) (cs ++ [n])).mapM
        fun s => s.rows chords .tpc pad)
      (∀ (i : Nat) c, a ≤ i → i < n → chords[i]? = some c → ChordNear (bound pad) c c.keyTonic) := by
  have main := accepts_mapM (f := fun s => s.rows chords .tpc pad)
    (P := fun s => ∀ (i : Nat) c, s.start ≤ i → i < s.stop → chords[i]? = some c → ChordNear (bound pad) c c.keyTonic)
    (keySegments (none :: (k :: ks).dropLast.map some) (k :: ks) (a :: cs) (cs ++ [n])) (by
      intro s hs
      obtain ⟨-, b2, b3⟩ := segment_bounds hp hs
      refine rows_accept hc b2 (by omega) ?_
      intro p hpv
      obtain ⟨j, h1, -⟩ := segment_mem hs
      rw [hpv] at h1
      match j with
      | 0 => simp at h1
      | j + 1 =>
        rw [List.getElem?_cons_succ, List.getElem?_map] at h1
        obtain ⟨q, hq, e⟩ := Option.map_eq_some_iff.1 h1
        injection e with e
        subst e
        exact hk _ (List.dropLast_subset _ (List.mem_of_getElem? hq)))
  refine main.congr ⟨?_, ?_⟩
  · intro h
    obtain ⟨R, hR⟩ := main.1 h
    obtain ⟨-, f2⟩ := segments_inv chords .tpc n hn cs a none k ks R hlen hp hR
    intro i c h1 h2 h3
    obtain ⟨c', row, e1, -, e3⟩ := f2 i h1 h2
    rw [h3] at e1
    injection e1 with e1
    subst e1
    rw [sequenceRow] at e3
    obtain ⟨v, hv, -⟩ := bind_ok e3
    exact (toVec_accepts (hc c (List.mem_of_getElem? h3)) none pad noReduction).ok_iff.1 ⟨v, hv⟩
  · intro h s hs
    obtain ⟨b1, -, b3⟩ := segment_bounds hp hs
    intro i c h1 h2 h3
    exact h i c (by omega) (by omega) h3

theorem valid_pairwise {x : KeyedPiece} (hx : KeyedPiece.Valid x) {cs : List Nat} (hc : x.keyChanges = 0 :: cs) :
    (0 :: cs ++ [x.chords.length]).Pairwise (· < ·) := by
  have hinc := hx.increasing
  have hch := hx.chords
  rw [hc] at hinc hch
  rw [List.pairwise_append]
  refine ⟨hinc, by simp, ?_⟩
  intro a ha b hb
  have : b = x.chords.length := by simpa using hb
  have := hch a ha
  omega

theorem get_zero {k : Key} {ks : List Key} : pyGet (k :: ks) 0 = .ok k := rfl

/-! ## The chord sequence dataset -/

theorem chordPiece_accepts {x : KeyedPiece} (hx : SpelledPiece x) :
    Accepts (chordPiece x) (∀ c ∈ x.chords, ChordNear 14 c c.keyTonic) := by
  obtain ⟨cs, k, ks, hc, hk, hlen⟩ := valid_cons hx.valid
  have hpw := valid_pairwise hx.valid hc
  have hkt := hx.keys
  rw [hk] at hkt
  have hfirst : k.tonicType = .tpc := hkt k (by simp)
  rw [chordPiece, hk, hc, get_zero]
  simp only [List.drop_succ_cons, List.drop_zero]
  show Accepts (_ >>= _) _
  refine (Accepts.bind (P := True) (Q := ∀ c ∈ x.chords, ChordNear 14 c c.keyTonic) (accepts_ok _) fun k' hk' => ?_).congr
    (by simp)
  injection hk' with hk'
  subst hk'
  rw [hfirst]
  have hseg := segments_accept (pad := false) hx.chords (Nat.le_refl _) hlen hpw hkt
  refine (Accepts.bind (Q := ∀ c ∈ x.chords, Near 14 c.root c.keyTonic) hseg fun R hR => ?_).congr ?_
  · refine (Accepts.bind (Q := True) (accepts_mapM x.chords fun c hcm => index_accepts (hx.chords c hcm))
      fun ts hts => ?_).congr (by simp)
    obtain ⟨m1, -⟩ := mapM_inv _ _ _ hR
    obtain ⟨-, f2⟩ := segments_inv x.chords .tpc x.chords.length (Nat.le_refl _) cs 0 none k ks R hlen hpw hR
    obtain ⟨f1, -⟩ := segments_inv x.chords .tpc x.chords.length (Nat.le_refl _) cs 0 none k ks R hlen hpw hR
    have hne : R ≠ [] := by
      intro h
      rw [h] at m1
      simp [keySegments] at m1
    have hw : sameWidth R.flatten = true := by
      refine sameWidth_of (w := width .tpc .tpc) ?_
      intro r hr
      obtain ⟨i, hi⟩ := List.getElem?_of_mem hr
      have hil : i < x.chords.length := by
        have := (List.getElem?_eq_some_iff.1 hi).1
        omega
      obtain ⟨c, row, e1, e2, e3⟩ := f2 i (by omega) hil
      rw [Nat.sub_zero, hi] at e2
      injection e2 with e2
      subst e2
      rw [row_length e3, (hx.chords c (List.mem_of_getElem? e1)).pitchType]
      rfl
    rw [if_neg (by simp [hne, hw])]
    exact accepts_ok _
  · constructor
    · rintro ⟨h, -⟩ c hcm
      obtain ⟨i, hi⟩ := List.getElem?_of_mem hcm
      exact h i c (by omega) (List.getElem?_eq_some_iff.1 hi).1 hi
    · intro h
      exact ⟨fun i c _ _ hi => h c (List.mem_of_getElem? hi), fun c hcm => (h c hcm).1⟩

/-- C150: the dataset of the chord sequence model can be made iff the root and the bass of every chord of all pieces are at
most 14 fifths from the tonic of the chord; otherwise making it is a `ValueError`. -/
theorem C150_chords {pieces : List KeyedPiece} (hp : ∀ x ∈ pieces, SpelledPiece x) :
    ((∃ d, chordSeqData pieces = .ok d) ↔ ∀ x ∈ pieces, ∀ c ∈ x.chords,
      (-14 ≤ c.root - c.keyTonic ∧ c.root - c.keyTonic ≤ 14) ∧ (-14 ≤ c.bass - c.keyTonic ∧ c.bass - c.keyTonic ≤ 14)) ∧
    ((∃ x ∈ pieces, ∃ c ∈ x.chords, ¬ ((-14 ≤ c.root - c.keyTonic ∧ c.root - c.keyTonic ≤ 14) ∧
      (-14 ≤ c.bass - c.keyTonic ∧ c.bass - c.keyTonic ≤ 14))) → chordSeqData pieces = .error .valueError) := by
  have h : Accepts (chordSeqData pieces) (∀ x ∈ pieces, ∀ c ∈ x.chords, ChordNear 14 c c.keyTonic) := by
    rw [chordSeqData]
    exact (Accepts.bind (Q := True) (accepts_mapM pieces fun x hx => chordPiece_accepts (hp x hx))
      fun l _ => accepts_ok _).congr (by simp)
  refine ⟨h.ok_iff, ?_⟩
  rintro ⟨x, hx, c, hc, hn⟩
  exact h.2 fun hall => hn (hall x hx c hc)

/-! ## The key transition dataset -/

theorem replacement_accepts {s : KeySegment} {chords : List (Chord ℚ)} (hc : ∀ c ∈ chords, Spelled c)
    (hl : s.stop < chords.length) :
    Accepts (s.replacement chords .tpc) (∀ c, chords[s.stop]? = some c → ChordNear 19 c s.key.relativeTonic) := by
  have hget : pyGet chords (s.stop : Int) = .ok chords[s.stop] := by
    exact pyGet_ofNat _ _ _ (List.getElem?_eq_getElem hl)
  rw [KeySegment.replacement]
  refine (Accepts.bind (P := True) (Q := ∀ c, chords[s.stop]? = some c → ChordNear 19 c s.key.relativeTonic)
    (by rw [hget]; exact accepts_ok _) fun c hcg => ?_).congr (by simp)
  rw [hget] at hcg
  injection hcg with hcg
  subst hcg
  refine (Accepts.bind (Q := True) (toVec_accepts (hc _ (List.getElem_mem hl)) (some s.key) true noReduction)
    fun v _ => accepts_ok _).congr ?_
  rw [List.getElem?_eq_getElem hl]
  simp only [and_true, Option.some.injEq, forall_eq']
  exact Iff.rfl

/-- The first chord of each later key is near the key before it. -/
def ChangesNear (x : KeyedPiece) : Prop :=
  ∀ (j n : Nat) c k, x.keyChanges[j + 1]? = some n → x.chords[n]? = some c → x.keys[j]? = some k →
    ChordNear 19 c k.relativeTonic

theorem transitionPiece_accepts {x : KeyedPiece} (hx : SpelledPiece x) :
    Accepts (transitionPiece x) ((∀ c ∈ x.chords, ChordNear 19 c c.keyTonic) ∧ ChangesNear x) := by
  obtain ⟨cs, k, ks, hc, hk, hlen⟩ := valid_cons hx.valid
  have hpw := valid_pairwise hx.valid hc
  have hkt := hx.keys
  rw [hk] at hkt
  have hfirst : k.tonicType = .tpc := hkt k (by simp)
  rw [transitionPiece, hk, hc, get_zero]
  simp only [List.drop_succ_cons, List.drop_zero]
  show Accepts (_ >>= _) _
  refine (Accepts.bind (P := True) (Q := (∀ c ∈ x.chords, ChordNear 19 c c.keyTonic) ∧ ChangesNear x) (accepts_ok _)
    fun k' hk' => ?_).congr (by simp)
  injection hk' with hk'
  subst hk'
  rw [hfirst]
  have hseg := segments_accept (pad := true) hx.chords (Nat.le_refl _) hlen hpw hkt
  refine (Accepts.bind (Q := ChangesNear x) hseg fun R hR => ?_).congr ?_
  · refine (Accepts.bind (Q := True) (accepts_mapM (P := fun sr => ∀ c, x.chords[sr.1.stop]? = some c →
      ChordNear 19 c sr.1.key.relativeTonic) _ ?_) fun ts hts => accepts_ok _).congr ?_
    · rintro ⟨s, r⟩ hsr
      have hs := (List.of_mem_zip hsr).1
      obtain ⟨-, b2, b3⟩ := segment_bounds hpw hs
      simp only [KeySegment.replacementOrZeros]
      by_cases hstop : s.stop = x.chords.length
      · rw [if_neg (by simp [hstop])]
        obtain ⟨i, hi⟩ := List.getElem?_of_mem hsr
        rw [List.getElem?_zip_eq_some] at hi
        obtain ⟨-, m2⟩ := mapM_inv _ _ _ hR
        obtain ⟨r', q1, q2⟩ := m2 i s hi.1
        have hrr : r = r' := by
          have := hi.2
          simp only at this
          rw [q1] at this
          injection this with this
          exact this.symm
        subst hrr
        obtain ⟨g1, -⟩ := rows_inv s x.chords .tpc r b3 q2
        have hr0 : pyGet r 0 = .ok (r[0]'(by omega)) := pyGet_ofNat r 0 _ (List.getElem?_eq_getElem (by omega))
        rw [hr0]
        refine (accepts_ok _).congr ?_
        simp only [true_iff]
        intro c hcs
        rw [hstop, List.getElem?_eq_none (Nat.le_refl _)] at hcs
        cases hcs
      · rw [if_pos hstop]
        exact replacement_accepts hx.chords (by omega)
    · simp only [and_true]
      obtain ⟨m1, m2⟩ := mapM_inv _ _ _ hR
      constructor
      · intro h j n c k' h1 h2 h3
        rw [hc, List.getElem?_cons_succ] at h1
        rw [hk] at h3
        have hjl : j < cs.length := (List.getElem?_eq_some_iff.1 h1).1
        have hpj : j < (none :: (k :: ks).dropLast.map some).length := by simp; omega
        have haj : j < (0 :: cs).length := by simp; omega
        have hs := keySegments_get (List.getElem?_eq_getElem hpj) h3 (List.getElem?_eq_getElem haj)
          (show (cs ++ [x.chords.length])[j]? = some n by rw [List.getElem?_append_left hjl, h1])
        obtain ⟨r, q1, -⟩ := m2 j _ hs
        exact h (_, r) (List.mem_of_getElem? (List.getElem?_zip_eq_some.2 ⟨hs, q1⟩)) c h2
      · rintro h ⟨s, r⟩ hsr c hcs
        simp only at hcs ⊢
        obtain ⟨j, -, h2, -, h4⟩ := segment_mem (List.of_mem_zip hsr).1
        by_cases hj : j < cs.length
        · rw [List.getElem?_append_left hj] at h4
          exact h j s.stop c s.key (by rw [hc]; simpa using h4) hcs (by rw [hk]; exact h2)
        · rw [List.getElem?_append_right (by omega)] at h4
          have hlt := (List.getElem?_eq_some_iff.1 h4).1
          rw [List.length_singleton] at hlt
          rw [show j - cs.length = 0 by omega] at h4
          have : x.chords.length = s.stop := by simpa using h4
          rw [← this, List.getElem?_eq_none (Nat.le_refl _)] at hcs
          cases hcs
  · refine and_congr_left fun _ => ⟨?_, ?_⟩
    · intro h c hcm
      obtain ⟨i, hi⟩ := List.getElem?_of_mem hcm
      exact h i c (by omega) (List.getElem?_eq_some_iff.1 hi).1 hi
    · exact fun h i c _ _ hi => h c (List.mem_of_getElem? hi)

/-- C150: the dataset of the key transition model can be made iff all chords are at most 19 fifths from their tonic, and the
first chord of each later key at most 19 fifths from the tonic of the key before it; otherwise making it is a `ValueError`. -/
theorem C150_transitions {pieces : List KeyedPiece} (hp : ∀ x ∈ pieces, SpelledPiece x) :
    ((∃ ds, pieces.mapM transitionPiece = .ok ds) ↔ ∀ x ∈ pieces, (∀ c ∈ x.chords, ChordNear 19 c c.keyTonic) ∧
      ∀ (j n : Nat) c k, x.keyChanges[j + 1]? = some n → x.chords[n]? = some c → x.keys[j]? = some k →
        ChordNear 19 c k.relativeTonic) ∧
    ((¬ ∃ ds, pieces.mapM transitionPiece = .ok ds) → pieces.mapM transitionPiece = .error .valueError) := by
  have h := accepts_mapM pieces fun x hx => transitionPiece_accepts (hp x hx)
  exact ⟨h.ok_iff, fun hn => h.2 fun ha => hn (h.1 ha)⟩

/-! ## The key sequence dataset -/

theorem changeOneHot_accepts {a b : Key} (ha : a.tonicType = .tpc) :
    Accepts (a.changeOneHot b) (Near 14 b.relativeTonic a.relativeTonic) := by
  have hi : (∃ r, Interval a b r) ↔ Near 14 b.relativeTonic a.relativeTonic := by
    simp only [Interval, ha, Near]
    constructor
    · rintro ⟨r, rfl, h⟩; exact h
    · intro h; exact ⟨_, rfl, h⟩
  rw [← hi]
  exact ⟨fun ⟨r, hr⟩ => ⟨_, (C42_one_hot a b _).2 ⟨r, hr, rfl⟩⟩, fun h => (C42_out_of_range a b h).1⟩

/-- The chords before the last key are near their tonics. -/
def BeforeLastNear (x : KeyedPiece) : Prop :=
  ∀ (i n : Nat) c, x.keyChanges.getLast? = some n → i < n → x.chords[i]? = some c → ChordNear 19 c c.keyTonic

/-- Each key is near the one before it. -/
def KeysNear (x : KeyedPiece) : Prop :=
  ∀ (j : Nat) a b, x.keys[j]? = some a → x.keys[j + 1]? = some b → Near 14 b.relativeTonic a.relativeTonic

theorem sequencePiece_accepts {x : KeyedPiece} (hx : SpelledPiece x) :
    Accepts (sequencePiece x) (BeforeLastNear x ∧ ChangesNear x ∧ KeysNear x) := by
  obtain ⟨cs, k, ks, hc, hk, hlen⟩ := valid_cons hx.valid
  have hkt := hx.keys
  have hinc := hx.valid.increasing
  have hch := hx.valid.chords
  rw [hc] at hinc hch
  rw [hk] at hkt
  have hfirst : k.tonicType = .tpc := hkt k (by simp)
  rw [sequencePiece, hk, hc, get_zero]
  show Accepts (_ >>= _) _
  refine (Accepts.bind (P := True) (Q := BeforeLastNear x ∧ ChangesNear x ∧ KeysNear x) (accepts_ok _)
    fun k' hk' => ?_).congr (by simp)
  injection hk' with hk'
  subst hk'
  rw [hfirst]
  by_cases hone : ks = []
  · subst hone
    have : cs = [] := List.length_eq_zero_iff.1 hlen.symm
    subst this
    simp only
    rw [if_pos (by simp)]
    refine (accepts_ok _).congr ?_
    simp only [true_iff]
    refine ⟨?_, ?_, ?_⟩
    · intro i n c h1 h2
      rw [hc] at h1
      have : 0 = n := by simpa using h1
      omega
    · intro j n c l h1
      rw [hc] at h1
      simp at h1
    · intro j a b _ h2
      rw [hk] at h2
      simp at h2
  · have hkl : ¬ (k :: ks).length ≤ 1 := by
      have := List.length_pos_iff.2 hone
      simp only [List.length_cons]; omega
    simp only [if_neg hkl]
    obtain ⟨ks', kl, rfl⟩ : ∃ l a, ks = l ++ [a] := ⟨_, _, (List.dropLast_append_getLast hone).symm⟩
    have hcne : cs ≠ [] := by
      intro h
      rw [h] at hlen
      simp at hlen
    obtain ⟨cs', last, rfl⟩ : ∃ l a, cs = l ++ [a] := ⟨_, _, (List.dropLast_append_getLast hcne).symm⟩
    have hlen' : ks'.length = cs'.length := by simpa using hlen
    have e1 : (k :: (ks' ++ [kl])).dropLast = k :: ks' := by
      rw [← List.cons_append, List.dropLast_concat]
    have e2 : ((0 : Nat) :: (cs' ++ [last])).dropLast = 0 :: cs' := by
      rw [← List.cons_append, List.dropLast_concat]
    have hlast : last < x.chords.length := hch last (by simp)
    have hpw : (0 :: cs' ++ [last]).Pairwise (· < ·) := by simpa using hinc
    simp only [e1, e2, List.drop_succ_cons, List.drop_zero]
    have hseg := segments_accept (pad := true) (k := k) (ks := ks') hx.chords (Nat.le_of_lt hlast) hlen' hpw
      (fun l hl => hkt l (by
        rcases List.mem_cons.1 hl with rfl | hl
        · simp
        · simp [hl]))
    refine (Accepts.bind (Q := ChangesNear x ∧ KeysNear x) hseg fun R hR => ?_).congr ?_
    · refine (Accepts.bind (Q := KeysNear x) (accepts_mapM (P := fun s => ∀ c, x.chords[s.stop]? = some c →
        ChordNear 19 c s.key.relativeTonic) _ ?_) fun reps hreps => ?_).congr ?_
      · intro s hs
        obtain ⟨-, b2, b3⟩ := segment_bounds hpw hs
        exact replacement_accepts hx.chords (by omega)
      · refine (Accepts.bind (Q := True) (accepts_mapM (P := fun ab => Near 14 ab.2.relativeTonic ab.1.relativeTonic) _ ?_)
          fun ts hts => accepts_ok _).congr ?_
        · rintro ⟨a, b⟩ hab
          exact changeOneHot_accepts (hkt a (List.of_mem_zip hab).1)
        · simp only [and_true]
          constructor
          · intro h j a b ha hb
            rw [hk] at ha hb
            exact h (a, b) (List.mem_of_getElem? (i := j) (List.getElem?_zip_eq_some.2 ⟨ha, by simpa using hb⟩))
          · rintro h ⟨a, b⟩ hab
            obtain ⟨j, hj⟩ := List.getElem?_of_mem hab
            rw [List.getElem?_zip_eq_some] at hj
            exact h j a b (by rw [hk]; exact hj.1) (by rw [hk]; simpa using hj.2)
      · refine and_congr_left fun _ => ⟨?_, ?_⟩
        · intro h j n c k' h1 h2 h3
          rw [hc, List.getElem?_cons_succ] at h1
          rw [hk] at h3
          have hjl : j < (cs' ++ [last]).length := (List.getElem?_eq_some_iff.1 h1).1
          rw [List.length_append, List.length_singleton] at hjl
          have hpj : j < (none :: (k :: ks').dropLast.map some).length := by simp; omega
          have haj : j < (0 :: cs').length := by simp; omega
          have h3' : (k :: ks')[j]? = some k' := by
            rw [← List.cons_append, List.getElem?_append_left (by simp; omega)] at h3
            exact h3
          exact h _ (List.mem_of_getElem? (keySegments_get (List.getElem?_eq_getElem hpj) h3'
            (List.getElem?_eq_getElem haj) h1)) c h2
        · intro h s hs c hcs
          obtain ⟨j, -, h2, -, h4⟩ := segment_mem hs
          have hjl := (List.getElem?_eq_some_iff.1 h2).1
          refine h j s.stop c s.key (by rw [hc]; simpa using h4) hcs ?_
          rw [hk, ← List.cons_append, List.getElem?_append_left hjl]
          exact h2
    · refine and_congr_left fun _ => ⟨?_, ?_⟩
      · intro h i n c h1 h2 h3
        have : last = n := by
          rw [hc, ← List.cons_append, List.getLast?_append] at h1
          simpa using h1
        exact h i c (by omega) (by omega) h3
      · intro h i c _ h2 h3
        exact h i last c (by rw [hc, ← List.cons_append, List.getLast?_append]; simp) h2 h3

/-- C150: the dataset of the key sequence model can be made iff the chords before the last key of each piece are at most 19
fifths from their tonic, the first chord of each later key at most 19 fifths from the tonic of the key before it, and each
key at most 14 fifths from the key before it; otherwise making it is a `ValueError`. -/
theorem C150_sequences {pieces : List KeyedPiece} (hp : ∀ x ∈ pieces, SpelledPiece x) :
    ((∃ ds, pieces.mapM sequencePiece = .ok ds) ↔ ∀ x ∈ pieces,
      (∀ (i n : Nat) c, x.keyChanges.getLast? = some n → i < n → x.chords[i]? = some c → ChordNear 19 c c.keyTonic) ∧
      (∀ (j n : Nat) c k, x.keyChanges[j + 1]? = some n → x.chords[n]? = some c → x.keys[j]? = some k →
        ChordNear 19 c k.relativeTonic) ∧
      ∀ (j : Nat) a b, x.keys[j]? = some a → x.keys[j + 1]? = some b → Near 14 b.relativeTonic a.relativeTonic) ∧
    ((¬ ∃ ds, pieces.mapM sequencePiece = .ok ds) → pieces.mapM sequencePiece = .error .valueError) := by
  have h := accepts_mapM pieces fun x hx => sequencePiece_accepts (hp x hx)
  exact ⟨h.ok_iff, fun hn => h.2 fun ha => hn (h.1 ha)⟩

/-! ## Pieces from tables -/

open Verif.TablePiece Verif.FromSeries Verif.PieceKeys Verif.Eval

/-- The chord `o` is that of row `k`, except for its length and its end. -/
def OfRow (measures : List MeasureRow) (chords : List PieceRow) (red : Reduction) (useInv u : Bool) (k : Nat)
    (o : Chord ℚ) : Prop :=
  ∃ r ch, chords[k]? = some r ∧ ChordRight (measures.map MeasureRow.meter) .tpc red useInv u r.row ch ∧
    ∃ l d, o = { ch.chord with offsetLevel := l, duration := d }

/-- The chords and keys of the piece are those of the tables. -/
structure Keyed (measures : List MeasureRow) (chords : List PieceRow) (red : Reduction) (useInv u useSusp : Bool)
    (x : KeyedPiece) : Prop where
  spelled : SpelledPiece x
  /-- one chord for each row with a new chord -/
  begun : ∃ ks : List Nat, ks.Pairwise (· < ·) ∧ (∀ k, k ∈ ks ↔ NewRow measures chords red useInv u useSusp k) ∧
    List.Forall₂ (OfRow measures chords red useInv u) ks x.chords
  /-- at each chord is a key with its tonic and mode -/
  covered : ∀ (i : Nat) c, x.chords[i]? = some c → ∃ l, Covers x.keys x.keyChanges i l ∧
    tonicMode u l = (c.keyTonic, c.keyMode)
  /-- a key begins where the tonic or the mode of the chords changes -/
  starts : ∀ (i : Nat) c c', x.chords[i]? = some c → x.chords[i + 1]? = some c' →
    (KeyStart x (i + 1) ↔ (c.keyTonic, c.keyMode) ≠ (c'.keyTonic, c'.keyMode))

theorem level_le {b : ℚ} {num den : Int} {l : Nat} (h : metricalLevel b num den = .ok l) : l < 4 := by
  simp only [metricalLevel, Bind.bind] at h
  obtain ⟨x, _, h⟩ := bind_ok h
  obtain ⟨a, _, h⟩ := bind_ok h
  split at h
  · injection h with h; omega
  · obtain ⟨b, _, h⟩ := bind_ok h
    split at h
    · injection h with h; omega
    · obtain ⟨c, _, h⟩ := bind_ok h
      split at h <;> (injection h with h; omega)

theorem keys_tpc {u : Bool} {rows : List PieceRow} {keys : List Key} {changes : List Nat}
    (h : pieceKeys u rows = .ok (keys, changes)) : ∀ k ∈ keys, k.tonicType = .tpc := by
  simp only [pieceKeys, Bind.bind] at h
  obtain ⟨c1, -, h⟩ := bind_ok h
  obtain ⟨kr, -, h⟩ := bind_ok h
  obtain ⟨ks, h1, h⟩ := bind_ok h
  obtain ⟨c2, -, h⟩ := bind_ok h
  injection h with h
  injection h with h _
  subst h
  intro k hk
  rw [npMask] at h1
  split at h1
  · injection h1 with h1
    rw [← h1] at hk
    obtain ⟨r, -, hr⟩ := List.mem_filterMap.1 ((kept_sub _ _).subset hk)
    rw [keyFromSeries] at hr
    cases hko : keyOfRow r.row.key .tpc with
    | error e => rw [hko] at hr; cases hr
    | ok k' =>
      rw [hko] at hr
      injection hr with hr
      subst hr
      simp only [keyOfRow, Bind.bind] at hko
      obtain ⟨_, _, hko⟩ := bind_ok hko
      obtain ⟨⟨_, _⟩, _, hko⟩ := bind_ok hko
      split at hko <;>
      · obtain ⟨⟨_, _⟩, _, hko⟩ := bind_ok hko
        injection hko with hko
        rw [← hko]
  · cases h1

theorem start_iff {keys : List Key} {changes : List Nat} {u : Bool} (hl : keys.length = changes.length)
    (hinc : changes.Pairwise (· < ·)) (hdiff : keys.IsChain (fun k l => tonicMode u k ≠ tonicMode u l)) {i : Nat}
    {l l' : Key} (h : Covers keys changes i l) (h' : Covers keys changes (i + 1) l') :
    (∃ j : Nat, changes[j + 1]? = some (i + 1)) ↔ tonicMode u l ≠ tonicMode u l' := by
  have hle : changes.Pairwise (· ≤ ·) := hinc.imp fun h => Nat.le_of_lt h
  obtain ⟨k, a, h1, h2, h3, h4⟩ := h
  constructor
  · rintro ⟨j, hj⟩
    have hjl : j + 1 < changes.length := (List.getElem?_eq_some_iff.1 hj).1
    have hmono : ∀ p q : Nat, ∀ v w, p < q → changes[p]? = some v → changes[q]? = some w → v < w := by
      intro p q v w hpq hv hw
      obtain ⟨lv, ev⟩ := List.getElem?_eq_some_iff.1 hv
      obtain ⟨lw, ew⟩ := List.getElem?_eq_some_iff.1 hw
      have := List.pairwise_iff_getElem.1 hinc p q lv lw hpq
      omega
    have hkj : k = j := by
      by_contra hne
      rcases Nat.lt_or_gt_of_ne hne with hlt | hgt
      · have hk1 : changes[k + 1]? = some changes[k + 1] := List.getElem?_eq_getElem (by omega)
        have := h4 _ hk1
        by_cases he : k + 1 = j + 1
        · omega
        · have := hmono (k + 1) (j + 1) _ _ (by omega) hk1 hj
          omega
      · by_cases he : k = j + 1
        · rw [he, hj] at h2
          injection h2 with h2
          omega
        · have := hmono (j + 1) k _ _ (by omega) hj h2
          omega
    subst hkj
    have hk1 : keys[k + 1]? = some keys[k + 1] := List.getElem?_eq_getElem (by omega)
    have : l' = keys[k + 1] := by
      refine LabelTable.covers_unique hle h' ⟨k + 1, i + 1, hk1, hj, Nat.le_refl _, ?_⟩
      intro b hb
      exact hmono (k + 1) (k + 2) _ _ (by omega) hj hb
    subst this
    obtain ⟨lk, ek⟩ := List.getElem?_eq_some_iff.1 h1
    have := List.isChain_iff_getElem.1 hdiff k (by omega)
    rw [ek] at this
    exact this
  · intro hne
    by_contra hno
    apply hne
    have : Covers keys changes (i + 1) l := by
      refine ⟨k, a, h1, h2, by omega, ?_⟩
      intro b hb
      have := h4 b hb
      have : b ≠ i + 1 := fun he => hno ⟨k, by rw [hb, he]⟩
      omega
    rw [LabelTable.covers_unique hle this h']

/-- C150 (partial: the preconditions in `Tables`): a piece that is loaded from tables has one chord for each row with a new
chord, the key at each chord is that of the row, and keys begin where the key of the rows changes. -/
theorem C150_piece_partial {measures : List MeasureRow} {notes : List NoteRow} {chords : List PieceRow} {red : Reduction}
    {useInv u : Bool} {c : List (Measure ℚ)} (h : Tables measures notes chords red useInv u c) (useSusp : Bool) :
    ∃ x, tableKeyed measures notes chords red useInv u useSusp = .ok x ∧
      Keyed measures chords red useInv u useSusp x := by
  obtain ⟨y, hy, hL, -⟩ := C149_piece_partial h useSusp
  simp only [tablePiece, Bind.bind] at hy
  obtain ⟨ns, hns, hy⟩ := bind_ok hy
  obtain ⟨out, hout, hy⟩ := bind_ok hy
  injection hy with hy
  have hcache := cache_right (measures.map MeasureRow.meter) notes
  obtain ⟨chs, hread, hchs⟩ := chords_read h _ hcache
  have hlen := hchs.length_eq
  have h2c := h.twoChords
  obtain ⟨out', hout', p1, p2, p3, p4, p5, p6⟩ := C79_piece_partial (measures.map MeasureRow.meter) red useInv u useSusp _
    hcache chords (by rw [hread, List.length_zip]; omega)
  rw [hout] at hout'
  injection hout' with hout'
  subst hout'
  obtain ⟨gs, g1, g2, -, -⟩ := C79_chords _ _ _ _ _ _ _ _ hout
  have hfst : (chs.zip chords).map (·.1) = chs := List.map_fst_zip (by omega)
  rw [hread, hfst] at g1
  have hrow : ∀ ch ∈ chs, ∃ r ∈ chords, ChordRight (measures.map MeasureRow.meter) .tpc red useInv u r.row ch := by
    intro ch hch
    obtain ⟨i, hi⟩ := List.getElem?_of_mem hch
    obtain ⟨r, hr, hR⟩ := forall₂_left hchs i ch hi
    exact ⟨r, List.mem_of_getElem? hr, hR⟩
  have hgin : ∀ g ∈ gs, ∀ ch ∈ g.1 :: g.2, ch ∈ chs := by
    intro g hg ch hch
    rw [g1, List.mem_flatten]
    exact ⟨_, List.mem_map.2 ⟨g, hg, rfl⟩, hch⟩
  have hne : out.chords ≠ [] := by
    intro he
    rw [he] at g2
    cases g2
    simp only [List.map_nil, List.flatten_nil] at g1
    rw [g1, List.length_nil] at hlen
    omega
  have hlevel : ∀ {pos : Int × ℚ} {l : Nat}, LevelOf (measures.map MeasureRow.meter) pos l → l < 4 := by
    rintro pos l ⟨m, -, hm⟩
    exact level_le hm
  refine ⟨out.keyed, ?_, ⟨⟨⟨p1, p2 hne, p3, ?_⟩, ?_, ?_⟩, ?_, ?_, ?_⟩⟩
  · simp only [tableKeyed, hns, hout, Bind.bind, Except.bind]
  · intro i hi
    simp only [PieceHarmony.keyed, List.length_map]
    exact p4 i hi
  · intro o ho
    obtain ⟨o', ho', rfl⟩ := List.mem_map.1 ho
    obtain ⟨i, hi⟩ := List.getElem?_of_mem ho'
    obtain ⟨g, hg, hR⟩ := forall₂_left g2 i o' hi
    have hgm := hgin g (List.mem_of_getElem? hg)
    obtain ⟨r, -, h1⟩ := hrow g.1 (hgm _ (by simp))
    obtain ⟨r', -, h2⟩ := hrow ((g.1 :: g.2).getLast (List.cons_ne_nil _ _)) (hgm _ (List.getLast_mem _))
    obtain ⟨-, -, -, hinv, -⟩ := C78_pitches _ _ _ _ _ _ _ h1
    obtain ⟨l1, hl1, e1⟩ := h1.onsetLevel
    obtain ⟨l2, hl2, e2⟩ := h2.offsetLevel
    have b1 := hlevel hl1
    have b2 := hlevel hl2
    rw [IsRun] at hR
    rw [hR]
    exact ⟨h1.pitchType, hinv, ⟨by simp only [e1]; omega, by simp only [e1]; omega⟩,
      ⟨by simp only [e2]; omega, by simp only [e2]; omega⟩⟩
  · simp only [pieceHarmony, Bind.bind] at hout
    obtain ⟨_, -, hout⟩ := bind_ok hout
    obtain ⟨_, -, hout⟩ := bind_ok hout
    obtain ⟨_, -, hout⟩ := bind_ok hout
    obtain ⟨⟨keys, changes⟩, hk, hout⟩ := bind_ok hout
    injection hout with hout
    rw [← hout]
    exact keys_tpc hk
  · obtain ⟨ks, k1, k2, k3⟩ := hL.begun
    refine ⟨ks, k1, k2, ?_⟩
    rw [← hy] at k3
    simp only [PieceHarmony.keyed] at k3 ⊢
    rw [List.forall₂_map_right_iff] at k3 ⊢
    refine k3.imp ?_
    rintro k o ⟨r, ch, b1, b2, -, b4⟩
    exact ⟨r, ch, b1, b2, b4⟩
  · intro i o ho
    simp only [PieceHarmony.keyed, List.getElem?_map, Option.map_eq_some_iff] at ho
    obtain ⟨o', ho', rfl⟩ := ho
    exact p6 i o' ho'
  · intro i o o' ho ho'
    simp only [PieceHarmony.keyed, List.getElem?_map, Option.map_eq_some_iff] at ho ho'
    obtain ⟨q, hq, rfl⟩ := ho
    obtain ⟨q', hq', rfl⟩ := ho'
    obtain ⟨l, c1, c2⟩ := p6 i q hq
    obtain ⟨l', c1', c2'⟩ := p6 (i + 1) q' hq'
    rw [← c2, ← c2']
    exact start_iff p1 p3 p5 c1 c1'

/-- A piece from tables. -/
def FromKeyTables (red : Reduction) (useInv u useSusp : Bool) (x : KeyedPiece) : Prop :=
  ∃ measures notes chords c, Tables measures notes chords red useInv u c ∧
    tableKeyed measures notes chords red useInv u useSusp = .ok x

theorem keyed {measures : List MeasureRow} {notes : List NoteRow} {chords : List PieceRow} {red : Reduction}
    {useInv u useSusp : Bool} {c : List (Measure ℚ)} {x : KeyedPiece} (h : Tables measures notes chords red useInv u c)
    (hx : tableKeyed measures notes chords red useInv u useSusp = .ok x) : Keyed measures chords red useInv u useSusp x := by
  obtain ⟨x', h1, h2⟩ := C150_piece_partial h useSusp
  rw [hx] at h1
  injection h1 with h1
  subst h1
  exact h2

/-- C150: what the chord sequence model is trained on. For two rows with a new chord, one after the other, the target of
the first is the class of the chord of the second if the rows have the same tonic and mode, and it is ignored otherwise. -/
theorem C150_targets {red : Reduction} {useInv u useSusp : Bool} (pieces : List KeyedPiece)
    (hp : ∀ x ∈ pieces, FromKeyTables red useInv u useSusp x)
    (hnear : ∀ x ∈ pieces, ∀ c ∈ x.chords, ChordNear 14 c c.keyTonic) (s : CsmSettings) (hin : s.inputRed = none)
    (hinv : s.inputInv = true) (hout : ∀ t, s.outputRed (red t) = red t) (is : List Nat) (hne : is ≠ [])
    (his : ∀ i ∈ is, i < pieces.length) :
    ∃ d batch, chordSeqData pieces = .ok d ∧ d.batch s is = .ok batch ∧ batch.length = is.length ∧
      ∀ (k p : Nat) x, is[k]? = some p → pieces[p]? = some x → ∃ r, batch[k]? = some r ∧
        ∀ measures notes chords c, Tables measures notes chords red useInv u c →
          tableKeyed measures notes chords red useInv u useSusp = .ok x →
          ∃ ks : List Nat, ks.Pairwise (· < ·) ∧ (∀ k, k ∈ ks ↔ NewRow measures chords red useInv u useSusp k) ∧
            r.length = ks.length ∧ r.targets[ks.length - 1]? = some (-100) ∧
            ∀ (i q q' : Nat) row row' ch ch', ks[i]? = some q → ks[i + 1]? = some q' → chords[q]? = some row →
              chords[q']? = some row' → ChordRight (measures.map MeasureRow.meter) .tpc red useInv u row.row ch →
              ChordRight (measures.map MeasureRow.meter) .tpc red useInv u row'.row ch' →
              ((ch.chord.keyTonic, ch.chord.keyMode) = (ch'.chord.keyTonic, ch'.chord.keyMode) →
                ∃ t, r.targets[i]? = some t ∧ ch'.chord.oneHotIndex true s.outputInv false s.outputRed = .ok t) ∧
              ((ch.chord.keyTonic, ch.chord.keyMode) ≠ (ch'.chord.keyTonic, ch'.chord.keyMode) →
                r.targets[i]? = some (-100)) := by
  have hsp : ∀ x ∈ pieces, SpelledPiece x := by
    intro x hx
    obtain ⟨measures, notes, chords, c, hT, hx⟩ := hp x hx
    exact (keyed hT hx).spelled
  have hu : Uniform pieces .tpc .tpc :=
    ⟨fun x hx => (hsp x hx).valid, fun x hx c hc => ((hsp x hx).chords c hc).pitchType, fun x hx => (hsp x hx).keys⟩
  obtain ⟨d, hd⟩ := (C150_chords hsp).1.2 hnear
  have hclass : ∀ x ∈ pieces, ∀ c ∈ x.chords, ChordTraining.HasClass s c := by
    intro x hx c hc
    have hsc := (hsp x hx).chords c hc
    obtain ⟨t, ht⟩ := (index_accepts hsc).1 (hnear x hx c hc).1
    obtain ⟨measures, notes, chords, cc, hT, hxT⟩ := hp x hx
    obtain ⟨ks, -, -, hks⟩ := (keyed hT hxT).begun
    obtain ⟨i, hi⟩ := List.getElem?_of_mem hc
    obtain ⟨k, -, r, ch, -, hR, l, dd, he⟩ := forall₂_left hks i c hi
    obtain ⟨key, hh, -⟩ := hR.harmony
    obtain ⟨-, -, ⟨ct, -, hct⟩, -, -⟩ := hh
    have hred : s.outputRed c.chordType = c.chordType := by
      have : c.chordType = red ct := by rw [he]; exact hct
      rw [this, hout]
    rw [Chord.oneHotIndex] at ht
    obtain ⟨root, hr, ht⟩ := bind_ok ht
    have henc := (C01_accepts_iff _ _ _ _ _ _ _ _).1.1 ⟨t, ht⟩
    unfold ChordTraining.HasClass
    rw [Chord.oneHotIndex, hr]
    refine (C01_accepts_iff c.chordType root c.pitchType c.inversion s.outputInv true false s.outputRed).1.2
      ⟨henc.1, fun _ => ?_⟩
    rw [hred]
    exact henc.2 rfl
  obtain ⟨b1, b2⟩ := C129_batch hu hd s is
  obtain ⟨batch, hbatch⟩ := b2.2 ⟨hne, hin, hinv, fun p hpm =>
    ⟨_, List.getElem?_eq_getElem (his p hpm), hclass _ (List.getElem_mem _)⟩⟩
  obtain ⟨-, -, hbl, L, ⟨hL, -⟩, hrows⟩ := b1 batch hbatch
  refine ⟨d, batch, hd, hbatch, hbl, ?_⟩
  intro k p x hk hx
  obtain ⟨x', r, hx', hr, ht⟩ := hrows k p hk
  rw [hx] at hx'
  injection hx' with hx'
  subst hx'
  refine ⟨r, hr, ?_⟩
  intro measures notes chords c hT hxT
  have hK := keyed hT hxT
  obtain ⟨ks, k1, k2, k3⟩ := hK.begun
  have hkl := k3.length_eq
  have hxL := hL p (List.mem_of_getElem? hk) x hx
  have hpos : 0 < x.chords.length := List.length_pos_iff.2 (valid_chords hK.spelled.valid)
  refine ⟨ks, k1, k2, by rw [ht.length, hkl], ?_, ?_⟩
  · exact ht.ignored _ (by omega) (Or.inl (by omega))
  · intro i q q' row row' ch ch' hq hq' hrow hrow' hR hR'
    obtain ⟨o, ho, r1, ch1, e1, e2, l1, d1, e3⟩ := forall₂_right k3 i q hq
    obtain ⟨o', ho', r2, ch2, f1, f2, l2, d2, f3⟩ := forall₂_right k3 (i + 1) q' hq'
    rw [hrow] at e1
    rw [hrow'] at f1
    injection e1 with e1
    injection f1 with f1
    subst e1 f1
    have u1 := right_unique hR e2
    have u2 := right_unique hR' f2
    subst u1 u2
    have hst := hK.starts i o o' ho ho'
    have ko : (o.keyTonic, o.keyMode) = (ch.chord.keyTonic, ch.chord.keyMode) := by rw [e3]
    have ko' : (o'.keyTonic, o'.keyMode) = (ch'.chord.keyTonic, ch'.chord.keyMode) := by rw [f3]
    rw [ko, ko'] at hst
    refine ⟨fun he => ?_, fun hn => ?_⟩
    · obtain ⟨t, t1, t2, -⟩ := ht.next i o' ho' (fun hs => hst.1 hs he)
      refine ⟨t, t1, ?_⟩
      rw [← t2, f3]
      rfl
    · have := (List.getElem?_eq_some_iff.1 ho').1
      exact ht.ignored i (by omega) (Or.inr (hst.2 hn))

/-- C150: the chords of a piece from tables are near their tonics iff those of the rows with a new chord are. -/
theorem C150_rows {measures : List MeasureRow} {notes : List NoteRow} {chords : List PieceRow} {red : Reduction}
    {useInv u useSusp : Bool} {c : List (Measure ℚ)} {x : KeyedPiece} (h : Tables measures notes chords red useInv u c)
    (hx : tableKeyed measures notes chords red useInv u useSusp = .ok x) (n : Int) :
    (∀ o ∈ x.chords, ChordNear n o o.keyTonic) ↔
      ∀ (k : Nat) row ch, NewRow measures chords red useInv u useSusp k → chords[k]? = some row →
        ChordRight (measures.map MeasureRow.meter) .tpc red useInv u row.row ch →
        ChordNear n ch.chord ch.chord.keyTonic := by
  obtain ⟨ks, -, k2, k3⟩ := (keyed h hx).begun
  constructor
  · intro hall k row ch hk hrow hR
    obtain ⟨i, hi⟩ := List.getElem?_of_mem ((k2 k).2 hk)
    obtain ⟨o, ho, r, ch', e1, e2, l, d, e3⟩ := forall₂_right k3 i k hi
    rw [hrow] at e1
    injection e1 with e1
    subst e1
    have := right_unique hR e2
    subst this
    have := hall o (List.mem_of_getElem? ho)
    rw [e3] at this
    exact this
  · intro hall o ho
    obtain ⟨i, hi⟩ := List.getElem?_of_mem ho
    obtain ⟨k, hk, r, ch', e1, e2, l, d, e3⟩ := forall₂_left k3 i o hi
    rw [e3]
    exact hall k r ch' ((k2 k).1 (List.mem_of_getElem? hk)) e1 e2

/-! ## Examples -/

/-- What `Tables` says of the positions of a row. -/
def place (r : PieceRow) : (Int × ℚ) × (Int × ℚ) × ℚ := (rowOnset r, rowOffset r, r.row.duration)

theorem tables_congr {measures : List MeasureRow} {notes : List NoteRow} {chords chords' : List PieceRow} {red : Reduction}
    {useInv u : Bool} {c : List (Measure ℚ)} (h : Tables measures notes chords red useInv u c)
    (hp : chords'.map place = chords.map place)
    (hr : ∀ r ∈ chords', ∃ ch, ChordRight (measures.map MeasureRow.meter) .tpc red useInv u r.row ch) :
    Tables measures notes chords' red useInv u c := by
  have hlen : chords'.length = chords.length := by simpa using congrArg List.length hp
  have hget : ∀ (k : Nat) r, chords'[k]? = some r → ∃ r0, chords[k]? = some r0 ∧ rowOnset r = rowOnset r0 ∧
      rowOffset r = rowOffset r0 ∧ r.row.duration = r0.row.duration := by
    intro k r hk
    have := congrArg (fun l => l[k]?) hp
    simp only [List.getElem?_map, hk, Option.map_some] at this
    obtain ⟨r0, h0, e⟩ := Option.map_eq_some_iff.1 this.symm
    simp only [place, Prod.mk.injEq] at e
    exact ⟨r0, h0, e.1.symm, e.2.1.symm, e.2.2.symm⟩
  have hmem : ∀ r ∈ chords', ∃ r0 ∈ chords, rowOnset r = rowOnset r0 ∧
      rowOffset r = rowOffset r0 ∧ r.row.duration = r0.row.duration := by
    intro r hm
    obtain ⟨k, hk⟩ := List.getElem?_of_mem hm
    obtain ⟨r0, h0, e⟩ := hget k r hk
    exact ⟨r0, List.mem_of_getElem? h0, e⟩
  refine { h with twoChords := by rw [hlen]; exact h.twoChords, readable := hr, chordInside := ?_, contiguous := ?_,
                  durations := ?_, ended := ?_, begun := ?_ }
  · intro r hm
    obtain ⟨r0, h0, e1, -⟩ := hmem r hm
    rw [e1]; exact h.chordInside r0 h0
  · intro k r r' hk hk'
    obtain ⟨r0, h0, -, e2, -⟩ := hget k r hk
    obtain ⟨r0', h0', e1, -⟩ := hget _ r' hk'
    rw [e1, e2]; exact h.contiguous k r0 r0' h0 h0'
  · intro r hm
    obtain ⟨r0, h0, e1, e2, e3⟩ := hmem r hm
    rw [e1, e2, e3]; exact h.durations r0 h0
  · intro r hk
    rw [hlen] at hk
    obtain ⟨r0, h0, -, e2, -⟩ := hget _ r hk
    rw [e2]; exact h.ended r0 h0
  · intro r hm
    obtain ⟨r0, h0, e1, -⟩ := hmem r hm
    rw [e1]; exact h.begun r0 h0

/-- A piece in C major with a chord on B##. -/
def distantRows : List PieceRow := [PieceKeys.chordRow "I".toList 0 0, PieceKeys.chordRow "I".toList 19 1, PieceKeys.chordRow "I".toList 1 2]

/-- I and V of C major, and VI of G major. -/
def keyedRows : List PieceRow := [PieceKeys.chordRow "I".toList 0 0, PieceKeys.chordRow "I".toList 1 1, PieceKeys.chordRow "V".toList 3 2]

theorem readable_of {rows : List PieceRow} (h : ∀ r ∈ rows,
    (chordFromSeries (TablePiece.exMeasures.map MeasureRow.meter) .tpc noReduction true true none r.row).1.isSome = true) :
    ∀ r ∈ rows, ∃ ch, ChordRight (TablePiece.exMeasures.map MeasureRow.meter) .tpc noReduction true true r.row ch := by
  intro r hr
  obtain ⟨ch, hch⟩ := Option.isSome_iff_exists.1 (h r hr)
  exact ⟨ch, ((C78_chord _ .tpc noReduction true true none (by rintro c ⟨⟩) r.row).1 ch).1 hch⟩

theorem distant_tables : Tables TablePiece.exMeasures TablePiece.exNotes distantRows noReduction true true (TablePiece.exMeasures.map (·.measure)) :=
  tables_congr ex_tables (by decide +kernel) (readable_of (by decide +kernel))

theorem keyed_tables : Tables TablePiece.exMeasures TablePiece.exNotes keyedRows noReduction true true (TablePiece.exMeasures.map (·.measure)) :=
  tables_congr ex_tables (by decide +kernel) (readable_of (by decide +kernel))

/-- The target of the first chord is the class of the second one; the third one is in another key. -/
example : ((tableKeyed TablePiece.exMeasures TablePiece.exNotes keyedRows noReduction true true false).bind fun x =>
    (chordSeqData [x]).bind fun d => (d.batch ⟨none, true, noReduction, true⟩ [0]).map fun l => l.map (·.targets)) =
      .ok [[45, -100, -100]] ∧
    ((tableKeyed TablePiece.exMeasures TablePiece.exNotes keyedRows noReduction true true false).bind fun x =>
      x.chords.mapM fun c => c.oneHotIndex true true false noReduction) = .ok [42, 45, 51] := by decide +kernel

/-- C150 does not hold for a piece with one distant chord: it can be loaded, and the dataset of the key transition model can
be made, but not that of the chord sequence model, whichever other pieces there are. -/
theorem C150_distant_fails : ∃ x, tableKeyed TablePiece.exMeasures TablePiece.exNotes distantRows noReduction true true false =
      .ok x ∧ (∃ ds, [x].mapM transitionPiece = .ok ds) ∧
    ∀ before after : List KeyedPiece, (∀ y ∈ before ++ after, SpelledPiece y) →
      chordSeqData (before ++ x :: after) = .error .valueError := by
  obtain ⟨x, hx, hK⟩ := C150_piece_partial distant_tables false
  have hch : (tableKeyed TablePiece.exMeasures TablePiece.exNotes distantRows noReduction true true false).map
      (fun x => (x.chords.map fun c => (c.root, c.bass, c.keyTonic), x.keyChanges)) =
        .ok ([(15, 15, 15), (34, 34, 15), (16, 16, 15)], [0]) := by decide +kernel
  rw [hx] at hch
  injection hch with hch
  injection hch with hc1 hc2
  refine ⟨x, hx, ?_, ?_⟩
  · refine (C150_transitions (pieces := [x]) (by simpa using hK.spelled)).1.2 ?_
    intro y hy
    have : y = x := by simpa using hy
    subst this
    refine ⟨?_, ?_⟩
    · intro c hc
      have : (c.root, c.bass, c.keyTonic) ∈ y.chords.map fun c => (c.root, c.bass, c.keyTonic) :=
        List.mem_map.2 ⟨c, hc, rfl⟩
      rw [hc1] at this
      simp only [List.mem_cons, Prod.mk.injEq, List.not_mem_nil, or_false] at this
      unfold ChordNear Near
      omega
    · intro j n c k h
      rw [hc2] at h
      simp at h
  · intro before after hall
    refine (C150_chords (pieces := before ++ x :: after) ?_).2 ?_
    · intro y hy
      rcases List.mem_append.1 hy with h | h
      · exact hall y (List.mem_append.2 (Or.inl h))
      · rcases List.mem_cons.1 h with rfl | h
        · exact hK.spelled
        · exact hall y (List.mem_append.2 (Or.inr h))
    · have h1 : (x.chords.map fun c => (c.root, c.bass, c.keyTonic))[1]? = some (34, 34, 15) := by
        rw [hc1]; rfl
      rw [List.getElem?_map, Option.map_eq_some_iff] at h1
      obtain ⟨c, hc, he⟩ := h1
      simp only [Prod.mk.injEq] at he
      refine ⟨x, by simp, c, List.mem_of_getElem? hc, ?_⟩
      omega

end Verif.SequenceTables
