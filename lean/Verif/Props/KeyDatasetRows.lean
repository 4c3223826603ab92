import Verif.Props.KeyDatasets
import Verif.Props.KeyChange

/-!
# C68: what the constructors of the key datasets make of a piece
-/

namespace Verif.KeyDatasets
open Verif.Datasets

theorem mapM_inv {α β : Type} (f : α → Py β) (l : List α) (bs : List β) (h : l.mapM f = .ok bs) :
    bs.length = l.length ∧ ∀ (i : Nat) a, l[i]? = some a → ∃ b, bs[i]? = some b ∧ f a = .ok b := by
  induction l generalizing bs with
  | nil =>
    have : bs = [] := by
      have h' : (.ok [] : Py (List β)) = .ok bs := h
      injection h' with h'; exact h'.symm
    subst this
    simp
  | cons a l ih =>
    rw [List.mapM_cons] at h
    obtain ⟨b, hb, h⟩ := bind_ok h
    obtain ⟨bs', hbs, h⟩ := bind_ok h
    have h' : (.ok (b :: bs') : Py (List β)) = .ok bs := h
    injection h' with h'
    subst h'
    obtain ⟨h1, h2⟩ := ih bs' hbs
    refine ⟨by simp [h1], ?_⟩
    intro i x hx
    cases i with
    | zero =>
      simp only [List.getElem?_cons_zero, Option.some.injEq] at hx
      subst hx
      exact ⟨b, rfl, hb⟩
    | succ i => exact h2 i x (by simpa using hx)

/-- The key change at chord `i`, for change positions, keys and the key before them. -/
def changeIn (prev : Option Key) : List Nat → List Key → Nat → Option (Key × Key)
  | a :: cs, k :: ks, i => if i = a then prev.map fun p => (p, k) else changeIn (some k) cs ks i
  | _, _, _ => none

theorem rows_inv {pad : Bool} (s : KeySegment) (chords : List (Chord ℚ)) (tt : PitchType) (R : List (List ℚ))
    (hle : s.stop ≤ chords.length) (h : s.rows chords tt pad = .ok R) :
    R.length = s.stop - s.start ∧
      ∀ j, j < s.stop - s.start → ∃ c row, chords[s.start + j]? = some c ∧ R[j]? = some row ∧
        sequenceRow c tt (s.changeAt j) pad = .ok row := by
  rw [KeySegment.rows] at h
  simp only at h
  split at h
  · cases h
  · obtain ⟨h1, h2⟩ := mapM_inv _ _ _ h
    rw [List.length_zipIdx] at h1
    have hlen : (slice chords s.start s.stop).length = s.stop - s.start := by
      simp only [slice, List.length_take, List.length_drop]; omega
    refine ⟨by rw [h1, hlen], ?_⟩
    intro j hj
    have hget : (slice chords s.start s.stop)[j]? = chords[s.start + j]? := by
      simp only [slice, List.getElem?_take, List.getElem?_drop]
      rw [if_pos hj]
    have hlt : s.start + j < chords.length := by omega
    obtain ⟨row, r1, r2⟩ := h2 j (chords[s.start + j], j) (by
      rw [List.getElem?_zipIdx, hget, List.getElem?_eq_getElem hlt]; simp)
    exact ⟨_, row, List.getElem?_eq_getElem hlt, r1, r2⟩

theorem segments_inv {pad : Bool} (chords : List (Chord ℚ)) (tt : PitchType) (n : Nat) (hn : n ≤ chords.length) :
    ∀ (cs : List Nat) (a : Nat) (prev : Option Key) (k : Key) (ks : List Key) (R : List (List (List ℚ))),
      ks.length = cs.length → (a :: cs ++ [n]).Pairwise (· < ·) →
      (keySegments (prev :: (k :: ks).dropLast.map some) (k :: ks) (a :: cs) (cs ++ [n])).mapM
        (fun s => s.rows chords tt pad) = .ok R →
      R.flatten.length = n - a ∧
      ∀ i, a ≤ i → i < n → ∃ c row, chords[i]? = some c ∧ R.flatten[i - a]? = some row ∧
        sequenceRow c tt (changeIn prev (a :: cs) (k :: ks) i) pad = .ok row := by
  intro cs
  induction cs with
  | nil =>
    intro a prev k ks R hks hp h
    have : ks = [] := List.length_eq_zero_iff.1 hks
    subst this
    have han : a < n := by
      simp only [List.cons_append, List.nil_append, List.pairwise_cons] at hp
      exact hp.1 n (by simp)
    have hseg : keySegments (prev :: ([k] : List Key).dropLast.map some) [k] [a] ([] ++ [n]) = [⟨prev, k, a, n⟩] := rfl
    rw [hseg] at h
    obtain ⟨h1, h2⟩ := mapM_inv _ _ _ h
    obtain ⟨r, r1, r2⟩ := h2 0 _ rfl
    have hR : R = [r] := by
      match R, h1, r1 with
      | [r0], _, r1 => simpa using r1
    subst hR
    obtain ⟨g1, g2⟩ := rows_inv _ chords tt r hn r2
    simp only at g1 g2
    rw [List.flatten_singleton]
    refine ⟨g1, ?_⟩
    intro i hai hin
    obtain ⟨c, row, e1, e2, e3⟩ := g2 (i - a) (by omega)
    rw [show a + (i - a) = i by omega] at e1
    refine ⟨c, row, e1, e2, ?_⟩
    rw [KeySegment.changeAt] at e3
    rw [changeIn]
    by_cases hia : i = a
    · rw [if_pos (by omega)] at e3; rw [if_pos hia]; exact e3
    · rw [if_neg (by omega)] at e3; rw [if_neg hia]; exact e3
  | cons b cs ih =>
    intro a prev k ks R hks hp h
    obtain ⟨k', ks', rfl⟩ : ∃ k' ks', ks = k' :: ks' := by
      cases ks with
      | nil => simp at hks
      | cons k' ks' => exact ⟨k', ks', rfl⟩
    have hab : a < b := by
      simp only [List.cons_append, List.pairwise_cons] at hp
      exact hp.1 b (by simp)
    have hbn : b < n := by
      simp only [List.cons_append, List.pairwise_cons] at hp
      exact hp.2.1 n (by simp)
    have hp' : (b :: cs ++ [n]).Pairwise (· < ·) := by
      simp only [List.cons_append, List.pairwise_cons] at hp ⊢
      exact hp.2
    have hseg : keySegments (prev :: (k :: k' :: ks').dropLast.map some) (k :: k' :: ks') (a :: b :: cs)
        (b :: cs ++ [n]) = ⟨prev, k, a, b⟩ ::
          keySegments (some k :: (k' :: ks').dropLast.map some) (k' :: ks') (b :: cs) (cs ++ [n]) := rfl
    rw [hseg, List.mapM_cons] at h
    obtain ⟨r, hr, h⟩ := bind_ok h
    obtain ⟨R', hR', h⟩ := bind_ok h
    have h' : (.ok (r :: R') : Py (List (List (List ℚ)))) = .ok R := h
    injection h' with h'
    subst h'
    obtain ⟨g1, g2⟩ := rows_inv _ chords tt r (by simp only; omega) hr
    simp only at g1 g2
    obtain ⟨i1, i2⟩ := ih b (some k) k' ks' R' (by simpa using hks) hp' hR'
    rw [List.flatten_cons]
    refine ⟨by rw [List.length_append, g1, i1]; omega, ?_⟩
    intro i hai hin
    rw [changeIn]
    by_cases hib : i < b
    · obtain ⟨c, row, e1, e2, e3⟩ := g2 (i - a) (by omega)
      rw [show a + (i - a) = i by omega] at e1
      refine ⟨c, row, e1, by rw [List.getElem?_append_left (by omega)]; exact e2, ?_⟩
      rw [KeySegment.changeAt] at e3
      by_cases hia : i = a
      · rw [if_pos (by omega)] at e3; rw [if_pos hia]; exact e3
      · rw [if_neg (by omega)] at e3
        rw [if_neg hia]
        have hnone : ∀ (cs : List Nat) (ks : List Key) (p : Option Key), (∀ c ∈ cs, i ≠ c) →
            changeIn p cs ks i = none := by
          intro cs
          induction cs with
          | nil => intro ks p _; cases ks <;> rfl
          | cons c cs ihc =>
            intro ks p hne
            cases ks with
            | nil => rfl
            | cons k ks =>
              rw [changeIn, if_neg (hne c (by simp))]
              exact ihc ks _ fun x hx => hne x (by simp [hx])
        rw [hnone]
        · exact e3
        · intro c hc
          rcases List.mem_cons.1 hc with rfl | hc
          · omega
          · simp only [List.cons_append, List.pairwise_cons] at hp'
            have := hp'.1 c (by simp [hc])
            omega
    · rw [if_neg (by omega)]
      obtain ⟨c, row, e1, e2, e3⟩ := i2 i (by omega) hin
      refine ⟨c, row, e1, ?_, e3⟩
      rw [List.getElem?_append_right (by omega), g1]
      rw [show i - a - (b - a) = i - b by omega]
      exact e2

/-- Chord `i` of a piece comes with a vector of the change of keys if the key changes there, and with zeros
otherwise. -/
def ChangeAt (changes : List Nat) (keys : List Key) (i : Nat) (change : Option (Key × Key)) : Prop :=
  (∀ (j : Nat) p k, changes[j + 1]? = some i → keys[j]? = some p → keys[j + 1]? = some k → change = some (p, k)) ∧
  ((∀ j : Nat, changes[j + 1]? ≠ some i) → change = none)

theorem changeIn_at : ∀ (cs : List Nat) (a : Nat) (k : Key) (ks : List Key) (i : Nat),
    ks.length = cs.length → (a :: cs).Pairwise (· < ·) →
    ChangeAt (a :: cs) (k :: ks) i (changeIn none (a :: cs) (k :: ks) i) := by
  have gen : ∀ (cs : List Nat) (k : Key) (ks : List Key) (i : Nat), ks.length = cs.length →
      cs.Pairwise (· < ·) →
      (∀ (j : Nat) p k', cs[j]? = some i → (k :: ks)[j]? = some p → ks[j]? = some k' →
        changeIn (some k) cs ks i = some (p, k')) ∧
      ((∀ j : Nat, cs[j]? ≠ some i) → changeIn (some k) cs ks i = none) := by
    intro cs
    induction cs with
    | nil => intro k ks i h _; simp [changeIn]
    | cons b cs ih =>
      intro k ks i h hp
      cases ks with
      | nil => simp at h
      | cons k1 ks =>
        rw [List.pairwise_cons] at hp
        obtain ⟨i1, i2⟩ := ih k1 ks i (by simpa using h) hp.2
        rw [changeIn]
        constructor
        · intro j p k' hj hp' hk'
          cases j with
          | zero =>
            simp only [List.getElem?_cons_zero, Option.some.injEq] at hj hp' hk'
            subst hj hp' hk'
            rw [if_pos rfl]; rfl
          | succ j =>
            simp only [List.getElem?_cons_succ] at hj hp' hk'
            have := hp.1 i (List.mem_of_getElem? hj)
            rw [if_neg (by omega)]
            exact i1 j p k' hj hp' hk'
        · intro hne
          have h0 := hne 0
          simp only [List.getElem?_cons_zero, ne_eq, Option.some.injEq] at h0
          rw [if_neg (by omega)]
          exact i2 fun j => by simpa using hne (j + 1)
  intro cs a k ks i h hp
  rw [List.pairwise_cons] at hp
  obtain ⟨g1, g2⟩ := gen cs k ks i h hp.2
  rw [changeIn]
  constructor
  · intro j p k' hj hp' hk'
    simp only [List.getElem?_cons_succ] at hj hk'
    have := hp.1 i (List.mem_of_getElem? hj)
    rw [if_neg (by omega)]
    exact g1 j p k' hj hp' hk'
  · intro hne
    by_cases hia : i = a
    · rw [if_pos hia]; rfl
    · rw [if_neg hia]
      exact g2 fun j => by simpa using hne j

theorem keySegments_get {prevs : List (Option Key)} {keys : List Key} {starts stops : List Nat} {j : Nat}
    {p : Option Key} {k : Key} {a b : Nat} (h1 : prevs[j]? = some p) (h2 : keys[j]? = some k)
    (h3 : starts[j]? = some a) (h4 : stops[j]? = some b) :
    (keySegments prevs keys starts stops)[j]? = some ⟨p, k, a, b⟩ := by
  simp only [keySegments, List.getElem?_map, List.zip, List.getElem?_zipWith, h1, h2, h3, h4]
  rfl

/-- The indices of the key changes of a piece: one for each key, the first one is 0, and all are indices of
chords. -/
structure KeyedPiece.Valid (x : KeyedPiece) : Prop where
  keys : x.keys.length = x.keyChanges.length
  zero : x.keyChanges[0]? = some 0
  increasing : x.keyChanges.Pairwise (· < ·)
  chords : ∀ i ∈ x.keyChanges, i < x.chords.length

/-- Row `i` is the vector of chord `i` and of the key change at that chord, if any. -/
def RowsUpTo (x : KeyedPiece) (tt : PitchType) (n : Nat) (rows : List (List ℚ)) : Prop :=
  rows.length = n ∧ ∀ i, i < n → ∃ c row change, x.chords[i]? = some c ∧ rows[i]? = some row ∧
    ChangeAt x.keyChanges x.keys i change ∧ sequenceRow c tt change true = .ok row

/-- The item of the change to key `j + 1` at chord `n`: that chord, relative to key `j`, with no key
change. -/
def ReplacementAt (x : KeyedPiece) (tt : PitchType) (j n : Nat) (r : List ℚ) : Prop :=
  ∃ k c v, x.keys[j]? = some k ∧ x.chords[n]? = some c ∧ c.toVec (some k) true noReduction = .ok v ∧
    r = v ++ zeros (1 + keyChangeVectorLength tt false)

theorem replacement_inv {s : KeySegment} {chords : List (Chord ℚ)} {tt : PitchType} {r : List ℚ}
    (h : s.replacement chords tt = .ok r) : ∃ c v, chords[s.stop]? = some c ∧
      c.toVec (some s.key) true noReduction = .ok v ∧ r = v ++ zeros (1 + keyChangeVectorLength tt false) := by
  rw [KeySegment.replacement] at h
  obtain ⟨c, hc, h⟩ := bind_ok h
  obtain ⟨v, hv, h⟩ := bind_ok h
  injection h with h
  refine ⟨c, v, ?_, hv, h.symm⟩
  have := pyGet_nonneg _ _ _ (by omega) hc
  simpa using this

theorem valid_cons {x : KeyedPiece} (hx : KeyedPiece.Valid x) :
    ∃ cs k ks, x.keyChanges = 0 :: cs ∧ x.keys = k :: ks ∧ ks.length = cs.length := by
  obtain ⟨h1, h2, _, _⟩ := hx
  cases hc : x.keyChanges with
  | nil => rw [hc] at h2; simp at h2
  | cons a cs =>
    rw [hc] at h1 h2
    simp only [List.getElem?_cons_zero, Option.some.injEq] at h2
    subst h2
    cases hk : x.keys with
    | nil => rw [hk] at h1; simp at h1
    | cons k ks =>
      rw [hk] at h1
      exact ⟨cs, k, ks, rfl, rfl, by simpa using h1⟩

/-- C68: what a `KeyTransitionDataset` holds of a piece: one row for each chord, one item for each key
(change), and the item which follows the last key change. -/
theorem C68_transitions (x : KeyedPiece) (hx : KeyedPiece.Valid x) (d : PieceData (List ℚ))
    (h : transitionPiece x = .ok d) :
    ∃ k0, x.keys[0]? = some k0 ∧ WellFormed d ∧ RowsUpTo x k0.tonicType x.chords.length d.rows ∧
      d.lengths.length = x.keys.length ∧
      (∀ j n, x.keyChanges[j + 1]? = some n → d.lengths[j]? = some n ∧ d.targets[j]? = some 1 ∧
        ∃ r, d.replacements[j]? = some r ∧ ReplacementAt x k0.tonicType j n r) ∧
      d.targets[x.keys.length - 1]? = some 0 ∧ d.lengths[x.keys.length - 1]? = some x.chords.length := by
  obtain ⟨cs, k, ks, hc, hk, hlen⟩ := valid_cons hx
  have hinc := hx.increasing
  have hch := hx.chords
  rw [hc] at hinc hch
  have hpw : (0 :: cs ++ [x.chords.length]).Pairwise (· < ·) := by
    rw [List.pairwise_append]
    refine ⟨hinc, by simp, ?_⟩
    intro a ha b hb
    have : b = x.chords.length := by simpa using hb
    have := hch a ha
    omega
  rw [transitionPiece] at h
  obtain ⟨first, hfirst, h⟩ := bind_ok h
  obtain ⟨R, hR, h⟩ := bind_ok h
  obtain ⟨reps, hreps, h⟩ := bind_ok h
  injection h with h
  have hf : first = k := by
    rw [hk] at hfirst
    have h' : (.ok k : Py Key) = .ok first := hfirst
    injection h' with h'; exact h'.symm
  subst hf
  refine ⟨first, by rw [hk]; rfl, ?_⟩
  simp only [hc, hk, List.drop_succ_cons, List.drop_zero] at hR hreps h ⊢
  obtain ⟨f1, f2⟩ := segments_inv x.chords first.tonicType x.chords.length (Nat.le_refl _) cs 0 none first ks R
    hlen hpw hR
  obtain ⟨m1, m2⟩ := mapM_inv _ _ _ hR
  obtain ⟨r1, r2⟩ := mapM_inv _ _ _ hreps
  have hsegs : (keySegments (none :: (first :: ks).dropLast.map some) (first :: ks) (0 :: cs)
      (cs ++ [x.chords.length])).length = cs.length + 1 := by
    simp [keySegments, hlen]
  rw [hsegs] at m1
  rw [List.length_zip, m1, hsegs, Nat.min_self] at r1
  subst h
  have hRl : R.flatten.length = x.chords.length := by rw [f1]; rfl
  refine ⟨?_, ?_, ?_, ?_, ?_, ?_⟩
  · refine ⟨by simp, by simp [r1], by simp [hlen], ?_, ?_⟩
    · simp only
      rw [List.cons_append, List.pairwise_cons] at hpw
      exact hpw.2
    · simp only [List.getLast?_append, List.getLast?_singleton, Option.some_or, hRl]
  · refine ⟨hRl, ?_⟩
    intro i hi
    obtain ⟨c, row, e1, e2, e3⟩ := f2 i (by omega) hi
    refine ⟨c, row, _, e1, e2, ?_, e3⟩
    rw [hc, hk]
    exact changeIn_at cs 0 first ks i hlen hinc
  · simp [hlen]
  · intro j n hj
    rw [List.getElem?_cons_succ] at hj
    have hjl : j < cs.length := (List.getElem?_eq_some_iff.1 hj).1
    refine ⟨by rw [List.getElem?_append_left hjl, hj], ?_, ?_⟩
    · rw [List.getElem?_append_left (by simp; omega), List.getElem?_replicate, if_pos (by simp; omega)]
    · have hkj : (first :: ks)[j]? = some ((first :: ks)[j]'(by simp; omega)) := List.getElem?_eq_getElem _
      have hpj : j < (none :: (first :: ks).dropLast.map some).length := by simp; omega
      have haj : j < (0 :: cs).length := by simp; omega
      have hs := keySegments_get (List.getElem?_eq_getElem hpj) hkj (List.getElem?_eq_getElem haj)
        (show (cs ++ [x.chords.length])[j]? = some n by rw [List.getElem?_append_left hjl, hj])
      have hRj : j < R.length := by omega
      obtain ⟨r, q1, q2⟩ := r2 j (_, R[j]) (by
        rw [List.zip, List.getElem?_zipWith, hs, List.getElem?_eq_getElem hRj])
      simp only [KeySegment.replacementOrZeros] at q2
      have hn := hch n (List.mem_cons_of_mem _ (List.mem_of_getElem? hj))
      rw [if_pos (by omega)] at q2
      obtain ⟨c, v, v1, v2, v3⟩ := replacement_inv q2
      exact ⟨r, q1, _, c, v, by rw [hk]; exact hkj, v1, v2, v3⟩
  · rw [List.getElem?_append_right (by simp)]
    simp
  · rw [show (first :: ks).length - 1 = cs.length by simp [hlen], List.getElem?_append_right (Nat.le_refl _)]
    simp

/-- C68: what a `KeySequenceDataset` holds of a piece: nothing if there is one key only, otherwise one row
for each chord before the last key change and one item for each key change, whose target is the number of
the change. -/
theorem C68_sequences (x : KeyedPiece) (hx : KeyedPiece.Valid x) (o : Option (PieceData (List ℚ)))
    (h : sequencePiece x = .ok o) :
    (o = none ↔ x.keys.length = 1) ∧ ∀ d, o = some d →
      ∃ k0 last, x.keys[0]? = some k0 ∧ x.keyChanges.getLast? = some last ∧ WellFormed d ∧
      RowsUpTo x k0.tonicType last d.rows ∧ d.lengths.length + 1 = x.keys.length ∧
      ∀ j n, x.keyChanges[j + 1]? = some n → d.lengths[j]? = some n ∧
        (∃ r, d.replacements[j]? = some r ∧ ReplacementAt x k0.tonicType j n r) ∧
        ∃ a b i, x.keys[j]? = some a ∧ x.keys[j + 1]? = some b ∧ a.changeOneHot b = .ok i ∧
          d.targets[j]? = some i := by
  obtain ⟨cs, k, ks, hc, hk, hlen⟩ := valid_cons hx
  have hinc := hx.increasing
  have hch := hx.chords
  rw [hc] at hinc hch
  rw [sequencePiece] at h
  obtain ⟨first, hfirst, h⟩ := bind_ok h
  have hf : first = k := by
    rw [hk] at hfirst
    have h' : (.ok k : Py Key) = .ok first := hfirst
    injection h' with h'; exact h'.symm
  subst hf
  rw [hk, hc] at h
  by_cases hone : ks = []
  · subst hone
    have h' : (.ok none : Py (Option (PieceData (List ℚ)))) = .ok o := h
    injection h' with h'
    subst h'
    rw [hk]
    simp
  · have hkl : ¬ (first :: ks).length ≤ 1 := by
      have := List.length_pos_iff.2 hone
      simp only [List.length_cons]; omega
    simp only [if_neg hkl] at h
    obtain ⟨R, hR, h⟩ := bind_ok h
    obtain ⟨reps, hreps, h⟩ := bind_ok h
    obtain ⟨targets, ht, h⟩ := bind_ok h
    injection h with h
    subst h
    refine ⟨by rw [hk]; simp [hone], ?_⟩
    intro d hd
    injection hd with hd
    subst hd
    -- the last key and the last change
    obtain ⟨ks', kl, rfl⟩ : ∃ l a, ks = l ++ [a] := ⟨_, _, (List.dropLast_append_getLast hone).symm⟩
    have hcne : cs ≠ [] := by
      intro h
      rw [h] at hlen
      simp at hlen
    obtain ⟨cs', last, rfl⟩ : ∃ l a, cs = l ++ [a] := ⟨_, _, (List.dropLast_append_getLast hcne).symm⟩
    have hlen' : ks'.length = cs'.length := by simpa using hlen
    have e1 : (first :: (ks' ++ [kl])).dropLast = first :: ks' := by
      rw [← List.cons_append, List.dropLast_concat]
    have e2 : ((0 : Nat) :: (cs' ++ [last])).dropLast = 0 :: cs' := by
      rw [← List.cons_append, List.dropLast_concat]
    simp only [e1, e2, List.drop_succ_cons, List.drop_zero] at hR hreps
    have hlastlt : last < x.chords.length := hch last (by simp)
    obtain ⟨f1, f2⟩ := segments_inv x.chords first.tonicType last (by omega) cs' 0 none first ks' R
      hlen' (by simpa using hinc) hR
    obtain ⟨m1, m2⟩ := mapM_inv _ _ _ hR
    obtain ⟨r1, r2⟩ := mapM_inv _ _ _ hreps
    obtain ⟨t1, t2⟩ := mapM_inv _ _ _ ht
    have hsegs : (keySegments (none :: (first :: ks').dropLast.map some) (first :: ks') (0 :: cs')
        (cs' ++ [last])).length = cs'.length + 1 := by
      simp [keySegments, hlen']
    have hRl : R.flatten.length = last := by rw [f1]; rfl
    have hlast : (0 :: (cs' ++ [last])).getLast? = some last := by
      rw [← List.cons_append, List.getLast?_append]; simp
    refine ⟨first, last, by rw [hk]; rfl, by rw [hc]; exact hlast, ?_, ?_, ?_, ?_⟩
    · refine ⟨by simp, ?_, ?_, ?_, ?_⟩
      · simp only [List.drop_succ_cons, List.drop_zero]
        rw [r1, hsegs]; simp
      · simp only [List.drop_succ_cons, List.drop_zero]
        rw [t1]; simp [hlen']
      · rw [List.pairwise_cons] at hinc
        exact hinc.2
      · simp only [List.drop_succ_cons, List.drop_zero, hRl]
        rw [List.getLast?_append]; simp
    · refine ⟨hRl, ?_⟩
      intro i hi
      obtain ⟨c, row, g1, g2, g3⟩ := f2 i (by omega) hi
      refine ⟨c, row, _, g1, g2, ?_, g3⟩
      have hinc' : (0 :: cs').Pairwise (· < ·) := by
        rw [← List.cons_append, List.pairwise_append] at hinc
        exact hinc.1
      obtain ⟨a1, a2⟩ := changeIn_at cs' 0 first ks' i hlen' hinc'
      have hnot : ∀ j, (0 :: (cs' ++ [last]))[j + 1]? = some i → (0 :: cs')[j + 1]? = some i ∧ j < cs'.length := by
        intro j hj
        rw [List.getElem?_cons_succ] at hj ⊢
        by_cases hjl : j < cs'.length
        · rw [List.getElem?_append_left hjl] at hj
          exact ⟨hj, hjl⟩
        · rw [List.getElem?_append_right (by omega)] at hj
          have : i = last := by
            cases hz : j - cs'.length with
            | zero => rw [hz] at hj; simpa using hj.symm
            | succ z => rw [hz] at hj; simp at hj
          omega
      rw [hc, hk]
      constructor
      · intro j p k' hj hp hk'
        obtain ⟨hj', hjl⟩ := hnot j hj
        refine a1 j p k' hj' ?_ ?_
        · rw [← List.cons_append, List.getElem?_append_left (by simp; omega)] at hp
          exact hp
        · rw [← List.cons_append, List.getElem?_append_left (by simp; omega)] at hk'
          exact hk'
      · intro hne
        apply a2
        intro j hj
        apply hne j
        rw [List.getElem?_cons_succ] at hj ⊢
        rw [List.getElem?_append_left (List.getElem?_eq_some_iff.1 hj).1]
        exact hj
    · rw [hk]; simp [hlen']
    · intro j n hj
      rw [hc, List.getElem?_cons_succ] at hj
      have hjl : j < cs'.length + 1 := by
        have := (List.getElem?_eq_some_iff.1 hj).1
        simpa using this
      refine ⟨by simpa using hj, ?_, ?_⟩
      · have hkj : j < (first :: ks').length := by simp; omega
        have hpj : j < (none :: (first :: ks').dropLast.map some).length := by simp; omega
        have haj : j < (0 :: cs').length := by simp; omega
        have hs := keySegments_get (List.getElem?_eq_getElem hpj) (List.getElem?_eq_getElem hkj)
          (List.getElem?_eq_getElem haj) hj
        obtain ⟨r, q1, q2⟩ := r2 j _ hs
        obtain ⟨c, v, v1, v2, v3⟩ := replacement_inv q2
        refine ⟨r, q1, _, c, v, ?_, v1, v2, v3⟩
        rw [hk, ← List.cons_append, List.getElem?_append_left hkj]
        exact List.getElem?_eq_getElem hkj
      · have h1 : j < (first :: (ks' ++ [kl])).length := by simp; omega
        have h2 : j < (ks' ++ [kl]).length := by simp; omega
        obtain ⟨i, q1, q2⟩ := t2 j ((first :: (ks' ++ [kl]))[j], (ks' ++ [kl])[j]) (by
          rw [List.zip, List.getElem?_zipWith, List.getElem?_eq_getElem h1, List.drop_succ_cons, List.drop_zero,
            List.getElem?_eq_getElem h2])
        refine ⟨_, _, i, ?_, ?_, q2, q1⟩
        · rw [hk]; exact List.getElem?_eq_getElem h1
        · rw [hk, List.getElem?_cons_succ]; exact List.getElem?_eq_getElem h2

/-- A piece in C major that changes to G major at its third chord. -/
def demoPiece : KeyedPiece :=
  let c (root : Int) (tonic : Int) : Chord ℚ := ⟨root, root, tonic, .major, .major, 0, 3, 2, 1, .midi⟩
  let k (t : Int) : Key := ⟨t, t, t, .major, .major, .major, .midi⟩
  ⟨[c 0 0, c 7 0, c 2 7, c 7 7], [0, 2], [k 0, k 7]⟩

example : KeyedPiece.Valid demoPiece := ⟨rfl, rfl, by decide, by decide⟩

example : (transitionPiece demoPiece).map (fun d => (d.rows.length, d.lengths, d.targets)) =
    .ok (4, [2, 4], [1, 0]) := by decide +kernel

example : (sequencePiece demoPiece).map (·.map fun d => (d.rows.length, d.lengths, d.targets)) =
    .ok (some (2, [2], [7])) := by decide +kernel

end Verif.KeyDatasets
