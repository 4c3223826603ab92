import Verif.PieceKeys
import Verif.Props.FromSeries
import Verif.Props.Eval

/-!
# C79: the keys of a piece
-/

namespace Verif.PieceKeys

open Verif.Eval (Covers)
open Verif.FromSeries

/-! ## Masks -/

section
variable {γ : Type} {rep : γ → γ → Bool}

/-- The mask for a list after an element `p`. -/
def maskFrom (rep : γ → γ → Bool) (p : γ) (l : List γ) : List Bool :=
  List.zipWith (fun p n => !rep n p) (p :: l) l

theorem maskFrom_cons (p x : γ) (l : List γ) : maskFrom rep p (x :: l) = (!rep x p) :: maskFrom rep x l := rfl

theorem maskFrom_length (p : γ) (l : List γ) : (maskFrom rep p l).length = l.length := by
  simp [maskFrom]

theorem kept_cons {α : Type} (x : α) (b : Bool) (l : List α) (m : List Bool) :
    kept (x :: l) (b :: m) = if b = true then x :: kept l m else kept l m := by
  cases b <;> simp [kept]

theorem kept_sub {α : Type} (l : List α) (m : List Bool) : (kept l m).Sublist l := by
  induction l generalizing m with
  | nil => simp [kept]
  | cons x l ih =>
    cases m with
    | nil => simp [kept]
    | cons b m =>
      rw [kept_cons]
      cases b
      · exact (ih m).trans (List.sublist_cons_self x l)
      · exact (ih m).cons_cons x

/-- Same and different, for a test of repetition. -/
structure Equiv (rep : γ → γ → Bool) : Prop where
  refl : ∀ x, rep x x = true
  symm : ∀ x y, rep x y = true → rep y x = true
  trans : ∀ x y z, rep x y = true → rep y z = true → rep x z = true

/-- What is kept after `p`: each element of the list repeats the last one kept before it (or `p`). -/
theorem maskFrom_covers (h : Equiv rep) (l : List γ) {α : Type} :
    ∀ (p : γ) (c : List α), c.length = l.length → ∀ (i : Nat) x, l[i]? = some x →
      (rep x p = true ∧ ∀ b, (kept c (maskFrom rep p l))[0]? = some b → ∃ j, i < j ∧ c[j]? = some b) ∨
      ∃ (k j : Nat) (a : α) (y : γ), (kept l (maskFrom rep p l))[k]? = some y ∧
        (kept c (maskFrom rep p l))[k]? = some a ∧ j ≤ i ∧ c[j]? = some a ∧ rep x y = true ∧
        ∀ b, (kept c (maskFrom rep p l))[k + 1]? = some b → ∃ j, i < j ∧ c[j]? = some b := by
  induction l with
  | nil => intro p c _ i x hx; simp at hx
  | cons x0 l ih =>
    intro p c hc i x hx
    cases c with
    | nil => simp at hc
    | cons c0 c =>
      simp only [List.length_cons, Nat.add_right_cancel_iff] at hc
      have hsub : ∀ (b : α) (k : Nat), (kept c (maskFrom rep x0 l))[k]? = some b → ∃ j : Nat, c[j]? = some b := by
        intro b k hb
        exact List.getElem?_of_mem ((kept_sub c _).subset (List.mem_of_getElem? hb))
      rw [maskFrom_cons, kept_cons, kept_cons]
      by_cases hr : rep x0 p = true
      · rw [hr]
        simp only [Bool.not_true, Bool.false_eq_true, if_false]
        cases i with
        | zero =>
          left
          simp only [List.getElem?_cons_zero, Option.some.injEq] at hx
          subst hx
          refine ⟨hr, fun b hb => ?_⟩
          obtain ⟨j, hj⟩ := hsub b 0 hb
          exact ⟨j + 1, by omega, by simpa using hj⟩
        | succ i =>
          simp only [List.getElem?_cons_succ] at hx
          rcases ih x0 c hc i x hx with ⟨h1, h2⟩ | ⟨k, j, a, y, h1, h2, h3, h4, h5, h6⟩
          · left
            refine ⟨h.trans _ _ _ h1 hr, fun b hb => ?_⟩
            obtain ⟨j, hj, hj'⟩ := h2 b hb
            exact ⟨j + 1, by omega, by simpa using hj'⟩
          · right
            refine ⟨k, j + 1, a, y, h1, h2, by omega, by simpa using h4, h5, fun b hb => ?_⟩
            obtain ⟨j, hj, hj'⟩ := h6 b hb
            exact ⟨j + 1, by omega, by simpa using hj'⟩
      · have hr' : rep x0 p = false := by simpa using hr
        rw [hr']
        simp only [Bool.not_false, if_true]
        right
        cases i with
        | zero =>
          simp only [List.getElem?_cons_zero, Option.some.injEq] at hx
          subst hx
          refine ⟨0, 0, c0, x0, rfl, rfl, le_refl _, rfl, h.refl _, fun b hb => ?_⟩
          obtain ⟨j, hj⟩ := hsub b 0 (by simpa using hb)
          exact ⟨j + 1, by omega, by simpa using hj⟩
        | succ i =>
          simp only [List.getElem?_cons_succ] at hx
          rcases ih x0 c hc i x hx with ⟨h1, h2⟩ | ⟨k, j, a, y, h1, h2, h3, h4, h5, h6⟩
          · refine ⟨0, 0, c0, x0, rfl, rfl, by omega, rfl, h1, fun b hb => ?_⟩
            obtain ⟨j, hj, hj'⟩ := h2 b (by simpa using hb)
            exact ⟨j + 1, by omega, by simpa using hj'⟩
          · refine ⟨k + 1, j + 1, a, y, by simpa using h1, by simpa using h2, by omega, by simpa using h4, h5,
              fun b hb => ?_⟩
            obtain ⟨j, hj, hj'⟩ := h6 b (by simpa using hb)
            exact ⟨j + 1, by omega, by simpa using hj'⟩

/-- Adjacent elements that are kept differ. -/
theorem maskFrom_chain (h : Equiv rep) (l : List γ) : ∀ p,
    (kept l (maskFrom rep p l)).IsChain (fun x y => rep x y = false) ∧
      ∀ y, (kept l (maskFrom rep p l))[0]? = some y → rep p y = false := by
  induction l with
  | nil => intro p; simp [kept]
  | cons x0 l ih =>
    intro p
    obtain ⟨h1, h2⟩ := ih x0
    rw [maskFrom_cons, kept_cons]
    by_cases hr : rep x0 p = true
    · rw [hr]
      simp only [Bool.not_true, Bool.false_eq_true, if_false]
      refine ⟨h1, fun y hy => ?_⟩
      have := h2 y hy
      by_contra hc
      rw [Bool.not_eq_false] at hc
      rw [h.trans _ _ _ hr hc] at this
      cases this
    · have hr' : rep x0 p = false := by simpa using hr
      rw [hr']
      simp only [Bool.not_false, if_true]
      constructor
      · cases hk : kept l (maskFrom rep x0 l) with
        | nil => simp
        | cons z zs =>
          rw [hk] at h1 h2
          rw [List.isChain_cons_cons]
          exact ⟨h2 z rfl, h1⟩
      · intro y hy
        simp only [List.getElem?_cons_zero, Option.some.injEq] at hy
        subst hy
        by_contra hc
        rw [Bool.not_eq_false] at hc
        exact hr (h.symm _ _ hc)

/-- The whole mask. -/
def fullMask (rep : γ → γ → Bool) : List γ → List Bool
  | [] => []
  | a :: l => true :: maskFrom rep a l

theorem fullMask_length (l : List γ) : (fullMask rep l).length = l.length := by
  cases l <;> simp [fullMask, maskFrom_length]

/-- Each element repeats the one kept that covers it. -/
theorem fullMask_covers (h : Equiv rep) (l : List γ) {α : Type} (c : List α) (hc : c.length = l.length)
    (i : Nat) (x : γ) (hx : l[i]? = some x) :
    ∃ (k j : Nat) (a : α) (y : γ), (kept l (fullMask rep l))[k]? = some y ∧
      (kept c (fullMask rep l))[k]? = some a ∧ j ≤ i ∧ c[j]? = some a ∧ rep x y = true ∧
      ∀ b, (kept c (fullMask rep l))[k + 1]? = some b → ∃ j, i < j ∧ c[j]? = some b := by
  cases l with
  | nil => simp at hx
  | cons x0 l =>
    cases c with
    | nil => simp at hc
    | cons c0 c =>
      simp only [List.length_cons, Nat.add_right_cancel_iff] at hc
      rw [fullMask, kept_cons, kept_cons]
      simp only [if_true]
      cases i with
      | zero =>
        simp only [List.getElem?_cons_zero, Option.some.injEq] at hx
        subst hx
        refine ⟨0, 0, c0, x0, rfl, rfl, le_refl _, rfl, h.refl _, fun b hb => ?_⟩
        obtain ⟨j, hj⟩ := List.getElem?_of_mem ((kept_sub c _).subset (List.mem_of_getElem? (by simpa using hb)))
        exact ⟨j + 1, by omega, by simpa using hj⟩
      | succ i =>
        simp only [List.getElem?_cons_succ] at hx
        rcases maskFrom_covers h l x0 c hc i x hx with ⟨h1, h2⟩ | ⟨k, j, a, y, h1, h2, h3, h4, h5, h6⟩
        · refine ⟨0, 0, c0, x0, rfl, rfl, by omega, rfl, h1, fun b hb => ?_⟩
          obtain ⟨j, hj, hj'⟩ := h2 b (by simpa using hb)
          exact ⟨j + 1, by omega, by simpa using hj'⟩
        · refine ⟨k + 1, j + 1, a, y, by simpa using h1, by simpa using h2, by omega, by simpa using h4, h5,
            fun b hb => ?_⟩
          obtain ⟨j, hj, hj'⟩ := h6 b (by simpa using hb)
          exact ⟨j + 1, by omega, by simpa using hj'⟩

theorem fullMask_chain (h : Equiv rep) (l : List γ) :
    (kept l (fullMask rep l)).IsChain (fun x y => rep x y = false) := by
  cases l with
  | nil => simp [kept, fullMask]
  | cons x0 l =>
    rw [fullMask, kept_cons]
    simp only [if_true]
    obtain ⟨h1, h2⟩ := maskFrom_chain h l x0
    cases hk : kept l (maskFrom rep x0 l) with
    | nil => simp
    | cons z zs =>
      rw [hk] at h1 h2
      rw [List.isChain_cons_cons]
      exact ⟨h2 z rfl, h1⟩

theorem fullMask_head {α : Type} (x : γ) (l : List γ) (c0 : α) (c : List α) :
    (kept (c0 :: c) (fullMask rep (x :: l)))[0]? = some c0 := by
  rw [fullMask, kept_cons]; rfl

end

theorem reductionMask_eq {γ : Type} (rep : γ → γ → Bool) (l : List γ) :
    reductionMask rep l = fullMask rep l := by cases l <;> rfl

theorem changedMask_eq (l : List PieceRow) :
    changedMask l = fullMask (fun n p => decide (keyColumns n = keyColumns p)) l := by cases l <;> rfl

/-! ## Keys -/

/-- The tonic and mode of a key that count. -/
def tonicMode (useRelative : Bool) (k : Key) : Int × KeyMode :=
  if useRelative = true then (k.relativeTonic, k.relativeMode) else (k.localTonic, k.localMode)

theorem equals_iff (u : Bool) (k l : Key) :
    Key.equals u k l = true ↔ k.tonicType = l.tonicType ∧ tonicMode u k = tonicMode u l := by
  cases u <;> simp [Key.equals, tonicMode]

theorem equals_equiv (u : Bool) : Equiv (Key.equals u) := by
  refine ⟨fun x => ?_, fun x y h => ?_, fun x y z h h' => ?_⟩
  · exact (equals_iff _ _ _).2 ⟨rfl, rfl⟩
  · obtain ⟨a, b⟩ := (equals_iff _ _ _).1 h
    exact (equals_iff _ _ _).2 ⟨a.symm, b.symm⟩
  · obtain ⟨a, b⟩ := (equals_iff _ _ _).1 h
    obtain ⟨a', b'⟩ := (equals_iff _ _ _).1 h'
    exact (equals_iff _ _ _).2 ⟨a.trans a', b.trans b'⟩

theorem columns_equiv : Equiv (fun n p => decide (keyColumns n = keyColumns p)) := by
  refine ⟨fun x => by simp, fun x y h => ?_, fun x y z h h' => ?_⟩
  · simp only [decide_eq_true_eq] at h ⊢; exact h.symm
  · simp only [decide_eq_true_eq] at h h' ⊢; exact h.trans h'

/-- The key of a row. -/
def HasKey (r : PieceRow) (k : Key) : Prop := keyFromSeries r.row.key .tpc = some k

theorem minusOne_root (s t : Int × KeyMode) : ¬ Reaches .tpc "-1".toList s t := by
  intro h
  unfold Reaches decodeRelativeKeys at h
  have e : (splitSlash "-1".toList).reverse = ["-1".toList] := by decide
  rw [e] at h
  have hi : intervalFromNumeral "-1".toList s.2 .tpc = .error .keyError := by
    cases s.2 <;> decide
  simp only [decodeRelativeLoop, hi, Bind.bind, Except.bind] at h
  cases h

/-- Rows that do not differ in the columns that are compared have the same key. A relative root "-1" cannot
be read. -/
theorem columns_key {r s : PieceRow} (h : keyColumns r = keyColumns s) {k l : Key} (hr : HasKey r k)
    (hs : HasKey s l) : k = l := by
  simp only [keyColumns, Prod.mk.injEq] at h
  obtain ⟨h1, h2, h3, h4, h5⟩ := h
  have hne : ∀ (r : PieceRow) (k : Key), HasKey r k → r.row.key.relativeroot ≠ some "-1".toList := by
    intro r k hk e
    exact minusOne_root _ _ (((C78_key _ _ _).1 hk).2.2.2.2.2 _ e)
  have hrr : r.row.key.relativeroot = s.row.key.relativeroot := by
    have hr' := hne r k hr
    have hs' := hne s l hs
    cases e1 : r.row.key.relativeroot <;> cases e2 : s.row.key.relativeroot <;>
      rw [e1] at h5 hr' <;> rw [e2] at h5 hs' <;> simp only [Option.getD_some, Option.getD_none] at h5
    · rw [← h5] at hs'; exact absurd rfl hs'
    · rw [h5] at hr'; exact absurd rfl hr'
    · rw [h5]
  have hk : r.row.key = s.row.key := by
    generalize r.row.key = a at *
    generalize s.row.key = b at *
    cases a; cases b
    simp only at h1 h2 h4 hrr
    subst h1 h2 h4 hrr
    rfl
  unfold HasKey at hr hs
  rw [hk, hs] at hr
  injection hr with hr
  exact hr.symm

theorem keysList_spec (rows : List PieceRow) (h : ∀ r ∈ rows, ∃ k, HasKey r k) :
    (rows.filterMap (fun r => keyFromSeries r.row.key .tpc)).length = rows.length ∧
    ∀ (i : Nat) r, rows[i]? = some r → ∃ k,
      (rows.filterMap (fun r => keyFromSeries r.row.key .tpc))[i]? = some k ∧ HasKey r k := by
  induction rows with
  | nil => simp
  | cons r rows ih =>
    obtain ⟨k, hk⟩ := h r (by simp)
    obtain ⟨h1, h2⟩ := ih (fun r hr => h r (by simp [hr]))
    have hk' : keyFromSeries r.row.key .tpc = some k := hk
    rw [List.filterMap_cons, hk']
    refine ⟨by simp [h1], ?_⟩
    intro i r' hr'
    cases i with
    | zero =>
      simp only [List.getElem?_cons_zero, Option.some.injEq] at hr'
      subst hr'
      exact ⟨k, rfl, hk⟩
    | succ i =>
      simp only [List.getElem?_cons_succ] at hr' ⊢
      exact h2 i r' hr'

theorem kept_length {α β : Type} (l : List α) (l' : List β) (m : List Bool) (h : l.length = l'.length) :
    (kept l m).length = (kept l' m).length := by
  induction l generalizing l' m with
  | nil => cases l' with
    | nil => rfl
    | cons => simp at h
  | cons x l ih =>
    cases l' with
    | nil => simp at h
    | cons y l' =>
      cases m with
      | nil => simp [kept]
      | cons b m =>
        rw [kept_cons, kept_cons]
        simp only [List.length_cons, Nat.add_right_cancel_iff] at h
        cases b <;> simp [ih l' m h]

theorem le_at {c : List Nat} (h : c.Pairwise (· < ·)) {i j a b : Nat} (ha : c[i]? = some a)
    (hb : c[j]? = some b) (hij : i ≤ j) : a ≤ b := by
  rcases Nat.lt_or_eq_of_le hij with hlt | rfl
  · obtain ⟨hi, rfl⟩ := List.getElem?_eq_some_iff.1 ha
    obtain ⟨hj, rfl⟩ := List.getElem?_eq_some_iff.1 hb
    exact Nat.le_of_lt (List.pairwise_iff_getElem.1 h i j hi hj hlt)
  · rw [ha] at hb
    injection hb with hb
    omega

/-- C79: the keys of the rows of the chords: no exception, the first one begins at the first chord, they begin one
after another, adjacent ones differ, and at each chord the key is the one of its row. -/
theorem C79_keys (u : Bool) (rows : List PieceRow) (h : ∀ r ∈ rows, ∃ k, HasKey r k) :
    ∃ keys changes, pieceKeys u rows = .ok (keys, changes) ∧ keys.length = changes.length ∧
      (rows ≠ [] → changes[0]? = some 0) ∧ changes.Pairwise (· < ·) ∧ (∀ a ∈ changes, a < rows.length) ∧
      keys.IsChain (fun k l => tonicMode u k ≠ tonicMode u l) ∧
      ∀ (i : Nat) r, rows[i]? = some r → ∃ k, HasKey r k ∧
        ∃ l, Covers keys changes i l ∧ tonicMode u l = tonicMode u k := by
  set m1 := fullMask (fun n p => decide (keyColumns n = keyColumns p)) rows with hm1
  set c1 := kept (List.range rows.length) m1 with hc1
  set rows1 := kept rows m1 with hrows1
  set ks := rows1.filterMap (fun r => keyFromSeries r.row.key .tpc) with hks
  set m2 := fullMask (Key.equals u) ks with hm2
  have hlen1 : c1.length = rows1.length := kept_length _ _ _ (by simp)
  have hall1 : ∀ r ∈ rows1, ∃ k, HasKey r k := fun r hr => h r ((kept_sub _ _).subset hr)
  obtain ⟨hlen2, hget2⟩ := keysList_spec rows1 hall1
  rw [← hks] at hlen2 hget2
  have e : pieceKeys u rows = .ok (kept ks m2, kept c1 m2) := by
    unfold pieceKeys
    simp only [npMask, changedMask_eq, ← hm1, fullMask_length, List.length_range, if_true, reductionMask_eq,
      Bind.bind, Except.bind]
    rw [if_pos (by rw [hm1, fullMask_length])]
    simp only [if_pos (show rows.length = m1.length by rw [hm1, fullMask_length]), ← hc1, ← hrows1, ← hks, ← hm2]
    rw [if_pos (by rw [hlen2, hlen1])]
  have hinc : c1.Pairwise (· < ·) := (List.pairwise_lt_range).sublist (kept_sub _ _)
  refine ⟨_, _, e, kept_length _ _ _ (by rw [hlen2, hlen1]), ?_, hinc.sublist (kept_sub _ _), ?_, ?_, ?_⟩
  · intro hne
    cases rows with
    | nil => exact absurd rfl hne
    | cons r rows =>
      have hc0 : c1[0]? = some 0 := by
        rw [hc1, hm1, List.length_cons, List.range_succ_eq_map]
        exact fullMask_head _ _ _ _
      cases hc : c1 with
      | nil => rw [hc] at hc0; cases hc0
      | cons a c =>
        rw [hc] at hc0 hlen1
        simp only [List.getElem?_cons_zero, Option.some.injEq] at hc0
        subst hc0
        cases hk : ks with
        | nil => rw [hk] at hlen2; rw [← hlen2] at hlen1; simp at hlen1
        | cons k ks' =>
          rw [hm2, hk]
          exact fullMask_head _ _ _ _
  · intro a ha
    have := (kept_sub _ _).subset ((kept_sub _ _).subset ha)
    simpa using this
  · have htpc : ∀ k ∈ ks, k.tonicType = .tpc := by
      intro k hk
      obtain ⟨r, _, hr⟩ := List.mem_filterMap.1 hk
      exact ((C78_key _ _ _).1 hr).1
    have hch := fullMask_chain (equals_equiv u) ks
    rw [← hm2, List.isChain_iff_getElem] at hch
    rw [List.isChain_iff_getElem]
    intro i hi he
    have hc := hch i hi
    have h1 := htpc _ ((kept_sub ks m2).subset (List.getElem_mem (Nat.lt_of_succ_lt hi)))
    have h2 := htpc _ ((kept_sub ks m2).subset (List.getElem_mem hi))
    rw [(equals_iff _ _ _).2 ⟨h1.trans h2.symm, he⟩] at hc
    cases hc
  · intro i r hr
    obtain ⟨k, hk⟩ := h r (List.mem_of_getElem? hr)
    refine ⟨k, hk, ?_⟩
    obtain ⟨k1, j1, a1, y, h1, h2, h3, h4, h5, h6⟩ :=
      fullMask_covers columns_equiv rows (List.range rows.length) (by simp) i r hr
    rw [← hm1] at h1 h2 h6
    rw [← hrows1] at h1
    rw [← hc1] at h2 h6
    have hj1 : a1 = j1 := by
      rw [List.getElem?_range (by
        have := (List.getElem?_eq_some_iff.1 h4).1
        simpa using this)] at h4
      injection h4 with h4
      exact h4.symm
    obtain ⟨k', hk', hy⟩ := hget2 k1 y h1
    simp only [decide_eq_true_eq] at h5
    obtain rfl := columns_key h5 hk hy
    obtain ⟨k2, j2, a2, l, g1, g2, g3, g4, g5, g6⟩ :=
      fullMask_covers (equals_equiv u) ks c1 (by rw [hlen1, hlen2]) k1 k hk'
    rw [← hm2] at g1 g2 g6
    refine ⟨l, ⟨k2, a2, g1, g2, ?_, ?_⟩, ((equals_iff _ _ _).1 g5).2.symm⟩
    · have : a2 ≤ a1 := le_at hinc g4 h2 g3
      omega
    · intro b hb
      obtain ⟨j', hj', hb'⟩ := g6 b hb
      have hlt : k1 + 1 < c1.length := by
        have := (List.getElem?_eq_some_iff.1 hb').1
        omega
      obtain ⟨j3, hj3, hj3'⟩ := h6 _ (List.getElem?_eq_getElem hlt)
      have hle : c1[k1 + 1] ≤ b := le_at hinc (List.getElem?_eq_getElem hlt) hb' (by omega)
      have : j3 = c1[k1 + 1] := by
        rw [List.getElem?_range (by
          have := (List.getElem?_eq_some_iff.1 hj3').1
          simpa using this)] at hj3'
        injection hj3'
      omega

/-! ## The piece -/

/-- The attributes that do not change when a chord is merged. -/
def core (c : SeriesChord) : SeriesChord :=
  { c with chord := { c.chord with offsetLevel := 0, duration := 0 }, offset := (0, 0) }

theorem core_merge (a c : SeriesChord) : core (a.mergeWith c) = core a := rfl

theorem merge_spec (l : List SeriesChord) (m : List Bool) (acc : List SeriesChord) (hacc : acc ≠ []) :
    ∃ out, seriesMerge acc (l.zip m) = .ok out ∧
      out.map core = acc.reverse.map core ++ (kept l m).map core := by
  induction l generalizing m acc with
  | nil => exact ⟨_, rfl, by simp [kept]⟩
  | cons c l ih =>
    cases m with
    | nil => exact ⟨acc.reverse, by simp [seriesMerge], by simp [kept]⟩
    | cons b m =>
      rw [List.zip_cons_cons, kept_cons]
      cases b with
      | true =>
        obtain ⟨out, h1, h2⟩ := ih m (c :: acc) (by simp)
        exact ⟨out, by rw [seriesMerge, h1], by simp [h2]⟩
      | false =>
        cases acc with
        | nil => exact absurd rfl hacc
        | cons a acc =>
          obtain ⟨out, h1, h2⟩ := ih m (a.mergeWith c :: acc) (by simp)
          exact ⟨out, by rw [seriesMerge, h1], by simp [h2, core_merge]⟩

theorem merge_all (rep : SeriesChord → SeriesChord → Bool) (l : List SeriesChord) :
    ∃ out, seriesMerge [] (l.zip (fullMask rep l)) = .ok out ∧
      out.map core = (kept l (fullMask rep l)).map core := by
  cases l with
  | nil => exact ⟨[], rfl, rfl⟩
  | cons c l =>
    obtain ⟨out, h1, h2⟩ := merge_spec l (maskFrom rep c l) [c] (by simp)
    refine ⟨out, ?_, ?_⟩
    · rw [fullMask, List.zip_cons_cons, seriesMerge, h1]
    · rw [h2, fullMask, kept_cons]; simp

theorem kept_map {α β : Type} (f : α → β) (l : List α) (m : List Bool) : kept (l.map f) m = (kept l m).map f := by
  induction l generalizing m with
  | nil => simp [kept]
  | cons x l ih =>
    cases m with
    | nil => simp [kept]
    | cons b m =>
      rw [List.map_cons, kept_cons, kept_cons]
      cases b <;> simp [ih]

theorem read_right (T : List MeterRow) (red : Reduction) (useInv u : Bool) (cache : Option LevelCache)
    (hc : CacheRight cache) (rows : List PieceRow) :
    ∀ x ∈ readChords T red useInv u cache rows, ChordRight T .tpc red useInv u x.2.row x.1 := by
  intro x hx
  unfold readChords at hx
  rw [C78_table T .tpc red useInv u cache hc] at hx
  obtain ⟨y, hy, hy'⟩ := List.mem_filterMap.1 hx
  rw [Option.map_eq_some_iff] at hy'
  obtain ⟨c, hc1, hc2⟩ := hy'
  obtain ⟨i, hi⟩ := List.getElem?_of_mem hy
  rw [List.getElem?_zip_eq_some, List.map_map, List.getElem?_map] at hi
  obtain ⟨h1, h2⟩ := hi
  rw [h2] at h1
  simp only [Option.map_some, Option.some.injEq, Function.comp] at h1
  rw [hc1] at h1
  subst hc2
  exact ((C78_chord T .tpc red useInv u none (by rintro c ⟨⟩) y.2.row).1 c).1 h1

/-- C79: if not exactly one chord can be read, the chords of a piece lie under keys that begin at the first
chord and one after another, adjacent ones of which differ, such that at each chord the key has the tonic and
mode that the chord has been read with. -/
theorem C79_piece_partial (T : List MeterRow) (red : Reduction) (useInv u useSusp : Bool)
    (cache : Option LevelCache) (hc : CacheRight cache) (rows : List PieceRow)
    (hone : (readChords T red useInv u cache rows).length ≠ 1) :
    ∃ out, pieceHarmony T red useInv u useSusp cache rows = .ok out ∧
      out.keys.length = out.keyChanges.length ∧
      (out.chords ≠ [] → out.keyChanges[0]? = some 0) ∧ out.keyChanges.Pairwise (· < ·) ∧
      (∀ a ∈ out.keyChanges, a < out.chords.length) ∧
      out.keys.IsChain (fun k l => tonicMode u k ≠ tonicMode u l) ∧
      ∀ (i : Nat) c, out.chords[i]? = some c → ∃ l, Covers out.keys out.keyChanges i l ∧
        tonicMode u l = (c.chord.keyTonic, c.chord.keyMode) := by
  have hright := read_right T red useInv u cache hc rows
  generalize hread : readChords T red useInv u cache rows = read at hone hright
  set rep := SeriesChord.isRepeated useInv useSusp with hrep
  set m := fullMask rep (read.map (·.1)) with hm
  obtain ⟨chords, hch1, hch2⟩ := merge_all rep (read.map (·.1))
  rw [← hm] at hch1 hch2
  have hkeys : ∀ x ∈ read, ∃ k, HasKey x.2 k ∧ tonicMode u k = (x.1.chord.keyTonic, x.1.chord.keyMode) := by
    intro x hx
    obtain ⟨k, hk, hk'⟩ := (hright x hx).harmony
    refine ⟨k, hk.key, ?_⟩
    cases u
    · simp only [Bool.false_eq_true, if_false] at hk'
      simp [tonicMode, hk'.1, hk'.2]
    · simp only [if_true] at hk'
      simp [tonicMode, hk'.1, hk'.2]
  obtain ⟨keys, changes, hk1, hk2, hk3, hk4, hk5, hk6, hk7⟩ :=
    C79_keys u (kept (read.map (·.2)) m) (by
      intro r hr
      obtain ⟨x, hx, rfl⟩ := List.mem_map.1 ((kept_sub _ _).subset hr)
      obtain ⟨k, hk, _⟩ := hkeys x hx
      exact ⟨k, hk⟩)
  have hlen : (kept (read.map (·.2)) m).length = chords.length := by
    have := congrArg List.length hch2
    simp only [List.length_map] at this
    rw [this]
    exact kept_length _ _ _ (by simp)
  refine ⟨⟨chords, keys, changes⟩, ?_, hk2, ?_, hk4, ?_, hk6, ?_⟩
  · unfold pieceHarmony
    simp only [hread, squeezed, if_neg hone, Bind.bind, Except.bind, reductionMask_eq, ← hrep, ← hm, hch1, npMask]
    rw [if_pos (by rw [hm, fullMask_length]; simp)]
    simp only [hk1]
  · intro hne
    refine hk3 fun e => hne ?_
    rw [e] at hlen
    exact List.eq_nil_of_length_eq_zero hlen.symm
  · intro a ha
    rw [← hlen]; exact hk5 a ha
  · intro i c hci
    have h1 : (chords.map core)[i]? = some (core c) := by rw [List.getElem?_map, hci]; rfl
    rw [hch2, kept_map, List.map_map, List.getElem?_map, Option.map_eq_some_iff] at h1
    obtain ⟨x, hx, hx'⟩ := h1
    obtain ⟨k, hk, hkt⟩ := hkeys x ((kept_sub _ _).subset (List.mem_of_getElem? hx))
    obtain ⟨k', hk', l, hl, hlk⟩ := hk7 i x.2 (by rw [kept_map, List.getElem?_map, hx]; rfl)
    unfold HasKey at hk hk'
    rw [hk] at hk'
    injection hk' with hk'
    subst hk'
    refine ⟨l, hl, ?_⟩
    rw [hlk, hkt]
    have e1 := congrArg (fun c : SeriesChord => c.chord.keyTonic) hx'
    have e2 := congrArg (fun c : SeriesChord => c.chord.keyMode) hx'
    simp only [core, Function.comp] at e1 e2
    rw [e1, e2]

/-- C79: a piece of which exactly one chord can be read raises a `TypeError`. -/
theorem C79_fails_one (T : List MeterRow) (red : Reduction) (useInv u useSusp : Bool)
    (cache : Option LevelCache) (rows : List PieceRow)
    (hone : (readChords T red useInv u cache rows).length = 1) :
    pieceHarmony T red useInv u useSusp cache rows = .error .typeError := by
  unfold pieceHarmony
  simp only [squeezed, if_pos hone, Bind.bind, Except.bind]

/-- Rows for a chord in a measure of 4/4, one after another. -/
def chordRow (localkey : Str) (root : Int) (mc : Int) : PieceRow :=
  ⟨{ key := ⟨"C".toList, false, localkey, none⟩
     numeral := some "I".toList, root := root, chordType := "M".toList, figbass := none
     mc := mc, onset := 0, mcNext := mc + 1, onsetNext := 0, duration := 1, changes := none }, false⟩

/-- Measures of 4/4. -/
def fourMeasures : List MeterRow := [⟨0, 4, 4⟩, ⟨1, 4, 4⟩, ⟨2, 4, 4⟩, ⟨3, 4, 4⟩]

/-- C major: I, then G major: I, IV. -/
example : (pieceHarmony fourMeasures noReduction true true false (some [])
      [chordRow "I".toList 0 0, chordRow "V".toList 0 1, chordRow "V".toList (-1) 2]).map
        (fun p => (p.keys.map (tonicMode true), p.keyChanges)) =
    .ok ([(15, .major), (16, .major)], [0, 1]) := by decide +kernel

/-- C79: a key that is only annotated at a chord that repeats the chord before it is lost. Here the piece goes
from C major (I) to G major (IV, the same chord) and on to D major (I): the second of three rows has the key
of G major, but the piece has no such key. All rows are read. -/
theorem C79_fails_pivot :
    let rows := [chordRow "I".toList 0 0, chordRow "V".toList (-1) 1, chordRow "II".toList 0 2]
    (readChords fourMeasures noReduction true true (some []) rows).map (·.2) = rows ∧
    ∃ k out, HasKey (chordRow "V".toList (-1) 1) k ∧ tonicMode true k = (16, .major) ∧
      pieceHarmony fourMeasures noReduction true true false (some []) rows = .ok out ∧
      out.keys.map (tonicMode true) = [(15, .major), (17, .major)] ∧ out.keyChanges = [0, 1] := by
  refine ⟨by decide +kernel, ⟨16, 16, 15, .major, .major, .major, .tpc⟩, ?_⟩
  have e : (pieceHarmony fourMeasures noReduction true true false (some [])
      [chordRow "I".toList 0 0, chordRow "V".toList (-1) 1, chordRow "II".toList 0 2]).map
        (fun p => (p.keys.map (tonicMode true), p.keyChanges)) =
      .ok ([(15, .major), (17, .major)], [0, 1]) := by decide +kernel
  cases h : pieceHarmony fourMeasures noReduction true true false (some [])
      [chordRow "I".toList 0 0, chordRow "V".toList (-1) 1, chordRow "II".toList 0 2] with
  | error _ => rw [h] at e; cases e
  | ok out =>
    rw [h] at e
    simp only [Except.map, Except.ok.injEq, Prod.mk.injEq] at e
    exact ⟨out, by unfold HasKey; decide +kernel, by decide, rfl, e⟩

/-! ## The chords of a piece -/

/-- The same chord, as far as it is looked at. -/
def SameChord (useInv useSusp : Bool) (c d : SeriesChord) : Prop :=
  c.chord.pitchType = d.chord.pitchType ∧ c.chord.root = d.chord.root ∧ c.chord.chordType = d.chord.chordType ∧
    (useInv = true → c.chord.inversion = d.chord.inversion) ∧ (useSusp = true → c.suspension = d.suspension)

/-- One chord for a run of chords: the first one, up to the end of the last one, with the sum of the
durations. -/
def IsRun (g : SeriesChord × List SeriesChord) (o : SeriesChord) : Prop :=
  o = { g.1 with
    chord := { g.1.chord with
      offsetLevel := ((g.1 :: g.2).getLast (List.cons_ne_nil _ _)).chord.offsetLevel
      duration := ((g.1 :: g.2).map (·.chord.duration)).sum }
    offset := ((g.1 :: g.2).getLast (List.cons_ne_nil _ _)).offset }

theorem same_iff (u v : Bool) (c d : SeriesChord) : c.isRepeated u v d = true ↔ SameChord u v c d := by
  cases u <;> cases v <;> simp [SeriesChord.isRepeated, SameChord, and_assoc]

theorem SameChord.refl (u v : Bool) (c : SeriesChord) : SameChord u v c c :=
  ⟨rfl, rfl, rfl, fun _ => rfl, fun _ => rfl⟩

theorem SameChord.symm {u v : Bool} {c d : SeriesChord} (h : SameChord u v c d) : SameChord u v d c :=
  ⟨h.1.symm, h.2.1.symm, h.2.2.1.symm, fun x => (h.2.2.2.1 x).symm, fun x => (h.2.2.2.2 x).symm⟩

theorem SameChord.trans {u v : Bool} {c d e : SeriesChord} (h : SameChord u v c d) (h' : SameChord u v d e) :
    SameChord u v c e :=
  ⟨h.1.trans h'.1, h.2.1.trans h'.2.1, h.2.2.1.trans h'.2.2.1,
    fun x => (h.2.2.2.1 x).trans (h'.2.2.2.1 x), fun x => (h.2.2.2.2 x).trans (h'.2.2.2.2 x)⟩

theorem run_fold (a : SeriesChord) (l : List SeriesChord) : IsRun (a, l) (l.foldl SeriesChord.mergeWith a) := by
  induction l generalizing a with
  | nil => simp [IsRun]
  | cons b l ih =>
    have := ih (a.mergeWith b)
    rw [List.foldl_cons]
    rw [IsRun] at this ⊢
    rw [this]
    cases l with
    | nil => simp [SeriesChord.mergeWith]
    | cons c l => simp [SeriesChord.mergeWith, add_assoc]

theorem merge_runs (u v : Bool) (l : List SeriesChord) :
    ∀ (acc : List SeriesChord) (a p : SeriesChord), SameChord u v p a →
      ∃ (ext : List SeriesChord) (gs : List (SeriesChord × List SeriesChord)),
        l = ext ++ (gs.map (fun g => g.1 :: g.2)).flatten ∧
        seriesMerge (a :: acc) (l.zip (maskFrom (SeriesChord.isRepeated u v) p l)) =
          .ok (acc.reverse ++ ext.foldl SeriesChord.mergeWith a ::
            gs.map (fun g => g.2.foldl SeriesChord.mergeWith g.1)) ∧
        (∀ d ∈ ext, SameChord u v d a) ∧ (∀ g ∈ gs, ∀ d ∈ g.2, SameChord u v d g.1) ∧
        List.IsChain (fun x y => ¬ SameChord u v x y) (a :: gs.map (·.1)) := by
  induction l with
  | nil =>
    intro acc a p hp
    exact ⟨[], [], rfl, by simp [seriesMerge], by simp, by simp, by simp⟩
  | cons c l ih =>
    intro acc a p hp
    rw [maskFrom, List.zipWith_cons_cons, List.zip_cons_cons]
    by_cases hrep : SameChord u v c p
    · rw [(same_iff u v c p).2 hrep, Bool.not_true, seriesMerge]
      have hs : SameChord u v c (a.mergeWith c) := hrep.trans hp
      obtain ⟨ext, gs, h1, h2, h3, h4, h5⟩ := ih acc (a.mergeWith c) c hs
      refine ⟨c :: ext, gs, by rw [h1]; rfl, h2, ?_, h4, ?_⟩
      · intro d hd
        rcases List.mem_cons.mp hd with rfl | hd
        · exact hs
        · exact h3 d hd
      · cases gs with
        | nil => simp
        | cons g gs => simpa [List.isChain_cons_cons, SameChord, SeriesChord.mergeWith] using h5
    · have hf : SeriesChord.isRepeated u v c p = false := by
        rw [Bool.eq_false_iff]; exact fun h => hrep ((same_iff u v c p).1 h)
      rw [hf, Bool.not_false, seriesMerge]
      obtain ⟨ext, gs, h1, h2, h3, h4, h5⟩ := ih (a :: acc) c c (.refl ..)
      refine ⟨[], (c, ext) :: gs, by rw [h1]; simp, by rw [maskFrom] at h2; rw [h2]; simp, by simp, ?_, ?_⟩
      · intro g hg
        rcases List.mem_cons.mp hg with rfl | hg
        · exact h3
        · exact h4 g hg
      · rw [List.map_cons, List.isChain_cons_cons]
        exact ⟨fun h => hrep (h.symm.trans hp.symm), h5⟩

/-- C79: the chords of a piece are the maximal runs of the same chord among the chords that can be read, each as
one chord from the beginning of its first to the end of its last chord, with the sum of the durations. -/
theorem C79_chords (T : List MeterRow) (red : Reduction) (useInv u useSusp : Bool)
    (cache : Option LevelCache) (rows : List PieceRow) (out : PieceHarmony)
    (h : pieceHarmony T red useInv u useSusp cache rows = .ok out) :
    ∃ gs : List (SeriesChord × List SeriesChord),
      (readChords T red useInv u cache rows).map (·.1) = (gs.map (fun g => g.1 :: g.2)).flatten ∧
      List.Forall₂ IsRun gs out.chords ∧ (∀ g ∈ gs, ∀ d ∈ g.2, SameChord useInv useSusp d g.1) ∧
      List.IsChain (fun x y => ¬ SameChord useInv useSusp x y) (gs.map (·.1)) := by
  unfold pieceHarmony at h
  simp only [squeezed] at h
  split at h
  · cases h
  · simp only [Bind.bind, Except.bind, reductionMask_eq] at h
    split at h
    · cases h
    · rename_i chords hch
      split at h
      · cases h
      · split at h
        · cases h
        · injection h with h
          subst h
          simp only
          cases hl : (readChords T red useInv u cache rows).map (·.1) with
          | nil =>
            rw [hl] at hch
            simp only [fullMask, List.zip_nil_left, seriesMerge, List.reverse_nil, Except.ok.injEq] at hch
            subst hch
            exact ⟨[], by simp, .nil, by simp, by simp⟩
          | cons c l =>
            obtain ⟨ext, gs, h1, h2, h3, h4, h5⟩ := merge_runs useInv useSusp l [] c c (.refl ..)
            rw [hl, fullMask, List.zip_cons_cons, seriesMerge, h2] at hch
            injection hch with hch
            subst hch
            refine ⟨(c, ext) :: gs, by rw [h1]; simp, ?_, ?_, h5⟩
            · rw [List.reverse_nil, List.nil_append]
              refine .cons (run_fold c ext) ?_
              rw [List.forall₂_map_right_iff, List.forall₂_same]
              intro g _
              exact run_fold g.1 g.2
            · intro g hg
              rcases List.mem_cons.mp hg with rfl | hg
              · exact h3
              · exact h4 g hg

/-- Two rows of one chord, and another chord. -/
example : (pieceHarmony fourMeasures noReduction true true false (some [])
      [chordRow "I".toList 0 0, chordRow "I".toList 0 1, chordRow "V".toList (-2) 2]).map
        (fun p => p.chords.map fun c => (c.chord.root, c.chord.duration, c.onset, c.offset)) =
    .ok [(15, 2, (0, 0), (2, 0)), (14, 1, (2, 0), (3, 0))] := by decide +kernel

end Verif.PieceKeys
