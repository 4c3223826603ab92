import Mathlib.Algebra.Order.Ring.Rat
import Mathlib.Algebra.BigOperators.Group.List.Basic
import Mathlib.Data.Finset.Max
import Verif.Lemmas.MergeTies

/-!
Properties C94 and C95: merging of tied notes.
-/

namespace Verif.MergeTies

open Verif.Ties

/-! ### What is claimed -/

/-- The second note starts where the first one ends, in the same piece and at the same pitch. -/
def Follows (a b : TieNote) : Prop :=
  a.file = b.file ∧ a.midi = b.midi ∧ a.offMc = b.mc ∧ a.offBeat = b.onset

/-- The note stands for the notes of the chain: it is the first of them, with the duration of all of
them and the end of the last of them.  Every note of the chain starts where the one before ends. -/
def Merged (c : List TieNote) (n : TieNote) : Prop :=
  ∃ h l, c.head? = some h ∧ c.getLast? = some l ∧ List.IsChain Follows c ∧
    n = { h with
      dur := (c.map TieNote.dur).sum, offMc := l.offMc, offBeat := l.offBeat, tied := n.tied }

/-- The notes ties say something about. -/
def isTied (n : TieNote) : Bool := !n.grace && n.tied.isSome

/-- What `merge_ties` is given: distinct indexes, and `tied` one of `1`, `0`, `-1` where it is not
null. -/
structure Input (notes : List TieNote) : Prop where
  index : (notes.map fun n => (n.file, n.note)).Nodup
  tied : ∀ n ∈ notes, n.tied = none ∨ n.tied = some 1 ∨ n.tied = some 0 ∨ n.tied = some (-1)

/-- How many notes of the list end a tie. -/
def ends (c : List TieNote) : Nat := c.countP fun n => decide (n.tied = some (-1))

/-- The `tied` value of the note of a chain. -/
def TiedRight (c : List TieNote) (n : TieNote) : Prop :=
  ∀ h t, c = h :: t →
    (h.tied = some 1 → (∀ x ∈ t.dropLast, x.tied = some 0) ∧
      ((n.tied = some 1 ∧ ∀ x ∈ t, x.tied = some 0) ∨
        (n.tied = none ∧ ∃ l, t.getLast? = some l ∧ l.tied = some (-1)))) ∧
    (h.tied = some 0 → (∀ x ∈ t, x.tied = some 0 ∨ x.tied = some (-1)) ∧
      ((n.tied = some 0 ∧ ends t = 0) ∨ (n.tied = some (-1) ∧ ends t = 1) ∨
        (n.tied = none ∧ ends t = 2 ∧ ∃ l, t.getLast? = some l ∧ l.tied = some (-1)))) ∧
    (h.tied = some (-1) → t = [] ∧ n = h)

/-! ### Chains of the abstract system -/

/-- Chains that the steps build. -/
inductive Valid : List TieNote → Prop
  | single {h} : (h.tied = some 1 ∨ h.tied = some 0) → Valid [h]
  | snoc {c i} : Valid c → tieJoins (val c) i = true → (val c).tied ≠ none →
      (i.tied = some 0 ∨ i.tied = some (-1)) → Valid (c ++ [i])

theorem Valid.ne {c : List TieNote} (h : Valid c) : c ≠ [] := by
  cases h <;> simp

theorem joins_iff (a b : TieNote) : tieJoins a b = true ↔ Follows a b := by
  unfold tieJoins Follows
  simp [and_assoc]

theorem Valid.merged {c : List TieNote} (h : Valid c) : Merged c (val c) := by
  induction h with
  | @single h _ =>
    refine ⟨h, h, rfl, rfl, List.isChain_singleton _, ?_⟩
    rw [val_single]; simp
  | @snoc c i hc hj ht hi ih =>
    obtain ⟨h, l, h1, h2, h3, h4⟩ := ih
    refine ⟨h, i, ?_, by simp, ?_, ?_⟩
    · rw [List.head?_append, h1]; rfl
    · rw [List.isChain_append]
      refine ⟨h3, List.isChain_singleton _, ?_⟩
      intro x hx y hy
      rw [h2] at hx
      have hx : l = x := by simpa using hx
      have hy : i = y := by simpa using hy
      subst hx; subst hy
      obtain ⟨f1, f2, f3, f4⟩ := (joins_iff _ _).1 hj
      have hl : l.file = h.file ∧ l.midi = h.midi := by
        have key : ∀ (c : List TieNote), List.IsChain Follows c → ∀ h l, c.head? = some h →
            c.getLast? = some l → l.file = h.file ∧ l.midi = h.midi := by
          intro c
          induction c with
          | nil => intro _ h l hh; exact absurd hh (by simp)
          | cons x xs ih =>
            intro hc h l hh hl
            have hh : x = h := by simpa using hh
            subst hh
            cases xs with
            | nil =>
              have : x = l := by simpa using hl
              subst this; exact ⟨rfl, rfl⟩
            | cons y ys =>
              rw [List.isChain_cons_cons] at hc
              have := ih hc.2 y l rfl (by simpa using hl)
              exact ⟨this.1.trans hc.1.1.symm, this.2.trans hc.1.2.1.symm⟩
        exact key c h3 h l h1 h2
      rw [h4] at f1 f2 f3 f4
      exact ⟨hl.1.trans f1, hl.2.trans f2, f3, f4⟩
    · rw [val_append hc.ne, h4]
      simp [tieValues]

theorem Valid.tied {c : List TieNote} (h : Valid c) : TiedRight c (val c) := by
  induction h with
  | @single h hh =>
    intro h' t e
    obtain ⟨rfl, rfl⟩ : h = h' ∧ t = [] := by simpa [eq_comm] using e
    rw [val_single]
    refine ⟨fun e => ⟨by simp, .inl ⟨e, by simp⟩⟩, fun e => ⟨by simp, .inl ⟨e, by simp [ends]⟩⟩,
      fun e => ⟨rfl, rfl⟩⟩
  | @snoc c i hc hj ht hi ih =>
    intro h' t e
    rw [val_append hc.ne]
    cases c with
    | nil => exact absurd rfl hc.ne
    | cons h s =>
      obtain ⟨rfl, rfl⟩ : h = h' ∧ s ++ [i] = t := by simpa using e
      obtain ⟨i1, i2, i3⟩ := ih h s rfl
      have hval : (tieValues (val (h :: s)) (val (h :: s), i)).tied =
          newTied (val (h :: s)).tied i.tied := rfl
      refine ⟨fun e => ?_, fun e => ?_, fun e => ?_⟩
      · obtain ⟨_, h2⟩ := i1 e
        rcases h2 with ⟨h2, h3⟩ | ⟨h2, _⟩
        · rw [List.dropLast_concat]
          refine ⟨h3, ?_⟩
          rw [hval, h2]
          rcases hi with hi | hi
          · rw [hi]
            refine .inl ⟨rfl, fun x hx => ?_⟩
            rcases List.mem_append.1 hx with hx | hx
            · exact h3 x hx
            · rw [List.mem_singleton.1 hx]; exact hi
          · rw [hi]
            exact .inr ⟨rfl, i, by simp, hi⟩
        · exact absurd h2 ht
      · obtain ⟨h1, h2⟩ := i2 e
        refine ⟨fun x hx => ?_, ?_⟩
        · rcases List.mem_append.1 hx with hx | hx
          · exact h1 x hx
          · rw [List.mem_singleton.1 hx]; exact hi
        · have hends : ends (s ++ [i]) = ends s + (if i.tied = some (-1) then 1 else 0) := by
            unfold ends
            rw [List.countP_append]
            by_cases hx : i.tied = some (-1) <;> simp [hx]
          rw [hval, hends]
          rcases h2 with ⟨h2, h3⟩ | ⟨h2, h3⟩ | ⟨h2, _⟩
          · rw [h2, h3]
            rcases hi with hi | hi
            · rw [hi]; exact .inl ⟨rfl, rfl⟩
            · rw [hi]; exact .inr (.inl ⟨rfl, rfl⟩)
          · rw [h2, h3]
            rcases hi with hi | hi
            · rw [hi]; exact .inr (.inl ⟨rfl, rfl⟩)
            · rw [hi]; exact .inr (.inr ⟨rfl, rfl, i, by simp, hi⟩)
          · exact absurd h2 ht
      · exfalso
        have key : ∀ c, Valid c → ∀ h t, c = h :: t → h.tied ≠ some (-1) := by
          intro c hc
          induction hc with
          | single hh =>
            intro h t e
            obtain ⟨rfl, _⟩ := List.cons.inj e
            rcases hh with hh | hh <;> rw [hh] <;> decide
          | @snoc c i hc _ _ _ ih =>
            intro h t e
            cases c with
            | nil => exact absurd rfl hc.ne
            | cons x xs =>
              obtain ⟨rfl, _⟩ := List.cons.inj e
              exact ih x xs rfl
        exact key _ hc h s rfl e

theorem newTied_zero (a : Int) : newTied (some a) (some 0) = some a := by
  unfold newTied
  simp

theorem newTied_end (a : Int) :
    newTied (some a) (some (-1)) ≠ some 0 ∧ newTied (some a) (some (-1)) ≠ some 1 := by
  by_cases h : a = 0
  · subst h; decide
  · have : newTied (some a) (some (-1)) = none := by
      unfold newTied; simp [h]
    rw [this]; simp

theorem flatten_singles (l : List TieNote) : (l.map fun n => [n]).flatten = l := by
  induction l with
  | nil => rfl
  | cons x xs ih => simp [ih]

/-- A chain whose note has `tied == 0` ends with a note that has `tied == 0`. -/
theorem Valid.last_zero {c : List TieNote} (h : Valid c) (ht : (val c).tied = some 0) :
    ∃ z ∈ c, z.tied = some 0 ∧ ∀ x, tieJoins (val c) x = tieJoins z x := by
  cases h with
  | @single h _ => exact ⟨h, by simp, ht, fun x => rfl⟩
  | @snoc c i hc hj ht' hi =>
    rw [val_append hc.ne] at ht ⊢
    have ht2 : newTied (val c).tied i.tied = some 0 := ht
    have hi0 : i.tied = some 0 := by
      rcases hi with hi | hi
      · exact hi
      · exfalso
        rw [hi] at ht2
        cases hv : (val c).tied with
        | none => rw [hv] at ht2; exact absurd ht2 (by simp [newTied])
        | some a =>
          rw [hv] at ht2
          exact (newTied_end a).1 ht2
    refine ⟨i, by simp, hi0, fun x => ?_⟩
    obtain ⟨f1, f2, _, _⟩ := (joins_iff _ _).1 hj
    simp only [tieJoins, tieValues]
    rw [f1, f2]

/-! ### Invariant of the abstract steps -/

/-- The first note of the chain has `tied == 0`. -/
def HeadZero (c : List TieNote) (h : TieNote) : Prop := c.head? = some h ∧ h.tied = some 0

/-- Unfinished. -/
def Open (n : TieNote) : Prop := n.tied = some 0 ∨ n.tied = some 1

structure AInv (T : List TieNote) (a : AState) : Prop where
  perm : (a.out.flatten ++ a.fin.flatten ++ a.inn).Perm T
  valid : ∀ c, c ∈ a.out ∨ c ∈ a.fin → Valid c
  inn : ∀ i ∈ a.inn, i.tied = some 0 ∨ i.tied = some (-1)
  m1 : ∀ c ∈ a.fin, Open (val c) → ∀ i ∈ a.inn, tieJoins (val c) i = false
  m2 : ∀ c ∈ a.out, ∀ z ∈ c, z.tied = some 0 → ∀ c', c' ∈ a.out ∨ c' ∈ a.fin → ∀ h,
    HeadZero c' h → tieJoins z h = false
  m3 : ∀ c ∈ a.fin, Open (val c) → ∀ c', c' ∈ a.out ∨ c' ∈ a.fin → ∀ h,
    HeadZero c' h → tieJoins (val c) h = false
  m4 : ∀ z ∈ a.inn, z.tied = some 0 → ∀ c', c' ∈ a.out ∨ c' ∈ a.fin → ∀ h,
    HeadZero c' h → tieJoins z h = false
  m5 : (∃ c ∈ a.out, (val c).tied = some 1) → ∀ c', c' ∈ a.out ∨ c' ∈ a.fin → ∀ h,
    ¬ HeadZero c' h

theorem headZero_append {c : List TieNote} (hc : c ≠ []) {i h : TieNote} :
    HeadZero (c ++ [i]) h ↔ HeadZero c h := by
  unfold HeadZero
  cases c with
  | nil => exact absurd rfl hc
  | cons x xs => simp

theorem AInv.step {P : TieNote → TieNote → Prop} {T : List TieNote} {a b : AState}
    (h : AInv T a) (hs : AStep P a b) :
    AInv T b := by
  cases hs with
  | perm h1 h2 h3 =>
    have e1 : ∀ c, c ∈ b.out ↔ c ∈ a.out := fun c => h1.symm.mem_iff
    have e2 : ∀ c, c ∈ b.inn ↔ c ∈ a.inn := fun c => h2.symm.mem_iff
    have e3 : ∀ c, c ∈ b.fin ↔ c ∈ a.fin := fun c => h3.symm.mem_iff
    refine ⟨?_, ?_, ?_, ?_, ?_, ?_, ?_, ?_⟩
    · exact (((h1.flatten.append h3.flatten).append h2).symm).trans h.perm
    all_goals simp only [e1, e2, e3]
    · exact h.valid
    · exact h.inn
    · exact h.m1
    · exact h.m2
    · exact h.m3
    · exact h.m4
    · exact h.m5
  | @extend c i out inn fin hne hj ht _ =>
    have hv := h.valid c (.inl List.mem_cons_self)
    have hi := h.inn i List.mem_cons_self
    have hv' : Valid (c ++ [i]) := .snoc hv hj ht hi
    -- heads of the new chains are heads of the old ones
    have hh : ∀ c', c' ∈ (c ++ [i]) :: out ∨ c' ∈ fin → ∀ x, HeadZero c' x →
        ∃ c'', (c'' ∈ c :: out ∨ c'' ∈ fin) ∧ HeadZero c'' x := by
      intro c' hc' x hx
      rcases hc' with hc' | hc'
      · rcases List.mem_cons.1 hc' with rfl | hc'
        · exact ⟨c, .inl List.mem_cons_self, (headZero_append hne).1 hx⟩
        · exact ⟨c', .inl (List.mem_cons_of_mem _ hc'), hx⟩
      · exact ⟨c', .inr hc', hx⟩
    refine ⟨?_, ?_, ?_, ?_, ?_, ?_, ?_, ?_⟩
    · refine List.Perm.trans ?_ h.perm
      simp only [List.flatten_cons, List.append_assoc]
      refine List.Perm.append_left c ?_
      refine List.Perm.trans (List.perm_append_comm (l₁ := [i])) ?_
      rw [List.append_assoc, List.append_assoc]
      refine List.Perm.append_left _ (List.Perm.append_left _ ?_)
      exact (List.perm_append_comm (l₁ := inn) (l₂ := [i]))
    · intro c' hc'
      rcases hc' with hc' | hc'
      · rcases List.mem_cons.1 hc' with rfl | hc'
        · exact hv'
        · exact h.valid c' (.inl (List.mem_cons_of_mem _ hc'))
      · exact h.valid c' (.inr hc')
    · exact fun j hj => h.inn j (List.mem_cons_of_mem _ hj)
    · exact fun c' hc' ho j hj => h.m1 c' hc' ho j (List.mem_cons_of_mem _ hj)
    · intro c' hc' z hz hz0 d hd x hx
      obtain ⟨d', hd', hx'⟩ := hh d hd x hx
      rcases List.mem_cons.1 hc' with rfl | hc'
      · rcases List.mem_append.1 hz with hz | hz
        · exact h.m2 c List.mem_cons_self z hz hz0 d' hd' x hx'
        · rw [List.mem_singleton.1 hz] at hz0 ⊢
          exact h.m4 i List.mem_cons_self hz0 d' hd' x hx'
      · exact h.m2 c' (List.mem_cons_of_mem _ hc') z hz hz0 d' hd' x hx'
    · intro c' hc' ho d hd x hx
      obtain ⟨d', hd', hx'⟩ := hh d hd x hx
      exact h.m3 c' hc' ho d' hd' x hx'
    · intro z hz hz0 d hd x hx
      obtain ⟨d', hd', hx'⟩ := hh d hd x hx
      exact h.m4 z (List.mem_cons_of_mem _ hz) hz0 d' hd' x hx'
    · rintro ⟨c', hc', h1⟩ d hd x hx
      obtain ⟨d', hd', hx'⟩ := hh d hd x hx
      refine h.m5 ?_ d' hd' x hx'
      rcases List.mem_cons.1 hc' with rfl | hc'
      · refine ⟨c, List.mem_cons_self, ?_⟩
        rw [val_append hne] at h1
        have h1 : newTied (val c).tied i.tied = some 1 := h1
        cases hvt : (val c).tied with
        | none => exact absurd hvt ht
        | some a =>
          rw [hvt] at h1
          rcases hi with hi | hi
          · rw [hi, newTied_zero] at h1; exact h1
          · rw [hi] at h1
            exact absurd h1 (newTied_end a).2
      · exact ⟨c', List.mem_cons_of_mem _ hc', h1⟩
  | @finish c out inn fin hf =>
    have hh : ∀ c', (c' ∈ out ∨ c' ∈ c :: fin) → (c' ∈ c :: out ∨ c' ∈ fin) := by
      intro c' hc'
      rcases hc' with hc' | hc'
      · exact .inl (List.mem_cons_of_mem _ hc')
      · rcases List.mem_cons.1 hc' with rfl | hc'
        · exact .inl List.mem_cons_self
        · exact .inr hc'
    have hv := h.valid c (.inl List.mem_cons_self)
    refine ⟨?_, ?_, h.inn, ?_, ?_, ?_, ?_, ?_⟩
    · refine List.Perm.trans ?_ h.perm
      simp only [List.flatten_cons, ← List.append_assoc]
      refine List.Perm.append_right inn (List.Perm.append_right _ List.perm_append_comm)
    · exact fun c' hc' => h.valid c' (hh c' hc')
    · intro c' hc' ho i hi
      rcases List.mem_cons.1 hc' with rfl | hc'
      · rcases hf with hf | hf
        · rcases ho with ho | ho <;> rw [hf] at ho <;> exact absurd ho (by simp)
        · exact hf i hi
      · exact h.m1 c' hc' ho i hi
    · exact fun c' hc' z hz hz0 d hd x hx =>
        h.m2 c' (List.mem_cons_of_mem _ hc') z hz hz0 d (hh d hd) x hx
    · intro c' hc' ho d hd x hx
      rcases List.mem_cons.1 hc' with rfl | hc'
      · rcases ho with ho | ho
        · obtain ⟨z, hz, hz0, hzj⟩ := hv.last_zero ho
          rw [hzj]
          exact h.m2 c' List.mem_cons_self z hz hz0 d (hh d hd) x hx
        · exact absurd hx (h.m5 ⟨c', List.mem_cons_self, ho⟩ d (hh d hd) x)
      · exact h.m3 c' hc' ho d (hh d hd) x hx
    · exact fun z hz hz0 d hd x hx => h.m4 z hz hz0 d (hh d hd) x hx
    · rintro ⟨c', hc', h1⟩ d hd x hx
      exact h.m5 ⟨c', List.mem_cons_of_mem _ hc', h1⟩ d (hh d hd) x hx
  | @move mv inn fin h0 hj =>
    have hsingle : ∀ x h, HeadZero [x] h → h = x := by
      intro x h hx
      have : x = h := by simpa using hx.1
      exact this.symm
    refine ⟨?_, ?_, ?_, ?_, ?_, ?_, ?_, ?_⟩
    · refine List.Perm.trans ?_ h.perm
      have := flatten_singles mv
      simp only [this, List.flatten_nil, List.nil_append]
      rw [← List.append_assoc]
      exact List.Perm.append_right inn List.perm_append_comm
    · intro c hc
      rcases hc with hc | hc
      · obtain ⟨m, hm, rfl⟩ := List.mem_map.1 hc
        exact .single (.inr (h0 m hm))
      · exact h.valid c (.inr hc)
    · exact fun i hi => h.inn i (List.mem_append_right _ hi)
    · exact fun c hc ho i hi => h.m1 c hc ho i (List.mem_append_right _ hi)
    · intro c hc z hz hz0 d hd x hx
      obtain ⟨m, hm, rfl⟩ := List.mem_map.1 hc
      have hz : z = m := by simpa using hz
      subst hz
      rcases hd with hd | hd
      · obtain ⟨m', hm', rfl⟩ := List.mem_map.1 hd
        rw [hsingle _ _ hx]
        exact hj m' hm' z (List.mem_append_left _ hm) hz0
      · exact h.m4 z (List.mem_append_left _ hm) hz0 d (.inr hd) x hx
    · intro c hc ho d hd x hx
      rcases hd with hd | hd
      · obtain ⟨m', hm', rfl⟩ := List.mem_map.1 hd
        rw [hsingle _ _ hx]
        exact h.m1 c hc ho m' (List.mem_append_left _ hm')
      · exact h.m3 c hc ho d (.inr hd) x hx
    · intro z hz hz0 d hd x hx
      rcases hd with hd | hd
      · obtain ⟨m', hm', rfl⟩ := List.mem_map.1 hd
        rw [hsingle _ _ hx]
        exact hj m' hm' z (List.mem_append_right _ hz) hz0
      · exact h.m4 z (List.mem_append_right _ hz) hz0 d (.inr hd) x hx
    · rintro ⟨c, hc, h1⟩ d hd x hx
      obtain ⟨m, hm, rfl⟩ := List.mem_map.1 hc
      rw [val_single, h0 m hm] at h1
      exact absurd h1 (by decide)

theorem AInv.steps {P : TieNote → TieNote → Prop} {T : List TieNote} {a b : AState}
    (h : AInv T a) (hs : ASteps P a b) :
    AInv T b := by
  induction hs with
  | refl => exact h
  | tail _ h2 ih => exact ih.step h2

/-! ### The function -/

/-- The order of the frame that is returned. -/
def Before (a b : TieNote) : Prop := a.file < b.file ∨ (a.file = b.file ∧ a.note ≤ b.note)

theorem keyLe_iff (a b : TieNote) : keyLe a b ↔ Before a b := by
  unfold keyLe Before TieNote.key
  rw [Prod.Lex.le_iff]
  rfl

instance : Std.Total keyLe := ⟨fun a b => le_total (toLex a.key) (toLex b.key)⟩
instance : IsTrans TieNote keyLe := ⟨fun _ _ _ h1 h2 => le_trans (α := Int ×ₗ Int) h1 h2⟩

/-- What is known of a run of `merge_ties`. -/
structure Run (notes out : List TieNote) (a : AState) : Prop where
  done : a.out = []
  inv : AInv (notes.filter isTied) a
  res : out.Perm (notes.filter (fun n => !isTied n) ++ (a.fin.map val ++ a.inn))
  sorted : out.Pairwise Before
  rest : ∀ z ∈ a.inn, z.tied = some 0 → ∀ i ∈ a.inn, tieJoins z i = true →
    ∃ y ∈ a.inn, y.tied = some 0 ∧ tieJoins y z = true

/-- The frames at the start of the loop, before they are filled up. -/
def startOf (notes : List TieNote) : TieState :=
  { out := (notes.filter tieChanging).filter fun n => n.tied == some 1
    inn := (notes.filter tieChanging).filter fun n => n.tied == some 0 || n.tied == some (-1)
    fin := [] }

theorem start {notes : List TieNote} (hn : Input notes) : ∃ a0, Sim a0 (startOf notes) ∧
    Good (startOf notes) ∧ AInv (notes.filter isTied) a0 ∧ a0.fin = [] ∧
    (∀ c ∈ a0.out, ∃ x, c = [x] ∧ x.tied = some 1) ∧ size (startOf notes) ≤ 2 * notes.length := by
  let ch := notes.filter tieChanging
  let st0 : TieState := startOf notes
  let a0 : AState := ⟨st0.out.map fun n => [n], st0.inn, []⟩
  have hout1 : ∀ o ∈ st0.out, o.tied = some 1 := fun o ho => by
    simpa using (List.mem_filter.1 ho).2
  have hkey : ((notes.map TieNote.key)).Nodup := hn.index
  have hg : Good st0 := by
    refine ⟨?_, ?_, fun o ho e => ?_⟩
    · exact hkey.sublist (List.Sublist.map _ (List.filter_sublist.trans List.filter_sublist))
    · exact hkey.sublist (List.Sublist.map _ (List.filter_sublist.trans List.filter_sublist))
    · rw [hout1 o ho] at e; exact absurd e (by simp)
  have hs : Sim a0 st0 := by
    refine ⟨?_, List.Perm.refl _, List.Perm.refl _, ?_⟩
    · show ((st0.out.map fun n => [n]).map val).Perm _
      rw [List.map_map]
      have : st0.out.map (val ∘ fun x => [x]) = st0.out := by
        conv_rhs => rw [← List.map_id st0.out]
        rfl
      rw [this]
    · intro c hc
      obtain ⟨x, _, rfl⟩ := List.mem_map.1 hc
      simp
  have hflat := flatten_singles st0.out
  have hhead : ∀ c', c' ∈ a0.out ∨ c' ∈ a0.fin → ∀ h, ¬ HeadZero c' h := by
    intro c' hc' h hh
    rcases hc' with hc' | hc'
    · obtain ⟨x, hx, rfl⟩ := List.mem_map.1 hc'
      have : x = h := by simpa using hh.1
      subst this
      have := hh.2
      have h1 : x.tied = some 1 := by simpa using (List.mem_filter.1 hx).2
      rw [this] at h1; exact absurd h1 (by decide)
    · exact absurd hc' (by simp [a0])
  have hinv : AInv (notes.filter isTied) a0 := by
    refine ⟨?_, ?_, ?_, ?_, ?_, ?_, ?_, ?_⟩
    · show ((st0.out.map fun n => [n]).flatten ++ [] ++ st0.inn).Perm ch
      rw [hflat, List.append_nil]
      have e : st0.inn = ch.filter fun n => !(n.tied == some 1) := by
        refine List.filter_congr fun x hx => ?_
        obtain ⟨hx1, hx2⟩ := List.mem_filter.1 hx
        rcases hn.tied x hx1 with h | h | h | h
        · unfold tieChanging at hx2; rw [h] at hx2; simp at hx2
        all_goals rw [h]; decide
      rw [e]
      exact (perm_filter_split _ ch).symm
    · intro c hc
      rcases hc with hc | hc
      · obtain ⟨x, hx, rfl⟩ := List.mem_map.1 hc
        exact .single (.inl (hout1 x hx))
      · exact absurd hc (by simp [a0])
    · intro i hi
      simpa using (List.mem_filter.1 hi).2
    · intro c hc; exact absurd hc (by simp [a0])
    · exact fun _ _ _ _ _ d hd x hx => absurd hx (hhead d hd x)
    · intro c hc; exact absurd hc (by simp [a0])
    · exact fun _ _ _ d hd x hx => absurd hx (hhead d hd x)
    · exact fun _ => hhead
  refine ⟨a0, hs, hg, hinv, rfl, ?_, ?_⟩
  · intro c hc
    obtain ⟨x, hx, rfl⟩ := List.mem_map.1 hc
    exact ⟨x, rfl, hout1 x hx⟩
  · have h1 := hinv.perm.length_eq
    have h2 : (st0.out).length + (st0.inn).length = (notes.filter isTied).length := by
      rw [← h1]
      show _ = ((st0.out.map fun n => [n]).flatten ++ [] ++ st0.inn).length
      rw [hflat]; simp
    have h3 := List.length_filter_le isTied notes
    show size st0 ≤ _
    unfold size; omega

theorem run {ord : List TiePair → List TiePair} (hord : ∀ l, (ord l).Perm l)
    {notes : List TieNote} (hn : Input notes) {fuel : Nat} (hf : 2 * notes.length ≤ fuel) :
    ∃ out a, mergeTies ord fuel notes = .ok out ∧ Run notes out a := by
  obtain ⟨a0, hs, hg, hinv, _, _, h0⟩ := start hn
  obtain ⟨st1, e1, ok1, t1⟩ := refill_ok (P := Any) hord hs hg
  obtain ⟨a1, r1, s1⟩ := ok1.sim
  have hsize : size st1 ≤ fuel := by
    have := ok1.size
    omega
  obtain ⟨st2, e2, h2, t2, a2, r2, s2⟩ := tieLoop_ok hord fuel s1 ok1.good hsize t1
  refine ⟨(notes.filter (fun n => !tieChanging n) ++ st2.inn ++ st2.fin).insertionSort keyLe, a2,
    ?_, ?_, ?_, ?_, ?_, ?_⟩
  · unfold mergeTies
    show (refill ord (startOf notes) >>= fun st => tieLoop ord fuel st >>= _) = _
    rw [e1]
    show (tieLoop ord fuel st1 >>= _) = _
    rw [e2]
    rfl
  · have := s2.out.length_eq
    rw [h2] at this
    simpa using this
  · exact (hinv.steps r1).steps r2
  · refine (List.perm_insertionSort _ _).trans ?_
    rw [List.append_assoc]
    refine List.Perm.append_left _ ?_
    exact List.perm_append_comm.trans (s2.fin.symm.append s2.inn.symm)
  · exact (List.pairwise_insertionSort keyLe _).imp fun {x y} h => (keyLe_iff x y).1 h
  · intro z hz hz0 i hi hj
    obtain ⟨y, hy, hy0, hyj⟩ := t2 z (s2.inn.mem_iff.1 hz) hz0 i (s2.inn.mem_iff.1 hi) hj
    exact ⟨y, s2.inn.mem_iff.2 hy, hy0, hyj⟩

/-- Chains of all notes that ties say something about, and the notes they are merged to. -/
theorem Run.chains {notes out : List TieNote} {a : AState} (h : Run notes out a) :
    ∃ chains merged, out.Perm (notes.filter (fun n => !isTied n) ++ merged) ∧
      chains.flatten.Perm (notes.filter isTied) ∧
      List.Forall₂ (fun c n => Merged c n ∧ TiedRight c n) chains merged := by
  refine ⟨a.fin ++ a.inn.map (fun n => [n]), a.fin.map val ++ a.inn, h.res, ?_, ?_⟩
  · rw [List.flatten_append, flatten_singles]
    have := h.inv.perm
    rw [h.done] at this
    simpa using this
  · refine List.rel_append ?_ ?_
    · rw [List.forall₂_map_right_iff, List.forall₂_same]
      intro c hc
      have := h.inv.valid c (.inr hc)
      exact ⟨this.merged, this.tied⟩
    · rw [List.forall₂_map_left_iff, List.forall₂_same]
      intro i hi
      refine ⟨⟨i, i, rfl, rfl, List.isChain_singleton _, by simp⟩, ?_⟩
      intro h' t e
      obtain ⟨rfl, rfl⟩ : i = h' ∧ t = [] := by simpa [eq_comm] using e
      refine ⟨fun e => ?_, fun e => ⟨by simp, .inl ⟨e, by simp [ends]⟩⟩, fun _ => ⟨rfl, rfl⟩⟩
      rcases h.inv.inn i hi with h0 | h0 <;> rw [h0] at e <;> exact absurd e (by decide)

/-! ### C94 -/

/-- **C94.** `merge_ties` ends without an exception, whatever the order in which the merges list their
rows; the frame it returns is sorted by its index and consists of the grace notes and the notes
without a tie, as they were, and of one note for each of some chains of notes that contain every
other note exactly once. -/
theorem C94_merge {ord : List TiePair → List TiePair} (hord : ∀ l, (ord l).Perm l)
    {notes : List TieNote} (hn : Input notes) {fuel : Nat} (hf : 2 * notes.length ≤ fuel) :
    ∃ out chains merged, mergeTies ord fuel notes = .ok out ∧
      out.Pairwise Before ∧
      out.Perm (notes.filter (fun n => !isTied n) ++ merged) ∧
      chains.flatten.Perm (notes.filter isTied) ∧
      List.Forall₂ Merged chains merged := by
  obtain ⟨out, a, e, r⟩ := run hord hn hf
  obtain ⟨chains, merged, h1, h2, h3⟩ := r.chains
  exact ⟨out, chains, merged, e, r.sorted, h1, h2, h3.imp fun _ _ h => h.1⟩

theorem val_key {c : List TieNote} (hc : Valid c) : ∃ h t, c = h :: t ∧
    (val c).key = h.key ∧ (val c).file = h.file ∧ (val c).midi = h.midi ∧ (val c).mc = h.mc ∧
      (val c).onset = h.onset := by
  obtain ⟨h, l, h1, _, _, h4⟩ := hc.merged
  cases c with
  | nil => exact absurd h1 (by simp)
  | cons x xs =>
    have : x = h := by simpa using h1
    subst this
    rw [h4]
    exact ⟨x, xs, rfl, rfl, rfl, rfl, rfl, rfl⟩

theorem keys_sublist : ∀ (l : List (List TieNote)), (∀ c ∈ l, Valid c) →
    ((l.map val).map TieNote.key).Sublist (l.flatten.map TieNote.key)
  | [], _ => by simp
  | c :: cs, h => by
    obtain ⟨x, t, e, hk, _⟩ := val_key (h c List.mem_cons_self)
    have ih := keys_sublist cs fun d hd => h d (List.mem_cons_of_mem _ hd)
    rw [List.map_cons, List.map_cons, List.flatten_cons, List.map_append, hk, e, List.map_cons,
      List.cons_append]
    exact (ih.trans (List.sublist_append_right _ _)).cons_cons _

/-- **C94.** No index occurs twice in the frame that is returned, and every index is one of the
input. -/
theorem C94_index {ord : List TiePair → List TiePair} (hord : ∀ l, (ord l).Perm l)
    {notes : List TieNote} (hn : Input notes) {fuel : Nat} (hf : 2 * notes.length ≤ fuel)
    {out : List TieNote} (he : mergeTies ord fuel notes = .ok out) :
    (out.map fun n => (n.file, n.note)).Nodup ∧
      ∀ n ∈ out, (n.file, n.note) ∈ notes.map fun n => (n.file, n.note) := by
  obtain ⟨out', a, e, r⟩ := run hord hn hf
  rw [he] at e
  obtain rfl := Except.ok.inj e
  have hp : (out.map TieNote.key).Perm
      ((notes.filter (fun n => !isTied n)).map TieNote.key ++
        ((a.fin.map val).map TieNote.key ++ a.inn.map TieNote.key)) := by
    have := r.res.map TieNote.key
    rwa [List.map_append, List.map_append] at this
  have hsub : ((notes.filter (fun n => !isTied n)).map TieNote.key ++
        ((a.fin.map val).map TieNote.key ++ a.inn.map TieNote.key)).Sublist
      ((notes.filter (fun n => !isTied n)).map TieNote.key ++
        (a.fin.flatten.map TieNote.key ++ a.inn.map TieNote.key)) :=
    (List.Sublist.refl _).append ((keys_sublist _ fun c hc => r.inv.valid c (.inr hc)).append
      (List.Sublist.refl _))
  have hq : ((notes.filter (fun n => !isTied n)).map TieNote.key ++
        (a.fin.flatten.map TieNote.key ++ a.inn.map TieNote.key)).Perm
      (notes.map TieNote.key) := by
    rw [← List.map_append, ← List.map_append]
    refine List.Perm.map _ ?_
    have h1 := r.inv.perm
    rw [r.done] at h1
    have h1 : (a.fin.flatten ++ a.inn).Perm (notes.filter isTied) := by simpa using h1
    exact (List.Perm.append_left _ h1).trans
      (List.perm_append_comm.trans (perm_filter_split isTied notes).symm)
  constructor
  · exact hp.nodup_iff.2 ((hq.nodup_iff.2 hn.index).sublist hsub)
  · intro n hno
    exact hq.mem_iff.1 (hsub.subset (hp.mem_iff.1 (List.mem_map.2 ⟨n, hno, rfl⟩)))

/-- Weight of a note in the total duration at a pitch of a piece. -/
def weight (f m : Int) (n : TieNote) : ℚ := if n.file = f ∧ n.midi = m then n.dur else 0

theorem weight_val (f m : Int) {c : List TieNote} (h : Valid c) :
    weight f m (val c) = (c.map (weight f m)).sum := by
  induction h with
  | single => simp [val_single]
  | @snoc c i hc hj _ _ ih =>
    obtain ⟨f1, f2, _, _⟩ := (joins_iff _ _).1 hj
    rw [val_append hc.ne, List.map_append, List.sum_append, ← ih]
    unfold weight
    show (if (val c).file = f ∧ (val c).midi = m then (val c).dur + i.dur else 0) = _
    simp only [List.map_cons, List.map_nil, List.sum_cons, List.sum_nil, add_zero]
    rw [← f1, ← f2]
    split <;> simp

/-- **C94.** The total duration of the notes of every pitch of every piece stays the same. -/
theorem C94_duration {ord : List TiePair → List TiePair} (hord : ∀ l, (ord l).Perm l)
    {notes : List TieNote} (hn : Input notes) {fuel : Nat} (hf : 2 * notes.length ≤ fuel)
    {out : List TieNote} (he : mergeTies ord fuel notes = .ok out) (f m : Int) :
    (out.map fun n => if n.file = f ∧ n.midi = m then n.dur else 0).sum =
      (notes.map fun n => if n.file = f ∧ n.midi = m then n.dur else 0).sum := by
  show (out.map (weight f m)).sum = (notes.map (weight f m)).sum
  obtain ⟨out', a, e, r⟩ := run hord hn hf
  rw [he] at e
  obtain rfl := Except.ok.inj e
  have hfin : ∀ l : List (List TieNote), (∀ c ∈ l, Valid c) →
      ((l.map val).map (weight f m)).sum = (l.flatten.map (weight f m)).sum := by
    intro l
    induction l with
    | nil => intro _; rfl
    | cons c cs ih =>
      intro h
      rw [List.map_cons, List.map_cons, List.sum_cons, List.flatten_cons, List.map_append,
        List.sum_append, ih fun d hd => h d (List.mem_cons_of_mem _ hd),
        weight_val f m (h c List.mem_cons_self)]
  have h1 := r.inv.perm
  rw [r.done] at h1
  have h1 : (a.fin.flatten ++ a.inn).Perm (notes.filter isTied) := by simpa using h1
  have h2 := (h1.map (weight f m)).sum_eq
  rw [List.map_append, List.sum_append] at h2
  rw [(r.res.map (weight f m)).sum_eq, ((perm_filter_split isTied notes).map (weight f m)).sum_eq,
    List.map_append, List.sum_append, List.map_append, List.sum_append, List.map_append,
    List.sum_append, hfin _ fun c hc => r.inv.valid c (.inr hc), h2, add_comm]

/-! ### C95 -/

/-- **C95.** The `tied` values.  A chain that starts with a tied out note (`1`) goes on with notes tied
in and out (`0`) and is either ended by a note that is tied in only (`-1`), which makes its note
untied, or is left at `1`.  Of a chain that starts with a `0`, the value tells the number of ends in
it; it can have two of them, see `C95_fails`.  A `-1` that starts a chain is alone. -/
theorem C95_tied_partial {ord : List TiePair → List TiePair} (hord : ∀ l, (ord l).Perm l)
    {notes : List TieNote} (hn : Input notes) {fuel : Nat} (hf : 2 * notes.length ≤ fuel)
    {out : List TieNote} (he : mergeTies ord fuel notes = .ok out) :
    ∃ chains merged, out.Perm (notes.filter (fun n => !isTied n) ++ merged) ∧
      chains.flatten.Perm (notes.filter isTied) ∧
      List.Forall₂ (fun c n => Merged c n ∧ TiedRight c n) chains merged := by
  obtain ⟨out', a, e, r⟩ := run hord hn hf
  rw [he] at e
  obtain rfl := Except.ok.inj e
  exact r.chains

/-- Notes end after they start. -/
def EndsLater (n : TieNote) : Prop := n.mc < n.offMc ∨ (n.mc = n.offMc ∧ n.onset < n.offBeat)

/-- Where a note of the result comes from. -/
theorem Run.cases {notes out : List TieNote} {a : AState} (r : Run notes out a)
    (hn : Input notes) {i i0 : TieNote} (hi : i ∈ out) (h0 : i0 ∈ notes)
    (hk : (i.file, i.note) = (i0.file, i0.note)) (ht : isTied i0 = true)
    (h1 : i0.tied = some 0 ∨ i0.tied = some (-1)) :
    (∃ c ∈ a.fin, HeadZero c i0) ∨ i0 ∈ a.inn := by
  have hall : ∀ x, x ∈ a.fin.flatten ∨ x ∈ a.inn → x ∈ notes ∧ isTied x = true := by
    intro x hx
    have := r.inv.perm.mem_iff (a := x)
    rw [r.done] at this
    simp only [List.flatten_nil, List.nil_append, List.mem_append] at this
    exact List.mem_filter.1 (this.1 hx)
  have hinj : ∀ x ∈ notes, x.key = i0.key → x = i0 := fun x hx e => key_inj hn.index hx h0 e
  rcases List.mem_append.1 (r.res.mem_iff.1 hi) with h | h
  · exfalso
    obtain ⟨h2, h3⟩ := List.mem_filter.1 h
    have := hinj i h2 hk
    rw [this, ht] at h3
    exact absurd h3 (by decide)
  · rcases List.mem_append.1 h with h | h
    · obtain ⟨c, hc, rfl⟩ := List.mem_map.1 h
      have hv := r.inv.valid c (.inr hc)
      obtain ⟨x, t, e, hx, _⟩ := val_key hv
      have hxn : x ∈ notes :=
        (hall x (.inl (List.mem_flatten.2 ⟨c, hc, by rw [e]; exact List.mem_cons_self⟩))).1
      have := hinj x hxn (hx.symm.trans hk)
      subst this
      refine .inl ⟨c, hc, by rw [e]; rfl, ?_⟩
      rcases h1 with h1 | h1
      · exact h1
      · exfalso
        have h5 : ∀ c, Valid c → ∀ x, c.head? = some x → x.tied ≠ some (-1) := by
          intro c hc
          induction hc with
          | single hh =>
            intro x e
            obtain rfl := Option.some.inj e
            rcases hh with hh | hh <;> rw [hh] <;> decide
          | @snoc c i hc _ _ _ ih =>
            intro x e
            cases c with
            | nil => exact absurd rfl hc.ne
            | cons y ys => exact ih x e
        exact h5 c hv x (by rw [e]; rfl) h1
    · have := hinj i (hall i (.inr h)).1 hk
      rw [this] at h
      exact .inr h

/-- Where a note of the result whose tie is open comes from. -/
theorem Run.open {notes out : List TieNote} {a : AState} (r : Run notes out a) {o : TieNote}
    (ho : o ∈ out) (hg : o.grace = false) (ht : Open o) :
    (∃ c ∈ a.fin, o = val c) ∨ (o ∈ a.inn ∧ o.tied = some 0) := by
  rcases List.mem_append.1 (r.res.mem_iff.1 ho) with h | h
  · exfalso
    have := (List.mem_filter.1 h).2
    rcases ht with ht | ht <;> simp [isTied, hg, ht] at this
  · rcases List.mem_append.1 h with h | h
    · obtain ⟨c, hc, rfl⟩ := List.mem_map.1 h
      exact .inl ⟨c, hc, rfl⟩
    · refine .inr ⟨h, ?_⟩
      rcases r.inv.inn o h with h1 | h1
      · exact h1
      · rcases ht with ht | ht
        · exact ht
        · rw [h1] at ht; exact absurd ht (by decide)

theorem Run.maximal {notes out : List TieNote} {a : AState} (r : Run notes out a)
    (hn : Input notes) {o i i0 : TieNote} (ho : o ∈ out) (hg : o.grace = false) (hopen : Open o)
    (hi : i ∈ out) (h0 : i0 ∈ notes)
    (hk : (i.file, i.note) = (i0.file, i0.note)) (ht : isTied i0 = true)
    (h1 : i0.tied = some 0 ∨ i0.tied = some (-1)) (hf : Follows o i0) :
    o ∈ a.inn ∧ o.tied = some 0 ∧ i0 ∈ a.inn := by
  have hj := (joins_iff o i0).2 hf
  rcases r.open ho hg hopen with ⟨c, hc, rfl⟩ | ⟨ho1, ho2⟩
  · exfalso
    rcases r.cases hn hi h0 hk ht h1 with ⟨c', hc', hz⟩ | hin
    · rw [r.inv.m3 c hc hopen c' (.inr hc') i0 hz] at hj
      exact absurd hj (by decide)
    · rw [r.inv.m1 c hc hopen i0 hin] at hj
      exact absurd hj (by decide)
  · rcases r.cases hn hi h0 hk ht h1 with ⟨c', hc', hz⟩ | hin
    · rw [r.inv.m4 o ho1 ho2 c' (.inr hc') i0 hz] at hj
      exact absurd hj (by decide)
    · exact ⟨ho1, ho2, hin⟩

/-- **C95.** Where a note of the result is still tied out of (`1`), no note of the result that was tied
into starts at its end. -/
theorem C95_no_match_left {ord : List TiePair → List TiePair} (hord : ∀ l, (ord l).Perm l)
    {notes : List TieNote} (hn : Input notes) {fuel : Nat} (hf : 2 * notes.length ≤ fuel)
    {out : List TieNote} (he : mergeTies ord fuel notes = .ok out) {o i i0 : TieNote}
    (ho : o ∈ out) (hg : o.grace = false) (hopen : o.tied = some 1)
    (hi : i ∈ out) (h0 : i0 ∈ notes) (hk : (i.file, i.note) = (i0.file, i0.note))
    (hg0 : i0.grace = false) (h1 : i0.tied = some 0 ∨ i0.tied = some (-1)) : ¬ Follows o i0 := by
  intro hfo
  obtain ⟨out', a, e, r⟩ := run hord hn hf
  rw [he] at e
  obtain rfl := Except.ok.inj e
  have ht : isTied i0 = true := by rcases h1 with h | h <;> simp [isTied, hg0, h]
  obtain ⟨_, h2, _⟩ := r.maximal hn ho hg (.inr hopen) hi h0 hk ht h1 hfo
  rw [h2] at hopen; exact absurd hopen (by decide)

/-- **C95.** If notes end after they start, the same holds where a note of the result is still tied into
and out of (`0`). -/
theorem C95_no_match_left_both {ord : List TiePair → List TiePair} (hord : ∀ l, (ord l).Perm l)
    {notes : List TieNote} (hn : Input notes) {fuel : Nat} (hf : 2 * notes.length ≤ fuel)
    (hlater : ∀ n ∈ notes, isTied n = true → EndsLater n)
    {out : List TieNote} (he : mergeTies ord fuel notes = .ok out) {o i i0 : TieNote}
    (ho : o ∈ out) (hg : o.grace = false) (hopen : o.tied = some 0)
    (hi : i ∈ out) (h0 : i0 ∈ notes) (hk : (i.file, i.note) = (i0.file, i0.note))
    (hg0 : i0.grace = false) (h1 : i0.tied = some 0 ∨ i0.tied = some (-1)) : ¬ Follows o i0 := by
  intro hfo
  obtain ⟨out', a, e, r⟩ := run hord hn hf
  rw [he] at e
  obtain rfl := Except.ok.inj e
  have ht : isTied i0 = true := by rcases h1 with h | h <;> simp [isTied, hg0, h]
  obtain ⟨h2, h3, h4⟩ := r.maximal hn ho hg (.inl hopen) hi h0 hk ht h1 hfo
  -- the earliest note with `tied == 0` that a remaining note follows
  have hall : ∀ x ∈ a.inn, EndsLater x := by
    intro x hx
    have := r.inv.perm.mem_iff (a := x)
    rw [r.done] at this
    simp only [List.flatten_nil, List.nil_append, List.mem_append] at this
    obtain ⟨h5, h6⟩ := List.mem_filter.1 (this.1 (.inr hx))
    exact hlater x h5 h6
  let L := a.inn.filter fun z => decide (z.tied = some 0) && a.inn.any (tieJoins z)
  have hoL : o ∈ L.toFinset := by
    rw [List.mem_toFinset]
    refine List.mem_filter.2 ⟨h2, ?_⟩
    rw [Bool.and_eq_true, List.any_eq_true]
    exact ⟨by simpa using h3, i0, h4, (joins_iff _ _).2 hfo⟩
  obtain ⟨z, hz, hmin⟩ := Finset.exists_min_image L.toFinset
    (fun z : TieNote => (toLex (z.mc, z.onset) : Int ×ₗ ℚ)) ⟨o, hoL⟩
  rw [List.mem_toFinset] at hz
  obtain ⟨hz1, hz2⟩ := List.mem_filter.1 hz
  rw [Bool.and_eq_true, List.any_eq_true] at hz2
  obtain ⟨hz0, j, hj, hzj⟩ := hz2
  obtain ⟨y, hy, hy0, hyj⟩ := r.rest z hz1 (by simpa using hz0) j hj hzj
  have hyL : y ∈ L.toFinset := by
    rw [List.mem_toFinset]
    refine List.mem_filter.2 ⟨hy, ?_⟩
    rw [Bool.and_eq_true, List.any_eq_true]
    exact ⟨by simpa using hy0, z, hz1, hyj⟩
  have hle := hmin y hyL
  obtain ⟨_, _, f3, f4⟩ := (joins_iff y z).1 hyj
  have hlt := hall y hy
  rw [Prod.Lex.le_iff] at hle
  have hle : z.mc < y.mc ∨ z.mc = y.mc ∧ z.onset ≤ y.onset := hle
  unfold EndsLater at hlt
  rw [f3, f4] at hlt
  rcases hlt with hlt | ⟨hlt1, hlt2⟩ <;> rcases hle with hle | ⟨hle1, hle2⟩
  · omega
  · omega
  · omega
  · exact absurd hlt2 (not_lt.2 hle2)

/-- A note of a piece that lasts one measure. -/
def wholeNote (k : Int) (t : Option Int) : TieNote :=
  ⟨0, k, k, 0, 1, 60, 1, 1, false, t, k + 1, 0⟩

/-- **C95.** The documentation says that a chain that starts with an unmatched `0` and reaches a `-1` has
`tied == -1`.  A `-1` that starts where such a chain ends is merged into it all the same, so two
notes of which the second is not tied to the first become one, and that one looks untied. -/
theorem C95_fails :
    Input [wholeNote 0 (some 0), wholeNote 1 (some (-1)), wholeNote 2 (some (-1))] ∧
    mergeTies id 6 [wholeNote 0 (some 0), wholeNote 1 (some (-1)), wholeNote 2 (some (-1))] =
      .ok [{ wholeNote 0 none with dur := 3, offMc := 3 }] ∧
    mergeTies id 4 [wholeNote 0 (some 0), wholeNote 1 (some (-1))] =
      .ok [{ wholeNote 0 (some (-1)) with dur := 2, offMc := 2 }] := by
  refine ⟨⟨by decide, by decide⟩, ?_, ?_⟩ <;> decide +kernel

/-! ### Cases -/

/-- A tie over three notes, one that does not end, a grace note and a note without a tie. -/
def sample : List TieNote :=
  [wholeNote 0 (some 1), wholeNote 1 (some 0), wholeNote 2 (some (-1)),
    { wholeNote 3 none with midi := 61 }, { wholeNote 4 (some 1) with grace := true },
    wholeNote 5 (some 1), { wholeNote 6 (some 0) with midi := 61 }]

example : Input sample ∧ mergeTies id 14 sample = .ok
    [{ wholeNote 0 none with dur := 3, offMc := 3 }, { wholeNote 3 none with midi := 61 },
      { wholeNote 4 (some 1) with grace := true }, wholeNote 5 (some 1),
      { wholeNote 6 (some 0) with midi := 61 }] := by
  refine ⟨⟨by decide, by decide⟩, ?_⟩
  decide +kernel

/-- Two tied out notes and two tied in notes at the same place: staff and voice decide, and the rest
is forced. -/
example : mergeTies id 10
    [wholeNote 0 (some 1), { wholeNote 0 (some 1) with note := 10, staff := 2 },
      { wholeNote 1 (some (-1)) with staff := 2 },
      { wholeNote 1 (some (-1)) with note := 11, voice := 3 }] =
    .ok [{ wholeNote 0 none with dur := 2, offMc := 2 },
      { wholeNote 0 none with note := 10, staff := 2, dur := 2, offMc := 2 }] := by
  decide +kernel

/-- Staff and voice matter: the note that is left is the one of the other staff. -/
example : mergeTies id 10
    [wholeNote 0 (some 1), { wholeNote 1 (some (-1)) with staff := 2 },
      { wholeNote 1 (some (-1)) with note := 11 }] =
    .ok [{ wholeNote 0 none with dur := 2, offMc := 2 },
      { wholeNote 1 (some (-1)) with staff := 2 }] := by
  decide +kernel

/-- A note without a duration that is tied to itself stays, with the note that follows it: the
hypothesis of `C95_no_match_left_both` is needed. -/
example : mergeTies id 4
    [{ wholeNote 0 (some 0) with offMc := 0, dur := 0 },
      { wholeNote 0 (some (-1)) with note := 7 }] =
    .ok [{ wholeNote 0 (some 0) with offMc := 0, dur := 0 },
      { wholeNote 0 (some (-1)) with note := 7 }] := by
  decide +kernel

end Verif.MergeTies
