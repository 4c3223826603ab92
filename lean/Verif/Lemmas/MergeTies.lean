import Mathlib.Logic.Relation
import Mathlib.Data.List.Chain
import Mathlib.Data.List.Perm.Basic
import Mathlib.Data.List.Nodup
import Verif.MergeTies

/-!
Abstract steps on chains of notes, and their simulation by the frames of `merge_ties`.
-/

namespace Verif.Ties

/-- The note that a chain of notes is merged to. -/
def val : List TieNote → TieNote
  | [] => ⟨0, 0, 0, 0, 0, 0, 0, 0, false, none, 0, 0⟩
  | h :: t => t.foldl (fun o i => tieValues o (o, i)) h

theorem val_append {c : List TieNote} (hc : c ≠ []) (i : TieNote) :
    val (c ++ [i]) = tieValues (val c) (val c, i) := by
  cases c with
  | nil => exact absurd rfl hc
  | cons h t => simp [val, List.foldl_append]

theorem val_single (n : TieNote) : val [n] = n := rfl

/-- State of the abstract system: chains in place of merged notes. -/
structure AState where
  out : List (List TieNote)
  inn : List TieNote
  fin : List (List TieNote)

/-- Steps of the abstract system; notes are joined only if `P` holds of them. -/
inductive AStep (P : TieNote → TieNote → Prop) : AState → AState → Prop
  | perm {s s'} : s.out.Perm s'.out → s.inn.Perm s'.inn → s.fin.Perm s'.fin → AStep P s s'
  | extend {c i out inn fin} : c ≠ [] → tieJoins (val c) i = true → (val c).tied ≠ none →
      P (val c) i → AStep P ⟨c :: out, i :: inn, fin⟩ ⟨(c ++ [i]) :: out, inn, fin⟩
  | finish {c out inn fin} :
      ((val c).tied = none ∨ ∀ i ∈ inn, tieJoins (val c) i = false) →
      AStep P ⟨c :: out, inn, fin⟩ ⟨out, inn, c :: fin⟩
  | move {mv inn fin} : (∀ m ∈ mv, m.tied = some 0) →
      (∀ m ∈ mv, ∀ z ∈ mv ++ inn, z.tied = some 0 → tieJoins z m = false) →
      AStep P ⟨[], mv ++ inn, fin⟩ ⟨mv.map (fun m => [m]), inn, fin⟩

abbrev ASteps (P : TieNote → TieNote → Prop) := Relation.ReflTransGen (AStep P)

/-- Any two notes. -/
def Any (_ _ : TieNote) : Prop := True

/-- The frames show the chains of the abstract state. -/
structure Sim (a : AState) (st : TieState) : Prop where
  out : (a.out.map val).Perm st.out
  inn : a.inn.Perm st.inn
  fin : (a.fin.map val).Perm st.fin
  ne : ∀ c ∈ a.out, c ≠ []

/-- The frames have distinct indexes, and no tied out note is finished. -/
structure Good (st : TieState) : Prop where
  out : (st.out.map TieNote.key).Nodup
  inn : (st.inn.map TieNote.key).Nodup
  live : ∀ o ∈ st.out, o.tied ≠ none

theorem key_inj {l : List TieNote} (h : (l.map TieNote.key).Nodup) {a b : TieNote} (ha : a ∈ l)
    (hb : b ∈ l) (e : a.key = b.key) : a = b :=
  List.inj_on_of_nodup_map h ha hb e

theorem tieValues_key (o : TieNote) (p : TiePair) : (tieValues o p).key = o.key := rfl

/-- The frame after an update. -/
def upd (rows : List TiePair) (o : TieNote) : TieNote :=
  match rows.find? (fun p => decide (p.1.key = o.key)) with
  | none => o
  | some p => tieValues o p

theorem upd_key (rows : List TiePair) (o : TieNote) : (upd rows o).key = o.key := by
  unfold upd; split <;> rfl

theorem upd_not {rows : List TiePair} {o : TieNote} (h : ∀ p ∈ rows, p.1.key ≠ o.key) :
    upd rows o = o := by
  unfold upd
  have : rows.find? (fun p => decide (p.1.key = o.key)) = none := by
    rw [List.find?_eq_none]; intro p hp; simpa using h p hp
  rw [this]

theorem upd_cons (r : TiePair) (rs : List TiePair) (h : ∀ p ∈ rs, p.1.key ≠ r.1.key)
    (o : TieNote) : upd (r :: rs) o = upd rs (upd [r] o) := by
  by_cases e : r.1.key = o.key
  · have h1 : upd [r] o = tieValues o r := by simp [upd, e]
    have h2 : upd (r :: rs) o = tieValues o r := by simp [upd, e]
    rw [h1, h2, upd_not]
    intro p hp
    rw [tieValues_key, ← e]; exact h p hp
  · have h1 : upd [r] o = o := by simp [upd, e]
    rw [h1]; simp [upd, e]

theorem updateTiedOut_eq {outs : List TieNote} {rows : List TiePair}
    (h : ∀ p ∈ rows, p.1 ∈ outs) : updateTiedOut outs rows = .ok (outs.map (upd rows)) := by
  unfold updateTiedOut
  rw [if_pos]
  · rfl
  · rw [List.all_eq_true]; intro p hp
    simpa using ⟨p.1, h p hp, rfl⟩

theorem dropKeys_eq {frame : List TieNote} {ks : List (Int × Int)}
    (h : ∀ k ∈ ks, k ∈ frame.map TieNote.key) :
    dropKeys frame ks = .ok (frame.filter fun n => decide (n.key ∉ ks)) := by
  unfold dropKeys
  rw [if_pos]
  rw [List.all_eq_true]; intro k hk; exact decide_eq_true (h k hk)

theorem locKeys_eq {frame : List TieNote} {ks : List (Int × Int)}
    (h : ∀ k ∈ ks, k ∈ frame.map TieNote.key) :
    locKeys frame ks = .ok (frame.filter fun n => decide (n.key ∈ ks)) := by
  unfold locKeys
  rw [if_pos]
  rw [List.all_eq_true]; intro k hk; exact decide_eq_true (h k hk)

/-- Rows that may be used for an update. -/
structure Usable (P : TieNote → TieNote → Prop) (st : TieState) (rows : List TiePair) : Prop where
  outs : (rows.map fun p => p.1.key).Nodup
  ins : (rows.map fun p => p.2.key).Nodup
  mem : ∀ p ∈ rows, p.1 ∈ st.out ∧ p.2 ∈ st.inn ∧ tieJoins p.1 p.2 = true ∧ p.1.tied ≠ none ∧
    P p.1 p.2

/-- Using rows one after the other simulates an update. -/
theorem sim_update {P : TieNote → TieNote → Prop} (rows : List TiePair) : ∀ (a : AState) (st : TieState), Sim a st →
    (st.out.map TieNote.key).Nodup → (st.inn.map TieNote.key).Nodup → Usable P st rows →
    ∃ a', ASteps P a a' ∧ Sim a' ⟨st.out.map (upd rows),
      st.inn.filter (fun n => decide (n.key ∉ rows.map fun p => p.2.key)), st.fin⟩ := by
  induction rows with
  | nil =>
    intro a st hs _ _ _
    refine ⟨a, .refl, ?_⟩
    have h1 : st.out.map (upd []) = st.out := by
      conv_rhs => rw [← List.map_id st.out]
      rfl
    have h2 : st.inn.filter (fun n => decide (n.key ∉ ([] : List TiePair).map fun p => p.2.key)) =
        st.inn := by simp
    rw [h1, h2]; exact hs
  | cons r rs ih =>
    intro a st hs ho hi hu
    obtain ⟨hr1, hr2, hrj, hrt, hrp⟩ := hu.mem r List.mem_cons_self
    have nd1 := hu.outs
    have nd2 := hu.ins
    rw [List.map_cons, List.nodup_cons] at nd1 nd2
    have hne1 : ∀ p ∈ rs, p.1.key ≠ r.1.key := fun p hp e =>
      nd1.1 (List.mem_map.2 ⟨p, hp, e⟩)
    have hne2 : ∀ p ∈ rs, p.2.key ≠ r.2.key := fun p hp e =>
      nd2.1 (List.mem_map.2 ⟨p, hp, e⟩)
    -- the chain of the first row
    obtain ⟨c, hc, hcv⟩ := List.mem_map.1 (hs.out.mem_iff.2 hr1)
    obtain ⟨l1, l2, hl⟩ := List.append_of_mem hc
    have hi2 : r.2 ∈ a.inn := hs.inn.mem_iff.2 hr2
    obtain ⟨i1, i2, hin⟩ := List.append_of_mem hi2
    have hcne := hs.ne c hc
    let st1 : TieState := ⟨st.out.map (upd [r]),
      st.inn.filter (fun n => decide (n.key ∉ [r.2.key])), st.fin⟩
    let a1 : AState := ⟨(c ++ [r.2]) :: (l1 ++ l2), i1 ++ i2, a.fin⟩
    have hstep : ASteps P a a1 := by
      refine .head (b := ⟨c :: (l1 ++ l2), r.2 :: (i1 ++ i2), a.fin⟩)
        (AStep.perm ?_ ?_ (List.Perm.refl _)) (.single (AStep.extend hcne ?_ ?_ ?_))
      · rw [hl]; exact List.perm_middle
      · rw [hin]; exact List.perm_middle
      · rw [hcv]; exact hrj
      · rw [hcv]; exact hrt
      · rw [hcv]; exact hrp
    have hperm : st.out.Perm (r.1 :: (l1 ++ l2).map val) := by
      refine hs.out.symm.trans ?_
      rw [hl, List.map_append, List.map_cons, hcv, List.map_append]
      exact List.perm_middle
    have hndp : ((r.1 :: (l1 ++ l2).map val).map TieNote.key).Nodup :=
      (hperm.map TieNote.key).nodup_iff.1 ho
    rw [List.map_cons, List.nodup_cons] at hndp
    have hiperm : st.inn.Perm (r.2 :: (i1 ++ i2)) := by
      refine hs.inn.symm.trans ?_
      rw [hin]; exact List.perm_middle
    have hndi : ((r.2 :: (i1 ++ i2)).map TieNote.key).Nodup :=
      (hiperm.map TieNote.key).nodup_iff.1 hi
    rw [List.map_cons, List.nodup_cons] at hndi
    have hs1 : Sim a1 st1 := by
      refine ⟨?_, ?_, hs.fin, ?_⟩
      · refine List.Perm.trans ?_ (hperm.map (upd [r])).symm
        have e1 : upd [r] r.1 = tieValues r.1 (r.1, r.2) := by simp [upd]
        have e2 : ((l1 ++ l2).map val).map (upd [r]) = (l1 ++ l2).map val := by
          conv_rhs => rw [← List.map_id ((l1 ++ l2).map val)]
          refine List.map_congr_left fun x hx => ?_
          rw [upd_not]; rfl
          intro p hp
          rw [List.mem_singleton] at hp; subst hp
          intro e
          exact hndp.1 (List.mem_map.2 ⟨x, hx, e.symm⟩)
        show ((c ++ [r.2]) :: (l1 ++ l2)).map val |>.Perm _
        rw [List.map_cons, List.map_cons, e1, e2, val_append hcne, hcv]
      · refine List.Perm.trans ?_ (hiperm.filter _).symm
        show (i1 ++ i2).Perm _
        rw [List.filter_cons_of_neg (by simp), List.filter_eq_self.2]
        intro x hx
        have : x.key ≠ r.2.key := fun e => hndi.1 (List.mem_map.2 ⟨x, hx, e⟩)
        simpa using this
      · intro x hx
        rcases List.mem_cons.1 hx with rfl | hx
        · simp
        · refine hs.ne x ?_
          rw [hl]
          rcases List.mem_append.1 hx with h | h
          · exact List.mem_append_left _ h
          · exact List.mem_append_right _ (List.mem_cons_of_mem _ h)
    have ho1 : (st1.out.map TieNote.key).Nodup := by
      show ((st.out.map (upd [r])).map TieNote.key).Nodup
      rw [List.map_map]
      have : st.out.map (TieNote.key ∘ upd [r]) = st.out.map TieNote.key :=
        List.map_congr_left fun x _ => upd_key _ _
      rw [this]; exact ho
    have hi1 : (st1.inn.map TieNote.key).Nodup :=
      hi.sublist (List.Sublist.map _ List.filter_sublist)
    have hu1 : Usable P st1 rs := by
      refine ⟨nd1.2, nd2.2, fun p hp => ?_⟩
      obtain ⟨h1, h2, h3, h4, h5⟩ := hu.mem p (List.mem_cons_of_mem _ hp)
      refine ⟨List.mem_map.2 ⟨p.1, h1, ?_⟩, List.mem_filter.2 ⟨h2, ?_⟩, h3, h4, h5⟩
      · refine upd_not fun q hq => ?_
        rw [List.mem_singleton] at hq; subst hq
        exact (hne1 p hp).symm
      · simpa using hne2 p hp
    obtain ⟨a2, hst, hsim⟩ := ih a1 st1 hs1 ho1 hi1 hu1
    refine ⟨a2, hstep.trans hst, ?_⟩
    have e1 : st.out.map (upd (r :: rs)) = (st.out.map (upd [r])).map (upd rs) := by
      rw [List.map_map]
      exact List.map_congr_left fun x _ => upd_cons r rs hne1 x
    have e2 : st.inn.filter (fun n => decide (n.key ∉ (r :: rs).map fun p => p.2.key)) =
        (st.inn.filter (fun n => decide (n.key ∉ [r.2.key]))).filter
          (fun n => decide (n.key ∉ rs.map fun p => p.2.key)) := by
      rw [List.filter_filter]
      refine List.filter_congr fun x _ => ?_
      simp only [List.map_cons, List.mem_cons, not_or, List.not_mem_nil,
        or_false, Bool.decide_and]
      rw [Bool.and_comm]
    rw [e1, e2]
    exact hsim

theorem perm_filter_split {α : Type} (f : α → Bool) (l : List α) :
    l.Perm (l.filter f ++ l.filter fun x => !f x) := by
  induction l with
  | nil => rfl
  | cons x xs ih =>
    by_cases h : f x
    · rw [List.filter_cons_of_pos h, List.filter_cons_of_neg (by simp [h])]
      exact ih.cons x
    · rw [List.filter_cons_of_neg h, List.filter_cons_of_pos (by simp [h])]
      exact (ih.cons x).trans List.perm_middle.symm

/-- Finishing several chains. -/
theorem finish_many {P : TieNote → TieNote → Prop} (f : List (List TieNote)) : ∀ (out inn fin),
    (∀ c ∈ f, (val c).tied = none ∨ ∀ i ∈ inn, tieJoins (val c) i = false) →
    ASteps P ⟨f ++ out, inn, fin⟩ ⟨out, inn, f.reverse ++ fin⟩ := by
  induction f with
  | nil => intro out inn fin _; exact .refl
  | cons c cs ih =>
    intro out inn fin h
    refine .head (AStep.finish (h c List.mem_cons_self)) ?_
    have := ih out inn (c :: fin) fun x hx => h x (List.mem_cons_of_mem _ hx)
    rw [List.reverse_cons, List.append_assoc]
    exact this

theorem removeFinished_eq {st : TieState} {mask : TieNote → Bool}
    (ho : (st.out.map TieNote.key).Nodup) :
    removeFinished st mask =
      ⟨st.out.filter (fun o => !mask o), st.inn, st.fin ++ st.out.filter mask⟩ := by
  unfold removeFinished
  have : st.out.filter (fun o => decide (o.key ∉ (st.out.filter mask).map TieNote.key)) =
      st.out.filter (fun o => !mask o) := by
    refine List.filter_congr fun x hx => ?_
    cases hm : mask x with
    | true =>
      simp only [Bool.not_true, decide_eq_false_iff_not, not_not]
      exact List.mem_map.2 ⟨x, List.mem_filter.2 ⟨hx, hm⟩, rfl⟩
    | false =>
      simp only [Bool.not_false, decide_eq_true_eq]
      intro hk
      obtain ⟨y, hy, e⟩ := List.mem_map.1 hk
      obtain ⟨hy1, hy2⟩ := List.mem_filter.1 hy
      have := key_inj ho hy1 hx e
      subst this
      rw [hm] at hy2; exact absurd hy2 (by simp)
  show TieState.mk _ _ _ = _
  rw [this]

/-- Removing finished notes is simulated. -/
theorem sim_remove {P : TieNote → TieNote → Prop} {a : AState} {st : TieState} {mask : TieNote → Bool} (hs : Sim a st)
    (ho : (st.out.map TieNote.key).Nodup)
    (hm : ∀ o ∈ st.out, mask o = true → o.tied = none ∨ ∀ i ∈ st.inn, tieJoins o i = false) :
    ∃ a', ASteps P a a' ∧ Sim a' (removeFinished st mask) := by
  rw [removeFinished_eq ho]
  let f := a.out.filter fun c => mask (val c)
  let g := a.out.filter fun c => !mask (val c)
  refine ⟨⟨g, a.inn, f.reverse ++ a.fin⟩, ?_, ?_, hs.inn, ?_, ?_⟩
  · refine .head (b := ⟨f ++ g, a.inn, a.fin⟩)
      (AStep.perm (perm_filter_split _ _) (List.Perm.refl _) (List.Perm.refl _)) ?_
    refine finish_many f g a.inn a.fin fun c hc => ?_
    obtain ⟨h1, h2⟩ := List.mem_filter.1 hc
    rcases hm (val c) (hs.out.mem_iff.1 (List.mem_map.2 ⟨c, h1, rfl⟩)) h2 with h | h
    · exact .inl h
    · exact .inr fun i hi => h i (hs.inn.mem_iff.1 hi)
  · have := hs.out.filter (fun o => !mask o)
    rw [List.filter_map] at this
    exact this
  · show ((f.reverse ++ a.fin).map val).Perm _
    rw [List.map_append]
    refine List.perm_append_comm.trans (hs.fin.append ?_)
    have := hs.out.filter mask
    rw [List.filter_map] at this
    exact ((List.reverse_perm f).map val).trans this
  · intro c hc
    exact hs.ne c (List.mem_filter.1 hc).1

/-- Number of notes that are left to be matched, tied in notes twice. -/
def size (st : TieState) : Nat := 2 * st.inn.length + st.out.length

theorem filter_drop_length {l : List TieNote} {rows : List TiePair} (hin : ∀ p ∈ rows, p.2 ∈ l) (hne : rows ≠ []) :
    (l.filter fun n => decide (n.key ∉ rows.map fun p => p.2.key)).length < l.length := by
  cases rows with
  | nil => exact absurd rfl hne
  | cons r rs =>
    have hr := hin r List.mem_cons_self
    refine List.length_filter_lt_length_iff_exists.2 ⟨r.2, hr, ?_⟩
    simp

/-- The frames after an update step. -/
def stepOf (st : TieState) (rows : List TiePair) : TieState :=
  ⟨(st.out.map (upd rows)).filter (fun o => !o.tied.isNone),
    st.inn.filter (fun n => decide (n.key ∉ rows.map fun p => p.2.key)),
    st.fin ++ (st.out.map (upd rows)).filter (fun o => o.tied.isNone)⟩

theorem upd_keys_nodup {outs : List TieNote} (rows : List TiePair)
    (ho : (outs.map TieNote.key).Nodup) : ((outs.map (upd rows)).map TieNote.key).Nodup := by
  rw [List.map_map]
  have : outs.map (TieNote.key ∘ upd rows) = outs.map TieNote.key :=
    List.map_congr_left fun x _ => upd_key _ _
  rw [this]; exact ho

/-- An update step raises nothing, is simulated, and keeps the frames good. -/
theorem updateStep_ok {P : TieNote → TieNote → Prop} {a : AState} {st : TieState} {rows : List TiePair} (hs : Sim a st)
    (hg : Good st) (hu : Usable P st rows) :
    updateStep st rows = .ok (stepOf st rows) ∧ Good (stepOf st rows) ∧
      ∃ a', ASteps P a a' ∧ Sim a' (stepOf st rows) := by
  have hk := upd_keys_nodup rows hg.out
  refine ⟨?_, ⟨?_, ?_, ?_⟩, ?_⟩
  · unfold updateStep
    rw [updateTiedOut_eq fun p hp => (hu.mem p hp).1]
    simp only [Bind.bind, Except.bind]
    rw [removeFinished_eq hk]
    rw [dropKeys_eq]
    · rfl
    · intro k hk
      obtain ⟨p, hp, e⟩ := List.mem_map.1 hk
      exact List.mem_map.2 ⟨p.2, (hu.mem p hp).2.1, e⟩
  · exact hk.sublist (List.Sublist.map _ List.filter_sublist)
  · exact hg.inn.sublist (List.Sublist.map _ List.filter_sublist)
  · intro o ho
    have := (List.mem_filter.1 ho).2
    intro e; rw [e] at this; simp at this
  · obtain ⟨a1, h1, hs1⟩ := sim_update rows a st hs hg.out hg.inn hu
    obtain ⟨a2, h2, hs2⟩ := sim_remove (mask := fun o => o.tied.isNone) hs1 hk
      (fun o _ hm => .inl (by simpa using hm))
    refine ⟨a2, h1.trans h2, ?_⟩
    rw [removeFinished_eq hk] at hs2
    exact hs2

theorem stepOf_size {st : TieState} {rows : List TiePair} : size (stepOf st rows) ≤ size st := by
  have h1 : (stepOf st rows).out.length ≤ st.out.length := by
    refine (List.length_filter_le _ _).trans ?_
    rw [List.length_map]
  have h2 : (stepOf st rows).inn.length ≤ st.inn.length := List.length_filter_le _ _
  unfold size; omega

theorem stepOf_size_lt {P : TieNote → TieNote → Prop} {st : TieState} {rows : List TiePair} (hu : Usable P st rows)
    (hne : rows ≠ []) : size (stepOf st rows) < size st := by
  have h1 : (stepOf st rows).out.length ≤ st.out.length := by
    refine (List.length_filter_le _ _).trans ?_
    rw [List.length_map]
  have h2 : (stepOf st rows).inn.length < st.inn.length :=
    filter_drop_length (fun p hp => (hu.mem p hp).2.1) hne
  unfold size; omega

/-- A tied out note that no row names stays. -/
theorem stepOf_out {st : TieState} {rows : List TiePair} (hg : Good st) {o : TieNote}
    (ho : o ∈ st.out) (h : ∀ p ∈ rows, p.1.key ≠ o.key) : o ∈ (stepOf st rows).out := by
  refine List.mem_filter.2 ⟨List.mem_map.2 ⟨o, ho, upd_not h⟩, ?_⟩
  have := hg.live o ho
  cases e : o.tied with
  | none => exact absurd e this
  | some _ => rfl

theorem stepOf_inn {st : TieState} {rows : List TiePair} {i : TieNote}
    (hi : i ∈ st.inn) (h : ∀ p ∈ rows, p.2.key ≠ i.key) : i ∈ (stepOf st rows).inn := by
  refine List.mem_filter.2 ⟨hi, ?_⟩
  simp only [decide_eq_true_eq]
  intro hk
  obtain ⟨p, hp, e⟩ := List.mem_map.1 hk
  exact h p hp e

theorem mem_tieMerge {ord : List TiePair → List TiePair} (hord : ∀ l, (ord l).Perm l)
    {outs ins : List TieNote} {p : TiePair} :
    p ∈ tieMerge ord outs ins ↔ p.1 ∈ outs ∧ p.2 ∈ ins ∧ tieJoins p.1 p.2 = true := by
  unfold tieMerge
  rw [(hord _).mem_iff]
  obtain ⟨x, y⟩ := p
  simp only [List.mem_flatMap, List.mem_map, List.mem_filter, Prod.mk.injEq]
  constructor
  · rintro ⟨o, ho, i, ⟨hi, hj⟩, rfl, rfl⟩; exact ⟨ho, hi, hj⟩
  · rintro ⟨ho, hi, hj⟩; exact ⟨x, ho, y, ⟨hi, hj⟩, rfl, rfl⟩

theorem dropDups_sublist {α κ : Type} [DecidableEq κ] (f : α → κ) (l : List α) :
    (dropDups f l).Sublist l := by
  induction l with
  | nil => exact List.Sublist.refl _
  | cons x xs ih => exact (List.filter_sublist.trans ih).cons_cons x

theorem dropDups_nodup {α κ : Type} [DecidableEq κ] (f : α → κ) (l : List α) :
    ((dropDups f l).map f).Nodup := by
  induction l with
  | nil => simp [dropDups]
  | cons x xs ih =>
    rw [dropDups, List.map_cons, List.nodup_cons]
    refine ⟨?_, ih.sublist (List.Sublist.map _ List.filter_sublist)⟩
    intro hk
    obtain ⟨y, hy, e⟩ := List.mem_map.1 hk
    have := (List.mem_filter.1 hy).2
    simp [e] at this

theorem dropDups_ne {α κ : Type} [DecidableEq κ] (f : α → κ) {l : List α} (h : l ≠ []) :
    dropDups f l ≠ [] := by
  cases l with
  | nil => exact absurd rfl h
  | cons x xs => simp [dropDups]

theorem naiveDrop_sublist (rows : List TiePair) : (naiveDrop rows).Sublist rows :=
  (dropDups_sublist _ _).trans (dropDups_sublist _ _)

theorem naiveDrop_ne {rows : List TiePair} (h : rows ≠ []) : naiveDrop rows ≠ [] :=
  dropDups_ne _ (dropDups_ne _ h)

theorem naiveDrop_outs (rows : List TiePair) :
    ((naiveDrop rows).map fun p => p.1.key).Nodup :=
  (dropDups_nodup (fun p : TiePair => p.1.key) rows).sublist
    (List.Sublist.map _ (dropDups_sublist _ _))

theorem naiveDrop_ins (rows : List TiePair) :
    ((naiveDrop rows).map fun p => p.2.key).Nodup :=
  dropDups_nodup (fun p : TiePair => p.2.key) _

/-- Two rows that satisfy a predicate only one row satisfies are the same. -/
theorem count_one {α : Type} {f : α → Bool} {l : List α} (h : l.countP f = 1) {a b : α}
    (ha : a ∈ l) (hb : b ∈ l) (fa : f a = true) (fb : f b = true) : a = b := by
  rw [List.countP_eq_length_filter] at h
  obtain ⟨x, hx⟩ := List.length_eq_one_iff.1 h
  have h1 : a ∈ l.filter f := List.mem_filter.2 ⟨ha, fa⟩
  have h2 : b ∈ l.filter f := List.mem_filter.2 ⟨hb, fb⟩
  rw [hx, List.mem_singleton] at h1 h2
  rw [h1, h2]

theorem filter_nodup_of_count {α κ : Type} [DecidableEq κ] (f : α → κ) (g : α → Bool)
    (l : List α) (h : ∀ p ∈ l, g p = true → l.countP (fun q => decide (f q = f p)) = 1) :
    ((l.filter g).map f).Nodup := by
  rw [List.nodup_iff_count_le_one]
  intro k
  by_cases hk : k ∈ (l.filter g).map f
  · obtain ⟨p, hp, e⟩ := List.mem_map.1 hk
    obtain ⟨h1, h2⟩ := List.mem_filter.1 hp
    have := h p h1 h2
    have hle : ((l.filter g).map f).count k ≤ (l.map f).count k :=
      List.Sublist.count_le _ (List.Sublist.map _ List.filter_sublist)
    refine hle.trans ?_
    rw [List.count, List.countP_map]
    have e2 : ((fun x => x == k) ∘ f) = fun q => decide (f q = f p) := by
      funext q
      simp [e, beq_eq_decide]
    rw [e2, this]
  · rw [List.count_eq_zero_of_not_mem hk]; omega

/-- The rows matched once can be used. -/
theorem singles_usable {P : TieNote → TieNote → Prop} {st : TieState} (hg : Good st)
    {m : List TiePair} (hP : ∀ p ∈ m.filter (singleMatch m), P p.1 p.2)
    (hm : ∀ p ∈ m, p.1 ∈ st.out ∧ p.2 ∈ st.inn ∧ tieJoins p.1 p.2 = true) :
    Usable P st (m.filter (singleMatch m)) := by
  refine ⟨?_, ?_, ?_⟩
  · refine filter_nodup_of_count (fun p : TiePair => p.1.key) _ _ fun p _ h => ?_
    simp only [singleMatch, Bool.and_eq_true, beq_iff_eq] at h
    exact h.1
  · refine filter_nodup_of_count (fun p : TiePair => p.2.key) _ _ fun p _ h => ?_
    simp only [singleMatch, Bool.and_eq_true, beq_iff_eq] at h
    exact h.2
  · intro p hp
    obtain ⟨h1, h2, h3⟩ := hm p (List.mem_filter.1 hp).1
    exact ⟨h1, h2, h3, hg.live _ h1, hP p hp⟩

/-- Rows of a merge without duplicates can be used. -/
theorem naive_usable {P : TieNote → TieNote → Prop} {st : TieState} (hg : Good st)
    {rows : List TiePair} (hP : ∀ p ∈ rows, P p.1 p.2)
    (hm : ∀ p ∈ rows, p.1 ∈ st.out ∧ p.2 ∈ st.inn ∧ tieJoins p.1 p.2 = true) :
    Usable P st (naiveDrop rows) := by
  refine ⟨naiveDrop_outs _, naiveDrop_ins _, fun p hp => ?_⟩
  obtain ⟨h1, h2, h3⟩ := hm p ((naiveDrop_sublist _).subset hp)
  exact ⟨h1, h2, h3, hg.live _ h1, hP p ((naiveDrop_sublist _).subset hp)⟩

/-- No tied in note with `tied == 0` could be made tied out. -/
def Terminal (st : TieState) : Prop :=
  ∀ z ∈ st.inn, z.tied = some 0 → ∀ i ∈ st.inn, tieJoins z i = true →
    ∃ y ∈ st.inn, y.tied = some 0 ∧ tieJoins y z = true

/-- What a step on the frames must show. -/
structure StepOK (P : TieNote → TieNote → Prop) (a : AState) (st st' : TieState) : Prop where
  good : Good st'
  sim : ∃ a', ASteps P a a' ∧ Sim a' st'
  size : size st' ≤ size st

variable {ord : List TiePair → List TiePair} (hord : ∀ l, (ord l).Perm l)

include hord

theorem repopulate_ok {P : TieNote → TieNote → Prop} {a : AState} {st : TieState} (hs : Sim a st) (hg : Good st)
    (he : st.out = []) :
    ∃ st', repopulate ord st = .ok st' ∧ StepOK P a st st' ∧ (st'.out = [] → Terminal st') := by
  let m := tieMerge ord (st.inn.filter fun n => n.tied == some 0) st.inn
  let mv := (m.map fun p => p.1.key).filter (fun k => decide (k ∉ m.map fun p => p.2.key))
  have hm : ∀ p : TiePair, p ∈ m ↔ (p.1 ∈ st.inn ∧ p.1.tied = some 0) ∧ p.2 ∈ st.inn ∧
      tieJoins p.1 p.2 = true := by
    intro p
    rw [mem_tieMerge hord]
    simp
  have hkeys : ∀ k ∈ mv, k ∈ st.inn.map TieNote.key := by
    intro k hk
    obtain ⟨p, hp, e⟩ := List.mem_map.1 (List.mem_filter.1 hk).1
    exact List.mem_map.2 ⟨p.1, ((hm p).1 hp).1.1, e⟩
  let o' := st.inn.filter fun n => decide (n.key ∈ mv)
  let i' := st.inn.filter fun n => decide (n.key ∉ mv)
  have hmv : ∀ x ∈ o', x ∈ st.inn ∧ x.tied = some 0 ∧ x.key ∉ m.map fun p => p.2.key := by
    intro x hx
    obtain ⟨h1, h2⟩ := List.mem_filter.1 hx
    have h2 : x.key ∈ mv := by simpa using h2
    obtain ⟨h3, h4⟩ := List.mem_filter.1 h2
    obtain ⟨p, hp, e⟩ := List.mem_map.1 h3
    have := key_inj hg.inn ((hm p).1 hp).1.1 h1 e
    refine ⟨h1, this ▸ ((hm p).1 hp).1.2, by simpa using h4⟩
  refine ⟨⟨o', i', st.fin⟩, ?_, ⟨⟨?_, ?_, ?_⟩, ?_, ?_⟩, ?_⟩
  · unfold repopulate
    show (locKeys st.inn mv >>= _) = _
    rw [locKeys_eq hkeys]
    show (dropKeys st.inn mv >>= _) = _
    rw [dropKeys_eq hkeys]
    rfl
  · exact hg.inn.sublist (List.Sublist.map _ List.filter_sublist)
  · exact hg.inn.sublist (List.Sublist.map _ List.filter_sublist)
  · intro o ho e
    rw [(hmv o ho).2.1] at e; exact absurd e (by simp)
  · have ha : a.out = [] := by
      have := hs.out.length_eq
      rw [he] at this
      simpa using this
    have hsplit : st.inn.Perm (o' ++ i') := by
      have := perm_filter_split (fun n : TieNote => decide (n.key ∈ mv)) st.inn
      have e : (fun x : TieNote => !decide (x.key ∈ mv)) = fun n => decide (n.key ∉ mv) := by
        funext x; simp
      rw [e] at this
      exact this
    refine ⟨⟨o'.map fun x => [x], i', a.fin⟩, ?_, ?_, List.Perm.refl _, hs.fin, ?_⟩
    · refine .head (b := ⟨[], o' ++ i', a.fin⟩)
        (AStep.perm (by rw [ha]) (hs.inn.trans hsplit) (List.Perm.refl _))
        (.single (AStep.move (fun x hx => (hmv x hx).2.1) fun x hx z hz hzt => ?_))
      rw [← Bool.not_eq_true]
      intro hj
      refine (hmv x hx).2.2 (List.mem_map.2 ⟨(z, x), ?_, rfl⟩)
      exact (hm (z, x)).2 ⟨⟨hsplit.mem_iff.2 hz, hzt⟩, (hmv x hx).1, hj⟩
    · show ((o'.map fun x => [x]).map val).Perm o'
      rw [List.map_map]
      have : o'.map (val ∘ fun x => [x]) = o' := by
        conv_rhs => rw [← List.map_id o']
        rfl
      rw [this]
    · intro c hc
      obtain ⟨x, _, rfl⟩ := List.mem_map.1 hc
      simp
  · have hsum : o'.length + i'.length = st.inn.length := by
      have := (perm_filter_split (fun n : TieNote => decide (n.key ∈ mv)) st.inn).length_eq
      rw [List.length_append] at this
      have e : (fun x : TieNote => !decide (x.key ∈ mv)) = fun n => decide (n.key ∉ mv) := by
        funext x; simp
      rw [e] at this
      exact this.symm
    show 2 * i'.length + o'.length ≤ 2 * st.inn.length + st.out.length
    omega
  · intro ho
    have ho : o' = [] := ho
    have hi : i' = st.inn := by
      refine List.filter_eq_self.2 fun x hx => ?_
      simp only [decide_eq_true_eq]
      intro hk
      have : x ∈ o' := List.mem_filter.2 ⟨hx, by simpa using hk⟩
      rw [ho] at this; exact absurd this (by simp)
    intro z hz hzt i hii hj
    have hz : z ∈ st.inn := by rw [← hi]; exact hz
    have hii : i ∈ st.inn := by rw [← hi]; exact hii
    have hzm : (z, i) ∈ m := (hm _).2 ⟨⟨hz, hzt⟩, hii, hj⟩
    have hzn : z.key ∉ mv := by
      intro hk
      have : z ∈ o' := List.mem_filter.2 ⟨hz, by simpa using hk⟩
      rw [ho] at this; exact absurd this (by simp)
    have : z.key ∈ m.map fun p => p.2.key := by
      by_contra hc
      exact hzn (List.mem_filter.2 ⟨List.mem_map.2 ⟨_, hzm, rfl⟩, by simpa using hc⟩)
    obtain ⟨p, hp, e⟩ := List.mem_map.1 this
    obtain ⟨⟨h1, h2⟩, h3, h4⟩ := (hm p).1 hp
    have := key_inj hg.inn h3 hz e
    refine ⟨p.1, ?_, h2, this ▸ h4⟩
    show p.1 ∈ i'
    rw [hi]; exact h1

omit hord in
theorem StepOK.refl {P : TieNote → TieNote → Prop} {a : AState} {st : TieState} (hs : Sim a st) (hg : Good st) :
    StepOK P a st st := ⟨hg, ⟨a, .refl, hs⟩, le_refl _⟩

theorem refill_ok {P : TieNote → TieNote → Prop} {a : AState} {st : TieState} (hs : Sim a st) (hg : Good st) :
    ∃ st', refill ord st = .ok st' ∧ StepOK P a st st' ∧ (st'.out = [] → Terminal st') := by
  unfold refill
  by_cases h : st.out = []
  · rw [if_pos h]; exact repopulate_ok hord hs hg h
  · rw [if_neg h]
    exact ⟨st, rfl, StepOK.refl hs hg, fun e => absurd e h⟩

/-- The force-match raises nothing; if a named note has a match, some note is used up. -/
theorem forceStep_ok {a : AState} {st : TieState} {need : List (Int × Int)} (hs : Sim a st)
    (hg : Good st) (hn : ∀ k ∈ need, k ∈ st.out.map TieNote.key) :
    ∃ st', forceStep ord st need = .ok st' ∧ StepOK Any a st st' ∧
      ((∃ o ∈ st.out, o.key ∈ need ∧ ∃ i ∈ st.inn, tieJoins o i = true) → size st' < size st) := by
  unfold forceStep
  by_cases h : need = []
  · rw [if_pos h]
    refine ⟨st, rfl, StepOK.refl hs hg, ?_⟩
    rintro ⟨o, _, hk, _⟩
    rw [h] at hk; exact absurd hk (by simp)
  · rw [if_neg h, locKeys_eq hn]
    simp only [Bind.bind, Except.bind]
    let outs := st.out.filter fun n => decide (n.key ∈ need)
    let rows := naiveDrop (tieMerge ord outs st.inn)
    have hmem : ∀ p ∈ tieMerge ord outs st.inn,
        p.1 ∈ st.out ∧ p.2 ∈ st.inn ∧ tieJoins p.1 p.2 = true := by
      intro p hp
      obtain ⟨h1, h2, h3⟩ := (mem_tieMerge hord).1 hp
      exact ⟨(List.mem_filter.1 h1).1, h2, h3⟩
    have hu : Usable Any st rows := naive_usable hg (fun _ _ => trivial) hmem
    by_cases hr : rows = []
    · refine ⟨st, ?_, StepOK.refl hs hg, ?_⟩
      · show (if rows = [] then Except.ok st else updateStep st rows) = _
        rw [if_pos hr]
      · rintro ⟨o, ho, hk, i, hi, hj⟩
        exfalso
        have hp : (o, i) ∈ tieMerge ord outs st.inn :=
          (mem_tieMerge hord).2 ⟨List.mem_filter.2 ⟨ho, by simpa using hk⟩, hi, hj⟩
        exact naiveDrop_ne (List.ne_nil_of_mem hp) hr
    · obtain ⟨h1, h2, h3⟩ := updateStep_ok hs hg hu
      refine ⟨stepOf st rows, ?_, ⟨h2, h3, stepOf_size⟩, fun _ => stepOf_size_lt hu hr⟩
      show (if rows = [] then Except.ok st else updateStep st rows) = _
      rw [if_neg hr, h1]

/-- The matching of doubly matched notes raises nothing and uses up a note if there are any. -/
theorem doublyStep_ok {a : AState} {st : TieState} {doubly : List TiePair} (hs : Sim a st)
    (hg : Good st)
    (hm : ∀ p ∈ doubly, p.1 ∈ st.out ∧ p.2 ∈ st.inn ∧ tieJoins p.1 p.2 = true) :
    ∃ st', doublyStep ord st doubly = .ok st' ∧ StepOK Any a st st' ∧
      (doubly ≠ [] → size st' < size st) := by
  unfold doublyStep
  by_cases h : doubly = []
  · rw [if_pos h]
    exact ⟨st, rfl, StepOK.refl hs hg, fun e => absurd h e⟩
  · rw [if_neg h]
    let sv := doubly.filter fun p => p.1.staff == p.2.staff && p.1.voice == p.2.voice
    let more := naiveDrop sv
    have hmore : ∀ p ∈ sv, p.1 ∈ st.out ∧ p.2 ∈ st.inn ∧ tieJoins p.1 p.2 = true :=
      fun p hp => hm p (List.mem_filter.1 hp).1
    have hu : Usable Any st more := naive_usable hg (fun _ _ => trivial) hmore
    obtain ⟨h1, h2, a1, h3, hs1⟩ := updateStep_ok hs hg hu
    let need := (doubly.map fun p => p.1.key).filter
      fun k => decide (k ∉ more.map fun p => p.1.key)
    have hneed : ∀ p ∈ doubly, p.1.key ∈ need → p.1 ∈ (stepOf st more).out := by
      intro p hp hk
      refine stepOf_out hg (hm p hp).1 fun q hq e => ?_
      have := (List.mem_filter.1 hk).2
      simp only [decide_eq_true_eq] at this
      exact this (List.mem_map.2 ⟨q, hq, e⟩)
    have hn : ∀ k ∈ need, k ∈ (stepOf st more).out.map TieNote.key := by
      intro k hk
      obtain ⟨p, hp, e⟩ := List.mem_map.1 (List.mem_filter.1 hk).1
      have e : p.1.key = k := e
      exact List.mem_map.2 ⟨p.1, hneed p hp (e ▸ hk), e⟩
    obtain ⟨st2, h4, h5, h6⟩ := forceStep_ok hord hs1 h2 hn
    refine ⟨st2, ?_, ⟨h5.good, ?_, ?_⟩, ?_⟩
    · show (updateStep st more >>= fun st1 => forceStep ord st1 need) = _
      rw [h1]; exact h4
    · obtain ⟨a2, h7, h8⟩ := h5.sim
      exact ⟨a2, h3.trans h7, h8⟩
    · exact h5.size.trans stepOf_size
    · intro _
      by_cases hr : more = []
      · obtain ⟨p, hp⟩ := List.exists_mem_of_ne_nil _ h
        have hk : p.1.key ∈ need := by
          refine List.mem_filter.2 ⟨List.mem_map.2 ⟨p, hp, rfl⟩, ?_⟩
          rw [hr]; simp
        refine (h6 ⟨p.1, hneed p hp hk, hk, p.2, ?_, (hm p hp).2.2⟩).trans_le stepOf_size
        refine stepOf_inn (hm p hp).2.1 fun q hq => ?_
        rw [hr] at hq; exact absurd hq (by simp)
      · exact h5.size.trans_lt (stepOf_size_lt hu hr)

omit hord in
/-- Removing the tied out notes of a mask. -/
theorem removeFinished_ok {P : TieNote → TieNote → Prop} {a : AState} {st : TieState} {mask : TieNote → Bool} (hs : Sim a st)
    (hg : Good st)
    (hm : ∀ o ∈ st.out, mask o = true → o.tied = none ∨ ∀ i ∈ st.inn, tieJoins o i = false) :
    StepOK P a st (removeFinished st mask) ∧
      ((∃ o ∈ st.out, mask o = true) → size (removeFinished st mask) < size st) := by
  have hsim := sim_remove (P := P) hs hg.out hm
  rw [removeFinished_eq hg.out] at hsim ⊢
  refine ⟨⟨⟨?_, hg.inn, ?_⟩, hsim, ?_⟩, ?_⟩
  · exact hg.out.sublist (List.Sublist.map _ List.filter_sublist)
  · intro o ho; exact hg.live o (List.mem_filter.1 ho).1
  · have := List.length_filter_le (fun o => !mask o) st.out
    unfold size; simp only; omega
  · rintro ⟨o, ho, hmo⟩
    have : (st.out.filter fun o => !mask o).length < st.out.length :=
      List.length_filter_lt_length_iff_exists.2 ⟨o, ho, by simp [hmo]⟩
    unfold size; simp only; omega

/-- A round raises nothing, is simulated, and uses up a note. -/
theorem tieRound_ok {a : AState} {st : TieState} (hs : Sim a st) (hg : Good st)
    (hne : st.out ≠ []) :
    ∃ st', tieRound ord st = .ok st' ∧ StepOK Any a st st' ∧ size st' < size st ∧
      (st'.out = [] → Terminal st') := by
  let m := tieMerge ord st.out st.inn
  have hm : ∀ p : TiePair, p ∈ m ↔ p.1 ∈ st.out ∧ p.2 ∈ st.inn ∧ tieJoins p.1 p.2 = true :=
    fun p => mem_tieMerge hord
  let mask : TieNote → Bool := fun o => decide (o.key ∉ m.map fun p => p.1.key)
  let st1 := removeFinished st mask
  have hmask : ∀ o ∈ st.out, mask o = true → ∀ i ∈ st.inn, tieJoins o i = false := by
    intro o ho h i hi
    rw [← Bool.not_eq_true]; intro hj
    have h : o.key ∉ m.map fun p => p.1.key := by simpa [mask] using h
    exact h (List.mem_map.2 ⟨(o, i), (hm (o, i)).2 ⟨ho, hi, hj⟩, rfl⟩)
  obtain ⟨ok1, lt1⟩ := removeFinished_ok (P := Any) (mask := mask) hs hg fun o ho h => .inr (hmask o ho h)
  obtain ⟨a1, r1, s1⟩ := ok1.sim
  have hst1 : ∀ p ∈ m, p.1 ∈ st1.out ∧ p.2 ∈ st1.inn ∧ tieJoins p.1 p.2 = true := by
    intro p hp
    obtain ⟨h1, h2, h3⟩ := (hm p).1 hp
    refine ⟨?_, ?_, h3⟩
    · show p.1 ∈ (removeFinished st mask).out
      rw [removeFinished_eq hg.out]
      refine List.mem_filter.2 ⟨h1, ?_⟩
      have : p.1.key ∈ m.map fun p => p.1.key := List.mem_map.2 ⟨p, hp, rfl⟩
      simp only [mask, Bool.not_eq_true', decide_eq_false_iff_not, not_not]
      exact this
    · exact h2
  let singles := m.filter (singleMatch m)
  let doubly := m.filter fun p => !singleMatch m p
  have hu : Usable Any st1 singles := singles_usable ok1.good (fun _ _ => trivial) hst1
  obtain ⟨e2, g2, a2, r2, s2⟩ := updateStep_ok s1 ok1.good hu
  have hd : ∀ p ∈ doubly, p.1 ∈ (stepOf st1 singles).out ∧ p.2 ∈ (stepOf st1 singles).inn ∧
      tieJoins p.1 p.2 = true := by
    intro p hp
    obtain ⟨hpm, hps⟩ := List.mem_filter.1 hp
    obtain ⟨h1, h2, h3⟩ := hst1 p hpm
    refine ⟨stepOf_out ok1.good h1 fun q hq e => ?_, stepOf_inn h2 fun q hq e => ?_, h3⟩
    · obtain ⟨hqm, hqs⟩ := List.mem_filter.1 hq
      have hqs' := hqs
      simp only [singleMatch, Bool.and_eq_true, beq_iff_eq] at hqs'
      have := count_one hqs'.1 hqm hpm (by simp) (by simpa using e.symm)
      rw [← this, hqs] at hps; exact absurd hps (by simp)
    · obtain ⟨hqm, hqs⟩ := List.mem_filter.1 hq
      have hqs' := hqs
      simp only [singleMatch, Bool.and_eq_true, beq_iff_eq] at hqs'
      have := count_one hqs'.2 hqm hpm (by simp) (by simpa using e.symm)
      rw [← this, hqs] at hps; exact absurd hps (by simp)
  obtain ⟨st3, e3, ok3, lt3⟩ := doublyStep_ok hord s2 g2 hd
  obtain ⟨a3, r3, s3⟩ := ok3.sim
  obtain ⟨st4, e4, ok4, t4⟩ := refill_ok (P := Any) hord s3 ok3.good
  obtain ⟨a4, r4, s4⟩ := ok4.sim
  have z1 : size st1 ≤ size st := ok1.size
  have z2 : size (stepOf st1 singles) ≤ size st1 := stepOf_size
  have z3 : size st3 ≤ size (stepOf st1 singles) := ok3.size
  have z4 := ok4.size
  have hlt : size st4 < size st := by
    by_cases hmm : m = []
    · obtain ⟨o, ho⟩ := List.exists_mem_of_ne_nil _ hne
      have : size st1 < size st := lt1 ⟨o, ho, by simp [mask, hmm]⟩
      omega
    · obtain ⟨p, hp⟩ := List.exists_mem_of_ne_nil _ hmm
      by_cases hps : singleMatch m p = true
      · have : size (stepOf st1 singles) < size st1 :=
          stepOf_size_lt hu (List.ne_nil_of_mem (List.mem_filter.2 ⟨hp, hps⟩))
        omega
      · have : size st3 < size (stepOf st1 singles) :=
          lt3 (List.ne_nil_of_mem (List.mem_filter.2 ⟨hp, by simpa using hps⟩))
        omega
  refine ⟨st4, ?_, ⟨ok4.good, ⟨a4, ((r1.trans r2).trans r3).trans r4, s4⟩, hlt.le⟩, hlt, t4⟩
  show (updateStep st1 singles >>= fun st2 => doublyStep ord st2 doubly >>= fun st3 =>
    refill ord st3) = _
  rw [e2]
  show (doublyStep ord (stepOf st1 singles) doubly >>= fun st3 => refill ord st3) = _
  rw [e3]
  exact e4

/-- The loop ends, and its result is reached by abstract steps. -/
theorem tieLoop_ok : ∀ (fuel : Nat) {a : AState} {st : TieState}, Sim a st → Good st →
    size st ≤ fuel → (st.out = [] → Terminal st) →
    ∃ st', tieLoop ord fuel st = .ok st' ∧ st'.out = [] ∧ Terminal st' ∧
      ∃ a', ASteps Any a a' ∧ Sim a' st' := by
  intro fuel
  induction fuel with
  | zero =>
    intro a st hs hg hz ht
    have : st.out = [] := by
      have : st.out.length = 0 := by unfold size at hz; omega
      exact List.length_eq_zero_iff.1 this
    exact ⟨st, by rw [tieLoop, if_pos this], this, ht this, a, .refl, hs⟩
  | succ n ih =>
    intro a st hs hg hz ht
    by_cases h : st.out = []
    · exact ⟨st, by rw [tieLoop, if_pos h], h, ht h, a, .refl, hs⟩
    · obtain ⟨st1, e1, ok1, lt1, t1⟩ := tieRound_ok hord hs hg h
      obtain ⟨a1, r1, s1⟩ := ok1.sim
      obtain ⟨st2, e2, h2, t2, a2, r2, s2⟩ := ih s1 ok1.good (by omega) t1
      refine ⟨st2, ?_, h2, t2, a2, r1.trans r2, s2⟩
      rw [tieLoop, if_neg h, e1]
      exact e2

end Verif.Ties
