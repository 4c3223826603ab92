import Verif.Props.MergeTies

/-!
Property C96: ties of scores in which every tie has both of its ends.
-/

namespace Verif.TiedScores

open Verif.Ties Verif.MergeTies

/-! ### What is claimed -/

/-- The second note starts where the first one ends, in the same piece, at the same pitch, and in the
same staff and voice. -/
def Next (a b : TieNote) : Prop :=
  (a.file = b.file ∧ a.midi = b.midi ∧ a.offMc = b.mc ∧ a.offBeat = b.onset) ∧
    a.staff = b.staff ∧ a.voice = b.voice

/-- The note is tied out of. -/
def TiedOut (n : TieNote) : Prop := n.tied = some 1 ∨ n.tied = some 0

/-- The note is tied into. -/
def TiedIn (n : TieNote) : Prop := n.tied = some 0 ∨ n.tied = some (-1)

/-- A frame in which every tie has both ends: among the notes that are not grace notes, there is one
note tied into after every note tied out of, and one note tied out of before every note tied into, in
the same staff and voice.  Notes of other staves and voices may be in the same place. -/
structure Score (notes : List TieNote) : Prop where
  input : Input notes
  later : ∀ n ∈ notes, n.grace = false → n.tied ≠ none → EndsLater n
  next : ∀ a ∈ notes, a.grace = false → TiedOut a →
    ∃ b ∈ notes, b.grace = false ∧ TiedIn b ∧ Next a b
  next_one : ∀ a ∈ notes, a.grace = false → TiedOut a → ∀ b ∈ notes, b.grace = false → TiedIn b →
    Next a b → ∀ b' ∈ notes, b'.grace = false → TiedIn b' → Next a b' → b = b'
  prev : ∀ b ∈ notes, b.grace = false → TiedIn b →
    ∃ a ∈ notes, a.grace = false ∧ TiedOut a ∧ Next a b
  prev_one : ∀ b ∈ notes, b.grace = false → TiedIn b → ∀ a ∈ notes, a.grace = false → TiedOut a →
    Next a b → ∀ a' ∈ notes, a'.grace = false → TiedOut a' → Next a' b → a = a'

/-- A tie as it is written: it begins with a note tied out of only, ends with a note tied into only,
and stays in its staff and voice. -/
def Tie (c : List TieNote) : Prop :=
  List.IsChain Next c ∧ ∃ h m l, c = h :: (m ++ [l]) ∧ h.tied = some 1 ∧ l.tied = some (-1) ∧
    ∀ x ∈ m, x.tied = some 0

/-! ### Proof -/

/-- Staff and voice are the same. -/
def SV (a b : TieNote) : Prop := a.staff = b.staff ∧ a.voice = b.voice

theorem next_iff (a b : TieNote) : Next a b ↔ tieJoins a b = true ∧ SV a b := by
  rw [joins_iff]; rfl

/-- The notes of the chain are in one staff and voice. -/
def Same (c : List TieNote) : Prop := ∀ x ∈ c, ∀ y ∈ c, SV x y

structure WInv (notes : List TieNote) (a : AState) : Prop where
  base : AInv (notes.filter isTied) a
  head : ∀ c, c ∈ a.out ∨ c ∈ a.fin → ∀ h, c.head? = some h → h.tied = some 1
  same : ∀ c, c ∈ a.out ∨ c ∈ a.fin → Same c
  done : ∀ c ∈ a.fin, (val c).tied = none

theorem WInv.mem {notes : List TieNote} {a : AState} (w : WInv notes a) {x : TieNote} :
    ((∃ c, (c ∈ a.out ∨ c ∈ a.fin) ∧ x ∈ c) ∨ x ∈ a.inn) ↔ x ∈ notes ∧ isTied x = true := by
  have := w.base.perm.mem_iff (a := x)
  rw [List.mem_filter] at this
  rw [← this]
  simp only [List.mem_append, List.mem_flatten]
  constructor
  · rintro (⟨c, hc | hc, hx⟩ | hx)
    · exact .inl (.inl ⟨c, hc, hx⟩)
    · exact .inl (.inr ⟨c, hc, hx⟩)
    · exact .inr hx
  · rintro ((⟨c, hc, hx⟩ | ⟨c, hc, hx⟩) | hx)
    · exact .inl ⟨c, .inl hc, hx⟩
    · exact .inl ⟨c, .inr hc, hx⟩
    · exact .inr hx

theorem isTied_iff {x : TieNote} : isTied x = true ↔ x.grace = false ∧ x.tied ≠ none := by
  unfold isTied
  cases x.tied <;> simp

theorem TiedOut.ne {x : TieNote} (h : TiedOut x) : x.tied ≠ none := by
  rcases h with h | h <;> rw [h] <;> simp

theorem TiedIn.ne {x : TieNote} (h : TiedIn x) : x.tied ≠ none := by
  rcases h with h | h <;> rw [h] <;> simp

/-- Chains do not share notes. -/
theorem WInv.disjoint {notes : List TieNote} {a : AState} (w : WInv notes a)
    (hn : Input notes) : (∀ c, c ∈ a.out ∨ c ∈ a.fin → c.Nodup) ∧
      (∀ c, c ∈ a.out ∨ c ∈ a.fin → ∀ d, d ∈ a.out ∨ d ∈ a.fin → ∀ x ∈ c, x ∈ d → c = d) ∧
      (∀ c, c ∈ a.out ∨ c ∈ a.fin → ∀ x ∈ c, x ∉ a.inn) := by
  have hnd : (notes.filter isTied).Nodup :=
    (List.Nodup.of_map _ hn.index).sublist List.filter_sublist
  have h := w.base.perm.nodup_iff.2 hnd
  rw [← List.flatten_append, List.nodup_append] at h
  obtain ⟨h1, _, h3⟩ := h
  rw [List.nodup_flatten] at h1
  obtain ⟨h4, h5⟩ := h1
  have hm : ∀ c, c ∈ a.out ∨ c ∈ a.fin ↔ c ∈ a.out ++ a.fin := fun c => List.mem_append.symm
  refine ⟨fun c hc => h4 c ((hm c).1 hc), ?_, ?_⟩
  · intro c hc d hd x hx hx'
    by_contra hne
    have : Std.Symm (List.Disjoint (α := TieNote)) := ⟨fun _ _ h => h.symm⟩
    have := h5.forall ((hm c).1 hc) ((hm d).1 hd) hne
    exact this hx hx'
  · intro c hc x hx hxi
    exact h3 x (List.mem_flatten.2 ⟨c, (hm c).1 hc, hx⟩) x hxi rfl

/-- The parts of a chain that starts with a `1`. -/
theorem chain_parts {c : List TieNote} (hv : Valid c) (hh : ∀ h, c.head? = some h →
    h.tied = some 1) : ∃ h t, c = h :: t ∧ h.tied = some 1 ∧ (∀ x ∈ t.dropLast, x.tied = some 0) ∧
      (((val c).tied = some 1 ∧ ∀ x ∈ t, x.tied = some 0) ∨
        ((val c).tied = none ∧ ∃ l, t.getLast? = some l ∧ l.tied = some (-1))) := by
  cases c with
  | nil => exact absurd rfl hv.ne
  | cons h t =>
    have h1 := hh h rfl
    obtain ⟨h2, h3⟩ := (hv.tied h t rfl).1 h1
    exact ⟨h, t, rfl, h1, h2, h3⟩

/-- Consecutive notes of a chain that starts with a `1`. -/
theorem chain_next {c : List TieNote} (hv : Valid c) (hs : Same c)
    (hh : ∀ h, c.head? = some h → h.tied = some 1) {s t : List TieNote} {x y : TieNote}
    (e : c = s ++ x :: y :: t) : Next x y ∧ TiedOut x ∧ TiedIn y := by
  obtain ⟨h, r, e1, h1, h2, h3⟩ := chain_parts hv hh
  obtain ⟨_, _, _, _, hchain, _⟩ := hv.merged
  have hxy : Follows x y := by
    rw [e] at hchain
    have := (List.isChain_append.1 hchain).2.1
    exact (List.isChain_cons_cons.1 this).1
  have hx : x ∈ c := by rw [e]; simp
  have hy : y ∈ c := by rw [e]; simp
  have hr : ∀ z ∈ r, TiedIn z := by
    intro z hz
    rcases h3 with ⟨_, h3⟩ | ⟨_, l, hl, hl1⟩
    · exact .inl (h3 z hz)
    · have hne : r ≠ [] := List.ne_nil_of_mem hz
      rw [← List.dropLast_append_getLast hne] at hz
      rcases List.mem_append.1 hz with hz | hz
      · exact .inl (h2 z hz)
      · right
        rw [List.mem_singleton.1 hz]
        rw [List.getLast?_eq_getLast_of_ne_nil hne] at hl
        rw [Option.some.inj hl]; exact hl1
  refine ⟨⟨hxy, hs x hx y hy⟩, ?_, ?_⟩
  · cases s with
    | nil =>
      have : h = x := by
        have := e1.symm.trans e
        simpa using (List.cons.inj this).1
      rw [← this]; exact .inl h1
    | cons z zs =>
      have : r = zs ++ x :: y :: t := by
        have := e1.symm.trans e
        exact (List.cons.inj this).2
      refine .inr (h2 x ?_)
      rw [this, List.dropLast_append_of_ne_nil (by simp)]
      simp
  · refine hr y ?_
    cases s with
    | nil =>
      have := e1.symm.trans e
      rw [(List.cons.inj this).2]; simp
    | cons z zs =>
      have := e1.symm.trans e
      rw [(List.cons.inj this).2]; simp

/-- A note of a chain that is not its first has a note before. -/
theorem has_prev {c : List TieNote} {y : TieNote} (hy : y ∈ c) (hh : c.head? ≠ some y) :
    ∃ s x t, c = s ++ x :: y :: t := by
  obtain ⟨s, t, e⟩ := List.append_of_mem hy
  cases hs : s.reverse with
  | nil =>
    have : s = [] := by simpa using hs
    subst this
    rw [e] at hh; exact absurd rfl hh
  | cons x r =>
    have : s = r.reverse ++ [x] := by
      have := congrArg List.reverse hs
      simpa using this
    exact ⟨r.reverse, x, t, by rw [e, this]; simp⟩

/-- A note of a chain that is not its last has a note after. -/
theorem has_next {c : List TieNote} {x : TieNote} (hx : x ∈ c) (hl : c.getLast? ≠ some x) :
    ∃ s y t, c = s ++ x :: y :: t := by
  obtain ⟨s, t, e⟩ := List.append_of_mem hx
  cases t with
  | nil => rw [e] at hl; exact absurd (by simp) hl
  | cons y r => exact ⟨s, y, r, e⟩

theorem val_sv {c : List TieNote} (hv : Valid c) (hs : Same c) {x : TieNote} (hx : x ∈ c)
    (z : TieNote) : SV (val c) z ↔ SV x z := by
  obtain ⟨h, l, h1, _, _, h4⟩ := hv.merged
  have hh : h ∈ c := List.mem_of_head? h1
  have e1 : (val c).staff = h.staff := by rw [h4]
  have e2 : (val c).voice = h.voice := by rw [h4]
  obtain ⟨f1, f2⟩ := hs h hh x hx
  unfold SV
  rw [e1, e2, f1, f2]

theorem val_last {c : List TieNote} (hv : Valid c) {l : TieNote} (hl : c.getLast? = some l)
    (z : TieNote) : tieJoins (val c) z = tieJoins l z := by
  cases hv with
  | @single h _ =>
    have : h = l := by simpa using hl
    rw [← this]; rfl
  | @snoc c i hc hj ht hi =>
    have : i = l := by simpa using hl
    subst this
    rw [val_append hc.ne]
    obtain ⟨f1, f2, _, _⟩ := (joins_iff _ _).1 hj
    simp only [tieJoins, tieValues]
    rw [f1, f2]

theorem val_next {c : List TieNote} (hv : Valid c) (hs : Same c) {l : TieNote}
    (hl : c.getLast? = some l) (z : TieNote) : Next (val c) z ↔ Next l z := by
  rw [next_iff, next_iff, val_last hv hl, val_sv hv hs (List.mem_of_getLast? hl)]

theorem last_exists {c : List TieNote} (hv : Valid c) : ∃ l, c.getLast? = some l := by
  obtain ⟨_, l, _, h, _⟩ := hv.merged
  exact ⟨l, h⟩

/-- The last note of an open chain is tied out of. -/
theorem last_out {c : List TieNote} (hv : Valid c) (hh : ∀ h, c.head? = some h → h.tied = some 1)
    (ht : (val c).tied ≠ none) {l : TieNote} (hl : c.getLast? = some l) : TiedOut l := by
  obtain ⟨h, t, rfl, h1, _, h3⟩ := chain_parts hv hh
  rcases h3 with ⟨_, h3⟩ | ⟨h3, _⟩
  · rcases List.mem_cons.1 (List.mem_of_getLast? hl) with rfl | hm
    · exact .inl h1
    · exact .inr (h3 l hm)
  · exact absurd h3 ht

section

variable {notes : List TieNote} (sc : Score notes) {a : AState} (w : WInv notes a)

include sc w

/-- The note after an open chain is still there. -/
theorem next_there {c : List TieNote} (hc : c ∈ a.out) (ht : (val c).tied ≠ none) :
    ∃ i ∈ a.inn, Next (val c) i := by
  have hv := w.base.valid c (.inl hc)
  obtain ⟨l, hl⟩ := last_exists hv
  have hlo := last_out hv (w.head c (.inl hc)) ht hl
  have hlc := List.mem_of_getLast? hl
  obtain ⟨hln, hlt⟩ := w.mem.1 (.inl ⟨c, .inl hc, hlc⟩)
  have hlg := (isTied_iff.1 hlt).1
  obtain ⟨i, hi, hig, hit, hnx⟩ := sc.next l hln hlg hlo
  refine ⟨i, ?_, (val_next hv (w.same c (.inl hc)) hl i).2 hnx⟩
  rcases w.mem.2 ⟨hi, isTied_iff.2 ⟨hig, hit.ne⟩⟩ with ⟨d, hd, hid⟩ | h
  · exfalso
    have hhd : d.head? ≠ some i := by
      intro e
      have := w.head d hd i e
      rcases hit with h | h <;> rw [h] at this <;> exact absurd this (by decide)
    obtain ⟨s, x, t, e⟩ := has_prev hid hhd
    obtain ⟨h1, h2, _⟩ := chain_next (w.base.valid d hd) (w.same d hd) (w.head d hd) e
    have hxd : x ∈ d := by rw [e]; simp
    obtain ⟨hxn, hxt⟩ := w.mem.1 (.inl ⟨d, hd, hxd⟩)
    have hxl := sc.prev_one i hi hig hit x hxn (isTied_iff.1 hxt).1 h2 h1 l hln hlg hlo hnx
    subst hxl
    obtain ⟨d1, d2, _⟩ := w.disjoint sc.input
    have := d2 c (.inl hc) d hd x hlc hxd
    subst this
    have hnd := d1 c (.inl hc)
    rw [e] at hnd hl
    have : s ++ x :: i :: t = (s ++ [x]) ++ (i :: t) := by simp
    rw [this] at hnd hl
    rw [List.getLast?_append_of_ne_nil _ (by simp)] at hl
    exact (List.nodup_append.1 hnd).2.2 x (by simp) x (List.mem_of_getLast? hl) rfl
  · exact h

theorem next_unique {c : List TieNote} (hc : c ∈ a.out) (ht : (val c).tied ≠ none) {i j : TieNote}
    (hi : i ∈ a.inn) (hj : j ∈ a.inn) (h1 : Next (val c) i) (h2 : Next (val c) j) : i = j := by
  have hv := w.base.valid c (.inl hc)
  obtain ⟨l, hl⟩ := last_exists hv
  have hlo := last_out hv (w.head c (.inl hc)) ht hl
  obtain ⟨hln, hlt⟩ := w.mem.1 (.inl ⟨c, .inl hc, List.mem_of_getLast? hl⟩)
  obtain ⟨hin, hit⟩ := w.mem.1 (.inr hi)
  obtain ⟨hjn, hjt⟩ := w.mem.1 (.inr hj)
  have hs := w.same c (.inl hc)
  exact sc.next_one l hln (isTied_iff.1 hlt).1 hlo i hin (isTied_iff.1 hit).1 (w.base.inn i hi)
    ((val_next hv hs hl i).1 h1) j hjn (isTied_iff.1 hjt).1 (w.base.inn j hj)
    ((val_next hv hs hl j).1 h2)

theorem prev_unique {c d : List TieNote} (hc : c ∈ a.out) (hd : d ∈ a.out)
    (htc : (val c).tied ≠ none) (htd : (val d).tied ≠ none) {i : TieNote}
    (hi : i ∈ a.inn) (h1 : Next (val c) i) (h2 : Next (val d) i) : c = d := by
  have hv := w.base.valid c (.inl hc)
  have hv' := w.base.valid d (.inl hd)
  obtain ⟨l, hl⟩ := last_exists hv
  obtain ⟨l', hl'⟩ := last_exists hv'
  have hlo := last_out hv (w.head c (.inl hc)) htc hl
  have hlo' := last_out hv' (w.head d (.inl hd)) htd hl'
  obtain ⟨hln, hlt⟩ := w.mem.1 (.inl ⟨c, .inl hc, List.mem_of_getLast? hl⟩)
  obtain ⟨hln', hlt'⟩ := w.mem.1 (.inl ⟨d, .inl hd, List.mem_of_getLast? hl'⟩)
  obtain ⟨hin, hit⟩ := w.mem.1 (.inr hi)
  have := sc.prev_one i hin (isTied_iff.1 hit).1 (w.base.inn i hi) l hln (isTied_iff.1 hlt).1 hlo
    ((val_next hv (w.same c (.inl hc)) hl i).1 h1) l' hln' (isTied_iff.1 hlt').1 hlo'
    ((val_next hv' (w.same d (.inl hd)) hl' i).1 h2)
  subst this
  exact (w.disjoint sc.input).2.1 c (.inl hc) d (.inl hd) l (List.mem_of_getLast? hl)
    (List.mem_of_getLast? hl')

/-- When no note is tied out, no note is left. -/
theorem all_used (he : a.out = []) : a.inn = [] := by
  by_contra hne
  obtain ⟨o, ho⟩ := List.exists_mem_of_ne_nil _ hne
  obtain ⟨n, hn, hmin⟩ := Finset.exists_min_image a.inn.toFinset
    (fun z : TieNote => (toLex (z.mc, z.onset) : Int ×ₗ ℚ)) ⟨o, List.mem_toFinset.2 ho⟩
  rw [List.mem_toFinset] at hn
  obtain ⟨hnn, hnt⟩ := w.mem.1 (.inr hn)
  have hng := (isTied_iff.1 hnt).1
  have hnin := w.base.inn n hn
  obtain ⟨p, hp, hpg, hpt, hnx⟩ := sc.prev n hnn hng hnin
  have hlt := sc.later p hp hpg hpt.ne
  rcases w.mem.2 ⟨hp, isTied_iff.2 ⟨hpg, hpt.ne⟩⟩ with ⟨c, hc, hpc⟩ | hpi
  · have hcf : c ∈ a.fin := by
      rcases hc with hc | hc
      · rw [he] at hc; exact absurd hc (by simp)
      · exact hc
    have hv := w.base.valid c hc
    have hlast : c.getLast? ≠ some p := by
      intro e
      obtain ⟨h, t, rfl, _, _, h3⟩ := chain_parts hv (w.head c hc)
      rcases h3 with ⟨h3, _⟩ | ⟨_, l, hl, hl1⟩
      · rw [w.done _ hcf] at h3; exact absurd h3 (by simp)
      · have htne : t ≠ [] := by
          intro e; rw [e] at hl; exact absurd hl (by simp)
        have : (h :: t).getLast? = t.getLast? := by
          rw [List.getLast?_cons]
          rw [hl]; rfl
        rw [this, hl] at e
        have := Option.some.inj e
        subst this
        rcases hpt with h | h <;> rw [h] at hl1 <;> exact absurd hl1 (by decide)
    obtain ⟨s, q, t, e⟩ := has_next hpc hlast
    obtain ⟨h1, _, h2⟩ := chain_next hv (w.same c hc) (w.head c hc) e
    have hqc : q ∈ c := by rw [e]; simp
    obtain ⟨hqn, hqt⟩ := w.mem.1 (.inl ⟨c, hc, hqc⟩)
    have := sc.next_one p hp hpg hpt q hqn (isTied_iff.1 hqt).1 h2 h1 n hnn hng hnin hnx
    subst this
    exact (w.disjoint sc.input).2.2 c hc q hqc hn
  · have hle := hmin p (List.mem_toFinset.2 hpi)
    obtain ⟨⟨_, _, f3, f4⟩, _⟩ := hnx
    rw [Prod.Lex.le_iff] at hle
    have hle : n.mc < p.mc ∨ n.mc = p.mc ∧ n.onset ≤ p.onset := hle
    unfold EndsLater at hlt
    rw [f3, f4] at hlt
    rcases hlt with hlt | ⟨hlt1, hlt2⟩ <;> rcases hle with hle | ⟨hle1, hle2⟩
    · omega
    · omega
    · omega
    · exact absurd hlt2 (not_lt.2 hle2)

/-- The invariant is kept by steps that join notes of the same staff and voice. -/
theorem WInv.step {b : AState} (hs : AStep SV a b) : WInv notes b := by
  have hbase := w.base.step hs
  cases hs with
  | perm h1 h2 h3 =>
    have e1 : ∀ c, c ∈ b.out ↔ c ∈ a.out := fun c => h1.symm.mem_iff
    have e3 : ∀ c, c ∈ b.fin ↔ c ∈ a.fin := fun c => h3.symm.mem_iff
    refine ⟨hbase, ?_, ?_, ?_⟩
    all_goals simp only [e1, e3]
    · exact w.head
    · exact w.same
    · exact w.done
  | @extend c i out inn fin hne hj ht hp =>
    have hv := w.base.valid c (.inl List.mem_cons_self)
    have hsame := w.same c (.inl List.mem_cons_self)
    refine ⟨hbase, ?_, ?_, w.done⟩
    · intro d hd h hh
      rcases hd with hd | hd
      · rcases List.mem_cons.1 hd with rfl | hd
        · refine w.head c (.inl List.mem_cons_self) h ?_
          cases c with
          | nil => exact absurd rfl hne
          | cons x xs => simpa using hh
        · exact w.head d (.inl (List.mem_cons_of_mem _ hd)) h hh
      · exact w.head d (.inr hd) h hh
    · intro d hd
      rcases hd with hd | hd
      · rcases List.mem_cons.1 hd with rfl | hd
        · have hci : ∀ x ∈ c, SV x i := fun x hx => (val_sv hv hsame hx i).1 hp
          intro x hx y hy
          rcases List.mem_append.1 hx with hx | hx <;> rcases List.mem_append.1 hy with hy | hy
          · exact hsame x hx y hy
          · rw [List.mem_singleton.1 hy]; exact hci x hx
          · rw [List.mem_singleton.1 hx]
            have := hci y hy
            exact ⟨this.1.symm, this.2.symm⟩
          · rw [List.mem_singleton.1 hx, List.mem_singleton.1 hy]; exact ⟨rfl, rfl⟩
        · exact w.same d (.inl (List.mem_cons_of_mem _ hd))
      · exact w.same d (.inr hd)
  | @finish c out inn fin hf =>
    have hh : ∀ d, (d ∈ out ∨ d ∈ c :: fin) → (d ∈ c :: out ∨ d ∈ fin) := by
      intro d hd
      rcases hd with hd | hd
      · exact .inl (List.mem_cons_of_mem _ hd)
      · rcases List.mem_cons.1 hd with rfl | hd
        · exact .inl List.mem_cons_self
        · exact .inr hd
    refine ⟨hbase, fun d hd => w.head d (hh d hd), fun d hd => w.same d (hh d hd), ?_⟩
    intro d hd
    rcases List.mem_cons.1 hd with rfl | hd
    · by_contra ht
      obtain ⟨i, hi, hnx⟩ := next_there sc w List.mem_cons_self ht
      rcases hf with hf | hf
      · exact ht hf
      · have := hf i hi
        rw [((next_iff _ _).1 hnx).1] at this
        exact absurd this (by decide)
    · exact w.done d hd
  | @move mv inn fin h0 hj =>
    have := all_used sc w rfl
    have hmv : mv = [] := (List.append_eq_nil_iff.1 this).1
    subst hmv
    exact ⟨hbase, w.head, w.same, w.done⟩

end

theorem WInv.steps {notes : List TieNote} (sc : Score notes) {a b : AState} (w : WInv notes a)
    (hs : ASteps SV a b) : WInv notes b := by
  induction hs with
  | refl => exact w
  | tail _ h2 ih => exact WInv.step sc ih h2

theorem dropDups_covers {α κ : Type} [DecidableEq κ] (f : α → κ) {l : List α} {x : α}
    (hx : x ∈ l) : ∃ y ∈ dropDups f l, f y = f x := by
  induction l with
  | nil => exact absurd hx (by simp)
  | cons z zs ih =>
    rw [dropDups]
    by_cases e : f x = f z
    · exact ⟨z, List.mem_cons_self, e.symm⟩
    · rcases List.mem_cons.1 hx with rfl | hx
      · exact absurd rfl e
      · obtain ⟨y, hy, h⟩ := ih hx
        refine ⟨y, List.mem_cons_of_mem _ (List.mem_filter.2 ⟨hy, ?_⟩), h⟩
        rw [h]; simpa using e

/-- A round joins notes of the same staff and voice only. -/
theorem round_sv {ord : List TiePair → List TiePair} (hord : ∀ l, (ord l).Perm l)
    {notes : List TieNote} (sc : Score notes) {a : AState} (w : WInv notes a) {st : TieState}
    (hs : Sim a st) (hg : Good st) :
    ∃ st' a', tieRound ord st = .ok st' ∧ Good st' ∧ ASteps SV a a' ∧ Sim a' st' := by
  let m := tieMerge ord st.out st.inn
  have hm : ∀ p : TiePair, p ∈ m ↔ p.1 ∈ st.out ∧ p.2 ∈ st.inn ∧ tieJoins p.1 p.2 = true :=
    fun p => mem_tieMerge hord
  -- every tied out note has one next note
  have hchain : ∀ o ∈ st.out, ∃ c ∈ a.out, val c = o := by
    intro o ho
    obtain ⟨c, hc, e⟩ := List.mem_map.1 (hs.out.mem_iff.2 ho)
    exact ⟨c, hc, e⟩
  have hnext : ∀ o ∈ st.out, ∃ i ∈ st.inn, Next o i := by
    intro o ho
    obtain ⟨c, hc, rfl⟩ := hchain o ho
    obtain ⟨i, hi, h⟩ := next_there sc w hc (hg.live _ ho)
    exact ⟨i, hs.inn.mem_iff.1 hi, h⟩
  have hprev : ∀ o ∈ st.out, ∀ o' ∈ st.out, ∀ i ∈ st.inn, Next o i → Next o' i → o = o' := by
    intro o ho o' ho' i hi h1 h2
    obtain ⟨c, hc, rfl⟩ := hchain o ho
    obtain ⟨d, hd, rfl⟩ := hchain o' ho'
    rw [prev_unique sc w hc hd (hg.live _ ho) (hg.live _ ho') (hs.inn.mem_iff.2 hi) h1 h2]
  let mask : TieNote → Bool := fun o => decide (o.key ∉ m.map fun p => p.1.key)
  let st1 := removeFinished st mask
  have hmask : ∀ o ∈ st.out, mask o = true → ∀ i ∈ st.inn, tieJoins o i = false := by
    intro o ho h i hi
    rw [← Bool.not_eq_true]; intro hj
    have h : o.key ∉ m.map fun p => p.1.key := by simpa [mask] using h
    exact h (List.mem_map.2 ⟨(o, i), (hm (o, i)).2 ⟨ho, hi, hj⟩, rfl⟩)
  obtain ⟨ok1, _⟩ := removeFinished_ok (P := SV) (mask := mask) hs hg
    fun o ho h => .inr (hmask o ho h)
  obtain ⟨a1, r1, s1⟩ := ok1.sim
  have hst1 : ∀ p ∈ m, p.1 ∈ st1.out ∧ p.2 ∈ st1.inn ∧ tieJoins p.1 p.2 = true := by
    intro p hp
    obtain ⟨h1, h2, h3⟩ := (hm p).1 hp
    refine ⟨?_, h2, h3⟩
    show p.1 ∈ (removeFinished st mask).out
    rw [removeFinished_eq hg.out]
    refine List.mem_filter.2 ⟨h1, ?_⟩
    have : p.1.key ∈ m.map fun p => p.1.key := List.mem_map.2 ⟨p, hp, rfl⟩
    simp only [mask, Bool.not_eq_true', decide_eq_false_iff_not, not_not]
    exact this
  let singles := m.filter (singleMatch m)
  let doubly := m.filter fun p => !singleMatch m p
  have hsv1 : ∀ p ∈ m.filter (singleMatch m), SV p.1 p.2 := by
    intro p hp
    obtain ⟨hpm, hps⟩ := List.mem_filter.1 hp
    obtain ⟨h1, h2, h3⟩ := (hm p).1 hpm
    obtain ⟨i, hi, hnx⟩ := hnext p.1 h1
    have hq : (p.1, i) ∈ m := (hm _).2 ⟨h1, hi, ((next_iff _ _).1 hnx).1⟩
    simp only [singleMatch, Bool.and_eq_true, beq_iff_eq] at hps
    have := count_one hps.1 hpm hq (by simp) (by simp)
    rw [this]
    exact ((next_iff _ _).1 hnx).2
  have hu : Usable SV st1 singles := singles_usable ok1.good hsv1 hst1
  obtain ⟨e2, g2, a2, r2, s2⟩ := updateStep_ok s1 ok1.good hu
  have hd : ∀ p ∈ doubly, p.1 ∈ (stepOf st1 singles).out ∧ p.2 ∈ (stepOf st1 singles).inn ∧
      tieJoins p.1 p.2 = true := by
    intro p hp
    obtain ⟨hpm, hps⟩ := List.mem_filter.1 hp
    obtain ⟨h1, h2, h3⟩ := hst1 p hpm
    refine ⟨stepOf_out ok1.good h1 fun q hq e => ?_, stepOf_inn h2 fun q hq e => ?_, h3⟩
    · obtain ⟨hqm, hqs⟩ := List.mem_filter.1 hq
      have hqs' := hqs
      simp only [singleMatch, Bool.and_eq_true, beq_iff_eq] at hqs'
      have := count_one hqs'.1 hqm hpm (by simp) (by simpa using e.symm)
      rw [← this, hqs] at hps; exact absurd hps (by simp)
    · obtain ⟨hqm, hqs⟩ := List.mem_filter.1 hq
      have hqs' := hqs
      simp only [singleMatch, Bool.and_eq_true, beq_iff_eq] at hqs'
      have := count_one hqs'.2 hqm hpm (by simp) (by simpa using e.symm)
      rw [← this, hqs] at hps; exact absurd hps (by simp)
  -- the doubly matched notes
  have hdbl : ∃ st3 a3, doublyStep ord (stepOf st1 singles) doubly = .ok st3 ∧ Good st3 ∧
      ASteps SV a2 a3 ∧ Sim a3 st3 := by
    unfold doublyStep
    by_cases h : doubly = []
    · rw [if_pos h]; exact ⟨_, a2, rfl, g2, .refl, s2⟩
    · rw [if_neg h]
      let sv := doubly.filter fun p => p.1.staff == p.2.staff && p.1.voice == p.2.voice
      let more := naiveDrop sv
      have hsv : ∀ p, p ∈ sv ↔ p ∈ doubly ∧ SV p.1 p.2 := by
        intro p
        rw [List.mem_filter]
        simp [SV]
      have hu2 : Usable SV (stepOf st1 singles) more :=
        naive_usable g2 (fun p hp => ((hsv p).1 hp).2) fun p hp => hd p ((hsv p).1 hp).1
      obtain ⟨e3, g3, a3, r3, s3⟩ := updateStep_ok s2 g2 hu2
      have hcover : ∀ p ∈ doubly, p.1.key ∈ more.map fun q => q.1.key := by
        intro p hp
        obtain ⟨hpm, hps⟩ := List.mem_filter.1 hp
        obtain ⟨h1, h2, h3⟩ := (hm p).1 hpm
        obtain ⟨i, hi, hnx⟩ := hnext p.1 h1
        have hq : (p.1, i) ∈ m := (hm _).2 ⟨h1, hi, ((next_iff _ _).1 hnx).1⟩
        have hqd : (p.1, i) ∈ doubly := by
          refine List.mem_filter.2 ⟨hq, ?_⟩
          rw [Bool.not_eq_true', ← Bool.not_eq_true]
          intro hqs
          have hqs' := hqs
          simp only [singleMatch, Bool.and_eq_true, beq_iff_eq] at hqs'
          have := count_one hqs'.1 hq hpm (by simp) (by simp)
          rw [← this, hqs] at hps; exact absurd hps (by simp)
        have hqv : (p.1, i) ∈ sv := (hsv _).2 ⟨hqd, ((next_iff _ _).1 hnx).2⟩
        obtain ⟨q, hq1, hq2⟩ := dropDups_covers (fun q : TiePair => q.1.key) hqv
        obtain ⟨r, hr1, hr2⟩ := dropDups_covers (fun q : TiePair => q.2.key) hq1
        have hqsv := (hsv q).1 ((dropDups_sublist _ _).subset hq1)
        have hrsv := (hsv r).1 ((naiveDrop_sublist _).subset hr1)
        obtain ⟨q1, q2, q3⟩ := (hm q).1 (List.mem_filter.1 hqsv.1).1
        obtain ⟨t1, t2, t3⟩ := (hm r).1 (List.mem_filter.1 hrsv.1).1
        have hin : r.2 = q.2 := key_inj hg.inn t2 q2 hr2
        have : r.1 = q.1 := hprev r.1 t1 q.1 q1 q.2 q2
          ((next_iff _ _).2 ⟨hin ▸ t3, hin ▸ hrsv.2⟩) ((next_iff _ _).2 ⟨q3, hqsv.2⟩)
        refine List.mem_map.2 ⟨r, hr1, ?_⟩
        show r.1.key = p.1.key
        rw [this]; exact hq2
      have hneed : ((doubly.map fun p => p.1.key).filter
          fun k => decide (k ∉ more.map fun p => p.1.key)) = [] := by
        rw [List.filter_eq_nil_iff]
        intro k hk
        obtain ⟨p, hp, e⟩ := List.mem_map.1 hk
        have := hcover p hp
        rw [← e]
        simpa using this
      refine ⟨_, a3, ?_, g3, r3, s3⟩
      show (updateStep (stepOf st1 singles) more >>= fun st1 => forceStep ord st1
        ((doubly.map fun p => p.1.key).filter
          fun k => decide (k ∉ more.map fun p => p.1.key))) = _
      rw [e3, hneed]
      show forceStep ord _ [] = _
      unfold forceStep
      rw [if_pos rfl]
  obtain ⟨st3, a3, e3, g3, r3, s3⟩ := hdbl
  obtain ⟨st4, e4, ok4, _⟩ := refill_ok (P := SV) hord s3 g3
  obtain ⟨a4, r4, s4⟩ := ok4.sim
  refine ⟨st4, a4, ?_, ok4.good, ((r1.trans r2).trans r3).trans r4, s4⟩
  show (updateStep st1 singles >>= fun st2 => doublyStep ord st2 doubly >>= fun st3 =>
    refill ord st3) = _
  rw [e2]
  show (doublyStep ord (stepOf st1 singles) doubly >>= fun st3 => refill ord st3) = _
  rw [e3]
  exact e4

theorem loop_sv {ord : List TiePair → List TiePair} (hord : ∀ l, (ord l).Perm l)
    {notes : List TieNote} (sc : Score notes) : ∀ (fuel : Nat) {a : AState} (_ : WInv notes a)
    {st st' : TieState}, Sim a st → Good st → tieLoop ord fuel st = .ok st' →
    ∃ a', ASteps SV a a' ∧ Sim a' st' ∧ st'.out = [] := by
  intro fuel
  induction fuel with
  | zero =>
    intro a w st st' hs hg he
    rw [tieLoop] at he
    split at he
    · rename_i h
      obtain rfl := Except.ok.inj he
      exact ⟨a, .refl, hs, h⟩
    · exact absurd he (by simp)
  | succ n ih =>
    intro a w st st' hs hg he
    rw [tieLoop] at he
    split at he
    · rename_i h
      obtain rfl := Except.ok.inj he
      exact ⟨a, .refl, hs, h⟩
    · obtain ⟨st1, a1, e1, g1, r1, s1⟩ := round_sv hord sc w hs hg
      rw [e1] at he
      obtain ⟨a2, r2, s2, h2⟩ := ih (WInv.steps sc w r1) s1 g1 he
      exact ⟨a2, r1.trans r2, s2, h2⟩

theorem tie_of {c : List TieNote} (hv : Valid c) (hs : Same c)
    (hh : ∀ h, c.head? = some h → h.tied = some 1) (ht : (val c).tied = none) : Tie c := by
  constructor
  · obtain ⟨_, _, _, _, hchain, _⟩ := hv.merged
    have hsub : ∀ d : List TieNote, (∀ x ∈ d, x ∈ c) → List.IsChain Follows d →
        List.IsChain Next d := by
      intro d
      induction d with
      | nil => intro _ _; exact List.isChain_nil
      | cons x xs ih =>
        intro hd hc
        cases xs with
        | nil => exact List.isChain_singleton _
        | cons y ys =>
          rw [List.isChain_cons_cons] at hc ⊢
          exact ⟨⟨hc.1, hs x (hd x (by simp)) y (hd y (by simp))⟩,
            ih (fun z hz => hd z (List.mem_cons_of_mem _ hz)) hc.2⟩
    exact hsub c (fun x hx => hx) hchain
  · obtain ⟨h, t, rfl, h1, h2, h3⟩ := chain_parts hv hh
    rcases h3 with ⟨h3, _⟩ | ⟨_, l, hl, hl1⟩
    · rw [ht] at h3; exact absurd h3 (by simp)
    · have htne : t ≠ [] := by
        intro e; rw [e] at hl; exact absurd hl (by simp)
      refine ⟨h, t.dropLast, l, ?_, h1, hl1, h2⟩
      have := List.dropLast_append_getLast htne
      rw [List.getLast?_eq_getLast_of_ne_nil htne] at hl
      rw [Option.some.inj hl] at this
      rw [this]

/-- **C96.** Of a score in which every tie has both ends, `merge_ties` merges exactly the ties as they
are written: every note of a tie is in one chain from the note that begins it to the note that ends
it, in one staff and voice, and this chain becomes a note without a tie. -/
theorem C96_score {ord : List TiePair → List TiePair} (hord : ∀ l, (ord l).Perm l)
    {notes : List TieNote} (sc : Score notes) {fuel : Nat} (hf : 2 * notes.length ≤ fuel) :
    ∃ out chains merged, mergeTies ord fuel notes = .ok out ∧ out.Pairwise Before ∧
      out.Perm (notes.filter (fun n => n.grace || n.tied.isNone) ++ merged) ∧
      chains.flatten.Perm (notes.filter (fun n => !n.grace && n.tied.isSome)) ∧
      List.Forall₂ (fun c n => Tie c ∧ Merged c n ∧ n.tied = none) chains merged := by
  obtain ⟨out, _, e, r⟩ := run hord sc.input hf
  obtain ⟨a0, hs, hg, hinv, hfin, hone, _⟩ := start sc.input
  have w0 : WInv notes a0 := by
    have hc1 : ∀ c, c ∈ a0.out ∨ c ∈ a0.fin → ∃ x, c = [x] ∧ x.tied = some 1 := by
      intro c hc
      rcases hc with hc | hc
      · exact hone c hc
      · rw [hfin] at hc; exact absurd hc (by simp)
    refine ⟨hinv, fun c hc h hh => ?_, fun c hc => ?_, fun c hc => ?_⟩
    · obtain ⟨x, rfl, hx⟩ := hc1 c hc
      have : x = h := by simpa using hh
      rw [← this]; exact hx
    · obtain ⟨x, rfl, _⟩ := hc1 c hc
      intro y hy z hz
      rw [List.mem_singleton.1 hy, List.mem_singleton.1 hz]; exact ⟨rfl, rfl⟩
    · rw [hfin] at hc; exact absurd hc (by simp)
  obtain ⟨st1, e1, ok1, _⟩ := refill_ok (P := SV) hord hs hg
  obtain ⟨a1, r1, s1⟩ := ok1.sim
  have w1 := WInv.steps sc w0 r1
  have hm : mergeTies ord fuel notes = tieLoop ord fuel st1 >>= fun st' =>
      .ok ((notes.filter (fun n => !tieChanging n) ++ st'.inn ++ st'.fin).insertionSort keyLe) := by
    show (refill ord (startOf notes) >>= fun st => tieLoop ord fuel st >>= _) = _
    rw [e1]
    rfl
  have hl : ∃ st2, tieLoop ord fuel st1 = .ok st2 := by
    rw [hm] at e
    cases h : tieLoop ord fuel st1 with
    | ok st2 => exact ⟨st2, rfl⟩
    | error x => rw [h] at e; exact absurd e (by simp [Bind.bind, Except.bind])
  obtain ⟨st2, e2⟩ := hl
  obtain ⟨a2, r2, s2, h2⟩ := loop_sv hord sc fuel w1 s1 ok1.good e2
  have w2 := WInv.steps sc w1 r2
  have ho : a2.out = [] := by
    have := s2.out.length_eq
    rw [h2] at this
    simpa using this
  have hi : a2.inn = [] := all_used sc w2 ho
  have hi2 : st2.inn = [] := by
    have := s2.inn.length_eq
    rw [hi] at this
    exact List.length_eq_zero_iff.1 this.symm
  have he2 : out =
      (notes.filter (fun n => !tieChanging n) ++ st2.inn ++ st2.fin).insertionSort keyLe := by
    rw [hm, e2] at e
    exact (Except.ok.inj e).symm
  refine ⟨out, a2.fin, a2.fin.map val, e, r.sorted, ?_, ?_, ?_⟩
  · rw [he2, hi2, List.append_nil]
    refine (List.perm_insertionSort _ _).trans ?_
    have : notes.filter (fun n => !tieChanging n) =
        notes.filter (fun n => n.grace || n.tied.isNone) := by
      refine List.filter_congr fun x _ => ?_
      unfold tieChanging
      cases x.grace <;> cases x.tied <;> rfl
    rw [this]
    exact List.Perm.append_left _ s2.fin.symm
  · have := w2.base.perm
    rw [ho, hi] at this
    have h : a2.fin.flatten.Perm (notes.filter isTied) := by simpa using this
    exact h
  · rw [List.forall₂_map_right_iff, List.forall₂_same]
    intro c hc
    have hv := w2.base.valid c (.inr hc)
    have ht := w2.done c hc
    exact ⟨tie_of hv (w2.same c (.inr hc)) (w2.head c (.inr hc)) ht, hv.merged, ht⟩

/-- **C96.** So no note of the result has a tie, and the result has no more notes than that. -/
theorem C96_untied {ord : List TiePair → List TiePair} (hord : ∀ l, (ord l).Perm l)
    {notes : List TieNote} (sc : Score notes) {fuel : Nat} (hf : 2 * notes.length ≤ fuel)
    {out : List TieNote} (he : mergeTies ord fuel notes = .ok out) :
    (∀ n ∈ out, n.grace = true ∨ n.tied = none) ∧
      out.length = (notes.filter fun n => n.grace || n.tied.isNone).length +
        (notes.filter fun n => !n.grace && n.tied == some 1).length := by
  obtain ⟨out', chains, merged, e, _, h1, h2, h3⟩ := C96_score hord sc hf
  rw [he] at e
  obtain rfl := Except.ok.inj e
  constructor
  · intro n hn
    rcases List.mem_append.1 (h1.mem_iff.1 hn) with h | h
    · have := (List.mem_filter.1 h).2
      simpa using this
    · have hall : ∀ (cs : List (List TieNote)) (ms : List TieNote),
          List.Forall₂ (fun c n => Tie c ∧ Merged c n ∧ n.tied = none) cs ms →
          ∀ n ∈ ms, n.tied = none := by
        intro cs ms h
        induction h with
        | nil => intro n hn; exact absurd hn (by simp)
        | cons hh _ ih =>
          intro n hn
          rcases List.mem_cons.1 hn with rfl | hn
          · exact hh.2.2
          · exact ih n hn
      exact .inr (hall _ _ h3 n h)
  · rw [h1.length_eq, List.length_append]
    congr 1
    have hlen : chains.length = merged.length := h3.length_eq
    have hcount : ∀ (cs : List (List TieNote)) (ms : List TieNote),
        List.Forall₂ (fun c n => Tie c ∧ Merged c n ∧ n.tied = none) cs ms →
        cs.flatten.countP (fun n => n.tied == some 1) = ms.length := by
      intro cs ms h
      induction h with
      | nil => rfl
      | @cons c n cs ms hh _ ih =>
        obtain ⟨⟨_, x, m, l, rfl, hx, hl, hm⟩, _, _⟩ := hh
        rw [List.flatten_cons, List.countP_append, ih, List.length_cons]
        have : (x :: (m ++ [l])).countP (fun n => n.tied == some 1) = 1 := by
          rw [List.countP_cons, List.countP_append]
          have h0 : m.countP (fun n => n.tied == some 1) = 0 := by
            rw [List.countP_eq_zero]
            intro y hy
            rw [hm y hy]; decide
          rw [h0, hx]
          have h5 : [l].countP (fun n => n.tied == some 1) = 0 := by
            rw [List.countP_eq_zero]
            intro y hy
            rw [List.mem_singleton.1 hy, hl]; decide
          rw [h5]; rfl
        omega
    rw [← hcount chains merged h3, h2.countP_eq, List.countP_filter,
      ← List.countP_eq_length_filter]
    refine List.countP_congr fun x _ => ?_
    cases x.grace <;> cases hx : x.tied <;> simp

/-! ### Cases -/

/-- Two voices that hold the same pitch over the same bar lines, the second one for a measure longer,
with a note without a tie. -/
def twoVoices : List TieNote :=
  [wholeNote 0 (some 1), { wholeNote 0 (some 1) with note := 10, voice := 2 },
    { wholeNote 1 (some 0) with note := 11, voice := 2 }, wholeNote 1 (some (-1)),
    { wholeNote 2 (some (-1)) with note := 12, voice := 2 }, { wholeNote 5 none with midi := 50 }]

instance (a b : TieNote) : Decidable (Next a b) := by unfold Next; infer_instance
instance (a : TieNote) : Decidable (TiedOut a) := by unfold TiedOut; infer_instance
instance (a : TieNote) : Decidable (TiedIn a) := by unfold TiedIn; infer_instance
instance (a : TieNote) : Decidable (EndsLater a) := by unfold EndsLater; infer_instance

/-- The hypotheses hold of it, and the voices are kept apart. -/
example : Score twoVoices ∧ mergeTies id 12 twoVoices = .ok
    [{ wholeNote 0 none with dur := 2, offMc := 2 }, { wholeNote 5 none with midi := 50 },
      { wholeNote 0 none with note := 10, voice := 2, dur := 3, offMc := 3 }] := by
  have h1 : ∀ a ∈ twoVoices, ∀ b ∈ twoVoices, ∀ b' ∈ twoVoices,
      TiedOut a ∧ TiedIn b ∧ Next a b ∧ TiedIn b' ∧ Next a b' → b = b' := by decide +kernel
  have h2 : ∀ b ∈ twoVoices, ∀ a ∈ twoVoices, ∀ a' ∈ twoVoices,
      TiedIn b ∧ TiedOut a ∧ Next a b ∧ TiedOut a' ∧ Next a' b → a = a' := by decide +kernel
  refine ⟨⟨⟨by decide, by decide⟩, by decide +kernel, by decide +kernel, ?_, by decide +kernel, ?_⟩,
    by decide +kernel⟩
  · exact fun a ha _ t b hb _ tb n b' hb' _ tb' n' => h1 a ha b hb b' hb' ⟨t, tb, n, tb', n'⟩
  · exact fun b hb _ t a ha _ ta n a' ha' _ ta' n' => h2 b hb a ha a' ha' ⟨t, ta, n, ta', n'⟩

end Verif.TiedScores
