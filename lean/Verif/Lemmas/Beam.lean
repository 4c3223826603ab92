import Verif.Beam
import Verif.Lemmas.Heap

/-!
# Invariants of the beams
-/

namespace Verif

section
variable {α : Type} {lt : α → α → Bool}

theorem foldl_max (hw : WeakOrder lt) (l : List α) (a : α) :
    (l.foldl (fun m x => if lt m x then x else m) a) ∈ a :: l ∧
    lt (l.foldl (fun m x => if lt m x then x else m) a) a = false ∧
    ∀ x ∈ l, lt (l.foldl (fun m x => if lt m x then x else m) a) x = false := by
  induction l generalizing a with
  | nil => simp [hw.irrefl]
  | cons y l ih =>
    simp only [List.foldl_cons]
    obtain ⟨h1, h2, h3⟩ := ih (if lt a y then y else a)
    generalize l.foldl (fun m x => if lt m x then x else m) (if lt a y then y else a) = r at *
    have hay : lt (if lt a y then y else a) a = false := by
      split
      · rename_i h; exact hw.asymm _ _ h
      · exact hw.irrefl a
    have hyy : lt (if lt a y then y else a) y = false := by
      split
      · exact hw.irrefl y
      · rename_i h; simpa using h
    refine ⟨?_, hw.negtrans _ _ _ h2 hay, ?_⟩
    · simp only [List.mem_cons] at h1 ⊢
      rcases h1 with h1 | h1
      · split at h1
        · exact .inr (.inl h1)
        · exact .inl h1
      · exact .inr (.inr h1)
    · intro x hx
      simp only [List.mem_cons] at hx
      rcases hx with rfl | hx
      · exact hw.negtrans _ _ _ h2 hyy
      · exact h3 x hx

theorem pyMax_spec (hw : WeakOrder lt) (l : List α) (m : α) (h : pyMax lt l = some m) :
    m ∈ l ∧ ∀ x ∈ l, lt m x = false := by
  cases l with
  | nil => simp [pyMax] at h
  | cons a l =>
    simp only [pyMax, Option.some.injEq] at h
    obtain ⟨h1, h2, h3⟩ := foldl_max hw l a
    rw [h] at h1 h2 h3
    refine ⟨h1, fun x hx => ?_⟩
    simp only [List.mem_cons] at hx
    rcases hx with rfl | hx
    · exact h2
    · exact h3 x hx

theorem pyMax_isSome (l : List α) (hl : l ≠ []) : ∃ m, pyMax lt l = some m := by
  cases l with
  | nil => exact absurd rfl hl
  | cons a l => exact ⟨_, rfl⟩

/-- What an add does to a beam. -/
theorem Beam.add_cases (hw : WeakOrder lt) (b : Beam α) (s : α) (force : Bool)
    (hs : 1 ≤ b.size) (hh : IsHeap lt b.heap) :
    ∃ ok b', Beam.add lt b s force = .ok (ok, b') ∧ b'.size = b.size ∧ IsHeap lt b'.heap ∧
      ((ok = true ∧ b'.heap.Perm (s :: b.heap) ∧ (force = true ∨ b.heap.length < b.size)) ∨
       (ok = true ∧ force = false ∧ b.size ≤ b.heap.length ∧ ∃ top rest, b.heap = top :: rest ∧
          lt top s = true ∧ b'.heap.Perm (s :: rest)) ∨
       (ok = false ∧ b' = b ∧ force = false ∧ b.size ≤ b.heap.length ∧
          ∃ top rest, b.heap = top :: rest ∧ lt top s = false)) := by
  unfold Beam.add
  split
  · rename_i hc
    split
    · rename_i he; rw [he] at hc; simp at hc; omega
    · rename_i top rest he
      split
      · rename_i hlt
        rw [he] at hh
        obtain ⟨h', e1, e2, e3⟩ := heappushpop_spec hw top rest s hh hlt
        refine ⟨true, _, rfl, rfl, ?_, .inr (.inl ⟨rfl, hc.1, hc.2, top, rest, he, hlt, ?_⟩)⟩
        · simp only [he, e1]; exact e3
        · simp only [he, e1]; exact e2
      · rename_i hlt
        exact ⟨false, b, rfl, rfl, hh, .inr (.inr ⟨rfl, rfl, hc.1, hc.2, top, rest, he,
          by simpa using hlt⟩)⟩
  · rename_i hc
    refine ⟨true, _, rfl, rfl, heappush_heap hw _ _ hh, .inl ⟨rfl, heappush_perm _ _, ?_⟩⟩
    cases force
    · right
      have : ¬ b.size ≤ b.heap.length := fun h => hc ⟨rfl, h⟩
      omega
    · left; rfl

end

/-! ## Dictionaries -/

section
variable {η α : Type} [DecidableEq η]

open HBeam

theorem dictGet_some {d : List (η × α)} {h : η} {a : α} (he : dictGet d h = some a) :
    (h, a) ∈ d := by
  simp only [dictGet, Option.map_eq_some_iff] at he
  obtain ⟨e, h1, h2⟩ := he
  have hm := List.mem_of_find?_eq_some h1
  have hp := List.find?_some h1
  simp at hp
  rw [← hp, ← h2]; exact hm

theorem dictGet_none {d : List (η × α)} {h : η} (he : dictGet d h = none) :
    ∀ e ∈ d, e.1 ≠ h := by
  simp only [dictGet, Option.map_eq_none_iff, List.find?_eq_none] at he
  intro e hm; simpa using he e hm

theorem dictSet_absent {d : List (η × α)} {h : η} {s : α} (hn : ∀ e ∈ d, e.1 ≠ h) :
    dictSet d h s = d ++ [(h, s)] := by
  have : d.any (fun e => decide (e.1 = h)) = false := by
    rw [List.any_eq_false]; intro e he; simpa using hn e he
  simp [dictSet, this]

theorem dictSet_present {d₁ d₂ : List (η × α)} {h : η} {s old : α}
    (h1 : ∀ e ∈ d₁, e.1 ≠ h) (h2 : ∀ e ∈ d₂, e.1 ≠ h) :
    dictSet (d₁ ++ (h, old) :: d₂) h s = d₁ ++ (h, s) :: d₂ := by
  have m1 : d₁.map (fun e => if e.1 = h then (h, s) else e) = d₁ := by
    conv => rhs; rw [← List.map_id d₁]
    apply List.map_congr_left; intro e he; simp [h1 e he]
  have m2 : d₂.map (fun e => if e.1 = h then (h, s) else e) = d₂ := by
    conv => rhs; rw [← List.map_id d₂]
    apply List.map_congr_left; intro e he; simp [h2 e he]
  simp [dictSet, m1, m2]

theorem dictDel_present {d₁ d₂ : List (η × α)} {h : η} {old : α}
    (h1 : ∀ e ∈ d₁, e.1 ≠ h) (h2 : ∀ e ∈ d₂, e.1 ≠ h) :
    dictDel (d₁ ++ (h, old) :: d₂) h = .ok (d₁ ++ d₂) := by
  have m1 : d₁.filter (fun e => !decide (e.1 = h)) = d₁ := by
    rw [List.filter_eq_self]; intro e he; simp [h1 e he]
  have m2 : d₂.filter (fun e => !decide (e.1 = h)) = d₂ := by
    rw [List.filter_eq_self]; intro e he; simp [h2 e he]
  simp [dictDel, m1, m2]

omit [DecidableEq η] in
/-- A dictionary with distinct keys splits around any of its entries. -/
theorem dict_split {d : List (η × α)} {h : η} {a : α} (hnd : (d.map (·.1)).Nodup)
    (hm : (h, a) ∈ d) : ∃ d₁ d₂, d = d₁ ++ (h, a) :: d₂ ∧ (∀ e ∈ d₁, e.1 ≠ h) ∧
      (∀ e ∈ d₂, e.1 ≠ h) := by
  obtain ⟨d₁, d₂, rfl⟩ := List.append_of_mem hm
  refine ⟨d₁, d₂, rfl, ?_, ?_⟩
  · intro e he heq
    rw [List.map_append, List.nodup_append] at hnd
    exact hnd.2.2 e.1 (List.mem_map_of_mem he) h (by simp) heq
  · intro e he heq
    rw [List.map_append, List.map_cons, List.nodup_append, List.nodup_cons] at hnd
    apply hnd.2.1.1
    have : e.1 ∈ d₂.map (·.1) := List.mem_map_of_mem he
    rw [heq] at this; exact this

end

/-! ## The hashed beam -/

section
variable {η α : Type} [DecidableEq η] [DecidableEq α] {lt : α → α → Bool} {hash : α → η}

open HBeam

/-- The bookkeeping of a hashed beam. -/
structure HInv (lt : α → α → Bool) (hash : α → η) (b : HBeam η α) (d : List (η × α)) : Prop where
  dict : b.dict = some d
  heap : IsHeap lt b.heap
  keys : (d.map (·.1)).Nodup
  hashes : ∀ e ∈ d, hash e.2 = e.1
  live : (b.heap.filter (fun a => !decide (a ∈ b.invalid))).Perm (d.map (·.2))
  top : ∀ a rest, b.heap = a :: rest → a ∉ b.invalid

theorem fixMin_spec (hw : WeakOrder lt) (invalid : List α) (fuel : Nat) (heap : List α)
    (hh : IsHeap lt heap) (hex : ∃ a ∈ heap, a ∉ invalid) (hf : heap.length < fuel) :
    ∃ heap', fixMin lt invalid fuel heap = .ok heap' ∧ IsHeap lt heap' ∧
      (heap'.filter (fun a => !decide (a ∈ invalid))).Perm
        (heap.filter (fun a => !decide (a ∈ invalid))) ∧
      (∀ a rest, heap' = a :: rest → a ∉ invalid) := by
  induction fuel generalizing heap with
  | zero => omega
  | succ fuel ih =>
    cases heap with
    | nil => obtain ⟨a, h, _⟩ := hex; cases h
    | cons top rest =>
      by_cases ht : top ∈ invalid
      · obtain ⟨h', e1, e2, e3⟩ := heappop_spec hw top rest hh
        obtain ⟨a, ha, hn⟩ := hex
        have hal : a ∈ rest := by
          simp only [List.mem_cons] at ha
          rcases ha with rfl | ha
          · exact absurd ht hn
          · exact ha
        obtain ⟨heap', g1, g2, g3, g4⟩ := ih h' e3 ⟨a, e2.mem_iff.mpr hal, hn⟩
          (by have := e2.length_eq; simp at hf; omega)
        refine ⟨heap', ?_, g2, ?_, g4⟩
        · simp only [fixMin, ht, if_true, e1, g1]
        · refine g3.trans ?_
          have : (top :: rest).filter (fun a => !decide (a ∈ invalid)) =
              rest.filter (fun a => !decide (a ∈ invalid)) := by simp [ht]
          rw [this]
          exact e2.filter _
      · refine ⟨top :: rest, by simp only [fixMin, ht, if_false], hh, List.Perm.refl _, ?_⟩
        intro a r e; injection e with e1 _; subst e1; exact ht

omit [DecidableEq η] in
theorem HInv.new (size : Nat) : HInv lt hash (HBeam.new (η := η) (α := α) size) [] where
  dict := rfl
  heap := isHeap_nil
  keys := by simp
  hashes := by simp
  live := by simp [HBeam.new]
  top := by intro a rest h; simp [HBeam.new] at h

omit [DecidableEq η] in
/-- The top of the heap of a hashed beam is a least live state. -/
theorem HInv.top_min (hw : WeakOrder lt) {b : HBeam η α} {d : List (η × α)}
    (hi : HInv lt hash b d) {top : α} {rest : List α} (ht : b.heap = top :: rest) :
    top ∈ d.map (·.2) ∧ ∀ x ∈ d.map (·.2), lt x top = false := by
  constructor
  · rw [← hi.live.mem_iff, List.mem_filter]
    exact ⟨by rw [ht]; simp, by simpa using hi.top _ _ ht⟩
  · intro x hx
    rw [← hi.live.mem_iff, List.mem_filter] at hx
    exact hi.heap.min hw (by rw [ht]; rfl) hx.1

omit [DecidableEq η] in
theorem HInv.heap_ne (hi : HInv lt hash b d) (hd : d ≠ []) : ∃ top rest, b.heap = top :: rest := by
  cases h : b.heap with
  | nil =>
    have := hi.live.length_eq
    rw [h] at this
    simp at this
    exact absurd (List.length_eq_zero_iff.mp this.symm) hd
  | cons top rest => exact ⟨top, rest, rfl⟩

omit [DecidableEq η] in
/-- Distinct keys give distinct values. -/
theorem HInv.values_nodup {b : HBeam η α} {d : List (η × α)} (hi : HInv lt hash b d) :
    (d.map (·.2)).Nodup := by
  have hk := hi.keys
  have hh := hi.hashes
  clear hi
  induction d with
  | nil => simp
  | cons e d ih =>
    simp only [List.map_cons, List.nodup_cons] at hk ⊢
    refine ⟨?_, ih hk.2 (fun e he => hh e (by simp [he]))⟩
    intro hm
    obtain ⟨e', he', heq⟩ := List.mem_map.mp hm
    apply hk.1
    rw [← hh e (by simp), ← heq, hh e' (by simp [he'])]
    exact List.mem_map_of_mem he'

/-- What an add does to a hashed beam. -/
theorem HBeam.add_cases (hw : WeakOrder lt) (b : HBeam η α) (d : List (η × α)) (s : α)
    (force : Bool) (hs : 1 ≤ b.size) (hi : HInv lt hash b d) (hv : s ∉ b.invalid) :
    ∃ ok b' d', HBeam.add lt hash b s force = .ok (ok, b') ∧ b'.size = b.size ∧
      HInv lt hash b' d' ∧
      ((ok = true ∧ (∃ d₁ d₂ old, d = d₁ ++ (hash s, old) :: d₂ ∧ d' = d₁ ++ (hash s, s) :: d₂ ∧
          lt old s = true ∧ b'.invalid = old :: b.invalid)) ∨
       (ok = false ∧ b' = b ∧ d' = d ∧ ∃ old, (hash s, old) ∈ d ∧ lt old s = false) ∨
       (ok = true ∧ (∀ e ∈ d, e.1 ≠ hash s) ∧ force = false ∧ b.size ≤ d.length ∧
          ∃ d₁ d₂ top rest, b.heap = top :: rest ∧ lt top s = true ∧
            d = d₁ ++ (hash top, top) :: d₂ ∧ d' = d₁ ++ d₂ ++ [(hash s, s)] ∧
            b'.invalid = b.invalid) ∨
       (ok = false ∧ b' = b ∧ d' = d ∧ (∀ e ∈ d, e.1 ≠ hash s) ∧ force = false ∧
          b.size ≤ d.length ∧ ∃ top rest, b.heap = top :: rest ∧ lt top s = false) ∨
       (ok = true ∧ (∀ e ∈ d, e.1 ≠ hash s) ∧ (force = true ∨ d.length < b.size) ∧
          d' = d ++ [(hash s, s)] ∧ b'.invalid = b.invalid)) := by
  unfold HBeam.add
  rw [hi.dict]
  simp only
  cases hg : dictGet d (hash s) with
  | some old =>
    have hm := dictGet_some hg
    simp only
    by_cases hlt : lt old s = true
    · rw [if_pos hlt]
      obtain ⟨d₁, d₂, hd, h1, h2⟩ := dict_split hi.keys hm
      have hperm := heappush_perm (lt := lt) b.heap s
      have hne : s ≠ old := by
        rintro rfl; rw [hw.irrefl] at hlt; cases hlt
      have hsn : s ∉ old :: b.invalid := by simp [hne, hv]
      obtain ⟨heap', e1, e2, e3, e4⟩ := fixMin_spec hw (old :: b.invalid)
        ((heappush lt b.heap s).length + 1) (heappush lt b.heap s)
        (heappush_heap hw _ _ hi.heap) ⟨s, hperm.mem_iff.mpr (by simp), hsn⟩ (by omega)
      refine ⟨true, { b with heap := heap', dict := some (dictSet d (hash s) s), invalid := old :: b.invalid },
        d₁ ++ (hash s, s) :: d₂, by rw [e1]; rfl, rfl, ?_,
        .inl ⟨rfl, d₁, d₂, old, hd, rfl, hlt, rfl⟩⟩
      have hvn := hi.values_nodup
      constructor
      · simp only; rw [hd, dictSet_present h1 h2]
      · exact e2
      · have := hi.keys; rw [hd] at this; simpa using this
      · intro e he
        simp only [List.mem_append, List.mem_cons] at he
        rcases he with he | rfl | he
        · exact hi.hashes e (by rw [hd]; simp [he])
        · rfl
        · exact hi.hashes e (by rw [hd]; simp [he])
      · refine e3.trans ?_
        have p1 := hperm.filter (fun a => !decide (a ∈ old :: b.invalid))
        refine p1.trans ?_
        have hf : (s :: b.heap).filter (fun a => !decide (a ∈ old :: b.invalid)) =
            s :: ((b.heap.filter (fun a => !decide (a ∈ b.invalid))).filter
              (fun a => !decide (a = old))) := by
          rw [List.filter_cons_of_pos (by simpa using hsn), List.filter_filter]
          congr 1
          apply List.filter_congr
          intro a _
          by_cases h1 : a = old <;> simp [h1]
        rw [hf]
        have p2 := (hi.live.filter (fun a => !decide (a = old)))
        have hold : (d.map (·.2)).filter (fun a => !decide (a = old)) =
            d₁.map (·.2) ++ d₂.map (·.2) := by
          rw [hd] at hvn ⊢
          simp only [List.map_append, List.map_cons] at hvn ⊢
          rw [List.nodup_append, List.nodup_cons] at hvn
          rw [List.filter_append, List.filter_cons_of_neg (by simp)]
          congr 1
          · rw [List.filter_eq_self]
            intro a ha
            have := hvn.2.2 a ha old (by simp)
            simp [this]
          · rw [List.filter_eq_self]
            intro a ha
            have : a ≠ old := by rintro rfl; exact hvn.2.1.1 ha
            simp [this]
        rw [hold] at p2
        simp only [List.map_append, List.map_cons]
        exact (List.Perm.cons s p2).trans List.perm_middle.symm
      · exact e4
    · rw [if_neg hlt]
      exact ⟨false, b, d, rfl, rfl, hi, .inr (.inl ⟨rfl, rfl, rfl, old, hm, by simpa using hlt⟩)⟩
  | none =>
    have hab := dictGet_none hg
    simp only
    by_cases hc : force = false ∧ b.size ≤ d.length
    · rw [if_pos hc]
      obtain ⟨top, rest, ht⟩ := hi.heap_ne (by rintro rfl; simp at hc; omega)
      rw [ht]
      simp only
      by_cases hlt : lt top s = true
      · rw [if_pos hlt]
        have hh := hi.heap
        rw [ht] at hh
        obtain ⟨h', e1, e2, e3⟩ := heappushpop_spec hw top rest s hh hlt
        have htop := (hi.top_min hw ht).1
        obtain ⟨e, hem, het⟩ := List.mem_map.mp htop
        have hek : e.1 = hash top := by rw [← hi.hashes e hem, het]
        have hem' : (hash top, top) ∈ d := by
          rw [← hek, ← het]; exact hem
        obtain ⟨d₁, d₂, hd, h1, h2⟩ := dict_split hi.keys hem'
        have hts : hash s ≠ hash top := fun h => hab _ hem' h.symm
        have hset : dictSet d (hash s) s = d₁ ++ (hash top, top) :: (d₂ ++ [(hash s, s)]) := by
          rw [dictSet_absent hab, hd]; simp
        have hdel : dictDel (dictSet d (hash s) s) (hash top) = .ok (d₁ ++ (d₂ ++ [(hash s, s)])) := by
          rw [hset]
          apply dictDel_present h1
          intro e he
          simp only [List.mem_append, List.mem_singleton] at he
          rcases he with he | rfl
          · exact h2 e he
          · exact hts
        obtain ⟨heap', g1, g2, g3, g4⟩ := fixMin_spec hw b.invalid (h'.length + 1) h' e3
          ⟨s, e2.mem_iff.mpr (by simp), hv⟩ (by omega)
        refine ⟨true, { b with heap := heap', dict := some (d₁ ++ (d₂ ++ [(hash s, s)])) },
          d₁ ++ d₂ ++ [(hash s, s)], by rw [e1]; simp only [hdel, g1]; rfl, rfl, ?_,
          .inr (.inr (.inl ⟨rfl, hab, hc.1, hc.2, d₁, d₂, top, rest, rfl, hlt, hd, rfl, rfl⟩))⟩
        constructor
        · simp
        · exact g2
        · have hk := hi.keys
          rw [hd] at hk
          simp only [List.map_append, List.map_cons, List.nodup_append, List.nodup_cons,
            List.map_nil] at hk ⊢
          refine ⟨⟨hk.1, hk.2.1.2, fun a ha b hb => hk.2.2 a ha b (by simp [hb])⟩, by simp, ?_⟩
          intro a ha x hx
          simp at hx; subst hx
          rw [← List.map_append] at ha
          obtain ⟨e, he, rfl⟩ := List.mem_map.mp ha
          apply hab
          rw [hd]; simp at he ⊢
          rcases he with he | he
          · exact .inl he
          · exact .inr (.inr he)
        · intro e he
          simp only [List.mem_append, List.mem_singleton] at he
          rcases he with (he | he) | rfl
          · exact hi.hashes e (by rw [hd]; simp [he])
          · exact hi.hashes e (by rw [hd]; simp [he])
          · rfl
        · refine g3.trans ((e2.filter _).trans ?_)
          rw [List.filter_cons_of_pos (by simpa using hv)]
          have hl := hi.live
          rw [ht, List.filter_cons_of_pos (by simpa using hi.top _ _ ht), hd] at hl
          simp only [List.map_append, List.map_cons] at hl ⊢
          have hl' := (hl.trans List.perm_middle).cons_inv
          refine (List.Perm.cons s hl').trans ?_
          exact (List.perm_append_singleton s _).symm
        · exact g4
      · rw [if_neg hlt]
        exact ⟨false, b, d, rfl, rfl, hi, .inr (.inr (.inr (.inl ⟨rfl, rfl, rfl, hab, hc.1, hc.2,
          top, rest, rfl, by simpa using hlt⟩)))⟩
    · rw [if_neg hc]
      have hperm := heappush_perm (lt := lt) b.heap s
      refine ⟨true, _, d ++ [(hash s, s)], rfl, rfl, ?_, .inr (.inr (.inr (.inr ⟨rfl, hab, ?_, rfl, rfl⟩)))⟩
      · constructor
        · simp only; rw [dictSet_absent hab]
        · exact heappush_heap hw _ _ hi.heap
        · rw [List.map_append, List.nodup_append]
          refine ⟨hi.keys, by simp, ?_⟩
          intro a ha x hx
          simp at hx; subst hx
          obtain ⟨e, he, rfl⟩ := List.mem_map.mp ha
          exact hab e he
        · intro e he
          simp only [List.mem_append, List.mem_singleton] at he
          rcases he with he | rfl
          · exact hi.hashes e he
          · rfl
        · refine (hperm.filter _).trans ?_
          rw [List.filter_cons_of_pos (by simpa using hv)]
          simp only [List.map_append, List.map_cons, List.map_nil]
          exact (List.Perm.cons s hi.live).trans (List.perm_append_singleton s _).symm
        · intro a r ha
          simp only at ha
          have h0 : (heappush lt b.heap s)[0]? = some a := by rw [ha]; rfl
          rcases heappush_head b.heap s with h | h
          · rw [h] at h0; injection h0 with h0; subst h0; exact hv
          · cases hb : b.heap with
            | nil => rw [h, hb] at h0; cases h0
            | cons t r' =>
              rw [h, hb] at h0
              injection h0 with h0; subst h0
              exact hi.top _ _ hb
      · cases force
        · right
          have : ¬ b.size ≤ d.length := fun h => hc ⟨rfl, h⟩
          omega
        · left; rfl

end

end Verif
