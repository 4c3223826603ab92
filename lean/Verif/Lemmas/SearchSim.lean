import Verif.Search
import Mathlib.Data.List.Forall2

/-!
# Two searches that do the same

If the parts of two searches take related states to related states, the searches find related states.
-/

namespace Verif

/-- Both results are values that are related, or the same exception. -/
def PyRel {α β : Type} (R : α → β → Prop) : Py α → Py β → Prop
  | .ok a, .ok b => R a b
  | .error e, .error e' => e = e'
  | _, _ => False

/-- Both are missing, or both are there and related. -/
def OptRel {α β : Type} (R : α → β → Prop) : Option α → Option β → Prop
  | some a, some b => R a b
  | none, none => True
  | _, _ => False

namespace PyRel
variable {α β γ δ : Type} {R : α → β → Prop} {S : γ → δ → Prop}

theorem refl {x : Py α} : PyRel Eq x x := by cases x <;> simp [PyRel]

theorem ok {a : α} {b : β} (h : R a b) : PyRel R (.ok a) (.ok b) := h

theorem err {e : PyErr} : PyRel R (.error e : Py α) (.error e : Py β) := rfl

theorem bind {x : Py α} {y : Py β} {f : α → Py γ} {g : β → Py δ} (h : PyRel R x y)
    (hf : ∀ a b, x = .ok a → y = .ok b → R a b → PyRel S (f a) (g b)) :
    PyRel S (x.bind f) (y.bind g) := by
  cases x <;> cases y <;> simp only [PyRel] at h
  · exact h
  · exact hf _ _ rfl rfl h

theorem map {x : Py α} {y : Py β} {f : α → γ} {g : β → δ} (h : PyRel R x y)
    (hf : ∀ a b, R a b → S (f a) (g b)) : PyRel S (x.map f) (y.map g) := by
  cases x <;> cases y <;> simp only [PyRel] at h
  · exact h
  · exact hf _ _ h

theorem mono {x : Py α} {y : Py β} {R' : α → β → Prop} (h : PyRel R x y)
    (hf : ∀ a b, x = .ok a → y = .ok b → R a b → R' a b) : PyRel R' x y := by
  cases x <;> cases y <;> simp only [PyRel] at h ⊢
  · exact h
  · exact hf _ _ rfl rfl h

theorem mapM {l : List α} {l' : List β} {f : α → Py γ} {g : β → Py δ} (h : List.Forall₂ R l l')
    (hf : ∀ a b, R a b → PyRel S (f a) (g b)) : PyRel (List.Forall₂ S) (l.mapM f) (l'.mapM g) := by
  induction h with
  | nil => exact List.Forall₂.nil
  | cons hab _ ih =>
    simp only [List.mapM_cons]
    refine bind (hf _ _ hab) fun _ _ _ _ hcd => ?_
    refine bind ih fun _ _ _ _ hl => ?_
    exact List.Forall₂.cons hcd hl

theorem foldlM {l : List α} {l' : List β} {f : γ → α → Py γ} {g : δ → β → Py δ}
    (h : List.Forall₂ R l l') (hf : ∀ c d a b, S c d → R a b → PyRel S (f c a) (g d b)) :
    ∀ {c : γ} {d : δ}, S c d → PyRel S (l.foldlM f c) (l'.foldlM g d) := by
  induction h with
  | nil => intro c d hcd; exact hcd
  | cons hab _ ih =>
    intro c d hcd
    simp only [List.foldlM_cons]
    exact bind (hf _ _ _ _ hcd hab) fun _ _ _ _ hs => ih hs

end PyRel

section lists
variable {α β : Type} {R : α → β → Prop}

theorem forall₂_get {l : List α} {l' : List β} (h : List.Forall₂ R l l') :
    ∀ i : Nat, OptRel R l[i]? l'[i]? := by
  induction h with
  | nil => intro i; simp [OptRel]
  | cons hab _ ih =>
    intro i
    cases i with
    | zero => simpa [OptRel] using hab
    | succ n => simpa using ih n

theorem forall₂_set {l : List α} {l' : List β} (h : List.Forall₂ R l l') {x : α} {y : β} (hxy : R x y) :
    ∀ i : Nat, List.Forall₂ R (l.set i x) (l'.set i y) := by
  induction h with
  | nil => intro i; simp
  | cons hab hl ih =>
    intro i
    cases i with
    | zero => exact List.Forall₂.cons hxy hl
    | succ n => exact List.Forall₂.cons hab (ih n)

theorem pyGet_rel {l : List α} {l' : List β} (h : List.Forall₂ R l l') (i : Int) :
    PyRel R (pyGet l i) (pyGet l' i) := by
  have hl := h.length_eq
  have hn : ∀ n : Nat, OptRel R l[n]? l'[n]? := forall₂_get h
  unfold pyGet
  rw [← hl]
  split
  · have := hn i.toNat
    revert this
    cases l[i.toNat]? <;> cases l'[i.toNat]? <;> simp [OptRel, PyRel]
  · split
    · have := hn (l.length + i).toNat
      revert this
      cases l[(l.length + i).toNat]? <;> cases l'[(l.length + i).toNat]? <;> simp [OptRel, PyRel]
    · exact PyRel.err

theorem forall₂_flatten {l : List (List α)} {l' : List (List β)}
    (h : List.Forall₂ (List.Forall₂ R) l l') : List.Forall₂ R l.flatten l'.flatten := by
  induction h with
  | nil => exact List.Forall₂.nil
  | cons hab _ ih => exact List.rel_append hab ih

theorem forall₂_map {γ δ : Type} {S : γ → δ → Prop} {f : α → γ} {g : β → δ} {l : List α} {l' : List β}
    (h : List.Forall₂ R l l') (hf : ∀ a b, R a b → S (f a) (g b)) :
    List.Forall₂ S (l.map f) (l'.map g) := by
  induction h with
  | nil => exact List.Forall₂.nil
  | cons hab _ ih => exact List.Forall₂.cons (hf _ _ hab) ih

theorem forall₂_refl {l : List α} {R : α → α → Prop} (h : ∀ a ∈ l, R a a) : List.Forall₂ R l l := by
  induction l with
  | nil => exact List.Forall₂.nil
  | cons a l ih =>
    exact List.Forall₂.cons (h a (by simp)) (ih fun b hb => h b (List.mem_cons_of_mem _ hb))

theorem forall₂_dropLast {l : List α} {l' : List β} (h : List.Forall₂ R l l') :
    List.Forall₂ R l.dropLast l'.dropLast := by
  induction h with
  | nil => exact List.Forall₂.nil
  | cons hab hl ih =>
    cases hl with
    | nil => exact List.Forall₂.nil
    | cons h1 h2 => exact List.Forall₂.cons hab ih

theorem forall₂_getLast {l : List α} {l' : List β} (h : List.Forall₂ R l l') :
    OptRel R l.getLast? l'.getLast? := by
  rw [List.getLast?_eq_getElem?, List.getLast?_eq_getElem?, h.length_eq]
  exact forall₂_get h _

theorem forall₂_replicate {a : α} {b : β} (h : R a b) (n : Nat) :
    List.Forall₂ R (List.replicate n a) (List.replicate n b) := by
  induction n with
  | zero => exact List.Forall₂.nil
  | succ n ih => exact List.Forall₂.cons h ih

end lists

/-! ## Heaps -/

section heaps
variable {σ σ' : Type} {S : σ → σ' → Prop} {lt : σ → σ → Bool} {lt' : σ' → σ' → Bool}
  (hlt : ∀ a a' b b', S a a' → S b b' → lt a b = lt' a' b')
include hlt

theorem siftdown_rel (fuel : Nat) : ∀ {heap : List σ} {heap' : List σ'} {x : σ} {x' : σ'} (pos : Nat),
    List.Forall₂ S heap heap' → S x x' →
    List.Forall₂ S (siftdown lt fuel heap x pos) (siftdown lt' fuel heap' x' pos) := by
  induction fuel with
  | zero => intro heap heap' x x' pos h hx; exact forall₂_set h hx pos
  | succ n ih =>
    intro heap heap' x x' pos h hx
    simp only [siftdown]
    split
    · have hg := forall₂_get h ((pos - 1) / 2)
      revert hg
      cases heap[(pos - 1) / 2]? <;> cases heap'[(pos - 1) / 2]? <;> intro hg <;>
        simp only [OptRel] at hg
      · exact forall₂_set h hx pos
      · simp only []
        rw [← hlt _ _ _ _ hx hg]
        split
        · exact ih _ (forall₂_set h hg pos) hx
        · exact forall₂_set h hx pos
    · exact forall₂_set h hx pos

theorem smallerChild_rel {heap : List σ} {heap' : List σ'} (h : List.Forall₂ S heap heap') (i : Nat) :
    smallerChild lt heap i = smallerChild lt' heap' i := by
  unfold smallerChild
  have h1 := forall₂_get h i
  have h2 := forall₂_get h (i + 1)
  revert h1 h2
  cases heap[i]? <;> cases heap'[i]? <;> cases heap[i + 1]? <;> cases heap'[i + 1]? <;>
    intro h1 h2 <;> simp only [OptRel] at h1 h2 <;> try rfl
  simp only [hlt _ _ _ _ h1 h2]

theorem siftup_rel (fuel : Nat) : ∀ {heap : List σ} {heap' : List σ'} {x : σ} {x' : σ'} (pos : Nat),
    List.Forall₂ S heap heap' → S x x' →
    List.Forall₂ S (siftup lt fuel heap x pos) (siftup lt' fuel heap' x' pos) := by
  induction fuel with
  | zero => intro heap heap' x x' pos h hx; exact siftdown_rel hlt _ _ h hx
  | succ n ih =>
    intro heap heap' x x' pos h hx
    simp only [siftup]
    rw [← smallerChild_rel hlt h]
    have hg := forall₂_get h (smallerChild lt heap (2 * pos + 1))
    revert hg
    cases heap[smallerChild lt heap (2 * pos + 1)]? <;>
      cases heap'[smallerChild lt heap (2 * pos + 1)]? <;> intro hg <;> simp only [OptRel] at hg
    · exact siftdown_rel hlt _ _ h hx
    · exact ih _ (forall₂_set h hg pos) hx

theorem heappush_rel {heap : List σ} {heap' : List σ'} {x : σ} {x' : σ'}
    (h : List.Forall₂ S heap heap') (hx : S x x') :
    List.Forall₂ S (heappush lt heap x) (heappush lt' heap' x') := by
  unfold heappush
  rw [← h.length_eq]
  exact siftdown_rel hlt _ _ (List.rel_append h (List.Forall₂.cons hx List.Forall₂.nil)) hx

theorem heappop_rel {heap : List σ} {heap' : List σ'} (h : List.Forall₂ S heap heap') :
    OptRel (fun a b => S a.1 b.1 ∧ List.Forall₂ S a.2 b.2) (heappop lt heap) (heappop lt' heap') := by
  unfold heappop
  have h1 := forall₂_getLast h
  have h2 := forall₂_dropLast h
  revert h1 h2
  cases heap.getLast? <;> cases heap'.getLast? <;> intro h1 h2 <;> simp only [OptRel] at h1
  · trivial
  · simp only []
    generalize heap.dropLast = d1 at h2
    generalize heap'.dropLast = d2 at h2
    cases h2 with
    | nil => exact ⟨h1, List.Forall₂.nil⟩
    | cons ha hl =>
      refine ⟨ha, ?_⟩
      simp only [hl.length_eq]
      exact siftup_rel hlt _ _ (List.Forall₂.cons h1 hl) h1

theorem heappushpop_rel {heap : List σ} {heap' : List σ'} {x : σ} {x' : σ'}
    (h : List.Forall₂ S heap heap') (hx : S x x') :
    S (heappushpop lt heap x).1 (heappushpop lt' heap' x').1 ∧
      List.Forall₂ S (heappushpop lt heap x).2 (heappushpop lt' heap' x').2 := by
  unfold heappushpop
  cases h with
  | nil => exact ⟨hx, List.Forall₂.nil⟩
  | cons ha hl =>
    simp only []
    rw [← hlt _ _ _ _ ha hx, hl.length_eq]
    split
    · exact ⟨ha, siftup_rel hlt _ _ (List.Forall₂.cons hx hl) hx⟩
    · exact ⟨hx, List.Forall₂.cons ha hl⟩

theorem foldMax_rel {l : List σ} {l' : List σ'} (h : List.Forall₂ S l l') :
    ∀ {a : σ} {a' : σ'}, S a a' → S (l.foldl (fun m x => if lt m x then x else m) a)
      (l'.foldl (fun m x => if lt' m x then x else m) a') := by
  induction h with
  | nil => intro a a' ha; exact ha
  | cons hb _ ih =>
    intro a a' ha
    simp only [List.foldl_cons]
    apply ih
    rw [hlt _ _ _ _ ha hb]
    split <;> assumption

theorem pyMax_rel {l : List σ} {l' : List σ'} (h : List.Forall₂ S l l') :
    OptRel S (pyMax lt l) (pyMax lt' l') := by
  cases h with
  | nil => trivial
  | cons ha hl => exact foldMax_rel hlt hl ha

end heaps

/-! ## Beams -/

/-- Two classes of beams take related states to related beams. -/
structure OpsSim {β β' σ σ' : Type} (ops : BeamOps β σ) (ops' : BeamOps β' σ') (B : β → β' → Prop)
    (S : σ → σ' → Prop) : Prop where
  new : ∀ n, B (ops.new n) (ops'.new n)
  len : ∀ b b', B b b' → ops.len b = ops'.len b'
  least : ∀ b b', B b b' → PyRel S (ops.least b) (ops'.least b')
  fits : ∀ b b' s s' c, B b b' → S s s' → PyRel Eq (ops.fits b s c) (ops'.fits b' s' c)
  add : ∀ b b' s s' f, B b b' → S s s' → PyRel (fun x y => B x.2 y.2) (ops.add b s f) (ops'.add b' s' f)
  states : ∀ b b', B b b' → PyRel (List.Forall₂ S) (ops.states b) (ops'.states b')
  empty : ∀ b b', B b b' → B (ops.empty b) (ops'.empty b')
  topState : ∀ b b', B b b' → PyRel (OptRel S) (ops.topState b) (ops'.topState b')

theorem heapLeast_rel {σ σ' : Type} {S : σ → σ' → Prop} {h : List σ} {h' : List σ'}
    (hh : List.Forall₂ S h h') : PyRel S (heapLeast h) (heapLeast h') := by
  cases hh with
  | nil => exact PyRel.err
  | cons ha _ => exact ha

/-- Plain beams with related heaps. -/
def PlainRel {σ σ' : Type} (S : σ → σ' → Prop) (b : Beam σ) (b' : Beam σ') : Prop :=
  b.size = b'.size ∧ List.Forall₂ S b.heap b'.heap

theorem plainOps_sim {σ σ' : Type} {S : σ → σ' → Prop} {lt : σ → σ → Bool} {lt' : σ' → σ' → Bool}
    (hlt : ∀ a a' b b', S a a' → S b b' → lt a b = lt' a' b') :
    OpsSim (plainOps lt) (plainOps lt') (PlainRel S) S where
  new n := ⟨rfl, List.Forall₂.nil⟩
  len b b' h := h.2.length_eq
  least b b' h := heapLeast_rel h.2
  fits b b' s s' c h hs := by
    obtain ⟨n, heap⟩ := b
    obtain ⟨n', heap'⟩ := b'
    obtain ⟨hn, hh⟩ := h
    simp only at hn hh
    simp only [plainOps, Beam.fits, hn, hh.length_eq]
    split
    · exact PyRel.refl
    · cases hh with
      | nil => exact PyRel.err
      | cons ha _ => exact hlt _ _ _ _ ha hs
  add b b' s s' f h hs := by
    obtain ⟨n, heap⟩ := b
    obtain ⟨n', heap'⟩ := b'
    obtain ⟨hn, hh⟩ := h
    simp only at hn hh
    subst hn
    simp only [plainOps, Beam.add, hh.length_eq]
    split
    · cases hh with
      | nil => exact PyRel.err
      | cons ha hl =>
        simp only []
        rw [← hlt _ _ _ _ ha hs]
        split
        · exact ⟨rfl, (heappushpop_rel hlt (List.Forall₂.cons ha hl) hs).2⟩
        · exact ⟨rfl, List.Forall₂.cons ha hl⟩
    · exact ⟨rfl, heappush_rel hlt hh hs⟩
  states b b' h := h.2
  empty b b' h := ⟨h.1, List.Forall₂.nil⟩
  topState b b' h := pyMax_rel hlt h.2

/-- Dictionaries with related keys and states. -/
def DictRel {η η' σ σ' : Type} (K : η → η' → Prop) (S : σ → σ' → Prop) :
    Option (List (η × σ)) → Option (List (η' × σ')) → Prop :=
  OptRel (List.Forall₂ fun e e' => K e.1 e'.1 ∧ S e.2 e'.2)

/-- Hashed beams with related parts. -/
def HashedRel {η η' σ σ' : Type} (K : η → η' → Prop) (S : σ → σ' → Prop) (b : HBeam η σ)
    (b' : HBeam η' σ') : Prop :=
  b.size = b'.size ∧ List.Forall₂ S b.heap b'.heap ∧ DictRel K S b.dict b'.dict ∧
    List.Forall₂ S b.invalid b'.invalid

section hashed
variable {η η' σ σ' : Type} [DecidableEq η] [DecidableEq η'] [DecidableEq σ] [DecidableEq σ']
  {K : η → η' → Prop} {S : σ → σ' → Prop} {lt : σ → σ → Bool} {lt' : σ' → σ' → Bool} {hash : σ → η}
  {hash' : σ' → η'}

omit [DecidableEq σ] [DecidableEq σ'] in
theorem dictGet_rel (hK : ∀ a a' b b', K a a' → K b b' → (a = b ↔ a' = b')) {d : List (η × σ)}
    {d' : List (η' × σ')} (h : List.Forall₂ (fun e e' => K e.1 e'.1 ∧ S e.2 e'.2) d d') {k : η} {k' : η'}
    (hk : K k k') : OptRel S (HBeam.dictGet d k) (HBeam.dictGet d' k') := by
  unfold HBeam.dictGet
  induction h with
  | nil => trivial
  | cons hab _ ih =>
    simp only [List.find?_cons]
    rw [show decide (_ = k) = decide (_ = k') from decide_eq_decide.mpr (hK _ _ _ _ hab.1 hk)]
    split
    · exact hab.2
    · exact ih

omit [DecidableEq σ] [DecidableEq σ'] in
theorem dictAny_rel (hK : ∀ a a' b b', K a a' → K b b' → (a = b ↔ a' = b')) {d : List (η × σ)}
    {d' : List (η' × σ')} (h : List.Forall₂ (fun e e' => K e.1 e'.1 ∧ S e.2 e'.2) d d') {k : η} {k' : η'}
    (hk : K k k') : d.any (fun e => decide (e.1 = k)) = d'.any (fun e => decide (e.1 = k')) := by
  induction h with
  | nil => rfl
  | cons hab _ ih =>
    simp only [List.any_cons, ih]
    rw [show decide (_ = k) = decide (_ = k') from decide_eq_decide.mpr (hK _ _ _ _ hab.1 hk)]

omit [DecidableEq σ] [DecidableEq σ'] in
theorem dictSet_rel (hK : ∀ a a' b b', K a a' → K b b' → (a = b ↔ a' = b')) {d : List (η × σ)}
    {d' : List (η' × σ')} (h : List.Forall₂ (fun e e' => K e.1 e'.1 ∧ S e.2 e'.2) d d') {k : η} {k' : η'}
    (hk : K k k') {s : σ} {s' : σ'} (hs : S s s') :
    List.Forall₂ (fun e e' => K e.1 e'.1 ∧ S e.2 e'.2) (HBeam.dictSet d k s) (HBeam.dictSet d' k' s') := by
  unfold HBeam.dictSet
  rw [dictAny_rel hK h hk]
  split
  · refine forall₂_map h fun e e' he => ?_
    have hiff := hK _ _ _ _ he.1 hk
    by_cases h1 : e.1 = k
    · rw [if_pos h1, if_pos (hiff.mp h1)]
      exact ⟨hk, hs⟩
    · rw [if_neg h1, if_neg fun h2 => h1 (hiff.mpr h2)]
      exact he
  · exact List.rel_append h (List.Forall₂.cons ⟨hk, hs⟩ List.Forall₂.nil)

omit [DecidableEq σ] [DecidableEq σ'] in
theorem dictDel_rel (hK : ∀ a a' b b', K a a' → K b b' → (a = b ↔ a' = b')) {d : List (η × σ)}
    {d' : List (η' × σ')} (h : List.Forall₂ (fun e e' => K e.1 e'.1 ∧ S e.2 e'.2) d d') {k : η} {k' : η'}
    (hk : K k k') :
    PyRel (List.Forall₂ (fun e e' => K e.1 e'.1 ∧ S e.2 e'.2)) (HBeam.dictDel d k)
      (HBeam.dictDel d' k') := by
  unfold HBeam.dictDel
  rw [dictAny_rel hK h hk]
  split
  · rename_i hany
    clear hany
    refine PyRel.ok ?_
    induction h with
    | nil => exact List.Forall₂.nil
    | cons he _ ih =>
      have hiff := hK _ _ _ _ he.1 hk
      simp only [List.filter_cons]
      rw [show decide (_ = k) = decide (_ = k') from decide_eq_decide.mpr hiff]
      split
      · exact List.Forall₂.cons he ih
      · exact ih
  · exact PyRel.err

omit [DecidableEq η] [DecidableEq η'] [DecidableEq σ] [DecidableEq σ'] in
theorem mem_rel (hS : ∀ a a' b b', S a a' → S b b' → (a = b ↔ a' = b')) {l : List σ} {l' : List σ'}
    (h : List.Forall₂ S l l') {x : σ} {x' : σ'} (hx : S x x') : x ∈ l ↔ x' ∈ l' := by
  induction h with
  | nil => simp
  | cons ha _ ih => simp only [List.mem_cons, ih, hS _ _ _ _ hx ha]

omit [DecidableEq η] [DecidableEq η'] in
theorem fixMin_rel (hlt : ∀ a a' b b', S a a' → S b b' → lt a b = lt' a' b')
    (hS : ∀ a a' b b', S a a' → S b b' → (a = b ↔ a' = b')) {inv : List σ} {inv' : List σ'}
    (hinv : List.Forall₂ S inv inv') (fuel : Nat) : ∀ {heap : List σ} {heap' : List σ'},
    List.Forall₂ S heap heap' →
    PyRel (List.Forall₂ S) (HBeam.fixMin lt inv fuel heap) (HBeam.fixMin lt' inv' fuel heap') := by
  induction fuel with
  | zero => intro heap heap' h; exact h
  | succ n ih =>
    intro heap heap' h
    have hp := heappop_rel hlt h
    simp only [HBeam.fixMin]
    cases h with
    | nil => exact PyRel.err
    | cons ha hl =>
      simp only [mem_rel hS hinv ha]
      split
      · revert hp
        generalize heappop lt _ = o
        generalize heappop lt' _ = o'
        intro hp
        cases o <;> cases o' <;> simp only [OptRel] at hp
        · exact PyRel.err
        · exact ih hp.2
      · exact List.Forall₂.cons ha hl

omit [DecidableEq η] [DecidableEq η'] [DecidableEq σ] [DecidableEq σ'] in
theorem len_rel {b : HBeam η σ} {b' : HBeam η' σ'} (h : HashedRel K S b b') : b.len = b'.len := by
  obtain ⟨n, heap, d, inv⟩ := b
  obtain ⟨n', heap', d', inv'⟩ := b'
  obtain ⟨-, -, hd, -⟩ := h
  simp only [DictRel] at hd
  cases d <;> cases d' <;> simp only [OptRel] at hd
  · rfl
  · exact hd.length_eq

omit [DecidableEq σ] [DecidableEq σ'] in
theorem hashCheck_rel (hlt : ∀ a a' b b', S a a' → S b b' → lt a b = lt' a' b')
    (hK : ∀ a a' b b', K a a' → K b b' → (a = b ↔ a' = b')) (hh : ∀ s s', S s s' → K (hash s) (hash' s'))
    {d : Option (List (η × σ))} {d' : Option (List (η' × σ'))} {s : σ} {s' : σ'} (c g : Bool) : DictRel K S d d' → S s s' →
    PyRel Eq
      (if g = true ∧ c = true then
        match d with
        | none => (.ok true : Py Bool)
        | some d =>
          match HBeam.dictGet d (hash s) with
          | none => .ok true
          | some old => .ok (lt old s)
      else .ok g)
      (if g = true ∧ c = true then
        match d' with
        | none => (.ok true : Py Bool)
        | some d =>
          match HBeam.dictGet d (hash' s') with
          | none => .ok true
          | some old => .ok (lt' old s')
      else .ok g) := by
  intro hd hs
  split
  · simp only [DictRel] at hd
    cases d <;> cases d' <;> simp only [OptRel] at hd
    · exact PyRel.refl
    · have := dictGet_rel hK hd (hh _ _ hs)
      revert this
      simp only []
      cases HBeam.dictGet _ (hash s) <;> cases HBeam.dictGet _ (hash' s') <;> intro hg <;>
        simp only [OptRel] at hg
      · exact PyRel.refl
      · exact hlt _ _ _ _ hg hs
  · exact PyRel.refl

theorem hashedOps_sim (hlt : ∀ a a' b b', S a a' → S b b' → lt a b = lt' a' b')
    (hS : ∀ a a' b b', S a a' → S b b' → (a = b ↔ a' = b'))
    (hK : ∀ a a' b b', K a a' → K b b' → (a = b ↔ a' = b')) (hh : ∀ s s', S s s' → K (hash s) (hash' s')) :
    OpsSim (hashedOps lt hash) (hashedOps lt' hash') (HashedRel K S) S where
  new n := ⟨rfl, List.Forall₂.nil, List.Forall₂.nil, List.Forall₂.nil⟩
  len b b' h := len_rel h
  least b b' h := heapLeast_rel h.2.1
  fits b b' s s' c h hs := by
    have hlen := len_rel h
    obtain ⟨n, heap, d, inv⟩ := b
    obtain ⟨n', heap', d', inv'⟩ := b'
    obtain ⟨hn, hheap, hd, hinv⟩ := h
    simp only at hn hheap hd hinv
    subst hn
    simp only [hashedOps, HBeam.fits]
    rw [show HBeam.len ⟨n, heap, d, inv⟩ = HBeam.len ⟨n, heap', d', inv'⟩ from hlen]
    split
    · exact PyRel.bind (R := Eq) (x := .ok true) (y := .ok true) PyRel.refl fun g g' _ _ hg =>
        hg ▸ hashCheck_rel hlt hK hh c g hd hs
    · cases hheap with
      | nil => exact PyRel.err
      | cons ha _ =>
        exact PyRel.bind (R := Eq) (x := .ok _) (y := .ok _) (hlt _ _ _ _ ha hs) fun g g' _ _ hg =>
          hg ▸ hashCheck_rel hlt hK hh c g hd hs
  add b b' s s' f h hs := by
    obtain ⟨n, heap, d, inv⟩ := b
    obtain ⟨n', heap', d', inv'⟩ := b'
    obtain ⟨hn, hheap, hd, hinv⟩ := h
    simp only at hn hheap hd hinv
    subst hn
    simp only [hashedOps, HBeam.add]
    have hd0 := hd
    simp only [DictRel] at hd
    cases d <;> cases d' <;> simp only [OptRel] at hd
    · simp only []
      split
      · cases hheap with
        | nil => exact PyRel.err
        | cons ha hl =>
          simp only []
          rw [← hlt _ _ _ _ ha hs]
          split
          · exact PyRel.err
          · exact ⟨rfl, List.Forall₂.cons ha hl, hd0, hinv⟩
      · exact PyRel.err
    · have := dictGet_rel hK hd (hh _ _ hs)
      revert this
      simp only []
      cases HBeam.dictGet _ (hash s) <;> cases HBeam.dictGet _ (hash' s') <;> intro hg <;>
        simp only [OptRel] at hg
      · simp only [hd.length_eq]
        split
        · cases hheap with
          | nil => exact PyRel.err
          | cons ha hl =>
            simp only []
            rw [← hlt _ _ _ _ ha hs]
            split
            · have hpp := heappushpop_rel hlt (List.Forall₂.cons ha hl) hs
              refine PyRel.bind (dictDel_rel hK (dictSet_rel hK hd (hh _ _ hs) hs) (hh _ _ hpp.1))
                fun d1 d2 _ _ hd12 => ?_
              refine PyRel.bind (R := List.Forall₂ S) ?_ fun h1 h2 _ _ hh12 => ?_
              · rw [hpp.2.length_eq]
                exact fixMin_rel hlt hS hinv _ hpp.2
              · exact ⟨rfl, hh12, hd12, hinv⟩
            · exact ⟨rfl, List.Forall₂.cons ha hl, hd0, hinv⟩
        · exact ⟨rfl, heappush_rel hlt hheap hs, dictSet_rel hK hd (hh _ _ hs) hs, hinv⟩
      · simp only []
        rw [← hlt _ _ _ _ hg hs]
        split
        · refine PyRel.bind (R := List.Forall₂ S) ?_ fun h1 h2 _ _ hh12 => ?_
          · rw [(heappush_rel hlt hheap hs).length_eq]
            exact fixMin_rel hlt hS (List.Forall₂.cons hg hinv) _ (heappush_rel hlt hheap hs)
          · exact ⟨rfl, hh12, dictSet_rel hK hd (hh _ _ hs) hs, List.Forall₂.cons hg hinv⟩
        · exact ⟨rfl, hheap, hd0, hinv⟩
  states b b' h := by
    obtain ⟨n, heap, d, inv⟩ := b
    obtain ⟨n', heap', d', inv'⟩ := b'
    obtain ⟨-, -, hd, -⟩ := h
    simp only [DictRel] at hd
    simp only [hashedOps, HBeam.states]
    cases d <;> cases d' <;> simp only [OptRel] at hd
    · exact PyRel.err
    · exact forall₂_map hd fun e e' he => he.2
  empty b b' h := ⟨h.1, List.Forall₂.nil, trivial, h.2.2.2⟩
  topState b b' h := by
    have hlen := len_rel h
    obtain ⟨n, heap, d, inv⟩ := b
    obtain ⟨n', heap', d', inv'⟩ := b'
    obtain ⟨-, -, hd, -⟩ := h
    simp only [DictRel] at hd
    simp only [hashedOps, HBeam.topState, hlen, HBeam.states]
    split
    · cases d <;> cases d' <;> simp only [OptRel] at hd
      · exact PyRel.err
      · exact pyMax_rel hlt (forall₂_map hd fun e e' he => he.2)
    · trivial

end hashed

/-! ## Searches -/

namespace SearchData
variable {κ ρ H P κ' H' P' : Type} [Add κ] [Sub κ] [Zero κ] [Add κ'] [Sub κ'] [Zero κ']
  {d : SearchData κ ρ H P} {d' : SearchData κ' ρ H' P'}

/-- The parts of the searches `d` and `d'` take states related by `R` to states related by `R`, and costs related by
`L` to costs related by `L`. -/
structure Sim (d : SearchData κ ρ H P) (d' : SearchData κ' ρ H' P') (L : κ → κ' → Prop)
    (R : State κ H P → State κ' H' P' → Prop) : Prop where
  beamSize : d'.beamSize = d.beamSize
  hashLength : d'.hashLength = d.hashLength
  numInputs : d'.numInputs = d.numInputs
  lt : ∀ a a' b b', L a a' → L b b' → d.lt a b = d'.lt a' b'
  ge : ∀ a a' b b', L a a' → L b b' → d.ge a b = d'.ge a' b'
  add : ∀ a a' b b', L a a' → L b b' → L (a + b) (a' + b')
  logChange : ∀ p n, L (d.scale (d.logChange p) n) (d'.scale (d'.logChange p) n)
  logNoChange : ∀ p n, L (d.scale (d.logNoChange p) n) (d'.scale (d'.logNoChange p) n)
  change : ∀ s s', R s s' → s.node.changeIndex = s'.node.changeIndex
  logProb : ∀ s s', R s s' → L s.node.logProb s'.node.logProb
  prev : ∀ s s', R s s' → s.prev.map (·.changeIndex) = s'.prev.map (·.changeIndex)
  /-- Equality of states and of hash tuples. -/
  same : ∀ a a' b b', R a a' → R b b' → (a = b ↔ a' = b')
  hash : ∀ a a' b b', R a a' → R b b' → (a.node.hash = b.node.hash ↔ a'.node.hash = b'.node.hash)
  addKtm : ∀ s s' a a', R s s' → L a a' → R (s.addKtm a) (s'.addKtm a')
  addCsm : ∀ s s' a a', R s s' → L a a' → R (s.addCsm a) (s'.addCsm a')
  copy : ∀ s s', R s s' → R s.copy s'.copy
  /-- The ranges, the chords of a range and the states they lead to. -/
  ranges : ∀ start, List.Forall₂ (fun r r' => r.stop = r'.stop ∧ L r.logProb r'.logProb ∧
    ∀ s s', R s s' → PyRel (List.Forall₂ fun c c' =>
      PyRel (OptRel R) (d.branchState start s r c) (d'.branchState start s' r' c'))
      (d.branchIds start s.node.chord r) (d'.branchIds start s'.node.chord r'))
    (d.rangesAt start) (d'.rangesAt start)
  runCsm : ∀ s s', R s s' → PyRel R (d.runCsm s) (d'.runCsm s')
  csmCost : ∀ s s', R s s' → PyRel L (d.csmCost s) (d'.csmCost s')
  runKtm : ∀ s s', R s s' → PyRel (fun p p' => p.1 = p'.1 ∧ R p.2 p'.2) (d.runKtm s) (d'.runKtm s')
  keyOptions : ∀ p s s' q q' l l', R s s' → s.prev = q :: l → s'.prev = q' :: l' →
    d.keyOptions p s q = d'.keyOptions p s' q'
  keyChanges : ∀ s s', R s s' → PyRel (List.Forall₂ R) (d.keyChanges s) (d'.keyChanges s')
  runHidden : ∀ s s', R s s' → PyRel R (d.runHidden s) (d'.runHidden s')
  initial : PyRel (List.Forall₂ fun k k' => PyRel (fun x x' =>
      R (State.initial k d.hashLength (some (d.icm (decide (x.2 = .minor)))))
        (State.initial k' d'.hashLength (some (d'.icm (decide (x'.2 = .minor))))))
      (pyGet d.labels.key k) (pyGet d'.labels.key k'))
    d.initialKeys d'.initialKeys

/-- The states of beams: the same serial number, and related. -/
def Tagged (R : State κ H P → State κ' H' P' → Prop) (a : Nat × State κ H P) (a' : Nat × State κ' H' P') : Prop :=
  a.1 = a'.1 ∧ R a.2 a'.2

namespace Sim
variable {L : κ → κ' → Prop} {R : State κ H P → State κ' H' P' → Prop} (hd : Sim d d' L R)
  {β β' : Type} {ops : BeamOps β (Nat × State κ H P)} {ops' : BeamOps β' (Nat × State κ' H' P')}
  {B : β → β' → Prop} (ho : OpsSim ops ops' B (Tagged R))
include hd ho

theorem fitsAt_rel (start : Nat) {beams : List β} {beams' : List β'} (hb : List.Forall₂ B beams beams')
    {s : State κ H P} {s' : State κ' H' P'} (hs : R s s') (c : Bool) :
    PyRel Eq (fitsAt ops start beams s c) (fitsAt ops' start beams' s' c) := by
  unfold fitsAt
  split
  · exact PyRel.refl
  · rw [hd.change s s' hs]
    exact PyRel.bind (pyGet_rel hb _) fun b b' _ _ hbb => ho.fits b b' (0, s) (0, s') c hbb ⟨rfl, hs⟩

theorem branchLoop_rel (start : Nat) {beams : List β} {beams' : List β'}
    (hb : List.Forall₂ B beams beams') {s : State κ H P} {s' : State κ' H' P'} {r : RangeData κ} {r' : RangeData κ'} {cs cs' : List Int}
    (hcs : List.Forall₂ (fun c c' =>
      PyRel (OptRel R) (d.branchState start s r c) (d'.branchState start s' r' c')) cs cs') :
    PyRel (List.Forall₂ R) (d.branchLoop ops start beams s r cs)
      (d'.branchLoop ops' start beams' s' r' cs') := by
  induction hcs with
  | nil => exact List.Forall₂.nil
  | cons hc _ ih =>
    simp only [branchLoop]
    refine PyRel.bind hc fun t t' _ _ ht => ?_
    cases t <;> cases t' <;> simp only [OptRel] at ht
    · exact ih
    · refine PyRel.bind (fitsAt_rel hd ho start hb ht false) fun f f' _ _ hf => ?_
      subst hf
      unfold keepIf
      split
      · exact PyRel.map ih fun l l' hl => List.Forall₂.cons ht hl
      · exact List.Forall₂.nil

theorem quickExit_rel (start : Nat) {beams : List β} {beams' : List β'}
    (hb : List.Forall₂ B beams beams') {s : State κ H P} {s' : State κ' H' P'} (hs : R s s') {r : RangeData κ} {r' : RangeData κ'}
    (hstop : r.stop = r'.stop) (hlog : L r.logProb r'.logProb) :
    PyRel Eq (d.quickExit ops start beams s r) (d'.quickExit ops' start beams' s' r') := by
  unfold quickExit
  split
  · exact PyRel.refl
  · rw [hstop]
    refine PyRel.bind (pyGet_rel hb _) fun b b' _ _ hbb => ?_
    simp only [ho.len b b' hbb]
    split
    · exact PyRel.refl
    · refine PyRel.map (ho.least b b' hbb) fun a a' ha => ?_
      exact hd.ge _ _ _ _ (hd.logProb _ _ ha.2) (hd.add _ _ _ _ (hd.logProb _ _ hs) hlog)

theorem branchAll_rel (start : Nat) {beams : List β} {beams' : List β'}
    (hb : List.Forall₂ B beams beams') {l : List (State κ H P)} {l' : List (State κ' H' P')} (hl : List.Forall₂ R l l') :
    PyRel (List.Forall₂ R) (d.branchAll ops start beams l) (d'.branchAll ops' start beams' l') := by
  unfold branchAll
  refine PyRel.map (R := List.Forall₂ (List.Forall₂ R)) ?_ fun a b hab => forall₂_flatten hab
  refine PyRel.mapM (R := fun p p' => R p.1 p'.1 ∧ p.2.stop = p'.2.stop ∧ L p.2.logProb p'.2.logProb ∧
    ∀ s s', R s s' → PyRel (List.Forall₂ fun c c' =>
      PyRel (OptRel R) (d.branchState start s p.2 c) (d'.branchState start s' p'.2 c'))
      (d.branchIds start s.node.chord p.2) (d'.branchIds start s'.node.chord p'.2)) ?_ ?_
  · unfold pairs
    simp only [List.flatMap]
    refine forall₂_flatten (forall₂_map hl fun s s' hs => ?_)
    exact forall₂_map (hd.ranges start) fun r r' hr => ⟨hs, hr⟩
  · intro p p' hp
    obtain ⟨hs, hstop, hlog, hids⟩ := hp
    unfold branchRange
    refine PyRel.bind (quickExit_rel hd ho start hb hs hstop hlog) fun e e' _ _ he => ?_
    subst he
    split
    · exact List.Forall₂.nil
    · exact PyRel.bind (hids _ _ hs) fun cs cs' _ _ hcs => branchLoop_rel hd ho start hb hcs

theorem keepFits_rel (start : Nat) {beams : List β} {beams' : List β'}
    (hb : List.Forall₂ B beams beams') (c : Bool) {o : Option (State κ H P × State κ H P)}
    {o' : Option (State κ' H' P' × State κ' H' P')}
    (h : OptRel (fun p p' => R p.1 p'.1 ∧ R p.2 p'.2) o o') :
    PyRel (List.Forall₂ R) (keepFits ops start beams c o) (keepFits ops' start beams' c o') := by
  cases o <;> cases o' <;> simp only [OptRel] at h
  · exact List.Forall₂.nil
  · unfold keepFits
    refine PyRel.map (fitsAt_rel hd ho start hb h.1 c) fun f f' hf => ?_
    subst hf
    split
    · exact List.Forall₂.cons h.2 List.Forall₂.nil
    · exact List.Forall₂.nil

omit ho in
theorem chargeKey_rel (o : Bool × Bool) {a b : κ} {a' b' : κ'} (ha : L a a') (hb : L b b') {s : State κ H P}
    {s' : State κ' H' P'} (hs : R s s') :
    OptRel (fun p p' => R p.1 p'.1 ∧ R p.2 p'.2) (chargeKey o a b s).1 (chargeKey o a' b' s').1 ∧
      OptRel R (chargeKey o a b s).2 (chargeKey o a' b' s').2 := by
  obtain ⟨o1, o2⟩ := o
  cases o1 <;> cases o2 <;> simp only [chargeKey, OptRel, true_and, and_true]
  · exact hd.addKtm _ _ _ _ hs hb
  · exact ⟨hd.addKtm _ _ _ _ hs ha, hd.addKtm _ _ _ _ hs ha⟩
  · exact ⟨⟨hd.addKtm _ _ _ _ (hd.copy _ _ hs) ha, hd.addKtm _ _ _ _ (hd.addKtm _ _ _ _ (hd.copy _ _ hs) ha) hb⟩, hs⟩

theorem keyBranch_rel (start : Nat) {beams : List β} {beams' : List β'}
    (hb : List.Forall₂ B beams beams') {p : ρ × State κ H P} {p' : ρ × State κ' H' P'} (hp : p.1 = p'.1 ∧ R p.2 p'.2) :
    PyRel (fun x x' => List.Forall₂ R x.1 x'.1 ∧ List.Forall₂ R x.2 x'.2)
      (d.keyBranch ops start beams p) (d'.keyBranch ops' start beams' p') := by
  obtain ⟨pr, s⟩ := p
  obtain ⟨pr', s'⟩ := p'
  obtain ⟨h1, hs⟩ := hp
  simp only at h1 hs
  subst h1
  have hprev := hd.prev _ _ hs
  have hopt := hd.keyOptions pr s s'
  unfold keyBranch
  simp only
  cases h2 : s.prev <;> cases h3 : s'.prev <;> rw [h2, h3] at hprev <;>
    simp only [List.map_nil, List.map_cons, reduceCtorEq, List.cons.injEq] at hprev
  · exact PyRel.err
  · rename_i q l q' l'
    simp only [hd.change _ _ hs, hprev.1, hopt q q' l l' hs h2 h3]
    have hc := chargeKey_rel hd (d'.keyOptions pr s' q')
      (hd.logChange pr ((s'.node.changeIndex : Int) - q'.changeIndex))
      (hd.logNoChange pr ((s'.node.changeIndex : Int) - q'.changeIndex)) hs
    refine PyRel.bind (keepFits_rel hd ho start hb false hc.1) fun c c' _ _ hcc => ?_
    refine PyRel.bind (keepFits_rel hd ho start hb true ?_) fun k k' _ _ hkk => ⟨hcc, hkk⟩
    have h4 := hc.2
    revert h4
    generalize (chargeKey _ _ _ s).2 = o
    generalize (chargeKey _ _ _ s').2 = o'
    intro h4
    cases o <;> cases o' <;> simp only [OptRel] at h4 <;> simp only [Option.map, OptRel]
    exact ⟨h4, h4⟩

/-- Beams and the next serial number. -/
def Beams (_ : Sim d d' L R) (B : β → β' → Prop) (st : List β × Nat) (st' : List β' × Nat) : Prop :=
  List.Forall₂ B st.1 st'.1 ∧ st.2 = st'.2

theorem addState_rel {st : List β × Nat} {st' : List β' × Nat} (h : Beams hd B st st')
    {s : State κ H P} {s' : State κ' H' P'} (hs : R s s') : PyRel (Beams hd B) (addState ops st s) (addState ops' st' s') := by
  unfold addState
  rw [hd.change _ _ hs, h.2]
  refine PyRel.bind (pyGet_rel h.1 _) fun b b' _ _ hbb => ?_
  refine PyRel.bind (ho.add b b' (st'.2, s) (st'.2, s') false hbb ⟨rfl, hs⟩) fun x x' _ _ hx => ?_
  exact ⟨forall₂_set h.1 hx _, rfl⟩

theorem addKept_rel {st : List β × Nat} {st' : List β' × Nat} (h : Beams hd B st st')
    {s : State κ H P} {s' : State κ' H' P'} (hs : R s s') :
    PyRel (Beams hd B) (d.addKept ops st s) (d'.addKept ops' st' s') := by
  unfold addKept
  refine PyRel.bind (hd.csmCost _ _ hs) fun c c' _ _ hc => ?_
  exact addState_rel hd ho h (hd.addCsm _ _ _ _ hs hc)

theorem stepBody_rel (start : Nat) {st : List β × Nat} {st' : List β' × Nat} (h : Beams hd B st st')
    {b : β} {b' : β'} (hb : B b b') :
    PyRel (Beams hd B) (d.stepBody ops start st b) (d'.stepBody ops' start st' b') := by
  unfold stepBody
  refine PyRel.bind (ho.states b b' hb) fun o o' _ _ hoo => ?_
  refine PyRel.bind (R := List.Forall₂ R) ?_ fun l l' _ _ hl => ?_
  · unfold csmStates
    have hm : List.Forall₂ R (o.map (·.2)) (o'.map (·.2)) := forall₂_map hoo fun a a' ha => ha.2
    split
    · exact hm
    · exact PyRel.mapM hm hd.runCsm
  refine PyRel.bind (branchAll_rel hd ho start h.1 hl) fun c c' _ _ hc => ?_
  refine PyRel.bind (PyRel.mapM hc hd.runKtm) fun p p' _ _ hp => ?_
  refine PyRel.bind (PyRel.mapM hp fun a a' ha => keyBranch_rel hd ho start h.1 ha)
    fun br br' _ _ hbr => ?_
  refine PyRel.bind (PyRel.mapM (forall₂_flatten (forall₂_map hbr fun a a' ha => ha.1)) hd.keyChanges)
    fun ch ch' _ _ hch => ?_
  refine PyRel.bind (PyRel.mapM (forall₂_flatten hch) hd.runHidden) fun cs cs' _ _ hcs => ?_
  refine PyRel.bind (PyRel.foldlM hcs (fun _ _ _ _ h1 h2 => addState_rel hd ho h1 h2) h)
    fun s1 s1' _ _ hs1 => ?_
  refine PyRel.bind (PyRel.foldlM (forall₂_flatten (forall₂_map hbr fun a a' ha => ha.2))
    (fun _ _ _ _ h1 h2 => addKept_rel hd ho h1 h2) hs1) fun s2 s2' _ _ hs2 => ?_
  refine PyRel.bind (pyGet_rel hs2.1 _) fun b1 b1' _ _ hb1 => ?_
  exact ⟨forall₂_set hs2.1 (ho.empty _ _ hb1) _, hs2.2⟩

theorem step_rel {st : List β × Nat} {st' : List β' × Nat} (h : Beams hd B st st') (start : Nat) :
    PyRel (Beams hd B) (d.step ops st start) (d'.step ops' st' start) := by
  unfold step
  refine PyRel.bind (pyGet_rel h.1 _) fun b b' _ _ hb => ?_
  simp only [ho.len b b' hb]
  split
  · exact h
  · exact stepBody_rel hd ho start h hb

theorem initialBeams_rel : PyRel (Beams hd B) (d.initialBeams ops) (d'.initialBeams ops') := by
  unfold initialBeams
  refine PyRel.bind hd.initial fun ks ks' _ _ hks => ?_
  rw [hd.beamSize, hd.numInputs]
  refine PyRel.bind (R := fun x x' => B x.1 x'.1 ∧ x.2 = x'.2)
    (PyRel.foldlM hks (fun x x' k k' hx hk => ?_) ⟨ho.new _, rfl⟩) fun x x' _ _ hx =>
      ⟨List.Forall₂.cons hx.1 (forall₂_replicate (ho.new _) _), hx.2⟩
  unfold addInitial
  refine PyRel.bind hk fun m m' _ _ hm => ?_
  rw [hx.2]
  exact PyRel.bind (ho.add _ _ _ _ true hx.1 ⟨rfl, hm⟩) fun y y' _ _ hy => ⟨hy, rfl⟩

theorem searchWith_rel : PyRel (OptRel R) (d.searchWith ops) (d'.searchWith ops') := by
  unfold searchWith
  refine PyRel.bind (initialBeams_rel hd ho) fun st st' _ _ hst => ?_
  rw [hd.numInputs]
  refine PyRel.bind (PyRel.foldlM (R := Eq) (forall₂_refl fun _ _ => rfl)
    (fun _ _ _ _ h1 h2 => h2 ▸ step_rel hd ho h1 _) hst) fun s1 s1' _ _ hs1 => ?_
  refine PyRel.bind (pyGet_rel hs1.1 _) fun b b' _ _ hb => ?_
  refine PyRel.bind (ho.topState b b' hb) fun t t' _ _ ht => ?_
  cases t <;> cases t' <;> simp only [OptRel] at ht
  · trivial
  · exact ht.2

omit ho in
theorem search_rel [DecidableEq κ] [DecidableEq H] [DecidableEq P] [DecidableEq κ'] [DecidableEq H'] [DecidableEq P'] :
    PyRel (OptRel R) d.search d'.search := by
  have hlt : ∀ a a' b b', Tagged R a a' → Tagged R b b' → d.stateLt a b = d'.stateLt a' b' := by
    intro a a' b b' ha hb
    exact hd.lt _ _ _ _ (hd.logProb _ _ ha.2) (hd.logProb _ _ hb.2)
  unfold SearchData.search
  rw [hd.hashLength]
  split
  · exact searchWith_rel hd (plainOps_sim hlt)
  · refine searchWith_rel hd (hashedOps_sim (K := fun h h' => ∃ s s', R s s' ∧ h = s.node.hash ∧
      h' = s'.node.hash) hlt ?_ ?_ ?_)
    · rintro ⟨n, a⟩ ⟨n', a'⟩ ⟨m, b⟩ ⟨m', b'⟩ ⟨h1, h2⟩ ⟨h3, h4⟩
      simp only at h1 h2 h3 h4
      subst h1 h3
      simp only [Prod.mk.injEq, hd.same a a' b b' h2 h4]
    · rintro a a' b b' ⟨s, s', h1, rfl, rfl⟩ ⟨t, t', h2, rfl, rfl⟩
      exact hd.hash _ _ _ _ h1 h2
    · intro s s' hs
      exact ⟨_, _, hs.2, rfl, rfl⟩

end Sim

end SearchData

end Verif
