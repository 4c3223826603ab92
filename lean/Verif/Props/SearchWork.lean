import Verif.SearchWork
import Verif.Lemmas.BeamTotal
import Verif.Props.Ranges
import Verif.Props.SearchFinds
import Mathlib.Tactic.Ring
import Mathlib.Tactic.Linarith

/-!
# C146: the work of the beam search is bounded by its parameters

The number of states that the networks are run on is at most linear in the number of chord ranges, with a factor that
depends on the beam size and the branching factors only.
-/

namespace Verif.SearchWork

open Verif State SearchData

/-! ## The sizes of beams -/

/-- What is needed of a class of beams: the number of states in a beam stays within its size. -/
structure Sized {β σ : Type} {ops : BeamOps β (Nat × σ)} {size : Nat} (T : Total ops size) : Prop where
  new : ops.len (ops.new size) = 0
  add : ∀ n b s r b', T.inv n b → ops.add b (n, s) false = .ok (r, b') → ops.len b ≤ size → ops.len b' ≤ size
  force : ∀ n b s f r b', T.inv n b → ops.add b (n, s) f = .ok (r, b') → ops.len b' ≤ ops.len b + 1
  states : ∀ n b l, T.inv n b → ops.states b = .ok l → l.length = ops.len b

theorem heappush_length {α : Type} (lt : α → α → Bool) (h : List α) (s : α) :
    (heappush lt h s).length = h.length + 1 := by
  have := (heappush_perm (lt := lt) h s).length_eq
  simpa using this

theorem heappushpop_length {α : Type} (lt : α → α → Bool) (h : List α) (s : α) :
    (heappushpop lt h s).2.length = h.length := by
  cases h with
  | nil => rfl
  | cons a h =>
    simp only [heappushpop]
    split
    · simp [siftup_length]
    · rfl

theorem plainSized {σ : Type} (lt : Nat × σ → Nat × σ → Bool) (size : Nat) (hs : 1 ≤ size) :
    Sized (plainTotal lt size hs) where
  new := rfl
  add n b s r b' h ha hl := by
    have h : b.size = size := h
    simp only [plainOps, Beam.add, true_and] at ha hl ⊢
    split at ha
    · split at ha
      · cases ha
      · split at ha
        · injection ha with ha; injection ha with _ ha
          rw [← ha]
          simpa only [heappushpop_length] using hl
        · injection ha with ha; injection ha with _ ha
          rw [← ha]; exact hl
    · rename_i hc
      injection ha with ha; injection ha with _ ha
      rw [← ha]
      simp only [heappush_length]
      omega
  force n b s f r b' h ha := by
    simp only [plainOps, Beam.add] at ha ⊢
    split at ha
    · split at ha
      · cases ha
      · split at ha
        · injection ha with ha; injection ha with _ ha
          rw [← ha]
          simp only [heappushpop_length]
          omega
        · injection ha with ha; injection ha with _ ha
          rw [← ha]; omega
    · injection ha with ha; injection ha with _ ha
      rw [← ha]
      simp only [heappush_length]
      omega
  states n b l h hl := by
    injection hl with hl
    rw [← hl]; rfl

theorem hashedSized {η σ : Type} [DecidableEq η] [DecidableEq σ] (lt : Nat × σ → Nat × σ → Bool)
    (hash : Nat × σ → η) (hw : WeakOrder lt) (size : Nat) (hs : 1 ≤ size) :
    Sized (hashedTotal lt hash hw size hs) where
  new := rfl
  add n b s r b' h ha hl := by
    obtain ⟨h0, d, h1, h2, -⟩ := h
    have hv : (n, s) ∉ b.invalid := fun hc => by have := h2 _ hc; simp at this
    obtain ⟨ok, b'', d', e1, -, e3, e4⟩ := HBeam.add_cases hw b d (n, s) false (by omega) h1 hv
    simp only [hashedOps] at ha hl ⊢
    rw [e1] at ha
    injection ha with ha
    injection ha with _ ha
    subst ha
    have hlen : b.len = d.length := by simp [HBeam.len, h1.dict]
    have hlen' : b''.len = d'.length := by simp [HBeam.len, e3.dict]
    rw [hlen] at hl
    rw [hlen']
    rcases e4 with ⟨-, d₁, d₂, old, rfl, rfl, -, -⟩ | ⟨-, rfl, rfl, old, ho, -⟩ | ⟨-, -, -, -, d₁, d₂, top,
      rest, -, -, rfl, rfl, -⟩ | ⟨-, rfl, rfl, -, -, hz, -⟩ | ⟨-, -, hr, rfl, -⟩
    · simpa using hl
    · exact hl
    · simp only [List.length_append, List.length_cons, List.length_nil] at hl ⊢; omega
    · exact hl
    · rcases hr with hr | hr
      · cases hr
      · simp only [List.length_append, List.length_cons, List.length_nil]; omega
  force n b s f r b' h ha := by
    obtain ⟨h0, d, h1, h2, -⟩ := h
    have hv : (n, s) ∉ b.invalid := fun hc => by have := h2 _ hc; simp at this
    obtain ⟨ok, b'', d', e1, -, e3, e4⟩ := HBeam.add_cases hw b d (n, s) f (by omega) h1 hv
    simp only [hashedOps] at ha ⊢
    rw [e1] at ha
    injection ha with ha
    injection ha with _ ha
    subst ha
    have hlen : b.len = d.length := by simp [HBeam.len, h1.dict]
    have hlen' : b''.len = d'.length := by simp [HBeam.len, e3.dict]
    rw [hlen, hlen']
    rcases e4 with ⟨-, d₁, d₂, old, rfl, rfl, -, -⟩ | ⟨-, rfl, rfl, old, ho, -⟩ | ⟨-, -, -, -, d₁, d₂, top,
      rest, -, -, rfl, rfl, -⟩ | ⟨-, rfl, rfl, -, -, hz, -⟩ | ⟨-, -, hr, rfl, -⟩
    · simp
    · omega
    · simp only [List.length_append, List.length_cons, List.length_nil]; omega
    · omega
    · simp
  states n b l h hl := by
    obtain ⟨-, d, h1, -, -⟩ := h
    simp only [hashedOps, HBeam.states, h1.dict, Except.ok.injEq] at hl ⊢
    simp [HBeam.len, h1.dict, ← hl]

/-! ## The work of one iteration -/

section
variable {κ ρ H P : Type} {d : SearchData κ ρ H P} [Add κ] [Sub κ] [Zero κ]
variable {β : Type} {ops : BeamOps β (Nat × State κ H P)}

theorem mapM_length {α γ : Type} {f : α → Py γ} {l : List α} {l' : List γ} (h : l.mapM f = .ok l') :
    l'.length = l.length := by
  induction l generalizing l' with
  | nil =>
    simp only [List.mapM_nil, Pure.pure, Except.pure, Except.ok.injEq] at h
    subst h; rfl
  | cons a l ih =>
    rw [List.mapM_cons] at h
    obtain ⟨b, _, h⟩ := bind_ok h
    obtain ⟨l1, h1, h⟩ := bind_ok h
    simp only [Pure.pure, Except.pure, Except.ok.injEq] at h
    rw [← h, List.length_cons, List.length_cons, ih h1]

theorem flatten_length {α : Type} (l : List (List α)) (m : Nat) (h : ∀ x ∈ l, x.length ≤ m) :
    l.flatten.length ≤ l.length * m := by
  induction l with
  | nil => simp
  | cons a l ih =>
    have h1 := h a (by simp)
    have h2 := ih (fun x hx => h x (by simp [hx]))
    simp only [List.flatten_cons, List.length_append, List.length_cons]
    rw [Nat.add_mul]
    omega

omit [Add κ] [Sub κ] [Zero κ] in
theorem branchIds_length {start : Nat} {chord : Option Int} {r : RangeData κ} {ids : List Int} {F : Nat}
    (hr : r.maxIndex ≤ F) (h : d.branchIds start chord r = .ok ids) : ids.length ≤ max F 2 := by
  simp only [branchIds] at h
  split at h
  · obtain ⟨_, _, rfl⟩ := map_ok h
    simp
  · split at h
    · obtain ⟨first, _, rfl⟩ := map_ok h
      split <;> simp [List.length_take]
    · injection h with h
      rw [← h, List.length_take]
      omega

theorem branchLoop_length {start : Nat} {beams : List β} {s : State κ H P} {r : RangeData κ} {ids : List Int}
    {out : List (State κ H P)} (h : d.branchLoop ops start beams s r ids = .ok out) : out.length ≤ ids.length := by
  induction ids generalizing out with
  | nil =>
    simp only [branchLoop, Except.ok.injEq] at h
    subst h; exact Nat.le_refl _
  | cons c cs ih =>
    simp only [branchLoop] at h
    obtain ⟨new, _, h⟩ := bind_ok h
    cases new with
    | none =>
      have := ih h
      simp only [List.length_cons]
      omega
    | some s' =>
      obtain ⟨fits, _, h⟩ := bind_ok h
      simp only [keepIf] at h
      split at h
      · obtain ⟨l, hl, rfl⟩ := map_ok h
        have := ih hl
        simp only [List.length_cons]
        omega
      · injection h with h
        rw [← h]; simp

theorem branchAll_length {start : Nat} {beams : List β} {states out : List (State κ H P)} {F : Nat}
    (hF : ∀ e ∈ d.ranges, e.2.maxIndex ≤ F) (h : d.branchAll ops start beams states = .ok out) :
    out.length ≤ states.length * (d.rangesAt start).length * max F 2 := by
  simp only [branchAll] at h
  obtain ⟨l, hl, rfl⟩ := map_ok h
  have hlen := mapM_length hl
  have hp : (pairs states (d.rangesAt start)).length = states.length * (d.rangesAt start).length := by
    clear h hl hlen
    simp only [pairs]
    induction states with
    | nil => simp
    | cons a l ih => simp only [List.flatMap_cons, List.length_append, List.length_map, List.length_cons, ih,
        Nat.add_mul, Nat.one_mul, Nat.add_comm]
  rw [← hp, ← hlen]
  refine flatten_length _ _ fun x hx => ?_
  refine mapM_all hl (P := fun sr => sr.2.maxIndex ≤ F) (Q := fun x => x.length ≤ max F 2) ?_ ?_ x hx
  · intro sr hsr
    simp only [pairs, List.mem_flatMap, List.mem_map, rangesAt, List.mem_filter] at hsr
    obtain ⟨a, _, r, ⟨e, ⟨he, _⟩, rfl⟩, rfl⟩ := hsr
    exact hF e he
  · intro sr out hsr h
    simp only [branchRange] at h
    obtain ⟨ex, _, h⟩ := bind_ok h
    split at h
    · injection h with h
      rw [← h]; simp
    · obtain ⟨ids, hi, h⟩ := bind_ok h
      exact (branchLoop_length h).trans (branchIds_length hsr hi)

omit [Add κ] [Sub κ] [Zero κ] in
theorem keepFits_length {start : Nat} {beams : List β} {c : Bool} {o : Option (State κ H P × State κ H P)}
    {out : List (State κ H P)} (h : keepFits ops start beams c o = .ok out) : out.length ≤ 1 := by
  cases o with
  | none => simp only [keepFits, Except.ok.injEq] at h; subst h; simp
  | some ts =>
    simp only [keepFits] at h
    obtain ⟨f, _, rfl⟩ := map_ok h
    split <;> simp

omit [Sub κ] [Zero κ] in
theorem keyBranch_length {start : Nat} {beams : List β} {ps : ρ × State κ H P}
    {out : List (State κ H P) × List (State κ H P)} (h : d.keyBranch ops start beams ps = .ok out) :
    out.1.length ≤ 1 := by
  simp only [keyBranch] at h
  split at h
  · cases h
  · obtain ⟨c, hc, h⟩ := bind_ok h
    obtain ⟨k, _, h⟩ := bind_ok h
    injection h with h
    subst h
    exact keepFits_length hc

omit [Sub κ] [Zero κ] in
theorem keyLoop_length {forced : Option Int} {s : State κ H P} {o : KsmOutput κ H} {len : Int} {rels : List Int}
    {room : Nat} {out : List (State κ H P)} (h : d.keyLoop forced s o len rels room = .ok out) :
    out.length ≤ max room 1 := by
  induction rels generalizing room out with
  | nil => simp only [keyLoop, Except.ok.injEq] at h; subst h; simp
  | cons rel rels ih =>
    simp only [keyLoop] at h
    obtain ⟨target, _, h⟩ := bind_ok h
    cases target with
    | none => exact ih h
    | some key =>
      simp only at h
      split at h
      · exact ih h
      · obtain ⟨lp, _, h⟩ := bind_ok h
        obtain ⟨new, _, h⟩ := bind_ok h
        cases new with
        | none =>
          simp only [afterKey] at h
          split at h
          · injection h with h; subst h; simp
          · exact ih h
        | some s' =>
          simp only [afterKey] at h
          split at h
          · injection h with h; subst h; simp
          · rename_i hc
            obtain ⟨l, hl, rfl⟩ := map_ok h
            have := ih hl
            simp only [List.length_cons]
            omega

omit [Sub κ] [Zero κ] in
theorem keyChanges_length {s : State κ H P} {out : List (State κ H P)} {K : Nat}
    (hK : ∀ s o, d.ksm s = .ok o → o.maxIndex ≤ K) (h : d.keyChanges s = .ok out) : out.length ≤ max K 1 := by
  simp only [keyChanges] at h
  obtain ⟨o, ho, h⟩ := bind_ok h
  split at h
  · cases h
  · have h1 := keyLoop_length h
    have h2 := hK s o ho
    omega

/-! ## The beams in an iteration -/

/-- From beam `k` on, the beams have at most `cap` states. -/
def Inv (T : Total ops d.beamSize) (cap : Nat → Nat) (k : Nat) (st : List β × Nat) : Prop :=
  ∀ (i : Nat) b, k ≤ i → st.1[i]? = some b → T.inv st.2 b ∧ ops.len b ≤ cap i

omit [Add κ] [Sub κ] [Zero κ] in
theorem addState_inv {T : Total ops d.beamSize} (S : Sized T) {cap : Nat → Nat} {k : Nat} (hk : ∀ i, k ≤ i → cap i = d.beamSize)
    {st st' : List β × Nat} {s : State κ H P} (hi : Inv T cap k st) (h : addState ops st s = .ok st') :
    Inv T cap k st' := by
  simp only [addState, Bind.bind] at h
  obtain ⟨b, hb, h⟩ := bind_ok h
  obtain ⟨⟨r, b'⟩, hb', h⟩ := bind_ok h
  injection h with h
  subst h
  have hb := pyGet_nonneg _ _ _ (Int.natCast_nonneg _) hb
  simp only [Int.toNat_natCast] at hb
  intro i c hki hc
  simp only at hc ⊢
  by_cases he : i = s.node.changeIndex
  · subst he
    rw [List.getElem?_set_self (by
      by_contra hlt
      rw [List.getElem?_eq_none (by omega)] at hb
      cases hb)] at hc
    injection hc with hc
    subst hc
    obtain ⟨h1, h2⟩ := hi _ _ hki hb
    obtain ⟨r', b'', e1, e2⟩ := T.add _ _ s false h1
    rw [e1] at hb'
    injection hb' with hb'
    injection hb' with _ hb'
    subst hb'
    rw [hk _ hki] at h2 ⊢
    exact ⟨e2, S.add _ _ _ _ _ h1 e1 h2⟩
  · rw [List.getElem?_set_ne (by omega)] at hc
    obtain ⟨h1, h2⟩ := hi _ _ hki hc
    exact ⟨T.mono _ _ h1, h2⟩

omit [Sub κ] [Zero κ] in
theorem addKept_inv {T : Total ops d.beamSize} (S : Sized T) {cap : Nat → Nat} {k : Nat}
    (hk : ∀ i, k ≤ i → cap i = d.beamSize) {st st' : List β × Nat} {s : State κ H P} (hi : Inv T cap k st)
    (h : d.addKept ops st s = .ok st') : Inv T cap k st' := by
  simp only [addKept, Bind.bind] at h
  obtain ⟨c, -, h⟩ := bind_ok h
  exact addState_inv S hk hi h

/-- One iteration: its work, and the beams after it. -/
theorem workBody_bound {T : Total ops d.beamSize} (S : Sized T) {F K : Nat} (hF : ∀ e ∈ d.ranges, e.2.maxIndex ≤ F)
    (hK : ∀ s o, d.ksm s = .ok o → o.maxIndex ≤ K) {cap : Nat → Nat} {start : Nat}
    (hk : ∀ i, start + 1 ≤ i → cap i = d.beamSize) {st : List β × Nat} {b : β} (hi : Inv T cap start st)
    (hb : st.1[start]? = some b) {r : (List β × Nat) × Work} (h : d.workBody ops start st b = .ok r) :
    Inv T cap (start + 1) r.1 ∧ r.2.csm ≤ (if start = 0 then 0 else cap start) ∧
      r.2.ktm ≤ cap start * (d.rangesAt start).length * max F 2 * (1 + max K 1) ∧
      r.2.ksm ≤ cap start * (d.rangesAt start).length * max F 2 * (1 + max K 1) := by
  simp only [workBody, Bind.bind] at h
  obtain ⟨objects, ho, h⟩ := bind_ok h
  obtain ⟨states, hstates, h⟩ := bind_ok h
  obtain ⟨toCheck, hcheck, h⟩ := bind_ok h
  obtain ⟨probs, hprobs, h⟩ := bind_ok h
  obtain ⟨branched, hbr, h⟩ := bind_ok h
  obtain ⟨changed, hchg, h⟩ := bind_ok h
  obtain ⟨changed2, hchg2, h⟩ := bind_ok h
  obtain ⟨st1, hst1, h⟩ := bind_ok h
  obtain ⟨st2, hst2, h⟩ := bind_ok h
  obtain ⟨b2, hb2, h⟩ := bind_ok h
  injection h with h
  subst h
  obtain ⟨i1, i2⟩ := hi start b (Nat.le_refl _) hb
  have l1 : states.length ≤ cap start := by
    have := S.states _ _ _ i1 ho
    simp only [csmStates] at hstates
    split at hstates
    · injection hstates with hstates
      rw [← hstates, List.length_map]; omega
    · rw [mapM_length hstates, List.length_map]; omega
  have l2 : toCheck.length ≤ cap start * (d.rangesAt start).length * max F 2 :=
    (branchAll_length hF hcheck).trans (Nat.mul_le_mul_right _ (Nat.mul_le_mul_right _ l1))
  have l3 : (branched.map (·.1)).flatten.length ≤ toCheck.length := by
    have h1 := flatten_length (branched.map (·.1)) 1 (by
      intro x hx
      obtain ⟨o, ho, rfl⟩ := List.mem_map.1 hx
      exact mapM_all hbr (P := fun _ => True) (fun _ _ => trivial) (fun a o _ h => keyBranch_length h) o ho)
    rw [List.length_map, mapM_length hbr, mapM_length hprobs, Nat.mul_one] at h1
    exact h1
  have l4 : changed2.length ≤ toCheck.length * max K 1 := by
    rw [mapM_length hchg2]
    refine (flatten_length changed (max K 1) ?_).trans ?_
    · exact mapM_all hchg (P := fun _ => True) (fun _ _ => trivial) (fun a o _ h => keyChanges_length hK h)
    · rw [mapM_length hchg]
      exact Nat.mul_le_mul_right _ l3
  have l5 : toCheck.length * max K 1 ≤ cap start * (d.rangesAt start).length * max F 2 * max K 1 :=
    Nat.mul_le_mul_right _ l2
  refine ⟨?_, ?_, ?_, ?_⟩
  · have j0 : Inv T cap (start + 1) st := fun i b h1 h2 => hi i b (by omega) h2
    have j1 : Inv T cap (start + 1) st1 :=
      foldlM_inv hst1 (P := fun _ => True) j0 (fun _ _ => trivial) (fun s a s' hs _ h => addState_inv S hk hs h)
    have j2 : Inv T cap (start + 1) st2 :=
      foldlM_inv hst2 (P := fun _ => True) j1 (fun _ _ => trivial) (fun s a s' hs _ h => addKept_inv S hk hs h)
    intro i c h1 h2
    simp only at h2 ⊢
    rw [List.getElem?_set_ne (by omega)] at h2
    exact j2 i c h1 h2
  · simp only
    split <;> omega
  · simp only
    rw [Nat.mul_add, Nat.mul_one]
    omega
  · simp only
    rw [Nat.mul_add, Nat.mul_one]
    omega

/-- The number of ranges that start at one of the first `k` notes, times the states that are there. -/
def weight (d : SearchData κ ρ H P) (keys k : Nat) : Nat :=
  (if k = 0 then 0 else keys * (d.rangesAt 0).length) +
    d.beamSize * (d.ranges.filter fun e => decide (0 < e.1 ∧ e.1 < k)).length

omit [Add κ] [Sub κ] [Zero κ] in
theorem weight_succ (keys k : Nat) : weight d keys (k + 1) =
    weight d keys k + (if k = 0 then keys else d.beamSize) * (d.rangesAt k).length := by
  have hc : (d.ranges.filter fun e => decide (0 < e.1 ∧ e.1 < k + 1)).length =
      (d.ranges.filter fun e => decide (0 < e.1 ∧ e.1 < k)).length +
        (if k = 0 then 0 else (d.rangesAt k).length) := by
    simp only [rangesAt, List.length_map]
    induction d.ranges with
    | nil => simp
    | cons e l ih =>
      simp only [List.filter_cons, decide_eq_true_eq]
      rcases Nat.eq_zero_or_pos k with rfl | hk
      · simp only [if_true] at ih ⊢
        split_ifs <;> (try simp only [List.length_cons]) <;> omega
      · have hk' : ¬ k = 0 := by omega
        simp only [hk', if_false] at ih ⊢
        split_ifs <;> (try simp only [List.length_cons]) <;> omega
  simp only [weight, hc]
  rcases Nat.eq_zero_or_pos k with rfl | hk
  · simp only [if_true, Nat.add_zero, Nat.zero_add, Nat.succ_ne_zero, if_false]
    omega
  · rw [if_neg (by omega), if_neg (by omega), if_neg (by omega), if_neg (by omega)]
    rw [Nat.mul_add]
    omega

/-- The work of the first `k` iterations. -/
structure Bounded (T : Total ops d.beamSize) (keys F K k : Nat) (sw : (List β × Nat) × Work) : Prop where
  beams : Inv T (fun i => if i = 0 then keys else d.beamSize) k sw.1
  csm : sw.2.csm ≤ d.beamSize * (k - 1)
  ktm : sw.2.ktm ≤ weight d keys k * max F 2 * (1 + max K 1)
  ksm : sw.2.ksm ≤ weight d keys k * max F 2 * (1 + max K 1)

theorem workStep_bound {T : Total ops d.beamSize} (S : Sized T) {keys F K : Nat}
    (hF : ∀ e ∈ d.ranges, e.2.maxIndex ≤ F) (hK : ∀ s o, d.ksm s = .ok o → o.maxIndex ≤ K) {k : Nat}
    {sw sw' : (List β × Nat) × Work} (hi : Bounded T keys F K k sw) (h : d.workStep ops sw k = .ok sw') :
    Bounded T keys F K (k + 1) sw' := by
  have hmono : weight d keys k * max F 2 * (1 + max K 1) ≤ weight d keys (k + 1) * max F 2 * (1 + max K 1) := by
    rw [weight_succ]
    exact Nat.mul_le_mul_right _ (Nat.mul_le_mul_right _ (Nat.le_add_right _ _))
  have hcsm : d.beamSize * (k - 1) ≤ d.beamSize * (k + 1 - 1) := Nat.mul_le_mul_left _ (by omega)
  simp only [workStep, Bind.bind] at h
  obtain ⟨b, hb, h⟩ := bind_ok h
  have hb := pyGet_nonneg _ _ _ (Int.natCast_nonneg _) hb
  simp only [Int.toNat_natCast] at hb
  split at h
  · injection h with h
    subst h
    exact ⟨fun i b h1 h2 => hi.beams i b (by omega) h2, hi.csm.trans hcsm, hi.ktm.trans hmono, hi.ksm.trans hmono⟩
  · obtain ⟨r, hr, h⟩ := bind_ok h
    injection h with h
    subst h
    obtain ⟨h1, h2, h3, h4⟩ := workBody_bound S hF hK (fun i hi => if_neg (by omega)) hi.beams hb hr
    refine ⟨h1, ?_, ?_, ?_⟩
    · show sw.2.csm + r.2.csm ≤ _
      have := hi.csm
      rcases Nat.eq_zero_or_pos k with rfl | hk
      · simp only [if_true] at h2
        omega
      · rw [if_neg (by omega), if_neg (by omega)] at h2
        obtain ⟨j, rfl⟩ : ∃ j, k = j + 1 := ⟨k - 1, by omega⟩
        simp only [Nat.add_sub_cancel] at this ⊢
        rw [Nat.mul_add, Nat.mul_one]
        omega
    · show sw.2.ktm + r.2.ktm ≤ _
      rw [weight_succ, Nat.add_mul, Nat.add_mul]
      exact Nat.add_le_add hi.ktm h3
    · show sw.2.ksm + r.2.ksm ≤ _
      rw [weight_succ, Nat.add_mul, Nat.add_mul]
      exact Nat.add_le_add hi.ksm h4

omit [Add κ] [Sub κ] in
theorem initialBeams_bound {T : Total ops d.beamSize} (S : Sized T) {st : List β × Nat} {keys : List Int}
    (hk : d.initialKeys = .ok keys) (h : d.initialBeams ops = .ok st) :
    Inv T (fun i => if i = 0 then keys.length else d.beamSize) 0 st := by
  simp only [initialBeams, Bind.bind, hk] at h
  obtain ⟨keys', hk', h⟩ := bind_ok h
  injection hk' with hk'
  subst hk'
  obtain ⟨⟨b, next⟩, hb, h⟩ := bind_ok h
  injection h with h
  subst h
  have hfold : ∀ (l : List Int) (b0 : β) (n0 : Nat), T.inv n0 b0 → ∀ (b : β) (n : Nat),
      l.foldlM (d.addInitial ops) (b0, n0) = .ok (b, n) → T.inv n b ∧ ops.len b ≤ ops.len b0 + l.length := by
    intro l
    induction l with
    | nil =>
      intro b0 n0 h0 b n h
      simp only [List.foldlM_nil, Pure.pure, Except.pure, Except.ok.injEq, Prod.mk.injEq] at h
      obtain ⟨rfl, rfl⟩ := h
      exact ⟨h0, by simp⟩
    | cons key l ih =>
      intro b0 n0 h0 b n h
      simp only [List.foldlM_cons, Bind.bind] at h
      obtain ⟨⟨b1, n1⟩, h1, h⟩ := bind_ok h
      simp only [addInitial, Bind.bind] at h1
      obtain ⟨tm, -, h1⟩ := bind_ok h1
      obtain ⟨⟨r, b'⟩, hadd, h1⟩ := bind_ok h1
      injection h1 with h1
      simp only [Prod.mk.injEq] at h1
      obtain ⟨rfl, rfl⟩ := h1
      obtain ⟨r', b'', e1, e2⟩ := T.add n0 b0 _ true h0
      rw [e1] at hadd
      simp only [Except.ok.injEq, Prod.mk.injEq] at hadd
      obtain ⟨rfl, rfl⟩ := hadd
      obtain ⟨i1, i2⟩ := ih _ _ e2 _ _ h
      have := S.force _ _ _ _ _ _ h0 e1
      refine ⟨i1, ?_⟩
      simp only [List.length_cons]
      omega
  obtain ⟨j1, j2⟩ := hfold _ _ _ (T.new 0) _ _ hb
  rw [S.new, Nat.zero_add] at j2
  intro i c _ hc
  cases i with
  | zero =>
    simp only [List.getElem?_cons_zero, Option.some.injEq] at hc
    subst hc
    exact ⟨j1, j2⟩
  | succ i =>
    simp only [List.getElem?_cons_succ, List.getElem?_replicate] at hc
    split at hc
    · injection hc with hc
      subst hc
      refine ⟨T.new _, ?_⟩
      rw [S.new]
      exact Nat.zero_le _
    · cases hc

/-- The work over all iterations. -/
theorem workWith_bound {T : Total ops d.beamSize} (S : Sized T) {F K : Nat} (hF : ∀ e ∈ d.ranges, e.2.maxIndex ≤ F)
    (hK : ∀ s o, d.ksm s = .ok o → o.maxIndex ≤ K) {keys : List Int} (hk : d.initialKeys = .ok keys)
    {r : Option (State κ H P)} {w : Work} (h : d.workWith ops = .ok (r, w)) :
    w.csm ≤ d.beamSize * (d.numInputs - 1) ∧
      w.ktm ≤ weight d keys.length d.numInputs * max F 2 * (1 + max K 1) ∧
      w.ksm ≤ weight d keys.length d.numInputs * max F 2 * (1 + max K 1) := by
  simp only [workWith, Bind.bind] at h
  obtain ⟨st, hst, h⟩ := bind_ok h
  obtain ⟨sw, hsw, h⟩ := bind_ok h
  obtain ⟨b, _, h⟩ := bind_ok h
  obtain ⟨top, _, h⟩ := bind_ok h
  simp only [Except.ok.injEq, Prod.mk.injEq] at h
  obtain ⟨_, rfl⟩ := h
  have hloop : ∀ (k : Nat) (sw : (List β × Nat) × Work),
      (List.range k).foldlM (d.workStep ops) (st, ⟨0, 0, 0⟩) = .ok sw → Bounded T keys.length F K k sw := by
    intro k
    induction k with
    | zero =>
      intro sw h
      simp only [List.range_zero, List.foldlM_nil, Pure.pure, Except.pure, Except.ok.injEq] at h
      subst h
      exact ⟨initialBeams_bound S hk hst, Nat.zero_le _, Nat.zero_le _, Nat.zero_le _⟩
    | succ k ih =>
      intro sw h
      rw [List.range_succ, List.foldlM_append] at h
      simp only [Bind.bind] at h
      obtain ⟨sw1, h1, h⟩ := bind_ok h
      simp only [List.foldlM_cons, List.foldlM_nil, Bind.bind] at h
      obtain ⟨sw2, h2, h⟩ := bind_ok h
      simp only [Pure.pure, Except.pure, Except.ok.injEq] at h
      subst h
      exact workStep_bound S hF hK (ih sw1 h1) h2
  have := hloop _ _ hsw
  exact ⟨this.csm, this.ktm, this.ksm⟩

/-! ## The same search -/

theorem map_bind {α γ ε : Type} (x : Py α) (f : α → Py γ) (g : γ → ε) : (x.bind f).map g = x.bind fun a => (f a).map g := by
  cases x <;> rfl

theorem workBody_map (start : Nat) (st : List β × Nat) (b : β) :
    (d.workBody ops start st b).map (·.1) = d.stepBody ops start st b := by
  simp only [workBody, stepBody, Bind.bind, map_bind]
  rfl

theorem workStep_map (sw : (List β × Nat) × Work) (start : Nat) :
    (d.workStep ops sw start).map (·.1) = d.step ops sw.1 start := by
  simp only [workStep, step, Bind.bind, map_bind]
  congr 1
  funext b
  split
  · rfl
  · rw [map_bind, ← workBody_map]
    cases d.workBody ops start sw.1 b <;> rfl

theorem foldlM_map {α σ ω : Type} {f : σ → α → Py σ} {g : σ × ω → α → Py (σ × ω)}
    (h : ∀ s a, (g s a).map (·.1) = f s.1 a) (l : List α) (s : σ × ω) :
    (l.foldlM g s).map (·.1) = l.foldlM f s.1 := by
  induction l generalizing s with
  | nil => rfl
  | cons a l ih =>
    simp only [List.foldlM_cons, Bind.bind]
    rw [← h, map_bind]
    cases g s a with
    | error e => rfl
    | ok s' => exact ih s'

theorem workWith_map : (d.workWith ops).map (·.1) = d.searchWith ops := by
  simp only [workWith, searchWith, Bind.bind, map_bind]
  congr 1
  funext st
  rw [← foldlM_map (g := d.workStep ops) workStep_map _ (st, ⟨0, 0, 0⟩)]
  cases (List.range d.numInputs).foldlM (d.workStep ops) (st, ⟨0, 0, 0⟩) with
  | error e => rfl
  | ok sw => rfl

/-- C146: the search that counts is the search. -/
theorem C146_result [DecidableEq κ] [DecidableEq H] [DecidableEq P] (d : SearchData κ ρ H P) :
    d.searchWork.map (·.1) = d.search := by
  simp only [searchWork, SearchData.search]
  cases d.hashLength with
  | none => exact workWith_map
  | some _ => exact workWith_map

/-- C146: in a search that returns, the CSM is run on at most `beam_size` states for each note but the first. The KTM and
the KSM are each run on at most one state for each new chord and each new key after it: for each range and each state at
its start, that is at most `F` chords (two if `max_chord_branching_factor` is 1) with at most `K` new keys each. At the
first note there is a state for each of the initial keys, whatever the beam size; after it at most `beam_size`. -/
theorem C146_work [DecidableEq κ] [DecidableEq H] [DecidableEq P] (d : SearchData κ ρ H P) (hs : 1 ≤ d.beamSize)
    (ho : d.hashLength ≠ none → WeakOrder d.lt) (F K : Nat) (hF : ∀ e ∈ d.ranges, e.2.maxIndex ≤ F)
    (hK : ∀ s o, d.ksm s = .ok o → o.maxIndex ≤ K) (keys : List Int) (hk : d.initialKeys = .ok keys)
    (r : Option (State κ H P)) (h : d.search = .ok r) : ∃ w, d.searchWork = .ok (r, w) ∧
      w.csm ≤ d.beamSize * (d.numInputs - 1) ∧
      w.ktm ≤ (keys.length * (d.ranges.filter fun e => decide (e.1 = 0)).length +
        d.beamSize * (d.ranges.filter fun e => decide (e.1 ≠ 0)).length) * max F 2 * (1 + max K 1) ∧
      w.ksm ≤ (keys.length * (d.ranges.filter fun e => decide (e.1 = 0)).length +
        d.beamSize * (d.ranges.filter fun e => decide (e.1 ≠ 0)).length) * max F 2 * (1 + max K 1) := by
  obtain ⟨⟨r', w⟩, hw, hr⟩ := map_ok ((C146_result d).trans h)
  simp only at hr
  subst hr
  have hb : w.csm ≤ d.beamSize * (d.numInputs - 1) ∧
      w.ktm ≤ weight d keys.length d.numInputs * max F 2 * (1 + max K 1) ∧
      w.ksm ≤ weight d keys.length d.numInputs * max F 2 * (1 + max K 1) := by
    simp only [searchWork] at hw
    split at hw
    · exact workWith_bound (plainSized _ _ hs) hF hK hk hw
    · rename_i k hh
      have hw' := ho (by simp [hh])
      have hw'' : WeakOrder d.stateLt := ⟨fun a b => hw'.asymm _ _, fun a b c => hw'.negtrans _ _ _⟩
      exact workWith_bound (hashedSized _ _ hw'' _ hs) hF hK hk hw
  have hle : weight d keys.length d.numInputs ≤ keys.length * (d.ranges.filter fun e => decide (e.1 = 0)).length +
      d.beamSize * (d.ranges.filter fun e => decide (e.1 ≠ 0)).length := by
    refine Nat.add_le_add ?_ (Nat.mul_le_mul_left _ ?_)
    · split
      · exact Nat.zero_le _
      · simp [rangesAt]
    · refine List.Sublist.length_le (List.monotone_filter_right _ fun e he => ?_)
      simp only [decide_eq_true_eq] at he ⊢
      omega
  have hle' := Nat.mul_le_mul_right (1 + max K 1) (Nat.mul_le_mul_right (max F 2) hle)
  exact ⟨w, hw, hb.1, hb.2.1.trans hle', hb.2.2.trans hle'⟩

end

/-! ## What the search asks of the networks -/

section
variable {κ ρ H P : Type} [Add κ] [Sub κ] [Zero κ] {β : Type} {ops : BeamOps β (Nat × State κ H P)}

/-- The search with other networks. -/
def otherNets (d : SearchData κ ρ H P) (csm : State κ H P → Py (P × H)) (ktm : State κ H P → Py (ρ × H))
    (ksm : State κ H P → Py (KsmOutput κ H)) : SearchData κ ρ H P := { d with csm := csm, ktm := ktm, ksm := ksm }

theorem branchLoop_otherNets (d : SearchData κ ρ H P) (csm : State κ H P → Py (P × H)) (ktm : State κ H P → Py (ρ × H))
    (ksm : State κ H P → Py (KsmOutput κ H)) (start : Nat) (beams : List β) (s : State κ H P) (r : RangeData κ)
    (l : List Int) :
    (otherNets d csm ktm ksm).branchLoop ops start beams s r l = d.branchLoop ops start beams s r l := by
  induction l with
  | nil => rfl
  | cons c cs ih => simp only [branchLoop, ih]; rfl

theorem branchAll_otherNets (d : SearchData κ ρ H P) (csm : State κ H P → Py (P × H)) (ktm : State κ H P → Py (ρ × H))
    (ksm : State κ H P → Py (KsmOutput κ H)) (start : Nat) (beams : List β) (l : List (State κ H P)) :
    (otherNets d csm ktm ksm).branchAll ops start beams l = d.branchAll ops start beams l := by
  have e : (otherNets d csm ktm ksm).branchRange ops start beams = d.branchRange ops start beams := by
    funext sr
    simp only [branchRange, branchLoop_otherNets]
    rfl
  simp only [branchAll, e]
  rfl

omit [Sub κ] [Zero κ] in
theorem keyLoop_otherNets (d : SearchData κ ρ H P) (csm : State κ H P → Py (P × H)) (ktm : State κ H P → Py (ρ × H))
    (ksm : State κ H P → Py (KsmOutput κ H)) (forced : Option Int) (s : State κ H P) (o : KsmOutput κ H) (len : Int)
    (l : List Int) (room : Nat) :
    (otherNets d csm ktm ksm).keyLoop forced s o len l room = d.keyLoop forced s o len l room := by
  induction l generalizing room with
  | nil => rfl
  | cons c cs ih =>
    have e : (otherNets d csm ktm ksm).keyLoop forced s o len cs = d.keyLoop forced s o len cs := funext ih
    simp only [keyLoop, e]
    rfl

theorem mapM_agree {α γ : Type} {f g : α → Py γ} {l : List α} (h : ∀ x ∈ l, f x = g x) : l.mapM f = l.mapM g := by
  induction l with
  | nil => rfl
  | cons a l ih => simp only [List.mapM_cons, h a (by simp), ih fun x hx => h x (List.mem_cons_of_mem _ hx)]

omit [Add κ] [Sub κ] [Zero κ] in
theorem runHidden_asks {d : SearchData κ ρ H P} {l l' : List (State κ H P)} (h : l.mapM d.runHidden = .ok l') :
    ∃ C : List (State κ H P), C.length = l.length ∧ ∀ csm ktm ksm, (∀ s ∈ l, ktm s = d.ktm s) →
      (∀ s ∈ C, ksm s = d.ksm s) → l.mapM (otherNets d csm ktm ksm).runHidden = .ok l' := by
  induction l generalizing l' with
  | nil => exact ⟨[], rfl, fun _ _ _ _ _ => h⟩
  | cons a l ih =>
    simp only [List.mapM_cons, Bind.bind] at h
    obtain ⟨b, hb, h⟩ := bind_ok h
    obtain ⟨m, hm, h⟩ := bind_ok h
    have h := Except.ok.inj h
    subst h
    obtain ⟨C, hC, hq⟩ := ih hm
    simp only [runHidden, Bind.bind] at hb
    obtain ⟨ps, hps, hb⟩ := bind_ok hb
    obtain ⟨o, ho, hb⟩ := bind_ok hb
    have hb := Except.ok.inj hb
    subst hb
    refine ⟨ps.2 :: C, by simp [hC], fun csm ktm ksm h1 h2 => ?_⟩
    have e1 : (otherNets d csm ktm ksm).runKtm a = .ok ps := by
      rw [← hps]
      simp only [runKtm, otherNets, h1 a (by simp)]
    have e2 : (otherNets d csm ktm ksm).ksm ps.2 = .ok o := (h2 _ (by simp)).trans ho
    have e3 := hq csm ktm ksm (fun s hs => h1 s (List.mem_cons_of_mem _ hs)) fun s hs => h2 s (List.mem_cons_of_mem _ hs)
    simp only [List.mapM_cons, Bind.bind, runHidden, e1, e2, Except.bind]
    rw [e3]
    rfl

/-- What an iteration asks. -/
def Asks (d : SearchData κ ρ H P) (w : Work) (f : SearchData κ ρ H P → Prop) : Prop :=
  ∃ A B C : List (State κ H P), A.length = w.csm ∧ B.length = w.ktm ∧ C.length = w.ksm ∧
    ∀ csm ktm ksm, (∀ s ∈ A, csm s = d.csm s) → (∀ s ∈ B, ktm s = d.ktm s) → (∀ s ∈ C, ksm s = d.ksm s) →
      f (otherNets d csm ktm ksm)

theorem workBody_asks {d : SearchData κ ρ H P} {start : Nat} {st : List β × Nat} {b : β} {r : (List β × Nat) × Work}
    (h : d.workBody ops start st b = .ok r) : Asks d r.2 fun d' => d'.stepBody ops start st b = .ok r.1 := by
  simp only [workBody, Bind.bind] at h
  obtain ⟨objects, hobj, h⟩ := bind_ok h
  obtain ⟨states, hst, h⟩ := bind_ok h
  obtain ⟨toCheck, hto, h⟩ := bind_ok h
  obtain ⟨withProbs, hpr, h⟩ := bind_ok h
  obtain ⟨branched, hbr, h⟩ := bind_ok h
  obtain ⟨changed, hch, h⟩ := bind_ok h
  obtain ⟨changed', hch', h⟩ := bind_ok h
  obtain ⟨st1, hst1, h⟩ := bind_ok h
  obtain ⟨st2, hst2, h⟩ := bind_ok h
  obtain ⟨b', hb', h⟩ := bind_ok h
  have h := Except.ok.inj h
  subst h
  obtain ⟨C, hC, hq⟩ := runHidden_asks hch'
  refine ⟨if start = 0 then [] else objects.map (·.2), toCheck ++ changed.flatten, (branched.map (·.1)).flatten ++ C,
    ?_, ?_, ?_, fun csm ktm ksm h1 h2 h3 => ?_⟩
  · simp only [csmStates] at hst
    by_cases h0 : start = 0
    · simp [h0]
    · rw [if_neg h0] at hst ⊢
      simp only [h0, if_false, mapM_length hst]
  · simp only [List.length_append, mapM_length hch']
  · simp only [List.length_append, hC, mapM_length hch']
  · have e1 : (otherNets d csm ktm ksm).csmStates start (objects.map (·.2)) = .ok states := by
      rw [← hst]
      simp only [csmStates]
      by_cases h0 : start = 0
      · simp only [h0, if_true]
      · rw [if_neg h0] at h1
        rw [if_neg h0, if_neg h0]
        refine mapM_agree fun s hs => ?_
        simp only [runCsm, otherNets, h1 s hs]
    have e2 : (otherNets d csm ktm ksm).branchAll ops start st.1 states = .ok toCheck := by
      rw [branchAll_otherNets]
      exact hto
    have e3 : toCheck.mapM (otherNets d csm ktm ksm).runKtm = .ok withProbs := by
      rw [← hpr]
      refine mapM_agree fun s hs => ?_
      simp only [runKtm, otherNets, h2 s (List.mem_append_left _ hs)]
    have e4 : withProbs.mapM ((otherNets d csm ktm ksm).keyBranch ops start st.1) = .ok branched := hbr
    have e5 : ((branched.map (·.1)).flatten).mapM (otherNets d csm ktm ksm).keyChanges = .ok changed := by
      rw [← hch]
      refine mapM_agree fun s hs => ?_
      have : (otherNets d csm ktm ksm).ksm s = d.ksm s := h3 s (List.mem_append_left _ hs)
      simp only [keyChanges, this, keyLoop_otherNets]
      rfl
    have e6 := hq csm ktm ksm (fun s hs => h2 s (List.mem_append_right _ hs)) fun s hs =>
      h3 s (List.mem_append_right _ hs)
    have e7 : ((branched.map (·.2)).flatten).foldlM ((otherNets d csm ktm ksm).addKept ops) st1 = .ok st2 := hst2
    simp only [stepBody, Bind.bind, hobj, e1, e2, e3, e4, e5, e6, hst1, e7, hb', Except.bind]

theorem workStep_asks {d : SearchData κ ρ H P} {start : Nat} {sw r : (List β × Nat) × Work}
    (h : d.workStep ops sw start = .ok r) :
    ∃ w, r.2 = sw.2 + w ∧ Asks d w fun d' => d'.step ops sw.1 start = .ok r.1 := by
  simp only [workStep, Bind.bind] at h
  obtain ⟨b, hb, h⟩ := bind_ok h
  by_cases hlen : ops.len b = 0
  · rw [if_pos hlen] at h
    have h := Except.ok.inj h
    subst h
    refine ⟨⟨0, 0, 0⟩, rfl, [], [], [], rfl, rfl, rfl, fun csm ktm ksm _ _ _ => ?_⟩
    simp only [step, Bind.bind, hb, Except.bind, if_pos hlen]
  · rw [if_neg hlen] at h
    obtain ⟨r', hr', h⟩ := bind_ok h
    have h := Except.ok.inj h
    subst h
    obtain ⟨A, B, C, hA, hB, hC, hq⟩ := workBody_asks hr'
    refine ⟨r'.2, rfl, A, B, C, hA, hB, hC, fun csm ktm ksm h1 h2 h3 => ?_⟩
    simp only [step, Bind.bind, hb, Except.bind, if_neg hlen]
    exact hq csm ktm ksm h1 h2 h3

theorem loop_asks {d : SearchData κ ρ H P} (l : List Nat) {sw r : (List β × Nat) × Work}
    (h : l.foldlM (d.workStep ops) sw = .ok r) :
    ∃ w, r.2 = sw.2 + w ∧ Asks d w fun d' => l.foldlM (d'.step ops) sw.1 = .ok r.1 := by
  induction l generalizing sw with
  | nil =>
    have h := Except.ok.inj h
    subst h
    exact ⟨⟨0, 0, 0⟩, rfl, [], [], [], rfl, rfl, rfl, fun _ _ _ _ _ _ => rfl⟩
  | cons a l ih =>
    simp only [List.foldlM_cons, Bind.bind] at h
    obtain ⟨sw', hs, h⟩ := bind_ok h
    obtain ⟨w1, hw1, A, B, C, hA, hB, hC, hq⟩ := workStep_asks hs
    obtain ⟨w2, hw2, A', B', C', hA', hB', hC', hq'⟩ := ih h
    refine ⟨w1 + w2, ?_, A ++ A', B ++ B', C ++ C', ?_, ?_, ?_, fun csm ktm ksm h1 h2 h3 => ?_⟩
    · rw [hw2, hw1]
      show Work.mk _ _ _ = Work.mk _ _ _
      simp only [HAdd.hAdd, Add.add, Work.mk.injEq]
      exact ⟨Nat.add_assoc .., Nat.add_assoc .., Nat.add_assoc ..⟩
    · rw [List.length_append, hA, hA']; rfl
    · rw [List.length_append, hB, hB']; rfl
    · rw [List.length_append, hC, hC']; rfl
    · have e1 := hq csm ktm ksm (fun s hs => h1 s (List.mem_append_left _ hs))
        (fun s hs => h2 s (List.mem_append_left _ hs)) fun s hs => h3 s (List.mem_append_left _ hs)
      have e2 := hq' csm ktm ksm (fun s hs => h1 s (List.mem_append_right _ hs))
        (fun s hs => h2 s (List.mem_append_right _ hs)) fun s hs => h3 s (List.mem_append_right _ hs)
      simp only [List.foldlM_cons, Bind.bind, e1, Except.bind]
      exact e2

theorem workWith_asks {d : SearchData κ ρ H P} {r : Option (State κ H P)} {w : Work}
    (h : d.workWith ops = .ok (r, w)) : Asks d w fun d' => d'.searchWith ops = .ok r := by
  simp only [workWith, Bind.bind] at h
  obtain ⟨st, hst, h⟩ := bind_ok h
  obtain ⟨sw, hsw, h⟩ := bind_ok h
  obtain ⟨b, hb, h⟩ := bind_ok h
  obtain ⟨top, htop, h⟩ := bind_ok h
  have h := Prod.mk.inj (Except.ok.inj h)
  obtain ⟨h1, h2⟩ := h
  subst h1 h2
  obtain ⟨w, hw, A, B, C, hA, hB, hC, hq⟩ := loop_asks _ hsw
  have e : sw.2 = w := by
    rw [hw]
    cases w
    simp only [HAdd.hAdd, Add.add, Work.mk.injEq]
    exact ⟨Nat.zero_add _, Nat.zero_add _, Nat.zero_add _⟩
  subst e
  refine ⟨A, B, C, hA, hB, hC, fun csm ktm ksm h1 h2 h3 => ?_⟩
  have e1 : (otherNets d csm ktm ksm).initialBeams ops = .ok st := hst
  have e2 := hq csm ktm ksm h1 h2 h3
  have e3 : (otherNets d csm ktm ksm).numInputs = d.numInputs := rfl
  simp only [searchWith, Bind.bind, e1, e2, e3, hb, htop, Except.bind]

/-- C146: what is counted is what the search asks. There are as many states for each network as are counted, such that
networks that say the same about these states give the same result. -/
theorem C146_asks [DecidableEq κ] [DecidableEq H] [DecidableEq P] (d : SearchData κ ρ H P) (r : Option (State κ H P))
    (w : Work) (h : d.searchWork = .ok (r, w)) :
    ∃ A B C : List (State κ H P), A.length = w.csm ∧ B.length = w.ktm ∧ C.length = w.ksm ∧
      ∀ csm ktm ksm, (∀ s ∈ A, csm s = d.csm s) → (∀ s ∈ B, ktm s = d.ktm s) → (∀ s ∈ C, ksm s = d.ksm s) →
        ({ d with csm := csm, ktm := ktm, ksm := ksm } : SearchData κ ρ H P).search = .ok r := by
  simp only [searchWork] at h
  split at h
  · rename_i hh
    obtain ⟨A, B, C, hA, hB, hC, hq⟩ := workWith_asks h
    refine ⟨A, B, C, hA, hB, hC, fun csm ktm ksm h1 h2 h3 => ?_⟩
    have e : (otherNets d csm ktm ksm).hashLength = d.hashLength := rfl
    show (otherNets d csm ktm ksm).search = .ok r
    simp only [SearchData.search, e, hh]
    exact hq csm ktm ksm h1 h2 h3
  · rename_i hh
    obtain ⟨A, B, C, hA, hB, hC, hq⟩ := workWith_asks h
    refine ⟨A, B, C, hA, hB, hC, fun csm ktm ksm h1 h2 h3 => ?_⟩
    have e : (otherNets d csm ktm ksm).hashLength = d.hashLength := rfl
    show (otherNets d csm ktm ksm).search = .ok r
    simp only [SearchData.search, e, hh]
    exact hq csm ktm ksm h1 h2 h3

end


/-- C146: the number of chords or keys to branch on is never more than the branching factor that is given. -/
theorem C146_factor {π : Type} [Add π] [Zero π] (ge : π → π → Bool) (target : π) (F : Nat) (probs : List π) :
    maxBranch ge target F probs ≤ F := by
  simp only [maxBranch]
  exact Nat.min_le_right _ _

theorem length_between {l : List Nat} (hl : l.Pairwise (· < ·)) {a b : Nat} (h : ∀ x ∈ l, a < x ∧ x ≤ b) :
    l.length ≤ b - a := by
  induction l generalizing a with
  | nil => exact Nat.zero_le _
  | cons x l ih =>
    rw [List.pairwise_cons] at hl
    have h1 := h x (by simp)
    have h2 := ih hl.2 (a := x) fun y hy => ⟨hl.1 y hy, (h y (by simp [hy])).2⟩
    simp only [List.length_cons]
    omega

/-- C146: from each note there are at most as many chord ranges as notes that follow. -/
theorem C146_ranges {π κ δ : Type} [LinearOrder π] [AddCommGroup κ] [AddCommMonoid δ] [LinearOrder δ]
    (A : RangeInput π κ δ) (hmm : A.minChange ≤ A.maxNoChange)
    (rs : List (Nat × Nat × κ)) (rj : List κ) (h : A.getChordRanges = .ok (rs, rj)) (s : Nat) :
    (rs.filter fun e => decide (e.1 = s)).length ≤ A.n - s := by
  have h1 := RangeInput.C26_ordered A hmm rs rj h
  have h2 := RangeInput.C25_sound A hmm rs rj h
  rw [← List.length_map (f := fun e : Nat × Nat × κ => e.2.1)]
  refine length_between ?_ ?_
  · rw [List.pairwise_map]
    refine (h1.filter _).imp_of_mem ?_
    intro a b ha hb hab
    simp only [List.mem_filter, decide_eq_true_eq] at ha hb
    omega
  · intro x hx
    obtain ⟨⟨a, b, lp⟩, he, rfl⟩ := List.mem_map.1 hx
    simp only [List.mem_filter, decide_eq_true_eq] at he
    obtain ⟨he, rfl⟩ := he
    exact ⟨(h2 _ _ _ he).1, (h2 _ _ _ he).2.1⟩

/-- The small search of C132 in a beam of two states, with the first key given. -/
def twoStates : SearchData Int Int Unit (List Int) :=
  { SearchFinds.midiDemo with beamSize := 2, forcedKeys := [0, -1, -1] }

/-- Its work. -/
example : twoStates.searchWork.toOption.map (·.2) = some ⟨3, 16, 12⟩ := by decide +kernel

/-- The bounds for it: one key and two ranges at the start, two states and two ranges after it, two chords, two keys. -/
example (r : Option (State Int Unit (List Int))) (h : twoStates.search = .ok r) : ∃ w, twoStates.searchWork = .ok (r, w) ∧
    w.csm ≤ 4 ∧ w.ktm ≤ 36 ∧ w.ksm ≤ 36 := by
  have hb : ∀ e ∈ twoStates.ranges, e.2.maxIndex ≤ 2 := by
    intro e he
    simp only [twoStates, SearchFinds.midiDemo, SearchRuns.netDemo, List.mem_map] at he
    obtain ⟨x, hx, rfl⟩ := he
    revert x
    decide
  refine C146_work twoStates (by decide) (fun _ => ⟨fun a b h => ?_, fun a b c h1 h2 => ?_⟩) 2 2 hb ?_ [0] rfl r h
  · simp only [twoStates, SearchFinds.midiDemo, SearchRuns.netDemo, decide_eq_true_eq, decide_eq_false_iff_not] at h ⊢
    omega
  · simp only [twoStates, SearchFinds.midiDemo, SearchRuns.netDemo, decide_eq_false_iff_not] at h1 h2 ⊢
    omega
  · intro s o ho
    simp only [twoStates, SearchFinds.midiDemo, SearchRuns.netDemo] at ho
    obtain ⟨rows, _, ho⟩ := bind_ok ho
    simp only [ksmOutput] at ho
    split at ho
    · cases ho
    · injection ho with ho
      subst ho
      exact Nat.le_refl _

end Verif.SearchWork
