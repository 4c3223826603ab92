import Verif.Search
import Verif.Lemmas.State
import Verif.Lemmas.Heap

/-!
# Invariants of the beam search
-/

namespace Verif.SearchData

open Verif State

/-! ## Monadic loops -/

theorem bind_ok {α β : Type} {x : Py α} {f : α → Py β} {b : β} (h : x.bind f = .ok b) :
    ∃ a, x = .ok a ∧ f a = .ok b := by
  cases x with
  | error e => cases h
  | ok a => exact ⟨a, rfl, h⟩

theorem map_ok {α β : Type} {x : Py α} {f : α → β} {b : β} (h : x.map f = .ok b) :
    ∃ a, x = .ok a ∧ f a = b := by
  cases x with
  | error e => cases h
  | ok a => exact ⟨a, rfl, by injection h⟩

theorem mapM_all {α β : Type} {f : α → Py β} {l : List α} {l' : List β} (h : l.mapM f = .ok l')
    {P : α → Prop} {Q : β → Prop} (hP : ∀ a ∈ l, P a) (hf : ∀ a b, P a → f a = .ok b → Q b) :
    ∀ b ∈ l', Q b := by
  induction l generalizing l' with
  | nil =>
    simp only [List.mapM_nil, Pure.pure, Except.pure, Except.ok.injEq] at h
    subst h; simp
  | cons a l ih =>
    simp only [List.mapM_cons, Bind.bind, Pure.pure] at h
    obtain ⟨b, hb, h⟩ := bind_ok h
    obtain ⟨bs, hbs, h⟩ := bind_ok h
    simp only [Except.pure, Except.ok.injEq] at h
    subst h
    intro x hx
    rcases List.mem_cons.mp hx with rfl | hx
    · exact hf a _ (hP a (by simp)) hb
    · exact ih hbs (fun a ha => hP a (by simp [ha])) x hx

theorem foldlM_inv {α σ : Type} {f : σ → α → Py σ} {l : List α} {s s' : σ}
    (h : l.foldlM f s = .ok s') {I : σ → Prop} {P : α → Prop} (hs : I s) (hP : ∀ a ∈ l, P a)
    (hf : ∀ s a s', I s → P a → f s a = .ok s' → I s') : I s' := by
  induction l generalizing s with
  | nil =>
    simp only [List.foldlM_nil, Pure.pure, Except.pure, Except.ok.injEq] at h
    subst h; exact hs
  | cons a l ih =>
    simp only [List.foldlM_cons, Bind.bind] at h
    obtain ⟨s1, h1, h⟩ := bind_ok h
    exact ih h (hf s a s1 hs (hP a (by simp)) h1) (fun b hb => hP b (by simp [hb]))

/-! ## Beams only hold what is put into them -/

/-- A beam holds nothing at first and only what is added to it; `states` and `topState` only give what
it holds. -/
structure Lawful {β σ : Type} (ops : BeamOps β σ) where
  mem : β → σ → Prop
  new : ∀ n x, ¬ mem (ops.new n) x
  empty : ∀ b x, ¬ mem (ops.empty b) x
  add : ∀ b s f r b', ops.add b s f = .ok (r, b') → ∀ x, mem b' x → x = s ∨ mem b x
  states : ∀ b l, ops.states b = .ok l → ∀ x ∈ l, mem b x
  top : ∀ b x, ops.topState b = .ok (some x) → mem b x

theorem pyMax_mem {α : Type} (lt : α → α → Bool) (l : List α) (x : α) (h : pyMax lt l = some x) :
    x ∈ l := by
  cases l with
  | nil => cases h
  | cons a l =>
    simp only [pyMax, Option.some.injEq] at h
    have key : ∀ (l : List α) (a : α), l.foldl (fun m x => if lt m x then x else m) a ∈ a :: l := by
      intro l
      induction l with
      | nil => simp
      | cons b l ih =>
        intro a
        simp only [List.foldl_cons]
        have := ih (if lt a b then b else a)
        rcases List.mem_cons.mp this with h | h
        · rw [h]; split <;> simp
        · simp [h]
    rw [← h]; exact key l a

theorem mem_heappushpop {α : Type} (lt : α → α → Bool) (h : List α) (s x : α)
    (hx : x ∈ (heappushpop lt h s).2) : x = s ∨ x ∈ h := by
  cases h with
  | nil => simp [heappushpop] at hx
  | cons first rest =>
    simp only [heappushpop] at hx
    split at hx
    · have := (siftup_root_perm (lt := lt) _ rest s).mem_iff.mp hx
      rcases List.mem_cons.mp this with h | h
      · exact .inl h
      · exact .inr (by simp [h])
    · exact .inr hx

/-- The class `Beam`. -/
def plainLawful {σ : Type} (lt : σ → σ → Bool) : Lawful (plainOps lt) where
  mem b x := x ∈ b.heap
  new n x := by simp [plainOps, Beam.new]
  empty b x := by simp [plainOps, Beam.empty]
  add b s f r b' h x hx := by
    simp only [plainOps, Beam.add] at h
    split at h
    · cases hb : b.heap with
      | nil => rw [hb] at h; cases h
      | cons top t =>
        rw [hb] at h; simp only at h
        split at h
        · injection h with h; injection h with h1 h2
          subst h2
          exact hb ▸ mem_heappushpop lt (top :: t) s x hx
        · injection h with h; injection h with h1 h2
          subst h2
          exact .inr (hb ▸ hx)
    · injection h with h; injection h with h1 h2
      subst h2
      have := (heappush_perm (lt := lt) b.heap s).mem_iff.mp hx
      exact List.mem_cons.mp this
  states b l h x hx := by
    simp only [plainOps, Except.ok.injEq] at h
    subst h; exact hx
  top b x h := by
    simp only [plainOps, Except.ok.injEq, Beam.topState] at h
    exact pyMax_mem lt _ x h

theorem mem_dictSet {η σ : Type} [DecidableEq η] (d : List (η × σ)) (h : η) (s x : σ)
    (hx : ∃ e ∈ HBeam.dictSet d h s, e.2 = x) : x = s ∨ ∃ e ∈ d, e.2 = x := by
  obtain ⟨e, he, rfl⟩ := hx
  simp only [HBeam.dictSet] at he
  split at he
  · obtain ⟨e', he', rfl⟩ := List.mem_map.mp he
    split
    · exact .inl rfl
    · exact .inr ⟨e', he', rfl⟩
  · rcases List.mem_append.mp he with he | he
    · exact .inr ⟨e, he, rfl⟩
    · simp only [List.mem_singleton] at he
      subst he; exact .inl rfl

/-- The class `HashedBeam`. -/
def hashedLawful {η σ : Type} [DecidableEq η] [DecidableEq σ] (lt : σ → σ → Bool) (hash : σ → η) :
    Lawful (hashedOps lt hash) where
  mem b x := ∃ d, b.dict = some d ∧ ∃ e ∈ d, e.2 = x
  new n x := by simp [hashedOps, HBeam.new]
  empty b x := by simp [hashedOps, HBeam.empty]
  add b s f r b' h x hx := by
    simp only [hashedOps, HBeam.add] at h
    cases hd : b.dict with
    | none =>
      rw [hd] at h; simp only at h
      split at h
      · cases hb : b.heap with
        | nil => rw [hb] at h; cases h
        | cons top t =>
          rw [hb] at h; simp only at h
          split at h
          · cases h
          · injection h with h; injection h with h1 h2
            subst h2; exact .inr (hd ▸ hx)
      · cases h
    | some d =>
      rw [hd] at h; simp only at h
      cases hg : HBeam.dictGet d (hash s) with
      | some old =>
        rw [hg] at h; simp only [Bind.bind] at h
        split at h
        · obtain ⟨hp, _, h⟩ := bind_ok h
          injection h with h; injection h with h1 h2
          subst h2
          obtain ⟨d', hd', hx⟩ := hx
          simp only [Option.some.injEq] at hd'
          subst hd'
          rcases mem_dictSet d (hash s) s x hx with h | h
          · exact .inl h
          · exact .inr ⟨d, rfl, h⟩
        · injection h with h; injection h with h1 h2
          subst h2; exact .inr (hd ▸ hx)
      | none =>
        rw [hg] at h; simp only at h
        split at h
        · cases hb : b.heap with
          | nil => rw [hb] at h; cases h
          | cons top t =>
            rw [hb] at h; simp only [Bind.bind] at h
            split at h
            · obtain ⟨d2, hdel, h⟩ := bind_ok h
              obtain ⟨hp, _, h⟩ := bind_ok h
              injection h with h; injection h with h1 h2
              subst h2
              obtain ⟨d', hd', hx⟩ := hx
              simp only [Option.some.injEq] at hd'
              subst hd'
              simp only [HBeam.dictDel] at hdel
              split at hdel
              · injection hdel with hdel
                subst hdel
                obtain ⟨e, he, hex⟩ := hx
                rcases mem_dictSet d (hash s) s x ⟨e, (List.mem_filter.mp he).1, hex⟩ with h | h
                · exact .inl h
                · exact .inr ⟨d, rfl, h⟩
              · cases hdel
            · injection h with h; injection h with h1 h2
              subst h2; exact .inr (hd ▸ hx)
        · injection h with h; injection h with h1 h2
          subst h2
          obtain ⟨d', hd', hx⟩ := hx
          simp only [Option.some.injEq] at hd'
          subst hd'
          rcases mem_dictSet d (hash s) s x hx with h | h
          · exact .inl h
          · exact .inr ⟨d, rfl, h⟩
  states b l h x hx := by
    simp only [hashedOps, HBeam.states] at h
    cases hd : b.dict with
    | none => rw [hd] at h; cases h
    | some d =>
      rw [hd] at h; injection h with h
      subst h
      obtain ⟨e, he, rfl⟩ := List.mem_map.mp hx
      exact ⟨d, rfl, e, he, rfl⟩
  top b x h := by
    simp only [hashedOps, HBeam.topState] at h
    split at h
    · obtain ⟨l, hl, h⟩ := map_ok h
      have hx := pyMax_mem lt l x h
      simp only [HBeam.states] at hl
      cases hd : b.dict with
      | none => rw [hd] at hl; cases hl
      | some d =>
        rw [hd] at hl; injection hl with hl
        subst hl
        obtain ⟨e, he, rfl⟩ := List.mem_map.mp hx
        exact ⟨d, rfl, e, he, rfl⟩
    · cases h

/-! ## What the search promises of a segment -/

section
variable {κ ρ H P : Type}

/-- Some note from `a` up to `b` has a forced id. -/
def AnyForced (ids : List Int) (a b : Nat) : Prop :=
  ∃ (j : Nat) (f : Int), a ≤ j ∧ j < b ∧ ids[j]? = some f ∧ f ≠ -1

/-- `x` is the forced id of some note from `a` up to `b`. -/
def ForcedTo (ids : List Int) (a b : Nat) (x : Int) : Prop :=
  ∃ j : Nat, a ≤ j ∧ j < b ∧ ids[j]? = some x ∧ x ≠ -1

/-- A chord that may be put on a range: a forced one if there is any, else one of those the range branches
on: the likeliest classes of the chord classifier, as many as the number to branch on (or the likeliest two
if that number is one). -/
def FitsRange (d : SearchData κ ρ H P) (c : Int) (a : Nat) (r : RangeData κ) : Prop :=
  (AnyForced d.forcedChords a r.stop → ForcedTo d.forcedChords a r.stop c) ∧
  (¬ AnyForced d.forcedChords a r.stop → c ∈ r.order.take (if r.maxIndex = 1 then 2 else r.maxIndex))

/-- The notes from `a` up to `b` are one or more consecutive candidate ranges, each of which may carry
chord `c`. -/
inductive Covered (d : SearchData κ ρ H P) (c : Int) : Nat → Nat → Prop
  | one {a : Nat} {r : RangeData κ} : (a, r) ∈ d.ranges → FitsRange d c a r → Covered d c a r.stop
  | more {a b : Nat} {r : RangeData κ} : Covered d c a b → (b, r) ∈ d.ranges → FitsRange d c b r →
      Covered d c a r.stop

/-- The root and the bass of a chord are in the range of relative pitches of a key. -/
def InKeyRange (d : SearchData κ ρ H P) (key c : Int) : Prop :=
  ∃ root ct inv bass tonic mode, pyGet d.labels.chord c = .ok (root, ct, inv) ∧
    bassNote ct root inv d.pitchType false = .ok bass ∧ pyGet d.labels.key key = .ok (tonic, mode) ∧
    outside (root - tonic) = false ∧ outside (bass - tonic) = false

/-- A node and the one before it: all but the key. -/
def SegCore (d : SearchData κ ρ H P) (n q : Node κ H P) : Prop :=
  ∃ c, n.chord = some c ∧ n.chord ≠ q.chord ∧ q.changeIndex < n.changeIndex ∧
    Covered d c q.changeIndex n.changeIndex

/-- A node and the one before it. -/
def SegOK (d : SearchData κ ρ H P) (n q : Node κ H P) : Prop :=
  SegCore d n q ∧
    (AnyForced d.forcedKeys q.changeIndex n.changeIndex →
      ForcedTo d.forcedKeys q.changeIndex n.changeIndex n.key) ∧
    ∃ c, n.chord = some c ∧ InKeyRange d n.key c

/-- All nodes of a chain, newest first. -/
def Segs (d : SearchData κ ρ H P) : List (Node κ H P) → Prop
  | n :: q :: rest => SegOK d n q ∧ Segs d (q :: rest)
  | _ => True

theorem SegCore.congr {d : SearchData κ ρ H P} {n n' q q' : Node κ H P} (h : SegCore d n q)
    (h1 : n'.chord = n.chord) (h2 : n'.changeIndex = n.changeIndex)
    (h4 : q'.chord = q.chord) (h5 : q'.changeIndex = q.changeIndex) : SegCore d n' q' := by
  obtain ⟨c, a1, a2, a3, a4⟩ := h
  exact ⟨c, h1.trans a1, by rw [h1, h4]; exact a2, by rw [h2, h5]; exact a3, by rw [h2, h5]; exact a4⟩

theorem SegOK.congr {d : SearchData κ ρ H P} {n n' q q' : Node κ H P} (h : SegOK d n q)
    (h1 : n'.chord = n.chord) (h2 : n'.changeIndex = n.changeIndex) (h3 : n'.key = n.key)
    (h4 : q'.chord = q.chord) (h5 : q'.changeIndex = q.changeIndex) : SegOK d n' q' := by
  obtain ⟨h0, hk, hr⟩ := h
  refine ⟨h0.congr h1 h2 h4 h5, ?_, ?_⟩
  · rw [h2, h3, h5]; exact hk
  · rw [h1, h3]; exact hr

theorem Segs.congr {d : SearchData κ ρ H P} {n n' : Node κ H P} {ps : List (Node κ H P)}
    (h : Segs d (n :: ps))
    (h1 : n'.chord = n.chord) (h2 : n'.changeIndex = n.changeIndex) (h3 : n'.key = n.key) :
    Segs d (n' :: ps) := by
  cases ps with
  | nil => trivial
  | cons q ps => exact ⟨h.1.congr h1 h2 h3 rfl rfl, h.2⟩

theorem forcedIn_none {d : SearchData κ ρ H P} {ids : List Int} {a b : Nat}
    (h : d.forcedIn ids a b = none) : ¬ AnyForced ids a b := by
  simp only [forcedIn] at h
  split at h
  · rename_i he
    rintro ⟨j, f, h1, h2, h3, h4⟩
    have : f ∈ ((ids.take b).drop a).filter fun x => decide (x ≠ -1) := by
      rw [List.mem_filter]
      refine ⟨?_, by simpa using h4⟩
      rw [List.mem_iff_getElem?]
      refine ⟨j - a, ?_⟩
      rw [List.getElem?_drop, List.getElem?_take]
      have : a + (j - a) = j := by omega
      rw [this, if_pos h2, h3]
    rw [he] at this
    simp at this
  · cases h

theorem forcedIn_some {d : SearchData κ ρ H P} (hp : ∀ l, l ≠ [] → d.pick l ∈ l) {ids : List Int}
    {a b : Nat} {f : Int} (h : d.forcedIn ids a b = some f) : AnyForced ids a b ∧ ForcedTo ids a b f := by
  simp only [forcedIn] at h
  split at h
  · cases h
  · rename_i hne
    injection h with h
    have hm := hp _ hne
    rw [h] at hm
    rw [List.mem_filter] at hm
    obtain ⟨hm, hf⟩ := hm
    have hf : f ≠ -1 := by simpa using hf
    rw [List.mem_iff_getElem?] at hm
    obtain ⟨i, hi⟩ := hm
    rw [List.getElem?_drop, List.getElem?_take] at hi
    split at hi
    · rename_i hlt
      exact ⟨⟨a + i, f, by omega, hlt, hi, hf⟩, ⟨a + i, by omega, hlt, hi, hf⟩⟩
    · cases hi

end

/-! ## The search keeps the invariant -/

section
variable {κ ρ H P : Type} [Add κ] [Sub κ] [Zero κ]

/-- The states in the beams. -/
def Good (d : SearchData κ ρ H P) (s : State κ H P) : Prop :=
  (∃ g, Reach d.labels d.pitchType g d.hashLength s) ∧ Segs d (s.node :: s.prev)

/-- The states after the branching on chords. -/
def Cand (d : SearchData κ ρ H P) (s : State κ H P) : Prop :=
  (∃ g, Reach d.labels d.pitchType g d.hashLength s) ∧
  ∃ q rest, s.prev = q :: rest ∧ SegCore d s.node q ∧ Segs d (q :: rest) ∧
    (s.node.mustKey = false → ∃ c, s.node.chord = some c ∧ InKeyRange d s.node.key c)

/-- The assumptions: ranges go forward, the hash length is at least one, and the first element of a
set is one of its elements. -/
structure OK (d : SearchData κ ρ H P) : Prop where
  forward : ∀ e ∈ d.ranges, e.1 < e.2.stop
  hash : ∀ k, d.hashLength = some k → 1 ≤ k
  pick : ∀ l, l ≠ [] → d.pick l ∈ l

variable {d : SearchData κ ρ H P}

theorem branchState_cand (hd : OK d) {start : Nat} {s s' : State κ H P} {r : RangeData κ} {c : Int}
    (hs : Good d s) (hi : s.node.changeIndex = start) (hr : (start, r) ∈ d.ranges)
    (hc : FitsRange d c start r) (h : d.branchState start s r c = .ok (some s')) :
    Cand d s' ∧ s'.node.changeIndex = r.stop := by
  obtain ⟨⟨g, hg⟩, hseg⟩ := hs
  have hfw : start < r.stop := hd.forward _ hr
  simp only [branchState, Bind.bind] at h
  obtain ⟨lp, -, h⟩ := bind_ok h
  split at h
  · rename_i hch
    obtain ⟨t, ht, h⟩ := map_ok h
    injection h with h
    subst h
    have hreach := Reach.rejoin s t _ _ hg (by rw [hi]; exact hfw) ht
    obtain ⟨c', root, ct, inv, bass, tonic, mode, p, ps, hcc, h1, h2, hp, h3, rfl⟩ := rejoin_ok ht
    rw [hcc] at hch
    injection hch with hch
    subst hch
    rw [hp] at hseg
    obtain ⟨⟨⟨c0, a1, a2, a3, a4⟩, -, -⟩, hrest⟩ := hseg
    rw [hcc] at a1; injection a1 with a1; subst a1
    refine ⟨⟨⟨g, hreach⟩, p, ps, hp, ⟨c, hcc, a2, ?_, ?_⟩, hrest, ?_⟩, rfl⟩
    · simp only; omega
    · rw [hi] at a4
      exact .more a4 hr hc
    · intro hm
      simp only [Bool.or_eq_false_iff] at hm
      exact ⟨c, hcc, root, ct, inv, bass, tonic, mode, h1, h2, h3, hm.1, hm.2⟩
  · rename_i hch
    have hreach := Reach.chord s s' _ _ _ hg (by rw [hi]; exact hfw) h
    obtain ⟨root, ct, inv, bass, k, h1, h2, h3, h4, h5, rfl⟩ := chordTransition_some h
    refine ⟨⟨⟨g, hreach⟩, _, s.prev, rfl, ⟨c, rfl, hch, ?_, ?_⟩, hseg.congr rfl rfl rfl, ?_⟩, rfl⟩
    · simp only; omega
    · simp only [hi]
      exact .one hr hc
    · intro hm
      simp only [Bool.or_eq_false_iff] at hm
      have hk := getKeyAux_ok d.labels g d.hashLength _ _ (hg.chain hd.hash) k h3
      exact ⟨c, rfl, root, ct, inv, bass, k.tonic, k.mode, h1, h2, hk.1, hm.1, hm.2⟩

omit [Add κ] [Sub κ] [Zero κ] in
theorem branchIds_fits (hp : ∀ l, l ≠ [] → d.pick l ∈ l) {start : Nat} {chord : Option Int}
    {r : RangeData κ} {ids : List Int} (h : d.branchIds start chord r = .ok ids) :
    ∀ c ∈ ids, FitsRange d c start r := by
  intro c hc
  simp only [branchIds] at h
  split at h
  · rename_i f hf
    obtain ⟨_, -, h⟩ := map_ok h
    subst h
    simp only [List.mem_singleton] at hc
    subst hc
    obtain ⟨h1, h2⟩ := forcedIn_some hp hf
    exact ⟨fun _ => h2, fun h => absurd h1 h⟩
  · rename_i hf
    have hn := forcedIn_none hf
    refine ⟨fun h => absurd h hn, fun _ => ?_⟩
    split at h
    · rename_i h1
      obtain ⟨_, -, h⟩ := map_ok h
      subst h
      rw [if_pos h1]
      split at hc
      · exact hc
      · exact (List.take_sublist_take_left (by omega)).subset hc
    · rename_i h1
      injection h with h
      subst h
      rw [if_neg h1]
      exact hc

variable {β : Type} {ops : BeamOps β (Nat × State κ H P)}

theorem branchLoop_cand (hd : OK d) {start : Nat} {beams : List β} {s : State κ H P} {r : RangeData κ}
    (hs : Good d s) (hi : s.node.changeIndex = start) (hr : (start, r) ∈ d.ranges)
    {ids : List Int} (hids : ∀ c ∈ ids, FitsRange d c start r) {out : List (State κ H P)}
    (h : d.branchLoop ops start beams s r ids = .ok out) : ∀ t ∈ out, Cand d t := by
  induction ids generalizing out with
  | nil =>
    simp only [branchLoop, Except.ok.injEq] at h
    subst h; simp
  | cons c cs ih =>
    simp only [branchLoop, Bind.bind] at h
    obtain ⟨new, hnew, h⟩ := bind_ok h
    cases new with
    | none => exact ih (fun c hc => hids c (by simp [hc])) h
    | some s' =>
      simp only at h
      obtain ⟨f, -, h⟩ := bind_ok h
      simp only [keepIf] at h
      split at h
      · obtain ⟨l, hl, h⟩ := map_ok h
        subst h
        intro t ht
        rcases List.mem_cons.mp ht with rfl | ht
        · exact (branchState_cand hd hs hi hr (hids c (by simp)) hnew).1
        · exact ih (fun c hc => hids c (by simp [hc])) hl t ht
      · injection h with h
        subst h; simp

theorem branchRange_cand (hd : OK d) {start : Nat} {beams : List β} {sr : State κ H P × RangeData κ}
    (hs : Good d sr.1) (hi : sr.1.node.changeIndex = start) (hr : (start, sr.2) ∈ d.ranges)
    {out : List (State κ H P)} (h : d.branchRange ops start beams sr = .ok out) :
    ∀ t ∈ out, Cand d t := by
  simp only [branchRange, Bind.bind] at h
  obtain ⟨e, -, h⟩ := bind_ok h
  split at h
  · injection h with h
    subst h; simp
  · obtain ⟨ids, hids, h⟩ := bind_ok h
    exact branchLoop_cand hd hs hi hr (branchIds_fits hd.pick hids) h

theorem branchAll_cand (hd : OK d) {start : Nat} {beams : List β} {states out : List (State κ H P)}
    (hs : ∀ s ∈ states, Good d s ∧ s.node.changeIndex = start)
    (h : d.branchAll ops start beams states = .ok out) : ∀ t ∈ out, Cand d t := by
  simp only [branchAll] at h
  obtain ⟨ls, hls, h⟩ := map_ok h
  subst h
  have := mapM_all hls (P := fun sr => (Good d sr.1 ∧ sr.1.node.changeIndex = start) ∧
      (start, sr.2) ∈ d.ranges) (Q := fun l => ∀ t ∈ l, Cand d t) ?_ ?_
  · intro t ht
    obtain ⟨l, hl, ht⟩ := List.mem_flatten.mp ht
    exact this l hl t ht
  · intro sr hsr
    simp only [pairs, List.mem_flatMap, List.mem_map] at hsr
    obtain ⟨s, hs', r, hr, rfl⟩ := hsr
    refine ⟨hs s hs', ?_⟩
    simp only [rangesAt, List.mem_map, List.mem_filter, decide_eq_true_eq] at hr
    obtain ⟨⟨a, r'⟩, ⟨hm, ha⟩, rfl⟩ := hr
    simp only at ha; subst ha; exact hm
  · intro sr l ⟨⟨h1, h2⟩, h3⟩ hl
    exact branchRange_cand hd h1 h2 h3 hl

/-- Changes of hidden states, priors and probabilities keep `Cand`. -/
theorem Cand.congr {s s' : State κ H P} (hs : Cand d s)
    (hr : ∀ g, Reach d.labels d.pitchType g d.hashLength s →
      Reach d.labels d.pitchType g d.hashLength s')
    (h1 : s'.node.chord = s.node.chord) (h2 : s'.node.changeIndex = s.node.changeIndex)
    (h3 : s'.node.key = s.node.key) (h4 : s'.node.mustKey = s.node.mustKey) (h5 : s'.prev = s.prev) :
    Cand d s' := by
  obtain ⟨⟨g, hg⟩, q, rest, hp, hc, hseg, hm⟩ := hs
  refine ⟨⟨g, hr g hg⟩, q, rest, h5.trans hp, hc.congr h1 h2 rfl rfl, hseg, ?_⟩
  rw [h4, h1, h3]; exact hm

theorem Good.congr {s s' : State κ H P} (hs : Good d s)
    (hr : ∀ g, Reach d.labels d.pitchType g d.hashLength s →
      Reach d.labels d.pitchType g d.hashLength s')
    (h1 : s'.node.chord = s.node.chord) (h2 : s'.node.changeIndex = s.node.changeIndex)
    (h3 : s'.node.key = s.node.key) (h5 : s'.prev = s.prev) : Good d s' := by
  obtain ⟨⟨g, hg⟩, hseg⟩ := hs
  exact ⟨⟨g, hr g hg⟩, h5 ▸ hseg.congr h1 h2 h3⟩

theorem runKtm_cand {s : State κ H P} {ps : ρ × State κ H P} (hs : Cand d s)
    (h : d.runKtm s = .ok ps) : Cand d ps.2 := by
  simp only [runKtm] at h
  obtain ⟨ph, -, h⟩ := map_ok h
  subst h
  refine hs.congr (fun g hg => ?_) rfl rfl rfl rfl rfl
  exact Reach.hidden s s.node.csmHidden (some ph.2) s.node.ksmHidden s.node.csmPrior hg

theorem Cand.addKtm {s : State κ H P} (hs : Cand d s) (lp : κ) : Cand d (s.addKtm lp) :=
  hs.congr (fun _ hg => .ktm s lp hg) rfl rfl rfl rfl rfl

theorem Cand.copy {s : State κ H P} (hs : Cand d s) : Cand d s.copy :=
  hs.congr (fun _ hg => .copy s hg) rfl rfl rfl rfl rfl

theorem Cand.good {s : State κ H P} (hs : Cand d s) {q : Node κ H P} {rest : List (Node κ H P)}
    (hq : s.prev = q :: rest) (hm : s.node.mustKey = false)
    (hk : AnyForced d.forcedKeys q.changeIndex s.node.changeIndex →
      ForcedTo d.forcedKeys q.changeIndex s.node.changeIndex s.node.key) : Good d s := by
  obtain ⟨⟨g, hg⟩, q', rest', hp, hc, hseg, hr⟩ := hs
  rw [hq] at hp
  injection hp with hp1 hp2
  subst hp1; subst hp2
  refine ⟨⟨g, hg⟩, ?_⟩
  rw [hq]
  exact ⟨⟨hc, hk, hr hm⟩, hseg⟩

omit [Add κ] [Sub κ] [Zero κ] in
theorem keepFits_mem {start : Nat} {beams : List β} {ck : Bool}
    {x : Option (State κ H P × State κ H P)} {out : List (State κ H P)}
    (h : keepFits ops start beams ck x = .ok out) : ∀ t ∈ out, ∃ tested, x = some (tested, t) := by
  cases x with
  | none =>
    simp only [keepFits, Except.ok.injEq] at h
    subst h; simp
  | some p =>
    obtain ⟨tested, s⟩ := p
    simp only [keepFits] at h
    obtain ⟨f, -, h⟩ := map_ok h
    intro t ht
    subst h
    split at ht
    · simp only [List.mem_singleton] at ht
      subst ht; exact ⟨tested, rfl⟩
    · simp at ht

theorem keyBranch_ok (hd : OK d) {start : Nat} {beams : List β} {ps : ρ × State κ H P}
    (hs : Cand d ps.2) {out : List (State κ H P) × List (State κ H P)}
    (h : d.keyBranch ops start beams ps = .ok out) :
    (∀ t ∈ out.1, Cand d t) ∧ (∀ t ∈ out.2, Good d t) := by
  simp only [keyBranch] at h
  cases hq : ps.2.prev with
  | nil => rw [hq] at h; cases h
  | cons q rest =>
    rw [hq] at h
    simp only [Bind.bind] at h
    obtain ⟨change, hch, h⟩ := bind_ok h
    obtain ⟨keep, hke, h⟩ := bind_ok h
    injection h with h
    subst h
    simp only
    have hkeep : (d.keyOptions ps.1 ps.2 q).2 = true → Good d ps.2 := by
      intro ho
      simp only [keyOptions] at ho
      split at ho
      · rename_i f hf
        split at ho
        · rename_i hkf
          refine hs.good hq (by simpa using ho) (fun _ => ?_)
          rw [hkf]; exact (forcedIn_some hd.pick hf).2
        · simp at ho
      · rename_i hf
        simp only [Bool.and_eq_true, Bool.not_eq_true'] at ho
        exact hs.good hq ho.2 (fun ha => absurd ha (forcedIn_none hf))
    generalize d.keyOptions ps.1 ps.2 q = o at *
    obtain ⟨o1, o2⟩ := o
    constructor
    · intro t ht
      obtain ⟨tested, hx⟩ := keepFits_mem hch t ht
      cases o1 <;> cases o2 <;> simp only [chargeKey, Option.some.injEq, Prod.mk.injEq] at hx <;>
        first
        | (obtain ⟨-, rfl⟩ := hx
           first
           | exact (hs.copy.addKtm _).addKtm _
           | exact hs.addKtm _)
        | cases hx
    · intro t ht
      obtain ⟨tested, hx⟩ := keepFits_mem hke t ht
      cases o1 <;> cases o2 <;>
        simp only [chargeKey, Option.map_some, Option.map_none, Option.some.injEq, Prod.mk.injEq] at hx <;>
        first
        | (obtain ⟨-, rfl⟩ := hx
           first
           | exact hkeep rfl
           | exact (hkeep rfl).congr (fun _ hg => .ktm _ _ hg) rfl rfl rfl rfl)
        | cases hx

theorem keyTransition_good (hd : OK d) {s t : State κ H P} {key : Int} {lp : κ} (hs : Cand d s)
    {q : Node κ H P} {rest : List (Node κ H P)} (hq : s.prev = q :: rest)
    (ht : s.keyTransition d.labels d.pitchType key lp = .ok (some t))
    (hk : ∀ f, d.forcedIn d.forcedKeys q.changeIndex s.node.changeIndex = some f → key = f) :
    Good d t := by
  obtain ⟨⟨g, hg⟩, q', rest', hp, hc, hseg, -⟩ := hs
  rw [hq] at hp
  injection hp with hp1 hp2
  subst hp1; subst hp2
  have hreach := Reach.key s t _ _ hg ht
  obtain ⟨c, root, ct, inv, bass, tonic, mode, p, ps, hcc, h1, h2, h3, h4, h5, hpp, rfl⟩ :=
    keyTransition_some ht
  refine ⟨⟨g, hreach⟩, ?_⟩
  rw [hq] at hpp ⊢
  refine ⟨⟨hc.congr rfl rfl rfl rfl, ?_, c, hcc, root, ct, inv, bass, tonic, mode, h1, h2, h3, h4, h5⟩,
    hseg⟩
  intro ha
  cases hf : d.forcedIn d.forcedKeys q.changeIndex s.node.changeIndex with
  | none => exact absurd ha (forcedIn_none hf)
  | some f =>
    have := hk f hf
    subst this
    exact (forcedIn_some hd.pick hf).2

theorem keyLoop_good (hd : OK d) {s : State κ H P} (hs : Cand d s)
    {q : Node κ H P} {rest : List (Node κ H P)} (hq : s.prev = q :: rest) {o : KsmOutput κ H} {len : Int}
    {rels : List Int} {room : Nat} {out : List (State κ H P)}
    (h : d.keyLoop (d.forcedIn d.forcedKeys q.changeIndex s.node.changeIndex) s o len rels room = .ok out) :
    ∀ t ∈ out, Good d t := by
  generalize hF : d.forcedIn d.forcedKeys q.changeIndex s.node.changeIndex = F at h
  induction rels generalizing out room with
  | nil =>
    simp only [keyLoop, Except.ok.injEq] at h
    subst h; simp
  | cons rel rels ih =>
    simp only [keyLoop, Bind.bind] at h
    obtain ⟨target, htar, h⟩ := bind_ok h
    cases target with
    | none => exact ih h
    | some key =>
      simp only at h
      split at h
      · exact ih h
      · rename_i hskip
        obtain ⟨lp, -, h⟩ := bind_ok h
        obtain ⟨new, hnew, h⟩ := bind_ok h
        cases new with
        | none =>
          simp only [afterKey] at h
          split at h
          · injection h with h; subst h; simp
          · exact ih h
        | some t =>
          have hgood : Good d t := by
            refine keyTransition_good hd hs hq hnew ?_
            intro f hf
            rw [hF] at hf
            subst hf
            simp only [skipKey, Option.isSome_some, Bool.true_and, Bool.or_eq_true,
              decide_eq_true_eq, not_or] at hskip
            have := Decidable.not_not.mp hskip.1
            injection this with this
            exact this.symm
          simp only [afterKey] at h
          split at h
          · injection h with h; subst h
            intro x hx
            simp only [List.mem_singleton] at hx
            subst hx; exact hgood
          · obtain ⟨l, hl, h⟩ := map_ok h
            subst h
            intro x hx
            rcases List.mem_cons.mp hx with rfl | hx
            · exact hgood
            · exact ih hl x hx

theorem keyChanges_good (hd : OK d) {s : State κ H P} (hs : Cand d s) {out : List (State κ H P)}
    (h : d.keyChanges s = .ok out) : ∀ t ∈ out, Good d t := by
  simp only [keyChanges, Bind.bind] at h
  obtain ⟨o, -, h⟩ := bind_ok h
  have hs' : Cand d (setKsm s o) := by
    refine hs.congr (fun g hg => ?_) rfl rfl rfl rfl rfl
    exact Reach.hidden s s.node.csmHidden s.node.ktmHidden (some o.hidden) s.node.csmPrior hg
  cases hq : (setKsm s o).prev with
  | nil => rw [hq] at h; cases h
  | cons q rest =>
    rw [hq] at h
    exact keyLoop_good hd hs' hq h

theorem runHidden_good {s t : State κ H P} (hs : Good d s) (h : d.runHidden s = .ok t) : Good d t := by
  simp only [runHidden, Bind.bind, runKtm] at h
  obtain ⟨ps, hps, h⟩ := bind_ok h
  obtain ⟨ph, -, hps⟩ := map_ok hps
  obtain ⟨o, -, h⟩ := bind_ok h
  injection h with h
  subst h; subst hps
  refine hs.congr (fun g hg => ?_) rfl rfl rfl rfl
  exact Reach.hidden s s.node.csmHidden (some ph.2) (some o.hidden) s.node.csmPrior hg

theorem runCsm_good {s t : State κ H P} (hs : Good d s) (h : d.runCsm s = .ok t) :
    Good d t ∧ t.node.changeIndex = s.node.changeIndex := by
  simp only [runCsm] at h
  obtain ⟨ph, -, h⟩ := map_ok h
  subst h
  refine ⟨hs.congr (fun g hg => ?_) rfl rfl rfl rfl, rfl⟩
  exact Reach.hidden s (some ph.2) s.node.ktmHidden s.node.ksmHidden (some ph.1) hg

/-- Every state in a beam is good and ends where its beam is. -/
def BeamsOK (d : SearchData κ ρ H P) (law : Lawful ops) (st : List β × Nat) : Prop :=
  ∀ (i : Nat) b, st.1[i]? = some b → ∀ x, law.mem b x → Good d x.2 ∧ x.2.node.changeIndex = i

theorem addState_ok {law : Lawful ops} {st st' : List β × Nat} {s : State κ H P}
    (hst : BeamsOK d law st) (hs : Good d s) (h : addState ops st s = .ok st') : BeamsOK d law st' := by
  simp only [addState, Bind.bind] at h
  obtain ⟨b, hb, h⟩ := bind_ok h
  obtain ⟨⟨r, b'⟩, hadd, h⟩ := bind_ok h
  simp only [Except.ok.injEq] at h
  subst h
  have hb' := pyGet_nonneg _ _ _ (Int.natCast_nonneg _) hb
  simp only [Int.toNat_natCast] at hb'
  intro i bi hbi x hx
  simp only [List.getElem?_set] at hbi
  split at hbi
  · rename_i hii
    split at hbi
    · injection hbi with hbi
      subst hbi
      rcases law.add _ _ _ _ _ hadd x hx with rfl | hx
      · exact ⟨hs, hii⟩
      · exact hii ▸ hst _ b hb' x hx
    · cases hbi
  · exact hst i bi hbi x hx

theorem addKept_ok {law : Lawful ops} {st st' : List β × Nat} {s : State κ H P}
    (hst : BeamsOK d law st) (hs : Good d s) (h : d.addKept ops st s = .ok st') : BeamsOK d law st' := by
  simp only [addKept, Bind.bind] at h
  obtain ⟨c, -, h⟩ := bind_ok h
  exact addState_ok hst (hs.congr (fun _ hg => .csm s c hg) rfl rfl rfl rfl) h

theorem step_ok (hd : OK d) {law : Lawful ops} {st st' : List β × Nat} {start : Nat}
    (hst : BeamsOK d law st) (h : d.step ops st start = .ok st') : BeamsOK d law st' := by
  simp only [step, Bind.bind] at h
  obtain ⟨b, hb, h⟩ := bind_ok h
  have hb' := pyGet_nonneg _ _ _ (Int.natCast_nonneg _) hb
  simp only [Int.toNat_natCast] at hb'
  split at h
  · injection h with h
    subst h; exact hst
  · simp only [stepBody, Bind.bind] at h
    obtain ⟨objects, ho, h⟩ := bind_ok h
    obtain ⟨states, hstates, h⟩ := bind_ok h
    obtain ⟨toCheck, hcheck, h⟩ := bind_ok h
    obtain ⟨probs, hprobs, h⟩ := bind_ok h
    obtain ⟨branched, hbr, h⟩ := bind_ok h
    obtain ⟨changed, hchg, h⟩ := bind_ok h
    obtain ⟨changed2, hchg2, h⟩ := bind_ok h
    obtain ⟨st1, hst1, h⟩ := bind_ok h
    obtain ⟨st2, hst2, h⟩ := bind_ok h
    obtain ⟨b2, hb2, h⟩ := bind_ok h
    injection h with h
    subst h
    have h0 : ∀ s ∈ objects.map (·.2), Good d s ∧ s.node.changeIndex = start := by
      intro s hs
      obtain ⟨x, hx, rfl⟩ := List.mem_map.mp hs
      exact hst start b hb' x (law.states b objects ho x hx)
    have h1 : ∀ s ∈ states, Good d s ∧ s.node.changeIndex = start := by
      simp only [csmStates] at hstates
      split at hstates
      · injection hstates with hstates
        subst hstates; exact h0
      · refine mapM_all hstates h0 ?_
        intro a b ⟨ha, hi⟩ hab
        have := runCsm_good ha hab
        exact ⟨this.1, this.2.trans hi⟩
    have h2 := branchAll_cand hd h1 hcheck
    have h3 : ∀ ps ∈ probs, Cand d ps.2 := mapM_all hprobs h2 (fun a b ha hab => runKtm_cand ha hab)
    have h4 : ∀ o ∈ branched, (∀ t ∈ o.1, Cand d t) ∧ (∀ t ∈ o.2, Good d t) :=
      mapM_all hbr h3 (fun a b ha hab => keyBranch_ok hd ha hab)
    have h5 : ∀ l ∈ changed, ∀ t ∈ l, Good d t := by
      refine mapM_all hchg (P := Cand d) ?_ (fun a b ha hab => keyChanges_good hd ha hab)
      intro s hs
      obtain ⟨l, hl, hsl⟩ := List.mem_flatten.mp hs
      obtain ⟨o, ho, rfl⟩ := List.mem_map.mp hl
      exact (h4 o ho).1 s hsl
    have h6 : ∀ t ∈ changed2, Good d t := by
      refine mapM_all hchg2 (P := Good d) ?_ (fun a b ha hab => runHidden_good ha hab)
      intro s hs
      obtain ⟨l, hl, hsl⟩ := List.mem_flatten.mp hs
      exact h5 l hl s hsl
    have h7 : BeamsOK d law st1 :=
      foldlM_inv hst1 hst h6 (fun s a s' hs ha h => addState_ok hs ha h)
    have h8 : BeamsOK d law st2 := by
      refine foldlM_inv hst2 (P := Good d) h7 ?_ (fun s a s' hs ha h => addKept_ok hs ha h)
      intro s hs
      obtain ⟨l, hl, hsl⟩ := List.mem_flatten.mp hs
      obtain ⟨o, ho, rfl⟩ := List.mem_map.mp hl
      exact (h4 o ho).2 s hsl
    intro i bi hbi x hx
    simp only [List.getElem?_set] at hbi
    split at hbi
    · split at hbi
      · injection hbi with hbi
        subst hbi
        exact absurd hx (law.empty _ _)
      · cases hbi
    · exact h8 i bi hbi x hx

theorem initial_good (key : Int) (prior : Option P) :
    Good d (State.initial key d.hashLength prior : State κ H P) :=
  ⟨⟨key, .init prior⟩, trivial⟩

theorem initialBeams_ok {law : Lawful ops} {st : List β × Nat} (h : d.initialBeams ops = .ok st) :
    BeamsOK d law st := by
  simp only [initialBeams, Bind.bind] at h
  obtain ⟨keys, -, h⟩ := bind_ok h
  obtain ⟨⟨b, next⟩, hb, h⟩ := bind_ok h
  injection h with h
  subst h
  have hI : ∀ x, law.mem b x → Good d x.2 ∧ x.2.node.changeIndex = 0 := by
    refine foldlM_inv hb (I := fun st => ∀ x, law.mem st.1 x → Good d x.2 ∧ x.2.node.changeIndex = 0)
      (P := fun _ => True) ?_ (fun _ _ => trivial) ?_
    · intro x hx; exact absurd hx (law.new _ _)
    · intro s key s' hs _ h
      simp only [addInitial, Bind.bind] at h
      obtain ⟨tm, -, h⟩ := bind_ok h
      obtain ⟨⟨r, b'⟩, hadd, h⟩ := bind_ok h
      injection h with h
      subst h
      intro x hx
      rcases law.add _ _ _ _ _ hadd x hx with rfl | hx
      · exact ⟨initial_good _ _, rfl⟩
      · exact hs x hx
  intro i bi hbi x hx
  cases i with
  | zero =>
    simp only [List.getElem?_cons_zero, Option.some.injEq] at hbi
    subst hbi; exact hI x hx
  | succ i =>
    simp only [List.getElem?_cons_succ, List.getElem?_replicate] at hbi
    split at hbi
    · injection hbi with hbi
      subst hbi
      exact absurd hx (law.new _ _)
    · cases hbi

theorem searchWith_ok (hd : OK d) (law : Lawful ops) {s : State κ H P}
    (h : d.searchWith ops = .ok (some s)) : Good d s ∧ s.node.changeIndex = d.numInputs := by
  simp only [searchWith, Bind.bind] at h
  obtain ⟨st, hst, h⟩ := bind_ok h
  obtain ⟨st1, hst1, h⟩ := bind_ok h
  obtain ⟨b, hb, h⟩ := bind_ok h
  obtain ⟨top, htop, h⟩ := bind_ok h
  injection h with h
  cases top with
  | none => cases h
  | some x =>
    simp only [Option.map_some, Option.some.injEq] at h
    subst h
    have hb' := pyGet_nonneg _ _ _ (Int.natCast_nonneg _) hb
    simp only [Int.toNat_natCast] at hb'
    have : BeamsOK d law st1 := foldlM_inv hst1 (I := BeamsOK d law) (P := fun _ => True)
      (initialBeams_ok hst) (fun _ _ => trivial) (fun s a s' hs _ h => step_ok hd hs h)
    exact this _ b hb' x (law.top b x htop)

theorem search_ok [DecidableEq κ] [DecidableEq H] [DecidableEq P] (hd : OK d) {s : State κ H P}
    (h : d.search = .ok (some s)) : Good d s ∧ s.node.changeIndex = d.numInputs := by
  simp only [search] at h
  split at h
  · exact searchWith_ok hd (plainLawful _) h
  · exact searchWith_ok hd (hashedLawful _ _) h

end

end Verif.SearchData
