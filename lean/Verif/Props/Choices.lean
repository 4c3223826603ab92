import Verif.Props.Classified
import Verif.Props.SearchBranch

/-!
# C168 and C169: the choices of the search, in its result

C168 (continued): the first stretch of a chord may take the second class of a classifier that branches on one
chord, if the first class is the chord before; later stretches may not.
C169: a key of the result that is not the one before it, nor forced, is among the keys that the key sequence
model finds likeliest, for the chords up to there.
-/

set_option linter.unusedSectionVars false

namespace Verif.Choices
open Verif State Forced SearchData Joint Classify Thresholds

section
variable {κ ρ H P : Type} [Add κ] [Sub κ] [Zero κ]

/-- Range `r` from `a` was offered chord `c`, the chord before being `prev`. -/
def Offered (d : SearchData κ ρ H P) (prev : Option Int) (c : Int) (a : Nat) (r : RangeData κ) : Prop :=
  (a, r) ∈ d.ranges ∧ ∃ ids, d.branchIds a prev r = .ok ids ∧ c ∈ ids

/-- The ranges that a chord covers, each of which was offered the chord. -/
inductive Picked (d : SearchData κ ρ H P) (prev : Option Int) (c : Int) : Nat → Nat → Prop
  | one {a : Nat} {r : RangeData κ} : Offered d prev c a r → Picked d prev c a r.stop
  | more {a b : Nat} {r : RangeData κ} : Picked d prev c a b → Offered d (some c) c b r →
      Picked d prev c a r.stop

/-- A chain of nodes, newest first. -/
def Picks (d : SearchData κ ρ H P) : List (Node κ H P) → Prop
  | n :: q :: rest => (∃ c, n.chord = some c ∧ Picked d q.chord c q.changeIndex n.changeIndex) ∧ Picks d (q :: rest)
  | [n] => n.chord = none
  | [] => True

variable {d : SearchData κ ρ H P}

theorem Picks.congr {n n' : Node κ H P} {rest : List (Node κ H P)} (h : Picks d (n :: rest))
    (h1 : n'.chord = n.chord) (h3 : n'.changeIndex = n.changeIndex) : Picks d (n' :: rest) := by
  cases rest with
  | nil => exact h1.trans h
  | cons q rest =>
    obtain ⟨⟨c, a, w⟩, hs⟩ := h
    exact ⟨⟨c, h1.trans a, by rw [h3]; exact w⟩, hs⟩

/-- Each chord was offered to the ranges it covers. -/
def picks (d : SearchData κ ρ H P) : PhaseInv d where
  beam s := Picks d (s.node :: s.prev)
  ran s := Picks d (s.node :: s.prev)
  cand s := Picks d (s.node :: s.prev)
  tried ps := Picks d (ps.2.node :: ps.2.prev)
  changing s := Picks d (s.node :: s.prev)
  keeping s := Picks d (s.node :: s.prev)
  moved s := Picks d (s.node :: s.prev)
  init key tonic mode _ _ _ _ := rfl
  first s _ _ h := h
  csm s t _ _ h ht := by
    simp only [runCsm] at ht
    obtain ⟨ph, _, rfl⟩ := map_ok ht
    exact h.congr rfl rfl
  chord s t c r lp hs h hm hlp hc ht hids := by
    obtain ⟨root, ct, inv, bass, k, h1, h2, h3, h4, h5, rfl⟩ := chordTransition_some ht
    exact ⟨⟨c, rfl, .one ⟨hm, hids⟩⟩, h.congr rfl rfl⟩
  rejoin s t c r lp hs h hm hlp hc ht hids := by
    obtain ⟨c', root, ct, inv, bass, tonic, mode, p, ps, hcc, h1, h2, hp, h3, rfl⟩ := rejoin_ok ht
    show Picks d (_ :: s.prev)
    rw [hp] at h ⊢
    obtain ⟨⟨c0, e1, e2⟩, hrest⟩ := h
    have e : some c = some c0 := hc.trans e1
    injection e with e
    subst e
    rw [← hc] at hids
    exact ⟨⟨c, e1, .more e2 ⟨hm, hids⟩⟩, hrest⟩
  ktm s ps hs h ht := by
    simp only [runKtm] at ht
    obtain ⟨ph, hph, rfl⟩ := map_ok ht
    exact h.congr rfl rfl
  branch ps q rest hs h hq :=
    chargeKey_all (T := fun s : State κ H P => Picks d (s.node :: s.prev)) (fun s lp h => h.congr rfl rfl)
      (fun s h => h.congr rfl rfl) h _ _ _
  keep s cost hs h hcost := h.congr rfl rfl
  key s t o q rest rel key lp hs h hks hq htar hne hlp ht _ := by
    obtain ⟨c', root, ct, inv, bass, tonic, mode, p', ps', hcc, h1, h2, h3, h4, h5, hpp, rfl⟩ :=
      keyTransition_some ht
    exact h.congr rfl rfl
  hidden s t hs h ht := by
    simp only [runHidden, runKtm, Bind.bind] at ht
    obtain ⟨ps, hps, ht⟩ := bind_ok ht
    obtain ⟨o, _, ht⟩ := bind_ok ht
    obtain ⟨ph, _, rfl⟩ := map_ok hps
    injection ht with ht
    subst ht
    exact h.congr rfl rfl

theorem Picks.drop {chain : List (Node κ H P)} (h : Picks d chain) (k : Nat) : Picks d (chain.drop k) := by
  induction k generalizing chain with
  | zero => exact h
  | succ k ih =>
    cases chain with
    | nil => simpa using h
    | cons n chain =>
      rw [List.drop_succ_cons]
      refine ih ?_
      cases chain with
      | nil => trivial
      | cons q rest => exact h.2

/-- The place of an offered chord among the classes, where none is forced. -/
theorem offered_rank {prev : Option Int} {c : Int} {a : Nat} {r : RangeData κ} {ids : List Int}
    (hf : d.forcedIn d.forcedChords a r.stop = none) (h : d.branchIds a prev r = .ok ids) (hc : c ∈ ids) :
    ∃ p, r.order[p]? = some c ∧ (p < r.maxIndex ∨ p = 1 ∧ r.maxIndex = 1 ∧ r.order[0]? = prev) := by
  have at' : ∀ n, c ∈ r.order.take n → ∃ p, p < n ∧ r.order[p]? = some c := by
    intro n hn
    obtain ⟨p, hp⟩ := List.mem_iff_getElem?.1 hn
    have hlt := (List.getElem?_eq_some_iff.1 hp).1
    rw [List.length_take] at hlt
    rw [List.getElem?_take_of_lt (by omega)] at hp
    exact ⟨p, by omega, hp⟩
  simp only [branchIds, hf] at h
  split at h
  · rename_i h1
    obtain ⟨first, hfirst, h⟩ := map_ok h
    have hfirst := pyGet_nonneg _ _ _ (Int.le_refl 0) hfirst
    subst h
    split at hc
    · rename_i hp
      obtain ⟨p, hlt, hpc⟩ := at' 2 hc
      refine ⟨p, hpc, ?_⟩
      by_cases h0 : p = 0
      · left; omega
      · exact .inr ⟨by omega, h1, by rw [← hp]; exact hfirst⟩
    · obtain ⟨p, hlt, hpc⟩ := at' 1 hc
      exact ⟨p, hpc, .inl (by omega)⟩
  · injection h with h
    subst h
    obtain ⟨p, hlt, hpc⟩ := at' _ hc
    exact ⟨p, hpc, .inl hlt⟩

/-! ### Keys -/

/-- Relative key `rel` takes a state to another key. -/
def Leads (d : SearchData κ ρ H P) (s : State κ H P) (o : KsmOutput κ H) (len : Int) (rel : Int) : Prop :=
  ∃ t, Moves d s o len rel t

/-- A new key comes from a relative key with fewer than `room` before it that lead anywhere. -/
theorem keyLoop_rank {s : State κ H P} {o : KsmOutput κ H} {len : Int} {rels : List Int} {room : Nat}
    {out : List (State κ H P)} (h : d.keyLoop none s o len rels room = .ok out) (t : State κ H P) (ht : t ∈ out) :
    ∃ before rel after, rels = before ++ rel :: after ∧ Moves d s o len rel t ∧
      ∀ l : List Int, l.Sublist before → (∀ x ∈ l, Leads d s o len x) → l.length < max 1 room := by
  induction rels generalizing out room with
  | nil =>
    simp only [keyLoop, Except.ok.injEq] at h
    subst h; simp at ht
  | cons rel rels ih =>
    have skip : ∀ {out'}, d.keyLoop none s o len rels room = .ok out' → t ∈ out' → ¬ Leads d s o len rel →
        ∃ before rel' after, rel :: rels = before ++ rel' :: after ∧ Moves d s o len rel' t ∧
          ∀ l : List Int, l.Sublist before → (∀ x ∈ l, Leads d s o len x) → l.length < max 1 room := by
      intro out' h' ht' hno
      obtain ⟨before, rel', after, e, hm, hl⟩ := ih h' ht'
      refine ⟨rel :: before, rel', after, by rw [e]; rfl, hm, ?_⟩
      intro l hs hall
      rcases List.sublist_cons_iff.1 hs with hs | ⟨l', rfl, -⟩
      · exact hl l hs hall
      · exact absurd (hall rel (by simp)) hno
    simp only [keyLoop, Bind.bind] at h
    obtain ⟨target, htar, h⟩ := bind_ok h
    cases target with
    | none =>
      refine skip h ht ?_
      rintro ⟨u, key, lp, h1, -⟩
      rw [htar] at h1
      cases h1
    | some key =>
      simp only at h
      split at h
      · rename_i hskip
        refine skip h ht ?_
        rintro ⟨u, key', lp, h1, h2, -⟩
        rw [htar] at h1
        have h1 := Option.some.inj (Except.ok.inj h1)
        subst h1
        simp [skipKey] at hskip
        exact h2 hskip
      · rename_i hskip
        obtain ⟨lp, hlp, h⟩ := bind_ok h
        obtain ⟨new, hnew, h⟩ := bind_ok h
        have hne : key ≠ s.node.key := by
          intro he
          simp [skipKey, he] at hskip
        cases new with
        | none =>
          simp only [afterKey] at h
          rw [if_neg (by simp)] at h
          refine skip h ht ?_
          rintro ⟨u, key', lp', h1, h2, h3, h4⟩
          rw [htar] at h1
          have h1 := Option.some.inj (Except.ok.inj h1)
          subst h1
          rw [hlp] at h3
          have h3 := Except.ok.inj h3
          subst h3
          rw [hnew] at h4
          cases h4
        | some t0 =>
          have hm0 : Moves d s o len rel t0 := ⟨key, lp, htar, hne, hlp, hnew⟩
          have first : ∀ {x}, x = t0 → ∃ before rel' after, rel :: rels = before ++ rel' :: after ∧
              Moves d s o len rel' x ∧
              ∀ l : List Int, l.Sublist before → (∀ y ∈ l, Leads d s o len y) → l.length < max 1 room := by
            rintro x rfl
            refine ⟨[], rel, rels, rfl, hm0, ?_⟩
            intro l hl _
            rw [List.sublist_nil.1 hl]
            simp
          simp only [afterKey] at h
          split at h
          · injection h with h; subst h
            exact first (List.mem_singleton.1 ht)
          · rename_i hroom
            obtain ⟨l, hl, h⟩ := map_ok h
            subst h
            rcases List.mem_cons.mp ht with hx | hx
            · exact first hx
            · obtain ⟨before, rel', after, e, hm, hsub⟩ := ih hl hx
              refine ⟨rel :: before, rel', after, by rw [e]; rfl, hm, ?_⟩
              have hroom : 1 < room := by
                by_contra hn
                exact hroom (.inl (by omega))
              intro l hs hall
              rcases List.sublist_cons_iff.1 hs with hs | ⟨l', rfl, hs'⟩
              · have := hsub l hs hall
                omega
              · have := hsub l' hs' (fun x hx => hall x (by simp [hx]))
                rw [List.length_cons]
                omega

/-- What the search knew when node `n` took a new key after node `q` and those before it: `t` is the state then,
still in the key of `q`, and `o` the output of the key sequence model for it. -/
structure Moment (d : SearchData κ ρ H P) (n q : Node κ H P) (rest : List (Node κ H P)) (t : State κ H P)
    (o : KsmOutput κ H) : Prop where
  prev : t.prev = q :: rest
  chord : t.node.chord = n.chord
  stop : t.node.changeIndex = n.changeIndex
  key : t.node.key = q.key
  ksm : d.ksm t = .ok o

/-- The key of node `n` was chosen for it at some moment. -/
def Chosen (d : SearchData κ ρ H P) (n q : Node κ H P) (rest : List (Node κ H P)) : Prop :=
  ∃ t o, Cand d t ∧ Moment d n q rest t o ∧ ∃ out u, d.keyChanges t = .ok out ∧ u ∈ out ∧ u.node.key = n.key

/-- A chain of nodes, newest first. -/
def KeyChain (d : SearchData κ ρ H P) : List (Node κ H P) → Prop
  | n :: q :: rest => (n.key = q.key ∨ Chosen d n q rest) ∧ KeyChain d (q :: rest)
  | _ => True

theorem KeyChain.congr {n n' : Node κ H P} {rest : List (Node κ H P)} (h : KeyChain d (n :: rest))
    (h1 : n'.chord = n.chord) (h2 : n'.key = n.key) (h3 : n'.changeIndex = n.changeIndex) :
    KeyChain d (n' :: rest) := by
  cases rest with
  | nil => trivial
  | cons q rest =>
    obtain ⟨h, hs⟩ := h
    refine ⟨h.imp h2.trans ?_, hs⟩
    rintro ⟨t, o, hcand, m, out, u, e1, e2, e3⟩
    exact ⟨t, o, hcand, ⟨m.prev, m.chord.trans h1.symm, m.stop.trans h3.symm, m.key, m.ksm⟩, out, u, e1, e2,
      e3.trans h2.symm⟩

/-- A new node, still in the key of the one before. -/
def Fresh (d : SearchData κ ρ H P) (s : State κ H P) : Prop :=
  ∃ q rest, s.prev = q :: rest ∧ KeyChain d (q :: rest) ∧ s.node.key = q.key

/-- Each new key was chosen. -/
def keyed (d : SearchData κ ρ H P) : PhaseInv d where
  beam s := KeyChain d (s.node :: s.prev)
  ran s := KeyChain d (s.node :: s.prev)
  cand s := Fresh d s
  tried ps := Fresh d ps.2
  changing s := Fresh d s
  keeping s := Fresh d s
  moved s := KeyChain d (s.node :: s.prev)
  init key tonic mode _ _ _ _ := trivial
  first s _ _ h := h
  csm s t _ _ h ht := by
    simp only [runCsm] at ht
    obtain ⟨ph, _, rfl⟩ := map_ok ht
    exact h.congr rfl rfl rfl
  chord s t c r lp hs h hm hlp hc ht _ := by
    obtain ⟨root, ct, inv, bass, k, h1, h2, h3, h4, h5, rfl⟩ := chordTransition_some ht
    exact ⟨{ s.node with keyObj := some k }, s.prev, rfl, h.congr rfl rfl rfl, rfl⟩
  rejoin s t c r lp hs h hm hlp hc ht _ := by
    obtain ⟨c', root, ct, inv, bass, tonic, mode, p, ps, hcc, h1, h2, hp, h3, rfl⟩ := rejoin_ok ht
    rw [hp] at h
    exact ⟨p, ps, hp, h.2, rfl⟩
  ktm s ps hs h ht := by
    simp only [runKtm] at ht
    obtain ⟨ph, hph, rfl⟩ := map_ok ht
    exact h
  branch ps q rest hs h hq :=
    chargeKey_all (T := Fresh d) (fun s lp h => h) (fun s h => h) h _ _ _
  keep s cost hs h hcost := by
    obtain ⟨q, rest, b1, b2, b3⟩ := h
    show KeyChain d ((s.addCsm cost).node :: s.prev)
    rw [b1]
    exact ⟨.inl b3, b2⟩
  key s t o q rest rel key lp hs h hks hq htar hne hlp ht hout := by
    obtain ⟨q', rest', b1, b2, b3⟩ := h
    rw [hq] at b1
    injection b1 with e1 e2
    subst e1; subst e2
    obtain ⟨out, ho, hmem⟩ := hout
    obtain ⟨c', root, ct, inv, bass, tonic, mode, p', ps', hcc, h1, h2, h3, h4, h5, hpp, rfl⟩ :=
      keyTransition_some ht
    have hpp' : (setKsm s o).prev = q :: rest := hq
    rw [hpp']
    exact ⟨.inr ⟨s, o, hs, ⟨hq, rfl, rfl, b3, hks⟩, out, _, ho, hmem, rfl⟩, b2⟩
  hidden s t hs h ht := by
    simp only [runHidden, runKtm, Bind.bind] at ht
    obtain ⟨ps, hps, ht⟩ := bind_ok ht
    obtain ⟨o, _, ht⟩ := bind_ok ht
    obtain ⟨ph, _, rfl⟩ := map_ok hps
    injection ht with ht
    subst ht
    exact h.congr rfl rfl rfl

theorem KeyChain.drop {chain : List (Node κ H P)} (h : KeyChain d chain) (k : Nat) : KeyChain d (chain.drop k) := by
  induction k generalizing chain with
  | zero => exact h
  | succ k ih =>
    cases chain with
    | nil => simpa using h
    | cons n chain =>
      rw [List.drop_succ_cons]
      refine ih ?_
      cases chain with
      | nil => trivial
      | cons q rest => exact h.2

variable [DecidableEq κ] [DecidableEq H] [DecidableEq P]

/-- C169: a key of the result that differs from the one before, where none is forced, was reached by a relative key
that the key sequence model put among the first: of those before it fewer than the number to branch on lead
anywhere. -/
theorem C169_keys (hd : OK d) (s : State κ H P) (h : d.search = .ok (some s)) (k : Nat) (n q : Node κ H P)
    (rest : List (Node κ H P)) (hk : (s.node :: s.prev).drop k = n :: q :: rest) (hne : n.key ≠ q.key)
    (hf : d.forcedIn d.forcedKeys q.changeIndex n.changeIndex = none) :
    ∃ t o before rel after, Moment d n q rest t o ∧ o.order = before ++ rel :: after ∧
      (∃ mode i tonic was, pyGet d.relativeKeys rel = .ok (mode, i) ∧ pyGet d.labels.key q.key = .ok (tonic, was) ∧
        n.key = match d.pitchType with
          | .midi => 12 * mode.value + (tonic + i) % 12
          | .tpc => 35 * mode.value + (tonic + i)) ∧
      ∀ l : List Int, l.Sublist before →
        (∀ x ∈ l, Leads d (setKsm t o) o ((n.changeIndex : Int) - q.changeIndex) x) → l.length < max 1 o.maxIndex := by
  have h1 : KeyChain d (s.node :: s.prev) := search_inv (keyed d) hd h
  have h2 := h1.drop k
  rw [hk] at h2
  rcases h2.1 with h2 | ⟨t, o, hcand, m, out, u, e1, e2, e3⟩
  · exact absurd h2 hne
  · simp only [keyChanges, Bind.bind] at e1
    obtain ⟨o', ho', e1⟩ := bind_ok e1
    rw [m.ksm] at ho'
    injection ho' with ho'
    subst ho'
    have hq' : (setKsm t o).prev = q :: rest := m.prev
    simp only [hq'] at e1
    rw [m.stop, hf] at e1
    obtain ⟨before, rel, after, r1, ⟨key, lp, r2, r3, r4, r5⟩, r6⟩ := keyLoop_rank e1 u e2
    obtain ⟨c', root, ct, inv, bass, tonic, mode, p', ps', hcc, h1, h2, h3, h4, h5, hpp, rfl⟩ :=
      keyTransition_some r5
    refine ⟨t, o, before, rel, after, m, r1, ?_, r6⟩
    have e3 : key = n.key := e3
    rw [← e3]
    obtain ⟨⟨g, hg⟩, -⟩ : Cand d (setKsm t o) := by
      refine hcand.congr (fun g hg => ?_) rfl rfl rfl rfl rfl
      exact Reach.hidden t t.node.csmHidden t.node.ktmHidden (some o.hidden) t.node.csmPrior hg
    simp only [targetKey, Bind.bind] at r2
    obtain ⟨⟨md, i⟩, t1, r2⟩ := bind_ok r2
    obtain ⟨k, t2, r2⟩ := bind_ok r2
    have hkey := (getKeyAux_ok d.labels g d.hashLength _ _ (hg.chain hd.hash) k t2).1
    rw [show (setKsm t o).node.key = q.key from m.key] at hkey
    have h35 : NUM_PITCHES .tpc = 35 := rfl
    have h12 : NUM_PITCHES .midi = 12 := rfl
    refine ⟨md, i, k.tonic, k.mode, t1, hkey, ?_⟩
    cases hp : d.pitchType with
    | midi =>
      rw [hp] at r2
      simp only [keyOneHotIndex, h12] at r2
      rw [if_neg (by omega)] at r2
      exact (Option.some.inj (Except.ok.inj r2)).symm
    | tpc =>
      rw [hp] at r2
      simp only [keyOneHotIndex, h35] at r2
      split at r2
      · cases r2
      · exact (Option.some.inj (Except.ok.inj r2)).symm

end

section
variable {π κ δ ρ H P τ : Type} [LinearOrder π] [Zero π] [One π] [Add κ] [Sub κ] [Zero κ] [DecidableEq κ]
  [DecidableEq H] [DecidableEq P] [AddCommMonoid δ] [LinearOrder δ] [LE τ] [LT τ] [DecidableLE τ]
  [DecidableLT τ]

/-- The notes from `x` up to `y` single out the chord `c`: it is forced on one of them, or none has a forced chord
and `c` is one of the classes that the classifier puts first; or the second after the chord `after`, if only one
is to be branched on and that one is `after` itself. -/
def Singled (m : Joint π κ δ ρ H P) (notes : List (τ × τ)) (chord : ForcedType) (after : Option Int) (c : Int)
    (x y : Nat) : Prop :=
  (∃ j, x ≤ j ∧ j < y ∧ labelAt chord j = some c) ∨
  (∀ j, x ≤ j → j < y → labelAt chord j = none) ∧
    ∃ priors, Says m notes x y priors ∧ ∃ p, (m.argsort priors)[p]? = some c ∧
      (p < m.branch priors ∨ p = 1 ∧ m.branch priors = 1 ∧ ∃ c', after = some c' ∧ (m.argsort priors)[0]? = some c')

theorem singled_of_offered {m : Joint π κ δ ρ H P} (hm : m.WF) {notes : List (τ × τ)} {dur : List δ}
    {chord key : ForcedType} {res : Option (State κ H P)} {rows : List (Nat × RangeData κ)} {cids kids : List Int}
    (hr : Run m notes.length dur chord key res rows cids kids)
    (hcl : ∀ a r, (a, r) ∈ rows → Classified m notes a r) {prev : Option Int} {c : Int} {x : Nat} {r : RangeData κ}
    (ho : Offered (m.searchData notes.length rows cids kids) prev c x r) :
    Singled m notes chord prev c x r.stop := by
  obtain ⟨hmem, ids, h1, h2⟩ := ho
  have hfit := branchIds_fits (d := m.searchData notes.length rows cids kids) hm.pick h1 c h2
  rcases justified_of_fits hr hcl hmem hfit with h | ⟨h, -⟩
  · exact .inl h
  · refine .inr ⟨h, ?_⟩
    have hn : (m.searchData notes.length rows cids kids).forcedIn
        (m.searchData notes.length rows cids kids).forcedChords x r.stop = none := by
      cases hf : (m.searchData notes.length rows cids kids).forcedIn
          (m.searchData notes.length rows cids kids).forcedChords x r.stop with
      | none => rfl
      | some f =>
        obtain ⟨-, j, j1, j2, j3, j4⟩ := forcedIn_some (d := m.searchData notes.length rows cids kids) hm.pick hf
        have j3 : cids[j]? = some f := j3
        have hle := (hr.row x r hmem).le
        rw [hr.chordIds, List.getElem?_map, List.getElem?_range (by omega)] at j3
        have j3 : (labelAt chord j).getD (-1) = f := Option.some.inj j3
        rw [h j j1 j2] at j3
        exact absurd j3.symm j4
    obtain ⟨p, p1, p2⟩ := offered_rank hn h1 h2
    obtain ⟨note, n1, n2, n3, n4⟩ := hcl x r hmem
    rw [n3, n4] at p2
    rw [n3] at p1
    refine ⟨r.priors, ⟨note, n1, n2⟩, p, p1, p2.imp id ?_⟩
    rintro ⟨q1, q2, q3⟩
    have hlt := (List.getElem?_eq_some_iff.1 p1).1
    refine ⟨q1, q2, (m.argsort r.priors)[0]'(by omega), ?_, List.getElem?_eq_getElem _⟩
    rw [← q3]
    exact List.getElem?_eq_getElem _

/-- C168: each chord of the analysis covers stretches of notes one after another; the first of them singles it out
after the chord before, and the others single it out by themselves. -/
theorem C168_first (m : Joint π κ δ ρ H P) (hm : m.WF) (notes : List (τ × τ)) (dur : List δ)
    (chord key : ForcedType) (hc : NonNeg chord) (hk : NonNeg key)
    (s : State κ H P) (h : m.getHarmony notes dur chord key = .ok (some s)) (k : Nat) (n q : Node κ H P)
    (rest : List (Node κ H P)) (hnq : (s.node :: s.prev).drop k = n :: q :: rest) :
    ∃ c pts, n.chord = some c ∧ Divides pts q.changeIndex n.changeIndex ∧
      ∀ i x y, pts[i]? = some x → pts[i + 1]? = some y →
        Singled m notes chord (if i = 0 then q.chord else none) c x y := by
  obtain ⟨rows, cids, kids, hr, hcl⟩ := run_classified m hm hc hk h
  have h1 : Picks (m.searchData notes.length rows cids kids) (s.node :: s.prev) :=
    search_inv (picks _) (hr.ok hm) hr.search
  have h2 := h1.drop k
  rw [hnq] at h2
  obtain ⟨⟨c, e1, e2⟩, -⟩ := h2
  refine ⟨c, ?_⟩
  suffices H : ∃ pts, Divides pts q.changeIndex n.changeIndex ∧
      ∀ i x y, pts[i]? = some x → pts[i + 1]? = some y →
        Singled m notes chord (if i = 0 then q.chord else none) c x y by
    obtain ⟨pts, H⟩ := H
    exact ⟨pts, e1, H⟩
  clear e1 hnq
  generalize n.changeIndex = e at e2
  induction e2 with
  | @one r ho =>
    have hlt := (hr.row _ _ ho.1).lt
    refine ⟨[q.changeIndex, r.stop], ⟨rfl, rfl, by simp [hlt], by simp⟩, ?_⟩
    intro k x y hx hy
    match k with
    | 0 =>
      simp at hx hy
      subst hx; subst hy
      exact singled_of_offered hm hr hcl ho
    | k + 1 => simp at hy
  | @more b r _ ho ih =>
    obtain ⟨pts, hd, hj⟩ := ih
    have := extend (Q := fun i => Singled m notes chord (if i = 0 then q.chord else none) c) hd (hr.row _ _ ho.1).lt hj
      (fun i hi => by
        rw [if_neg (by omega)]
        rcases singled_of_offered hm hr hcl ho with h | ⟨h, priors, hs, p, p1, p2⟩
        · exact .inl h
        · refine .inr ⟨h, priors, hs, ?_⟩
          rcases p2 with p2 | ⟨-, p3, c', p4, p5⟩
          · exact ⟨p, p1, .inl p2⟩
          · injection p4 with p4
            subst p4
            exact ⟨0, p5, .inl (by omega)⟩)
    exact ⟨_, this⟩

/-- C169: the same of the keys of an analysis of the whole piece. -/
theorem C169_harmony (m : Joint π κ δ ρ H P) (hm : m.WF) (notes : List (τ × τ)) (dur : List δ)
    (chord key : ForcedType) (hc : NonNeg chord) (hk : NonNeg key) (hfree : key.labels = [])
    (s : State κ H P) (h : m.getHarmony notes dur chord key = .ok (some s)) (k : Nat) (n q : Node κ H P)
    (rest : List (Node κ H P)) (hnq : (s.node :: s.prev).drop k = n :: q :: rest) (hne : n.key ≠ q.key) :
    ∃ (t : State κ H P) (o : KsmOutput κ H) (before : List Int) (rel : Int) (after : List Int),
      (t.prev = q :: rest ∧ t.node.chord = n.chord ∧ t.node.changeIndex = n.changeIndex ∧ t.node.key = q.key) ∧
      m.search.ksm t = .ok o ∧ o.order = before ++ rel :: after ∧
      (∃ mode i tonic was, pyGet m.search.relativeKeys rel = .ok (mode, i) ∧
        pyGet m.search.labels.key q.key = .ok (tonic, was) ∧
        n.key = match m.search.pitchType with
          | .midi => 12 * mode.value + (tonic + i) % 12
          | .tpc => 35 * mode.value + (tonic + i)) ∧
      ∀ l : List Int, l.Sublist before →
        (∀ x ∈ l, Leads m.search (setKsm t o) o ((n.changeIndex : Int) - q.changeIndex) x) →
        l.length < max 1 o.maxIndex := by
  obtain ⟨rows, cids, kids, hr, -⟩ := run_classified m hm hc hk h
  have hn : (m.searchData notes.length rows cids kids).forcedIn
      (m.searchData notes.length rows cids kids).forcedKeys q.changeIndex n.changeIndex = none := by
    cases hf : (m.searchData notes.length rows cids kids).forcedIn
        (m.searchData notes.length rows cids kids).forcedKeys q.changeIndex n.changeIndex with
    | none => rfl
    | some f =>
      obtain ⟨-, j, j1, j2, j3, j4⟩ := forcedIn_some (d := m.searchData notes.length rows cids kids) hm.pick hf
      have j3 : kids[j]? = some f := j3
      rw [hr.keyIds, List.getElem?_map] at j3
      obtain ⟨i, -, j3⟩ := Option.map_eq_some_iff.1 j3
      simp [labelAt, hfree] at j3
      exact absurd j3.symm j4
  obtain ⟨t, o, before, rel, after, mo, r1, r2, r3⟩ := C169_keys (hr.ok hm) s hr.search k n q rest hnq hne hn
  exact ⟨t, o, before, rel, after, ⟨mo.prev, mo.chord, mo.stop, mo.key⟩, mo.ksm, r1, r2, r3⟩

end

/-! ### Examples -/

/-- The hypotheses of `C168_first` hold, with a chord that is the second class. -/
example : ∃ s n q rest, (demoJoint (fun _ => 1 / 2) 1).getHarmony threeNotes [1, 1, 1] ⟨[1], [], [], 2⟩ (free 23) =
      .ok (some s) ∧ s.node :: s.prev = n :: q :: rest ∧ n.chord = some 0 ∧ q.chord = some 1 ∧
    ∃ pts, Divides pts q.changeIndex n.changeIndex ∧ ∀ i x y, pts[i]? = some x → pts[i + 1]? = some y →
      Singled (demoJoint (fun _ => 1 / 2) 1) threeNotes ⟨[1], [], [], 2⟩ (if i = 0 then some 1 else none) 0 x y := by
  have h : seen ((demoJoint (fun _ => 1 / 2) 1).getHarmony threeNotes [1, 1, 1] ⟨[1], [], [], 2⟩ (free 23)) =
      some (([some 1, some 0], [0, 1, 3]), [5, 5], true) := by decide +kernel
  obtain ⟨s, h1, hs, -, -⟩ := seen_some h
  have hn : NonNeg ⟨[1], [], [], 2⟩ := ⟨by simp, by simp, by simp⟩
  have hn' : NonNeg (free 23) := ⟨by simp [free], by simp [free], by simp [free]⟩
  obtain ⟨q, rest, hp, e1, e2⟩ : ∃ q rest, s.prev = q :: rest ∧ s.node.chord = some 0 ∧ q.chord = some 1 := by
    cases hp : s.prev with
    | nil => simp [getChords, getChordsAux, hp] at hs
    | cons q rest =>
      cases rest with
      | nil => simp [getChords, getChordsAux, hp] at hs
      | cons r rest =>
        cases rest with
        | nil => simp [getChords, getChordsAux, hp] at hs; exact ⟨q, [r], rfl, hs.1.2, hs.1.1⟩
        | cons r' rest =>
          have := congrArg (fun x => x.1.length) hs
          simp [getChords, getChordsAux, hp] at this
  obtain ⟨c, pts, hc, hd, hj⟩ := C168_first _ (demoJoint_wf _ _) threeNotes [1, 1, 1] _ _ hn hn' s h1 0 s.node q rest
    (by rw [hp]; rfl)
  rw [e1] at hc
  have hc := Option.some.inj hc
  subst hc
  rw [e2] at hj
  exact ⟨s, s.node, q, rest, h1, by rw [hp], e1, e2, pts, hd, hj⟩

/-- The hypotheses of `C169_keys` and `C169_harmony` hold: the second chord is in a new key. -/
example : ∃ s n q rest, (keyJoint (fun _ => 1 / 2) 8).getHarmony threeNotes [1, 1, 1]
      ⟨[], [], [((0, 1), 0), ((1, 3), 1)], 2⟩ (free 23) = .ok (some s) ∧ s.node :: s.prev = n :: q :: rest ∧
    n.key = 1 ∧ q.key = 0 ∧ ∃ (before : List Int) (rel : Int) (after : List Int), pyRange 0 24 = before ++ rel :: after := by
  have h : seen ((keyJoint (fun _ => 1 / 2) 8).getHarmony threeNotes [1, 1, 1]
    ⟨[], [], [((0, 1), 0), ((1, 3), 1)], 2⟩ (free 23)) = some (([some 0, some 1], [0, 1, 3]), [0, 1], true) := by
    decide +kernel
  obtain ⟨s, h1, -, hs, -⟩ := seen_some h
  have hn : NonNeg ⟨[], [], [((0, 1), 0), ((1, 3), 1)], 2⟩ := ⟨by simp, by simp, by simp⟩
  have hn' : NonNeg (free 23) := ⟨by simp [free], by simp [free], by simp [free]⟩
  obtain ⟨q, rest, hp, e1, e2⟩ : ∃ q rest, s.prev = q :: rest ∧ s.node.key = 1 ∧ q.key = 0 := by
    cases hp : s.prev with
    | nil => simp [chordKeys, hp] at hs
    | cons q rest =>
      cases rest with
      | nil => simp [chordKeys, hp] at hs
      | cons r rest =>
        cases rest with
        | nil => simp [chordKeys, hp] at hs; exact ⟨q, [r], rfl, hs.2, hs.1⟩
        | cons r' rest =>
          have := congrArg List.length hs
          simp [chordKeys, hp] at this
  obtain ⟨t, o, before, rel, after, -, ho, hb, -⟩ := C169_harmony _ (keyJoint_wf _ _) threeNotes [1, 1, 1] _ _ hn hn' rfl
    s h1 0 s.node q rest (by rw [hp]; rfl) (by rw [e1, e2]; decide)
  have ho : o = ⟨List.replicate 24 ⟨some (-1)⟩, pyRange 0 24, 2, ()⟩ := (Except.ok.inj ho).symm
  rw [ho] at hb
  exact ⟨s, s.node, q, rest, h1, by rw [hp], e1, e2, before, rel, after, hb⟩

end Verif.Choices
