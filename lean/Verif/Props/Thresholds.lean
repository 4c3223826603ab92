import Verif.Props.Harmony
import Verif.Lemmas.SearchInv

/-!
# C166: the analysis keeps to the thresholds of its parameters
-/

set_option linter.unusedSectionVars false

namespace Verif.Thresholds
open Verif State Forced SearchData Joint

section
variable {κ ρ H P : Type} [Add κ] [Sub κ] [Zero κ]

/-- The chord of node `n`, after node `q` and those before it, was put before the key transition model while it
was still in the key of `q`, and `p` is the probability of a change of key there: the output of the model, or 0
for a chord that cannot begin another key. -/
structure Asked (d : SearchData κ ρ H P) (n q : Node κ H P) (rest : List (Node κ H P)) (s : State κ H P) (p : ρ) :
    Prop where
  prev : s.prev = q :: rest
  chord : s.node.chord = n.chord
  stop : s.node.changeIndex = n.changeIndex
  key : s.node.key = q.key
  prob : ∃ out, d.ktm s = .ok out ∧ p = if s.canKeyTransition then out.1 else d.zeroProb

/-- What the probability `p` says about the key of node `n` after node `q`. -/
structure Warranted (d : SearchData κ ρ H P) (n q : Node κ H P) (p : ρ) : Prop where
  /-- The key changes where the probability is not below `min_key_change_prob`. -/
  change : d.forcedIn d.forcedKeys q.changeIndex n.changeIndex = none → n.key ≠ q.key → d.leProb d.minChange p = true
  /-- It is kept where the probability is not above `max_no_key_change_prob`. -/
  keep : d.forcedIn d.forcedKeys q.changeIndex n.changeIndex = none → n.key = q.key → d.leProb p d.maxNoChange = true
  /-- Where a key is forced, the probability does not matter. -/
  forced : ∀ f, d.forcedIn d.forcedKeys q.changeIndex n.changeIndex = some f → (n.key = q.key ↔ q.key = f)

/-- A chain of nodes, newest first. -/
def Chain (d : SearchData κ ρ H P) : List (Node κ H P) → Prop
  | n :: q :: rest => (∃ s p, Asked d n q rest s p ∧ Warranted d n q p) ∧ Chain d (q :: rest)
  | _ => True

variable {d : SearchData κ ρ H P}

theorem Chain.congr {n n' : Node κ H P} {rest : List (Node κ H P)} (h : Chain d (n :: rest))
    (h1 : n'.chord = n.chord) (h2 : n'.key = n.key) (h3 : n'.changeIndex = n.changeIndex) :
    Chain d (n' :: rest) := by
  cases rest with
  | nil => trivial
  | cons q rest =>
    obtain ⟨⟨s, p, a, w⟩, hs⟩ := h
    refine ⟨⟨s, p, ⟨a.prev, a.chord.trans h1.symm, a.stop.trans h3.symm, a.key, a.prob⟩, ?_⟩, hs⟩
    exact ⟨by rw [h2, h3]; exact w.change, by rw [h2, h3]; exact w.keep, by rw [h2, h3]; exact w.forced⟩

/-- A new node, still in the key of the one before. -/
def New (d : SearchData κ ρ H P) (s : State κ H P) : Prop :=
  ∃ q rest, s.prev = q :: rest ∧ Chain d (q :: rest) ∧ s.node.key = q.key

/-- A node that has been put before the key transition model, with the side of the options it is on. -/
def Choice (d : SearchData κ ρ H P) (side : Bool × Bool → Bool) (s : State κ H P) : Prop :=
  ∃ q rest t p, s.prev = q :: rest ∧ Chain d (q :: rest) ∧ s.node.key = q.key ∧ Asked d s.node q rest t p ∧
    side (d.keyOptions p t q) = true

theorem Choice.addKtm {side : Bool × Bool → Bool} {s : State κ H P} (h : Choice d side s) (lp : κ) :
    Choice d side (s.addKtm lp) := by
  obtain ⟨q, rest, t, p, b1, b2, b3, b4, b5⟩ := h
  exact ⟨q, rest, t, p, b1, b2, b3, ⟨b4.prev, b4.chord, b4.stop, b4.key, b4.prob⟩, b5⟩

theorem Choice.copy {side : Bool × Bool → Bool} {s : State κ H P} (h : Choice d side s) :
    Choice d side s.copy := by
  obtain ⟨q, rest, t, p, b1, b2, b3, b4, b5⟩ := h
  exact ⟨q, rest, t, p, b1, b2, b3, ⟨b4.prev, b4.chord, b4.stop, b4.key, b4.prob⟩, b5⟩

/-- The search keeps to the thresholds. -/
def thresholds (d : SearchData κ ρ H P) : PhaseInv d where
  beam s := Chain d (s.node :: s.prev)
  ran s := Chain d (s.node :: s.prev)
  cand s := New d s
  tried ps := ∃ q rest, ps.2.prev = q :: rest ∧ Chain d (q :: rest) ∧ ps.2.node.key = q.key ∧
    ∃ t, Asked d ps.2.node q rest t ps.1 ∧ ∀ p, d.keyOptions p ps.2 q = d.keyOptions p t q
  changing := Choice d Prod.fst
  keeping := Choice d Prod.snd
  moved s := Chain d (s.node :: s.prev)
  init key tonic mode _ _ _ _ := trivial
  first s _ _ h := h
  csm s t _ _ h ht := by
    simp only [runCsm] at ht
    obtain ⟨ph, _, rfl⟩ := map_ok ht
    exact h.congr rfl rfl rfl
  chord s t c r lp hs h hm hlp hc ht _ := by
    obtain ⟨root, ct, inv, bass, k, h1, h2, h3, h4, h5, rfl⟩ := chordTransition_some ht
    exact ⟨{ s.node with keyObj := some k }, s.prev, rfl, h.congr rfl rfl rfl, rfl⟩
  rejoin s t c r lp hs h hm hlp hc ht _ := by
    obtain ⟨c', root, ct, inv, bass, tonic, mode, p, ps, hcc, h1, h2, hp, h3, rfl⟩ := rejoin_ok ht
    rw [hp] at h
    exact ⟨p, ps, hp, h.2, rfl⟩
  ktm s ps hs h ht := by
    obtain ⟨q, rest, b1, b2, b3⟩ := h
    simp only [runKtm] at ht
    obtain ⟨ph, hph, rfl⟩ := map_ok ht
    exact ⟨q, rest, b1, b2, b3, s, ⟨b1, rfl, rfl, b3, ph, hph, rfl⟩, fun _ => rfl⟩
  branch ps q rest hs h hq := by
    obtain ⟨q', rest', b1, b2, b3, t, b4, b5⟩ := h
    rw [hq] at b1
    injection b1 with e1 e2
    subst e1; subst e2
    have hc : ∀ side : Bool × Bool → Bool, side (d.keyOptions ps.1 ps.2 q) = true → Choice d side ps.2 :=
      fun side hside => ⟨q, rest, t, ps.1, hq, b2, b3, b4, by rw [← b5]; exact hside⟩
    generalize ho : d.keyOptions ps.1 ps.2 q = o at hc
    obtain ⟨o1, o2⟩ := o
    constructor
    · intro x hx
      have h1 : o1 = true := by
        cases o1 with
        | true => rfl
        | false => cases o2 <;> cases hx
      exact (chargeKey_all (T := Choice d Prod.fst) (fun s lp h => Choice.addKtm h lp) (fun s h => Choice.copy h)
        (hc Prod.fst h1) _ _ _).1 x hx
    · intro x hx
      have h1 : o2 = true := by
        cases o2 with
        | true => rfl
        | false => cases o1 <;> cases hx
      exact (chargeKey_all (T := Choice d Prod.snd) (fun s lp h => Choice.addKtm h lp) (fun s h => Choice.copy h)
        (hc Prod.snd h1) _ _ _).2 x hx
  keep s cost hs h hcost := by
    obtain ⟨q, rest, t, p, b1, b2, b3, b4, b5⟩ := h
    show Chain d ((s.addCsm cost).node :: s.prev)
    rw [b1]
    refine ⟨⟨t, p, ⟨b4.prev, b4.chord, b4.stop, b4.key, b4.prob⟩, ?_⟩, b2⟩
    simp only [keyOptions, b4.stop, b4.key] at b5
    refine ⟨fun _ hne => absurd b3 hne, fun hn _ => ?_, fun f hf => ?_⟩
    · rw [show (s.addCsm cost).node.changeIndex = s.node.changeIndex from rfl] at hn
      rw [hn] at b5
      simp only [Bool.and_eq_true] at b5
      exact b5.1
    · rw [show (s.addCsm cost).node.changeIndex = s.node.changeIndex from rfl] at hf
      rw [hf] at b5
      simp only at b5
      refine ⟨fun _ => ?_, fun _ => b3⟩
      by_contra hne
      rw [if_neg hne] at b5
      cases b5
  key s t o q rest rel key lp hs h hks hq htar hne hlp ht _ := by
    obtain ⟨q', rest', t', p, b1, b2, b3, b4, b5⟩ := h
    rw [hq] at b1
    injection b1 with e1 e2
    subst e1; subst e2
    obtain ⟨c', root, ct, inv, bass, tonic, mode, p', ps', hcc, h1, h2, h3, h4, h5, hpp, rfl⟩ :=
      keyTransition_some ht
    have hpp' : (setKsm s o).prev = q :: rest := hq
    rw [hpp']
    have hkey : key ≠ q.key := by rw [← b3]; exact hne
    refine ⟨⟨t', p, ⟨b4.prev, b4.chord, b4.stop, b4.key, b4.prob⟩, ?_⟩, b2⟩
    simp only [keyOptions, b4.stop, b4.key] at b5
    refine ⟨fun hn _ => ?_, fun _ he => absurd he hkey, fun f hf => ?_⟩
    · simp only [setKsm] at hn
      rw [hn] at b5
      exact b5
    · simp only [setKsm] at hf
      rw [hf] at b5
      refine ⟨fun he => absurd he hkey, fun he => ?_⟩
      simp only [if_pos he] at b5
      cases b5
  hidden s t hs h ht := by
    simp only [runHidden, Bind.bind] at ht
    obtain ⟨ps, hps, ht⟩ := bind_ok ht
    obtain ⟨o, _, ht⟩ := bind_ok ht
    simp only [runKtm] at hps
    obtain ⟨ph, _, rfl⟩ := map_ok hps
    injection ht with ht
    subst ht
    exact h.congr rfl rfl rfl

theorem chain_drop {chain : List (Node κ H P)} (h : Chain d chain) (k : Nat) : Chain d (chain.drop k) := by
  induction k generalizing chain with
  | zero => exact h
  | succ k ih =>
    cases chain with
    | nil => simpa using h
    | cons n chain =>
      rw [List.drop_succ_cons]
      refine ih ?_
      cases chain with
      | nil => trivial
      | cons q rest => exact h.2

variable [DecidableEq κ] [DecidableEq H] [DecidableEq P]

/-- C166: each chord of the result was put before the key transition model, and its key is the one of the chord
before or not as the probability and the two thresholds, or a forced key, say. -/
theorem C166_keys (hd : OK d) (s : State κ H P) (h : d.search = .ok (some s)) (k : Nat) (n q : Node κ H P)
    (rest : List (Node κ H P)) (hk : (s.node :: s.prev).drop k = n :: q :: rest) :
    ∃ t p, Asked d n q rest t p ∧ Warranted d n q p := by
  have h1 : Chain d (s.node :: s.prev) := search_inv (thresholds d) hd h
  have h2 := chain_drop h1 k
  rw [hk] at h2
  exact h2.1

/-- All keys are the same if each is the same as the one before. -/
theorem all_same : ∀ (l : List (Node κ H P)) (n : Node κ H P),
    (∀ k a b rest, (n :: l).drop k = a :: b :: rest → a.key = b.key) → ∀ x ∈ n :: l, x.key = n.key
  | [], n, _ => by simp
  | q :: l, n, h => by
    intro x hx
    rcases List.mem_cons.1 hx with rfl | hx
    · rfl
    · rw [all_same l q (fun k a b rest hk => h (k + 1) a b rest (by rw [List.drop_succ_cons]; exact hk)) x hx]
      exact (h 0 n q l rfl).symm
end

section
variable {π κ δ ρ H P τ : Type} [LinearOrder π] [Zero π] [One π] [Add κ] [Sub κ] [Zero κ] [DecidableEq κ]
  [DecidableEq H] [DecidableEq P] [AddCommMonoid δ] [LinearOrder δ] [LE τ] [LT τ] [DecidableLE τ]
  [DecidableLT τ]

/-- C166: a chord begins after the first note only where a change is forced, or where the chord transition model's
probability is not below `min_chord_change_prob`. -/
theorem C166_chords (m : Joint π κ δ ρ H P) (hm : m.WF) (notes : List (τ × τ)) (dur : List δ)
    (hlen : dur.length = notes.length) (chord key : ForcedType) (hc : NonNeg chord) (hk : NonNeg key)
    (s : State κ H P) (h : m.getHarmony notes dur chord key = .ok (some s)) (i : Nat) (hi : i ∈ (getChords s).2)
    (h0 : 0 < i) (hn : i < notes.length) : (i : Int) ∈ chord.changes ∨ m.minChange ≤ m.ctm i := by
  obtain ⟨rows, cids, kids, hr⟩ := run m hm hc hk h
  obtain ⟨a, r, har, rfl⟩ := hr.stop hm i hi (by omega)
  rcases (hr.row a r har).stop with h1 | ⟨-, h1⟩
  · omega
  · unfold Joint.prob at h1
    split at h1
    · exact absurd hm.minPos (not_lt.2 h1)
    · split at h1
      · rename_i hf
        exact .inl hf.1
      · exact .inr h1

/-- C166: where the chord transition model is below the threshold throughout and no change is forced, there is one
chord. -/
theorem C166_one_chord (m : Joint π κ δ ρ H P) (hm : m.WF) (notes : List (τ × τ)) (dur : List δ)
    (hlen : dur.length = notes.length) (chord key : ForcedType) (hc : NonNeg chord) (hk : NonNeg key)
    (s : State κ H P) (h : m.getHarmony notes dur chord key = .ok (some s)) (hf : chord.changes = [])
    (hp : ∀ i, 0 < i → i < notes.length → m.ctm i < m.minChange) : (getChords s).2 = [0, notes.length] := by
  obtain ⟨t1, t2, t3, t4, -, -⟩ := C100_onsets m hm notes dur hlen chord key hc hk s h
  obtain ⟨rows, cids, kids, hr⟩ := run m hm hc hk h
  have hpos : 0 < notes.length := hlen ▸ hr.pos
  have hno : ∀ x ∈ (getChords s).2, 0 < x → notes.length ≤ x := by
    intro x hx h0
    by_contra hlt
    rcases C166_chords m hm notes dur hlen chord key hc hk s h x hx h0 (by omega) with h1 | h1
    · rw [hf] at h1
      cases h1
    · exact absurd (hp x h0 (by omega)) (not_lt.2 h1)
  generalize (getChords s).2 = l at *
  match l, t2, t3, t4, hno with
  | [x], t2, _, t4, _ =>
    simp only [List.head?_cons, Option.some.injEq, List.getLast?_singleton] at t2 t4
    omega
  | [x, y], t2, _, t4, _ =>
    simp only [List.head?_cons, Option.some.injEq] at t2
    simp only [List.getLast?_cons_cons, List.getLast?_singleton, Option.some.injEq] at t4
    rw [t2, t4]
  | x :: y :: z :: l, t2, t3, t4, hno =>
    exfalso
    simp only [List.head?_cons, Option.some.injEq] at t2
    rw [List.pairwise_cons, List.pairwise_cons] at t3
    have h1 := t3.1 y (by simp)
    have h2 := hno y (by simp) (by omega)
    have h3 := List.mem_of_getLast? t4
    have h4 : notes.length ∈ z :: l := by
      rw [List.getLast?_cons_cons, List.getLast?_cons_cons] at t4
      exact List.mem_of_getLast? t4
    have := t3.2.1 _ h4
    omega

/-- C166: the chords are at most as many as the notes at which one can begin. -/
theorem C166_count (m : Joint π κ δ ρ H P) (hm : m.WF) (notes : List (τ × τ)) (dur : List δ)
    (hlen : dur.length = notes.length) (chord key : ForcedType) (hc : NonNeg chord) (hk : NonNeg key)
    (s : State κ H P) (h : m.getHarmony notes dur chord key = .ok (some s)) :
    (getChords s).1.length ≤
      1 + ((List.range notes.length).filter fun i : Nat =>
        decide (0 < i ∧ ((i : Int) ∈ chord.changes ∨ m.minChange ≤ m.ctm i))).length := by
  obtain ⟨t1, t2, t3, t4, -, -⟩ := C100_onsets m hm notes dur hlen chord key hc hk s h
  have hsub : (getChords s).2 ⊆ 0 :: notes.length ::
      (List.range notes.length).filter fun i : Nat =>
        decide (0 < i ∧ ((i : Int) ∈ chord.changes ∨ m.minChange ≤ m.ctm i)) := by
    intro x hx
    by_cases h0 : x = 0
    · simp [h0]
    · by_cases hn : x = notes.length
      · simp [hn]
      · have hlt : x < notes.length := by
          have hle : x ≤ notes.length := by
            obtain ⟨i, hi, rfl⟩ := List.mem_iff_getElem.1 hx
            have hl : (getChords s).2[(getChords s).2.length - 1]? = some notes.length := by
              rw [← List.getLast?_eq_getElem?]; exact t4
            obtain ⟨hl1, hl2⟩ := List.getElem?_eq_some_iff.1 hl
            rw [← hl2]
            rcases Nat.lt_or_ge i ((getChords s).2.length - 1) with hlt | hge
            · exact (List.pairwise_iff_getElem.1 t3 i _ hi hl1 hlt).le
            · have : i = (getChords s).2.length - 1 := by omega
              simp only [this, le_refl]
          omega
        have := C166_chords m hm notes dur hlen chord key hc hk s h x hx (by omega) hlt
        simp only [List.mem_cons, List.mem_filter, List.mem_range, decide_eq_true_eq]
        exact .inr (.inr ⟨hlt, by omega, this⟩)
  have hnd : (getChords s).2.Nodup := t3.imp (fun hab => by omega)
  have := (List.subperm_of_subset hnd hsub).length_le
  simp only [List.length_cons] at this
  omega

/-- C166: a chord begins, or goes on at a cost which makes the whole analysis impossible (minus infinity or NaN, see
`C100_change_partial`), at each onset where the chord transition model is above `max_no_chord_change_prob` and so sure
of a change that going on has such a cost. -/
theorem C166_certain (m : Joint π κ δ ρ H P) (hm : m.WF) (notes : List (τ × τ)) (dur : List δ)
    (hlen : dur.length = notes.length) (chord key : ForcedType) (hc : NonNeg chord) (hk : NonNeg key)
    (Dead : κ → Prop) (hD : Absorbing Dead)
    (s : State κ H P) (h : m.getHarmony notes dur chord key = .ok (some s)) :
    Dead s.node.logProb ∨ ∀ i : Nat, 0 < i → i < notes.length → dur[i - 1]? ≠ some 0 → (i : Int) ∉ chord.changes →
      (i : Int) ∉ chord.nonChanges → m.maxNoChange < m.ctm i → Dead (m.logCompl (m.ctm i) - m.log (m.ctm i)) →
      i ∈ (getChords s).2 := by
  obtain ⟨rows, cids, kids, hr⟩ := run m hm hc hk h
  have hp : ∀ i : Nat, (i : Int) ∉ chord.changes → (i : Int) ∉ chord.nonChanges → m.prob chord i = m.ctm i := by
    intro i h1 h2
    rw [prob, if_neg h2, if_neg fun h => h1 h.1]
  have := search_inv (passing (m.searchData notes.length rows cids kids) Dead hD
    (fun i => 0 < i ∧ i < notes.length ∧ dur[i - 1]? ≠ some 0 ∧ (i : Int) ∉ chord.changes ∧
      (i : Int) ∉ chord.nonChanges ∧ m.maxNoChange < m.ctm i ∧ Dead (m.logCompl (m.ctm i) - m.log (m.ctm i)))
    ?_ ?_) (hr.ok hm) hr.search
  · rcases this with h1 | h1
    · exact .inl h1
    · right
      intro i q1 q2 q3 q4 q5 q6 q7
      apply h1 i ⟨q1, q2, q3, q4, q5, q6, q7⟩
      rw [(search_ok (hr.ok hm) hr.search).2]
      exact q2
  · rintro i a r ⟨q1, q2, q3, q4, q5, q6, -⟩ har ⟨h1, h2⟩
    have := (hr.row a r har).inside i h1 h2 fun h3 => q3 ((getD_of_get (by omega)).1 h3)
    rw [hp i q4 q5] at this
    exact absurd q6 (not_lt.2 this)
  · rintro i r ⟨-, -, -, q4, q5, -, q7⟩ har
    rw [(hr.row i r har).rejoin, hp i q4 q5]
    exact q7

/-- C166: a chord transition model that is sure at each onset divides the piece, if the analysis is possible and no
change is forced or excluded: the chords begin exactly where it says. -/
theorem C166_divides (m : Joint π κ δ ρ H P) (hm : m.WF) (notes : List (τ × τ)) (dur : List δ)
    (hlen : dur.length = notes.length) (chord key : ForcedType) (hc : NonNeg chord) (hk : NonNeg key)
    (Dead : κ → Prop) (hD : Absorbing Dead) (hf : chord.changes = []) (hf' : chord.nonChanges = [])
    (hsure : ∀ i : Nat, 0 < i → i < notes.length → dur[i - 1]? ≠ some 0 → m.ctm i < m.minChange ∨
      (m.maxNoChange < m.ctm i ∧ Dead (m.logCompl (m.ctm i) - m.log (m.ctm i))))
    (s : State κ H P) (h : m.getHarmony notes dur chord key = .ok (some s)) (hs : ¬ Dead s.node.logProb) (i : Nat)
    (h0 : 0 < i) (hn : i < notes.length) :
    i ∈ (getChords s).2 ↔ dur[i - 1]? ≠ some 0 ∧ m.minChange ≤ m.ctm i := by
  obtain ⟨-, -, -, -, -, t6⟩ := C100_onsets m hm notes dur hlen chord key hc hk s h
  constructor
  · intro hi
    refine ⟨t6 i hi h0 hn, ?_⟩
    rcases C166_chords m hm notes dur hlen chord key hc hk s h i hi h0 hn with q | q
    · rw [hf] at q; cases q
    · exact q
  · rintro ⟨q1, q2⟩
    rcases hsure i h0 hn q1 with q3 | ⟨q3, q4⟩
    · exact absurd q3 (not_lt.2 q2)
    · rcases C166_certain m hm notes dur hlen chord key hc hk Dead hD s h with q | q
      · exact absurd q hs
      · exact q i h0 hn q1 (by rw [hf]; simp) (by rw [hf']; simp) q3 q4

/-- All nodes are in one key. -/
theorem one_key (m : Joint π κ δ ρ H P) (hm : m.WF) (notes : List (τ × τ)) (dur : List δ)
    (chord key : ForcedType) (hc : NonNeg chord) (hk : NonNeg key)
    (s : State κ H P) (h : m.getHarmony notes dur chord key = .ok (some s)) (hf : key.labels = [])
    (hp : ∀ t out, m.search.ktm t = .ok out → m.search.leProb m.search.minChange out.1 = false)
    (hz : m.search.leProb m.search.minChange m.search.zeroProb = false) :
    ∀ x ∈ s.node :: s.prev, x.key = s.node.key := by
  obtain ⟨rows, cids, kids, hr⟩ := run m hm hc hk h
  have hnone : ∀ a b, (m.searchData notes.length rows cids kids).forcedIn
      (m.searchData notes.length rows cids kids).forcedKeys a b = none := by
    intro a b
    unfold forcedIn
    rw [if_pos]
    rw [List.filter_eq_nil_iff]
    intro x hx
    have hx' : x ∈ kids := List.mem_of_mem_take (List.mem_of_mem_drop hx)
    rw [hr.keyIds, List.mem_map] at hx'
    obtain ⟨i, -, rfl⟩ := hx'
    simp [labelAt, hf]
  have hstep : ∀ k a b rest, (s.node :: s.prev).drop k = a :: b :: rest → a.key = b.key := by
    intro k a b rest hd
    obtain ⟨t, p, ha, hw⟩ := C166_keys (hr.ok hm) s hr.search k a b rest hd
    by_contra hne
    have h1 := hw.change (hnone _ _) hne
    obtain ⟨out, ho, rfl⟩ := ha.prob
    split at h1
    · exact absurd ((hp t out ho).symm.trans h1) (by decide)
    · exact absurd (hz.symm.trans h1) (by decide)
  exact all_same s.prev s.node hstep

/-- C166: where the key transition model is below the threshold throughout and no key is forced, there is one key. -/
theorem C166_one_key (m : Joint π κ δ ρ H P) (hm : m.WF) (notes : List (τ × τ)) (dur : List δ)
    (chord key : ForcedType) (hc : NonNeg chord) (hk : NonNeg key)
    (s : State κ H P) (h : m.getHarmony notes dur chord key = .ok (some s)) (hf : key.labels = [])
    (hp : ∀ t out, m.search.ktm t = .ok out → m.search.leProb m.search.minChange out.1 = false)
    (hz : m.search.leProb m.search.minChange m.search.zeroProb = false) :
    ∀ a ∈ chordKeys s, ∀ b ∈ chordKeys s, a = b := by
  have hall := one_key m hm notes dur chord key hc hk s h hf hp hz
  have hkeys : ∀ a ∈ chordKeys s, a = s.node.key := by
    intro a ha
    unfold chordKeys at ha
    obtain ⟨x, hx, rfl⟩ := List.mem_map.1 ha
    exact hall x ((List.dropLast_sublist _).subset (List.mem_reverse.1 hx))
  intro a ha b hb
  rw [hkeys a ha, hkeys b hb]

end

/-! ### Examples -/

/-- The small model of Harmony.lean with another probability of a change of key, in tenths. -/
def keyJoint (ctm : Nat → ℚ) (p : Int) : Joint ℚ LogP Nat Int Unit Unit :=
  { demoJoint ctm 2 with search := { (demoJoint ctm 2).search with ktm := fun _ => .ok (p, ()) } }

theorem keyJoint_wf (ctm : Nat → ℚ) (p : Int) : (keyJoint ctm p).WF :=
  ⟨(demoJoint_wf ctm 2).minPos, (demoJoint_wf ctm 2).order, (demoJoint_wf ctm 2).maxLt, (demoJoint_wf ctm 2).hash,
    (demoJoint_wf ctm 2).pick⟩

/-- Three notes, one after the other. -/
def threeNotes : List (Nat × Nat) := [(0, 1), (1, 2), (2, 3)]

/-- Below both thresholds: one chord in one key. With a forced change there are two chords, still in one key. -/
example : seen ((keyJoint (fun _ => 1 / 8) 2).getHarmony twoNotes [1, 1] (free 2) (free 23)) =
      some (([some 1], [0, 2]), [3], true) ∧
    seen ((keyJoint (fun _ => 1 / 8) 2).getHarmony threeNotes [1, 1, 1] ⟨[1], [], [], 2⟩ (free 23)) =
      some (([some 1, some 0], [0, 1, 3]), [1, 1], true) := by
  constructor <;> decide +kernel

/-- Above `max_no_key_change_prob`: each chord is in a new key, where it can begin one. -/
example : seen ((keyJoint (fun _ => 1 / 2) 8).getHarmony threeNotes [1, 1, 1]
    ⟨[], [], [((0, 1), 0), ((1, 3), 1)], 2⟩ (free 23)) = some (([some 0, some 1], [0, 1, 3]), [0, 1], true) := by
  decide +kernel

/-- A chord transition model that is sure: the small model prefers one chord, but there are two, as going on is
impossible. -/
example : seen ((keyJoint (fun i => if i = 1 then 1 else 0) 2).getHarmony twoNotes [1, 1] (free 2) (free 23)) =
      some (([some 1, some 0], [0, 1, 2]), [1, 1], true) ∧
    ((keyJoint (fun i => if i = 1 then 1 else 0) 2).logCompl 1 - (keyJoint (fun i => if i = 1 then 1 else 0) 2).log 1).val =
      none := by
  constructor <;> decide +kernel

/-- The hypotheses of `C166_divides` hold. -/
example : ∃ s, (keyJoint (fun i => if i = 1 then 1 else 0) 2).getHarmony twoNotes [1, 1] (free 2) (free 23) = .ok (some s) ∧
    1 ∈ (getChords s).2 := by
  have h : seen ((keyJoint (fun i => if i = 1 then 1 else 0) 2).getHarmony twoNotes [1, 1] (free 2) (free 23)) =
      some (([some 1, some 0], [0, 1, 2]), [1, 1], true) := by decide +kernel
  obtain ⟨s, h1, -, -, h2⟩ := seen_some h
  have hn : ∀ k, NonNeg (free k) := fun k => ⟨by simp [free], by simp [free], by simp [free]⟩
  refine ⟨s, h1, (C166_divides _ (keyJoint_wf _ _) twoNotes [1, 1] rfl _ _ (hn 2) (hn 23) _ logP_dead rfl rfl ?_ s h1
    ?_ 1 (by decide) (by decide)).2 ⟨by decide, by show (1 / 4 : ℚ) ≤ 1; norm_num⟩⟩
  · intro i h0 hi _
    have hi : i < 2 := hi
    have : i = 1 := by omega
    subst this
    exact .inr ⟨by show (3 / 4 : ℚ) < 1; norm_num, by decide +kernel⟩
  · intro hd
    simp only [hd] at h2
    cases h2

/-- The hypotheses of `C166_one_chord` and `C166_one_key` hold. -/
example : ∃ s, (keyJoint (fun _ => 1 / 8) 2).getHarmony twoNotes [1, 1] (free 2) (free 23) = .ok (some s) ∧
    (getChords s).2 = [0, 2] ∧ ∀ a ∈ chordKeys s, ∀ b ∈ chordKeys s, a = b := by
  have h : seen ((keyJoint (fun _ => 1 / 8) 2).getHarmony twoNotes [1, 1] (free 2) (free 23)) =
      some (([some 1], [0, 2]), [3], true) := by decide +kernel
  obtain ⟨s, h1, -, -, -⟩ := seen_some h
  have hn : ∀ k, NonNeg (free k) := fun k => ⟨by simp [free], by simp [free], by simp [free]⟩
  refine ⟨s, h1, C166_one_chord _ (keyJoint_wf _ _) twoNotes [1, 1] rfl _ _ (hn 2) (hn 23) s h1 rfl ?_,
    C166_one_key _ (keyJoint_wf _ _) twoNotes [1, 1] _ _ (hn 2) (hn 23) s h1 rfl ?_ rfl⟩
  · intro i _ _
    show (1 / 8 : ℚ) < 1 / 4
    norm_num
  · intro t out ho
    have : out = ((2 : Int), ()) := (Except.ok.inj ho).symm
    subst this
    rfl

end Verif.Thresholds
