import Verif.Lemmas.Search
import Verif.Props.State

/-!
# C47, C48: the beam search

All theorems hold for arbitrary neural models and arbitrary arithmetic of log probabilities (see
`Verif.Search`), for both classes of beams.
-/

namespace Verif.SearchData

open Verif State

section
variable {κ ρ H P : Type} [Add κ] [Sub κ] [Zero κ] {d : SearchData κ ρ H P}

omit [Add κ] [Sub κ] [Zero κ] in
theorem getChordsAux_len (n : Node κ H P) (ps : List (Node κ H P)) :
    (getChordsAux n ps).1.length = ps.length ∧ (getChordsAux n ps).2.length = ps.length + 1 ∧
    (getChordsAux n ps).2[ps.length]? = some n.changeIndex := by
  induction ps generalizing n with
  | nil => simp [getChordsAux]
  | cons p ps ih =>
    obtain ⟨h1, h2, h3⟩ := ih p
    simp only [getChordsAux, List.length_append, List.length_cons, h1, h2]
    refine ⟨by simp, by simp, ?_⟩
    rw [List.getElem?_append_right (by omega), h2]; simp

omit [Add κ] [Sub κ] [Zero κ] in
theorem getChordsAux_last (n : Node κ H P) (ps : List (Node κ H P)) (hne : ps ≠ []) :
    (getChordsAux n ps).1[ps.length - 1]? = some n.chord := by
  cases ps with
  | nil => simp at hne
  | cons p ps =>
    simp only [getChordsAux]
    rw [List.getElem?_append_right (by rw [(getChordsAux_len p ps).1]; simp)]
    rw [(getChordsAux_len p ps).1]; simp

omit [Add κ] [Sub κ] [Zero κ] in
/-- The segments of a chain, by index. -/
theorem segs_index (n : Node κ H P) (ps : List (Node κ H P)) (h : Segs d (n :: ps)) (i : Nat)
    (ch : Option Int) (a b : Nat) (k : Int) (h1 : (getChordsAux n ps).1[i]? = some ch)
    (h2 : (getChordsAux n ps).2[i]? = some a) (h3 : (getChordsAux n ps).2[i + 1]? = some b)
    (h4 : ((n :: ps).dropLast.reverse.map (·.key))[i]? = some k) :
    ∃ c, ch = some c ∧ a < b ∧ Covered d c a b ∧
      (AnyForced d.forcedKeys a b → ForcedTo d.forcedKeys a b k) ∧ InKeyRange d k c ∧
      (∀ ch', (getChordsAux n ps).1[i + 1]? = some ch' → ch' ≠ ch) := by
  induction ps generalizing n with
  | nil => simp [getChordsAux] at h1
  | cons p ps ih =>
    obtain ⟨l1, l2, l3⟩ := getChordsAux_len p ps
    have hk : (n :: p :: ps).dropLast.reverse.map (·.key) =
        (p :: ps).dropLast.reverse.map (·.key) ++ [n.key] := by simp
    have hkl : ((p :: ps).dropLast.reverse.map (·.key)).length = ps.length := by simp
    rw [hk] at h4
    simp only [getChordsAux] at h1 h2 h3 ⊢
    by_cases hi : i < ps.length
    · rw [List.getElem?_append_left (by omega)] at h1 h2 h3 h4
      obtain ⟨c, e1, e2, e3, e4, e5, e6⟩ := ih p h.2 h1 h2 h3 h4
      refine ⟨c, e1, e2, e3, e4, e5, ?_⟩
      intro ch' hch'
      by_cases hi' : i + 1 < ps.length
      · rw [List.getElem?_append_left (by omega)] at hch'
        exact e6 ch' hch'
      · rw [List.getElem?_append_right (by omega), l1] at hch'
        have hii : i + 1 - ps.length = 0 := by omega
        rw [hii] at hch'
        simp only [List.getElem?_cons_zero, Option.some.injEq] at hch'
        subst hch'
        have := getChordsAux_last p ps (by rintro rfl; simp at hi)
        have hii : ps.length - 1 = i := by omega
        rw [hii, h1] at this
        injection this with this
        rw [this]
        obtain ⟨⟨⟨_, _, hne, _, _⟩, _, _⟩, _⟩ := h
        exact hne
    · have hii : i = ps.length := by
        have := (List.getElem?_eq_some_iff.mp h1).1
        simp only [List.length_append, List.length_singleton, l1] at this
        omega
      subst hii
      rw [List.getElem?_append_right (by omega), l1] at h1
      rw [List.getElem?_append_left (by omega), l3] at h2
      rw [List.getElem?_append_right (by omega), l2] at h3
      rw [List.getElem?_append_right (by omega), hkl] at h4
      simp only [Nat.sub_self, List.getElem?_cons_zero, Option.some.injEq] at h1 h2 h3 h4
      subst h1; subst h2; subst h3; subst h4
      obtain ⟨⟨⟨c, a1, a2, a3, a4⟩, hkey, c', hc', hr⟩, -⟩ := h
      rw [a1] at hc'; injection hc' with hc'; subst hc'
      refine ⟨c, a1, a3, a4, hkey, hr, ?_⟩
      intro ch' hch'
      rw [List.getElem?_append_right (by omega), l1] at hch'
      have hii : ps.length + 1 - ps.length = 1 := by omega
      rw [hii] at hch'
      simp at hch'

omit [Add κ] [Sub κ] [Zero κ] in
/-- C47: the key reached from a state by a relative key lies the interval above the key of the state, in the
mode of the relative key. Spelled keys which do not exist are passed over; no key is an error. -/
theorem C47_target (s : State κ H P) (k : KeyObj) (hk : s.getKey d.labels = .ok k) (j : Nat) (mode : KeyMode)
    (i : Int) (hj : d.relativeKeys[j]? = some (mode, i)) :
    d.targetKey s j = .ok (match d.pitchType with
      | .midi => some (12 * mode.value + (k.tonic + i) % 12)
      | .tpc => if 0 ≤ k.tonic + i ∧ k.tonic + i ≤ 34 then some (35 * mode.value + (k.tonic + i)) else none) := by
  have hg : pyGet d.relativeKeys (j : Int) = .ok (mode, i) := pyGet_ofNat _ _ _ hj
  have h35 : NUM_PITCHES .tpc = 35 := rfl
  have h12 : NUM_PITCHES .midi = 12 := rfl
  simp only [targetKey, hg, hk, Bind.bind, Except.bind]
  cases d.pitchType
  · simp only [h35, keyOneHotIndex]
    by_cases hr : 0 ≤ k.tonic + i ∧ k.tonic + i ≤ 34
    · rw [if_neg (by omega), if_neg (by omega), if_pos hr]; rfl
    · rw [if_pos (by omega), if_neg hr]
  · simp only [keyOneHotIndex, h12]
    rw [if_neg (by omega)]; rfl

omit [Add κ] [Sub κ] [Zero κ] in
/-- C47: the search starts in the forced key of the first note if there is one, otherwise in each key once. -/
theorem C47_initial (f : Int) (hf : d.forcedKeys[0]? = some f) :
    d.initialKeys = .ok (if f = -1 then
      (List.range (match d.pitchType with | .midi => 24 | .tpc => 70)).map (fun (i : Nat) => (i : Int)) else [f]) := by
  have hg : pyGet d.forcedKeys (0 : Int) = .ok f := pyGet_ofNat _ 0 _ hf
  simp only [initialKeys, hg, Bind.bind, Except.bind]
  split
  · cases d.pitchType <;> decide +kernel
  · rfl

variable [DecidableEq κ] [DecidableEq H] [DecidableEq P]

/-- C47: the chords of the state returned by the search tile the piece: there is one more change index
than chords, the indices start at 0, strictly increase and end at the number of inputs. -/
theorem C47_tiles (hd : OK d) (s : State κ H P) (h : d.search = .ok (some s)) :
    (getChords s).2.length = (getChords s).1.length + 1 ∧ (getChords s).2.head? = some 0 ∧
    (getChords s).2.Pairwise (· < ·) ∧ (getChords s).2.getLast? = some d.numInputs ∧
    (∀ c ∈ (getChords s).1, c.isSome) := by
  obtain ⟨⟨⟨g, hg⟩, -⟩, hi⟩ := search_ok hd h
  have := C20_tiles _ _ g _ hd.hash s hg
  rw [hi] at this
  exact this

/-- C47: each chord of the returned state covers one or more consecutive candidate ranges, has its root
and bass in the range of its key, and differs from the chord after it. (`chordKeys` are the keys of the
chords; C21 and `C47_keys` relate them to `get_keys`.) -/
theorem C47_segments (hd : OK d) (s : State κ H P) (h : d.search = .ok (some s)) (i : Nat)
    (ch : Option Int) (a b : Nat) (k : Int) (h1 : (getChords s).1[i]? = some ch)
    (h2 : (getChords s).2[i]? = some a) (h3 : (getChords s).2[i + 1]? = some b)
    (h4 : (chordKeys s)[i]? = some k) :
    ∃ c, ch = some c ∧ Covered d c a b ∧ InKeyRange d k c ∧
      (∀ ch', (getChords s).1[i + 1]? = some ch' → ch' ≠ ch) := by
  obtain ⟨⟨-, hseg⟩, hi⟩ := search_ok hd h
  obtain ⟨c, e1, -, e3, -, e5, e6⟩ := segs_index s.node s.prev hseg i ch a b k h1 h2 h3 h4
  exact ⟨c, e1, e3, e5, e6⟩

/-- C47: there is one key per chord; the keys of `get_keys` change only where chords change, start and
end with them, and give every note the key of the chord that covers it. -/
theorem C47_keys (hd : OK d) (s : State κ H P) (h : d.search = .ok (some s)) :
    (chordKeys s).length = (getChords s).1.length ∧ (getKeys s).2.Sublist (getChords s).2 ∧
    (getKeys s).2.head? = some 0 ∧ (getKeys s).2.getLast? = some d.numInputs ∧
    expandRuns (getKeys s).1 (getKeys s).2 = expandRuns (chordKeys s) (getChords s).2 := by
  obtain ⟨⟨⟨g, hg⟩, -⟩, hi⟩ := search_ok hd h
  obtain ⟨k1, k2, k3, k4, k5, k6⟩ := C21_runs _ _ g _ hd.hash s hg
  obtain ⟨t1, t2, t3, t4, t5⟩ := C47_tiles hd s h
  refine ⟨?_, k3, k4.trans t2, k5.trans t4, k6⟩
  simp only [chordKeys, getChords, (getChordsAux_len s.node s.prev).1]
  simp

omit [Add κ] [Sub κ] [Zero κ] [DecidableEq κ] [DecidableEq H] [DecidableEq P] in
theorem Covered.first (hf : ∀ e ∈ d.ranges, e.1 < e.2.stop) {c : Int} {a b : Nat}
    (h : Covered d c a b) : ∃ r, (a, r) ∈ d.ranges ∧ r.stop ≤ b ∧ FitsRange d c a r := by
  induction h with
  | one h1 h2 => exact ⟨_, h1, Nat.le_refl _, h2⟩
  | more hc hr hfit ih =>
    obtain ⟨r0, h1, h2, h3⟩ := ih
    have := hf _ hr
    exact ⟨r0, h1, by simp only at this; omega, h3⟩

/-- C47 (partial): the chord at the note where a segment begins is the one forced there if the candidate
ranges that begin there have no other forced chord; the key is the one forced there if the segment has no
other forced key. Without these conditions both fail (`C47_forced_chord_fails`,
`C47_forced_key_fails`). -/
theorem C47_forced_partial (hd : OK d) (s : State κ H P) (h : d.search = .ok (some s)) (i : Nat)
    (ch : Option Int) (a b : Nat) (k : Int) (h1 : (getChords s).1[i]? = some ch)
    (h2 : (getChords s).2[i]? = some a) (h3 : (getChords s).2[i + 1]? = some b)
    (h4 : (chordKeys s)[i]? = some k) :
    (∀ f, d.forcedChords[a]? = some f → f ≠ -1 →
      (∀ r, (a, r) ∈ d.ranges → ∀ (j : Nat) f', a ≤ j → j < r.stop → d.forcedChords[j]? = some f' →
        f' = -1 ∨ f' = f) → ch = some f) ∧
    (∀ f, d.forcedKeys[a]? = some f → f ≠ -1 →
      (∀ (j : Nat) f', a ≤ j → j < b → d.forcedKeys[j]? = some f' → f' = -1 ∨ f' = f) → k = f) := by
  obtain ⟨⟨-, hseg⟩, hi⟩ := search_ok hd h
  obtain ⟨c, e1, e2, e3, e4, e5, e6⟩ := segs_index s.node s.prev hseg i ch a b k h1 h2 h3 h4
  constructor
  · intro f hf hne hall
    obtain ⟨r, hr, hrb, hfit⟩ := e3.first hd.forward
    have hlt := hd.forward _ hr
    obtain ⟨j, j1, j2, j3, j4⟩ := hfit.1 ⟨a, f, Nat.le_refl _, hlt, hf, hne⟩
    rcases hall r hr j c j1 j2 j3 with h | h
    · exact absurd h j4
    · rw [e1, h]
  · intro f hf hne hall
    obtain ⟨j, j1, j2, j3, j4⟩ := e4 ⟨a, f, Nat.le_refl _, e2, hf, hne⟩
    rcases hall j k j1 j2 j3 with h | h
    · exact absurd h j4
    · exact h

/-- C47: with several forced ids, the chord of a segment is still forced at some note of its first
range, and its key at some note of the segment. -/
theorem C47_forced_some (hd : OK d) (s : State κ H P) (h : d.search = .ok (some s)) (i : Nat)
    (ch : Option Int) (a b : Nat) (k : Int) (h1 : (getChords s).1[i]? = some ch)
    (h2 : (getChords s).2[i]? = some a) (h3 : (getChords s).2[i + 1]? = some b)
    (h4 : (chordKeys s)[i]? = some k) :
    (∀ f, d.forcedChords[a]? = some f → f ≠ -1 → ∃ (j : Nat) (c : Int), a ≤ j ∧ j < b ∧
      d.forcedChords[j]? = some c ∧ ch = some c) ∧
    (∀ f, d.forcedKeys[a]? = some f → f ≠ -1 → ∃ j : Nat, a ≤ j ∧ j < b ∧
      d.forcedKeys[j]? = some k) := by
  obtain ⟨⟨-, hseg⟩, hi⟩ := search_ok hd h
  obtain ⟨c, e1, e2, e3, e4, e5, e6⟩ := segs_index s.node s.prev hseg i ch a b k h1 h2 h3 h4
  constructor
  · intro f hf hne
    obtain ⟨r, hr, hrb, hfit⟩ := e3.first hd.forward
    have hlt := hd.forward _ hr
    obtain ⟨j, j1, j2, j3, j4⟩ := hfit.1 ⟨a, f, Nat.le_refl _, hlt, hf, hne⟩
    exact ⟨j, c, j1, by omega, j3, e1⟩
  · intro f hf hne
    obtain ⟨j, j1, j2, j3, j4⟩ := e4 ⟨a, f, Nat.le_refl _, e2, hf, hne⟩
    exact ⟨j, j1, j2, j3⟩

end

/-! ## Concrete searches -/

/-- The least element: the order in which CPython lists a set of small non-negative integers. -/
def pickMin : List Int → Int
  | [] => -1
  | a :: l => l.foldl min a

theorem pickMin_mem (l : List Int) (h : l ≠ []) : pickMin l ∈ l := by
  cases l with
  | nil => simp at h
  | cons a l =>
    simp only [pickMin]
    clear h
    induction l generalizing a with
    | nil => simp
    | cons b l ih =>
      simp only [List.foldl_cons]
      have := ih (min a b)
      rcases List.mem_cons.mp this with h | h
      · rw [h]
        rcases Int.le_total a b with hab | hab
        · rw [Int.min_eq_left hab]; simp
        · rw [Int.min_eq_right hab]; simp
      · simp [h]

/-- A small instance: major triads on C, D, E (MIDI), integer log probabilities, models that give no
cost; the KTM gives probability `5` where it is allowed to. -/
def demo (hash : Option Nat) (n : Nat) (ranges : List (Nat × RangeData Int)) (fc fk : List Int) :
    SearchData Int Int Unit Unit where
  labels := ⟨[(0, .major, 0), (2, .major, 0), (4, .major, 0)], keyClasses .midi false⟩
  relativeKeys := KeyMode.all.flatMap fun m => (pyRange 0 12).map fun i => (m, i)
  pitchType := .midi
  beamSize := 10
  hashLength := hash
  numInputs := n
  ranges := ranges
  forcedChords := fc
  forcedKeys := fk
  pick := pickMin
  minChange := 3
  maxNoChange := 7
  leProb a b := decide (a ≤ b)
  zeroProb := 0
  logChange _ := -2
  logNoChange _ := -1
  lt a b := decide (a < b)
  ge a b := decide (b ≤ a)
  scale x n := x * n
  ksmExponent x := x
  icm _ := ()
  csm _ := .ok ((), ())
  csmCost _ := .ok (-1)
  ktm _ := .ok (5, ())
  ksm _ := .ok ⟨List.replicate 24 (-1), pyRange 0 24, 2, ()⟩

/-- A range of the small instance that branches on all three chords, the given one first. -/
def demoRange (stop : Nat) (order : List Int) : RangeData Int := ⟨stop, -1, -1, [-1, -1, -1], order, 3⟩

theorem demo_ok (hash : Option Nat) (hh : ∀ k, hash = some k → 1 ≤ k) (n : Nat)
    (ranges : List (Nat × RangeData Int)) (fc fk : List Int)
    (hr : ∀ e ∈ ranges, e.1 < e.2.stop) : OK (demo hash n ranges fc fk) :=
  ⟨hr, hh, pickMin_mem⟩

/-- A search over three notes and two ranges; its result has two chords. -/
example : ((demo none 3 [(0, demoRange 2 [1, 0, 2]), (2, demoRange 3 [2, 0, 1])]
    [-1, -1, -1] [0, -1, -1]).search.toOption.bind id).map getChords =
      some ([some 0, some 2], [0, 2, 3]) := by decide +kernel

/-- The same with a hashed beam and forced labels. -/
example : ((demo (some 2) 3 [(0, demoRange 2 [1, 0, 2]), (2, demoRange 3 [2, 0, 1])]
    [0, -1, 1] [3, -1, 4]).search.toOption.bind id).map (fun s => (getChords s, getKeys s)) =
      some (([some 0, some 1], [0, 2, 3]), ([3, 4], [0, 2, 3])) := by decide +kernel

/-- C47 fails for forced chords: a range with two forced chords gets the first of the *set* of them, not
the one at the note where it begins. -/
theorem C47_forced_chord_fails : ∃ (d : SearchData Int Int Unit Unit) (s : State Int Unit Unit) (f : Int),
    OK d ∧ d.search = .ok (some s) ∧ (getChords s).2[0]? = some 0 ∧ d.forcedChords[0]? = some f ∧
    f ≠ -1 ∧ (getChords s).1[0]? ≠ some (some f) := by
  have hd : ((demo none 2 [(0, demoRange 2 [1, 0, 2])] [2, 1] [0, 0]).search.toOption.bind id).map
      getChords = some ([some 1], [0, 2]) := by decide +kernel
  cases hs : (demo none 2 [(0, demoRange 2 [1, 0, 2])] [2, 1] [0, 0]).search with
  | error e => rw [hs] at hd; cases hd
  | ok o =>
    cases o with
    | none => rw [hs] at hd; cases hd
    | some s =>
      rw [hs] at hd
      simp only [Except.toOption, Option.bind_some, id_eq, Option.map_some, Option.some.injEq] at hd
      refine ⟨_, s, 2, demo_ok none (by simp) 2 _ _ _ (by simp [demoRange]), hs, ?_, rfl, by decide, ?_⟩
      · rw [hd]; rfl
      · rw [hd]; decide

/-- C47 fails for forced keys: a chord that is rejoined over a change of the forced key gets the first
of the *set* of both keys, here the one forced at its second note. -/
theorem C47_forced_key_fails : ∃ (d : SearchData Int Int Unit Unit) (s : State Int Unit Unit) (f : Int),
    OK d ∧ d.search = .ok (some s) ∧ (getChords s).2 = [0, 2] ∧ d.forcedKeys[0]? = some f ∧
    f ≠ -1 ∧ (chordKeys s)[0]? ≠ some f := by
  have hd : ((demo none 2 [(0, demoRange 1 [1, 0, 2]), (1, demoRange 2 [1, 0, 2])] [1, 1]
      [5, 3]).search.toOption.bind id).map (fun s => (getChords s, chordKeys s)) =
      some (([some 1], [0, 2]), [3]) := by decide +kernel
  cases hs : (demo none 2 [(0, demoRange 1 [1, 0, 2]), (1, demoRange 2 [1, 0, 2])] [1, 1] [5, 3]).search with
  | error e => rw [hs] at hd; cases hd
  | ok o =>
    cases o with
    | none => rw [hs] at hd; cases hd
    | some s =>
      rw [hs] at hd
      simp only [Except.toOption, Option.bind_some, id_eq, Option.map_some, Option.some.injEq,
        Prod.mk.injEq] at hd
      refine ⟨_, s, 5, demo_ok none (by simp) 2 _ _ _ (by simp [demoRange]), hs, ?_, rfl, by decide, ?_⟩
      · rw [hd.1]
      · rw [hd.2]; decide

/-! ## C48 -/

section
variable {κ ρ H P : Type} [Add κ] [Sub κ] [Zero κ] {d : SearchData κ ρ H P}
  {β : Type} {ops : BeamOps β (Nat × State κ H P)}

omit [Sub κ] [Zero κ] in
/-- C48 (partial): where only one of changing and keeping the key is allowed, its cost, and nothing
else, is charged. What is missing, that this also holds where both are allowed, is false
(`C48_both_fails`). -/
theorem C48_one_partial (start : Nat) (beams : List β) (prob : ρ) (s : State κ H P) (q : Node κ H P)
    (rest : List (Node κ H P)) (hq : s.prev = q :: rest) (changes keeps : List (State κ H P))
    (h : d.keyBranch ops start beams (prob, s) = .ok (changes, keeps))
    (ho : ¬ ((d.keyOptions prob s q).1 = true ∧ (d.keyOptions prob s q).2 = true)) :
    (∀ t ∈ changes, t.node.logProb = s.node.logProb +
      d.scale (d.logChange prob) ((s.node.changeIndex : Int) - q.changeIndex)) ∧
    (∀ t ∈ keeps, t.node.logProb = s.node.logProb +
      d.scale (d.logNoChange prob) ((s.node.changeIndex : Int) - q.changeIndex)) := by
  simp only [keyBranch, hq, Bind.bind] at h
  obtain ⟨change, hch, h⟩ := bind_ok h
  obtain ⟨keep, hke, h⟩ := bind_ok h
  simp only [Except.ok.injEq, Prod.mk.injEq] at h
  obtain ⟨rfl, rfl⟩ := h
  generalize d.keyOptions prob s q = o at *
  obtain ⟨o1, o2⟩ := o
  constructor
  · intro t ht
    obtain ⟨tested, hx⟩ := keepFits_mem hch t ht
    cases o1 <;> cases o2 <;> simp only [chargeKey, Option.some.injEq, Prod.mk.injEq] at hx <;>
      first
      | exact absurd ⟨rfl, rfl⟩ ho
      | (obtain ⟨-, rfl⟩ := hx; rfl)
      | cases hx
  · intro t ht
    obtain ⟨tested, hx⟩ := keepFits_mem hke t ht
    cases o1 <;> cases o2 <;>
      simp only [chargeKey, Option.map_some, Option.map_none, Option.some.injEq, Prod.mk.injEq] at hx <;>
      first
      | exact absurd ⟨rfl, rfl⟩ ho
      | (obtain ⟨-, rfl⟩ := hx; rfl)
      | cases hx

omit [Sub κ] [Zero κ] in
/-- C48 fails wherever both are allowed: the changing state is charged both costs and the keeping state
none. -/
theorem C48_both_fails (start : Nat) (beams : List β) (prob : ρ) (s : State κ H P) (q : Node κ H P)
    (rest : List (Node κ H P)) (hq : s.prev = q :: rest) (changes keeps : List (State κ H P))
    (h : d.keyBranch ops start beams (prob, s) = .ok (changes, keeps))
    (h1 : (d.keyOptions prob s q).1 = true) (h2 : (d.keyOptions prob s q).2 = true) :
    (∀ t ∈ changes, t.node.logProb = s.node.logProb +
      d.scale (d.logChange prob) ((s.node.changeIndex : Int) - q.changeIndex) +
      d.scale (d.logNoChange prob) ((s.node.changeIndex : Int) - q.changeIndex)) ∧
    (∀ t ∈ keeps, t.node.logProb = s.node.logProb ∧ t = s) := by
  simp only [keyBranch, hq, Bind.bind] at h
  obtain ⟨change, hch, h⟩ := bind_ok h
  obtain ⟨keep, hke, h⟩ := bind_ok h
  simp only [Except.ok.injEq, Prod.mk.injEq] at h
  obtain ⟨rfl, rfl⟩ := h
  generalize d.keyOptions prob s q = o at *
  obtain ⟨o1, o2⟩ := o
  simp only at h1 h2
  subst h1; subst h2
  constructor
  · intro t ht
    obtain ⟨tested, hx⟩ := keepFits_mem hch t ht
    simp only [chargeKey, Option.some.injEq, Prod.mk.injEq] at hx
    obtain ⟨-, rfl⟩ := hx
    rfl
  · intro t ht
    obtain ⟨tested, hx⟩ := keepFits_mem hke t ht
    simp only [chargeKey, Option.map_some, Option.some.injEq, Prod.mk.injEq] at hx
    obtain ⟨-, rfl⟩ := hx
    exact ⟨rfl, rfl⟩

end

/-- C48: the keeping state that goes on in the search is not charged the cost of keeping (here -1): a
chord of one note in key 0, of log probability -10. -/
theorem C48_fails : ∃ (d : SearchData Int Int Unit Unit) (s : State Int Unit Unit)
    (changes keeps : List (State Int Unit Unit)),
    d.keyBranch (plainOps d.stateLt) 0 [] (5, s) = .ok (changes, keeps) ∧
    keeps.map (·.node.logProb) = [-10] ∧ changes.map (·.node.logProb) = [-13] ∧
    s.node.logProb = -10 ∧ d.logChange 5 = -2 ∧ d.logNoChange 5 = -1 := by
  let q : Node Int Unit Unit := (State.initial 0 none none).node
  let s : State Int Unit Unit :=
    ⟨{ q with chord := some 1, changeIndex := 1, logProb := -10 }, [q]⟩
  refine ⟨demo none 1 [] [-1] [-1], s, [(s.copy.addKtm (-2)).addKtm (-1)], [s], ?_, ?_, ?_, ?_, ?_, ?_⟩
  all_goals decide +kernel

end Verif.SearchData
