import Verif.Lemmas.Lists
import Verif.Props.Pitch

/-!
# C12, C13: change strings and relative key chains
-/

namespace Verif

/-! ## C12 -/

/-- The grammar of a change string: each change is some non-numeric characters and a number; a
number starting with 1 takes one more character if there is one. -/
inductive Changes (isNum : Char → Bool) : Str → List Str → Prop
  | nil : Changes isNum [] []
  | plain (pre : Str) (d : Char) (rest : Str) (ps : List Str) :
      (∀ c ∈ pre, isNum c = false) → isNum d = true → d ≠ '1' → Changes isNum rest ps →
      Changes isNum (pre ++ d :: rest) ((pre ++ [d]) :: ps)
  | teen (pre : Str) (e : Char) (rest : Str) (ps : List Str) :
      (∀ c ∈ pre, isNum c = false) → isNum '1' = true → Changes isNum rest ps →
      Changes isNum (pre ++ '1' :: e :: rest) ((pre ++ ['1', e]) :: ps)
  | last (pre : Str) :
      (∀ c ∈ pre, isNum c = false) → isNum '1' = true →
      Changes isNum (pre ++ ['1']) [pre ++ ['1']]

theorem go_found (isNum : Char → Bool) (pre : Str) (d : Char) (rest : Str) (n : Nat)
    (hp : ∀ c ∈ pre, isNum c = false) (hd : isNum d = true) :
    firstChangeLength.go isNum (pre ++ d :: rest) n =
      .ok (n + pre.length + (if d = '1' then 2 else 1)) := by
  induction pre generalizing n with
  | nil =>
    simp only [List.nil_append, firstChangeLength.go, hd, if_true, List.length_nil, Nat.add_zero]
    split <;> rfl
  | cons c pre ih =>
    have hc : isNum c = false := hp c (by simp)
    have := ih (n + 1) (fun c hc => hp c (by simp [hc]))
    simp only [List.cons_append, firstChangeLength.go, hc, Bool.false_eq_true, if_false, this,
      List.length_cons]
    congr 1; omega

theorem go_none (isNum : Char → Bool) (s : Str) (n : Nat) (hp : ∀ c ∈ s, isNum c = false) :
    firstChangeLength.go isNum s n = .error .indexError := by
  induction s generalizing n with
  | nil => rfl
  | cons c s ih =>
    have hc : isNum c = false := hp c (by simp)
    simp only [firstChangeLength.go, hc, Bool.false_eq_true, if_false]
    exact ih (n + 1) (fun c hc => hp c (by simp [hc]))

theorem numeric_split (isNum : Char → Bool) (s : Str) :
    (∀ c ∈ s, isNum c = false) ∨ ∃ pre d rest, s = pre ++ d :: rest ∧
      (∀ c ∈ pre, isNum c = false) ∧ isNum d = true := by
  induction s with
  | nil => left; simp
  | cons c s ih =>
    cases hc : isNum c with
    | true => right; exact ⟨[], c, s, rfl, by simp, hc⟩
    | false =>
      rcases ih with h | ⟨pre, d, rest, h1, h2, h3⟩
      · left; intro x hx; simp at hx; rcases hx with rfl | hx
        · exact hc
        · exact h x hx
      · right
        refine ⟨c :: pre, d, rest, by rw [h1]; rfl, ?_, h3⟩
        intro x hx; simp at hx; rcases hx with rfl | hx
        · exact hc
        · exact h2 x hx

theorem firstChangeLength_found (isNum : Char → Bool) (pre : Str) (d : Char) (rest : Str)
    (hp : ∀ c ∈ pre, isNum c = false) (hd : isNum d = true) :
    firstChangeLength isNum (pre ++ d :: rest) = .ok (pre.length + (if d = '1' then 2 else 1)) := by
  have := go_found isNum pre d rest 0 hp hd
  cases pre with
  | nil => simpa [firstChangeLength] using this
  | cons c pre => simpa [firstChangeLength] using this

theorem firstChangeLength_none (isNum : Char → Bool) (s : Str) (hs : s ≠ [])
    (hp : ∀ c ∈ s, isNum c = false) : firstChangeLength isNum s = .error .indexError := by
  cases s with
  | nil => exact absurd rfl hs
  | cons c s => simpa [firstChangeLength] using go_none isNum (c :: s) 0 hp

/-- The split and the grammar agree, including on failure. -/
theorem split_spec (isNum : Char → Bool) : ∀ (fuel : Nat) (s : Str), s.length < fuel →
    (∃ ps, splitChangesLoop isNum fuel s = .ok ps ∧ Changes isNum s ps) ∨
    (splitChangesLoop isNum fuel s = .error .indexError ∧
      ∃ good bad ps, s = good ++ bad ∧ Changes isNum good ps ∧ bad ≠ [] ∧
        ∀ c ∈ bad, isNum c = false)
  | 0, s, h => by omega
  | fuel + 1, s, h => by
    by_cases hs : s = []
    · subst hs; left; exact ⟨[], rfl, .nil⟩
    rcases numeric_split isNum s with hn | ⟨pre, d, rest, h1, h2, h3⟩
    · right
      refine ⟨?_, [], s, [], rfl, .nil, hs, hn⟩
      simp only [splitChangesLoop, firstChangeLength_none isNum s hs hn, Bind.bind, Except.bind]
    · have hlen := firstChangeLength_found isNum pre d rest h2 h3
      by_cases hd : d = '1'
      · subst hd
        cases rest with
        | nil =>
          left
          refine ⟨[pre ++ ['1']], ?_, ?_⟩
          · rw [h1]
            simp only [splitChangesLoop, hlen, if_true, Bind.bind, Except.bind]
            rw [if_neg (by omega)]
            have hdrop : List.drop (pre.length + 2) (pre ++ ['1']) = [] := by
              apply List.drop_eq_nil_of_le; simp
            have htake : List.take (pre.length + 2) (pre ++ ['1']) = pre ++ ['1'] := by
              apply List.take_of_length_le; simp
            rw [hdrop, htake]
            cases fuel with
            | zero => rfl
            | succ fuel => rfl
          · rw [h1]; exact .last pre h2 h3
        | cons e rest =>
          have hdrop : List.drop (pre.length + 2) (pre ++ '1' :: e :: rest) = rest := by
            rw [show pre.length + 2 = (pre ++ ['1', e]).length by simp,
              show pre ++ '1' :: e :: rest = (pre ++ ['1', e]) ++ rest by simp, List.drop_left]
          have htake : List.take (pre.length + 2) (pre ++ '1' :: e :: rest) = pre ++ ['1', e] := by
            rw [show pre.length + 2 = (pre ++ ['1', e]).length by simp,
              show pre ++ '1' :: e :: rest = (pre ++ ['1', e]) ++ rest by simp, List.take_left]
          rcases split_spec isNum fuel rest (by rw [h1] at h; simp at h; omega) with
            ⟨ps, g1, g2⟩ | ⟨g1, good, bad, ps, g2, g3, g4, g5⟩
          · left
            refine ⟨_, ?_, by rw [h1]; exact .teen pre e rest ps h2 h3 g2⟩
            rw [h1]
            simp only [splitChangesLoop, hlen, if_true, Bind.bind, Except.bind]
            rw [if_neg (by omega), hdrop, htake, g1]
          · right
            refine ⟨?_, pre ++ '1' :: e :: good, bad, _, by rw [h1, g2]; simp,
              .teen pre e good ps h2 h3 g3, g4, g5⟩
            rw [h1]
            simp only [splitChangesLoop, hlen, if_true, Bind.bind, Except.bind]
            rw [if_neg (by omega), hdrop, g1]
      · have hdrop : List.drop (pre.length + 1) (pre ++ d :: rest) = rest := by
          rw [show pre.length + 1 = (pre ++ [d]).length by simp,
            show pre ++ d :: rest = (pre ++ [d]) ++ rest by simp, List.drop_left]
        have htake : List.take (pre.length + 1) (pre ++ d :: rest) = pre ++ [d] := by
          rw [show pre.length + 1 = (pre ++ [d]).length by simp,
            show pre ++ d :: rest = (pre ++ [d]) ++ rest by simp, List.take_left]
        rcases split_spec isNum fuel rest (by rw [h1] at h; simp at h; omega) with
          ⟨ps, g1, g2⟩ | ⟨g1, good, bad, ps, g2, g3, g4, g5⟩
        · left
          refine ⟨_, ?_, by rw [h1]; exact .plain pre d rest ps h2 h3 hd g2⟩
          rw [h1]
          simp only [splitChangesLoop, hlen, hd, if_false, Bind.bind, Except.bind]
          rw [if_neg (by omega), hdrop, htake, g1]
        · right
          refine ⟨?_, pre ++ d :: good, bad, _, by rw [h1, g2]; simp,
            .plain pre d good ps h2 h3 hd g3, g4, g5⟩
          rw [h1]
          simp only [splitChangesLoop, hlen, hd, if_false, Bind.bind, Except.bind]
          rw [if_neg (by omega), hdrop, g1]

/-- C12: on every string, either the pieces follow the grammar, or the string is a well-formed
prefix followed by a non-empty tail without any number and `IndexError` is raised. -/
theorem C12_split (isNum : Char → Bool) (s : Str) :
    (∃ ps, splitChanges isNum s = .ok ps ∧ Changes isNum s ps) ∨
    (splitChanges isNum s = .error .indexError ∧
      ∃ good bad ps, s = good ++ bad ∧ Changes isNum good ps ∧ bad ≠ [] ∧
        ∀ c ∈ bad, isNum c = false) :=
  split_spec isNum _ s (by omega)

/-- C12: nothing is lost: the pieces concatenate to the input, and no piece is empty. -/
theorem C12_concat (isNum : Char → Bool) (s : Str) (ps : List Str)
    (h : splitChanges isNum s = .ok ps) : ps.flatten = s ∧ ∀ p ∈ ps, p ≠ [] := by
  rcases C12_split isNum s with ⟨ps', h1, h2⟩ | ⟨h1, _⟩
  · rw [h1] at h; injection h with h; subst h
    clear h1
    induction h2 with
    | nil => simp
    | plain pre d rest ps _ _ _ _ ih =>
      refine ⟨by simp [ih.1], ?_⟩
      intro p hp; simp at hp; rcases hp with rfl | hp
      · simp
      · exact ih.2 p hp
    | teen pre e rest ps _ _ _ ih =>
      refine ⟨by simp [ih.1], ?_⟩
      intro p hp; simp at hp; rcases hp with rfl | hp
      · simp
      · exact ih.2 p hp
    | last pre _ _ => simp
  · rw [h1] at h; cases h

example : splitChanges Char.isDigit ['1', '3', '+', 'b', '2'] = .ok [['1', '3'], ['+', 'b', '2']] := by
  decide
example : splitChanges Char.isDigit ['6', '#'] = .error .indexError := by decide

/-! ## C13 -/

theorem splitSlash_ne_nil (s : Str) : splitSlash s ≠ [] := by
  cases s with
  | nil => simp [splitSlash]
  | cons c s => simp only [splitSlash]; split <;> (try split) <;> simp

theorem splitSlash_append (x y : Str) :
    splitSlash (x ++ '/' :: y) = splitSlash x ++ splitSlash y := by
  induction x with
  | nil => simp [splitSlash]
  | cons c x ih =>
    simp only [List.cons_append, splitSlash, ih]
    by_cases hc : c = '/'
    · simp [hc]
    · simp only [hc, if_false]
      cases h : splitSlash x with
      | nil => exact absurd h (splitSlash_ne_nil x)
      | cons w ws => simp

theorem splitSlash_plain (s : Str) (h : '/' ∉ s) : splitSlash s = [s] := by
  induction s with
  | nil => rfl
  | cons c s ih =>
    simp at h
    have hc : c ≠ '/' := fun hc => h.1 hc.symm
    simp [splitSlash, hc, ih h.2]

theorem decodeLoop_append (pt : PitchType) (l₁ l₂ : List Str) (t : Int) (m : KeyMode) :
    decodeRelativeLoop pt (l₁ ++ l₂) t m =
      (decodeRelativeLoop pt l₁ t m).bind (fun k => decodeRelativeLoop pt l₂ k.1 k.2) := by
  induction l₁ generalizing t m with
  | nil => rfl
  | cons r rs ih =>
    simp only [List.cons_append, decodeRelativeLoop, Bind.bind, Except.bind]
    cases intervalFromNumeral r m pt with
    | error e => rfl
    | ok iv =>
      simp only
      cases transposePitch t iv pt with
      | error e => rfl
      | ok t' => simp only [ih]; rfl

/-- C13: a chain `x/y` means: first `y` from the given key, then `x` from the key reached
(an exception in either stops the decoding). `x` and `y` may be chains themselves. -/
theorem C13_compose (x y : Str) (t : Int) (m : KeyMode) (pt : PitchType) :
    decodeRelativeKeys (x ++ '/' :: y) t m pt =
      (decodeRelativeKeys y t m pt).bind (fun k => decodeRelativeKeys x k.1 k.2 pt) := by
  unfold decodeRelativeKeys
  rw [splitSlash_append, List.reverse_append, decodeLoop_append]

/-- C13: a single numeral moves the tonic by its interval in the given mode; the new mode is given
by the case of its last character. -/
theorem C13_single (r : Str) (hr : '/' ∉ r) (t : Int) (m : KeyMode) (pt : PitchType) :
    decodeRelativeKeys r t m pt =
      (intervalFromNumeral r m pt).bind (fun iv =>
        (transposePitch t iv pt).map (fun t' =>
          (t', if (r.getLast?.map Char.isLower).getD false then KeyMode.minor else .major))) := by
  unfold decodeRelativeKeys
  rw [splitSlash_plain r hr]
  simp only [List.reverse_singleton, decodeRelativeLoop, Bind.bind, Except.bind]
  cases intervalFromNumeral r m pt with
  | error e => rfl
  | ok iv =>
    simp only
    cases transposePitch t iv pt with
    | error e => rfl
    | ok t' =>
      have h : lastIsLower r = (r.getLast?.map Char.isLower).getD false := by
        unfold lastIsLower
        split <;> rename_i hl <;> rw [hl] <;> rfl
      simp only [Except.map, h]

theorem transposePitch_range (p i q : Int) (pt : PitchType) (h : transposePitch p i pt = .ok q) :
    0 ≤ q ∧ q < NUM_PITCHES pt := by
  cases pt
  · rw [C04_tpc_iff] at h
    have hN : NUM_PITCHES .tpc = 35 := rfl
    split at h <;> simp at h
    omega
  · simp only [transposePitch, NUM_PITCHES, Except.ok.injEq] at *
    omega

theorem decodeLoop_range (pt : PitchType) (l : List Str) (t t' : Int) (m m' : KeyMode)
    (hl : l ≠ []) (h : decodeRelativeLoop pt l t m = .ok (t', m')) :
    0 ≤ t' ∧ t' < NUM_PITCHES pt := by
  induction l generalizing t m with
  | nil => exact absurd rfl hl
  | cons r rs ih =>
    simp only [decodeRelativeLoop, Bind.bind, Except.bind] at h
    cases hi : intervalFromNumeral r m pt with
    | error e => rw [hi] at h; cases h
    | ok iv =>
      rw [hi] at h; simp only at h
      cases ht : transposePitch t iv pt with
      | error e => rw [ht] at h; cases h
      | ok t₁ =>
        rw [ht] at h; simp only at h
        cases rs with
        | nil =>
          simp only [decodeRelativeLoop, Except.ok.injEq, Prod.mk.injEq] at h
          rw [← h.1]
          exact transposePitch_range _ _ _ _ ht
        | cons r' rs => exact ih _ _ (by simp) h

/-- C13: whatever the chain and the starting tonic, a decoded tonic is a valid pitch. -/
theorem C13_range (s : Str) (t t' : Int) (m m' : KeyMode) (pt : PitchType)
    (h : decodeRelativeKeys s t m pt = .ok (t', m')) :
    0 ≤ t' ∧ t' < (match pt with | .tpc => 35 | .midi => 12) := by
  have := decodeLoop_range pt _ t t' m m' (by simp [splitSlash_ne_nil]) h
  cases pt <;> exact this

/-- The sum of the intervals of a chain, each read in the mode reached so far. -/
inductive ChainSum (pt : PitchType) : List Str → KeyMode → Int → KeyMode → Prop
  | nil (m : KeyMode) : ChainSum pt [] m 0 m
  | cons (r : Str) (rs : List Str) (m m' : KeyMode) (iv total : Int) :
      intervalFromNumeral r m pt = .ok iv →
      ChainSum pt rs (if lastIsLower r then .minor else .major) total m' →
      ChainSum pt (r :: rs) m (iv + total) m'

/-- `t'` is `t` moved by `total`: exactly for TPC, up to octaves for MIDI. -/
def Moved : PitchType → Int → Int → Int → Prop
  | .tpc, t, total, t' => t' = t + total
  | .midi, t, total, t' => (t' - (t + total)) % 12 = 0

theorem decodeLoop_sum (pt : PitchType) (l : List Str) (t t' : Int) (m m' : KeyMode)
    (h : decodeRelativeLoop pt l t m = .ok (t', m')) :
    ∃ total, ChainSum pt l m total m' ∧ Moved pt t total t' := by
  induction l generalizing t m with
  | nil =>
    simp only [decodeRelativeLoop, Except.ok.injEq, Prod.mk.injEq] at h
    obtain ⟨rfl, rfl⟩ := h
    refine ⟨0, .nil m, ?_⟩
    cases pt <;> simp [Moved]
  | cons r rs ih =>
    simp only [decodeRelativeLoop, Bind.bind, Except.bind] at h
    cases hi : intervalFromNumeral r m pt with
    | error e => rw [hi] at h; cases h
    | ok iv =>
      rw [hi] at h; simp only at h
      cases ht : transposePitch t iv pt with
      | error e => rw [ht] at h; cases h
      | ok t₁ =>
        rw [ht] at h; simp only at h
        obtain ⟨total, h1, h2⟩ := ih _ _ h
        refine ⟨iv + total, .cons r rs m m' iv total hi h1, ?_⟩
        cases pt
        · rw [C04_tpc_iff] at ht
          split at ht <;> simp at ht
          simp only [Moved] at *; omega
        · simp only [transposePitch, NUM_PITCHES, Except.ok.injEq] at ht
          simp only [Moved] at *; omega

/-- C13: the decoded tonic is the starting tonic plus the intervals of all numerals, taken from the
right, each in the mode reached so far (exactly for TPC, modulo 12 for MIDI). -/
theorem C13_sum (s : Str) (t t' : Int) (m m' : KeyMode) (pt : PitchType)
    (h : decodeRelativeKeys s t m pt = .ok (t', m')) :
    ∃ total, ChainSum pt (splitSlash s).reverse m total m' ∧ Moved pt t total t' :=
  decodeLoop_sum pt _ t t' m m' h

example : decodeRelativeKeys ['v', 'i', '/', 'b', 'V'] 15 .major .tpc = .ok (12, .minor) := by decide
example : decodeRelativeKeys ['V', '/', 'V'] 33 .major .tpc = .error .valueError := by decide

end Verif
