import Verif.Props.VectorReductions

/-!
# C42 and C62: key change vectors
-/

namespace Verif.KeyChange

open Verif.Vectors

/-- The interval of a key change as it is stored: in fifths within 14, or a class of semitones. -/
def Interval (k next : Key) (r : Int) : Prop :=
  match k.tonicType with
  | .tpc => r = next.relativeTonic - k.relativeTonic ∧ -14 ≤ r ∧ r ≤ 14
  | .midi => 0 ≤ r ∧ r < 12 ∧ (r - (next.relativeTonic - k.relativeTonic)) % 12 = 0

/-- The number of intervals. -/
def specIntervals : PitchType → Nat
  | .tpc => 29
  | .midi => 12

/-- The index of the interval. -/
def bit (pt : PitchType) (r : Int) : Int :=
  match pt with
  | .tpc => r + 14
  | .midi => r

theorem interval_iff (k next : Key) (i : Int) :
    absoluteToRelative next.relativeTonic k.relativeTonic k.tonicType true false = .ok i ↔
      ∃ r, Interval k next r ∧ i = bit k.tonicType r := by
  unfold Interval bit
  cases k.tonicType
  · have hb : relBound true false = 14 := rfl
    simp only [C05_tpc, hb]
    constructor
    · intro h
      split at h
      · injection h with h
        exact ⟨_, ⟨rfl, by omega, by omega⟩, by omega⟩
      · cases h
    · rintro ⟨r, ⟨rfl, h1, h2⟩, rfl⟩
      rw [if_pos ⟨h1, h2⟩]
  · obtain ⟨r, h1, h2, h3, h4⟩ := C05_midi next.relativeTonic k.relativeTonic true false
    simp only [h1, Except.ok.injEq]
    constructor
    · intro h; exact ⟨r, ⟨h2, h3, h4⟩, h.symm⟩
    · rintro ⟨r', ⟨g1, g2, g3⟩, rfl⟩; omega

theorem bit_range {k next : Key} {r : Int} (h : Interval k next r) :
    0 ≤ bit k.tonicType r ∧ bit k.tonicType r < specIntervals k.tonicType := by
  unfold Interval at h
  unfold bit specIntervals
  revert h
  cases k.tonicType <;> intro h <;> simp only at h ⊢ <;> omega

/-- C42: the index exists exactly if the interval is in range. -/
theorem C42_one_hot (k next : Key) (i : Int) :
    k.changeOneHot next = .ok i ↔ ∃ r, Interval k next r ∧
      i = next.relativeMode.value * specIntervals k.tonicType + bit k.tonicType r := by
  have hs : numKeyIntervals k.tonicType = (specIntervals k.tonicType : Int) := by
    cases k.tonicType <;> rfl
  simp only [Key.changeOneHot, Bind.bind, hs]
  constructor
  · intro h
    obtain ⟨j, hj, h⟩ := bind_ok h
    injection h with h
    obtain ⟨r, hr, rfl⟩ := (interval_iff k next j).1 hj
    exact ⟨r, hr, h.symm⟩
  · rintro ⟨r, hr, rfl⟩
    rw [(interval_iff k next _).2 ⟨r, hr, rfl⟩]
    rfl

/-- C42: every index is below the length of the one-hot encoding. -/
theorem C42_below_length (k next : Key) (i : Int) (h : k.changeOneHot next = .ok i) :
    0 ≤ i ∧ i < keyChangeVectorLength k.tonicType true := by
  obtain ⟨r, hr, rfl⟩ := (C42_one_hot k next i).1 h
  have hb := bit_range hr
  have hl : (keyChangeVectorLength k.tonicType true : Int) = 2 * specIntervals k.tonicType := by
    cases k.tonicType <;> decide
  rw [hl]
  cases next.relativeMode <;> simp only [KeyMode.value] <;> omega

/-- C42: two changes with the same index have the same mode and the same interval. -/
theorem C42_injective (k next k' next' : Key) (i : Int) (ht : k.tonicType = k'.tonicType)
    (h : k.changeOneHot next = .ok i) (h' : k'.changeOneHot next' = .ok i) :
    next.relativeMode = next'.relativeMode ∧
      (k.tonicType = .tpc →
        next.relativeTonic - k.relativeTonic = next'.relativeTonic - k'.relativeTonic) ∧
      (k.tonicType = .midi →
        ((next.relativeTonic - k.relativeTonic) - (next'.relativeTonic - k'.relativeTonic)) % 12 = 0) := by
  obtain ⟨r, hr, h1⟩ := (C42_one_hot k next i).1 h
  obtain ⟨r', hr', h2⟩ := (C42_one_hot k' next' i).1 h'
  have hb := bit_range hr
  have hb' := bit_range hr'
  rw [← ht] at h2 hb'
  unfold Interval at hr hr'
  rw [← ht] at hr'
  revert h1 h2 hb hb' hr hr'
  cases k.tonicType <;> cases next.relativeMode <;> cases next'.relativeMode <;>
    simp only [specIntervals, bit, KeyMode.value] <;> intros <;>
    refine ⟨?_, ?_, ?_⟩ <;> intros <;> first | trivial | contradiction | omega

/-- C42: every index of the one-hot encoding occurs. -/
theorem C42_surjective (k : Key) (i : Int) (h0 : 0 ≤ i) (h1 : i < keyChangeVectorLength k.tonicType true) :
    ∃ next : Key, k.changeOneHot next = .ok i := by
  have hl : (keyChangeVectorLength k.tonicType true : Int) = 2 * specIntervals k.tonicType := by
    cases k.tonicType <;> decide
  rw [hl] at h1
  have hbit : ∀ j : Int, 0 ≤ j → j < specIntervals k.tonicType →
      ∃ next : Key, ∃ r, Interval k next r ∧ j = bit k.tonicType r ∧
        ∀ m, Interval k { next with relativeMode := m } r := by
    intro j j0 j1
    unfold Interval bit
    revert j1
    cases k.tonicType <;> simp only [specIntervals] <;> intro j1
    · refine ⟨{ k with relativeTonic := k.relativeTonic + j - 14 }, j - 14, ⟨?_, ?_, ?_⟩, ?_, ?_⟩
      · simp only; omega
      · omega
      · omega
      · omega
      · intro m; simp only; omega
    · refine ⟨{ k with relativeTonic := k.relativeTonic + j }, j, ⟨?_, ?_, ?_⟩, rfl, ?_⟩
      · omega
      · omega
      · simp only; omega
      · intro m; simp only; omega
  by_cases hm : i < specIntervals k.tonicType
  · obtain ⟨next, r, hr, hj, hall⟩ := hbit i h0 hm
    refine ⟨{ next with relativeMode := .major }, (C42_one_hot _ _ _).2 ⟨r, hall _, ?_⟩⟩
    simp only [KeyMode.value]; omega
  · obtain ⟨next, r, hr, hj, hall⟩ := hbit (i - specIntervals k.tonicType) (by omega) (by omega)
    refine ⟨{ next with relativeMode := .minor }, (C42_one_hot _ _ _).2 ⟨r, hall _, ?_⟩⟩
    simp only [KeyMode.value]; omega

/-- The place of the mode. -/
def modeBit : KeyMode → Nat
  | .major => 0
  | .minor => 1

theorem keyLength (pt : PitchType) : keyChangeVectorLength pt false = specIntervals pt + 2 := by
  cases pt <;> rfl

theorem set_append_zeros (a b i : Nat) (v : List ℚ) (hv : v.length = a) :
    (v ++ zeros b).set (a + i) 1 = v ++ hot b i := by
  rw [List.set_append_right _ _ (by omega), hv]
  congr 1
  rw [hot]
  congr 1
  omega

theorem changeVector_in {k next : Key} {r : Int} (hr : Interval k next r) :
    k.changeVector next =
      .ok (hot (specIntervals k.tonicType) (bit k.tonicType r).toNat ++ hot 2 (modeBit next.relativeMode)) := by
  have hb := bit_range hr
  have hi := (interval_iff k next _).2 ⟨r, hr, rfl⟩
  have hz : zeros (specIntervals k.tonicType + 2) = zeros (specIntervals k.tonicType) ++ zeros 2 := by
    rw [zeros, zeros, zeros, List.replicate_append_replicate]
  simp only [Key.changeVector, Bind.bind, hi, setTonicBit, keyLength]
  have h1 : pySet (zeros (specIntervals k.tonicType + 2)) (bit k.tonicType r) 1 =
      .ok (hot (specIntervals k.tonicType) (bit k.tonicType r).toNat ++ zeros 2) := by
    rw [pySet, if_pos (by rw [zeros_length]; omega), hz,
      List.set_append_left _ _ (by rw [zeros_length]; omega)]
    rfl
  rw [h1]
  simp only [Except.bind]
  have hlen : (hot (specIntervals k.tonicType) (bit k.tonicType r).toNat ++ zeros 2).length =
      specIntervals k.tonicType + 2 := by
    rw [List.length_append, hot_length, zeros_length]
  rw [pySet, hlen]
  rw [if_neg (by cases next.relativeMode <;> simp only [KeyMode.value] <;> omega),
    if_pos (by cases next.relativeMode <;> simp only [KeyMode.value] <;> omega)]
  have hidx : (((specIntervals k.tonicType + 2 : Nat) : Int) + (-2 + next.relativeMode.value)).toNat =
      specIntervals k.tonicType + modeBit next.relativeMode := by
    cases next.relativeMode <;> simp only [KeyMode.value, modeBit] <;> omega
  rw [hidx, set_append_zeros _ _ _ _ (hot_length _ _)]

theorem changeVector_out {k next : Key} (hr : ¬ ∃ r, Interval k next r) :
    k.tonicType = .tpc ∧ k.changeVector next = .ok (zeros 29 ++ hot 2 (modeBit next.relativeMode)) := by
  have htpc : k.tonicType = .tpc := by
    by_contra hne
    apply hr
    have hm : k.tonicType = .midi := by
      revert hne; cases k.tonicType <;> simp
    obtain ⟨r, h1, h2, h3, h4⟩ := C05_midi next.relativeTonic k.relativeTonic true false
    refine ⟨r, ?_⟩
    unfold Interval
    rw [hm]
    exact ⟨h2, h3, h4⟩
  refine ⟨htpc, ?_⟩
  have hb : relBound true false = 14 := rfl
  have herr : absoluteToRelative next.relativeTonic k.relativeTonic k.tonicType true false =
      .error .valueError := by
    rw [htpc, C05_tpc, hb, if_neg]
    intro h
    apply hr
    refine ⟨next.relativeTonic - k.relativeTonic, ?_⟩
    unfold Interval
    rw [htpc]
    exact ⟨rfl, h.1, h.2⟩
  simp only [Key.changeVector, Bind.bind]
  rw [herr, htpc]
  generalize next.relativeMode = m
  cases m <;> decide +kernel

/-- C42: with an interval in range, the vector has the announced length, one tonic bit and one mode bit,
and zeros elsewhere. -/
theorem C42_vector (k next : Key) (r : Int) (hr : Interval k next r) :
    ∃ v, k.changeVector next = .ok v ∧ v.length = keyChangeVectorLength k.tonicType false ∧
      v.length = specIntervals k.tonicType + 2 ∧
      ∀ (i : Nat) x, v[i]? = some x →
        x = if (i : Int) = bit k.tonicType r ∨ i = specIntervals k.tonicType + modeBit next.relativeMode
          then 1 else 0 := by
  have hb := bit_range hr
  refine ⟨_, changeVector_in hr, ?_, ?_, ?_⟩
  · rw [List.length_append, hot_length, hot_length, keyLength]
  · rw [List.length_append, hot_length, hot_length]
  · intro i x hx
    have hm : modeBit next.relativeMode < 2 := by cases next.relativeMode <;> decide
    by_cases hi : i < specIntervals k.tonicType
    · rw [List.getElem?_append_left (by rw [hot_length]; exact hi),
        hot_getElem? _ _ _ (by omega), if_pos hi] at hx
      injection hx with hx
      rw [← hx]
      apply if_congr _ rfl rfl
      constructor
      · intro h; left; omega
      · rintro (h | h) <;> omega
    · rw [List.getElem?_append_right (by rw [hot_length]; omega), hot_length,
        hot_getElem? _ _ _ hm] at hx
      split at hx
      · injection hx with hx
        rw [← hx]
        apply if_congr _ rfl rfl
        constructor
        · intro h; right; omega
        · rintro (h | h) <;> omega
      · cases hx

theorem infer_key (pt : PitchType) : inferKeyVectorPitchType (specIntervals pt + 2) = .ok pt := by
  cases pt <;> decide

theorem decode_in {pt : PitchType} (n : Nat) (m : KeyMode) (hn : n < specIntervals pt) :
    decodeKeyChangeVector (hot (specIntervals pt) n ++ hot 2 (modeBit m)) =
      .ok ⟨if pt = .tpc then (n : Int) - 14 else n, [m], pt⟩ := by
  have hlen : (hot (specIntervals pt) n ++ hot 2 (modeBit m)).length = specIntervals pt + 2 := by
    rw [List.length_append, hot_length, hot_length]
  simp only [decodeKeyChangeVector, Bind.bind, hlen, infer_key, Except.bind, whereOne_hot _ _ hn]
  have hd : (hot (specIntervals pt) n ++ hot 2 (modeBit m)).drop (specIntervals pt + 2 - 2) =
      hot 2 (modeBit m) := by
    have : specIntervals pt + 2 - 2 = (hot (specIntervals pt) n).length := by rw [hot_length]; omega
    rw [this, List.drop_left]
  rw [hd]
  have hm : ((KeyMode.all.zip (hot 2 (modeBit m))).filter (fun p => decide (p.2 = 1))).map (·.1) = [m] := by
    cases m <;> decide +kernel
  rw [hm]
  rfl

/-- C42: the vector decodes to the interval, the mode (as an array with this mode only) and the pitch
type. -/
theorem C42_decode (k next : Key) (r : Int) (hr : Interval k next r) :
    (k.changeVector next).bind decodeKeyChangeVector = .ok ⟨r, [next.relativeMode], k.tonicType⟩ := by
  have hb := bit_range hr
  rw [changeVector_in hr]
  simp only [Except.bind]
  rw [decode_in _ _ (by omega)]
  revert hb
  unfold bit specIntervals
  cases k.tonicType <;> simp only [if_true] <;> intro hb
  · congr 2; omega
  · rw [if_neg (by decide)]; congr 2; omega

/-- C42: outside of the range of intervals (between keys more than 14 fifths apart) there is no index;
the vector has the mode bit only, and is decoded as a change by 15 (major) or 16 (minor) fifths,
whatever the interval was. -/
theorem C42_out_of_range (k next : Key) (hr : ¬ ∃ r, Interval k next r) :
    k.changeOneHot next = .error .valueError ∧
    (k.changeVector next).bind decodeKeyChangeVector =
      .ok ⟨15 + next.relativeMode.value, [next.relativeMode], .tpc⟩ := by
  obtain ⟨htpc, hv⟩ := changeVector_out hr
  constructor
  · have herr : absoluteToRelative next.relativeTonic k.relativeTonic k.tonicType true false =
        .error .valueError := by
      have hb : relBound true false = 14 := rfl
      rw [htpc, C05_tpc, hb, if_neg]
      intro h
      apply hr
      refine ⟨next.relativeTonic - k.relativeTonic, ?_⟩
      unfold Interval
      rw [htpc]
      exact ⟨rfl, h.1, h.2⟩
    simp only [Key.changeOneHot, Bind.bind, herr, Except.bind]
  · rw [hv]
    cases next.relativeMode <;> decide +kernel

/-- From C major to A minor: three fifths up. -/
example : (⟨15, 15, 15, .major, .major, .major, .tpc⟩ : Key).changeOneHot
    ⟨18, 18, 18, .minor, .minor, .minor, .tpc⟩ = .ok (29 + 17) := by decide +kernel

example : Interval ⟨15, 15, 15, .major, .major, .major, .tpc⟩ ⟨18, 18, 18, .minor, .minor, .minor, .tpc⟩ 3 := by
  simp [Interval]

/-- Keys 20 fifths apart: decoded as 15 fifths. -/
example : ((⟨5, 5, 5, .major, .major, .major, .tpc⟩ : Key).changeVector
    ⟨25, 25, 25, .major, .major, .major, .tpc⟩).bind decodeKeyChangeVector = .ok ⟨15, [.major], .tpc⟩ := by
  decide +kernel

/-! ## C62 -/

/-- The pitch types given to the decoder: the one of the chords, or else the one of the keys. -/
def TypesGiven (rootType tonicType : Option PitchType) (rt tt : PitchType) : Prop :=
  rootType = some rt ∨ (rootType = none ∧ tonicType = some tt)

theorem part_length {rootType tonicType : Option PitchType} {rt tt : PitchType} {pad : Bool}
    (h : TypesGiven rootType tonicType rt tt) :
    chordPartLength (specLength rt pad + keyChangeVectorLength tt false + 1) rootType tonicType pad =
      .ok (specLength rt pad) := by
  have hc : chordVectorLength rt true pad = specLength rt pad := by cases rt <;> cases pad <;> rfl
  rcases h with rfl | ⟨rfl, rfl⟩
  · simp only [chordPartLength, hc]
  · simp only [chordPartLength]
    congr 1; omega

theorem last_append (v : List ℚ) (x : ℚ) : pyGet (v ++ [x]) (-1) = .ok x := by
  simp only [pyGet, List.length_append, List.length_singleton]
  rw [if_neg (by omega), if_pos (by omega)]
  have : (((v.length + 1 : Nat) : Int) + -1).toNat = v.length := by omega
  rw [this]
  simp

theorem decode_parts {rootType tonicType : Option PitchType} {rt tt : PitchType} {pad : Bool}
    (h : TypesGiven rootType tonicType rt tt) (chord kv : List ℚ) (x : ℚ)
    (hc : chord.length = specLength rt pad) (hk : kv.length = keyChangeVectorLength tt false) :
    decodeChordAndKeyChange (chord ++ (kv ++ [x])) rootType tonicType pad =
      (decodeChordVector chord pad none).bind fun c =>
        if x ≠ 0 then (decodeKeyChangeVector kv).bind fun k => .ok (c, some k)
        else if kv.sum > 0 then .error .valueError else .ok (c, none) := by
  have hlen : (chord ++ (kv ++ [x])).length = specLength rt pad + keyChangeVectorLength tt false + 1 := by
    simp only [List.length_append, hc, hk, List.length_singleton]; omega
  have ht : (chord ++ (kv ++ [x])).take (specLength rt pad) = chord := by rw [← hc, List.take_left]
  have hd : (chord ++ (kv ++ [x])).dropLast.drop (specLength rt pad) = kv := by
    rw [← List.append_assoc, List.dropLast_concat, ← hc, List.drop_left]
  have hg : pyGet (chord ++ (kv ++ [x])) (-1) = .ok x := by
    rw [← List.append_assoc]; exact last_append _ _
  simp only [decodeChordAndKeyChange, Bind.bind, hlen, part_length h, Except.bind, ht, hd, hg]

theorem zeros_sum (n : Nat) : (zeros n).sum = 0 := by simp [zeros]

/-- C62: a row of the chord and key sequence data decodes to its chord and to its key change: none inside
of a key, and the interval and mode of the change (within range) at the first chord of a key. -/
theorem C62_round_trip (c : Chord ℚ) (tt : PitchType) (change : Option (Key × Key)) (pad : Bool)
    (row : List ℚ) (rootType tonicType : Option PitchType) (hl : Levels c)
    (h : sequenceRow c tt change pad = .ok row) (ht : TypesGiven rootType tonicType c.pitchType tt)
    (hk : ∀ prev key, change = some (prev, key) → ∃ r, Interval prev key r) :
    ∃ d ko, decodeChordAndKeyChange row rootType tonicType pad = .ok (d, ko) ∧
      (RelPitch c.pitchType pad c.root c.keyTonic d.root ∧ RelPitch c.pitchType pad c.bass c.keyTonic d.bass ∧
        d.chordType = c.chordType ∧ d.inversion = c.inversion ∧ d.onsetLevel = c.onsetLevel ∧
        d.offsetLevel = c.offsetLevel ∧ d.keyMode = c.keyMode ∧ d.pitchType = c.pitchType) ∧
      (change = none → ko = none) ∧
      ∀ prev key, change = some (prev, key) → ∃ r, Interval prev key r ∧
        ko = some ⟨r, [key.relativeMode], prev.tonicType⟩ := by
  simp only [sequenceRow, Bind.bind] at h
  obtain ⟨v, hv, h⟩ := bind_ok h
  obtain ⟨hlen, _, d, hd, g1, g2, g3, g4, g5, g6, g7, g8⟩ :=
    C41_round_trip c none pad noReduction v none (Or.inl rfl) hl.1 hl.2.1 hl.2.2 hv
  have hno : noReduction c.chordType = c.chordType := by cases c.chordType <;> rfl
  rw [hno] at g3
  cases change with
  | none =>
    injection h with h
    have hz : zeros (1 + keyChangeVectorLength tt false) = zeros (keyChangeVectorLength tt false) ++ [0] := by
      rw [zeros, Nat.add_comm, List.replicate_succ', zeros]
    refine ⟨d, none, ?_, ⟨g1, g2, g3, g4, g5, g6, g7, g8⟩, fun _ => rfl, by simp⟩
    rw [← h, hz, decode_parts ht v _ 0 hlen (zeros_length _), hd]
    simp only [Except.bind, zeros_sum]
    simp
  | some x =>
    obtain ⟨prev, key⟩ := x
    obtain ⟨kv, hkv, h⟩ := bind_ok h
    split at h
    · cases h
    · rename_i hkl
      injection h with h
      obtain ⟨r, hr⟩ := hk prev key rfl
      have hdec := C42_decode prev key r hr
      rw [hkv] at hdec
      simp only [Except.bind] at hdec
      refine ⟨d, some ⟨r, [key.relativeMode], prev.tonicType⟩, ?_, ⟨g1, g2, g3, g4, g5, g6, g7, g8⟩,
        by simp, ?_⟩
      · rw [← h, List.append_assoc, decode_parts ht v kv 1 hlen (not_not.1 hkl), hd]
        simp only [Except.bind, hdec]
        simp
      · intro prev' key' he
        simp only [Option.some.injEq, Prod.mk.injEq] at he
        obtain ⟨rfl, rfl⟩ := he
        exact ⟨r, hr, rfl⟩

/-- C62: without any pitch type, nothing is decoded; a row inside of a key that holds a key vector is
rejected. -/
theorem C62_rejects (c : Chord ℚ) (pad : Bool) (chord kv : List ℚ) (rootType tonicType : Option PitchType)
    (tt : PitchType) (hl : Levels c) (hc : c.toVec none pad noReduction = .ok chord)
    (hk : kv.length = keyChangeVectorLength tt false) (hs : kv.sum > 0) :
    decodeChordAndKeyChange (chord ++ (kv ++ [0])) none none pad = .error .valueError ∧
    (TypesGiven rootType tonicType c.pitchType tt →
      decodeChordAndKeyChange (chord ++ (kv ++ [0])) rootType tonicType pad = .error .valueError) := by
  constructor
  · simp only [decodeChordAndKeyChange, Bind.bind, chordPartLength, Except.bind]
  · intro ht
    obtain ⟨hlen, _, d, hd, _⟩ :=
      C41_round_trip c none pad noReduction chord none (Or.inl rfl) hl.1 hl.2.1 hl.2.2 hc
    rw [decode_parts ht chord kv 0 hlen hk, hd]
    simp only [Except.bind, ne_eq, not_true_eq_false, if_false, if_pos hs]

/-- G7/B as the first chord after a change from C major to A minor. -/
example : (sequenceRow g7 .midi (some (⟨0, 0, 0, .major, .major, .major, .midi⟩,
      ⟨9, 9, 9, .minor, .minor, .minor, .midi⟩)) false).bind
      (fun row => decodeChordAndKeyChange row none (some .midi) false) =
    .ok (⟨10, 2, .minor, .majMin7, 1, 3, 2, .midi⟩, some ⟨9, [.minor], .midi⟩) := by decide +kernel

end Verif.KeyChange
