import Verif.Lemmas.Blocks

/-!
# C01, C02: chord classes
-/

namespace Verif

/-! ## Specification -/

/-- Number of chord roots with the given settings. -/
def specRoots (pt : PitchType) (relative pad : Bool) : Int :=
  match pt, relative, pad with
  | .midi, _, _ => 12
  | .tpc, false, _ => 35
  | .tpc, true, false => 29
  | .tpc, true, true => 39

/-- What the decoder calls the `r`-th root: relative tonal pitch classes start at -14 (-19 when
padded), everything else at 0. -/
def specDecodedRoot (pt : PitchType) (relative pad : Bool) (r : Int) : Int :=
  match pt, relative, pad with
  | .tpc, true, false => r - 14
  | .tpc, true, true => r - 19
  | _, _, _ => r

/-- Triads have three positions, seventh chords four. -/
def specInversions (t : ChordType) : Int :=
  if t ∈ [ChordType.major, .minor, .diminished, .augmented] then 3 else 4

/-- The chords that have a class. -/
def specEncodable (ct : ChordType) (root : Int) (pt : PitchType) (inv : Int)
    (useInv relative pad : Bool) (red : Reduction) : Prop :=
  (0 ≤ root ∧ root < specRoots pt relative pad) ∧
    (useInv = true → 0 ≤ inv ∧ inv < specInversions (red ct))

/-! ## Lemmas -/

theorem specInversions_eq (t : ChordType) : specInversions t = inversionCount t := by
  cases t <;> decide

theorem inversionCount_pos (t : ChordType) : 0 < inversionCount t := by
  cases t <;> decide

theorem indexNumPitches_eq (pt : PitchType) (relative pad : Bool) :
    indexNumPitches pt relative pad = specRoots pt relative pad := by
  cases pt <;> cases relative <;> cases pad <;> decide

theorem specRoots_pos (pt : PitchType) (relative pad : Bool) : 0 < specRoots pt relative pad := by
  cases pt <;> cases relative <;> cases pad <;> decide

theorem classRoots_length (pt : PitchType) (relative pad : Bool) :
    ((classRoots pt relative pad).length : Int) = specRoots pt relative pad := by
  cases pt <;> cases relative <;> cases pad <;> decide

theorem classRoots_getElem? (pt : PitchType) (relative pad : Bool) (r : Nat)
    (h : (r : Int) < specRoots pt relative pad) :
    (classRoots pt relative pad)[r]? = some (specDecodedRoot pt relative pad r) := by
  have hl := classRoots_length pt relative pad
  cases pt <;> cases relative <;> cases pad <;>
    simp only [classRoots, specRoots, specDecodedRoot, if_true, if_false, Bool.false_eq_true] at * <;>
    rw [pyRange_getElem?] <;>
    simp [NUM_PITCHES, MIN_RELATIVE_TPC, MAX_RELATIVE_TPC, RELATIVE_TPC_EXTRA] <;> omega

theorem classInversions_length (useInv : Bool) (ct : ChordType) :
    (classInversions useInv ct).length = if useInv then inversionCount ct else 1 := by
  cases useInv <;> simp [classInversions, pyRange_length]

theorem mem_reducedTypes (red : Reduction) (t : ChordType) :
    t ∈ reducedTypes red ↔ ∃ s, red s = t := by
  simp only [reducedTypes, List.mem_filter, List.any_eq_true, decide_eq_true_eq]
  constructor
  · rintro ⟨_, s, _, h⟩; exact ⟨s, h⟩
  · rintro ⟨s, h⟩; exact ⟨ChordType.mem_all t, s, ChordType.mem_all s, h⟩

theorem reducedTypes_nodup (red : Reduction) : (reducedTypes red).Nodup :=
  List.Pairwise.filter _ (by decide : ChordType.all.Nodup)

/-- Size of the block of one chord type. -/
def typeBlock (pt : PitchType) (useInv relative pad : Bool) (ct : ChordType) :
    List (Int × ChordType × Int) :=
  (classRoots pt relative pad).flatMap fun root =>
    (classInversions useInv ct).map fun inv => (root, ct, inv)

theorem typeBlock_length (pt : PitchType) (useInv relative pad : Bool) (ct : ChordType) :
    ((typeBlock pt useInv relative pad ct).length : Int) =
      specRoots pt relative pad * (if useInv then (inversionCount ct : Int) else 1) := by
  rw [typeBlock, length_flatMap_const _ (if useInv then inversionCount ct else 1)]
  · rw [Int.natCast_mul, classRoots_length]; cases useInv <;> simp
  · intro x _; simp [classInversions_length]

theorem typeBlock_getElem? (pt : PitchType) (useInv relative pad : Bool) (ct : ChordType)
    (r i : Nat) (hr : (r : Int) < specRoots pt relative pad)
    (hi : i < if useInv then inversionCount ct else 1) :
    (typeBlock pt useInv relative pad ct)[r * (if useInv then inversionCount ct else 1) + i]? =
      some (specDecodedRoot pt relative pad r, ct, (i : Int)) := by
  rw [typeBlock, flatMap_const_getElem? _ (if useInv then inversionCount ct else 1) _ _ r i _
    (classRoots_getElem? pt relative pad r hr) hi]
  · cases useInv
    · simp at hi; subst hi; simp [classInversions]
    · simp at hi
      simp [classInversions, pyRange_getElem? 0 (inversionCount ct) i (by simpa using hi)]
  · intro x _; simp [classInversions_length]

/-- Sum of the sizes of the blocks before position `k`, in the form computed by the code. -/
theorem blockSum (pt : PitchType) (useInv relative pad : Bool) (types : List ChordType) :
    (((types.map fun t => (typeBlock pt useInv relative pad t).length).sum : Nat) : Int) =
      (((if useInv then types.map (fun t => (inversionCount t : Int)) else types.map (fun _ => 1)
        : List Int)).map (fun k => specRoots pt relative pad * k)).sum := by
  rw [int_sum_cast]
  cases useInv <;> simp [List.map_map, Function.comp_def, typeBlock_length]

theorem take_ite_map (useInv : Bool) (types : List ChordType) (k : Nat) :
    (if useInv then types.map (fun t => (inversionCount t : Int)) else types.map (fun _ => 1)
      : List Int).take k =
    (if useInv then (types.take k).map (fun t => (inversionCount t : Int))
      else (types.take k).map (fun _ => 1)) := by
  cases useInv <;> simp [List.map_take]

theorem chordClasses_eq (pt : PitchType) (useInv relative pad : Bool) (red : Reduction) :
    chordClasses pt useInv relative pad red =
      (reducedTypes red).flatMap (typeBlock pt useInv relative pad) := rfl

/-- The index of class (type position `k`, root `r`, inversion `i`), and the class found there. -/
theorem classes_at (pt : PitchType) (useInv relative pad : Bool) (red : Reduction)
    (k r i : Nat) (t : ChordType) (hk : (reducedTypes red)[k]? = some t)
    (hr : (r : Int) < specRoots pt relative pad) (hi : i < if useInv then inversionCount t else 1) :
    (chordClasses pt useInv relative pad red)[
      (((reducedTypes red).take k).map fun t => (typeBlock pt useInv relative pad t).length).sum
        + (r * (if useInv then inversionCount t else 1) + i)]? =
      some (specDecodedRoot pt relative pad r, t, (i : Int)) := by
  have hlt : r * (if useInv then inversionCount t else 1) + i <
      (typeBlock pt useInv relative pad t).length := by
    have h := typeBlock_getElem? pt useInv relative pad t r i hr hi
    exact (List.getElem?_eq_some_iff.mp h).1
  rw [chordClasses_eq, flatMap_block_getElem? _ _ k _ t hk hlt]
  exact typeBlock_getElem? pt useInv relative pad t r i hr hi

/-- The value computed by the encoder for an encodable chord. -/
theorem encode_value (ct : ChordType) (r : Nat) (pt : PitchType) (inv : Int)
    (useInv relative pad : Bool) (red : Reduction)
    (h : specEncodable ct r pt inv useInv relative pad red) :
    chordOneHotIndex ct r pt inv useInv relative pad red = .ok
      (((((reducedTypes red).take ((reducedTypes red).idxOf (red ct))).map
          fun t => (typeBlock pt useInv relative pad t).length).sum
        + (r * (if useInv then inversionCount (red ct) else 1)
          + (if useInv then inv.toNat else 0)) : Nat) : Int) := by
  obtain ⟨⟨h0, h1⟩, h2⟩ := h
  have hm : red ct ∈ reducedTypes red := (mem_reducedTypes _ _).2 ⟨ct, rfl⟩
  have hlt := List.idxOf_lt_length_of_mem hm
  have hget : (reducedTypes red)[(reducedTypes red).idxOf (red ct)]? = some (red ct) := by
    rw [List.getElem?_eq_getElem hlt, List.getElem_idxOf hlt]
  unfold chordOneHotIndex
  simp only [indexNumPitches_eq]
  rw [if_neg (by omega)]
  rw [if_neg (by rw [← specInversions_eq]; intro ⟨hu, hb⟩; have := h2 hu; omega)]
  cases useInv
  · simp only [Bool.false_eq_true, if_false] at *
    rw [pyGet_ofNat _ _ 1 (by simp [hget])]
    simp only [Bind.bind, Except.bind]
    congr 1
    have hb := blockSum pt false relative pad
      ((reducedTypes red).take ((reducedTypes red).idxOf (red ct)))
    simp only [Bool.false_eq_true, if_false] at hb
    rw [Int.natCast_add, hb, ← List.map_take]
    simp
  · simp only [if_true] at *
    rw [pyGet_ofNat _ _ (inversionCount (red ct) : Int) (by simp [hget])]
    simp only [Bind.bind, Except.bind]
    congr 1
    have hb := blockSum pt true relative pad
      ((reducedTypes red).take ((reducedTypes red).idxOf (red ct)))
    simp only [if_true] at hb
    rw [Int.natCast_add, hb, ← List.map_take, Int.natCast_add, Int.natCast_mul,
      Int.toNat_of_nonneg (h2 trivial).1, Int.mul_comm (r : Int), Int.add_assoc]

theorem chordOneHotLength_eq (pt : PitchType) (useInv relative pad : Bool) (red : Reduction) :
    chordOneHotLength pt relative useInv pad red =
      ((chordClasses pt useInv relative pad red).length : Int) := by
  rw [chordClasses_eq, List.length_flatMap, blockSum]
  have hn : (if relative = true ∧ pt = .tpc then
      (if pad then MAX_RELATIVE_TPC - MIN_RELATIVE_TPC + RELATIVE_TPC_EXTRA * 2
       else MAX_RELATIVE_TPC - MIN_RELATIVE_TPC)
    else NUM_PITCHES pt) = specRoots pt relative pad := by
    cases pt <;> cases relative <;> cases pad <;> decide
  unfold chordOneHotLength
  simp only [hn]
  cases useInv
  · simp only [Bool.false_eq_true, if_false, List.map_map, Function.comp_def, Int.mul_one]
    generalize reducedTypes red = l
    induction l with
    | nil => simp
    | cons a l ih =>
      simp only [List.length_cons, List.map_cons, List.sum_cons, Int.natCast_add, Int.mul_add, ih]
      omega
  · simp only [if_true, List.map_map, Function.comp_def]
    congr 2
    funext t; exact Int.mul_comm _ _

theorem chordOneHotIndex_error (ct : ChordType) (root : Int) (pt : PitchType) (inv : Int)
    (useInv relative pad : Bool) (red : Reduction)
    (h : ¬ specEncodable ct root pt inv useInv relative pad red) :
    chordOneHotIndex ct root pt inv useInv relative pad red = .error .valueError := by
  unfold chordOneHotIndex
  simp only [indexNumPitches_eq]
  by_cases h1 : root < 0 ∨ root ≥ specRoots pt relative pad
  · rw [if_pos h1]
  · rw [if_neg h1, if_pos]
    rw [← specInversions_eq]
    apply Classical.byContradiction
    intro h2
    apply h
    refine ⟨by omega, fun hu => ?_⟩
    simp only [hu, true_and] at h2
    omega

/-! ## Theorems -/

/-- C01: exactly the chords of the specification are accepted; all others raise `ValueError`. -/
theorem C01_accepts_iff (ct : ChordType) (root : Int) (pt : PitchType) (inv : Int)
    (useInv relative pad : Bool) (red : Reduction) :
    ((∃ i, chordOneHotIndex ct root pt inv useInv relative pad red = .ok i) ↔
      specEncodable ct root pt inv useInv relative pad red) ∧
    (¬ specEncodable ct root pt inv useInv relative pad red →
      chordOneHotIndex ct root pt inv useInv relative pad red = .error .valueError) := by
  refine ⟨⟨?_, ?_⟩, chordOneHotIndex_error ct root pt inv useInv relative pad red⟩
  · rintro ⟨i, hi⟩
    apply Classical.byContradiction
    intro h
    rw [chordOneHotIndex_error _ _ _ _ _ _ _ _ h] at hi
    cases hi
  · intro h
    have h0 := h.1.1
    have hr : root = (root.toNat : Int) := by omega
    rw [hr] at h ⊢
    exact ⟨_, encode_value ct root.toNat pt inv useInv relative pad red h⟩

/-- C01: an accepted chord gets an index below the vector length, and decoding that index gives
back the root (in the decoder's numbering), the reduced chord type and the inversion. -/
theorem C01_encode_decode (ct : ChordType) (root : Int) (pt : PitchType) (inv : Int)
    (useInv relative pad : Bool) (red : Reduction) (i : Int)
    (h : chordOneHotIndex ct root pt inv useInv relative pad red = .ok i) :
    0 ≤ i ∧ i < chordOneHotLength pt relative useInv pad red ∧
      chordFromOneHotIndex i pt useInv relative pad red =
        .ok (specDecodedRoot pt relative pad root, red ct, if useInv then inv else 0) := by
  have hs := (C01_accepts_iff ct root pt inv useInv relative pad red).1.1 ⟨i, h⟩
  have h0 := hs.1.1
  have hr : root = (root.toNat : Int) := by omega
  rw [hr] at h hs ⊢
  rw [encode_value _ _ _ _ _ _ _ _ hs] at h
  injection h with h
  have hm : red ct ∈ reducedTypes red := (mem_reducedTypes _ _).2 ⟨ct, rfl⟩
  have hlt := List.idxOf_lt_length_of_mem hm
  have hget : (reducedTypes red)[(reducedTypes red).idxOf (red ct)]? = some (red ct) := by
    rw [List.getElem?_eq_getElem hlt, List.getElem_idxOf hlt]
  have hinv : (if useInv then inv.toNat else 0) < if useInv then inversionCount (red ct) else 1 := by
    cases useInv
    · simp
    · have := hs.2 rfl; rw [specInversions_eq] at this; simp only [if_true]; omega
  have hat := classes_at pt useInv relative pad red _ root.toNat _ (red ct) hget hs.1.2 hinv
  have hlen := (List.getElem?_eq_some_iff.mp hat).1
  refine ⟨by omega, ?_, ?_⟩
  · rw [chordOneHotLength_eq, ← h]; exact_mod_cast hlen
  · rw [chordFromOneHotIndex, ← h, pyGet_ofNat _ _ _ hat]
    cases useInv
    · simp
    · have := hs.2 rfl
      simp only [if_true, Int.toNat_of_nonneg this.1]

/-- Non-trivial instance of the hypothesis of `C01_encode_decode`: a relative, padded, reduced
dominant seventh. -/
example : chordOneHotIndex .majMin7 20 .tpc 2 true true true triadReduction = .ok 62 := by decide

example : ¬ specEncodable .majMin7 20 .tpc 3 true true true triadReduction := by
  simp [specEncodable, specInversions, triadReduction]

/-- C02: every index below the class count decodes, and re-encoding the decoded chord (with the
root in the encoder's numbering) gives the index back. -/
theorem C02_decode_encode (i : Int) (pt : PitchType) (useInv relative pad : Bool) (red : Reduction)
    (h0 : 0 ≤ i) (h1 : i < chordOneHotLength pt relative useInv pad red) :
    ∃ (r : Int) (ct : ChordType) (inv : Int),
      chordFromOneHotIndex i pt useInv relative pad red =
        .ok (specDecodedRoot pt relative pad r, red ct, inv) ∧
      chordOneHotIndex ct r pt inv useInv relative pad red = .ok i := by
  rw [chordOneHotLength_eq, chordClasses_eq] at h1
  obtain ⟨n, rfl⟩ : ∃ n : Nat, i = n := ⟨i.toNat, by omega⟩
  obtain ⟨k, j, t, hk, hj, hn⟩ := exists_block _ _ n (by exact_mod_cast h1)
  have hjl := typeBlock_length pt useInv relative pad t
  have hpos : 0 < (if useInv then inversionCount t else 1) := by
    cases useInv <;> simp [inversionCount_pos]
  have hcast : (if useInv then (inversionCount t : Int) else 1) =
      (((if useInv then inversionCount t else 1) : Nat) : Int) := by cases useInv <;> simp
  rw [hcast] at hjl
  generalize hm : (if useInv then inversionCount t else 1) = m at *
  have hroots : ((j / m : Nat) : Int) < specRoots pt relative pad := by
    have hsp := specRoots_pos pt relative pad
    obtain ⟨R, hR⟩ : ∃ R : Nat, specRoots pt relative pad = R :=
      ⟨(specRoots pt relative pad).toNat, by omega⟩
    rw [hR] at hjl ⊢
    have hl : (typeBlock pt useInv relative pad t).length = R * m := by exact_mod_cast hjl
    rw [hl] at hj
    have := (Nat.div_lt_iff_lt_mul hpos).2 hj
    exact_mod_cast this
  have hmod : j % m < m := Nat.mod_lt _ hpos
  have hjm : j / m * m + j % m = j := by rw [Nat.mul_comm]; exact Nat.div_add_mod j m
  obtain ⟨ct, hct⟩ := (mem_reducedTypes red t).1 (List.mem_of_getElem? hk)
  have hidx : (reducedTypes red).idxOf (red ct) = k := by
    rw [hct]
    obtain ⟨hkl, hkt⟩ := List.getElem?_eq_some_iff.mp hk
    rw [← hkt]
    exact (reducedTypes_nodup red).idxOf_getElem k hkl
  have hat := classes_at pt useInv relative pad red k (j / m) (j % m) t hk hroots
    (by rw [hm]; exact hmod)
  rw [hm, hjm, ← hn] at hat
  refine ⟨((j / m : Nat) : Int), ct, ((j % m : Nat) : Int), ?_, ?_⟩
  · rw [chordFromOneHotIndex, pyGet_ofNat _ _ _ hat, hct]
  · have henc : specEncodable ct ((j / m : Nat) : Int) pt ((j % m : Nat) : Int)
        useInv relative pad red := by
      refine ⟨⟨Int.natCast_nonneg _, hroots⟩, fun hu => ?_⟩
      rw [hct, specInversions_eq]
      subst hu
      simp only [if_true] at hm
      rw [← hm] at hmod ⊢
      omega
    rw [encode_value _ _ _ _ _ _ _ _ henc, hidx, hct, hm]
    congr 1
    rw [hn]
    have : (if useInv then ((j % m : Nat) : Int).toNat else 0) = j % m := by
      cases useInv
      · simp at hm; subst hm; simp [Nat.mod_one]
      · simp only [if_true]; exact Int.toNat_natCast _
    rw [this, hjm]

/-- C02: two different chords (up to reduction, and up to inversion when inversions are off) never
share an index. -/
theorem C02_injective (ct ct' : ChordType) (r r' : Int) (pt : PitchType) (inv inv' : Int)
    (useInv relative pad : Bool) (red : Reduction) (i : Int)
    (h : chordOneHotIndex ct r pt inv useInv relative pad red = .ok i)
    (h' : chordOneHotIndex ct' r' pt inv' useInv relative pad red = .ok i) :
    r = r' ∧ red ct = red ct' ∧ (useInv = true → inv = inv') := by
  have h1 := (C01_encode_decode _ _ _ _ _ _ _ _ _ h).2.2
  have h2 := (C01_encode_decode _ _ _ _ _ _ _ _ _ h').2.2
  rw [h1] at h2
  injection h2 with h2
  simp only [Prod.mk.injEq] at h2
  refine ⟨?_, h2.2.1, fun hu => by simpa [hu] using h2.2.2⟩
  have := h2.1
  revert this
  cases pt <;> cases relative <;> cases pad <;> simp [specDecodedRoot] <;> omega

end Verif
