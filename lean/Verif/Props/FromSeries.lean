import Verif.FromSeries
import Verif.Props.Pitch
import Verif.Props.Chains
import Verif.Props.ChordTones
import Verif.Props.Rhythm

/-!
# C78: chords and keys from the rows of a table
-/

namespace Verif.FromSeries

/-! ## Pitch types -/

/-- The pitch class of a pitch in fifths. -/
def pitchClass (p : Int) : Int := (7 * (p - 15)) % 12

theorem stripFlats_mem (s : Str) : ∀ c ∈ s, c ∈ (stripFlats s).2 ∨ c = 'b' := by
  induction s with
  | nil => simp [stripFlats]
  | cons x s ih =>
    cases s with
    | nil => simp [stripFlats]
    | cons y s =>
      intro c hc
      rw [stripFlats]
      by_cases hx : x = 'b'
      · rw [if_pos hx]
        rcases List.mem_cons.1 hc with rfl | hc
        · exact .inr hx
        · exact ih c hc
      · rw [if_neg hx]
        exact .inl hc

theorem stripSharps_mem (s : Str) (a : Int) (t : Str) (h : stripSharps s = .ok (a, t)) :
    ∀ c ∈ s, c ∈ t ∨ c = '#' := by
  induction s generalizing a t with
  | nil => simp [stripSharps] at h
  | cons x s ih =>
    intro c hc
    rw [stripSharps] at h
    by_cases hx : x = '#'
    · rw [if_pos hx] at h
      cases hs : stripSharps s with
      | error e => rw [hs] at h; cases h
      | ok r =>
        rw [hs] at h
        simp only [Bind.bind, Except.bind, Except.ok.injEq, Prod.mk.injEq] at h
        obtain ⟨_, rfl⟩ := h
        rcases List.mem_cons.1 hc with rfl | hc
        · exact .inr hx
        · exact ih r.1 r.2 hs c hc
    · rw [if_neg hx] at h
      simp only [Except.ok.injEq, Prod.mk.injEq] at h
      rw [← h.2]
      exact .inl hc

theorem behind_mem (s : Str) (a : Int) (t : Str) (h : accidentalAdjustment s false = .ok (a, t)) :
    ∀ c ∈ s, c ∈ t ∨ c = 'b' ∨ c = '#' := by
  intro c hc
  unfold accidentalAdjustment at h
  by_cases hs : s = []
  · rw [if_pos hs] at h; cases h
  · rw [if_neg hs] at h
    simp only [Bool.false_eq_true, if_false, Bind.bind, Except.bind] at h
    cases hr : stripSharps (stripFlats s.reverse).2 with
    | error e => rw [hr] at h; cases h
    | ok r =>
      rw [hr] at h
      simp only [Except.ok.injEq, Prod.mk.injEq] at h
      rcases stripFlats_mem s.reverse c (List.mem_reverse.2 hc) with h1 | h1
      · rcases stripSharps_mem _ _ _ hr c h1 with h2 | h2
        · left; rw [← h.2]; exact List.mem_reverse.2 h2
        · exact .inr (.inr h2)
      · exact .inr (.inl h1)

theorem letter_midi (s : Str) (p : Int) (h : stringToPitch .tpc s = some p) :
    '/' ∉ s ∧ ∃ q, stringToPitch .midi s = some q ∧ q = pitchClass p := by
  match s with
  | [] => simp [stringToPitch] at h
  | _ :: _ :: _ => simp [stringToPitch] at h
  | [c] =>
    have hslash : c ≠ '/' := by
      rintro rfl
      revert h
      simp [stringToPitch]
    refine ⟨by simpa using fun e => hslash e.symm, ?_⟩
    simp only [stringToPitch] at h ⊢
    split at h
    · cases h; rename_i hc; rcases hc with rfl | rfl <;> exact ⟨_, rfl, by decide⟩
    split at h
    · cases h; rename_i hc; rcases hc with rfl | rfl <;> exact ⟨_, rfl, by decide⟩
    split at h
    · cases h; rename_i hc; rcases hc with rfl | rfl <;> exact ⟨_, rfl, by decide⟩
    split at h
    · cases h; rename_i hc; rcases hc with rfl | rfl <;> exact ⟨_, rfl, by decide⟩
    split at h
    · cases h; rename_i hc; rcases hc with rfl | rfl <;> exact ⟨_, rfl, by decide⟩
    split at h
    · cases h; rename_i hc; rcases hc with rfl | rfl <;> exact ⟨_, rfl, by decide⟩
    split at h
    · cases h; rename_i hc; rcases hc with rfl | rfl <;> exact ⟨_, rfl, by decide⟩
    · cases h

theorem pitch_midi (s : Str) (p : Int) (h : pitchFromString s .tpc = .ok p) :
    0 ≤ p ∧ p < 35 ∧ pitchFromString s .midi = .ok (pitchClass p) := by
  have hb : ∀ s : Str, (if PitchType.tpc = .midi ∧ '/' ∈ s then (splitSlash s).headD [] else s) = s := by
    intro s; rw [if_neg (by simp)]
  simp only [pitchFromString, hb, Bind.bind, Except.bind] at h
  cases ha : accidentalAdjustment s false with
  | error e => rw [ha] at h; cases h
  | ok r =>
    obtain ⟨a, t⟩ := r
    rw [ha] at h
    simp only at h
    cases hl : stringToPitch .tpc t with
    | none => rw [hl] at h; cases h
    | some q =>
      rw [hl] at h
      simp only at h
      have n35 : NUM_PITCHES .tpc = 35 := rfl
      obtain ⟨hns, q', hq, hq'⟩ := letter_midi t q hl
      have hns' : '/' ∉ s := by
        intro hc
        rcases behind_mem s a t ha _ hc with h | h | h
        · exact hns h
        · revert h; decide
        · revert h; decide
      have u7 : accidentalUnit .tpc = 7 := rfl
      split at h
      · cases h
      · rename_i hr
        injection h with h
        rw [u7] at h hr
        refine ⟨by omega, by omega, ?_⟩
        have hm : (if PitchType.midi = .midi ∧ '/' ∈ s then (splitSlash s).headD [] else s) = s := by
          rw [if_neg (fun h => hns' h.2)]
        have n12 : NUM_PITCHES .midi = 12 := rfl
        unfold pitchFromString
        rw [hm]
        simp only [Bind.bind, Except.bind, ha, hq, accidentalUnit, n12, Except.ok.injEq]
        simp only [pitchClass] at hq' ⊢
        omega

theorem scale_midi (mode : KeyMode) (n : Nat) (h : n ∈ [1, 2, 3, 4, 5, 6, 7]) : ∃ i j,
    pyGet (scaleIntervals mode .tpc) (n : Int) = .ok i ∧ pyGet (scaleIntervals mode .midi) (n : Int) = .ok j ∧
      j = 7 * i % 12 := by
  simp only [List.mem_cons, List.not_mem_nil, or_false] at h
  rcases h with rfl | rfl | rfl | rfl | rfl | rfl | rfl <;> cases mode <;>
    exact ⟨_, _, rfl, rfl, by decide⟩

theorem degree_mem {s : Str} {n : Nat} (h : scaleDegreeToNumber s = some n) : n ∈ [1, 2, 3, 4, 5, 6, 7] := by
  unfold scaleDegreeToNumber at h
  split at h; · cases h; decide
  split at h; · cases h; decide
  split at h; · cases h; decide
  split at h; · cases h; decide
  split at h; · cases h; decide
  split at h; · cases h; decide
  split at h; · cases h; decide
  cases h

theorem interval_midi (s : Str) (b : Bool) (mode : KeyMode) (i : Int)
    (h : intervalFromScaleDegree s b mode .tpc = .ok i) :
    ∃ j, intervalFromScaleDegree s b mode .midi = .ok j ∧ j % 12 = 7 * i % 12 := by
  simp only [intervalFromScaleDegree, Bind.bind, Except.bind] at h ⊢
  cases ha : accidentalAdjustment s b with
  | error e => rw [ha] at h; cases h
  | ok r =>
    obtain ⟨a, t⟩ := r
    rw [ha] at h
    simp only at h ⊢
    cases hn : scaleDegreeToNumber t with
    | none => rw [hn] at h; cases h
    | some n =>
      rw [hn] at h
      obtain ⟨x, y, e1, e2, e3⟩ := scale_midi mode n (degree_mem hn)
      simp only [e1, e2, accidentalUnit, Except.ok.injEq] at h ⊢
      exact ⟨_, rfl, by omega⟩

theorem transpose_midi (p i q j : Int) (h : transposePitch p i .tpc = .ok q) (hj : j % 12 = 7 * i % 12) :
    0 ≤ q ∧ q < 35 ∧ q = p + i ∧ transposePitch (pitchClass p) j .midi = .ok (pitchClass q) := by
  have n35 : NUM_PITCHES .tpc = 35 := rfl
  have n12 : NUM_PITCHES .midi = 12 := rfl
  simp only [transposePitch] at h ⊢
  split at h
  · cases h
  · injection h with h
    refine ⟨by omega, by omega, h.symm, ?_⟩
    simp only [n12, pitchClass, Except.ok.injEq]
    omega

theorem decode_midi (l : List Str) (t t' : Int) (m m' : KeyMode)
    (h : decodeRelativeLoop .tpc l t m = .ok (t', m')) :
    decodeRelativeLoop .midi l (pitchClass t) m = .ok (pitchClass t', m') := by
  induction l generalizing t m with
  | nil =>
    simp only [decodeRelativeLoop, Except.ok.injEq, Prod.mk.injEq] at h ⊢
    exact ⟨by rw [h.1], h.2⟩
  | cons r rs ih =>
    simp only [decodeRelativeLoop, intervalFromNumeral, Bind.bind, Except.bind] at h ⊢
    cases hi : intervalFromScaleDegree r true m .tpc with
    | error e => rw [hi] at h; cases h
    | ok i =>
      rw [hi] at h
      simp only at h
      obtain ⟨j, hj, hj'⟩ := interval_midi r true m i hi
      rw [hj]
      simp only
      cases ht : transposePitch t i .tpc with
      | error e => rw [ht] at h; cases h
      | ok q =>
        rw [ht] at h
        simp only at h
        obtain ⟨_, _, _, e⟩ := transpose_midi t i q j ht hj'
        rw [e]
        exact ih q _ h

/-! ## Keys -/

/-- What `decode_relative_keys` reaches from a key, if anything. -/
def Reaches (pt : PitchType) (s : Str) (from_ to_ : Int × KeyMode) : Prop :=
  decodeRelativeKeys s from_.1 from_.2 pt = .ok to_

/-- C78: a key that can be read has the global, local and relative tonics and modes that its row says. -/
theorem C78_key (row : KeyRow) (pt : PitchType) (k : Key) :
    keyFromSeries row pt = some k ↔
      k.tonicType = pt ∧ pitchFromString row.globalkey pt = .ok k.globalTonic ∧
      (k.globalMode = .minor ↔ row.globalIsMinor = true) ∧
      Reaches pt row.localkey (k.globalTonic, k.globalMode) (k.localTonic, k.localMode) ∧
      (row.relativeroot = none → (k.relativeTonic, k.relativeMode) = (k.localTonic, k.localMode)) ∧
      ∀ r, row.relativeroot = some r →
        Reaches pt r (k.localTonic, k.localMode) (k.relativeTonic, k.relativeMode) := by
  obtain ⟨gk, gm, lk, rr⟩ := row
  obtain ⟨rt, lt, gt, rm, lm, gmode, tt⟩ := k
  simp only [keyFromSeries, keyOfRow, Reaches, Bind.bind, Except.bind]
  constructor
  · intro h
    cases h1 : pitchFromString gk pt with
    | error e => rw [h1] at h; cases h
    | ok g =>
      rw [h1] at h
      simp only at h
      cases h2 : decodeRelativeKeys lk g (if gm = true then KeyMode.minor else .major) pt with
      | error e => rw [h2] at h; cases h
      | ok l =>
        rw [h2] at h
        simp only at h
        cases rr with
        | none =>
          simp only [orNone, Option.some.injEq, Key.mk.injEq] at h
          obtain ⟨rfl, rfl, rfl, rfl, rfl, rfl, rfl⟩ := h
          refine ⟨rfl, rfl, by cases gm <;> simp, h2, fun _ => rfl, by simp⟩
        | some r =>
          simp only at h
          cases h3 : decodeRelativeKeys r l.1 l.2 pt with
          | error e => rw [h3] at h; cases h
          | ok x =>
            rw [h3] at h
            simp only [orNone, Option.some.injEq, Key.mk.injEq] at h
            obtain ⟨rfl, rfl, rfl, rfl, rfl, rfl, rfl⟩ := h
            refine ⟨rfl, rfl, by cases gm <;> simp, h2, by simp, ?_⟩
            rintro r' ⟨⟩
            exact h3
  · rintro ⟨rfl, h1, h2, h3, h4, h5⟩
    have hm : (if gm = true then KeyMode.minor else .major) = gmode := by
      by_cases hg : gm = true
      · rw [if_pos hg, h2.2 hg]
      · rw [if_neg hg]
        cases gmode with
        | major => rfl
        | minor => exact absurd (h2.1 rfl) hg
    rw [h1, hm]
    simp only [h3]
    cases rr with
    | none =>
      have := h4 rfl
      simp only [Prod.mk.injEq] at this
      simp only [orNone, this.1, this.2]
    | some r =>
      have := h5 r rfl
      simp only [this, orNone]

/-- C78: a key read with MIDI pitches is the key read with TPC pitches, converted. -/
theorem C78_key_midi (row : KeyRow) (k : Key) (h : keyFromSeries row .tpc = some k) :
    ∃ k', k.toPitchType .midi = .ok k' ∧ keyFromSeries row .midi = some k' := by
  obtain ⟨h1, h2, h3, h4, h5, h6⟩ := (C78_key row .tpc k).1 h
  refine ⟨⟨pitchClass k.relativeTonic, pitchClass k.localTonic, pitchClass k.globalTonic, k.relativeMode,
    k.localMode, k.globalMode, .midi⟩, ?_, ?_⟩
  · rw [Key.toPitchType, h1, if_neg (by simp)]
    simp only [C08_value, Bind.bind, Except.bind]
    rfl
  · rw [C78_key]
    refine ⟨rfl, (pitch_midi _ _ h2).2.2, h3, decode_midi _ _ _ _ _ h4, ?_, ?_⟩
    · intro hr
      have := h5 hr
      simp only [Prod.mk.injEq] at this ⊢
      exact ⟨by rw [this.1], this.2⟩
    · intro r hr
      exact decode_midi _ _ _ _ _ (h6 r hr)

/-! ## The harmony of a chord -/

/-- The interval of the row above the tonic. -/
def Above : PitchType → Int → Int → Int → Prop
  | .tpc, tonic, i, p => p = tonic + i ∧ 0 ≤ p ∧ p < 35
  | .midi, tonic, i, p => p = (tonic + 7 * i) % 12

/-- The pitch `tone` above the root, in the units of the pitch type. -/
def ToneAbove (pt : PitchType) (root tone p : Int) : Prop := transposePitch root tone pt = .ok p

/-- The harmony that a row says. -/
structure HarmonyRight (row : SeriesRow) (pt : PitchType) (red : Reduction) (useInv : Bool)
    (h : SeriesHarmony) : Prop where
  key : keyFromSeries row.key pt = some h.key
  root : Above pt h.key.localTonic row.root h.root
  type : ∃ t, chordTypeFromString row.chordType = .ok t ∧ h.chordType = red t
  inversion : ∃ f, (if useInv = true then chordInversion row.figbass = .ok f else f = 0) ∧
    h.inversion = f % ((inversionCount h.chordType : Nat) : Int)
  bass : ∃ (n : Nat) (tone : Int), (n : Int) = h.inversion ∧ (specTones pt h.chordType)[n]? = some tone ∧
    ToneAbove pt h.root tone h.bass

theorem tpc_range {p i q : Int} (h : transposePitch p i .tpc = .ok q) : q = p + i ∧ 0 ≤ q ∧ q < 35 := by
  obtain ⟨a, b, c, _⟩ := transpose_midi p i q (7 * i) h rfl
  exact ⟨c, a, b⟩

theorem above_iff (pt : PitchType) (t i p : Int) :
    transposePitch t (rowInterval i pt) pt = .ok p ↔ Above pt t i p := by
  have n35 : NUM_PITCHES .tpc = 35 := rfl
  have n12 : NUM_PITCHES .midi = 12 := rfl
  cases pt
  · simp only [rowInterval, Above]
    constructor
    · exact tpc_range
    · rintro ⟨rfl, h⟩
      simp only [transposePitch, n35]
      rw [if_neg (by omega)]
  · simp only [rowInterval, Above, transposePitch, tpcIntervalToMidiInterval, n12, Except.ok.injEq]
    omega

theorem bass_range {pt : PitchType} {root tone b : Int} (h : transposePitch root tone pt = .ok b) :
    assertPitch b pt = .ok () := by
  have n35 : NUM_PITCHES .tpc = 35 := rfl
  have n12 : NUM_PITCHES .midi = 12 := rfl
  cases pt
  · obtain ⟨_, h⟩ := tpc_range h
    rw [assertPitch, if_pos (by omega)]
  · simp only [transposePitch, n12, Except.ok.injEq] at h
    rw [assertPitch, if_pos (by omega)]

theorem inversion_pos (ct : ChordType) : 0 < inversionCount ct := by cases ct <;> decide

theorem pitches_length (pt : PitchType) (ct : ChordType) : (chordPitches pt ct).length = inversionCount ct := by
  rw [chordPitches_eq, List.length_map, specTones_length]

theorem rowInversion_iff (figbass : Option Str) (useInv : Bool) (f : Int) :
    rowInversion figbass useInv = .ok f ↔ (if useInv = true then chordInversion figbass = .ok f else f = 0) := by
  cases useInv
  · simp only [rowInversion, Bool.false_eq_true, if_false, Except.ok.injEq]
    exact eq_comm
  · simp [rowInversion]

theorem harmony_iff (row : SeriesRow) (pt : PitchType) (red : Reduction) (useInv : Bool) (h : SeriesHarmony) :
    seriesHarmony row pt red useInv = .ok h ↔ HarmonyRight row pt red useInv h := by
  unfold seriesHarmony
  constructor
  · intro e
    cases hk : keyFromSeries row.key pt with
    | none => rw [hk] at e; cases e
    | some k =>
      rw [hk] at e
      simp only [Bind.bind, Except.bind] at e
      cases h1 : transposePitch k.localTonic (rowInterval row.root pt) pt with
      | error x => rw [h1] at e; cases e
      | ok root =>
        rw [h1] at e
        simp only at e
        cases h2 : chordTypeFromString row.chordType with
        | error x => rw [h2] at e; cases e
        | ok t =>
          rw [h2] at e
          simp only at e
          cases h3 : rowInversion row.figbass useInv with
          | error x => rw [h3] at e; cases e
          | ok f =>
            rw [h3] at e
            simp only [pitches_length] at e
            have hpos := inversion_pos (red t)
            obtain ⟨n, hn⟩ : ∃ n : Nat, (n : Int) = f % ((inversionCount (red t) : Nat) : Int) :=
              ⟨(f % ((inversionCount (red t) : Nat) : Int)).toNat, by
                have := Int.emod_nonneg f (b := ((inversionCount (red t) : Nat) : Int)) (by omega)
                omega⟩
            have hlt : n < (specTones pt (red t)).length := by
              rw [specTones_length]
              have := Int.emod_lt_of_pos f (b := ((inversionCount (red t) : Nat) : Int)) (by omega)
              omega
            have hb := C14_bass (red t) root n _ pt false (List.getElem?_eq_getElem hlt)
            rw [hn] at hb
            rw [hb] at e
            cases h4 : transposePitch root (specTones pt (red t))[n] pt with
            | error x => rw [h4] at e; cases e
            | ok b =>
              rw [h4] at e
              simp only [bass_range h4] at e
              injection e with e
              subst e
              refine ⟨hk, (above_iff _ _ _ _).1 h1, ⟨t, h2, rfl⟩, ⟨f, (rowInversion_iff _ _ _).1 h3, rfl⟩,
                n, _, hn, List.getElem?_eq_getElem hlt, h4⟩
  · rintro ⟨hk, hr, ⟨t, ht, ht'⟩, ⟨f, hf, hf'⟩, n, tone, hn, htone, hb⟩
    have hb' := C14_bass h.chordType h.root n tone pt false htone
    rw [hn] at hb'
    unfold ToneAbove at hb
    rw [hb] at hb'
    rw [hk]
    obtain ⟨k, root, bass, ct, inv⟩ := h
    simp only at *
    subst ht'
    simp only [Bind.bind, Except.bind, (above_iff _ _ _ _).2 hr, ht, (rowInversion_iff _ _ _).2 hf,
      pitches_length, ← hf', hb', bass_range hb]

/-! ## Levels -/

/-- The metrical level of a position, if its measure is there exactly once. -/
def LevelOf (T : List MeterRow) (pos : Int × ℚ) (l : Nat) : Prop :=
  ∃ m, T.filter (fun m => decide (m.mc = pos.1)) = [m] ∧ metricalLevel pos.2 m.num m.den = .ok l

/-- All levels in the cache are right. -/
def CacheRight (cache : Option LevelCache) : Prop :=
  ∀ c, cache = some c → ∀ num den beat l, c.lookup (num, den, beat) = some l →
    metricalLevel beat num den = .ok l

theorem levelAt_spec (T : List MeterRow) (cache : Option LevelCache) (hc : CacheRight cache) (mc : Int)
    (beat : ℚ) : (∀ l, (levelAt T cache mc beat).1 = .ok l ↔ LevelOf T (mc, beat) l) ∧
      CacheRight (levelAt T cache mc beat).2 := by
  unfold levelAt meterOf LevelOf
  simp only
  split
  · rename_i m e he
    split at he
    · cases he
    · rename_i hne
      refine ⟨fun l => ⟨(by intro h; cases h), ?_⟩, hc⟩
      rintro ⟨m', hm, _⟩
      exact absurd hm (hne m')
  · rename_i m m' he
    split at he
    · rename_i m'' hm
      injection he with he
      subst he
      have key : ∀ l, (∃ m_1, [m''] = [m_1] ∧ metricalLevel beat m_1.num m_1.den = .ok l) ↔
          metricalLevel beat m''.num m''.den = .ok l := by
        intro l
        constructor
        · rintro ⟨x, hx, h⟩
          injection hx with hx
          rw [hx]; exact h
        · intro h
          exact ⟨m'', rfl, h⟩
      simp only [hm, key]
      unfold levelCached
      cases cache with
      | none => exact ⟨fun l => Iff.rfl, hc⟩
      | some c =>
        simp only
        cases hl : c.lookup (m''.num, m''.den, beat) with
        | some l0 =>
          have := hc c rfl _ _ _ _ hl
          simp only
          rw [this]
          exact ⟨fun l => Iff.rfl, hc⟩
        | none =>
          simp only
          cases hv : metricalLevel beat m''.num m''.den with
          | error e => exact ⟨fun l => Iff.rfl, hc⟩
          | ok l0 =>
            refine ⟨fun l => Iff.rfl, ?_⟩
            rintro c' ⟨⟩ num den b l h
            rw [List.lookup_cons] at h
            split at h
            · rename_i heq
              have heq := eq_of_beq heq
              simp only [Prod.mk.injEq] at heq
              obtain ⟨rfl, rfl, rfl⟩ := heq
              injection h with h
              rw [← h]; exact hv
            · exact hc c rfl _ _ _ _ h
    · cases he

/-- The chord that a row says. -/
structure ChordRight (T : List MeterRow) (pt : PitchType) (red : Reduction) (useInv useRelative : Bool)
    (row : SeriesRow) (c : SeriesChord) : Prop where
  noted : ∃ n, row.numeral = some n ∧ n ≠ "@none".toList
  harmony : ∃ k, HarmonyRight row pt red useInv ⟨k, c.chord.root, c.chord.bass, c.chord.chordType,
      c.chord.inversion⟩ ∧
    (if useRelative = true then c.chord.keyTonic = k.relativeTonic ∧ c.chord.keyMode = k.relativeMode
     else c.chord.keyTonic = k.localTonic ∧ c.chord.keyMode = k.localMode)
  onset : c.onset = (row.mc, row.onset)
  offset : c.offset = (row.mcNext, row.onsetNext)
  onsetLevel : ∃ l, LevelOf T c.onset l ∧ c.chord.onsetLevel = (l : Nat)
  offsetLevel : ∃ l, LevelOf T c.offset l ∧ c.chord.offsetLevel = (l : Nat)
  duration : c.chord.duration = row.duration
  pitchType : c.chord.pitchType = pt
  suspension : c.suspension = row.changes

theorem levels_iff (T : List MeterRow) (pt : PitchType) (useRelative : Bool)
    (cache : Option LevelCache) (hc : CacheRight cache) (row : SeriesRow) (h : SeriesHarmony) :
    (∀ c, (seriesLevels T cache row pt useRelative h).1 = some c ↔
      ∃ l1 l2, LevelOf T (row.mc, row.onset) l1 ∧ LevelOf T (row.mcNext, row.onsetNext) l2 ∧
        c = seriesResult row pt useRelative h l1 l2) ∧
    CacheRight (seriesLevels T cache row pt useRelative h).2 := by
  obtain ⟨a1, a2⟩ := levelAt_spec T cache hc row.mc row.onset
  unfold seriesLevels
  generalize levelAt T cache row.mc row.onset = x at a1 a2
  obtain ⟨r1, cache1⟩ := x
  simp only at a1 a2
  cases r1 with
  | error e =>
    refine ⟨fun c => ⟨(by intro h; cases h), ?_⟩, a2⟩
    rintro ⟨l1, _, h1, _⟩
    cases (a1 l1).2 h1
  | ok l1 =>
    obtain ⟨b1, b2⟩ := levelAt_spec T cache1 a2 row.mcNext row.onsetNext
    simp only
    generalize levelAt T cache1 row.mcNext row.onsetNext = y at b1 b2
    obtain ⟨r2, cache2⟩ := y
    simp only at b1 b2
    cases r2 with
    | error e =>
      refine ⟨fun c => ⟨(by intro h; cases h), ?_⟩, b2⟩
      rintro ⟨_, l2, _, h2, _⟩
      cases (b1 l2).2 h2
    | ok l2 =>
      refine ⟨fun c => ⟨?_, ?_⟩, b2⟩
      · intro h
        simp only [Option.some.injEq] at h
        exact ⟨l1, l2, (a1 l1).1 rfl, (b1 l2).1 rfl, h.symm⟩
      · rintro ⟨x, y, h1, h2, rfl⟩
        have e1 := (a1 x).2 h1
        have e2 := (b1 y).2 h2
        injection e1 with e1
        injection e2 with e2
        simp only [e1, e2]

theorem result_iff (T : List MeterRow) (pt : PitchType) (red : Reduction) (useInv useRelative : Bool)
    (row : SeriesRow) (c : SeriesChord) (hn : ∃ n, row.numeral = some n ∧ n ≠ "@none".toList) :
    (∃ h l1 l2, HarmonyRight row pt red useInv h ∧ LevelOf T (row.mc, row.onset) l1 ∧
      LevelOf T (row.mcNext, row.onsetNext) l2 ∧ c = seriesResult row pt useRelative h l1 l2) ↔
    ChordRight T pt red useInv useRelative row c := by
  constructor
  · rintro ⟨h, l1, l2, hh, h1, h2, rfl⟩
    refine ⟨hn, ⟨h.key, hh, ?_⟩, rfl, rfl, ⟨l1, h1, rfl⟩, ⟨l2, h2, rfl⟩, rfl, rfl, rfl⟩
    cases useRelative <;> simp [seriesResult]
  · rintro ⟨_, ⟨k, hh, hkey⟩, h3, h4, ⟨l1, h5, h5'⟩, ⟨l2, h6, h6'⟩, h7, h8, h9⟩
    rw [h3] at h5
    rw [h4] at h6
    refine ⟨_, l1, l2, hh, h5, h6, ?_⟩
    obtain ⟨⟨root, bass, kt, km, ct, inv, ol, fl, dur, pt'⟩, on, off, susp⟩ := c
    simp only at *
    subst h3 h4 h5' h6' h7 h8 h9
    cases useRelative
    · simp only [Bool.false_eq_true, if_false] at hkey
      simp [seriesResult, hkey.1, hkey.2]
    · simp only [if_true] at hkey
      simp [seriesResult, hkey.1, hkey.2]

/-- C78: with a cache of right levels, and without a cache, the result is the chord that the row says; it is
None only if there is no such chord. The cache stays right. -/
theorem C78_chord (T : List MeterRow) (pt : PitchType) (red : Reduction) (useInv useRelative : Bool)
    (cache : Option LevelCache) (hc : CacheRight cache) (row : SeriesRow) :
    (∀ c, (chordFromSeries T pt red useInv useRelative cache row).1 = some c ↔
      ChordRight T pt red useInv useRelative row c) ∧
    CacheRight (chordFromSeries T pt red useInv useRelative cache row).2 := by
  unfold chordFromSeries
  by_cases hnum : row.numeral = some "@none".toList ∨ row.numeral = none
  · rw [if_pos hnum]
    refine ⟨fun c => ⟨(by intro h; cases h), ?_⟩, hc⟩
    rintro ⟨⟨n, h1, h2⟩, _⟩
    rcases hnum with h | h
    · rw [h1] at h; injection h with h; exact absurd h h2
    · rw [h1] at h; cases h
  · rw [if_neg hnum]
    have hn : ∃ n, row.numeral = some n ∧ n ≠ "@none".toList := by
      cases h : row.numeral with
      | none => exact absurd (.inr h) hnum
      | some n => exact ⟨n, rfl, fun e => hnum (.inl (by rw [h, e]))⟩
    cases hh : seriesHarmony row pt red useInv with
    | error e =>
      refine ⟨fun c => ⟨(by intro h; cases h), ?_⟩, hc⟩
      rintro ⟨_, ⟨k, h1, _⟩, _⟩
      rw [(harmony_iff _ _ _ _ _).2 h1] at hh
      cases hh
    | ok h =>
      obtain ⟨a, b⟩ := levels_iff T pt useRelative cache hc row h
      refine ⟨fun c => ?_, b⟩
      rw [a c, ← result_iff T pt red useInv useRelative row c hn]
      have hr := (harmony_iff _ _ _ _ _).1 hh
      constructor
      · rintro ⟨l1, l2, h1, h2, h3⟩
        exact ⟨h, l1, l2, hr, h1, h2, h3⟩
      · rintro ⟨h', l1, l2, hr', h1, h2, h3⟩
        have := (harmony_iff _ _ _ _ _).2 hr'
        rw [hh] at this
        injection this with this
        subst this
        exact ⟨l1, l2, h1, h2, h3⟩

/-- C78: the chords of a table do not depend on the cache. -/
theorem C78_table (T : List MeterRow) (pt : PitchType) (red : Reduction) (useInv useRelative : Bool)
    (cache : Option LevelCache) (hc : CacheRight cache) (rows : List SeriesRow) :
    (chordsFromTable T pt red useInv useRelative cache rows).1 =
      rows.map (fun row => (chordFromSeries T pt red useInv useRelative none row).1) := by
  induction rows generalizing cache with
  | nil => rfl
  | cons row rows ih =>
    obtain ⟨a, b⟩ := C78_chord T pt red useInv useRelative cache hc row
    obtain ⟨a', _⟩ := C78_chord T pt red useInv useRelative none (by rintro c ⟨⟩) row
    simp only [chordsFromTable, List.map_cons, ih _ b]
    congr 1
    refine Option.ext fun c => ?_
    exact (a c).trans (a' c).symm

/-- C78: the pitches of a chord that has been read are pitches, its bass is one of its tones, and without
inversions it is its root. -/
theorem C78_pitches (T : List MeterRow) (pt : PitchType) (red : Reduction) (useInv useRelative : Bool)
    (row : SeriesRow) (c : SeriesChord) (h : ChordRight T pt red useInv useRelative row c) :
    (0 ≤ c.chord.root ∧ c.chord.root < NUM_PITCHES pt) ∧ (0 ≤ c.chord.bass ∧ c.chord.bass < NUM_PITCHES pt) ∧
    (0 ≤ c.chord.keyTonic ∧ c.chord.keyTonic < NUM_PITCHES pt) ∧
    (0 ≤ c.chord.inversion ∧ c.chord.inversion < inversionCount c.chord.chordType) ∧
    (useInv = false → c.chord.inversion = 0 ∧ c.chord.bass = c.chord.root) := by
  obtain ⟨k, hh, hkey⟩ := h.harmony
  obtain ⟨hk, hr, -, ⟨f, hf, hf'⟩, n, tone, hn, htone, hb⟩ := hh
  simp only at *
  have n35 : NUM_PITCHES .tpc = 35 := rfl
  have n12 : NUM_PITCHES .midi = 12 := rfl
  have hpos := inversion_pos c.chord.chordType
  have hinv : 0 ≤ c.chord.inversion ∧ c.chord.inversion < inversionCount c.chord.chordType := by
    rw [hf']
    exact ⟨Int.emod_nonneg _ (by omega), Int.emod_lt_of_pos _ (by omega)⟩
  have hroot : 0 ≤ c.chord.root ∧ c.chord.root < NUM_PITCHES pt := by
    cases pt <;> simp only [Above] at hr <;> omega
  have hrange : ∀ s a b, Reaches pt s a b → 0 ≤ b.1 ∧ b.1 < NUM_PITCHES pt := by
    intro s a b h
    have := C13_range s a.1 b.1 a.2 b.2 pt h
    cases pt <;> exact this
  obtain ⟨-, -, -, e4, e5, e6⟩ := (C78_key _ _ _).1 hk
  have hl := hrange _ _ _ e4
  have hrel : 0 ≤ k.relativeTonic ∧ k.relativeTonic < NUM_PITCHES pt := by
    cases hrr : row.key.relativeroot with
    | none =>
      have := e5 hrr
      simp only [Prod.mk.injEq] at this
      rw [this.1]; exact hl
    | some r => exact hrange _ _ _ (e6 r hrr)
  have hbr : 0 ≤ c.chord.bass ∧ c.chord.bass < NUM_PITCHES pt := by
    have := bass_range hb
    unfold assertPitch at this
    split at this
    · assumption
    · cases this
  refine ⟨hroot, hbr, ?_, hinv, ?_⟩
  · cases useRelative
    · simp only [Bool.false_eq_true, if_false] at hkey
      rw [hkey.1]; exact hl
    · simp only [if_true] at hkey
      rw [hkey.1]; exact hrel
  · rintro rfl
    simp only [Bool.false_eq_true, if_false] at hf
    rw [hf, Int.zero_emod] at hf'
    refine ⟨hf', ?_⟩
    have hn0 : n = 0 := by omega
    subst hn0
    have h0 : tone = 0 := by
      have : (specTones pt c.chord.chordType)[0]? = some 0 := by
        cases pt <;> cases c.chord.chordType <;> rfl
      rw [this] at htone
      injection htone with h
      exact h.symm
    subst h0
    unfold ToneAbove at hb
    cases pt
    · have := tpc_range hb
      omega
    · simp only [transposePitch, n12, Except.ok.injEq] at hb
      omega

/-- C78: a chord read with MIDI pitches is the chord read with TPC pitches, converted. -/
theorem C78_chord_midi (T : List MeterRow) (red : Reduction) (useInv useRelative : Bool) (row : SeriesRow)
    (c : SeriesChord) (h : ChordRight T .tpc red useInv useRelative row c) :
    ∃ c', c.chord.toPitchType .midi = .ok c'.chord ∧ c'.onset = c.onset ∧ c'.offset = c.offset ∧
      c'.suspension = c.suspension ∧ ChordRight T .midi red useInv useRelative row c' := by
  obtain ⟨hn, ⟨k, hh, hkey⟩, h3, h4, h5, h6, h7, h8, h9⟩ := h
  obtain ⟨hk, hr, ht, hinv, n, tone, hn', htone, hb⟩ := hh
  simp only at *
  obtain ⟨k', hk', hk''⟩ := C78_key_midi row.key k hk
  have hkt : k.tonicType = .tpc := ((C78_key _ _ _).1 hk).1
  rw [Key.toPitchType, hkt, if_neg (by simp)] at hk'
  simp only [C08_value, Bind.bind, Except.bind, Except.ok.injEq] at hk'
  obtain ⟨tone', ht1, ht2⟩ : ∃ t, (specTones .midi c.chord.chordType)[n]? = some t ∧ t = 7 * tone % 12 := by
    refine ⟨7 * tone % 12, ?_, rfl⟩
    change (semitoneTones c.chord.chordType)[n]? = _
    rw [← C14_tables, List.getElem?_map]
    change Option.map _ (specTones .tpc c.chord.chordType)[n]? = _
    rw [htone]; rfl
  refine ⟨{ c with chord := { c.chord with
      pitchType := .midi, keyTonic := pitchClass c.chord.keyTonic, root := pitchClass c.chord.root,
      bass := pitchClass c.chord.bass } }, ?_, rfl, rfl, rfl, ?_⟩
  · rw [Chord.toPitchType, h8, if_neg (by simp)]
    simp only [C08_value, Bind.bind, Except.bind]
    rfl
  · refine ⟨hn, ⟨k', ⟨hk'', ?_, ht, hinv, n, tone', hn', ht1, ?_⟩, ?_⟩, h3, h4, h5, h6, h7, rfl, h9⟩
    · rw [← hk']
      simp only [Above, pitchClass] at hr ⊢
      omega
    · obtain ⟨_, _, _, e⟩ := transpose_midi _ _ _ tone' hb (by omega)
      exact e
    · rw [← hk']
      cases useRelative
      · simp only [Bool.false_eq_true, if_false] at hkey ⊢
        exact ⟨by rw [hkey.1]; rfl, hkey.2⟩
      · simp only [if_true] at hkey ⊢
        exact ⟨by rw [hkey.1]; rfl, hkey.2⟩

/-- The figures of `f` are all found above the bass of a triad (three thirds) or a seventh chord (four thirds) with
inversion `i`: the distance from its tone `i` to its tone `j` is `2 * (j - i)` steps of the scale. -/
def FiguresFit (f : Str) (i : Nat) : Prop :=
  ∃ n ∈ [3, 4], i < n ∧ ∀ d ∈ f, ∃ j ∈ List.range n, ((2 * j + 7 * 2 - 2 * i) % 7 + 1 : Nat) = d.toNat - '0'.toNat

instance (f : Str) (i : Nat) : Decidable (FiguresFit f i) :=
  inferInstanceAs (Decidable (∃ n ∈ [3, 4], i < n ∧ ∀ d ∈ f, ∃ j ∈ List.range n, _))

/-- C78: the figures of a row mean the least inversion of a chord that has these figures; no figures are root position. -/
theorem C78_figures (figbass : Option Str) (i : Int) : chordInversion figbass = .ok i ↔
    (figbass = none ∧ i = 0) ∨ (figbass = some [] ∧ i = 0) ∨
    ∃ f ∈ ["7", "6", "65", "43", "64", "2"].map String.toList, figbass = some f ∧ ∃ m : Nat, i = m ∧
      FiguresFit f m ∧ ∀ j < m, ¬ FiguresFit f j := by
  have hleast : ∀ f ∈ ["7", "6", "65", "43", "64", "2"].map String.toList, ∃ m ∈ List.range 4,
      chordInversion (some f) = .ok (m : Int) ∧ FiguresFit f m ∧ ∀ j < m, ¬ FiguresFit f j := by decide +kernel
  cases figbass with
  | none => simp [chordInversion, eq_comm]
  | some s =>
    by_cases hs : s ∈ ["7", "6", "65", "43", "64", "2"].map String.toList
    · obtain ⟨m, _, h1, h2, h3⟩ := hleast s hs
      have hne : s ≠ [] := by rintro rfl; revert hs; decide
      rw [h1]
      constructor
      · intro h
        exact .inr (.inr ⟨s, hs, rfl, m, (Except.ok.inj h).symm, h2, h3⟩)
      · rintro (⟨h, _⟩ | ⟨h, _⟩ | ⟨f, hf, e, m', rfl, h4, h5⟩)
        · cases h
        · exact absurd (Option.some.inj h) hne
        · cases Option.some.inj e
          rcases lt_trichotomy m m' with h | h | h
          · exact absurd h2 (h5 m h)
          · rw [h]
          · exact absurd h4 (h3 m' h)
    · have hnone : figbassTable.lookup s = none := by
        rw [List.lookup_eq_none_iff]
        intro p hp
        have : p.1 ∈ ["7", "6", "65", "43", "64", "2"].map String.toList := by
          revert p; decide +kernel
        rw [bne_iff_ne]
        rintro rfl
        exact hs this
      constructor
      · intro h
        by_cases he : s = []
        · subst he
          exact .inr (.inl ⟨rfl, (Except.ok.inj h).symm⟩)
        · have : s.length ≠ 0 := by simpa using he
          simp only [chordInversion, if_neg this, hnone] at h
          cases h
      · rintro (⟨h, _⟩ | ⟨h, rfl⟩ | ⟨f, hf, e, _⟩)
        · cases h
        · cases Option.some.inj h; rfl
        · cases Option.some.inj e
          exact absurd hf hs
/-- V65 is a first inversion, and the figures 54 mean nothing. -/
example : chordInversion (some "65".toList) = .ok 1 ∧ chordInversion (some "54".toList) = .error .valueError := by
  decide +kernel

/-- V65/V in the local key of ii (F minor) of E flat major: the relative key is C major, the chord G7 over B. -/
def exampleRow : SeriesRow :=
  { key := ⟨"Eb".toList, false, "ii".toList, some "V".toList⟩
    numeral := some "V".toList, root := 2, chordType := "Mm7".toList, figbass := some "65".toList
    mc := 3, onset := 1/4, mcNext := 4, onsetNext := 0, duration := 3/4, changes := none }

example : keyFromSeries exampleRow.key .tpc = some ⟨15, 14, 12, .major, .minor, .major, .tpc⟩ := by
  decide +kernel

example : (chordFromSeries [⟨3, 4, 4⟩, ⟨4, 4, 4⟩] .tpc noReduction true true (some []) exampleRow).1 =
    some ⟨⟨16, 20, 15, .major, .majMin7, 1, 2, 3, 3/4, .tpc⟩, (3, 1/4), (4, 0), none⟩ := by decide +kernel

example : (chordFromSeries [⟨3, 4, 4⟩, ⟨4, 4, 4⟩] .midi noReduction true true none exampleRow).1 =
    some ⟨⟨7, 11, 0, .major, .majMin7, 1, 2, 3, 3/4, .midi⟩, (3, 1/4), (4, 0), none⟩ := by decide +kernel

end Verif.FromSeries
