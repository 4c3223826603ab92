import Verif.Lemmas.SearchSim
import Verif.Props.SearchFinds

/-!
# With MIDI pitches, the search treats all keys alike (C134)
-/

namespace Verif.SearchTransposes

open Verif State SearchData
open Verif.SearchFinds (midi_key midi_root midi_bass outside_midi)

/-! ## Transposition -/

/-- A pitch class `k` semitones higher. -/
def upPitch (k p : Int) : Int := if 0 ≤ p ∧ p < 12 then (p + k) % 12 else p

/-- `f` on the indices of a list of length `n`; a negative index counts from the end. -/
def wrap (n : Int) (f : Int → Int) (i : Int) : Int :=
  if 0 ≤ i ∧ i < n then f i else if -n ≤ i ∧ i < 0 then f (i + n) - n else i

/-- The class of a chord `k` semitones higher: its type and inversion are the same. -/
def upClass (k c : Int) : Int :=
  match chordFromOneHotIndex c .midi true false false noReduction with
  | .ok (root, ct, inv) =>
    match chordOneHotIndex ct ((root + k) % 12) .midi inv true false false noReduction with
    | .ok i => i
    | .error _ => c
  | .error _ => c

/-- The index of a chord `k` semitones higher. -/
def upChord (k c : Int) : Int := wrap (chordOneHotLength .midi false true false noReduction) (upClass k) c

/-- The index of a key `k` semitones higher: twelve major keys are followed by twelve minor keys. -/
def upKey (k i : Int) : Int := wrap 24 (fun i => 12 * (i / 12) + (i % 12 + k) % 12) i

/-- A key `k` semitones higher. -/
def upKeyObj (k : Int) (o : KeyObj) : KeyObj :=
  ⟨upPitch k o.tonic, o.mode, upPitch k o.globalTonic, o.globalMode⟩

def upHash (k : Int) (e : HashEntry) : HashEntry := e.map fun x => (upKey k x.1, x.2.map (upChord k))

section
variable {κ H P : Type}

/-- The chord and the key of a node `k` semitones higher. -/
def upNode (k : Int) (n : Node κ H P) : Node κ H P :=
  { n with
    chord := n.chord.map (upChord k)
    key := upKey k n.key
    hash := n.hash.map (List.map (upHash k))
    keyObj := n.keyObj.map (upKeyObj k) }

/-- An analysis `k` semitones higher. -/
def upState (k : Int) (s : State κ H P) : State κ H P := ⟨upNode k s.node, s.prev.map (upNode k)⟩

end

/-! ## Lemmas on labels -/

theorem upPitch_range {k p : Int} (h : 0 ≤ p ∧ p < 12) : 0 ≤ upPitch k p ∧ upPitch k p < 12 := by
  unfold upPitch; rw [if_pos h]; omega

theorem upPitch_inj (k : Int) : Function.Injective (upPitch k) := by
  intro a b h
  unfold upPitch at h
  split at h <;> split at h <;> omega

theorem wrap_inj {n : Int} {f : Int → Int} (hr : ∀ i, 0 ≤ i → i < n → 0 ≤ f i ∧ f i < n)
    (hi : ∀ i j, 0 ≤ i → i < n → 0 ≤ j → j < n → f i = f j → i = j) : Function.Injective (wrap n f) := by
  intro a b h
  unfold wrap at h
  split at h
  · rename_i h1
    have r1 := hr a h1.1 h1.2
    split at h
    · rename_i h2; exact hi _ _ h1.1 h1.2 h2.1 h2.2 h
    · split at h
      · rename_i h2
        have r2 := hr (b + n) (by omega) (by omega)
        omega
      · omega
  · split at h
    · rename_i h1
      have r1 := hr (a + n) (by omega) (by omega)
      split at h
      · rename_i h2; have r2 := hr b h2.1 h2.2; omega
      · split at h
        · rename_i h2
          have := hi (a + n) (b + n) (by omega) (by omega) (by omega) (by omega) (by omega)
          omega
        · omega
    · split at h
      · rename_i h2; have r2 := hr b h2.1 h2.2; omega
      · split at h
        · rename_i h2
          have r2 := hr (b + n) (by omega) (by omega)
          omega
        · exact h

theorem pyGet_wrap {α : Type} {l : List α} {f : Int → Int} {g : α → α}
    (hr : ∀ i, 0 ≤ i → i < (l.length : Int) → 0 ≤ f i ∧ f i < l.length)
    (hg : ∀ i, 0 ≤ i → i < (l.length : Int) → pyGet l (f i) = (pyGet l i).map g) (i : Int) :
    pyGet l (wrap l.length f i) = (pyGet l i).map g := by
  have hneg : ∀ j, -(l.length : Int) ≤ j → j < 0 → pyGet l j = pyGet l (j + l.length) := by
    intro j h1 h2
    unfold pyGet
    rw [if_neg (by omega), if_pos h1, if_pos (by omega), Int.add_comm]
  unfold wrap
  split
  · rename_i h; exact hg _ h.1 h.2
  · split
    · rename_i h
      have r := hr (i + l.length) (by omega) (by omega)
      rw [hneg i h.1 h.2, ← hg _ (by omega) (by omega), hneg _ (by omega) (by omega)]
      congr 1
      omega
    · have : pyGet l i = .error .indexError := by
        unfold pyGet
        split
        · rw [List.getElem?_eq_none (by omega)]
        · rw [if_neg (by omega)]
      rw [this]; rfl

theorem chord_class {c : Int} (h0 : 0 ≤ c) (h1 : c < chordOneHotLength .midi false true false noReduction) :
    ∃ root ct inv, (0 ≤ root ∧ root < 12) ∧
      (∀ r, 0 ≤ r → r < 12 → specEncodable ct r .midi inv true false false noReduction) ∧
      chordFromOneHotIndex c .midi true false false noReduction = .ok (root, ct, inv) ∧
      chordOneHotIndex ct root .midi inv true false false noReduction = .ok c := by
  obtain ⟨r, ct, inv, h2, h3⟩ := C02_decode_encode c .midi true false false noReduction h0 h1
  have hs := (C01_accepts_iff ct r .midi inv true false false noReduction).1.1 ⟨c, h3⟩
  have hr : specRoots .midi false false = 12 := by decide
  have hr0 := hs.1
  rw [hr] at hr0
  refine ⟨r, ct, inv, hr0, fun r' a b => ⟨?_, hs.2⟩, ?_, h3⟩
  · rw [hr]; exact ⟨a, b⟩
  · rw [h2]; rfl

/-- What the class of a transposed chord is. -/
theorem upClass_spec (k : Int) {c : Int} (h0 : 0 ≤ c)
    (h1 : c < chordOneHotLength .midi false true false noReduction) :
    ∃ root ct inv, (0 ≤ root ∧ root < 12) ∧
      chordFromOneHotIndex c .midi true false false noReduction = .ok (root, ct, inv) ∧
      chordOneHotIndex ct root .midi inv true false false noReduction = .ok c ∧
      chordOneHotIndex ct ((root + k) % 12) .midi inv true false false noReduction = .ok (upClass k c) ∧
      chordFromOneHotIndex (upClass k c) .midi true false false noReduction =
        .ok ((root + k) % 12, ct, inv) ∧
      0 ≤ upClass k c ∧ upClass k c < chordOneHotLength .midi false true false noReduction := by
  obtain ⟨root, ct, inv, hr, hs, h2, h3⟩ := chord_class h0 h1
  obtain ⟨i, hi⟩ := (C01_accepts_iff ct ((root + k) % 12) .midi inv true false false noReduction).1.2
    (hs _ (by omega) (by omega))
  have hu : upClass k c = i := by unfold upClass; rw [h2]; simp only; rw [hi]
  obtain ⟨b1, b2, b3⟩ := C01_encode_decode _ _ _ _ _ _ _ _ _ hi
  exact ⟨root, ct, inv, hr, h2, h3, by rw [hi, hu], by rw [hu, b3]; rfl, by omega, by omega⟩

theorem upChord_inj (k : Int) : Function.Injective (upChord k) := by
  refine wrap_inj (fun i h0 h1 => ?_) fun i j h0 h1 h2 h3 h => ?_
  · obtain ⟨_, _, _, _, _, _, _, _, b1, b2⟩ := upClass_spec k h0 h1
    exact ⟨b1, b2⟩
  · obtain ⟨r, ct, inv, hr, a1, a2, a3, -⟩ := upClass_spec k h0 h1
    obtain ⟨r', ct', inv', hr', b1, b2, b3, -⟩ := upClass_spec k h2 h3
    rw [h] at a3
    obtain ⟨e1, e2, e3⟩ := C02_injective _ _ _ _ _ _ _ _ _ _ _ _ a3 b3
    have e1' : r = r' := by omega
    have e2' : ct = ct' := e2
    rw [e1', e2', e3 rfl, b2] at a2
    injection a2 with a2
    exact a2.symm

theorem chords_length : ((stdLabels .midi).chord.length : Int) =
    chordOneHotLength .midi false true false noReduction :=
  (chordOneHotLength_eq _ _ _ _ _).symm

/-- Chord labels are transposed. -/
theorem chord_label (k c : Int) : pyGet (stdLabels .midi).chord (upChord k c) =
    (pyGet (stdLabels .midi).chord c).map fun x => (upPitch k x.1, x.2) := by
  unfold upChord
  rw [← chords_length]
  refine pyGet_wrap (fun i h0 h1 => ?_) (fun i h0 h1 => ?_) c
  · rw [chords_length] at h1 ⊢
    obtain ⟨_, _, _, _, _, _, _, _, b1, b2⟩ := upClass_spec k h0 h1
    exact ⟨b1, b2⟩
  · rw [chords_length] at h1
    obtain ⟨r, ct, inv, hr, a1, a2, a3, a4, -⟩ := upClass_spec k h0 h1
    have e1 : pyGet (stdLabels .midi).chord i = .ok (r, ct, inv) := a1
    have e2 : pyGet (stdLabels .midi).chord (upClass k i) = .ok ((r + k) % 12, ct, inv) := a4
    rw [e1, e2]
    simp only [Except.map, upPitch, if_pos hr]

theorem key_class : ∀ i : Fin 24, (stdLabels .midi).key[i.val]? =
    some ((i.val : Int) % 12, if i.val < 12 then KeyMode.major else .minor) := by decide

theorem keys_length : (stdLabels .midi).key.length = 24 := by decide

theorem key_at {i : Int} (h0 : 0 ≤ i) (h1 : i < 24) : pyGet (stdLabels .midi).key i =
    .ok (i % 12, if i < 12 then KeyMode.major else .minor) := by
  obtain ⟨n, rfl⟩ : ∃ n : Nat, i = n := ⟨i.toNat, by omega⟩
  have := key_class ⟨n, by omega⟩
  simp only at this
  unfold pyGet
  rw [if_pos h0]
  simp only [Int.toNat_natCast, this]
  simp only [Nat.cast_lt_ofNat]

/-- Key labels are transposed. -/
theorem key_label (k i : Int) : pyGet (stdLabels .midi).key (upKey k i) =
    (pyGet (stdLabels .midi).key i).map fun x => (upPitch k x.1, x.2) := by
  have h := pyGet_wrap (l := (stdLabels .midi).key) (f := fun i => 12 * (i / 12) + (i % 12 + k) % 12)
    (g := fun x => (upPitch k x.1, x.2))
    (fun i h0 h1 => by rw [keys_length] at h1 ⊢; push_cast at h1 ⊢; omega)
    (fun i h0 h1 => by
      rw [keys_length] at h1
      push_cast at h1
      rw [key_at h0 h1, key_at (by omega) (by omega)]
      simp only [Except.map, upPitch]
      rw [if_pos (show 0 ≤ i % 12 ∧ i % 12 < 12 by omega)]
      have e1 : (12 * (i / 12) + (i % 12 + k) % 12) % 12 = (i % 12 + k) % 12 := by omega
      have e2 : (12 * (i / 12) + (i % 12 + k) % 12 < 12) = (i < 12) := by
        apply propext; constructor <;> intro <;> omega
      simp only [e1, e2]) i
  rw [keys_length] at h
  exact h

theorem upKey_inj (k : Int) : Function.Injective (upKey k) :=
  wrap_inj (fun i h0 h1 => by omega) fun i j h0 h1 h2 h3 h => by omega

/-- The key reached from a transposed key is the transposed key. -/
theorem key_index (k : Int) (mode : KeyMode) {t : Int} (h : 0 ≤ t ∧ t < 12) :
    keyOneHotIndex mode ((t + k) % 12) .midi = (keyOneHotIndex mode t .midi).map (upKey k) := by
  have h12 : NUM_PITCHES .midi = 12 := by decide
  simp only [keyOneHotIndex, h12]
  rw [if_neg (by omega), if_neg (by omega)]
  simp only [Except.map, upKey, wrap]
  have hv : mode.value = 0 ∨ mode.value = 1 := by cases mode <;> simp [KeyMode.value]
  generalize mode.value = v at hv
  rw [if_pos (by omega)]
  congr 1
  omega

theorem bass_up (k : Int) (ct : ChordType) {root : Int} (inv : Int) (h : 0 ≤ root ∧ root < 12) :
    bassNote ct (upPitch k root) inv .midi false = (bassNote ct root inv .midi false).map (upPitch k) := by
  have h12 : NUM_PITCHES .midi = 12 := by decide
  simp only [bassNote, Bool.false_eq_true, if_false, transposePitch, h12, Bind.bind, Except.bind]
  cases pyGet (chordPitches .midi ct) inv with
  | error e => rfl
  | ok b =>
    simp only [Except.map, upPitch, if_pos h]
    rw [if_pos (by omega)]
    congr 1
    omega

theorem relative_up (k : Int) {p t : Int} (hp : 0 ≤ p ∧ p < 12) (ht : 0 ≤ t ∧ t < 12) (b c : Bool) :
    absoluteToRelative (upPitch k p) (upPitch k t) .midi b c = absoluteToRelative p t .midi b c := by
  have h12 : NUM_PITCHES .midi = 12 := by decide
  simp only [absoluteToRelative, transposePitch, h12, upPitch, if_pos hp, if_pos ht]
  congr 1
  omega

theorem outsidePadded_midi {p t : Int} (h1 : 0 ≤ p ∧ p < 12) (h2 : 0 ≤ t ∧ t < 12) :
    outsidePadded (p - t) = false := by
  have e : MIN_RELATIVE_TPC = -14 ∧ MAX_RELATIVE_TPC = 15 ∧ RELATIVE_TPC_EXTRA = 5 := by decide
  simp only [outsidePadded, e.1, e.2.1, e.2.2, Bool.or_eq_false_iff, decide_eq_false_iff_not]
  omega

/-! ## Lemmas on states -/

section
variable {κ H P : Type}

/-- The cached keys have pitch classes as tonics. -/
def Tame (n : Node κ H P) : Prop := ∀ o, n.keyObj = some o →
  (0 ≤ o.tonic ∧ o.tonic < 12) ∧ 0 ≤ o.globalTonic ∧ o.globalTonic < 12

/-- All cached keys of a state. -/
def TameState (s : State κ H P) : Prop := Tame s.node ∧ ∀ n ∈ s.prev, Tame n

theorem upKeyObj_inj (k : Int) : Function.Injective (upKeyObj k) := by
  rintro ⟨a, b, c, e⟩ ⟨a', b', c', e'⟩ h
  simp only [upKeyObj, KeyObj.mk.injEq] at h
  obtain ⟨h1, h2, h3, h4⟩ := h
  rw [upPitch_inj k h1, h2, upPitch_inj k h3, h4]

theorem upHash_inj (k : Int) : Function.Injective (upHash k) := by
  refine Option.map_injective ?_
  rintro ⟨a, b⟩ ⟨a', b'⟩ h
  simp only [Prod.mk.injEq] at h
  rw [upKey_inj k h.1, Option.map_injective (upChord_inj k) h.2]

theorem upNode_inj (k : Int) : Function.Injective (upNode (κ := κ) (H := H) (P := P) k) := by
  rintro ⟨⟩ ⟨⟩ h
  simp only [upNode, Node.mk.injEq] at h
  obtain ⟨h1, h2, h3, h4, h5, h6, h7, h8, h9, h10, h11, h12, h13, h14⟩ := h
  simp only [Node.mk.injEq]
  exact ⟨Option.map_injective (upChord_inj k) h1, upKey_inj k h2, h3, h4,
    Option.map_injective (List.map_injective_iff.2 (upHash_inj k)) h5, h6, h7, h8, h9,
    Option.map_injective (upKeyObj_inj k) h10, h11, h12, h13, h14⟩

theorem upState_inj (k : Int) : Function.Injective (upState (κ := κ) (H := H) (P := P) k) := by
  rintro ⟨a, b⟩ ⟨a', b'⟩ h
  simp only [upState, State.mk.injEq] at h
  rw [upNode_inj k h.1, List.map_injective_iff.2 (upNode_inj k) h.2]

theorem newHash_up (k : Int) (hl : Option Nat) (ps : List (Node κ H P)) (key : Int) (chord : Option Int) :
    newHash hl (ps.map (upNode k)) (upKey k key) (chord.map (upChord k)) =
      (newHash hl ps key chord).map (List.map (upHash k)) := by
  cases hl with
  | none => rfl
  | some h =>
    cases ps with
    | nil => simp [newHash, upHash, List.map_replicate]
    | cons p ps =>
      simp only [newHash, List.map_cons, upNode, Option.map_map]
      congr 1
      funext t
      simp [upHash]

theorem getKeyAux_up (k : Int) (n : Node κ H P) (ps : List (Node κ H P)) :
    getKeyAux (stdLabels .midi) (upNode k n) (ps.map (upNode k)) =
      (getKeyAux (stdLabels .midi) n ps).map (upKeyObj k) := by
  induction ps generalizing n with
  | nil =>
    unfold getKeyAux
    simp only [upNode, List.map_nil]
    cases n.keyObj with
    | some o => rfl
    | none =>
      simp only [Option.map_none, key_label, Bind.bind, Except.bind]
      cases pyGet (stdLabels .midi).key n.key <;> rfl
  | cons p ps ih =>
    have ih := ih p
    unfold getKeyAux
    simp only [upNode, List.map_cons]
    cases n.keyObj with
    | some o => rfl
    | none =>
      simp only [Option.map_none, key_label, Bind.bind, Except.bind]
      simp only [upNode] at ih
      cases pyGet (stdLabels .midi).key n.key with
      | error e => rfl
      | ok tm =>
        simp only [Except.map]
        rw [ih]
        cases getKeyAux (stdLabels .midi) p ps <;> rfl

theorem getKeyAux_range {n : Node κ H P} {ps : List (Node κ H P)} (hn : Tame n) (hps : ∀ m ∈ ps, Tame m)
    {o : KeyObj} (h : getKeyAux (stdLabels .midi) n ps = .ok o) :
    (0 ≤ o.tonic ∧ o.tonic < 12) ∧ 0 ≤ o.globalTonic ∧ o.globalTonic < 12 := by
  induction ps generalizing n o with
  | nil =>
    unfold getKeyAux at h
    cases hk : n.keyObj with
    | some o' =>
      rw [hk] at h
      injection h with h
      rw [← h]; exact hn _ hk
    | none =>
      rw [hk] at h
      simp only [Bind.bind, Except.bind] at h
      cases hg : pyGet (stdLabels .midi).key n.key with
      | error e => rw [hg] at h; cases h
      | ok tm =>
        rw [hg] at h
        injection h with h
        rw [← h]
        have := midi_key (tonic := tm.1) (mode := tm.2) hg
        exact ⟨this, this⟩
  | cons p ps ih =>
    unfold getKeyAux at h
    cases hk : n.keyObj with
    | some o' =>
      rw [hk] at h
      injection h with h
      rw [← h]; exact hn _ hk
    | none =>
      rw [hk] at h
      simp only [Bind.bind, Except.bind] at h
      cases hg : pyGet (stdLabels .midi).key n.key with
      | error e => rw [hg] at h; cases h
      | ok tm =>
        rw [hg] at h
        simp only at h
        cases hp : getKeyAux (stdLabels .midi) p ps with
        | error e => rw [hp] at h; cases h
        | ok o' =>
          rw [hp] at h
          injection h with h
          have := ih (hps p (by simp)) (fun m hm => hps m (by simp [hm])) hp
          rw [← h]
          exact ⟨midi_key (tonic := tm.1) (mode := tm.2) hg, this.2⟩

theorem getKey_up (k : Int) (s : State κ H P) :
    getKey (stdLabels .midi) (upState k s) = (getKey (stdLabels .midi) s).map (upKeyObj k) :=
  getKeyAux_up k s.node s.prev

theorem chordLabelOf_up (k : Int) (c : Option Int) : chordLabelOf (stdLabels .midi) (c.map (upChord k)) =
    (chordLabelOf (stdLabels .midi) c).map fun x => (upPitch k x.1, x.2) := by
  cases c with
  | none => rfl
  | some c => exact chord_label k c

/-- The transposed state of a state whose cached keys are those of labels. -/
def Up (k : Int) (s s' : State κ H P) : Prop := s' = upState k s ∧ TameState s

theorem Up.prev {k : Int} {s s' : State κ H P} (h : Up k s s') : s'.prev = s.prev.map (upNode k) := by
  rw [h.1]; rfl

variable [Add κ]

theorem chordTransition_up (k : Int) {s : State κ H P} (hs : TameState s) (c : Int) (ci : Nat) (lp : κ) :
    PyRel (OptRel (Up k)) (chordTransition (stdLabels .midi) .midi s c ci lp)
      (chordTransition (stdLabels .midi) .midi (upState k s) (upChord k c) ci lp) := by
  have hl := chordLabelOf_up k (some c)
  simp only [Option.map_some] at hl
  unfold chordTransition
  rw [hl, getKey_up]
  cases h1 : chordLabelOf (stdLabels .midi) (some c) with
  | error e => exact PyRel.err
  | ok x =>
    obtain ⟨root, ct, inv⟩ := x
    have hroot := midi_root h1
    simp only [Except.map, Bind.bind, Except.bind]
    rw [bass_up k ct inv hroot]
    cases h2 : bassNote ct root inv .midi false with
    | error e => exact PyRel.err
    | ok bass =>
      have hbass := midi_bass h1 h2
      simp only [Except.map]
      cases h3 : getKey (stdLabels .midi) s with
      | error e => exact PyRel.err
      | ok o =>
        have ho := getKeyAux_range hs.1 hs.2 h3
        have hr' := upPitch_range (k := k) hroot
        have hb' := upPitch_range (k := k) hbass
        have ho' := upPitch_range (k := k) ho.1
        simp only [upKeyObj, outsidePadded_midi hroot ho.1, outsidePadded_midi hbass ho.1,
          outsidePadded_midi hr' ho', outsidePadded_midi hb' ho', outside_midi hroot ho.1,
          outside_midi hbass ho.1, outside_midi hr' ho', outside_midi hb' ho', Bool.or_self,
          Bool.false_eq_true, if_false]
        refine ⟨?_, ?_, ?_⟩
        · have hh := newHash_up k (s.node.hash.map List.length)
            ({ s.node with keyObj := some o } :: s.prev) s.node.key (some c)
          simp only [upState, upNode, List.map_cons, Option.map_some, upKeyObj, Option.map_map,
            State.mk.injEq, Node.mk.injEq, true_and, and_true] at hh ⊢
          rw [← hh]
          congr 1
          cases s.node.hash <;> simp
        · intro o' ho'
          injection ho' with ho'
          rw [← ho']; exact ho
        · intro n hn
          rcases List.mem_cons.1 hn with hn | hn
          · intro o' ho'
            rw [hn] at ho'
            injection ho' with ho'
            rw [← ho']; exact ho
          · exact hs.2 n hn

theorem keyTransition_up (k : Int) {s : State κ H P} (hs : TameState s) (key : Int) (lp : κ) :
    PyRel (OptRel (Up k)) (keyTransition (stdLabels .midi) .midi s key lp)
      (keyTransition (stdLabels .midi) .midi (upState k s) (upKey k key) lp) := by
  unfold keyTransition
  rw [show (upState k s).node.chord = s.node.chord.map (upChord k) from rfl, chordLabelOf_up, key_label]
  cases h1 : chordLabelOf (stdLabels .midi) s.node.chord with
  | error e => exact PyRel.err
  | ok x =>
    obtain ⟨root, ct, inv⟩ := x
    obtain ⟨c, hc⟩ : ∃ c, pyGet (stdLabels .midi).chord c = .ok (root, ct, inv) := by
      cases h4 : s.node.chord with
      | none => rw [h4] at h1; cases h1
      | some c => rw [h4] at h1; exact ⟨c, h1⟩
    have hroot := midi_root hc
    simp only [Except.map, Bind.bind, Except.bind]
    rw [bass_up k ct inv hroot]
    cases h2 : bassNote ct root inv .midi false with
    | error e => exact PyRel.err
    | ok bass =>
      have hbass := midi_bass hc h2
      simp only [Except.map]
      cases h3 : pyGet (stdLabels .midi).key key with
      | error e => exact PyRel.err
      | ok tm =>
        have ho := midi_key (tonic := tm.1) (mode := tm.2) h3
        have hr' := upPitch_range (k := k) hroot
        have hb' := upPitch_range (k := k) hbass
        have ho' := upPitch_range (k := k) ho
        simp only [outside_midi hroot ho, outside_midi hbass ho, outside_midi hr' ho',
          outside_midi hb' ho', Bool.or_self, Bool.false_eq_true, if_false]
        obtain ⟨n, prev⟩ := s
        cases prev with
        | nil => exact PyRel.err
        | cons p ps =>
          refine ⟨?_, ?_, ?_⟩
          · have hh := newHash_up k (n.hash.map List.length) (p :: ps) key n.chord
            simp only [upState, upNode, List.map_cons, Option.map_none, Option.map_map,
              State.mk.injEq, Node.mk.injEq, true_and, and_true] at hh ⊢
            rw [← hh]
            congr 1
            cases n.hash <;> simp
          · intro o' ho'
            cases ho'
          · exact hs.2

theorem rejoin_up [Sub κ] [Zero κ] (k : Int) {s : State κ H P} (hs : TameState s) (stop : Nat) (lp : κ) :
    PyRel (Up k) (rejoin (stdLabels .midi) .midi s stop lp)
      (rejoin (stdLabels .midi) .midi (upState k s) stop lp) := by
  unfold rejoin
  rw [show (upState k s).node.chord = s.node.chord.map (upChord k) from rfl, chordLabelOf_up]
  cases h1 : chordLabelOf (stdLabels .midi) s.node.chord with
  | error e => exact PyRel.err
  | ok x =>
    obtain ⟨root, ct, inv⟩ := x
    obtain ⟨c, hc⟩ : ∃ c, pyGet (stdLabels .midi).chord c = .ok (root, ct, inv) := by
      cases h4 : s.node.chord with
      | none => rw [h4] at h1; cases h1
      | some c => rw [h4] at h1; exact ⟨c, h1⟩
    have hroot := midi_root hc
    simp only [Except.map, Bind.bind, Except.bind]
    rw [bass_up k ct inv hroot]
    cases h2 : bassNote ct root inv .midi false with
    | error e => exact PyRel.err
    | ok bass =>
      have hbass := midi_bass hc h2
      simp only [Except.map]
      obtain ⟨n, prev⟩ := s
      cases prev with
      | nil => exact PyRel.err
      | cons p ps =>
        simp only [upState, List.map_cons]
        rw [show (upNode k p).key = upKey k p.key from rfl, key_label]
        cases h3 : pyGet (stdLabels .midi).key p.key with
        | error e => exact PyRel.err
        | ok tm =>
          have ho := midi_key (tonic := tm.1) (mode := tm.2) h3
          have hr' := upPitch_range (k := k) hroot
          have hb' := upPitch_range (k := k) hbass
          have ho' := upPitch_range (k := k) ho
          simp only [Except.map, outside_midi hroot ho, outside_midi hbass ho, outside_midi hr' ho',
            outside_midi hb' ho', Bool.or_self]
          refine ⟨?_, ?_, ?_⟩
          · have hh := newHash_up k (n.hash.map List.length) (p :: ps) p.key n.chord
            simp only [upState, upNode, List.map_cons, Option.map_map,
              State.mk.injEq, Node.mk.injEq, true_and, and_true, modelAdjustment] at hh ⊢
            rw [← hh]
            congr 1
            cases n.hash <;> simp
          · exact fun o' ho' => hs.2 p (by simp) o' ho'
          · exact hs.2

end

/-! ## Lemmas on the inputs of the networks -/

section
variable {κ H P : Type}

/-- A chord and its key `k` semitones higher. -/
def upChordObj (k : Int) (c : Chord ℚ) : Chord ℚ :=
  { c with root := upPitch k c.root, bass := upPitch k c.bass, keyTonic := upPitch k c.keyTonic }

theorem chordObj_up (k : Int) (C : Caches) (n : Node κ H P) (ps : List (Node κ H P)) (hn : Tame n)
    (hps : ∀ m ∈ ps, Tame m) :
    PyRel (fun c c' => c' = upChordObj k c ∧ c.pitchType = .midi ∧ (0 ≤ c.root ∧ c.root < 12) ∧
        (0 ≤ c.bass ∧ c.bass < 12) ∧ 0 ≤ c.keyTonic ∧ c.keyTonic < 12)
      (chordObj (stdLabels .midi) .midi C n ps)
      (chordObj (stdLabels .midi) .midi C (upNode k n) (ps.map (upNode k))) := by
  unfold chordObj
  rw [getKeyAux_up, show (upNode k n).chord = n.chord.map (upChord k) from rfl, chordLabelOf_up]
  cases h3 : getKeyAux (stdLabels .midi) n ps with
  | error e => exact PyRel.err
  | ok o =>
    have ho := getKeyAux_range hn hps h3
    cases h1 : chordLabelOf (stdLabels .midi) n.chord with
    | error e => exact PyRel.err
    | ok x =>
      obtain ⟨root, ct, inv⟩ := x
      obtain ⟨c, hc⟩ : ∃ c, pyGet (stdLabels .midi).chord c = .ok (root, ct, inv) := by
        cases h4 : n.chord with
        | none => rw [h4] at h1; cases h1
        | some c => rw [h4] at h1; exact ⟨c, h1⟩
      have hroot := midi_root hc
      cases ps with
      | nil => exact PyRel.err
      | cons p ps =>
        simp only [Except.map, Bind.bind, Except.bind, List.map_cons]
        rw [bass_up k ct inv hroot]
        cases h2 : bassNote ct root inv .midi false with
        | error e => exact PyRel.err
        | ok bass =>
          have hbass := midi_bass hc h2
          simp only [Except.map]
          rw [show (upNode k p).changeIndex = p.changeIndex from rfl,
            show (upNode k n).changeIndex = n.changeIndex from rfl]
          cases pyGet C.levels p.changeIndex with
          | error e => exact PyRel.err
          | ok l1 =>
            cases pyGet C.levels n.changeIndex with
            | error e => exact PyRel.err
            | ok l2 => exact ⟨rfl, rfl, hroot, hbass, ho.1⟩

theorem toVec_up (k : Int) {c : Chord ℚ} (h0 : c.pitchType = .midi) (h1 : 0 ≤ c.root ∧ c.root < 12)
    (h2 : 0 ≤ c.bass ∧ c.bass < 12) (h3 : 0 ≤ c.keyTonic ∧ c.keyTonic < 12) (pad : Bool) (red : Reduction) :
    (upChordObj k c).toVec none pad red = c.toVec none pad red := by
  simp only [Chord.toVec, upChordObj, Chord.tonicFor, Chord.modeFor, h0, relative_up k h1 h3,
    relative_up k h2 h3]
  rfl

theorem changeVector_up (k : Int) {o o' : KeyObj} (h : 0 ≤ o.tonic ∧ o.tonic < 12)
    (h' : 0 ≤ o'.tonic ∧ o'.tonic < 12) :
    ((upKeyObj k o).toKey .midi).changeVector ((upKeyObj k o').toKey .midi) =
      (o.toKey .midi).changeVector (o'.toKey .midi) := by
  simp only [Key.changeVector, KeyObj.toKey, upKeyObj, relative_up k h' h]

theorem csmKeyPart_up (k : Int) (n : Node κ H P) (ps : List (Node κ H P)) (hn : Tame n)
    (hps : ∀ m ∈ ps, Tame m) :
    csmKeyPart (stdLabels .midi) .midi (upNode k n) (ps.map (upNode k)) =
      csmKeyPart (stdLabels .midi) .midi n ps := by
  cases ps with
  | nil => rfl
  | cons p ps =>
    simp only [csmKeyPart, List.map_cons]
    have e : ((upNode k p).key ≠ (upNode k n).key) = (p.key ≠ n.key) := by
      simp only [upNode, ne_eq, (upKey_inj k).eq_iff]
    simp only [e]
    have h1 := getKeyAux_up k p ps
    have h2 := getKeyAux_up k n (p :: ps)
    simp only [List.map_cons] at h2
    rw [h1, h2]
    split
    · cases h3 : getKeyAux (stdLabels .midi) p ps with
      | error e => rfl
      | ok o =>
        have ho := getKeyAux_range (hps p (by simp)) (fun m hm => hps m (by simp [hm])) h3
        cases h4 : getKeyAux (stdLabels .midi) n (p :: ps) with
        | error e => rfl
        | ok o' =>
          have ho' := getKeyAux_range hn hps h4
          simp only [Except.map, Bind.bind, Except.bind, changeVector_up k ho.1 ho'.1]
    · rfl

theorem ktmKeyPart_up (k : Int) (n : Node κ H P) (ps : List (Node κ H P)) (hn : Tame n)
    (hps : ∀ m ∈ ps, Tame m) :
    ktmKeyPart (stdLabels .midi) .midi (upNode k n) (ps.map (upNode k)) =
      ktmKeyPart (stdLabels .midi) .midi n ps := by
  cases ps with
  | nil => rfl
  | cons p ps =>
    simp only [ktmKeyPart, List.map_cons]
    have e : ((upNode k n).key ≠ (upNode k p).key) = (n.key ≠ p.key) := by
      simp only [upNode, ne_eq, (upKey_inj k).eq_iff]
    simp only [e]
    have h1 := getKeyAux_up k p ps
    have h2 := getKeyAux_up k n (p :: ps)
    simp only [List.map_cons] at h2
    rw [h1, h2]
    split
    · cases h3 : getKeyAux (stdLabels .midi) p ps with
      | error e => rfl
      | ok o =>
        have ho := getKeyAux_range (hps p (by simp)) (fun m hm => hps m (by simp [hm])) h3
        cases h4 : getKeyAux (stdLabels .midi) n (p :: ps) with
        | error e => rfl
        | ok o' =>
          have ho' := getKeyAux_range hn hps h4
          simp only [Except.map, Bind.bind, Except.bind, changeVector_up k ho.1 ho'.1]
    · rfl

theorem chordVec_up (k : Int) (C : Caches) (n : Node κ H P) (ps : List (Node κ H P)) (hn : Tame n)
    (hps : ∀ m ∈ ps, Tame m) (pad : Bool) (change : List ℚ) :
    ((chordObj (stdLabels .midi) .midi C (upNode k n) (ps.map (upNode k))).bind fun c =>
      (c.toVec none pad noReduction).bind fun v => (.ok (v ++ change) : Py (List ℚ))) =
    (chordObj (stdLabels .midi) .midi C n ps).bind fun c =>
      (c.toVec none pad noReduction).bind fun v => .ok (v ++ change) := by
  have h := chordObj_up k C n ps hn hps
  revert h
  cases chordObj (stdLabels .midi) .midi C n ps <;>
    cases chordObj (stdLabels .midi) .midi C (upNode k n) (ps.map (upNode k)) <;> intro h <;>
    simp only [PyRel] at h
  · rw [h]
  · obtain ⟨h1, h2, h3, h4, h5⟩ := h
    simp only [Except.bind, h1, toVec_up k h2 h3 h4 h5]

theorem csmInput_up (k : Int) (C : Caches) {s : State κ H P} (hs : TameState s) :
    csmInput (stdLabels .midi) .midi C (upState k s) = csmInput (stdLabels .midi) .midi C s := by
  unfold csmInput
  simp only [upState, csmKeyPart_up k s.node s.prev hs.1 hs.2]
  cases csmKeyPart (stdLabels .midi) .midi s.node s.prev with
  | error e => rfl
  | ok v => exact chordVec_up k C s.node s.prev hs.1 hs.2 false v

theorem ktmInput_up (k : Int) (C : Caches) (n : Node κ H P) (ps : List (Node κ H P)) (hn : Tame n)
    (hps : ∀ m ∈ ps, Tame m) :
    ktmInput (stdLabels .midi) .midi C (upNode k n) (ps.map (upNode k)) =
      ktmInput (stdLabels .midi) .midi C n ps := by
  unfold ktmInput
  simp only [ktmKeyPart_up k n ps hn hps]
  cases ktmKeyPart (stdLabels .midi) .midi n ps with
  | error e => rfl
  | ok v => exact chordVec_up k C n ps hn hps true v

theorem ksmInput_up [DecidableEq H] (k : Int) (C : Caches) (n : Node κ H P) (ps : List (Node κ H P))
    (hn : Tame n) (hps : ∀ m ∈ ps, Tame m) :
    ksmInput (stdLabels .midi) .midi C (upNode k n) (ps.map (upNode k)) =
      ksmInput (stdLabels .midi) .midi C n ps := by
  induction ps generalizing n with
  | nil =>
    have := ktmInput_up k C n [] hn hps
    simp only [List.map_nil] at this
    simp only [ksmInput, List.map_nil, this]
  | cons p ps ih =>
    have h1 := ktmInput_up k C n (p :: ps) hn hps
    simp only [List.map_cons] at h1
    have h2 : ksmHasRun (upNode k p) (ps.map (upNode k)) = ksmHasRun p ps := by cases ps <;> rfl
    simp only [ksmInput, List.map_cons, h1, h2, ih p (hps p (by simp)) fun m hm => hps m (by simp [hm])]

theorem relativeChordIndex_up (k : Int) {s : State κ H P} (hs : TameState s) :
    relativeChordIndex (stdLabels .midi) .midi (upState k s) =
      relativeChordIndex (stdLabels .midi) .midi s := by
  unfold relativeChordIndex
  rw [getKey_up, show (upState k s).node.chord = s.node.chord.map (upChord k) from rfl, chordLabelOf_up,
    show (upState k s).prev.length = s.prev.length from List.length_map _]
  cases h3 : getKey (stdLabels .midi) s with
  | error e => rfl
  | ok o =>
    have ho := getKeyAux_range hs.1 hs.2 h3
    cases h1 : chordLabelOf (stdLabels .midi) s.node.chord with
    | error e => rfl
    | ok x =>
      obtain ⟨root, ct, inv⟩ := x
      obtain ⟨c, hc⟩ : ∃ c, pyGet (stdLabels .midi).chord c = .ok (root, ct, inv) := by
        cases h4 : s.node.chord with
        | none => rw [h4] at h1; cases h1
        | some c => rw [h4] at h1; exact ⟨c, h1⟩
      have hroot := midi_root hc
      simp only [Except.map, Bind.bind, Except.bind]
      split
      · rfl
      · rw [bass_up k ct inv hroot]
        simp only [upKeyObj, relative_up k hroot ho.1]
        cases bassNote ct root inv .midi false <;> rfl

end

section
variable {κ H : Type}

theorem csmPriorCost_up (k : Int) (scale : κ → Int → κ) (useInv : Bool) (red : Reduction)
    {s : State κ H (List κ)} (hs : TameState s) :
    csmPriorCost scale (stdLabels .midi) .midi useInv red (upState k s) =
      csmPriorCost scale (stdLabels .midi) .midi useInv red s := by
  have h := relativeChordIndex_up k hs
  obtain ⟨n, prev⟩ := s
  cases prev with
  | nil => rfl
  | cons q rest =>
    simp only [csmPriorCost, csmPriorIndex, upState, List.map_cons] at h ⊢
    rw [h]
    rfl

end

/-! ## The search -/

section
variable {κ ρ H : Type} [DecidableEq H]

/-- A transposed forced label; -1 is no label. -/
def upForced (f : Int → Int) (i : Int) : Int := if i = -1 then -1 else f i

/-- `d'` is the search for the piece of `d` moved up by `k` semitones: the CCM gives the transposed chords
the same priors and the same order, and the forced labels are transposed. All else is the same. -/
structure Transposed (k : Int) (d d' : SearchData κ ρ H (List κ)) : Prop where
  midi : d.pitchType = .midi ∧ d'.pitchType = .midi
  beamSize : d'.beamSize = d.beamSize
  hashLength : d'.hashLength = d.hashLength
  numInputs : d'.numInputs = d.numInputs
  minChange : d'.minChange = d.minChange
  maxNoChange : d'.maxNoChange = d.maxNoChange
  leProb : d'.leProb = d.leProb
  zeroProb : d'.zeroProb = d.zeroProb
  logChange : d'.logChange = d.logChange
  logNoChange : d'.logNoChange = d.logNoChange
  lt : d'.lt = d.lt
  ge : d'.ge = d.ge
  scale : d'.scale = d.scale
  ksmExponent : d'.ksmExponent = d.ksmExponent
  icm : d'.icm = d.icm
  ranges : List.Forall₂ (fun e e' => e'.1 = e.1 ∧ e'.2.stop = e.2.stop ∧ e'.2.logProb = e.2.logProb ∧
    e'.2.rejoinLogProb = e.2.rejoinLogProb ∧ e'.2.maxIndex = e.2.maxIndex ∧
    e'.2.order = e.2.order.map (upChord k) ∧
    ∀ c, pyGet e'.2.priors (upChord k c) = pyGet e.2.priors c) d.ranges d'.ranges
  forcedChords : d'.forcedChords = d.forcedChords.map (upForced (upChord k))
  forcedKeys : d'.forcedKeys = d.forcedKeys.map (upForced (upKey k))

/-- Where there is more than one forced label in a range or in a chord, the transposed one is chosen. (The
code chooses by the order of a set.) -/
structure Chooses (k : Int) (d d' : SearchData κ ρ H (List κ)) : Prop where
  chords : ∀ e ∈ d.ranges, d'.forcedIn d'.forcedChords e.1 e.2.stop =
    (d.forcedIn d.forcedChords e.1 e.2.stop).map (upChord k)
  keys : ∀ a b, d'.forcedIn d'.forcedKeys a b = (d.forcedIn d.forcedKeys a b).map (upKey k)

/-- The first key is given. -/
def FirstKey (d : SearchData κ ρ H (List κ)) : Prop := ∃ f, 0 ≤ f ∧ pyGet d.forcedKeys 0 = .ok f

variable [Add κ] [Sub κ] [Zero κ] {d d' : SearchData κ ρ H (List κ)} {N : Nets κ ρ H (List κ)}
  {C : Caches} {useInv : Bool} {red : Reduction} {k : Int}

theorem upKey_nonneg {k f : Int} (h : 0 ≤ f) : 0 ≤ upKey k f := by
  unfold upKey wrap
  split
  · simp only; omega
  · rw [if_neg (by omega)]; exact h

omit [DecidableEq H] [Add κ] [Sub κ] [Zero κ] in
theorem forall₂_rangesAt (h : Transposed k d d') (start : Nat) :
    List.Forall₂ (fun r r' => (start, r) ∈ d.ranges ∧ r'.stop = r.stop ∧ r'.logProb = r.logProb ∧
      r'.rejoinLogProb = r.rejoinLogProb ∧ r'.maxIndex = r.maxIndex ∧
      r'.order = r.order.map (upChord k) ∧ ∀ c, pyGet r'.priors (upChord k c) = pyGet r.priors c)
      (d.rangesAt start) (d'.rangesAt start) := by
  unfold rangesAt
  suffices hkey : ∀ l l', (∀ e ∈ l, e ∈ d.ranges) → List.Forall₂ (fun (e e' : Nat × RangeData κ) =>
      e'.1 = e.1 ∧ e'.2.stop = e.2.stop ∧ e'.2.logProb = e.2.logProb ∧
      e'.2.rejoinLogProb = e.2.rejoinLogProb ∧ e'.2.maxIndex = e.2.maxIndex ∧
      e'.2.order = e.2.order.map (upChord k) ∧
      ∀ c, pyGet e'.2.priors (upChord k c) = pyGet e.2.priors c) l l' →
      List.Forall₂ (fun r r' => (start, r) ∈ d.ranges ∧ r'.stop = r.stop ∧ r'.logProb = r.logProb ∧
      r'.rejoinLogProb = r.rejoinLogProb ∧ r'.maxIndex = r.maxIndex ∧
      r'.order = r.order.map (upChord k) ∧ ∀ c, pyGet r'.priors (upChord k c) = pyGet r.priors c)
      ((l.filter fun e => decide (e.1 = start)).map (·.2))
      ((l'.filter fun e => decide (e.1 = start)).map (·.2)) from
    hkey _ _ (fun e he => he) h.ranges
  intro l l' hm hr
  induction hr with
  | nil => exact List.Forall₂.nil
  | @cons e e' _ _ he _ ih =>
    have ih := ih fun e he => hm e (List.mem_cons_of_mem _ he)
    simp only [List.filter_cons, he.1]
    split
    · rename_i h1
      simp only [List.map_cons]
      refine List.Forall₂.cons ⟨?_, he.2⟩ ih
      have := hm e (by simp)
      rw [← of_decide_eq_true h1]
      exact this
    · exact ih

omit [DecidableEq H] [Add κ] [Sub κ] [Zero κ] in
theorem branchIds_up (h : Chooses k d d') (start : Nat) (chord : Option Int) {r r' : RangeData κ}
    (hr : (start, r) ∈ d.ranges) (hstop : r'.stop = r.stop) (hmax : r'.maxIndex = r.maxIndex)
    (horder : r'.order = r.order.map (upChord k)) :
    d'.branchIds start (chord.map (upChord k)) r' =
      (d.branchIds start chord r).map (List.map (upChord k)) := by
  have h0 : pyGet (r.order.map (upChord k)) 0 = (pyGet r.order 0).map (upChord k) := by
    cases r.order <;> rfl
  unfold branchIds
  rw [hstop, h.chords _ hr, hmax, horder, h0]
  cases d.forcedIn d.forcedChords start r.stop with
  | some f =>
    simp only [Option.map_some]
    cases pyGet r.order 0 <;> rfl
  | none =>
    simp only [Option.map_none]
    split
    · cases pyGet r.order 0 with
      | error e => rfl
      | ok first =>
        simp only [Except.map]
        have e : (some (upChord k first) = chord.map (upChord k)) = (some first = chord) := by
          cases chord with
          | none => simp
          | some c => simp [(upChord_inj k).eq_iff]
        simp only [e]
        split <;> simp
    · simp [Except.map]

theorem branchState_up (hn : RunsNets d N C useInv red) (hn' : RunsNets d' N C useInv red)
    (h : Transposed k d d') (start : Nat) {s : State κ H (List κ)} (hs : TameState s) {r r' : RangeData κ}
    (hr : r'.stop = r.stop ∧ r'.logProb = r.logProb ∧
      r'.rejoinLogProb = r.rejoinLogProb ∧ r'.maxIndex = r.maxIndex ∧
      r'.order = r.order.map (upChord k) ∧ ∀ c, pyGet r'.priors (upChord k c) = pyGet r.priors c) (c : Int) :
    PyRel (OptRel (Up k)) (d.branchState start s r c) (d'.branchState start (upState k s) r' (upChord k c)) := by
  obtain ⟨h1, h2, h3, -, -, h4⟩ := hr
  unfold branchState
  rw [h4 c, h1, h2, h3, h.scale, hn.labels, hn'.labels, h.midi.1, h.midi.2]
  refine PyRel.bind (R := Eq) PyRel.refl fun lp lp' _ _ hlp => ?_
  subst hlp
  have e : (some (upChord k c) = (upState k s).node.chord) = (some c = s.node.chord) := by
    simp only [upState, upNode]
    cases s.node.chord with
    | none => simp
    | some c => simp [(upChord_inj k).eq_iff]
  simp only [e]
  split
  · exact PyRel.map (rejoin_up k hs _ _) fun a b hab => hab
  · exact chordTransition_up k hs _ _ _

omit [Add κ] [Sub κ] [Zero κ] in
theorem targetKey_up (hn : RunsNets d N C useInv red) (hn' : RunsNets d' N C useInv red)
    (h : Transposed k d d') {s : State κ H (List κ)} (hs : TameState s) (rel : Int) :
    d'.targetKey (upState k s) rel = (d.targetKey s rel).map (Option.map (upKey k)) := by
  unfold targetKey
  rw [hn.labels, hn'.labels, hn.relativeKeys, hn'.relativeKeys, h.midi.1, h.midi.2, getKey_up]
  cases pyGet (relativeKeyLabels .midi) rel with
  | error e => rfl
  | ok x =>
    obtain ⟨mode, interval⟩ := x
    cases h3 : getKey (stdLabels .midi) s with
    | error e => rfl
    | ok o =>
      have ho := getKeyAux_range hs.1 hs.2 h3
      simp only [Except.map, Bind.bind, Except.bind, upKeyObj, upPitch, if_pos ho.1]
      have e : ((o.tonic + k) % 12 + interval) % 12 = ((o.tonic + interval) % 12 + k) % 12 := by omega
      rw [e, key_index k mode (by omega)]
      cases keyOneHotIndex mode ((o.tonic + interval) % 12) .midi <;> rfl

omit [DecidableEq H] [Add κ] [Sub κ] [Zero κ] in
theorem setKsm_up (s : State κ H (List κ)) (o : KsmOutput κ H) : setKsm (upState k s) o = upState k (setKsm s o) :=
  rfl

omit [Sub κ] [Zero κ] in
theorem keyLoop_up (hn : RunsNets d N C useInv red) (hn' : RunsNets d' N C useInv red)
    (h : Transposed k d d') (forced : Option Int) {s : State κ H (List κ)} (hs : TameState s)
    (o : KsmOutput κ H) (len : Int) (rels : List Int) : ∀ room,
    PyRel (List.Forall₂ (Up k)) (d.keyLoop forced s o len rels room)
      (d'.keyLoop (forced.map (upKey k)) (upState k s) o len rels room) := by
  induction rels with
  | nil => intro room; exact List.Forall₂.nil
  | cons rel rels ih =>
    intro room
    simp only [keyLoop]
    rw [targetKey_up hn hn' h hs]
    cases d.targetKey s rel with
    | error e => exact PyRel.err
    | ok t =>
      cases t with
      | none => exact ih room
      | some key =>
        simp only [Except.map, Bind.bind, Except.bind, Option.map_some]
        have e1 : (forced.map (upKey k) = some (upKey k key)) = (forced = some key) := by
          cases forced with
          | none => simp
          | some f => simp [(upKey_inj k).eq_iff]
        have e : skipKey (forced.map (upKey k)) (upKey k key) (upState k s).node.key =
            skipKey forced key s.node.key := by
          unfold skipKey
          simp only [ne_eq, e1, Option.isSome_map]
          simp only [upState, upNode, (upKey_inj k).eq_iff]
        rw [e]
        split
        · exact ih room
        · rw [hn.labels, hn'.labels, h.midi.1, h.midi.2, h.scale, h.ksmExponent]
          cases pyGet o.priors rel with
          | error e => exact PyRel.err
          | ok lp =>
            refine PyRel.bind (keyTransition_up k hs key _) fun t t' _ _ ht => ?_
            cases t <;> cases t' <;> simp only [OptRel] at ht <;> simp only [afterKey, e1]
            · split
              · exact List.Forall₂.nil
              · exact ih room
            · split
              · exact List.Forall₂.cons ht List.Forall₂.nil
              · exact PyRel.map (ih (room - 1)) fun l l' hl => List.Forall₂.cons ht hl

omit [Add κ] [Sub κ] [Zero κ] in
theorem ksm_up (hn : RunsNets d N C useInv red) (hn' : RunsNets d' N C useInv red)
    (h : Transposed k d d') {s : State κ H (List κ)} (hs : TameState s) : d'.ksm (upState k s) = d.ksm s := by
  rw [hn.ksm, hn'.ksm, hn.labels, hn'.labels, h.midi.1, h.midi.2]
  have := ksmInput_up k C s.node s.prev hs.1 hs.2
  simp only [upState]
  rw [this]
  rfl

omit [Add κ] [Sub κ] [Zero κ] in
theorem ktm_up (hn : RunsNets d N C useInv red) (hn' : RunsNets d' N C useInv red)
    (h : Transposed k d d') {s : State κ H (List κ)} (hs : TameState s) : d'.ktm (upState k s) = d.ktm s := by
  rw [hn.ktm, hn'.ktm, hn.labels, hn'.labels, h.midi.1, h.midi.2]
  have := ktmInput_up k C s.node s.prev hs.1 hs.2
  simp only [upState]
  rw [this]
  rfl

omit [Add κ] [Sub κ] [Zero κ] in
theorem runKtm_up (hn : RunsNets d N C useInv red) (hn' : RunsNets d' N C useInv red)
    (h : Transposed k d d') {s s' : State κ H (List κ)} (hs : Up k s s') :
    PyRel (fun p p' => p.1 = p'.1 ∧ Up k p.2 p'.2) (d.runKtm s) (d'.runKtm s') := by
  obtain ⟨rfl, ht⟩ := hs
  unfold runKtm
  rw [ktm_up hn hn' h ht, h.zeroProb,
    show canKeyTransition (upState k s) = canKeyTransition s by simp [canKeyTransition, upState]]
  refine PyRel.map (R := Eq) PyRel.refl fun a b hab => ?_
  subst hab
  exact ⟨rfl, rfl, ht⟩

theorem transposed_sim (hn : RunsNets d N C useInv red) (hn' : RunsNets d' N C useInv red)
    (h : Transposed k d d') (hc : Chooses k d d') (hf : FirstKey d) : Sim d d' Eq (Up k) where
  beamSize := h.beamSize
  hashLength := h.hashLength
  numInputs := h.numInputs
  lt := by rintro a _ b _ rfl rfl; rw [h.lt]
  ge := by rintro a _ b _ rfl rfl; rw [h.ge]
  add := by rintro a _ b _ rfl rfl; rfl
  logChange := fun p n => by rw [h.scale, h.logChange]
  logNoChange := fun p n => by rw [h.scale, h.logNoChange]
  change := by rintro s s' ⟨rfl, -⟩; rfl
  logProb := by rintro s s' ⟨rfl, -⟩; rfl
  prev := by rintro s s' ⟨rfl, -⟩; simp only [upState, List.map_map]; rfl
  same := by rintro a a' b b' ⟨rfl, -⟩ ⟨rfl, -⟩; exact (upState_inj k).eq_iff.symm
  hash := by
    rintro a a' b b' ⟨rfl, -⟩ ⟨rfl, -⟩
    simp only [upState, upNode]
    exact (Option.map_injective (List.map_injective_iff.2 (upHash_inj k))).eq_iff.symm
  addKtm := by rintro s s' a _ ⟨rfl, ht⟩ rfl; exact ⟨rfl, ht⟩
  addCsm := by rintro s s' a _ ⟨rfl, ht⟩ rfl; exact ⟨rfl, ht⟩
  copy := by
    rintro s s' ⟨rfl, ht⟩
    refine ⟨?_, ht⟩
    have hh := newHash_up k (s.node.hash.map List.length) s.prev s.node.key s.node.chord
    simp only [State.copy, upState, upNode, Option.map_map, State.mk.injEq, Node.mk.injEq, true_and,
      and_true] at hh ⊢
    rw [← hh]
    congr 1
    cases s.node.hash <;> simp
  ranges := by
    intro start
    refine (forall₂_rangesAt h start).imp fun r r' hr => ⟨hr.2.1.symm, hr.2.2.1.symm, ?_⟩
    obtain ⟨hm, hr⟩ := hr
    rintro s s' ⟨rfl, ht⟩
    rw [show (upState k s).node.chord = s.node.chord.map (upChord k) from rfl,
      branchIds_up hc start s.node.chord hm hr.1 hr.2.2.2.1 hr.2.2.2.2.1]
    cases d.branchIds start s.node.chord r with
    | error e => exact PyRel.err
    | ok ids =>
      refine PyRel.ok ?_
      rw [List.forall₂_map_right_iff]
      exact forall₂_refl fun c _ => branchState_up hn hn' h start ht hr c
  runCsm := by
    rintro s s' ⟨rfl, ht⟩
    unfold runCsm
    rw [hn.csm, hn'.csm, hn.labels, hn'.labels, h.midi.1, h.midi.2, csmInput_up k C ht]
    cases csmInput (stdLabels .midi) .midi C s with
    | error e => exact PyRel.err
    | ok v => exact ⟨rfl, ht⟩
  csmCost := by
    rintro s s' ⟨rfl, ht⟩
    rw [hn.csmCost, hn'.csmCost, hn.labels, hn'.labels, h.midi.1, h.midi.2, h.scale,
      csmPriorCost_up k _ _ _ ht]
    exact PyRel.refl
  runKtm := fun s s' hs => runKtm_up hn hn' h hs
  keyOptions := by
    rintro p s s' q q' l l' ⟨rfl, ht⟩ hq hq'
    have hq'' : q' = upNode k q := by
      simp only [upState, hq, List.map_cons, List.cons.injEq] at hq'
      exact hq'.1.symm
    subst hq''
    unfold keyOptions
    rw [show (upNode k q).changeIndex = q.changeIndex from rfl,
      show (upState k s).node.changeIndex = s.node.changeIndex from rfl, hc.keys, h.leProb, h.minChange,
      h.maxNoChange]
    cases d.forcedIn d.forcedKeys q.changeIndex s.node.changeIndex with
    | none => rfl
    | some f =>
      simp only [Option.map_some]
      rw [show (upState k s).node.key = upKey k s.node.key from rfl,
        show (upState k s).node.mustKey = s.node.mustKey from rfl]
      simp only [(upKey_inj k).eq_iff]
  keyChanges := by
    rintro s s' ⟨rfl, ht⟩
    unfold keyChanges
    rw [ksm_up hn hn' h ht]
    refine PyRel.bind (R := Eq) PyRel.refl fun o o' _ _ hoo => ?_
    subst hoo
    rw [setKsm_up]
    obtain ⟨n, prev⟩ := s
    cases prev with
    | nil => exact PyRel.err
    | cons q rest =>
      simp only [setKsm, upState, List.map_cons]
      rw [show (upNode k q).changeIndex = q.changeIndex from rfl,
        show (upNode k n).changeIndex = n.changeIndex from rfl, hc.keys]
      exact keyLoop_up hn hn' h _ (s := setKsm ⟨n, q :: rest⟩ o) ht o _ _ _
  runHidden := by
    rintro s s' hs
    unfold runHidden
    refine PyRel.bind (runKtm_up hn hn' h hs) fun p p' _ _ hp => ?_
    obtain ⟨-, hp1, hp2⟩ := hp
    rw [hp1, ksm_up hn hn' h hp2]
    refine PyRel.bind (R := Eq) PyRel.refl fun o o' _ _ hoo => ?_
    subst hoo
    exact ⟨rfl, hp2⟩
  initial := by
    obtain ⟨f, hf0, hf1⟩ := hf
    have hf2 : pyGet d'.forcedKeys 0 = .ok (upKey k f) := by
      rw [h.forcedKeys]
      revert hf1
      cases d.forcedKeys with
      | nil => intro hf1; cases hf1
      | cons x l =>
        intro hf1
        have hx : x = f := by injection hf1
        rw [hx]
        simp only [List.map_cons, upForced, if_neg (show f ≠ -1 by omega)]
        rfl
    have hne : ∀ x : Int, 0 ≤ x → x ≠ -1 := fun x hx => by omega
    simp only [initialKeys, hf1, hf2, Bind.bind, Except.bind, if_neg (hne _ hf0),
      if_neg (hne _ (upKey_nonneg hf0))]
    refine List.Forall₂.cons ?_ List.Forall₂.nil
    rw [hn.labels, hn'.labels, h.midi.1, h.midi.2, key_label, h.hashLength, h.icm]
    cases pyGet (stdLabels .midi).key f with
    | error e => exact PyRel.err
    | ok x =>
      refine ⟨?_, ?_, ?_⟩
      · have hh := newHash_up (κ := κ) (H := H) (P := List κ) k d.hashLength [] f none
        simp only [State.initial, upState, upNode, List.map_nil, Option.map_none, State.mk.injEq,
          Node.mk.injEq, true_and, and_true] at hh ⊢
        exact hh
      · intro o ho; cases ho
      · intro m hm; cases hm

/-- C134: with MIDI pitches and a given first key, the analysis of the transposed piece is the transposed
analysis. -/
theorem C134_transposes_partial [DecidableEq κ] (hn : RunsNets d N C useInv red)
    (hn' : RunsNets d' N C useInv red) (h : Transposed k d d') (hc : Chooses k d d') (hf : FirstKey d) :
    d'.search = d.search.map (Option.map (upState k)) := by
  have hr := (transposed_sim hn hn' h hc hf).search_rel
  revert hr
  cases d.search <;> cases d'.search <;> intro hr <;> simp only [PyRel] at hr
  · rw [hr]; rfl
  · rename_i o o'
    cases o <;> cases o' <;> simp only [OptRel] at hr
    · rfl
    · rw [hr.1]; rfl

omit [DecidableEq H] [Add κ] [Sub κ] [Zero κ] in
theorem forcedIn_up {f : Int → Int} (hf : ∀ x, 0 ≤ x → 0 ≤ f x) {ids : List Int}
    (hids : ∀ x ∈ ids, x = -1 ∨ 0 ≤ x) (hp : ∀ l, l ≠ [] → d.pick l ∈ l) (hp' : ∀ l, l ≠ [] → d'.pick l ∈ l)
    {a b : Nat} (hone : ∀ x ∈ (ids.take b).drop a, ∀ y ∈ (ids.take b).drop a, x ≠ -1 → y ≠ -1 → x = y) :
    d'.forcedIn (ids.map (upForced f)) a b = (d.forcedIn ids a b).map f := by
  unfold forcedIn
  rw [← List.map_take, ← List.map_drop]
  have hids : ∀ x ∈ (ids.take b).drop a, x = -1 ∨ 0 ≤ x := fun x hx =>
    hids x (List.mem_of_mem_take (List.mem_of_mem_drop hx))
  generalize (ids.take b).drop a = l at hone hids
  have e : (l.map (upForced f)).filter (fun x => decide (x ≠ -1)) =
      (l.filter fun x => decide (x ≠ -1)).map f := by
    clear hone
    induction l with
    | nil => rfl
    | cons x l ih =>
      have ih := ih fun y hy => hids y (List.mem_cons_of_mem _ hy)
      simp only [List.map_cons, List.filter_cons, upForced]
      rcases hids x (by simp) with h1 | h1
      · simp only [h1, if_true, ne_eq, not_true_eq_false, decide_false, Bool.false_eq_true, if_false]
        exact ih
      · have h2 : x ≠ -1 := by omega
        have h3 : f x ≠ -1 := by have := hf x h1; omega
        simp only [ne_eq, h2, h3, not_false_eq_true, decide_true, if_true, if_false, List.map_cons]
        rw [← ih]
  simp only [e, List.map_eq_nil_iff]
  split
  · rfl
  · rename_i hne
    have h1 := hp _ hne
    have h2 := hp' _ (by simpa using hne : (l.filter fun x => decide (x ≠ -1)).map f ≠ [])
    obtain ⟨y, hy, hyf⟩ := List.mem_map.1 h2
    rw [List.mem_filter] at h1 hy
    rw [← hyf, hone y hy.1 _ h1.1 (of_decide_eq_true hy.2) (of_decide_eq_true h1.2)]
    rfl

omit [DecidableEq H] [Add κ] [Sub κ] [Zero κ] in
/-- C134: the transposed label is chosen if the chords forced on each range agree and only one key is
forced. -/
theorem C134_chooses (h : Transposed k d d') (hp : ∀ l, l ≠ [] → d.pick l ∈ l)
    (hp' : ∀ l, l ≠ [] → d'.pick l ∈ l) (hfc : ∀ x ∈ d.forcedChords, x = -1 ∨ 0 ≤ x)
    (hfk : ∀ x ∈ d.forcedKeys, x = -1 ∨ 0 ≤ x)
    (hc : ∀ e ∈ d.ranges, ∀ x ∈ (d.forcedChords.take e.2.stop).drop e.1,
      ∀ y ∈ (d.forcedChords.take e.2.stop).drop e.1, x ≠ -1 → y ≠ -1 → x = y)
    (hk : ∀ x ∈ d.forcedKeys, ∀ y ∈ d.forcedKeys, x ≠ -1 → y ≠ -1 → x = y) : Chooses k d d' where
  chords e he := by
    rw [h.forcedChords]
    refine forcedIn_up (fun x hx => ?_) hfc hp hp' (hc e he)
    unfold upChord wrap
    split
    · rename_i h1
      obtain ⟨_, _, _, _, _, _, _, _, b1, b2⟩ := upClass_spec k h1.1 h1.2
      exact b1
    · rw [if_neg (by omega)]; exact hx
  keys a b := by
    rw [h.forcedKeys]
    exact forcedIn_up (fun x hx => upKey_nonneg hx) hfk hp hp' fun x hx y hy =>
      hk x (List.mem_of_mem_take (List.mem_of_mem_drop hx)) y (List.mem_of_mem_take (List.mem_of_mem_drop hy))

end

section
variable {κ H P : Type}

/-- C134: the chord labels of a transposed analysis have the same types and inversions, and roots `k`
semitones higher; its key labels have the same modes, and tonics `k` semitones higher. -/
theorem C134_labels (k : Int) :
    (∀ c root ct inv, pyGet (stdLabels .midi).chord c = .ok (root, ct, inv) →
      pyGet (stdLabels .midi).chord (upChord k c) = .ok ((root + k) % 12, ct, inv)) ∧
    ∀ i tonic mode, pyGet (stdLabels .midi).key i = .ok (tonic, mode) →
      pyGet (stdLabels .midi).key (upKey k i) = .ok ((tonic + k) % 12, mode) := by
  constructor
  · intro c root ct inv h
    rw [chord_label, h]
    simp only [Except.map, upPitch, if_pos (midi_root h)]
  · intro i tonic mode h
    rw [key_label, h]
    simp only [Except.map, upPitch, if_pos (midi_key h)]

/-- C134: a transposed analysis has transposed chords and keys, the same changes and the same score. -/
theorem C134_analysis (k : Int) (s : State κ H P) :
    (upState k s).getChords = (s.getChords.1.map (Option.map (upChord k)), s.getChords.2) ∧
    (upState k s).getKeys = (s.getKeys.1.map (upKey k), s.getKeys.2) ∧
    (upState k s).node.logProb = s.node.logProb := by
  refine ⟨?_, ?_, rfl⟩
  · unfold getChords upState
    simp only
    generalize s.node = n
    induction s.prev generalizing n with
    | nil => rfl
    | cons p ps ih =>
      have ih := ih p
      simp only [List.map_cons, getChordsAux] at ih ⊢
      rw [ih]
      simp [upNode]
  · unfold getKeys upState
    simp only
    generalize s.node = n
    induction s.prev generalizing n with
    | nil => rfl
    | cons p ps ih =>
      have ih := ih p
      simp only [List.map_cons, getKeysAux] at ih ⊢
      rw [ih]
      have e : (some (upNode k n).key ≠ ((getKeysAux p ps).1.map (upKey k)).getLast?) =
          (some n.key ≠ (getKeysAux p ps).1.getLast?) := by
        rw [List.getLast?_map]
        simp only [upNode]
        cases (getKeysAux p ps).1.getLast? with
        | none => simp
        | some x => simp [(upKey_inj k).eq_iff]
      simp only [List.length_map, e]
      split <;> simp [upNode]

end

/-! ## Instances -/

/-- The search of `SearchRuns.netDemo` with the given forced keys. -/
def keyDemo (hash : Option Nat) (keys : List Int) (n : Nat) (ranges : List (Nat × Nat × List Int)) :
    SearchData Int Int Unit (List Int) :=
  { SearchRuns.netDemo .midi true noReduction hash n ranges with forcedKeys := keys }

/-- The caches of `keyDemo`. -/
def demoCaches (n : Nat) : Caches := ⟨List.replicate n 1, List.replicate (n + 1) 0⟩

theorem keyDemo_nets (hash : Option Nat) (keys : List Int) (n : Nat) (ranges : List (Nat × Nat × List Int)) :
    RunsNets (keyDemo hash keys n ranges) (SearchRuns.flatNets .midi true noReduction) (demoCaches n) true
      noReduction where
  csm _ := rfl
  ktm _ := rfl
  ksm _ := rfl
  labels := rfl
  relativeKeys := rfl
  csmCost _ := rfl

theorem keyDemo_transposed (k : Int) (hash : Option Nat) (keys : List Int) (n : Nat)
    (ranges : List (Nat × Nat × List Int)) :
    Transposed k (keyDemo hash keys n ranges)
      (keyDemo hash (keys.map (upForced (upKey k))) n
        (ranges.map fun e => (e.1, e.2.1, e.2.2.map (upChord k)))) where
  midi := ⟨rfl, rfl⟩
  beamSize := rfl
  hashLength := rfl
  numInputs := rfl
  minChange := rfl
  maxNoChange := rfl
  leProb := rfl
  zeroProb := rfl
  logChange := rfl
  logNoChange := rfl
  lt := rfl
  ge := rfl
  scale := rfl
  ksmExponent := rfl
  icm := rfl
  ranges := by
    simp only [keyDemo, SearchRuns.netDemo]
    rw [List.map_map, List.forall₂_map_left_iff, List.forall₂_map_right_iff]
    refine forall₂_refl fun e _ => ⟨rfl, rfl, rfl, rfl, by simp, rfl, fun c => ?_⟩
    have hl := chords_length
    simp only [Function.comp]
    unfold upChord
    rw [← hl]
    have hrep : ∀ i, 0 ≤ i → i < ((stdLabels .midi).chord.length : Int) →
        pyGet (List.replicate (stdLabels .midi).chord.length (-1 : Int)) i = .ok (-1) := by
      intro i h0 h1
      unfold pyGet
      rw [if_pos h0, List.getElem?_replicate, if_pos (by omega)]
    have hr : ∀ i, 0 ≤ i → i < ((stdLabels .midi).chord.length : Int) →
        0 ≤ upClass k i ∧ upClass k i < ((stdLabels .midi).chord.length : Int) := by
      intro i h0 h1
      rw [hl] at h1 ⊢
      obtain ⟨_, _, _, _, _, _, _, _, b1, b2⟩ := upClass_spec k h0 h1
      exact ⟨b1, b2⟩
    have := pyGet_wrap (l := List.replicate (stdLabels .midi).chord.length (-1 : Int)) (f := upClass k)
      (g := id) (fun i h0 h1 => by
        rw [List.length_replicate] at h1 ⊢; exact hr i h0 h1)
      (fun i h0 h1 => by
        rw [List.length_replicate] at h1
        rw [hrep i h0 h1, hrep _ (hr i h0 h1).1 (hr i h0 h1).2]; rfl) c
    rw [List.length_replicate] at this
    rw [this]
    cases pyGet (List.replicate (stdLabels .midi).chord.length (-1 : Int)) c <;> rfl
  forcedChords := by
    simp only [keyDemo, SearchRuns.netDemo, List.map_replicate, upForced, if_true]
  forcedKeys := rfl

/-- What is found: chords, keys and score. -/
def result (x : Py (Option (State Int Unit (List Int)))) : Option (List (Option Int) × List Int × Int) :=
  match x with
  | .ok (some s) => some (s.getChords.1, s.getKeys.1, s.node.logProb)
  | _ => none

/-- The transposition is not trivial: a piece in C and the same piece in F, without and with hashed beams. -/
example :
    let r := [(0, 1, [0]), (1, 2, [15]), (2, 3, [0, 200])]
    let r' := r.map fun e => (e.1, e.2.1, e.2.2.map (upChord 5))
    result (keyDemo none [0, -1, -1] 3 r).search = some ([some 0, some 15, some 200], [0], -10) ∧
    result (keyDemo none [5, -1, -1] 3 r').search = some ([some 15, some 30, some 220], [5], -10) ∧
    result (keyDemo (some 2) [0, -1, -1] 3 r).search = some ([some 0, some 15, some 0], [0], -10) ∧
    result (keyDemo (some 2) [5, -1, -1] 3 r').search = some ([some 15, some 30, some 15], [5], -10) := by
  decide +kernel

/-- C134 does not hold if the first key is not given: analyses in different keys may have the same score,
and the one found is not the transposed one. -/
theorem C134_ties_fails : ∃ d d' : SearchData Int Int Unit (List Int), ∃ N C useInv red,
    RunsNets d N C useInv red ∧ RunsNets d' N C useInv red ∧ Transposed 1 d d' ∧ Chooses 1 d d' ∧
    d'.search ≠ d.search.map (Option.map (upState 1)) := by
  refine ⟨keyDemo none [-1] 1 [(0, 1, [0])], _, _, _, _, _, keyDemo_nets _ _ _ _, ?_,
    keyDemo_transposed 1 _ _ _ _, ?_, ?_⟩
  · exact keyDemo_nets _ _ _ _
  · refine C134_chooses (keyDemo_transposed 1 _ _ _ _) ?_ ?_ ?_ ?_ ?_ ?_
    · exact pickMin_mem
    · exact pickMin_mem
    · decide
    · decide
    · decide
    · decide
  · intro h
    have h1 : result (keyDemo none [-1] 1 [(0, 1, [0])]).search = some ([some 0], [0], -4) := by
      decide +kernel
    have h2 : result (keyDemo none ([-1].map (upForced (upKey 1))) 1
        ([(0, 1, [0])].map fun e => (e.1, e.2.1, e.2.2.map (upChord 1)))).search =
        some ([some 3], [0], -4) := by
      decide +kernel
    rw [h] at h2
    revert h1 h2
    cases (keyDemo none [-1] 1 [(0, 1, [0])]).search with
    | error e => intro h1; cases h1
    | ok o =>
      cases o with
      | none => intro h1; cases h1
      | some s =>
        intro h1 h2
        simp only [result, Except.map, Option.map_some, (C134_analysis 1 s).2.1, Option.some.injEq,
          Prod.mk.injEq] at h1 h2
        rw [h1.2.1] at h2
        exact absurd h2.2.1 (by decide)

/-- C134 does not hold if different keys are forced on a chord: the one of the set that comes first is
taken. -/
theorem C134_conflict_fails : ∃ d d' : SearchData Int Int Unit (List Int), ∃ N C useInv red,
    RunsNets d N C useInv red ∧ RunsNets d' N C useInv red ∧ Transposed 1 d d' ∧ FirstKey d ∧
    d'.search ≠ d.search.map (Option.map (upState 1)) := by
  refine ⟨keyDemo none [10, 11] 2 [(0, 2, [0])], _, _, _, _, _, keyDemo_nets _ _ _ _, ?_,
    keyDemo_transposed 1 _ _ _ _, ⟨10, by decide, rfl⟩, ?_⟩
  · exact keyDemo_nets _ _ _ _
  · intro h
    have h1 : result (keyDemo none [10, 11] 2 [(0, 2, [0])]).search = some ([some 0], [10], -7) := by
      decide +kernel
    have h2 : result (keyDemo none ([10, 11].map (upForced (upKey 1))) 2
        ([(0, 2, [0])].map fun e => (e.1, e.2.1, e.2.2.map (upChord 1)))).search =
        some ([some 3], [0], -9) := by
      decide +kernel
    rw [h] at h2
    revert h1 h2
    cases (keyDemo none [10, 11] 2 [(0, 2, [0])]).search with
    | error e => intro h1; cases h1
    | ok o =>
      cases o with
      | none => intro h1; cases h1
      | some s =>
        intro h1 h2
        simp only [result, Except.map, Option.map_some, (C134_analysis 1 s).2.1, Option.some.injEq,
          Prod.mk.injEq] at h1 h2
        rw [h1.2.1] at h2
        exact absurd h2.2.1 (by decide)

/-- C134 applies to the piece in C above, without and with hashed beams, and for every interval. -/
example (k : Int) (hash : Option Nat) :
    (keyDemo hash ([0, -1, -1].map (upForced (upKey k))) 3
      ([(0, 1, [0]), (1, 2, [15]), (2, 3, [0, 200])].map fun e => (e.1, e.2.1, e.2.2.map (upChord k)))).search =
    (keyDemo hash [0, -1, -1] 3 [(0, 1, [0]), (1, 2, [15]), (2, 3, [0, 200])]).search.map
      (Option.map (upState k)) := by
  refine C134_transposes_partial (keyDemo_nets _ _ _ _) (keyDemo_nets _ _ _ _) (keyDemo_transposed k _ _ _ _)
    (C134_chooses (keyDemo_transposed k _ _ _ _) pickMin_mem pickMin_mem ?_ ?_ ?_ ?_) ⟨0, by decide, rfl⟩
  · show ∀ x ∈ List.replicate 3 (-1 : Int), x = -1 ∨ 0 ≤ x
    decide
  · show ∀ x ∈ ([0, -1, -1] : List Int), x = -1 ∨ 0 ≤ x
    decide
  · intro e he
    have : ∀ x ∈ List.replicate 3 (-1 : Int), x = -1 := by decide
    intro x hx y hy hx'
    exact absurd (this x (List.mem_of_mem_take (List.mem_of_mem_drop hx))) hx'
  · show ∀ x ∈ ([0, -1, -1] : List Int), ∀ y ∈ ([0, -1, -1] : List Int), x ≠ -1 → y ≠ -1 → x = y
    decide

end Verif.SearchTransposes
