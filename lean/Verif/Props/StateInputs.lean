import Verif.StateInputs
import Verif.Lemmas.SearchInv
import Verif.Props.KeyChange

/-!
# C88: the inputs of the models in the search are the rows of the training data
-/

namespace Verif.StateInputs

open Verif State Verif.SearchData Verif.KeyChange
open Verif.Vectors hiding bind_ok mapM_all

/-- A key with this tonic and mode. -/
def plainKey (tonic : Int) (mode : KeyMode) (pt : PitchType) : Key :=
  ⟨tonic, tonic, tonic, mode, mode, mode, pt⟩

section
variable {κ ρ H P : Type}

/-- The change of key from node `q` to node `n`, as the datasets get it. -/
def ChangeOf (L : Labels) (pt : PitchType) (n q : Node κ H P) (change : Option (Key × Key)) : Prop :=
  (n.key = q.key → change = none) ∧
  (n.key ≠ q.key → ∃ t m t' m', pyGet L.key q.key = .ok (t, m) ∧ pyGet L.key n.key = .ok (t', m') ∧
    change = some (plainKey t m pt, plainKey t' m' pt))

/-- The chord from the change index of `q` to that of `n`, in the key of `n`. -/
def ChordOf (L : Labels) (pt : PitchType) (C : Caches) (n q : Node κ H P) (c : Chord ℚ) : Prop :=
  ∃ id, n.chord = some id ∧ pyGet L.chord id = .ok (c.root, c.chordType, c.inversion) ∧
    bassNote c.chordType c.root c.inversion pt false = .ok c.bass ∧
    pyGet L.key n.key = .ok (c.keyTonic, c.keyMode) ∧
    C.levels[q.changeIndex]? = some c.onsetLevel ∧ C.levels[n.changeIndex]? = some c.offsetLevel ∧
    c.duration = ((C.durations.drop q.changeIndex).take (n.changeIndex - q.changeIndex)).sum ∧
    c.pitchType = pt

/-- The row of the sequence datasets for that chord and that change of key. -/
def SeqRow (L : Labels) (pt : PitchType) (C : Caches) (pad : Bool) (n q : Node κ H P) (row : List ℚ) :
    Prop :=
  ∃ c change, ChordOf L pt C n q c ∧ ChangeOf L pt n q change ∧ sequenceRow c pt change pad = .ok row

/-- Only the chord, the key and the change index matter. -/
theorem SeqRow.congr {L : Labels} {pt : PitchType} {C : Caches} {pad : Bool} {n q n' q' : Node κ H P}
    {row : List ℚ} (h : SeqRow L pt C pad n q row) (h1 : n'.chord = n.chord) (h2 : n'.key = n.key)
    (h3 : n'.changeIndex = n.changeIndex) (h4 : q'.key = q.key) (h5 : q'.changeIndex = q.changeIndex) :
    SeqRow L pt C pad n' q' row := by
  obtain ⟨c, change, ⟨id, a1, a2, a3, a4, a5, a6, a7, a8⟩, ⟨b1, b2⟩, h⟩ := h
  refine ⟨c, change, ⟨id, ?_, a2, a3, ?_, ?_, ?_, ?_, a8⟩, ⟨?_, ?_⟩, h⟩
  · rw [h1]; exact a1
  · rw [h2]; exact a4
  · rw [h5]; exact a5
  · rw [h3]; exact a6
  · rw [h3, h5]; exact a7
  · rw [h2, h4]; exact b1
  · rw [h2, h4]; exact b2

/-- There is one row at most. -/
theorem SeqRow.unique {L : Labels} {pt : PitchType} {C : Caches} {pad : Bool} {n q : Node κ H P}
    {row row' : List ℚ} (h : SeqRow L pt C pad n q row) (h' : SeqRow L pt C pad n q row') : row = row' := by
  obtain ⟨c, change, ⟨id, a1, a2, a3, a4, a5, a6, a7, a8⟩, ⟨b1, b2⟩, h⟩ := h
  obtain ⟨c', change', ⟨id', a1', a2', a3', a4', a5', a6', a7', a8'⟩, ⟨b1', b2'⟩, h'⟩ := h'
  rw [a1] at a1'; injection a1' with a1'; subst a1'
  rw [a2] at a2'; injection a2' with a2'
  rw [a4] at a4'; injection a4' with a4'
  rw [a5] at a5'; injection a5' with a5'
  rw [a6] at a6'; injection a6' with a6'
  rw [← a7] at a7'
  rw [← a8] at a8'
  injection a2' with r1 a2'; injection a2' with r2 r3
  injection a4' with r4 r5
  rw [← r1, ← r2, ← r3, a3] at a3'; injection a3' with r6
  have hcc : c = c' := by
    cases c; cases c'
    simp only at r1 r2 r3 r4 r5 r6 a5' a6' a7' a8'
    simp only [r1, r2, r3, r4, r5, r6, a5', a6', a7', a8']
  have hch : change = change' := by
    by_cases hk : n.key = q.key
    · rw [b1 hk, b1' hk]
    · obtain ⟨t, m, t', m', e1, e2, e3⟩ := b2 hk
      obtain ⟨u, l, u', l', f1, f2, f3⟩ := b2' hk
      rw [e1] at f1; injection f1 with f1; injection f1 with f1 f1'
      rw [e2] at f2; injection f2 with f2; injection f2 with f2 f2'
      rw [e3, f3, f1, f1', f2, f2']
  subst hcc; subst hch
  rw [h] at h'
  injection h'

theorem changeVector_length {k next : Key} {v : List ℚ} (h : k.changeVector next = .ok v) :
    v.length = keyChangeVectorLength k.tonicType false := by
  by_cases hr : ∃ r, Interval k next r
  · obtain ⟨r, hr⟩ := hr
    obtain ⟨v', hv, hl, -⟩ := C42_vector k next r hr
    rw [hv] at h; injection h with h
    rw [← h]; exact hl
  · obtain ⟨ht, hv⟩ := changeVector_out hr
    rw [hv] at h; injection h with h
    rw [← h, ht, List.length_append, hot_length]; rfl

/-- The chord object of a node. -/
theorem chordObj_of {L : Labels} {pt : PitchType} {C : Caches} {g : Int} {h : Option Nat}
    {n q : Node κ H P} {rest : List (Node κ H P)} (hc : ChainOK L g h (n :: q :: rest)) {c : Chord ℚ}
    (ho : chordObj L pt C n (q :: rest) = .ok c) : ChordOf L pt C n q c := by
  simp only [chordObj, Bind.bind] at ho
  obtain ⟨k, hk, ho⟩ := bind_ok ho
  obtain ⟨⟨root, ct, inv⟩, hl, ho⟩ := bind_ok ho
  simp only at ho
  obtain ⟨bass, hb, ho⟩ := bind_ok ho
  obtain ⟨l1, h1, ho⟩ := bind_ok ho
  obtain ⟨l2, h2, ho⟩ := bind_ok ho
  injection ho with ho
  subst ho
  have hkey := (getKeyAux_ok L g h n (q :: rest) hc k hk).1
  cases hn : n.chord with
  | none => rw [hn] at hl; cases hl
  | some id =>
    rw [hn] at hl
    have h1' := pyGet_nonneg _ _ _ (Int.natCast_nonneg _) h1
    have h2' := pyGet_nonneg _ _ _ (Int.natCast_nonneg _) h2
    simp only [Int.toNat_natCast] at h1' h2'
    exact ⟨id, hn, hl, hb, hkey, h1', h2', rfl, rfl⟩

theorem chain_tail {L : Labels} {g : Int} {h : Option Nat} {n q : Node κ H P}
    {rest : List (Node κ H P)} (hc : ChainOK L g h (n :: q :: rest)) : ChainOK L g h (q :: rest) :=
  hc.2.2.2.2

/-- The input of the CSM. -/
theorem csmInput_row {L : Labels} {pt : PitchType} {C : Caches} {g : Int} {h : Option Nat}
    {s : State κ H P} {q : Node κ H P} {rest : List (Node κ H P)} (hc : ChainOK L g h (s.node :: s.prev))
    (hq : s.prev = q :: rest) {row : List ℚ} (hr : s.csmInput L pt C = .ok row) :
    SeqRow L pt C false s.node q row := by
  simp only [csmInput, Bind.bind, hq] at hr
  rw [hq] at hc
  obtain ⟨kp, hkp, hr⟩ := bind_ok hr
  obtain ⟨c, hco, hr⟩ := bind_ok hr
  obtain ⟨v, hv, hr⟩ := bind_ok hr
  injection hr with hr
  subst hr
  have hch := chordObj_of hc hco
  simp only [csmKeyPart] at hkp
  split at hkp
  · rename_i hne
    simp only [Bind.bind] at hkp
    obtain ⟨k1, hk1, hkp⟩ := bind_ok hkp
    obtain ⟨k2, hk2, hkp⟩ := bind_ok hkp
    obtain ⟨w, hw, hkp⟩ := bind_ok hkp
    injection hkp with hkp
    subst hkp
    have e1 := (getKeyAux_ok L g h q rest (chain_tail hc) k1 hk1).1
    have e2 := (getKeyAux_ok L g h s.node (q :: rest) hc k2 hk2).1
    refine ⟨c, some (plainKey k1.tonic k1.mode pt, plainKey k2.tonic k2.mode pt), hch,
      ⟨fun he => absurd he.symm hne, fun _ => ⟨_, _, _, _, e1, e2, rfl⟩⟩, ?_⟩
    have hw' : (plainKey k1.tonic k1.mode pt).changeVector (plainKey k2.tonic k2.mode pt) = .ok w := hw
    have hl : w.length = keyChangeVectorLength pt false := changeVector_length hw'
    simp only [sequenceRow, Bind.bind, hv, Except.bind, hw', hl]
    rw [if_neg (by simp), List.append_assoc]
  · rename_i he
    injection hkp with hkp
    subst hkp
    have he : s.node.key = q.key := (Decidable.not_not.mp he).symm
    refine ⟨c, none, hch, ⟨fun _ => rfl, fun hne => absurd he hne⟩, ?_⟩
    simp only [sequenceRow, Bind.bind, hv, Except.bind, zeros]
    rw [Nat.add_comm, List.replicate_add]; rfl

/-- The input of the KTM. -/
theorem ktmInput_row {L : Labels} {pt : PitchType} {C : Caches} {g : Int} {h : Option Nat}
    {n q : Node κ H P} {rest : List (Node κ H P)} (hc : ChainOK L g h (n :: q :: rest))
    {row : List ℚ} (hr : ktmInput L pt C n (q :: rest) = .ok row) : SeqRow L pt C true n q row := by
  simp only [ktmInput, Bind.bind] at hr
  obtain ⟨kp, hkp, hr⟩ := bind_ok hr
  obtain ⟨c, hco, hr⟩ := bind_ok hr
  obtain ⟨v, hv, hr⟩ := bind_ok hr
  injection hr with hr
  subst hr
  have hch := chordObj_of hc hco
  simp only [ktmKeyPart] at hkp
  split at hkp
  · rename_i hne
    simp only [Bind.bind] at hkp
    obtain ⟨k1, hk1, hkp⟩ := bind_ok hkp
    obtain ⟨k2, hk2, hkp⟩ := bind_ok hkp
    obtain ⟨w, hw, hkp⟩ := bind_ok hkp
    have hw' : (plainKey k1.tonic k1.mode pt).changeVector (plainKey k2.tonic k2.mode pt) = .ok w := hw
    have hl : w.length = keyChangeVectorLength pt false := changeVector_length hw'
    rw [if_pos hl] at hkp
    injection hkp with hkp
    subst hkp
    have e1 := (getKeyAux_ok L g h q rest (chain_tail hc) k1 hk1).1
    have e2 := (getKeyAux_ok L g h n (q :: rest) hc k2 hk2).1
    refine ⟨c, some (plainKey k1.tonic k1.mode pt, plainKey k2.tonic k2.mode pt), hch,
      ⟨fun he => absurd he hne, fun _ => ⟨_, _, _, _, e1, e2, rfl⟩⟩, ?_⟩
    simp only [sequenceRow, Bind.bind, hv, Except.bind, hw', hl]
    rw [if_neg (by simp), List.append_assoc]
  · rename_i he
    injection hkp with hkp
    subst hkp
    have he : n.key = q.key := Decidable.not_not.mp he
    refine ⟨c, none, hch, ⟨fun _ => rfl, fun hne => absurd he hne⟩, ?_⟩
    simp only [sequenceRow, Bind.bind, hv, Except.bind]
    rw [Nat.add_comm]

/-- The rows of the newest `k` nodes of a chain, oldest first. -/
def RecentRows (L : Labels) (pt : PitchType) (C : Caches) (pad : Bool) :
    Nat → List (Node κ H P) → List (List ℚ) → Prop
  | 0, _, rows => rows = []
  | k + 1, n :: q :: rest, rows => ∃ rs r, RecentRows L pt C pad k (q :: rest) rs ∧
      SeqRow L pt C pad n q r ∧ rows = rs ++ [r]
  | _ + 1, _, _ => False

theorem RecentRows.unique {L : Labels} {pt : PitchType} {C : Caches} {pad : Bool} {k : Nat}
    {chain : List (Node κ H P)} {rows rows' : List (List ℚ)} (h : RecentRows L pt C pad k chain rows)
    (h' : RecentRows L pt C pad k chain rows') : rows = rows' := by
  induction k generalizing chain rows rows' with
  | zero => exact Eq.trans h (Eq.symm h')
  | succ k ih =>
    cases chain with
    | nil => exact absurd h id
    | cons n chain =>
      cases chain with
      | nil => exact absurd h id
      | cons q rest =>
        obtain ⟨rs, r, a, b, rfl⟩ := h
        obtain ⟨rs', r', a', b', rfl⟩ := h'
        rw [ih a a', b.unique b']

/-- The input of the KSM. -/
theorem ksmInput_rows [DecidableEq H] {L : Labels} {pt : PitchType} {C : Caches} {g : Int}
    {h : Option Nat} (n q : Node κ H P) (rest : List (Node κ H P)) (hc : ChainOK L g h (n :: q :: rest))
    (rows : List (List ℚ)) (hr : ksmInput L pt C n (q :: rest) = .ok rows) :
    ∃ k, RecentRows L pt C true (k + 1) (n :: q :: rest) rows ∧
      (∀ (i : Nat) a b, 1 ≤ i → i ≤ k → (n :: q :: rest)[i]? = some a →
        (n :: q :: rest)[i + 1]? = some b → a.ksmHidden = b.ksmHidden) ∧
      (∀ a b, (n :: q :: rest)[k + 1]? = some a → (n :: q :: rest)[k + 2]? = some b →
        a.ksmHidden ≠ b.ksmHidden) := by
  induction rest generalizing n q rows with
  | nil =>
    simp only [ksmInput, Bind.bind] at hr
    obtain ⟨row, hrow, hr⟩ := bind_ok hr
    simp only [ksmHasRun, if_true, Except.ok.injEq] at hr
    subst hr
    exact ⟨0, ⟨[], row, rfl, ktmInput_row hc hrow, rfl⟩, fun i a b h1 h2 => by omega,
      fun a b _ hb => by simp at hb⟩
  | cons p rest ih =>
    rw [ksmInput] at hr
    simp only [Bind.bind] at hr
    obtain ⟨row, hrow, hr⟩ := bind_ok hr
    have hrow' := ktmInput_row hc hrow
    simp only [ksmHasRun, decide_eq_true_eq] at hr
    split at hr
    · rename_i hne
      injection hr with hr
      subst hr
      refine ⟨0, ⟨[], row, rfl, hrow', rfl⟩, fun i a b h1 h2 => by omega, fun a b ha hb => ?_⟩
      simp only [List.getElem?_cons_succ, List.getElem?_cons_zero, Option.some.injEq] at ha hb
      rw [← ha, ← hb]; exact hne
    · rename_i he
      have he : q.ksmHidden = p.ksmHidden := Decidable.not_not.mp he
      obtain ⟨rs, hrs, hr⟩ := bind_ok hr
      injection hr with hr
      subst hr
      obtain ⟨k, hk1, hk2, hk3⟩ := ih q p (chain_tail hc) rs hrs
      refine ⟨k + 1, ⟨rs, row, hk1, hrow', rfl⟩, fun i a b h1 h2 ha hb => ?_, fun a b ha hb => ?_⟩
      · obtain ⟨j, rfl⟩ : ∃ j, i = j + 1 := ⟨i - 1, by omega⟩
        simp only [List.getElem?_cons_succ] at ha hb
        cases j with
        | zero =>
          simp only [List.getElem?_cons_zero, Option.some.injEq] at ha hb
          rw [← ha, ← hb]; exact he
        | succ j =>
          exact hk2 (j + 1) a b (by omega) (by omega)
            (by simpa only [List.getElem?_cons_succ] using ha)
            (by simpa only [List.getElem?_cons_succ] using hb)
      · exact hk3 a b (by simpa only [List.getElem?_cons_succ] using ha)
          (by simpa only [List.getElem?_cons_succ] using hb)

end

/-! ## C88 -/

section
variable {κ ρ H P : Type} [Add κ] [Sub κ] [Zero κ]

/-- C88: the input of the CSM on a state of the search is the row which the datasets make of its chord
(without padding) and of its change of key. -/
theorem C88_csm (L : Labels) (pt : PitchType) (C : Caches) (g : Int) (h : Option Nat)
    (hh : ∀ k, h = some k → 1 ≤ k) (s : State κ H P) (hs : Reach L pt g h s) (q : Node κ H P)
    (rest : List (Node κ H P)) (hq : s.prev = q :: rest) (row : List ℚ)
    (hr : s.csmInput L pt C = .ok row) : SeqRow L pt C false s.node q row :=
  csmInput_row (hs.chain hh) hq hr

/-- C88: the input of the KTM is that row with padding. -/
theorem C88_ktm (L : Labels) (pt : PitchType) (C : Caches) (g : Int) (h : Option Nat)
    (hh : ∀ k, h = some k → 1 ≤ k) (s : State κ H P) (hs : Reach L pt g h s) (q : Node κ H P)
    (rest : List (Node κ H P)) (hq : s.prev = q :: rest) (row : List ℚ)
    (hr : ktmInput L pt C s.node s.prev = .ok row) : SeqRow L pt C true s.node q row := by
  have hc := hs.chain hh
  rw [hq] at hc hr
  exact ktmInput_row hc hr

/-- C88: the input of the KSM are these rows of the newest nodes, oldest first: all those after the last
one on which the hidden state of the KSM changed. -/
theorem C88_ksm [DecidableEq H] (L : Labels) (pt : PitchType) (C : Caches) (g : Int) (h : Option Nat)
    (hh : ∀ k, h = some k → 1 ≤ k) (s : State κ H P) (hs : Reach L pt g h s) (q : Node κ H P)
    (rest : List (Node κ H P)) (hq : s.prev = q :: rest) (rows : List (List ℚ))
    (hr : ksmInput L pt C s.node s.prev = .ok rows) :
    ∃ k, RecentRows L pt C true (k + 1) (s.node :: s.prev) rows ∧
      (∀ (i : Nat) a b, 1 ≤ i → i ≤ k → (s.node :: s.prev)[i]? = some a →
        (s.node :: s.prev)[i + 1]? = some b → a.ksmHidden = b.ksmHidden) ∧
      (∀ a b, (s.node :: s.prev)[k + 1]? = some a → (s.node :: s.prev)[k + 2]? = some b →
        a.ksmHidden ≠ b.ksmHidden) := by
  have hc := hs.chain hh
  rw [hq] at hc hr ⊢
  exact ksmInput_rows _ _ _ hc rows hr

omit [Add κ] [Sub κ] [Zero κ] in
/-- C88: with the caches that are made of the notes (duration to the next note, onset level, offset level) of a piece,
such a row is that of a chord with the onset level of its first note, the offset level that is the onset level of the
first note after it - or, at the end of the piece, the offset level of the last note -, and the durations of its notes
together. -/
theorem C88_notes (L : Labels) (pt : PitchType) (notes : List (ℚ × Int × Int)) (C : Caches) (pad : Bool)
    (n q : Node κ H P) (row : List ℚ) (hC : makeCaches notes = .ok C) (hr : SeqRow L pt C pad n q row)
    (hlt : q.changeIndex < n.changeIndex) :
    ∃ c change before inside after, ChangeOf L pt n q change ∧ sequenceRow c pt change pad = .ok row ∧
      notes = before ++ inside ++ after ∧ before.length = q.changeIndex ∧
      inside.length = n.changeIndex - q.changeIndex ∧
      (inside.head?.map (·.2.1) = some c.onsetLevel) ∧
      (after ≠ [] → after.head?.map (·.2.1) = some c.offsetLevel) ∧
      (after = [] → notes.getLast?.map (·.2.2) = some c.offsetLevel) ∧
      c.duration = (inside.map (·.1)).sum := by
  obtain ⟨c, change, ⟨id, a1, a2, a3, a4, a5, a6, a7, a8⟩, hb, h⟩ := hr
  simp only [makeCaches, Bind.bind] at hC
  obtain ⟨last, hlast, hC⟩ := SearchData.bind_ok hC
  injection hC with hC
  subst hC
  simp only at a5 a6 a7
  have hl : notes.getLast? = some last := by
    unfold pyGet at hlast
    rw [if_neg (by omega)] at hlast
    split at hlast
    · rename_i hk
      rw [List.getLast?_eq_getElem?]
      rw [show ((notes.length : Int) + -1).toNat = notes.length - 1 by omega] at hlast
      revert hlast
      cases notes[notes.length - 1]? with
      | none => intro h; cases h
      | some x => intro h; injection h with h; rw [h]
    · cases hlast
  have hn : n.changeIndex ≤ notes.length := by
    have := (List.getElem?_eq_some_iff.1 a6).1
    simp at this
    omega
  refine ⟨c, change, notes.take q.changeIndex, (notes.drop q.changeIndex).take (n.changeIndex - q.changeIndex),
    notes.drop n.changeIndex, hb, h, ?_, ?_, ?_, ?_, ?_, ?_, ?_⟩
  · rw [List.append_assoc]
    conv_lhs => rw [← List.take_append_drop q.changeIndex notes]
    congr 1
    conv_lhs => rw [← List.take_append_drop (n.changeIndex - q.changeIndex) (notes.drop q.changeIndex)]
    rw [List.drop_drop, show q.changeIndex + (n.changeIndex - q.changeIndex) = n.changeIndex by omega]
  · simp; omega
  · simp; omega
  · rw [List.head?_take, if_neg (by omega), List.head?_drop]
    rw [List.getElem?_append_left (by simp; omega), List.getElem?_map] at a5
    exact a5
  · intro hne
    have hlt' : n.changeIndex < notes.length := by
      rcases Nat.lt_or_ge n.changeIndex notes.length with h | h
      · exact h
      · exact absurd (List.drop_eq_nil_of_le h) hne
    rw [List.head?_drop]
    rw [List.getElem?_append_left (by simpa using hlt'), List.getElem?_map] at a6
    exact a6
  · intro he
    have : n.changeIndex = notes.length := by
      have := List.drop_eq_nil_iff.1 he
      omega
    rw [List.getElem?_append_right (by simp; omega)] at a6
    simp only [List.length_map, this, Nat.sub_self, List.getElem?_cons_zero] at a6
    rw [hl]
    exact a6
  · rw [a7, List.map_take, List.map_drop]

omit [Add κ] [Sub κ] [Zero κ] in
/-- C88: such a row decodes to the chord relative to the key of its node, and to the change of key (none
if both keys are the same). -/
theorem C88_decoded (L : Labels) (pt : PitchType) (C : Caches) (pad : Bool) (n q : Node κ H P)
    (row : List ℚ) (hr : SeqRow L pt C pad n q row) (hlev : ∀ l ∈ C.levels, 0 ≤ l ∧ l < 4)
    (hinv : ∀ e ∈ L.chord, 0 ≤ e.2.2 ∧ e.2.2 < 4)
    (hkey : ∀ t m t' m', pyGet L.key q.key = .ok (t, m) → pyGet L.key n.key = .ok (t', m') →
      pt = .tpc → -14 ≤ t' - t ∧ t' - t ≤ 14) :
    ∃ id root ct inv bass tonic mode d ko, n.chord = some id ∧ pyGet L.chord id = .ok (root, ct, inv) ∧
      bassNote ct root inv pt false = .ok bass ∧ pyGet L.key n.key = .ok (tonic, mode) ∧
      decodeChordAndKeyChange row (some pt) none pad = .ok (d, ko) ∧
      RelPitch pt pad root tonic d.root ∧ RelPitch pt pad bass tonic d.bass ∧ d.chordType = ct ∧
      d.inversion = inv ∧ d.keyMode = mode ∧ C.levels[q.changeIndex]? = some d.onsetLevel ∧
      C.levels[n.changeIndex]? = some d.offsetLevel ∧ (n.key = q.key → ko = none) ∧
      (n.key ≠ q.key → ∃ t m r, pyGet L.key q.key = .ok (t, m) ∧ ko = some ⟨r, [mode], pt⟩ ∧
        (pt = .tpc → r = tonic - t) ∧ (pt = .midi → 0 ≤ r ∧ r < 12 ∧ (r - (tonic - t)) % 12 = 0)) := by
  obtain ⟨c, change, ⟨id, a1, a2, a3, a4, a5, a6, a7, a8⟩, ⟨b1, b2⟩, h⟩ := hr
  have hl : Levels c :=
    ⟨hinv _ (pyGet_mem _ _ _ a2), hlev _ (List.mem_of_getElem? a5), hlev _ (List.mem_of_getElem? a6)⟩
  have hint : ∀ prev key, change = some (prev, key) → ∃ r, Interval prev key r := by
    intro prev key he
    by_cases hk : n.key = q.key
    · rw [b1 hk] at he; cases he
    · obtain ⟨t, m, t', m', e1, e2, e3⟩ := b2 hk
      rw [e3] at he
      injection he with he
      injection he with he1 he2
      subst he1; subst he2
      cases pt with
      | tpc => exact ⟨t' - t, rfl, hkey t m t' m' e1 e2 rfl⟩
      | midi =>
        refine ⟨(t' - t) % 12, ?_⟩
        simp only [Interval, plainKey]
        omega
  obtain ⟨d, ko, hd, ⟨g1, g2, g3, g4, g5, g6, g7, g8⟩, k1, k2⟩ :=
    C62_round_trip c pt change pad row (some pt) none hl h (by left; rw [a8]) hint
  rw [a8] at g1 g2
  refine ⟨id, c.root, c.chordType, c.inversion, c.bass, c.keyTonic, c.keyMode, d, ko, a1, a2, a3, a4, hd,
    g1, g2, g3, g4, g7, by rw [g5]; exact a5, by rw [g6]; exact a6, fun he => k1 (b1 he), fun hne => ?_⟩
  obtain ⟨t, m, t', m', e1, e2, e3⟩ := b2 hne
  obtain ⟨r, hr, hko⟩ := k2 _ _ e3
  rw [a4] at e2
  injection e2 with e2
  injection e2 with e2 e2'
  refine ⟨t, m, r, e1, by rw [hko, e2']; rfl, ?_, ?_⟩
  · intro ht
    subst ht
    rw [e2]; exact hr.1
  · intro ht
    subst ht
    rw [e2]; exact hr

end

/-! ## A concrete state -/

/-- Triads on C, D and E and the keys of MIDI pitch. -/
def smallLabels : Labels := ⟨[(0, .major, 0), (2, .minor, 0), (4, .major, 1)], keyClasses .midi false⟩

/-- The state after a D minor triad in C major and an E major triad in first inversion in A minor. -/
def smallState : Option (State Int Unit Unit) := do
  let s ← (chordTransition smallLabels .midi (State.initial 0 none none) 1 2 0).toOption.join
  let s ← (chordTransition smallLabels .midi s 2 3 0).toOption.join
  (keyTransition smallLabels .midi s 21 0).toOption.join

/-- Its input of the CSM: the root and the bass relative to A (7 and 11), the inversion, and the new tonic
relative to C. -/
example : smallState.map (fun s => (s.csmInput smallLabels .midi ⟨[1, 1, 2], [3, 1, 2, 3]⟩).map
    fun row => (decodeChordAndKeyChange row (some .midi) none false).map
      fun p => (p.1.root, p.1.bass, p.1.inversion, p.2.map (·.relativeTonic))) =
    some (.ok (.ok (7, 11, 1, some 9))) := by decide +kernel

/-- Its input of the KSM, which has seen no chord: the positions of the 1s in the rows of both chords. -/
example : smallState.map (fun s => (ksmInput smallLabels .midi ⟨[1, 1, 2], [3, 1, 2, 3]⟩ s.node s.prev).map
    fun rows => rows.map fun row => (List.range row.length).filter fun i => row[i]? = some 1) =
    some (.ok [[2, 13, 26, 36, 43, 46, 49], [7, 12, 35, 37, 42, 47, 59, 63, 64]]) := by decide +kernel

/-- The caches of three notes, and the levels of the last chord of `smallState` over them: it begins with the last note
and ends with the piece. -/
example : makeCaches [(1, 3, 0), (1, 1, 0), (2, 2, 3)] = .ok ⟨[1, 1, 2], [3, 1, 2, 3]⟩ ∧
    smallState.map (fun s => (s.csmInput smallLabels .midi ⟨[1, 1, 2], [3, 1, 2, 3]⟩).map
      fun row => (decodeChordAndKeyChange row (some .midi) none false).map
        fun p => (p.1.onsetLevel, p.1.offsetLevel)) = some (.ok (.ok (2, 3))) :=
  ⟨rfl, by decide +kernel⟩

end Verif.StateInputs
