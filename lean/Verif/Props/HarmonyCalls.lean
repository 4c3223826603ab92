import Verif.HarmonyCalls
import Verif.Props.Eval
import Verif.Props.Harmony

/-!
# C145: analyses do not influence each other
-/

namespace Verif.HarmonyCalls
open Verif Forced

section
variable {σ α β : Type}

theorem bind_eq (x : Method σ α) (f : α → Method σ β) (s : σ) : (x >>= f) s =
    match x s with
    | (.ok a, s) => f a s
    | (.error e, s) => (.error e, s) := rfl

theorem bind_ok_eq {x : Method σ α} {f : α → Method σ β} {s s' : σ} {a : α} (h : x s = (.ok a, s')) :
    (x >>= f) s = f a s' := by
  rw [bind_eq, h]

theorem bind_err_eq {x : Method σ α} {f : α → Method σ β} {s s' : σ} {e : PyErr} (h : x s = (.error e, s')) :
    (x >>= f) s = (.error e, s') := by
  rw [bind_eq, h]

theorem lift_bind (x : Py α) (f : α → Method σ β) (s : σ) : (Method.lift x >>= f) s =
    match x with
    | .ok a => f a s
    | .error e => (.error e, s) := by
  rw [bind_eq]
  cases x <;> rfl

theorem modify_bind (g : σ → σ) (f : Unit → Method σ β) (s : σ) : (Method.modify g >>= f) s = f () (g s) := rfl

theorem read_bind {g : σ → Option α} {s : σ} {a : α} (h : g s = some a) (f : α → Method σ β) :
    (Method.read g >>= f) s = f a s := by
  rw [bind_eq]
  simp only [Method.read, h]

end

section
variable {δ τ : Type}

theorem kind_setKind (isKey : Bool) (x : ForcedType × List Int) (s : Attrs δ τ) :
    (s.setKind isKey x).kind isKey = some x := by
  cases isKey <;> rfl

theorem setKind_setKind (isKey : Bool) (x y : ForcedType × List Int) (s : Attrs δ τ) :
    (s.setKind isKey x).setKind isKey y = s.setKind isKey y := by
  cases isKey <;> rfl

theorem setKind_self {isKey : Bool} {x : ForcedType × List Int} {s : Attrs δ τ} (h : s.kind isKey = some x) :
    s.setKind isKey x = s := by
  cases isKey
  · simp only [Attrs.setKind, Bool.false_eq_true, if_false]
    rw [← (show s.chord = some x from h)]
  · simp only [Attrs.setKind, if_true]
    rw [← (show s.key = some x from h)]

theorem setKind_duration (isKey : Bool) (x : ForcedType × List Int) (s : Attrs δ τ) :
    (s.setKind isKey x).durationCache = s.durationCache := by
  cases isKey <;> rfl

/-- The labels are loaded into the array of the object as by `loadLabels`. -/
theorem loadLabelsM_eq (isKey : Bool) (labels : List ((Int × Int) × Int)) : ∀ (s : Attrs δ τ) (ft : ForcedType)
    (ids : List Int), s.kind isKey = some (ft, ids) →
    ∃ ids', loadLabelsM isKey labels s = ((loadLabels ft.maxId labels ids).map fun _ => (), s.setKind isKey (ft, ids')) ∧
      ∀ out, loadLabels ft.maxId labels ids = .ok out → ids' = out := by
  induction labels with
  | nil =>
    intro s ft ids h
    refine ⟨ids, ?_, fun out h => by simp only [loadLabels, Except.ok.injEq] at h; exact h⟩
    rw [setKind_self h]
    rfl
  | cons r rest ih =>
    obtain ⟨⟨a, b⟩, l⟩ := r
    intro s ft ids h
    simp only [loadLabelsM, loadLabels]
    rw [read_bind h]
    simp only [lift_bind, raiseIf]
    by_cases h1 : l < 0 ∨ l ≥ ft.maxId
    · rw [if_pos h1, if_pos h1]
      exact ⟨ids, by simp only [setKind_self h]; rfl, fun out h => by cases h⟩
    · rw [if_neg h1, if_neg h1]
      simp only
      by_cases h2 : (((ids.drop (sliceIdx ids.length a)).take (sliceIdx ids.length b - sliceIdx ids.length a)).all
          (fun x => decide (x = -1) || decide (x = l))) = true
      · rw [if_neg (not_not.2 h2), if_pos h2]
        simp only [modify_bind]
        obtain ⟨ids', e1, e2⟩ := ih (s.setKind isKey (ft, fill ids (sliceIdx ids.length a) (sliceIdx ids.length b) l)) ft _
          (kind_setKind _ _ _)
        refine ⟨ids', ?_, e2⟩
        rw [e1, setKind_setKind]
      · rw [if_pos h2, if_neg h2]
        exact ⟨ids, by simp only [setKind_self h]; rfl, fun out h => by cases h⟩

/-- The checks of one kind, for an object that has been prepared for a piece. -/
theorem validateTypeM_eq [DecidableEq δ] [Zero δ] (isKey : Bool) (s : Attrs δ τ) (ft : ForcedType) (dur : List δ)
    (h : s.kind isKey = some (ft, List.replicate dur.length (-1))) (hd : s.durationCache = some dur) :
    ∃ ids', validateTypeM isKey s = ((validateType dur ft).map fun _ => (),
        s.setKind isKey ({ ft with changes := dropZero ft.changes }, ids')) ∧
      ∀ out, validateType dur ft = .ok out → ids' = out := by
  simp only [validateTypeM]
  rw [read_bind h]
  simp only [modify_bind]
  rw [read_bind (by rw [setKind_duration]; exact hd)]
  rw [read_bind (kind_setKind _ _ _)]
  simp only [validateType, Bind.bind, Except.bind]
  cases h1 : checkMax dur.length (dropZero ft.changes) with
  | error e => exact ⟨_, rfl, fun out h => by cases h⟩
  | ok _ =>
  cases h2 : checkMax dur.length ft.nonChanges with
  | error e => exact ⟨_, rfl, fun out h => by cases h⟩
  | ok _ =>
  cases h3 : raiseIf (∃ c ∈ dropZero ft.changes, c ∈ ft.nonChanges) .typeError with
  | error e => exact ⟨_, rfl, fun out h => by cases h⟩
  | ok _ =>
  cases h4 : forAll (checkOnset dur) (dropZero ft.changes) with
  | error e => exact ⟨_, rfl, fun out h => by cases h⟩
  | ok _ =>
  obtain ⟨ids', e1, e2⟩ := loadLabelsM_eq isKey ft.labels
    (s.setKind isKey ({ ft with changes := dropZero ft.changes }, List.replicate dur.length (-1))) _ _
    (kind_setKind _ _ _)
  rw [setKind_setKind] at e1
  simp only at e1 e2
  simp only [Method.andThen, Method.lift]
  rw [e1]
  cases h5 : loadLabels ft.maxId ft.labels (List.replicate dur.length (-1)) with
  | error e => exact ⟨ids', rfl, fun out h => by cases h⟩
  | ok ids =>
  have e3 := e2 ids h5
  subst e3
  simp only [Except.map, Method.read, kind_setKind]
  cases h6 : forAll (checkChange ids') (dropZero ft.changes) with
  | error e => exact ⟨_, rfl, fun out h => by cases h⟩
  | ok _ =>
  simp only
  cases h7 : forAll (checkNonChange ids') ft.nonChanges with
  | error e => exact ⟨_, rfl, fun out h => by cases h⟩
  | ok _ => exact ⟨_, rfl, fun out h => by injection h⟩

/-- The attributes of an object, with what the validation leaves of the forced labels. -/
def withForced (s : Attrs δ τ) (chord key : ForcedType × List Int) : Attrs δ τ :=
  { s with chord := some chord, key := some key }

/-- The validation of an object that has been prepared for a piece. -/
theorem validateM_eq [DecidableEq δ] [Zero δ] (s : Attrs δ τ) (chord key : ForcedType) (dur : List δ)
    (hc : s.chord = some (chord, List.replicate dur.length (-1)))
    (hk : s.key = some (key, List.replicate dur.length (-1))) (hd : s.durationCache = some dur) :
    ∃ key' cids kids, (key' = key ∨ key' = { key with changes := dropZero key.changes }) ∧
      validateM s = ((validate dur chord key).map fun _ => (),
        withForced s ({ chord with changes := dropZero chord.changes }, cids) (key', kids)) ∧
      ∀ out, validate dur chord key = .ok out →
        (cids, kids) = out ∧ key' = { key with changes := dropZero key.changes } := by
  obtain ⟨cids, e1, e2⟩ := validateTypeM_eq false s chord dur hc hd
  simp only [validateM, validate, Bind.bind, Except.bind, Method.andThen]
  rw [e1]
  cases h1 : validateType dur chord with
  | error e =>
    refine ⟨key, cids, List.replicate dur.length (-1), .inl rfl, ?_, fun out h => by cases h⟩
    simp only [Except.map, withForced, ← hk]
    rfl
  | ok c =>
  have e3 := e2 c h1
  subst e3
  simp only [Except.map]
  obtain ⟨kids, f1, f2⟩ := validateTypeM_eq true (s.setKind false ({ chord with changes := dropZero chord.changes }, cids))
    key dur hk hd
  rw [f1]
  cases h2 : validateType dur key with
  | error e => exact ⟨_, cids, kids, .inr rfl, rfl, fun out h => by cases h⟩
  | ok k =>
  have f3 := f2 k h2
  subst f3
  refine ⟨_, cids, kids, .inr rfl, ?_, ?_⟩
  · simp only [Except.map, Method.read, Attrs.setKind, if_true, Bool.false_eq_true, if_false, Method.lift, withForced]
    cases h3 : forAll (checkKeyChange chord.nonChanges cids) (dropZero key.changes) with
    | error e => rfl
    | ok _ =>
      simp only
      cases h4 : forAll (checkChordNonChange kids) chord.nonChanges <;> rfl
  · intro out h
    cases h3 : forAll (checkKeyChange chord.nonChanges cids) (dropZero key.changes) with
    | error e => rw [h3] at h; cases h
    | ok _ =>
      rw [h3] at h
      simp only at h
      cases h4 : forAll (checkChordNonChange kids) chord.nonChanges with
      | error e => rw [h4] at h; cases h
      | ok _ => rw [h4] at h; injection h with h; exact ⟨h, rfl⟩

end

/-! ## C145 -/

section
variable {π κ δ ρ H P τ : Type} [LE τ] [LT τ] [DecidableLE τ] [DecidableLT τ] [DecidableEq δ] [Zero δ] [Add δ] [LT δ]
  [DecidableLT δ] [LE π] [DecidableLE π] [LT π] [DecidableLT π] [Zero π] [One π] [Add κ] [Sub κ] [Zero κ]
  [DecidableEq κ] [DecidableEq H] [DecidableEq P]

/-- The onsets of the notes of a piece and the end of its last note. -/
def onsets (p : PieceIn δ τ) : List τ := p.notes.map (·.1.1) ++ (p.notes.getLast?.map (·.1.2)).toList

/-- Their levels. -/
def levels (p : PieceIn δ τ) : List Nat := p.notes.map (·.2.1) ++ (p.notes.getLast?.map (·.2.2)).toList

/-- The analysis of a piece as a function: nothing but the piece and what is forced on it. -/
def analysis (N : JointNets π κ δ ρ H P τ) (p : PieceIn δ τ) (chord key : ForcedType) : Py (Option (State κ H P)) :=
  if p.fits then
    (N.joint p p.durations (onsets p) (levels p)).getHarmony (p.notes.map (·.1)) p.durations chord key
  else .error .valueError

/-- What a call gives and what it leaves. -/
structure Call (N : JointNets π κ δ ρ H P τ) (p : PieceIn δ τ) (chord key : ForcedType) (s : Attrs δ τ) : Prop where
  result : (N.getHarmonyM p chord key s).1 = analysis N p chord key
  done : ∀ r, analysis N p chord key = .ok r → (N.getHarmonyM p chord key s).2.currentPiece = none
  failed : ∀ e, analysis N p chord key = .error e → (N.getHarmonyM p chord key s).2.currentPiece = some p
  sets : p.fits = true → p.notes ≠ [] → ∃ key' cids kids,
    (key' = key ∨ key' = { key with changes := dropZero key.changes }) ∧
    (N.getHarmonyM p chord key s).2.chord = some ({ chord with changes := dropZero chord.changes }, cids) ∧
    (N.getHarmonyM p chord key s).2.key = some (key', kids)

/-- A call on an object with any attributes. -/
theorem call (N : JointNets π κ δ ρ H P τ) (p : PieceIn δ τ) (chord key : ForcedType) (s : Attrs δ τ) :
    Call N p chord key s := by
  by_cases hf : p.fits = true
  swap
  · have h0 : N.getHarmonyM p chord key s = (.error .valueError, { s with currentPiece := some p }) := by
      simp only [JointNets.getHarmonyM, modify_bind, lift_bind, raiseIf]
      rw [if_pos (by simpa using hf)]
    have h1 : analysis N p chord key = .error .valueError := by simp [analysis, hf]
    refine ⟨by rw [h0, h1], fun r h => ?_, fun e _ => by rw [h0], fun h => absurd h hf⟩
    rw [h1] at h; cases h
  have hnot : ¬ p.fits = false := by simp [hf]
  cases hl : p.notes.getLast? with
  | none =>
    have hn : p.notes = [] := List.getLast?_eq_none_iff.1 hl
    have h0 : N.getHarmonyM p chord key s =
        (.error .indexError, { s with currentPiece := some p, durationCache := some p.durations }) := by
      simp only [JointNets.getHarmonyM, modify_bind, lift_bind, raiseIf]
      rw [if_neg hnot, hn]
      rfl
    have h1 : analysis N p chord key = .error .indexError := by
      simp only [analysis, hf, if_true, hn, Joint.getHarmony, Bind.bind, Except.bind]
      rfl
    refine ⟨by rw [h0, h1], fun r h => ?_, fun e _ => by rw [h0], fun _ h => absurd hn h⟩
    rw [h1] at h; cases h
  | some last =>
    have hne : p.notes ≠ [] := by intro h; rw [h] at hl; cases hl
    have hlast : pyGet p.notes (-1) = .ok last := by
      rw [Eval.pyGet_last _ hne]
      rw [List.getLast?_eq_getLast_of_ne_nil hne] at hl
      injection hl with hl
      rw [hl]
    have ho : p.notes.map (·.1.1) ++ [last.1.2] = onsets p := by simp [onsets, hl]
    have hv : p.notes.map (·.2.1) ++ [last.2.2] = levels p := by simp [levels, hl]
    obtain ⟨s1, hs1⟩ : ∃ s1 : Attrs δ τ, s1 = ⟨some p, some p.durations, some (onsets p), some (levels p),
      some (chord, List.replicate p.durations.length (-1)), some (key, List.replicate p.durations.length (-1))⟩ := ⟨_, rfl⟩
    have h0 : N.getHarmonyM p chord key s = (validateM >>= fun _ => do
        let rs ← N.chordRangesM
        let m ← N.current
        let rows ← Method.lift (mapPy (m.rangeRow (p.notes.map (·.1))) (rs.1.zip rs.2))
        let state ← N.searchM rows
        Method.modify (fun s => { s with currentPiece := none })
        .ret state) s1 := by
      simp only [JointNets.getHarmonyM, modify_bind, lift_bind, raiseIf]
      rw [if_neg hnot]
      simp only [hlast, ho, hv]
      rw [read_bind (g := Attrs.durationCache) (a := p.durations) rfl]
      simp only [modify_bind]
      rw [hs1]
    have hnotes : pyGet (p.notes.map (·.1)) (-1) = .ok last.1 := by
      rw [Eval.pyGet_last _ (by simpa using hne)]
      rw [List.getLast?_eq_getLast_of_ne_nil hne] at hl
      injection hl with hl
      rw [List.getLast_map, hl]
    have ha : analysis N p chord key =
        (N.joint p p.durations (onsets p) (levels p)).getHarmony (p.notes.map (·.1)) p.durations chord key := by
      rw [analysis, if_pos hf]
    obtain ⟨key', cids, kids, k1, k2, k3⟩ := validateM_eq s1 chord key p.durations (by rw [hs1]) (by rw [hs1]) (by rw [hs1])
    rw [Joint.getHarmony] at ha
    simp only [Bind.bind, Except.bind, hnotes] at ha
    cases hval : validate p.durations chord key with
    | error e =>
      rw [hval] at ha k2
      have h1 := h0.trans (bind_err_eq k2)
      refine ⟨by rw [h1, ha], fun r h => ?_, fun e _ => by rw [h1, hs1]; rfl, fun _ _ => ⟨key', cids, kids, k1, ?_, ?_⟩⟩
      · rw [ha] at h; cases h
      · rw [h1]; rfl
      · rw [h1]; rfl
    | ok ids =>
    rw [hval] at ha k2
    obtain ⟨e1, e2⟩ := k3 ids hval
    subst e1 e2
    have h1 := h0.trans (bind_ok_eq k2)
    generalize hs2 : withForced s1 ({ chord with changes := dropZero chord.changes }, cids)
      ({ key with changes := dropZero key.changes }, kids) = s2 at h1
    have q1 : s2.currentPiece = some p := by rw [← hs2, hs1]; rfl
    have q2 : s2.durationCache = some p.durations := by rw [← hs2, hs1]; rfl
    have q3 : s2.onsetCache = some (onsets p) := by rw [← hs2, hs1]; rfl
    have q4 : s2.onsetLevelCache = some (levels p) := by rw [← hs2, hs1]; rfl
    have q5 : s2.chord = some ({ chord with changes := dropZero chord.changes }, cids) := by rw [← hs2]; rfl
    have q6 : s2.key = some ({ key with changes := dropZero key.changes }, kids) := by rw [← hs2]; rfl
    have hcur : N.current s2 = (.ok (N.joint p p.durations (onsets p) (levels p)), s2) := by
      simp only [JointNets.current]
      rw [read_bind q1, read_bind q2, read_bind q3, read_bind q4]
      rfl
    simp only at ha
    -- all the rest reads `s2`
    have stop : ∀ {e : PyErr}, N.getHarmonyM p chord key s = (.error e, s2) → analysis N p chord key = .error e →
        Call N p chord key s := by
      intro e g1 g2
      refine ⟨by rw [g1, g2], fun r h => ?_, fun _ _ => by rw [g1]; exact q1, fun _ _ => ⟨_, cids, kids, .inr rfl, ?_, ?_⟩⟩
      · rw [g2] at h; cases h
      · rw [g1]; exact q5
      · rw [g1]; exact q6
    have hcr : N.chordRangesM s2 = ((do
        let changes ← mapPy (Joint.arrayIndex p.durations.length) (dropZero chord.changes)
        let nonChanges ← mapPy (Joint.arrayIndex p.durations.length) chord.nonChanges
        ((N.joint p p.durations (onsets p) (levels p)).rangeInput p.durations cids kids changes nonChanges).getChordRanges),
        s2) := by
      simp only [JointNets.chordRangesM]
      rw [bind_ok_eq hcur, read_bind q2, read_bind q5]
      simp only [Bind.bind, Except.bind]
      cases mapPy (Joint.arrayIndex p.durations.length) (dropZero chord.changes) with
      | error e => rfl
      | ok changes =>
        simp only
        cases mapPy (Joint.arrayIndex p.durations.length) chord.nonChanges with
        | error e => rfl
        | ok nonChanges =>
          simp only [Method.andThen, Method.lift, Method.read, q6]
    cases hch : mapPy (Joint.arrayIndex p.durations.length) (dropZero chord.changes) with
    | error e =>
      rw [hch] at ha
      simp only [hch, Bind.bind, Except.bind] at hcr
      exact stop (h1.trans (bind_err_eq hcr)) ha
    | ok changes =>
    cases hnc : mapPy (Joint.arrayIndex p.durations.length) chord.nonChanges with
    | error e =>
      rw [hch] at ha
      simp only [hnc] at ha
      simp only [hch, hnc, Bind.bind, Except.bind] at hcr
      exact stop (h1.trans (bind_err_eq hcr)) ha
    | ok nonChanges =>
    cases hrs : ((N.joint p p.durations (onsets p) (levels p)).rangeInput p.durations cids kids changes
        nonChanges).getChordRanges with
    | error e =>
      rw [hch] at ha
      simp only [hnc, hrs] at ha
      simp only [hch, hnc, hrs, Bind.bind, Except.bind] at hcr
      exact stop (h1.trans (bind_err_eq hcr)) ha
    | ok rs =>
    simp only [hch, hnc, hrs, Bind.bind, Except.bind] at hcr
    have h2 := (h1.trans (bind_ok_eq hcr)).trans (bind_ok_eq hcur)
    rw [lift_bind] at h2
    rw [hch] at ha
    simp only [hnc, hrs] at ha
    cases hrw : mapPy ((N.joint p p.durations (onsets p) (levels p)).rangeRow (p.notes.map (·.1))) (rs.1.zip rs.2) with
    | error e =>
      rw [hrw] at h2 ha
      exact stop h2 ha
    | ok rows =>
    rw [hrw] at h2 ha
    simp only at h2 ha
    rw [List.length_map] at ha
    have hse : N.searchM rows s2 =
        (((N.joint p p.durations (onsets p) (levels p)).searchData p.notes.length rows cids kids).search, s2) := by
      simp only [JointNets.searchM]
      rw [bind_ok_eq hcur, read_bind q1, read_bind q5, read_bind q6]
      rfl
    cases hr : ((N.joint p p.durations (onsets p) (levels p)).searchData p.notes.length rows cids kids).search with
    | error e =>
      rw [hr] at hse ha
      exact stop (h2.trans (bind_err_eq hse)) ha
    | ok r =>
    rw [hr] at hse ha
    have h3 : N.getHarmonyM p chord key s = (.ok r, { s2 with currentPiece := none }) := h2.trans (bind_ok_eq hse)
    refine ⟨by rw [h3, ha], fun _ _ => by rw [h3], fun e h => ?_, fun _ _ => ⟨_, cids, kids, .inr rfl, ?_, ?_⟩⟩
    · rw [ha] at h; cases h
    · rw [h3]; exact q5
    · rw [h3]; exact q6

/-- C145: a call gives the analysis of the piece, whatever has been done with the model before. -/
theorem C145_call (N : JointNets π κ δ ρ H P τ) (p : PieceIn δ τ) (chord key : ForcedType) (s : Attrs δ τ) :
    (N.getHarmonyM p chord key s).1 = analysis N p chord key := (call N p chord key s).result

/-- C145: of any sequence of calls, also with some that raise, each gives what it would give on a new model. -/
theorem C145_calls (N : JointNets π κ δ ρ H P τ) (cs : List (PieceIn δ τ × ForcedType × ForcedType)) (s : Attrs δ τ) :
    (N.calls cs s).1 = cs.map fun c => (N.getHarmonyM c.1 c.2.1 c.2.2 Attrs.fresh).1 := by
  induction cs generalizing s with
  | nil => rfl
  | cons c cs ih =>
    obtain ⟨p, chord, key⟩ := c
    simp only [JointNets.calls, List.map_cons, ih, C145_call]

theorem dropZero_idem (l : List Int) : dropZero (dropZero l) = dropZero l := by
  simp [dropZero, List.filter_filter]

/-- C145: the sets of the caller lose their 0 in a call, and nothing else. With these sets the analysis is the same
again. -/
theorem C145_again (N : JointNets π κ δ ρ H P τ) (p : PieceIn δ τ) (chord key : ForcedType) (s : Attrs δ τ)
    (hf : p.fits = true) (hn : p.notes ≠ []) : ∃ chord' key' cids kids,
    (N.getHarmonyM p chord key s).2.chord = some (chord', cids) ∧
    (N.getHarmonyM p chord key s).2.key = some (key', kids) ∧
    (∀ c, c ∈ chord'.changes ↔ c ∈ chord.changes ∧ c ≠ 0) ∧
    (∀ c, c ∈ key'.changes → c ∈ key.changes) ∧ (∀ c, c ∈ key.changes → c ≠ 0 → c ∈ key'.changes) ∧
    (chord'.nonChanges, chord'.labels) = (chord.nonChanges, chord.labels) ∧
    (key'.nonChanges, key'.labels) = (key.nonChanges, key.labels) ∧
    ∀ s', (N.getHarmonyM p chord' key' s').1 = (N.getHarmonyM p chord key s).1 := by
  obtain ⟨key', cids, kids, k1, k2, k3⟩ := (call N p chord key s).sets hf hn
  refine ⟨_, key', cids, kids, k2, k3, ?_, ?_, ?_, rfl, ?_, ?_⟩
  · intro c; simp [dropZero]
  · intro c hc
    rcases k1 with rfl | rfl
    · exact hc
    · exact (List.mem_filter.1 hc).1
  · intro c hc h0
    rcases k1 with rfl | rfl
    · exact hc
    · exact List.mem_filter.2 ⟨hc, by simpa using h0⟩
  · rcases k1 with rfl | rfl <;> rfl
  · intro s'
    rw [C145_call, C145_call, analysis, analysis, if_pos hf, if_pos hf]
    simp only [Joint.getHarmony, validate, validateType, dropZero_idem]
    rcases k1 with rfl | rfl
    · rfl
    · simp only [dropZero_idem]

/-- C145 (partial): after a call that returns, the model has no current piece. -/
theorem C145_reset_partial (N : JointNets π κ δ ρ H P τ) (p : PieceIn δ τ) (chord key : ForcedType) (s : Attrs δ τ)
    (r : Option (State κ H P)) (h : (N.getHarmonyM p chord key s).1 = .ok r) :
    (N.getHarmonyM p chord key s).2.currentPiece = none :=
  (call N p chord key s).done r (by rw [← C145_call N p chord key s]; exact h)

/-- C145 fails for the current piece after a call that raises, also if it raises because of the forced labels, for which
there is code that resets it: it is always left. -/
theorem C145_reset_fails (N : JointNets π κ δ ρ H P τ) (p : PieceIn δ τ) (chord key : ForcedType) (s : Attrs δ τ)
    (e : PyErr) (h : (N.getHarmonyM p chord key s).1 = .error e) :
    (N.getHarmonyM p chord key s).2.currentPiece = some p :=
  (call N p chord key s).failed e (by rw [← C145_call N p chord key s]; exact h)

/-- C145: what a call finds is what the calls before it have left, and the current piece in the end is that of the
last call if it raised, and none if it returned. -/
theorem C145_left (N : JointNets π κ δ ρ H P τ) (cs : List (PieceIn δ τ × ForcedType × ForcedType)) (p : PieceIn δ τ)
    (chord key : ForcedType) (s : Attrs δ τ) :
    (N.calls (cs ++ [(p, chord, key)]) s).2 = (N.getHarmonyM p chord key (N.calls cs s).2).2 ∧
    (N.calls (cs ++ [(p, chord, key)]) s).2.currentPiece =
      match (N.getHarmonyM p chord key Attrs.fresh).1 with
      | .ok _ => none
      | .error _ => some p := by
  have h1 : ∀ s, (N.calls (cs ++ [(p, chord, key)]) s).2 = (N.getHarmonyM p chord key (N.calls cs s).2).2 := by
    induction cs with
    | nil => intro s; rfl
    | cons c cs ih =>
      intro s
      obtain ⟨p', chord', key'⟩ := c
      simp only [List.cons_append, JointNets.calls, ih]
  refine ⟨h1 s, ?_⟩
  rw [h1, C145_call]
  cases h : analysis N p chord key with
  | ok r => exact (call N p chord key _).done r h
  | error e => exact (call N p chord key _).failed e h

end

/-! ## Concrete cases -/

/-- The small joint model, with change probabilities from the piece: half on notes of level 1. -/
def smallNets : JointNets ℚ Joint.LogP Nat Int Unit Unit Nat :=
  ⟨fun _ _ _ levels => Joint.demoJoint (fun i => if levels[i]? = some 1 then 1 / 2 else 1 / 10) 3⟩

/-- Two notes, one after the other. -/
def smallPiece : PieceIn Nat Nat := ⟨true, [1, 1], [((0, 1), 1, 1), ((1, 2), 1, 0)]⟩

/-- Three notes; the chord can not change at the last one. -/
def otherPiece : PieceIn Nat Nat := ⟨true, [1, 1, 1], [((0, 1), 1, 1), ((1, 2), 1, 0), ((2, 3), 0, 0)]⟩

/-- Four calls: with a change forced at 0 and a chord; with a chord out of range, which raises; on another piece; and the
first one again. The current piece in the end. -/
example : ((smallNets.calls [(smallPiece, ⟨[0], [], [((0, 1), 2)], 3⟩, Joint.free 24),
      (smallPiece, ⟨[], [], [((0, 1), 7)], 3⟩, Joint.free 24), (otherPiece, Joint.free 3, Joint.free 24),
      (smallPiece, ⟨[], [], [((0, 1), 2)], 3⟩, Joint.free 24)] Attrs.fresh).1.map Joint.seen) =
    [some (([some 2, some 1], [0, 1, 2]), [0, 0], true), none, some (([some 1], [0, 3]), [2], true),
      some (([some 2, some 1], [0, 1, 2]), [0, 0], true)] := by decide +kernel

/-- The chord out of range: the call raises and leaves its piece behind. -/
example : ((smallNets.getHarmonyM smallPiece ⟨[], [], [((0, 1), 7)], 3⟩ (Joint.free 24) Attrs.fresh).1.toOption,
    (smallNets.getHarmonyM smallPiece ⟨[], [], [((0, 1), 7)], 3⟩ (Joint.free 24) Attrs.fresh).2.currentPiece.map
      (·.durations)) = (none, some [1, 1]) := by
  have h : (smallNets.getHarmonyM smallPiece ⟨[], [], [((0, 1), 7)], 3⟩ (Joint.free 24) Attrs.fresh).1 =
      .error .typeError := by rfl
  rw [h, C145_reset_fails smallNets smallPiece _ _ _ _ h]
  rfl

end Verif.HarmonyCalls
