import Verif.KwargsJson
import Verif.Props.ForcesJson

/-!
# C109: keyword arguments from a json file
-/

namespace Verif.Kwargs

/-- `str(t)` of a pitch type. -/
def pitchText : PitchType → Str
  | .tpc => "PitchType.TPC".toList
  | .midi => "PitchType.MIDI".toList

/-- `str(t)` of a piece type. -/
def pieceText : PieceKind → Str
  | .score => "PieceType.SCORE".toList
  | .midi => "PieceType.MIDI".toList
  | .audio => "PieceType.AUDIO".toList

/-- `str(t)` of a chord type. -/
def chordText : ChordType → Str
  | .major => "ChordType.MAJOR".toList
  | .minor => "ChordType.MINOR".toList
  | .diminished => "ChordType.DIMINISHED".toList
  | .augmented => "ChordType.AUGMENTED".toList
  | .majMaj7 => "ChordType.MAJ_MAJ7".toList
  | .majMin7 => "ChordType.MAJ_MIN7".toList
  | .minMaj7 => "ChordType.MIN_MAJ7".toList
  | .minMin7 => "ChordType.MIN_MIN7".toList
  | .dim7 => "ChordType.DIM7".toList
  | .halfDim7 => "ChordType.HALF_DIM7".toList
  | .augMin7 => "ChordType.AUG_MIN7".toList
  | .augMaj7 => "ChordType.AUG_MAJ7".toList

/-- How a keyword argument is written. -/
def text : KwValue → KwJson
  | .str s => .str s
  | .pitch t => .str (pitchText t)
  | .reduction l => .dict (l.map fun e => (chordText e.1, chordText e.2))
  | .dict l => .dict l
  | .other n => .other n

/-- Fields that can be told apart: strings do not look like an enum, and a mapping of strings is a reduction if and
only if its field is called so. Each chord type is reduced once. -/
def Plain (key : Str) : KwValue → Prop
  | .str s => ¬ "PitchType".toList <+: s ∧ ¬ "PieceType".toList <+: s
  | .pitch _ => True
  | .reduction l => "reduction".toList <:+: key ∧ (l.map Prod.fst).Nodup
  | .dict _ => ¬ "reduction".toList <:+: key
  | .other _ => True

theorem chordTypeNamed_text (t : ChordType) : chordTypeNamed ((chordText t).drop 10) = .ok t := by
  cases t <;> decide +kernel

theorem loadReduction_text (l acc : List (ChordType × ChordType)) (hnd : (l.map Prod.fst).Nodup)
    (hacc : ∀ e ∈ l, e.1 ∉ acc.map Prod.fst) :
    loadReduction acc (l.map fun e => (chordText e.1, chordText e.2)) = .ok (acc ++ l) := by
  induction l generalizing acc with
  | nil => simp [loadReduction]
  | cons e l ih =>
    obtain ⟨a, b⟩ := e
    simp only [List.map_cons, List.nodup_cons] at hnd
    simp only [List.map_cons, loadReduction, chordTypeNamed_text, Bind.bind, Except.bind]
    rw [ForcesJson.putItem_new _ _ _ (hacc (a, b) (by simp)), ih _ hnd.2]
    · simp
    · intro x hx
      rw [List.map_append, List.mem_append, not_or]
      refine ⟨hacc x (List.mem_cons_of_mem _ hx), ?_⟩
      simp only [List.map_cons, List.map_nil, List.mem_singleton]
      intro h
      exact hnd.1 (List.mem_map.mpr ⟨x, hx, h⟩)

theorem loadKwarg_text (k : Str) (v : KwValue) (h : Plain k v) : loadKwarg k (text v) = .ok v := by
  cases v with
  | str s =>
    simp only [Plain, ← List.isPrefixOf_iff_prefix] at h
    rw [text, loadKwarg, if_neg (not_or.mpr h)]
  | pitch t => cases t <;> rfl
  | reduction l =>
    rw [text, loadKwarg, if_pos ((ForcesJson.containsLiteral_iff _ _).mpr h.1),
      loadReduction_text l [] h.2 (by simp)]
    rfl
  | dict l =>
    rw [text, loadKwarg, if_neg (fun hx => h ((ForcesJson.containsLiteral_iff _ _).mp hx))]
  | other n => rfl

/-- C109 (partial: no piece types): keyword arguments written with `str` of their enums are loaded as they were, in
all fields. -/
theorem C109_partial (fields : List (Str × KwValue)) (h : ∀ f ∈ fields, Plain f.1 f.2) :
    loadKwargs (some (fields.map fun f => (f.1, text f.2))) = .ok fields := by
  rw [loadKwargs]
  induction fields with
  | nil => rfl
  | cons f fields ih =>
    simp only [List.map_cons, loadKwargFields, loadKwarg_text f.1 f.2 (h f (by simp)),
      ih (fun g hg => h g (List.mem_cons_of_mem _ hg)), Bind.bind, Except.bind]

/-- C109: without a path there are no keyword arguments. -/
theorem C109_none : loadKwargs none = .ok [] := rfl

/-- C109 does not hold for piece types: they are looked up among the pitch types, so a file with any of them cannot be
loaded, except for `PieceType.MIDI`, which is loaded as `PitchType.MIDI`. -/
theorem C109_fails (key : Str) (t : PieceKind) (before after : List (Str × KwValue))
    (hb : ∀ f ∈ before, Plain f.1 f.2) (ha : ∀ f ∈ after, Plain f.1 f.2) :
    loadKwargs (some (before.map (fun f => (f.1, text f.2)) ++ (key, .str (pieceText t)) ::
      after.map fun f => (f.1, text f.2))) =
      if t = .midi then .ok (before ++ (key, .pitch .midi) :: after) else .error .keyError := by
  have hafter := C109_partial after ha
  rw [loadKwargs] at hafter ⊢
  induction before with
  | nil =>
    rw [List.map_nil, List.nil_append, loadKwargFields]
    cases t
    · rfl
    · have : loadKwarg key (.str (pieceText .midi)) = .ok (.pitch .midi) := rfl
      simp only [this, hafter, Bind.bind, Except.bind, if_true, List.nil_append]
    · rfl
  | cons f before ih =>
    have := ih fun g hg => hb g (List.mem_cons_of_mem _ hg)
    simp only [List.map_cons, List.cons_append, loadKwargFields, loadKwarg_text f.1 f.2 (hb f (by simp)), this,
      Bind.bind, Except.bind]
    cases t <;> rfl

/-- The fields of an initial chord model. -/
example : loadKwargs (some [("reduction_present".toList, .other 0), ("pitch_type".toList, .str "PitchType.TPC".toList),
    ("reduction".toList, .dict [("ChordType.MAJ_MIN7".toList, "ChordType.MAJOR".toList)]), ("name".toList, .str ['x'])])
    = .ok [("reduction_present".toList, .other 0), ("pitch_type".toList, .pitch .tpc),
      ("reduction".toList, .reduction [(.majMin7, .major)]), ("name".toList, .str ['x'])] := by decide +kernel
/-- A field whose name merely contains the word is taken for a reduction. -/
example : loadKwargs (some [("reductions_of".toList, .dict [(['a'], ['b'])])]) = .error .keyError := by decide +kernel
example : Plain "reduction".toList (.reduction [(.majMin7, .major), (.dim7, .diminished)]) := by
  refine ⟨⟨[], [], by simp⟩, by decide⟩

end Verif.Kwargs
