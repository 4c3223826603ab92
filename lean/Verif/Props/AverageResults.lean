import Verif.AverageResults
import Verif.Props.ForcesJson
import Verif.Lemmas.PyStr
import Mathlib.Data.List.Dedup
import Mathlib.Data.List.Forall2
import Mathlib.Data.List.Induction
import Mathlib.Algebra.BigOperators.Group.List.Basic

/-!
# C114: averages of logged accuracies
-/

namespace Verif.AverageResults

open Verif

/-! ### Splitting at `" = "` -/

theorem not_sep_prefix (c : Char) (w : Str) (h : ∀ d ∈ w.head?, d ≠ '=') :
    ¬ splitOn.isPrefixOf (c :: w) = true := by
  cases w with
  | nil => simp [splitOn, List.isPrefixOf]
  | cons d w =>
    have := h d (by simp)
    simp only [splitOn, List.isPrefixOf, Bool.and_eq_true, beq_iff_eq, not_and]
    intro _ hd
    exact absurd hd.symm this

/-- A text without `=`, the separator, and the rest. -/
theorem pySplit_sep (w rest : Str) (h : '=' ∉ w) :
    pySplit splitOn (w ++ splitOn ++ rest) = w :: pySplit splitOn rest := by
  simp only [pySplit]
  induction w with
  | nil =>
    have hp : splitOn.isPrefixOf (' ' :: '=' :: ' ' :: rest) = true := by simp [splitOn, List.isPrefixOf]
    show splitSub splitOn 0 (' ' :: '=' :: ' ' :: rest) = _
    rw [splitSub, if_pos hp]
    rfl
  | cons c w ih =>
    simp only [List.mem_cons, not_or] at h
    have hp : ¬ splitOn.isPrefixOf (c :: (w ++ splitOn ++ rest)) = true := by
      refine not_sep_prefix c _ fun d hd => ?_
      cases w with
      | nil => simp [splitOn] at hd; rw [← hd]; decide
      | cons e w => simp at hd; subst hd; exact fun he => h.2 (by simp [he])
    rw [List.cons_append, List.cons_append, splitSub, if_neg hp, ih h.2]

/-- A text without `=`. -/
theorem pySplit_sep_word (w : Str) (h : '=' ∉ w) : pySplit splitOn w = [w] := by
  simp only [pySplit]
  induction w with
  | nil => rfl
  | cons c w ih =>
    simp only [List.mem_cons, not_or] at h
    have hp : ¬ splitOn.isPrefixOf (c :: w) = true := by
      refine not_sep_prefix c _ fun d hd => ?_
      cases w with
      | nil => simp at hd
      | cons e w => simp at hd; subst hd; exact fun he => h.2 (by simp [he])
    rw [splitSub, if_neg hp, ih h.2]

theorem strip_ends (sp s sq : Str) (hsp : ∀ c ∈ sp, isSpace c = true) (hsq : ∀ c ∈ sq, isSpace c = true)
    (h1 : ∀ c ∈ s.head?, isSpace c = false) (h2 : ∀ c ∈ s.getLast?, isSpace c = false) (hne : s ≠ []) :
    strip (sp ++ s ++ sq) = s := by
  rw [strip, List.append_assoc, dropWhile_spaces sp (s ++ sq) hsp, List.reverse_append,
    dropWhile_spaces, List.reverse_reverse]
  · intro c hc; exact hsq c (by simpa using hc)
  · intro c hc
    rw [List.head?_reverse] at hc
    exact h2 c hc
  · intro c hc
    cases s with
    | nil => exact absurd rfl hne
    | cons a s => exact h1 c (by simpa using hc)

/-! ### Logs -/

/-- A line of a log file: an accuracy (blanks, key, blanks, and the text of the value), or another line. -/
inductive Line where
  | accuracy (before key after value : Str)
  | other (text : Str)

/-- The text of a line. -/
def Line.text : Line → Str
  | .accuracy before key after value => before ++ key ++ after ++ chars% " = " ++ value
  | .other text => text

/-- The key of an accuracy contains `accuracy`, does not begin or end with a blank, and there is no `=` within the key
or the value. Another line has no `=`, or is an assignment whose left side does not contain `accuracy`, or has more than
one assignment. -/
def Line.Ok : Line → Prop
  | .accuracy before key after value =>
    (∀ c ∈ before, isSpace c = true) ∧ (∀ c ∈ after, isSpace c = true) ∧ chars% "accuracy" <:+: key ∧ '=' ∉ key ∧
      '=' ∉ value ∧ (∀ c ∈ key.head?, isSpace c = false) ∧ (∀ c ∈ key.getLast?, isSpace c = false)
  | .other text =>
    '=' ∉ text ∨
    (∃ left right, text = left ++ chars% " = " ++ right ∧ '=' ∉ left ∧ '=' ∉ right ∧ ¬ chars% "accuracy" <:+: left) ∨
    ∃ x y z, text = x ++ chars% " = " ++ (y ++ chars% " = " ++ z) ∧ '=' ∉ x ∧ '=' ∉ y

/-- The entries of a log: the key and the text of the value of every accuracy. -/
def entries (log : List Line) : List (Str × Str) :=
  log.filterMap fun l => match l with
    | .accuracy _ key _ value => some (key, value)
    | .other _ => none

theorem not_eq_of_blank (s : Str) (h : ∀ c ∈ s, isSpace c = true) : '=' ∉ s := by
  intro hc
  exact absurd (h _ hc) (by decide)

theorem strip_infix (s : Str) : strip s <:+: s := by
  rw [strip]
  have h1 : (List.dropWhile isSpace s) <:+ s := List.dropWhile_suffix _
  have h2 : (List.dropWhile isSpace (List.dropWhile isSpace s).reverse).reverse <+: List.dropWhile isSpace s := by
    have := List.dropWhile_suffix (l := (List.dropWhile isSpace s).reverse) isSpace
    rw [← List.reverse_prefix, List.reverse_reverse] at this
    exact this
  exact h2.isInfix.trans h1.isInfix

/-- What a line does. -/
theorem averageStep_line (toFloat : Str → Py Rat) (acc : List (Str × List Rat)) (l : Line) (h : l.Ok) :
    averageStep toFloat acc l.text = match l with
      | .accuracy _ key _ value => (toFloat value).map fun v => putItem key ((acc.lookup key).getD [] ++ [v]) acc
      | .other _ => .ok acc := by
  cases l with
  | accuracy before key after value =>
    obtain ⟨hb, ha, hk, hke, hve, h1, h2⟩ := h
    have hne : key ≠ [] := by
      rintro rfl
      rw [List.infix_nil] at hk
      exact absurd hk (by decide)
    have hw : '=' ∉ before ++ key ++ after := by
      simp only [List.mem_append, not_or]
      exact ⟨⟨not_eq_of_blank _ hb, hke⟩, not_eq_of_blank _ ha⟩
    have hs : pySplit splitOn (Line.text (.accuracy before key after value)) = [before ++ key ++ after, value] := by
      show pySplit splitOn (before ++ key ++ after ++ splitOn ++ value) = _
      rw [pySplit_sep _ _ hw, pySplit_sep_word value hve]
    have hc : containsLiteral splitOn (Line.text (.accuracy before key after value)) = true := by
      rw [ForcesJson.containsLiteral_iff]
      exact ⟨before ++ key ++ after, value, rfl⟩
    have hst := strip_ends before key after hb ha h1 h2 hne
    rw [averageStep, if_neg (by simp [hc]), hs]
    simp only [hst]
    rw [if_pos ((ForcesJson.containsLiteral_iff _ _).2 hk)]
    cases toFloat value <;> rfl
  | other text =>
    rcases h with h | ⟨left, right, rfl, hl, hr, hk⟩ | ⟨x, y, z, rfl, hx, hy⟩
    · have hc : ¬ containsLiteral splitOn text = true := by
        rw [ForcesJson.containsLiteral_iff]
        exact fun hi => h (hi.subset (by simp [splitOn]))
      simp [Line.text, averageStep, hc]
    · have hs : pySplit splitOn (left ++ chars% " = " ++ right) = [left, right] := by
        show pySplit splitOn (left ++ splitOn ++ right) = _
        rw [pySplit_sep _ _ hl, pySplit_sep_word right hr]
      have hn : ¬ containsLiteral (chars% "accuracy") (strip left) = true := by
        rw [ForcesJson.containsLiteral_iff]
        exact fun hi => hk (hi.trans (strip_infix left))
      simp only [Line.text, averageStep]
      rw [hs]
      simp only [if_neg hn, ite_self]
    · have hs : ∃ w ws, pySplit splitOn (x ++ chars% " = " ++ (y ++ chars% " = " ++ z)) = x :: y :: w :: ws := by
        have hz : ∃ w ws, pySplit splitOn z = w :: ws := by
          cases z with
          | nil => exact ⟨_, _, rfl⟩
          | cons c s =>
            simp only [pySplit]
            rw [splitSub]
            split
            · exact ⟨_, _, rfl⟩
            · split <;> exact ⟨_, _, rfl⟩
        obtain ⟨w, ws, hz⟩ := hz
        refine ⟨w, ws, ?_⟩
        show pySplit splitOn (x ++ splitOn ++ (y ++ splitOn ++ z)) = _
        rw [pySplit_sep _ _ hx, pySplit_sep _ _ hy, hz]
      obtain ⟨w, ws, hs⟩ := hs
      simp only [Line.text, averageStep]
      rw [hs]
      simp

/-! ### The averages -/

/-- The keys in the order of their first entries. -/
def firstKeys (es : List (Str × Rat)) : List Str := (es.map Prod.fst).reverse.dedup.reverse

/-- The values of a key. -/
def valuesOf (es : List (Str × Rat)) (k : Str) : List Rat := (es.filter fun e => e.1 = k).map Prod.snd

theorem lookup_map_self (ks : List Str) (f : Str → List Rat) (k : Str) :
    (ks.map fun x => (x, f x)).lookup k = if k ∈ ks then some (f k) else none := by
  induction ks with
  | nil => rfl
  | cons a ks ih =>
    rw [List.map_cons, List.lookup_cons, ih]
    by_cases h : k = a
    · subst h; simp
    · have : (k == a) = false := by simpa using h
      simp [this, h]

theorem putItem_map (ks : List Str) (hn : ks.Nodup) (f g : Str → List Rat) (k : Str) (hk : k ∈ ks)
    (hg : ∀ x, x ≠ k → g x = f x) :
    putItem k (g k) (ks.map fun x => (x, f x)) = ks.map fun x => (x, g x) := by
  induction ks with
  | nil => simp at hk
  | cons a ks ih =>
    rw [List.nodup_cons] at hn
    rw [List.map_cons, putItem, List.map_cons]
    by_cases h : a = k
    · subst h
      rw [if_pos rfl]
      congr 1
      refine List.map_congr_left fun x hx => ?_
      rw [hg x fun hxa => hn.1 (hxa ▸ hx)]
    · rw [if_neg h, ih hn.2 ((List.mem_cons.1 hk).resolve_left fun e => h e.symm), hg a h]

theorem foldlM_lines (toFloat : Str → Py Rat) (log : List Line) (hok : ∀ l ∈ log, l.Ok) (es : List (Str × Rat))
    (hes : List.Forall₂ (fun (e : Str × Str) (e' : Str × Rat) => e'.1 = e.1 ∧ toFloat e.2 = .ok e'.2) (entries log) es) :
    (log.map Line.text).foldlM (averageStep toFloat) [] =
      .ok ((firstKeys es).map fun k => (k, valuesOf es k)) := by
  induction log using List.reverseRecOn generalizing es with
  | nil =>
    simp only [entries, List.filterMap_nil] at hes
    cases hes
    rfl
  | append_singleton log l ih =>
    have hok' : ∀ x ∈ log, x.Ok := fun x hx => hok x (by simp [hx])
    have hl := hok l (by simp)
    rw [List.map_append, List.map_singleton, List.foldlM_append]
    cases l with
    | other text =>
      have he : entries (log ++ [.other text]) = entries log := by simp [entries]
      rw [he] at hes
      rw [ih hok' es hes]
      simp only [Bind.bind, Except.bind, List.foldlM_cons, List.foldlM_nil]
      rw [averageStep_line toFloat _ _ hl]
      rfl
    | accuracy b key a value =>
      have he : entries (log ++ [.accuracy b key a value]) = entries log ++ [(key, value)] := by simp [entries]
      rw [he] at hes
      obtain ⟨es', e, h1, h2, rfl⟩ : ∃ es' e, List.Forall₂ (fun (e : Str × Str) (e' : Str × Rat) =>
          e'.1 = e.1 ∧ toFloat e.2 = .ok e'.2) (entries log) es' ∧ (e.1 = key ∧ toFloat value = .ok e.2) ∧
          es = es' ++ [e] := by
        have h3 := (List.forall₂_take_append _ _ _ hes.flip).flip
        have h4 := (List.forall₂_drop_append _ _ _ hes.flip).flip
        have hlen := hes.length_eq
        simp only [List.length_append, List.length_singleton] at hlen
        obtain ⟨e, hd⟩ : ∃ e, es.drop (entries log).length = [e] := by
          apply List.length_eq_one_iff.1
          simp; omega
        rw [hd] at h4
        cases h4 with
        | cons h _ => exact ⟨_, e, h3, h, by rw [← hd, List.take_append_drop]⟩
      obtain ⟨k, v⟩ := e
      obtain ⟨rfl, hv⟩ := h2
      rw [ih hok' es' h1]
      simp only [Bind.bind, Except.bind, List.foldlM_cons, List.foldlM_nil]
      rw [averageStep_line toFloat _ _ hl]
      simp only [hv, Except.map]
      show Except.ok _ = Except.ok _
      congr 1
      have hnd : (firstKeys es').Nodup := by
        rw [firstKeys, List.nodup_reverse]; exact List.nodup_dedup _
      have hvals : ∀ x, valuesOf (es' ++ [(k, v)]) x = if x = k then valuesOf es' k ++ [v] else valuesOf es' x := by
        intro x
        rw [valuesOf, List.filter_append, List.map_append]
        by_cases hx : x = k
        · subst hx; simp [valuesOf]
        · have : ¬ k = x := fun e => hx e.symm
          simp [valuesOf, hx, this]
      have hmem : k ∈ firstKeys es' ↔ k ∈ es'.map Prod.fst := by simp [firstKeys]
      rw [lookup_map_self]
      by_cases hk : k ∈ es'.map Prod.fst
      · have hfk : firstKeys (es' ++ [(k, v)]) = firstKeys es' := by
          rw [firstKeys, List.map_append, List.reverse_append]
          simp only [List.map_singleton, List.reverse_singleton, List.singleton_append]
          rw [List.dedup_cons_of_mem (by simpa using hk)]
          rfl
        rw [hfk, if_pos (hmem.2 hk), Option.getD_some]
        have := putItem_map (firstKeys es') hnd (valuesOf es') (valuesOf (es' ++ [(k, v)])) k (hmem.2 hk)
          (fun x hx => by rw [hvals, if_neg hx])
        rw [← this, hvals k, if_pos rfl]
      · have hfk : firstKeys (es' ++ [(k, v)]) = firstKeys es' ++ [k] := by
          rw [firstKeys, List.map_append, List.reverse_append]
          simp only [List.map_singleton, List.reverse_singleton, List.singleton_append]
          rw [List.dedup_cons_of_notMem (by simpa using hk), List.reverse_cons]
          rfl
        rw [hfk, if_neg fun h => hk (hmem.1 h), Option.getD_none, List.nil_append,
          ForcesJson.putItem_new _ _ _ (by simpa [Function.comp_def] using fun h => hk (hmem.1 h)), List.map_append]
        congr 1
        · refine List.map_congr_left fun x hx => ?_
          rw [hvals, if_neg]
          rintro rfl
          exact hk (hmem.1 hx)
        · have : valuesOf es' k = [] := by
            rw [valuesOf, List.map_eq_nil_iff, List.filter_eq_nil_iff]
            intro e he h
            exact hk (List.mem_map.2 ⟨e, he, of_decide_eq_true h⟩)
          simp [hvals, this]

/-- C114: for every log whose values are numbers, the averages are those of the values of every key, and the keys are
in the order of their first lines. -/
theorem C114_averages (toFloat : Str → Py Rat) (log : List Line) (hok : ∀ l ∈ log, l.Ok) (es : List (Str × Rat))
    (hes : List.Forall₂ (fun (e : Str × Str) (e' : Str × Rat) => e'.1 = e.1 ∧ toFloat e.2 = .ok e'.2) (entries log) es) :
    averageResults toFloat (log.map Line.text) =
      .ok ((es.map Prod.fst).reverse.dedup.reverse.map fun k =>
        (k, ((es.filter fun e => e.1 = k).map Prod.snd).sum / ((es.filter fun e => e.1 = k).length : Rat))) := by
  rw [averageResults, foldlM_lines toFloat log hok es hes]
  simp only [Except.map, List.map_map]
  congr 1
  refine List.map_congr_left fun k _ => ?_
  simp [meanRat, valuesOf]

/-- C114: a value which is not a number makes the whole average fail. -/
theorem C114_not_a_number (toFloat : Str → Py Rat) (log log' : List Line) (hok : ∀ l ∈ log, l.Ok)
    (es : List (Str × Rat))
    (hes : List.Forall₂ (fun (e : Str × Str) (e' : Str × Rat) => e'.1 = e.1 ∧ toFloat e.2 = .ok e'.2) (entries log) es)
    (b k a v : Str) (hl : Line.Ok (.accuracy b k a v)) (e : PyErr) (hv : toFloat v = .error e) :
    averageResults toFloat ((log ++ .accuracy b k a v :: log').map Line.text) = .error e := by
  rw [averageResults, List.map_append, List.foldlM_append, foldlM_lines toFloat log hok es hes]
  simp only [Bind.bind, Except.bind, List.map_cons, List.foldlM_cons]
  rw [averageStep_line toFloat _ _ hl]
  simp [hv, Except.map]

/-! ### The log of an evaluation -/

/-- The keys of the accuracies of a log. -/
def logKeys : List Str := accuracyNames.map fun n => chars% "INFO:root:" ++ n

/-- The lines of a piece. -/
def pieceLog (str : Rat → Str) (name : Str) : PieceLog → List Line
  | .failed => [.other (chars% "INFO:root:Running piece " ++ name ++ ['\n']), .other (chars% "INFO:root:Returned None\n")]
  | .unknown => [.other (chars% "INFO:root:Running piece " ++ name ++ ['\n']),
      .other (chars% "INFO:root:Cannot compute accuracy. Ground truth unknown.\n")]
  | .known accs => .other (chars% "INFO:root:Running piece " ++ name ++ ['\n']) ::
      (accuracyNames.zip accs).map fun p => .accuracy [] (chars% "INFO:root:" ++ p.1) [] (str p.2 ++ ['\n'])

theorem pieceLog_text (str : Rat → Str) (name : Str) (p : PieceLog) :
    (pieceLog str name p).map Line.text = pieceLines str name p := by
  cases p with
  | failed => rfl
  | unknown => rfl
  | known accs =>
    simp only [pieceLog, pieceLines, List.map_cons, List.map_map]
    congr 1
    refine List.map_congr_left fun q _ => ?_
    simp [Line.text, splitOn]

theorem logKey_ok : ∀ n ∈ accuracyNames, chars% "accuracy" <:+: (chars% "INFO:root:" ++ n) ∧
    '=' ∉ (chars% "INFO:root:" ++ n) ∧ (∀ c ∈ (chars% "INFO:root:" ++ n).head?, isSpace c = false) ∧
    (∀ c ∈ (chars% "INFO:root:" ++ n).getLast?, isSpace c = false) := by
  decide +kernel

theorem pieceLog_ok (str : Rat → Str) (hstr : ∀ x, '=' ∉ str x) (name : Str) (hname : '=' ∉ name) (p : PieceLog) :
    ∀ l ∈ pieceLog str name p, l.Ok := by
  have hrun : Line.Ok (.other (chars% "INFO:root:Running piece " ++ name ++ ['\n'])) := by
    refine .inl ?_
    simp only [List.mem_append, not_or]
    exact ⟨⟨by decide, hname⟩, by decide⟩
  intro l hl
  cases p with
  | failed =>
    simp only [pieceLog, List.mem_cons, List.not_mem_nil, or_false] at hl
    rcases hl with rfl | rfl
    · exact hrun
    · exact .inl (by decide)
  | unknown =>
    simp only [pieceLog, List.mem_cons, List.not_mem_nil, or_false] at hl
    rcases hl with rfl | rfl
    · exact hrun
    · exact .inl (by decide)
  | known accs =>
    simp only [pieceLog, List.mem_cons, List.mem_map] at hl
    rcases hl with rfl | ⟨⟨n, x⟩, hp, rfl⟩
    · exact hrun
    · have hk := logKey_ok n (List.of_mem_zip hp).1
      refine ⟨by simp, by simp, hk.1, hk.2.1, ?_, hk.2.2.1, hk.2.2.2⟩
      simp only [List.mem_append, not_or]
      exact ⟨hstr x, by decide⟩

/-- The accuracies of the pieces with an estimate and a ground truth. -/
def knownAccs (pieces : List (Str × PieceLog)) : List (List Rat) :=
  pieces.filterMap fun p => match p.2 with
    | .known accs => some accs
    | _ => none

theorem entries_append (l m : List Line) : entries (l ++ m) = entries l ++ entries m := by
  simp [entries]

theorem entries_log (str : Rat → Str) (toFloat : Str → Py Rat) (hf : ∀ x, toFloat (str x ++ ['\n']) = .ok x)
    (pieces : List (Str × PieceLog)) :
    List.Forall₂ (fun (e : Str × Str) (e' : Str × Rat) => e'.1 = e.1 ∧ toFloat e.2 = .ok e'.2)
      (entries (pieces.flatMap fun p => pieceLog str p.1 p.2)) ((knownAccs pieces).flatMap fun accs => logKeys.zip accs) := by
  induction pieces with
  | nil => exact .nil
  | cons p pieces ih =>
    obtain ⟨name, p⟩ := p
    rw [List.flatMap_cons, entries_append]
    cases p with
    | failed => simpa [entries, pieceLog, knownAccs] using ih
    | unknown => simpa [entries, pieceLog, knownAccs] using ih
    | known accs =>
      have hk : knownAccs ((name, .known accs) :: pieces) = accs :: knownAccs pieces := rfl
      rw [hk, List.flatMap_cons]
      refine List.rel_append ?_ ih
      have : entries (pieceLog str name (.known accs)) =
          (accuracyNames.zip accs).map fun p => (chars% "INFO:root:" ++ p.1, str p.2 ++ ['\n']) := by
        simp only [entries, pieceLog, List.filterMap_cons, List.filterMap_map]
        rw [← List.filterMap_eq_map]
        rfl
      rw [this, logKeys, List.zip_map_left]
      rw [List.forall₂_map_left_iff, List.forall₂_map_right_iff, List.forall₂_same]
      exact fun q _ => ⟨rfl, hf q.2⟩

theorem dedup_copies (keys : List Str) (hn : keys.Nodup) (l : List (List Rat)) (hne : l ≠ []) :
    (l.flatMap fun _ => keys).reverse.dedup.reverse = keys := by
  have hsub : ∀ l : List (List Rat), (l.flatMap fun _ => keys).reverse ⊆ keys.reverse := by
    intro l x hx
    simp only [List.mem_reverse, List.mem_flatMap] at hx ⊢
    exact hx.choose_spec.2
  cases l with
  | nil => exact absurd rfl hne
  | cons a l =>
    rw [List.flatMap_cons, List.reverse_append, List.Subset.dedup_append_right (hsub l),
      List.Nodup.dedup (List.nodup_reverse.2 hn), List.reverse_reverse]

theorem filter_block (keys : List Str) (hn : keys.Nodup) (accs : List Rat) (hl : accs.length = keys.length) (i : Nat)
    (k : Str) (hk : keys[i]? = some k) :
    (keys.zip accs).filter (fun e => e.1 = k) = (accs[i]?.map fun x => (k, x)).toList := by
  induction keys generalizing accs i with
  | nil => simp at hk
  | cons a keys ih =>
    cases accs with
    | nil => simp at hl
    | cons x accs =>
      rw [List.nodup_cons] at hn
      rw [List.zip_cons_cons, List.filter_cons]
      cases i with
      | zero =>
        simp only [List.getElem?_cons_zero, Option.some.injEq] at hk
        subst hk
        have : (keys.zip accs).filter (fun e => e.1 = a) = [] := by
          rw [List.filter_eq_nil_iff]
          intro e he h
          exact hn.1 ((of_decide_eq_true h) ▸ (List.of_mem_zip he).1)
        simp [this]
      | succ i =>
        simp only [List.getElem?_cons_succ] at hk ⊢
        have hka : ¬ a = k := by
          rintro rfl
          exact hn.1 (List.mem_of_getElem? hk)
        simp only [hka, decide_false]
        exact ih hn.2 accs (by simpa using hl) i hk

/-- C114: from the log of an evaluation, the averages are the means over the pieces with an estimate and a ground
truth, for each of the eight accuracies; without such a piece there are none. -/
theorem C114_evaluate (str : Rat → Str) (toFloat : Str → Py Rat) (hf : ∀ x, toFloat (str x ++ ['\n']) = .ok x)
    (hstr : ∀ x, '=' ∉ str x) (pieces : List (Str × PieceLog)) (hname : ∀ p ∈ pieces, '=' ∉ p.1)
    (hacc : ∀ accs ∈ knownAccs pieces, accs.length = 8) :
    ∃ avg, averageResults toFloat (evalLog str pieces) = .ok avg ∧
      (knownAccs pieces = [] → avg = []) ∧
      (knownAccs pieces ≠ [] → avg.map Prod.fst = logKeys ∧ ∀ (i : Nat) (k : Str) (x : Rat), avg[i]? = some (k, x) →
        x = ((knownAccs pieces).map fun accs => accs.getD i 0).sum / ((knownAccs pieces).length : Rat)) := by
  have hlog : evalLog str pieces = (pieces.flatMap fun p => pieceLog str p.1 p.2).map Line.text := by
    rw [evalLog, List.map_flatMap]
    refine List.flatMap_congr fun p _ => ?_
    rw [pieceLog_text]
  have hok : ∀ l ∈ (pieces.flatMap fun p => pieceLog str p.1 p.2), l.Ok := by
    intro l hl
    obtain ⟨p, hp, hl⟩ := List.mem_flatMap.1 hl
    exact pieceLog_ok str hstr p.1 (hname p hp) p.2 l hl
  refine ⟨_, by rw [hlog]; exact C114_averages toFloat _ hok _ (entries_log str toFloat hf pieces), ?_, ?_⟩
  · intro h
    rw [h]
    rfl
  · intro hne
    have hnd : logKeys.Nodup := by decide +kernel
    have hk8 : logKeys.length = 8 := rfl
    have hfst : ((knownAccs pieces).flatMap fun accs => logKeys.zip accs).map Prod.fst =
        (knownAccs pieces).flatMap fun _ => logKeys := by
      rw [List.map_flatMap]
      refine List.flatMap_congr fun accs ha => ?_
      rw [List.map_fst_zip]
      rw [hacc accs ha, hk8]
    rw [hfst, dedup_copies logKeys hnd _ hne]
    refine ⟨by simp [Function.comp_def], fun i k x hx => ?_⟩
    rw [List.getElem?_map] at hx
    cases hki : logKeys[i]? with
    | none => simp [hki] at hx
    | some k' =>
      rw [hki] at hx
      simp only [Option.map_some, Option.some.injEq, Prod.mk.injEq] at hx
      obtain ⟨rfl, rfl⟩ := hx
      have hi : i < 8 := (List.getElem?_eq_some_iff.1 hki).1
      have hfil : ((knownAccs pieces).flatMap fun accs => logKeys.zip accs).filter (fun e => e.1 = k') =
          (knownAccs pieces).map fun accs => (k', accs.getD i 0) := by
        rw [List.filter_flatMap, List.map_eq_flatMap]
        refine List.flatMap_congr fun accs ha => ?_
        have ha8 := hacc accs ha
        rw [filter_block logKeys hnd accs (by rw [ha8, hk8]) i k' hki, List.getD_eq_getElem?_getD,
          List.getElem?_eq_getElem (by omega)]
        rfl
      rw [hfil]
      simp [Function.comp_def]

/-- Three pieces, of which one has no ground truth; numbers are read as decimals. -/
example : averageResults pyFraction
      [chars% "INFO:root:Running piece 0: a.tsv\n", chars% "INFO:root:Chord accuracy = 0.5\n",
        chars% "INFO:root:Key accuracy = 1.0\n", chars% "INFO:root:    max_length = 3\n",
        chars% "INFO:root:Running piece 1: b.tsv\n",
        chars% "INFO:root:Cannot compute accuracy. Ground truth unknown.\n",
        chars% "INFO:root:Running piece 2: c.tsv\n", chars% "INFO:root:Chord accuracy = 0.25\n",
        chars% "INFO:root:Key accuracy = 0.5\n"] =
    .ok [(chars% "INFO:root:Chord accuracy", 3 / 8), (chars% "INFO:root:Key accuracy", 3 / 4)] := by
  decide +kernel

/-- The hypotheses of the theorems hold for the lines of the example. -/
example : Line.Ok (.accuracy [] (chars% "INFO:root:Chord accuracy") [] (chars% "0.5\n")) ∧
    Line.Ok (.other (chars% "INFO:root:    max_length = 3\n")) :=
  ⟨⟨by decide, by decide, by decide, by decide, by decide, by decide, by decide⟩,
    .inr (.inl ⟨chars% "INFO:root:    max_length", chars% "3\n", by decide, by decide, by decide, by decide⟩)⟩

end Verif.AverageResults
