import Verif.ForceLabels
import Verif.Props.Pitch
import Verif.Props.ChordIndex
import Mathlib.Data.List.Forall2

/-!
# C102, C103 and C104: forces written into a score

A label of a score is one command (or a text without `=` and `!`). The commands are described by what they mean;
`Cmd.text` is how they are written.
-/

namespace Verif.ForceLabels

/-- Accidentals of a note name. -/
inductive Acc where
  | natural | sharp | doubleSharp | flat | doubleFlat
  deriving DecidableEq, Repr

/-- How accidentals are written. -/
def Acc.text : Acc → Str
  | .natural => [] | .sharp => ['#'] | .doubleSharp => ['#', '#'] | .flat => ['b'] | .doubleFlat => ['b', 'b']

/-- Fifths by which accidentals move a note. -/
def Acc.shift : Acc → Int
  | .natural => 0 | .sharp => 7 | .doubleSharp => 14 | .flat => -7 | .doubleFlat => -14

/-- A note name: one of the letters `A` to `G`, `a` to `g` with its place on the line of fifths, and accidentals. -/
structure Name where
  letter : Char
  fifth : Int
  known : (letter, fifth) ∈ fifths
  acc : Acc

/-- How a note is written. -/
def Name.text (n : Name) : Str := n.letter :: n.acc.text

/-- The pitch (TPC, C is 15) a name stands for. -/
def Name.pitch (n : Name) : Int := 15 + n.fifth + n.acc.shift

/-- An inversion as it is written. -/
inductive Inv where
  | zero | one | two | three
  deriving DecidableEq, Repr

/-- How an inversion is written. -/
def Inv.text : Inv → Str
  | .zero => ['_', '0'] | .one => ['_', '1'] | .two => ['_', '2'] | .three => ['_', '3']

/-- The number of an inversion. -/
def Inv.number : Inv → Int
  | .zero => 0 | .one => 1 | .two => 2 | .three => 3

/-- The label of one position. -/
inductive Cmd where
  /-- There must be a chord change. -/
  | chordChange
  /-- There must be no chord change. -/
  | chordNonChange
  /-- There must be a key change. -/
  | keyChange
  /-- There must be no key change. -/
  | keyNonChange
  /-- The chord is given; root position if there is no inversion. -/
  | chord (root : Name) (ct : ChordType) (inv : Option Inv)
  /-- The key is given, minor for a small letter. -/
  | key (tonic : Name)
  /-- Something else. -/
  | other (s : Str) (h : '=' ∉ s ∧ '!' ∉ s)

/-- How a command is written. -/
def Cmd.text : Cmd → Str
  | .chordChange => ['!', 'C']
  | .chordNonChange => ['=', 'C']
  | .keyChange => ['!', 'K']
  | .keyNonChange => ['=', 'K']
  | .chord root ct inv =>
    ['C', '='] ++ root.text ++ chordTypeString ct ++ (match inv with | none => [] | some i => i.text)
  | .key tonic => ['K', '='] ++ tonic.text
  | .other s _ => s

/-- The labels of a score as they are written. -/
def written {α : Type} (labels : List (α × Cmd)) : List (ScoreLabel α) := labels.map fun l => ⟨l.1, l.2.text⟩

/-- The chords of a score with their lyrics as they are written. -/
def lyrics {α : Type} (chords : List (α × Option Cmd)) : List (α × Option Str) :=
  chords.map fun c => (c.1, c.2.map Cmd.text)

/-- All commands of a score: labels, then lyrics. -/
def commands {α : Type} (labels : List (α × Cmd)) (chords : List (α × Option Cmd)) : List (α × Cmd) :=
  labels ++ chords.filterMap fun c => c.2.map fun x => (c.1, x)

/-- Positions of chord changes. -/
def chordChangeAt {α : Type} : α × Cmd → Option α | (p, .chordChange) => some p | _ => none
/-- Positions without chord changes. -/
def chordNonChangeAt {α : Type} : α × Cmd → Option α | (p, .chordNonChange) => some p | _ => none
/-- Positions of key changes. -/
def keyChangeAt {α : Type} : α × Cmd → Option α | (p, .keyChange) => some p | _ => none
/-- Positions without key changes. -/
def keyNonChangeAt {α : Type} : α × Cmd → Option α | (p, .keyNonChange) => some p | _ => none
/-- Chords with their positions. -/
def chordAt {α : Type} : α × Cmd → Option (α × Name × ChordType × Option Inv)
  | (p, .chord n ct i) => some (p, n, ct, i) | _ => none
/-- Keys with their positions. -/
def keyAt {α : Type} : α × Cmd → Option (α × Name) | (p, .key n) => some (p, n) | _ => none

/-! ### Searching -/

theorem literal_cons_ne {a b : Char} (h : a ≠ b) (lit s : Str) : literal (a :: lit) (b :: s) = none := by
  simp [literal, h]

theorem literal_nil (a : Char) (lit : Str) : literal (a :: lit) [] = none := by simp [literal]

theorem literal_free (a b : Char) (lit s : Str) (h : b ∉ s) (hb : b ∈ a :: lit) :
    literal (a :: lit) s = none := by
  simp only [literal]
  rw [if_neg]
  intro hp
  exact h ((List.isPrefixOf_iff_prefix.mp hp).subset hb)

theorem search_none {β : Type} (f : Str → List β) (s : Str) (h : ∀ t, t <:+ s → f t = []) :
    search f s = none := by
  induction s with
  | nil => simp [search, h [] (List.suffix_refl _)]
  | cons c s ih =>
    simp only [search, h _ (List.suffix_refl _), List.head?_nil]
    exact ih fun t ht => h t (ht.trans (List.suffix_cons c s))

theorem containsLiteral_free (a b : Char) (lit s : Str) (h : b ∉ s) (hb : b ∈ a :: lit) :
    containsLiteral (a :: lit) s = false := by
  have : search (fun s => (literal (a :: lit) s).toList) s = none := by
    apply search_none
    intro t ht
    rw [literal_free a b lit t (fun hx => h (ht.subset hx)) hb]; rfl
  simp [containsLiteral, this]

theorem containsLiteral_cons_ne {a c : Char} (hne : a ≠ c) (lit s : Str) :
    containsLiteral (a :: lit) (c :: s) = containsLiteral (a :: lit) s := by
  simp [containsLiteral, search, literal_cons_ne hne]

theorem chordMatches_free (s : Str) (h : '=' ∉ s) : chordMatches s = [] := by
  simp [chordMatches, literal_free 'C' '=' ['='] s h (by simp)]

theorem keyMatches_free (s : Str) (h : '=' ∉ s) : keyMatches s = [] := by
  simp [keyMatches, literal_free 'K' '=' ['='] s h (by simp)]

theorem search_chord_free (s : Str) (h : '=' ∉ s) : search chordMatches s = none :=
  search_none _ _ fun _ ht => chordMatches_free _ fun hx => h (ht.subset hx)

theorem search_key_free (s : Str) (h : '=' ∉ s) : search keyMatches s = none :=
  search_none _ _ fun _ ht => keyMatches_free _ fun hx => h (ht.subset hx)

theorem search_chord_cons {c : Char} (hc : c ≠ 'C') (s : Str) :
    search chordMatches (c :: s) = search chordMatches s := by
  simp [search, chordMatches, literal_cons_ne hc.symm]

theorem search_key_cons {c : Char} (hc : c ≠ 'K') (s : Str) :
    search keyMatches (c :: s) = search keyMatches s := by
  simp [search, keyMatches, literal_cons_ne hc.symm]

/-! ### Names -/

theorem letter_facts {c : Char} {f : Int} (h : (c, f) ∈ fifths) :
    c ∈ noteLetters ∧ c ≠ '=' ∧ c ≠ '!' ∧ c ≠ 'K' ∧ -1 ≤ f ∧ f ≤ 5 := by
  revert h; simp only [fifths, List.mem_cons, Prod.mk.injEq, List.not_mem_nil, or_false]
  intro h
  rcases h with h | h | h | h | h | h | h | h | h | h | h | h | h | h <;>
    obtain ⟨rfl, rfl⟩ := h <;> decide

theorem acc_free (a : Acc) : '=' ∉ a.text ∧ '!' ∉ a.text := by cases a <;> decide

theorem name_free (n : Name) : '=' ∉ n.text ∧ '!' ∉ n.text := by
  have h := letter_facts n.known
  have ha := acc_free n.acc
  simp only [Name.text, List.mem_cons, not_or]
  exact ⟨⟨h.2.1.symm, ha.1⟩, ⟨h.2.2.1.symm, ha.2⟩⟩

theorem pitch_range (n : Name) : 0 ≤ n.pitch ∧ n.pitch < 35 := by
  obtain ⟨l, f, hk, a⟩ := n
  have h := letter_facts hk
  cases a <;> simp only [Name.pitch, Acc.shift] <;> omega

theorem pitch_read (n : Name) : pitchFromString n.text .tpc = .ok n.pitch := by
  have hr := pitch_range n
  obtain ⟨l, f, hk, a⟩ := n
  have key : ∀ (i j : Nat), a.text = List.replicate i '#' ++ List.replicate j 'b' →
      a.shift = 7 * ((i : Int) - j) →
      pitchFromString (l :: a.text) .tpc = .ok (15 + f + a.shift) := by
    intro i j ht hs
    rw [ht, C06_spelling l f hk i j, hs, if_pos]
    simp only [Name.pitch] at hr
    rw [hs] at hr; exact hr
  cases a
  · exact key 0 0 rfl rfl
  · exact key 1 0 rfl rfl
  · exact key 2 0 rfl rfl
  · exact key 0 1 rfl rfl
  · exact key 0 2 rfl rfl

/-! ### Chord labels -/

/-- What follows the letter of the root. -/
def restMatches (s : Str) : List (Str × Str × Option Str) :=
  (upToTwo '#' s ++ upToTwo 'b' s).flatMap fun p =>
    (typeMatches p.2).flatMap fun t => (inversionMatches t.2).map fun i => (p.1, t.1, i)

theorem chordMatches_letter {l : Char} (hl : l ∈ noteLetters) (s : Str) :
    chordMatches ('C' :: '=' :: l :: s) = (restMatches s).map fun m => (l :: m.1, m.2) := by
  simp [chordMatches, literal, pitchMatches, hl, restMatches, List.map_flatMap, List.flatMap_map, Function.comp_def]

/-- The name of a chord type up to where the expression reads it. -/
def readName : ChordType → Str
  | .major | .majMaj7 | .majMin7 => ['M']
  | .minor | .minMaj7 | .minMin7 => ['m']
  | .diminished | .dim7 => ['o']
  | .augmented | .augMin7 | .augMaj7 => ['+']
  | .halfDim7 => ['%', '7']

/-- The types that are read in full. -/
def plainTypes : List ChordType := [.major, .minor, .diminished, .augmented, .halfDim7]

/-- The text of an inversion, possibly nothing. -/
def invText : Option Inv → Str | none => [] | some i => i.text

theorem rest_head (a : Acc) (ct : ChordType) (inv : Option Inv) :
    (restMatches (a.text ++ (chordTypeString ct ++ invText inv))).head? =
      some (a.text, readName ct, if ct ∈ plainTypes then inv.map Inv.text else none) := by
  rcases inv with _ | i
  · cases a <;> cases ct <;> rfl
  · cases i <;> cases a <;> cases ct <;> rfl

theorem chord_text (n : Name) (ct : ChordType) (inv : Option Inv) :
    (Cmd.chord n ct inv).text = 'C' :: '=' :: n.letter :: (n.acc.text ++ (chordTypeString ct ++ invText inv)) := by
  cases inv <;> simp [Cmd.text, Name.text, invText]

theorem chord_search (n : Name) (ct : ChordType) (inv : Option Inv) :
    search chordMatches (Cmd.chord n ct inv).text =
      some (n.text, readName ct, if ct ∈ plainTypes then inv.map Inv.text else none) := by
  rw [chord_text, search, chordMatches_letter (letter_facts n.known).1, List.head?_map, rest_head]
  rfl

theorem rest_free (n : Name) (ct : ChordType) (inv : Option Inv) :
    '=' ∉ n.letter :: (n.acc.text ++ (chordTypeString ct ++ invText inv)) ∧
    '!' ∉ n.letter :: (n.acc.text ++ (chordTypeString ct ++ invText inv)) := by
  have h := letter_facts n.known
  have ha := acc_free n.acc
  have hc : '=' ∉ chordTypeString ct ∧ '!' ∉ chordTypeString ct := by cases ct <;> decide
  have hi : '=' ∉ invText inv ∧ '!' ∉ invText inv := by
    rcases inv with _ | i
    · decide
    · cases i <;> decide
  simp only [List.mem_cons, List.mem_append, not_or]
  exact ⟨⟨h.2.1.symm, ha.1, hc.1, hi.1⟩, ⟨h.2.2.1.symm, ha.2, hc.2, hi.2⟩⟩

/-! ### What is found in each command -/

theorem search_chord (c : Cmd) : search chordMatches c.text =
    match c with
    | .chord n ct inv => some (n.text, readName ct, if ct ∈ plainTypes then inv.map Inv.text else none)
    | _ => none := by
  cases c with
  | chord n ct inv => exact chord_search n ct inv
  | key n =>
    simp only [Cmd.text, List.cons_append, List.nil_append]
    rw [search_chord_cons (by decide), search_chord_cons (by decide)]
    exact search_chord_free _ (name_free n).1
  | other s h => exact search_chord_free s h.1
  | _ => rfl

theorem search_key (c : Cmd) : (search keyMatches c.text).isSome = (match c with | .key _ => true | _ => false) := by
  cases c with
  | chord n ct inv =>
    rw [chord_text, search_key_cons (by decide), search_key_cons (by decide),
      search_key_free _ (rest_free n ct inv).1]; rfl
  | key n =>
    have hk : ((keyMatches (Cmd.key n).text).head?).isSome = true := by
      simp only [Cmd.text, Name.text, List.cons_append, List.nil_append, keyMatches, literal, List.isPrefixOf,
        pitchMatches]
      have : n.letter ∈ noteLetters := (letter_facts n.known).1
      obtain ⟨l, f, hk, a⟩ := n
      simp only at this
      cases a <;> simp [this, Acc.text, upToTwo]
    obtain ⟨m, hm⟩ := Option.isSome_iff_exists.mp hk
    have ht : (Cmd.key n).text = 'K' :: ('=' :: n.text) := rfl
    rw [ht] at hm ⊢
    simp [search, hm]
  | other s h => simp [Cmd.text, search_key_free s h.1]
  | _ => rfl

theorem find_chordChange (c : Cmd) : containsLiteral ['!', 'C'] c.text =
    (match c with | .chordChange => true | _ => false) := by
  cases c with
  | chord n ct inv =>
    have h := (rest_free n ct inv).2
    rw [chord_text]
    exact containsLiteral_free '!' '!' _ _ (by simp only [List.mem_cons, not_or] at h ⊢; simp [h]) (by simp)
  | key n =>
    exact containsLiteral_free '!' '!' _ _ (by have h := (name_free n).2; simp [Cmd.text, h]) (by simp)
  | other s h => exact containsLiteral_free '!' '!' _ _ h.2 (by simp)
  | _ => rfl

theorem find_keyChange (c : Cmd) : containsLiteral ['!', 'K'] c.text =
    (match c with | .keyChange => true | _ => false) := by
  cases c with
  | chord n ct inv =>
    have h := (rest_free n ct inv).2
    rw [chord_text]
    exact containsLiteral_free '!' '!' _ _ (by simp only [List.mem_cons, not_or] at h ⊢; simp [h]) (by simp)
  | key n =>
    exact containsLiteral_free '!' '!' _ _ (by have h := (name_free n).2; simp [Cmd.text, h]) (by simp)
  | other s h => exact containsLiteral_free '!' '!' _ _ h.2 (by simp)
  | _ => rfl

theorem contains_second {l : Char} (hl : l ≠ 'K') (s : Str) (h : '=' ∉ l :: s) :
    containsLiteral ['=', 'K'] ('=' :: l :: s) = false := by
  have h1 : literal ['=', 'K'] ('=' :: l :: s) = none := by simp [literal, hl.symm]
  have h2 := containsLiteral_free '=' '=' ['K'] (l :: s) h (by simp)
  simp only [containsLiteral] at h2 ⊢
  rw [search, h1]
  exact h2

theorem find_keyNonChange (c : Cmd) : containsLiteral ['=', 'K'] c.text =
    (match c with | .keyNonChange => true | _ => false) := by
  cases c with
  | chord n ct inv =>
    rw [chord_text, containsLiteral_cons_ne (by decide)]
    exact contains_second (letter_facts n.known).2.2.2.1 _ (rest_free n ct inv).1
  | key n =>
    have ht : (Cmd.key n).text = 'K' :: '=' :: n.letter :: n.acc.text := rfl
    rw [ht, containsLiteral_cons_ne (by decide)]
    exact contains_second (letter_facts n.known).2.2.2.1 _ (name_free n).1
  | other s h => exact containsLiteral_free '=' '=' _ _ h.1 (by simp)
  | _ => rfl

theorem find_chordNonChange (c : Cmd) : (literal ['=', 'C'] c.text).isSome =
    (match c with | .chordNonChange => true | _ => false) := by
  cases c with
  | chord n ct inv => rw [chord_text, literal_cons_ne (by decide)]; rfl
  | key n => rfl
  | other s h => simp [Cmd.text, literal_free '=' '=' ['C'] s h.1]
  | _ => rfl

/-! ### Tables -/

theorem lyricRows_written {α : Type} (chords : List (α × Option Cmd)) :
    lyricRows (lyrics chords) = written (chords.filterMap fun c => c.2.map fun x => (c.1, x)) := by
  induction chords with
  | nil => rfl
  | cons c cs ih =>
    obtain ⟨p, c⟩ := c
    cases c with
    | none => simpa [lyricRows, lyrics, written] using ih
    | some x =>
      simp only [lyricRows, lyrics, written, List.map_cons, List.filterMap_cons, Option.map_some] at ih ⊢
      rw [ih]

theorem filter_written {α : Type} (f : Str → Bool) (g : α × Cmd → Option α)
    (h : ∀ p c, g (p, c) = if f c.text then some p else none) (rows : List (α × Cmd)) :
    ((written rows).filter fun r => f r.label).map ScoreLabel.pos = rows.filterMap g := by
  induction rows with
  | nil => rfl
  | cons r rs ih =>
    obtain ⟨p, c⟩ := r
    simp only [written, List.map_cons, List.filter_cons, List.filterMap_cons, h] at ih ⊢
    cases f c.text <;> simp [ih]

theorem changeRows_written {α : Type} (f : Str → Bool) (g : α × Cmd → Option α)
    (h : ∀ p c, g (p, c) = if f c.text then some p else none) (labels : List (α × Cmd))
    (chords : List (α × Option Cmd)) :
    changeRows f (written labels) (lyricRows (lyrics chords)) = (commands labels chords).filterMap g := by
  simp only [changeRows, List.map_append, lyricRows_written, filter_written f g h, commands, List.filterMap_append]

theorem extract_iff {α : Type} (labels : List (α × Cmd)) (chords : List (α × Option Cmd)) (f : ScoreForces α) :
    extractForces (written labels) (lyrics chords) = .ok f ↔
      forcedChordRows (written (commands labels chords)) = .ok f.chords ∧
      forcedKeyRows (written (commands labels chords)) = .ok f.keys ∧
      f.chordChanges = (commands labels chords).filterMap chordChangeAt ∧
      f.chordNonChanges = (commands labels chords).filterMap chordNonChangeAt ∧
      f.keyChanges = (commands labels chords).filterMap keyChangeAt ∧
      f.keyNonChanges = (commands labels chords).filterMap keyNonChangeAt := by
  have hc : written labels ++ lyricRows (lyrics chords) = written (commands labels chords) := by
    rw [lyricRows_written]; simp [written, commands]
  have e1 := changeRows_written (containsLiteral ['!', 'C']) (chordChangeAt (α := α))
    (by intro p c; rw [find_chordChange]; cases c <;> rfl) labels chords
  have e2 := changeRows_written (fun s => (literal ['=', 'C'] s).isSome) (chordNonChangeAt (α := α))
    (by intro p c; rw [find_chordNonChange]; cases c <;> rfl) labels chords
  have e3 := changeRows_written (containsLiteral ['!', 'K']) (keyChangeAt (α := α))
    (by intro p c; rw [find_keyChange]; cases c <;> rfl) labels chords
  have e4 := changeRows_written (containsLiteral ['=', 'K']) (keyNonChangeAt (α := α))
    (by intro p c; rw [find_keyNonChange]; cases c <;> rfl) labels chords
  simp only [extractForces, hc, e1, e2, e3, e4, Bind.bind, Except.bind]
  cases h1 : forcedChordRows (written (commands labels chords)) with
  | error e => simp
  | ok a =>
    cases h2 : forcedKeyRows (written (commands labels chords)) with
    | error e => simp
    | ok b =>
      obtain ⟨f1, f2, f3, f4, f5, f6⟩ := f
      simp only [Except.ok.injEq, ScoreForces.mk.injEq]
      constructor
      · rintro ⟨rfl, rfl, rfl, rfl, rfl, rfl⟩; simp
      · rintro ⟨rfl, rfl, rfl, rfl, rfl, rfl⟩; simp

/-! ### Chords and keys of rows -/

/-- A chord label that can be read: a type that is read in full with an inversion that it has. -/
def Readable (ct : ChordType) (inv : Option Inv) : Prop :=
  ct ∈ plainTypes ∧ ∃ i, inv = some i ∧ i.number < inversionCount ct

theorem inversion_read (i : Inv) : inversionOf (some i.text) = .ok i.number := by cases i <;> rfl

theorem typeOfName_read (ct : ChordType) : ∃ t, typeOfName (readName ct) = .ok t := by
  cases ct <;> exact ⟨_, rfl⟩

theorem typeOfName_plain (ct : ChordType) (h : ct ∈ plainTypes) : typeOfName (readName ct) = .ok ct := by
  cases ct <;> first | rfl | (revert h; decide)

theorem chordId_unread (n : Name) (ct : ChordType) :
    forcedChordId (n.text, readName ct, none) = .error .typeError := by
  obtain ⟨t, ht⟩ := typeOfName_read ct
  simp [forcedChordId, ht, pitch_read, inversionOf, Bind.bind, Except.bind]

theorem chordId_read (n : Name) (ct : ChordType) (h : ct ∈ plainTypes) (i : Inv) :
    forcedChordId (n.text, readName ct, some i.text) =
      chordOneHotIndex ct n.pitch .tpc i.number true false false id := by
  simp [forcedChordId, typeOfName_plain ct h, pitch_read, inversion_read, Bind.bind, Except.bind]

theorem index_ok_iff (n : Name) (ct : ChordType) (i : Inv) :
    (∃ x, chordOneHotIndex ct n.pitch .tpc i.number true false false id = .ok x) ↔
      i.number < inversionCount ct := by
  have hp := pitch_range n
  have h0 : 0 ≤ i.number := by cases i <;> decide
  rw [(C01_accepts_iff ct n.pitch .tpc i.number true false false id).1]
  rw [specEncodable, specInversions_eq]
  exact ⟨fun h => (h.2 rfl).2, fun h => ⟨hp, fun _ => ⟨h0, h⟩⟩⟩

theorem chordRows_iff {α : Type} (rows : List (α × Cmd)) (r : List (α × Int)) :
    forcedChordRows (written rows) = .ok r ↔
      List.Forall₂ (fun (c : α × Name × ChordType × Option Inv) (x : α × Int) => x.1 = c.1 ∧ c.2.2.1 ∈ plainTypes ∧
        ∃ i, c.2.2.2 = some i ∧ chordOneHotIndex c.2.2.1 c.2.1.pitch .tpc i.number true false false id = .ok x.2)
        (rows.filterMap chordAt) r := by
  induction rows generalizing r with
  | nil =>
    simp only [written, List.map_nil, forcedChordRows, List.filterMap_nil, List.forall₂_nil_left_iff,
      Except.ok.injEq]
    exact eq_comm
  | cons a rows ih =>
    obtain ⟨p, c⟩ := a
    have hs := search_chord c
    cases c with
    | chord n ct inv =>
      simp only at hs
      simp only [written, List.map_cons, forcedChordRows, hs, List.filterMap_cons, chordAt, Bind.bind,
        Except.bind] at ih ⊢
      by_cases hct : ct ∈ plainTypes
      · cases inv with
        | none =>
          simp only [if_pos hct, Option.map_none, chordId_unread, reduceCtorEq, false_iff]
          intro h
          cases h with
          | cons h _ => obtain ⟨_, _, i, hi, _⟩ := h; cases hi
        | some i =>
          simp only [if_pos hct, Option.map_some, chordId_read n ct hct]
          cases hx : chordOneHotIndex ct n.pitch .tpc i.number true false false id with
          | error e =>
            simp only [reduceCtorEq, false_iff]
            intro h
            cases h with
            | cons h _ =>
              obtain ⟨_, _, j, hj, hx'⟩ := h
              cases hj
              rw [hx] at hx'; cases hx'
          | ok x =>
            cases hr : forcedChordRows (List.map (fun l : α × Cmd => (⟨l.1, l.2.text⟩ : ScoreLabel α)) rows) with
            | error e =>
              simp only [reduceCtorEq, false_iff]
              intro h
              cases h with
              | cons _ h => rw [← ih, hr] at h; cases h
            | ok rest =>
              simp only [Except.ok.injEq]
              have ihr := (ih rest).mp hr
              constructor
              · rintro rfl
                exact .cons ⟨rfl, hct, i, rfl, hx⟩ ihr
              · intro h
                cases h with
                | @cons _ b _ bs h1 h2 =>
                  obtain ⟨rfl, _, j, hj, hx'⟩ := h1
                  cases hj
                  rw [hx] at hx'; cases hx'
                  rw [← ih, hr] at h2; cases h2
                  rfl
      · simp only [if_neg hct, chordId_unread, reduceCtorEq, false_iff]
        intro h
        cases h with
        | cons h _ => exact hct h.2.1
    | _ =>
      simp only at hs
      simpa only [written, List.map_cons, forcedChordRows, hs, List.filterMap_cons, chordAt] using ih r

theorem keyId_read (n : Name) :
    forcedKeyId (Cmd.key n).text = .ok (35 * (if n.letter.isUpper then 0 else 1) + n.pitch) := by
  have ht : (Cmd.key n).text = 'K' :: '=' :: n.letter :: n.acc.text := rfl
  have hp := pitch_range n
  have hg : pyGet ('K' :: '=' :: n.letter :: n.acc.text) 2 = .ok n.letter := rfl
  have hd : ('K' :: '=' :: n.letter :: n.acc.text).drop 2 = n.text := rfl
  rw [forcedKeyId, ht, hg, hd]
  simp only [pitch_read, Bind.bind, Except.bind, keyOneHotIndex]
  have hn : NUM_PITCHES .tpc = 35 := rfl
  rw [hn, if_neg (by omega)]
  by_cases h : n.letter.isUpper = true
  · rw [if_pos h, if_pos h]; rfl
  · rw [if_neg h, if_neg h]; rfl

theorem keyRows_read {α : Type} (rows : List (α × Cmd)) :
    forcedKeyRows (written rows) = .ok ((rows.filterMap keyAt).map fun k =>
      (k.1, 35 * (if k.2.letter.isUpper then 0 else 1) + k.2.pitch)) := by
  induction rows with
  | nil => rfl
  | cons a rows ih =>
    obtain ⟨p, c⟩ := a
    have hs := search_key c
    cases c with
    | key n =>
      simp only at hs
      obtain ⟨m, hm⟩ := Option.isSome_iff_exists.mp hs
      simp only [written, List.map_cons, forcedKeyRows, hm, List.filterMap_cons, keyAt, Bind.bind,
        Except.bind, keyId_read] at ih ⊢
      rw [ih]
    | _ =>
      simp only [Option.isSome_eq_false_iff, Option.isNone_iff_eq_none] at hs
      simpa only [written, List.map_cons, forcedKeyRows, hs, List.filterMap_cons, keyAt] using ih

/-! ## C102: forced changes -/

/-- C102: the forced chord changes, chord non-changes, key changes and key non-changes are the positions of the
commands that say so, each of them in the order of the labels and then of the lyrics. No other command is taken for
one of them. -/
theorem C102_changes {α : Type} (labels : List (α × Cmd)) (chords : List (α × Option Cmd)) (f : ScoreForces α)
    (h : extractForces (written labels) (lyrics chords) = .ok f) :
    f.chordChanges = (commands labels chords).filterMap chordChangeAt ∧
    f.chordNonChanges = (commands labels chords).filterMap chordNonChangeAt ∧
    f.keyChanges = (commands labels chords).filterMap keyChangeAt ∧
    f.keyNonChanges = (commands labels chords).filterMap keyNonChangeAt :=
  ((extract_iff labels chords f).mp h).2.2

/-! ## C103: forced chords -/

/-- C103 (partial: seventh chords other than half-diminished ones and chords without a written inversion are
missing, see `C103_fails`): if the forces of a score are extracted, its forced chords are those of the commands, in
order, with the id of the chord. -/
theorem C103_chords_partial {α : Type} (labels : List (α × Cmd)) (chords : List (α × Option Cmd))
    (f : ScoreForces α) (h : extractForces (written labels) (lyrics chords) = .ok f) :
    List.Forall₂ (fun (c : α × Name × ChordType × Option Inv) (x : α × Int) => x.1 = c.1 ∧
        ∃ i, c.2.2.2 = some i ∧ chordOneHotIndex c.2.2.1 c.2.1.pitch .tpc i.number true false false id = .ok x.2)
        ((commands labels chords).filterMap chordAt) f.chords := by
  have h1 := (chordRows_iff _ _).mp ((extract_iff labels chords f).mp h).1
  exact h1.imp fun _ _ hx => ⟨hx.1, hx.2.2⟩

/-- C103: forces are extracted exactly from scores whose chords are all triads or half-diminished seventh chords
with an inversion written that they have. -/
theorem C103_extracted_iff {α : Type} (labels : List (α × Cmd)) (chords : List (α × Option Cmd)) :
    (∃ f, extractForces (written labels) (lyrics chords) = .ok f) ↔
      ∀ p n ct inv, (p, Cmd.chord n ct inv) ∈ commands labels chords →
        ct ∈ [ChordType.major, .minor, .diminished, .augmented, .halfDim7] ∧
        ∃ i, inv = some i ∧ i.number < inversionCount ct := by
  constructor
  · rintro ⟨f, hf⟩ p n ct inv hm
    have h1 := (chordRows_iff _ _).mp ((extract_iff labels chords f).mp hf).1
    have hm' : (p, n, ct, inv) ∈ (commands labels chords).filterMap chordAt :=
      List.mem_filterMap.mpr ⟨_, hm, rfl⟩
    obtain ⟨k, hk⟩ := List.mem_iff_getElem?.mp hm'
    rw [List.forall₂_iff_get] at h1
    obtain ⟨hl, hx⟩ := h1
    obtain ⟨hk', hk''⟩ := List.getElem?_eq_some_iff.mp hk
    have := hx k hk' (hl ▸ hk')
    have hg : ((commands labels chords).filterMap chordAt).get ⟨k, hk'⟩ = (p, n, ct, inv) := hk''
    rw [hg] at this
    obtain ⟨_, hc, i, hi, hix⟩ := this
    exact ⟨hc, i, hi, (index_ok_iff n ct i).mp ⟨_, hix⟩⟩
  · intro h
    have key : ∀ rows : List (α × Cmd), (∀ p n ct inv, (p, Cmd.chord n ct inv) ∈ rows → ct ∈ plainTypes ∧
        ∃ i, inv = some i ∧ i.number < inversionCount ct) → ∃ r, forcedChordRows (written rows) = .ok r := by
      intro rows
      induction rows with
      | nil => intro _; exact ⟨[], rfl⟩
      | cons a rows ih =>
        intro hr
        obtain ⟨r, hrr⟩ := ih fun p n ct inv hm => hr p n ct inv (List.mem_cons_of_mem _ hm)
        have hrr' := (chordRows_iff _ _).mp hrr
        obtain ⟨p, c⟩ := a
        cases c with
        | chord n ct inv =>
          obtain ⟨hc, i, hi, hn⟩ := hr p n ct inv (by simp)
          obtain ⟨x, hx⟩ := (index_ok_iff n ct i).mpr hn
          exact ⟨(p, x) :: r, (chordRows_iff _ _).mpr (.cons ⟨rfl, hc, i, hi, hx⟩ hrr')⟩
        | _ => exact ⟨r, (chordRows_iff _ _).mpr hrr'⟩
    obtain ⟨r, hr⟩ := key _ h
    exact ⟨⟨_, _, _, _, r, _⟩, (extract_iff labels chords _).mpr ⟨hr, keyRows_read _, rfl, rfl, rfl, rfl⟩⟩

/-- C103 does not hold: a single chord without an inversion, or a single seventh chord that is not half-diminished
(with or without an inversion), and no forces of the score are extracted. -/
theorem C103_fails {α : Type} (labels : List (α × Cmd)) (chords : List (α × Option Cmd)) (p : α) (n : Name)
    (ct : ChordType) (inv : Option Inv) (hm : (p, Cmd.chord n ct inv) ∈ commands labels chords)
    (hbad : inv = none ∨ ct ∈ [ChordType.majMaj7, .majMin7, .minMaj7, .minMin7, .dim7, .augMin7, .augMaj7])
    (f : ScoreForces α) : extractForces (written labels) (lyrics chords) ≠ .ok f := by
  intro hf
  obtain ⟨hc, i, hi, _⟩ := (C103_extracted_iff labels chords).mp ⟨f, hf⟩ p n ct inv hm
  rcases hbad with rfl | hb
  · cases hi
  · cases ct <;> revert hb hc <;> decide

/-! ## C104: forced keys -/

/-- C104: if the forces of a score are extracted, its forced keys are those of the commands, in order: the id of the
major key of the tonic for a capital letter, that of the minor key for a small letter. -/
theorem C104_keys {α : Type} (labels : List (α × Cmd)) (chords : List (α × Option Cmd))
    (f : ScoreForces α) (h : extractForces (written labels) (lyrics chords) = .ok f) :
    List.Forall₂ (fun (k : α × Name) (x : α × Int) => x.1 = k.1 ∧
        keyOneHotIndex (if k.2.letter.isUpper then .major else .minor) k.2.pitch .tpc = .ok x.2)
        ((commands labels chords).filterMap keyAt) f.keys := by
  have h1 := ((extract_iff labels chords f).mp h).2.1
  rw [keyRows_read, Except.ok.injEq] at h1
  rw [← h1, List.forall₂_map_right_iff, List.forall₂_same]
  intro k _
  refine ⟨rfl, ?_⟩
  have hp := pitch_range k.2
  have hn : NUM_PITCHES .tpc = 35 := rfl
  simp only [keyOneHotIndex]
  rw [hn, if_neg (by omega)]
  by_cases h : k.2.letter.isUpper = true
  · rw [if_pos h, if_pos h]; rfl
  · rw [if_neg h, if_neg h]; rfl

/-! ### A score -/

/-- B flat. -/
def bFlat : Name := ⟨'B', 5, by decide, .flat⟩
/-- f sharp. -/
def fSharp : Name := ⟨'f', -1, by decide, .sharp⟩

/-- Labels and lyrics with commands of all kinds. -/
example :
    extractForces (α := Nat)
      (written [(0, .chord bFlat .major (some .one)), (1, .chordChange), (2, .chordNonChange), (3, .key fSharp),
        (4, .other ['l', 'a'] (by decide)), (5, .chord fSharp .halfDim7 (some .three))])
      (lyrics [(7, some .keyChange), (8, none), (9, some .keyNonChange)]) =
      .ok ⟨[1], [2], [7], [9], [(0, 40), (5, 1207)], [(3, 56)]⟩ := by decide +kernel

/-- `C=BbMm7_1`, a dominant seventh chord. -/
example : extractForces (α := Nat) (written [(0, .chord bFlat .majMin7 (some .one))]) [] = .error .typeError := by
  decide +kernel

/-- `C=BbM`, a chord in root position. -/
example : extractForces (α := Nat) (written [(0, .chord bFlat .major none)]) [] = .error .typeError := by
  decide +kernel

/-- Two commands in one label: `=C=K` is read as both of them; in `=K=C`, the key `K=C` is found. -/
example :
    extractForces (α := Nat) [⟨0, ['=', 'C', '=', 'K']⟩] [] = .ok ⟨[], [0], [], [0], [], []⟩ ∧
    extractForces (α := Nat) [⟨0, ['=', 'K', '=', 'C']⟩] [] = .error .keyError := by decide +kernel

end Verif.ForceLabels
