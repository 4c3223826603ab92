import Verif.Corpus
import Verif.Harmonic

/-!
# Chord and key objects

Model of /repo/harmonic_inference/data/chord.py (class `Chord`) and data/key.py (class `Key`).
-/

namespace Verif

/-- chord.py:59-113: the fields of a `Chord` that are used below (the onset, the offset and the
suspension are left out). -/
structure Chord (δ : Type) where
  root : Int
  bass : Int
  keyTonic : Int
  keyMode : KeyMode
  chordType : ChordType
  inversion : Int
  onsetLevel : Int
  offsetLevel : Int
  duration : δ
  pitchType : PitchType
  deriving DecidableEq

/-- key.py:36-76: the fields of a `Key`. -/
structure Key where
  relativeTonic : Int
  localTonic : Int
  globalTonic : Int
  relativeMode : KeyMode
  localMode : KeyMode
  globalMode : KeyMode
  tonicType : PitchType
  deriving DecidableEq

namespace Chord
variable {δ : Type}

/-- chord.py:115-144 `Chord.to_pitch_type`. -/
def toPitchType (c : Chord δ) (pt : PitchType) : Py (Chord δ) :=
  if pt = c.pitchType then .ok { c with pitchType := pt }
  else do
    let k ← convertPitch c.keyTonic c.pitchType pt
    let r ← convertPitch c.root c.pitchType pt
    let b ← convertPitch c.bass c.pitchType pt
    .ok { c with pitchType := pt, keyTonic := k, root := r, bass := b }

/-- chord.py:146-196 `Chord.get_one_hot_index`. -/
def oneHotIndex (c : Chord δ) (relative useInv pad : Bool) (red : Reduction) : Py Int := do
  let root ← if relative then absoluteToRelative c.root c.keyTonic c.pitchType false pad else .ok c.root
  chordOneHotIndex c.chordType root c.pitchType c.inversion useInv relative pad red

end Chord

namespace Key

/-- key.py:78-107 `Key.to_pitch_type`. -/
def toPitchType (k : Key) (pt : PitchType) : Py Key :=
  if pt = k.tonicType then .ok { k with tonicType := pt }
  else do
    let r ← convertPitch k.relativeTonic k.tonicType pt
    let l ← convertPitch k.localTonic k.tonicType pt
    let g ← convertPitch k.globalTonic k.tonicType pt
    .ok { k with tonicType := pt, relativeTonic := r, localTonic := l, globalTonic := g }

/-- key.py:166-179 `Key.get_one_hot_index`. -/
def oneHotIndex (k : Key) : Py Int := keyOneHotIndex k.relativeMode k.relativeTonic k.tonicType

/-- key.py:231-260 `Key.equals` and 212-229 `Key.is_repeated`. -/
def equals (useRelative : Bool) (k l : Key) : Bool :=
  decide (k.tonicType = l.tonicType) &&
  (if useRelative then
    decide (k.relativeTonic = l.relativeTonic) && decide (k.relativeMode = l.relativeMode)
  else decide (k.localTonic = l.localTonic) && decide (k.localMode = l.localMode))

end Key

end Verif
