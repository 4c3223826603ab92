import Verif.Props.Pitch
import Verif.ChordKey

/-!
# C08 for chords and keys
-/

namespace Verif.Conversion

open Verif

/-- C08: a chord in spelled pitches converts to the chord in MIDI pitches with the pitch classes of its root, bass
and tonic, and nothing else changed; conversion to the own pitch type changes nothing. -/
theorem C08_chord {δ : Type} (c : Chord δ) :
    (c.pitchType = .tpc → c.toPitchType .midi =
      .ok { c with pitchType := .midi, keyTonic := (7 * (c.keyTonic - 15)) % 12,
                   root := (7 * (c.root - 15)) % 12, bass := (7 * (c.bass - 15)) % 12 }) ∧
    c.toPitchType c.pitchType = .ok c := by
  constructor
  · intro h
    rw [Chord.toPitchType, h, if_neg (by decide), C08_value, C08_value, C08_value]
    rfl
  · rw [Chord.toPitchType, if_pos rfl]

/-- C08: the same for keys with their relative, local and global tonics. -/
theorem C08_key (k : Key) :
    (k.tonicType = .tpc → k.toPitchType .midi =
      .ok { k with tonicType := .midi, relativeTonic := (7 * (k.relativeTonic - 15)) % 12,
                   localTonic := (7 * (k.localTonic - 15)) % 12,
                   globalTonic := (7 * (k.globalTonic - 15)) % 12 }) ∧
    k.toPitchType k.tonicType = .ok k := by
  constructor
  · intro h
    rw [Key.toPitchType, h, if_neg (by decide), C08_value, C08_value, C08_value]
    rfl
  · rw [Key.toPitchType, if_pos rfl]

/-- A flat minor seventh chord in third inversion in D flat major. -/
example : (⟨11, 9, 10, .major, .minMin7, 3, 0, 0, 1, .tpc⟩ : Chord ℚ).toPitchType .midi =
    .ok ⟨8, 6, 1, .major, .minMin7, 3, 0, 0, 1, .midi⟩ := by decide +kernel

end Verif.Conversion
