import Verif.StateInputs
import Verif.ClassTraining

/-!
# The caches which the search makes of a labelled piece

Model of /repo/harmonic_inference/models/joint_model.py:567-573 for a `ScorePiece` with chords
(/repo/harmonic_inference/data/piece.py:424-451 `get_duration_cache`, `get_inputs`).
-/

namespace Verif

/-- joint_model.py:567-573, with piece.py:424-448 for a piece with chords: the duration cache ends with the last chord, the
level cache with the offset level of the last note. (`onset_cache` is not read by the models.) -/
def pieceCaches (x : ClassPiece) : Py Caches := do
  let last ← lastOffset (some (x.chords.map fun c => toLex c.1.offset)) (x.notes.map fun n => toLex n.offset)
  let cache ← durationCache x.measures (x.notes.map NoteObj.onset) (ofLex last)
  makeCaches ((cache.zip x.notes).map fun p => (p.1, (p.2.onsetLevel : Int), (p.2.offsetLevel : Int)))

end Verif
