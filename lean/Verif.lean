import Verif.Py
import Verif.Constants
import Verif.Harmonic
import Verif.Lemmas.Blocks
import Verif.Lemmas.Lists
import Verif.Lemmas.Pitch
import Verif.Props.ChordIndex
import Verif.Props.Pitch
import Verif.Props.Labels
import Verif.Props.Chains
import Verif.Props.ChordTones
import Verif.Heap
import Verif.Beam
import Verif.State
import Verif.Lemmas.Heap
import Verif.Lemmas.Beam
import Verif.Lemmas.State
import Verif.Props.Beam
import Verif.Props.State
import Verif.Ranges
import Verif.Lemmas.Ranges
import Verif.Props.Ranges
import Verif.Forced
import Verif.Props.Forced
import Verif.Forces
import Verif.Props.Forces
import Verif.Rhythm
import Verif.Lemmas.Rhythm
import Verif.Props.Rhythm
import Verif.Corpus
import Verif.Props.Corpus
import Verif.Props.Repeats
import Verif.Piece
import Verif.Props.Piece
import Verif.Props.Copy
import Verif.ChordKey
import Verif.Eval
import Verif.Props.Eval
import Verif.Props.Annotation
import Verif.Vectors
import Verif.Props.Vectors
import Verif.Props.VectorReductions
import Verif.Props.KeyChange
import Verif.Props.NoteVectors
import Verif.Datasets
import Verif.Props.Datasets
import Verif.Props.KeyDatasets
import Verif.Props.KeyDatasetRows
import Verif.InitialChord
import Verif.Props.InitialChord
import Verif.Search
import Verif.Lemmas.Search
import Verif.Props.Search
import Verif.Props.SearchBranch
import Verif.Results
import Verif.Props.Results
import Verif.Props.LabelTable
import Verif.Changes
import Verif.Props.Changes
import Verif.Props.FullLabels
import Verif.FromSeries
import Verif.Props.FromSeries
import Verif.PieceKeys
import Verif.Props.PieceKeys
import Verif.MusicXml
import Verif.Props.MusicXml
import Verif.LabelsCsv
import Verif.Props.LabelsCsv
import Verif.XmlPiece
import Verif.Props.XmlPiece
import Verif.ClassData
import Verif.Props.ClassData
import Verif.Props.PitchBased
import Verif.StateInputs
import Verif.Lemmas.SearchInv
import Verif.Props.StateInputs
import Verif.Props.Hidden
import Verif.Inference
import Verif.Props.Inference
import Verif.Notes
import Verif.Props.Notes
import Verif.LoadPieces
import Verif.Props.LoadPieces
import Verif.ChordInputs
import Verif.Props.ChordInputs
import Verif.MergeTies
import Verif.Lemmas.MergeTies
import Verif.Props.MergeTies
import Verif.Props.TiedScores
import Verif.CorpusReading
import Verif.Lemmas.CorpusReading
import Verif.Props.CorpusReading
import Verif.Props.CorpusChords
import Verif.Props.Aggregate
import Verif.Harmony
import Verif.Lemmas.Harmony
import Verif.Props.Harmony
import Verif.ForceLabels
import Verif.Props.ForceLabels
import Verif.PyStr
import Verif.Lemmas.PyStr
import Verif.Props.PyStr
import Verif.ForcesJson
import Verif.Props.ForcesJson
import Verif.OutputFiles
import Verif.Props.OutputFiles
import Verif.KwargsJson
import Verif.Props.KwargsJson
import Verif.ModelEval
import Verif.Props.ModelEval
import Verif.GridSearch
import Verif.Props.GridSearch
import Verif.AverageResults
import Verif.Props.AverageResults
import Verif.Props.RepeatedClasses
import Verif.LogState
import Verif.Props.LogState
import Verif.JointInit
import Verif.Props.JointInit
import Verif.DebugLog
import Verif.Props.DebugLog
import Verif.H5Files
import Verif.Props.H5Files
import Verif.Props.Conversion
import Verif.Checkpoints
import Verif.Props.Checkpoints
import Verif.Forward
import Verif.Props.Forward
import Verif.ChordTraining
import Verif.Props.ChordTraining
import Verif.Props.Score
import Verif.Lemmas.BeamTotal
import Verif.CsmPrior
import Verif.Props.SearchTotal
import Verif.Props.SearchRuns
import Verif.Lemmas.BeamFills
import Verif.Props.SearchFinds
import Verif.Props.SearchExact
import Verif.Lemmas.SearchSim
import Verif.Props.SearchTransposes
import Verif.TrainingSteps
import Verif.Props.TrainingSteps
import Verif.PitchTraining
import Verif.Props.PitchTraining
import Verif.KeyTraining
import Verif.Props.KeyTraining
import Verif.CourseData
import Verif.Props.CourseData
import Verif.TranspositionCnn
import Verif.Props.TranspositionCnn
import Verif.Props.LabelledThroughout
import Verif.Props.StableResult
import Verif.TrainScript
import Verif.Props.TrainScript
import Verif.WriteScores
import Verif.Props.WriteScores
import Verif.Props.ForcedAccuracy
import Verif.HarmonyCalls
import Verif.Props.HarmonyCalls
import Verif.SearchWork
import Verif.Props.SearchWork
import Verif.ClassTraining
import Verif.Props.ClassTraining
import Verif.TransitionTraining
import Verif.Props.TransitionTraining
import Verif.TablePiece
import Verif.Props.TablePiece
import Verif.Props.SequenceTables
import Verif.Printing
import Verif.Props.Printing
import Verif.Props.EvalMoves
import Verif.Props.BeamSizes
import Verif.Props.Renumber
import Verif.Props.MovedPieces
import Verif.Props.NoteValues
import Verif.Props.CostUnits
import Verif.Props.LooserLimits
import Verif.PieceCaches
import Verif.Props.AnnotatedRows
import Verif.Props.LocalKeys
import Verif.PieceAnalysis
import Verif.Props.AnalysedPieces
import Verif.Props.TransposedPieces
import Verif.Props.ForcedSets
import Verif.Props.Barlines
import Verif.Props.EvalDistance
import Verif.Props.Thresholds
import Verif.Props.RuledOut
import Verif.Props.Classified
import Verif.Props.Choices
import Verif.Props.Pipeline
