import Verif.Go.F64
import Verif.Go.Float
import Verif.Go.LibM
import Verif.Go.Map
import Verif.Go.ParseExpr
import Verif.Go.Res
import Verif.Go.Scanner
import Verif.Go.Text
import Verif.Model.Cmd
import Verif.Model.Concurrency
import Verif.Model.Console
import Verif.Model.Cooccurrence
import Verif.Model.Corpus
import Verif.Model.Cpsutil
import Verif.Model.Dictionary
import Verif.Model.Embedding
import Verif.Model.Glove
import Verif.Model.Huffman
import Verif.Model.LearningRate
import Verif.Model.Lexvec
import Verif.Model.Matrix
import Verif.Model.Modelutil
import Verif.Model.Object
import Verif.Model.Options
import Verif.Model.ParseFloat
import Verif.Model.ParseHex
import Verif.Model.PathRace
import Verif.Model.Prog
import Verif.Model.Query
import Verif.Model.RateLag
import Verif.Model.Readings
import Verif.Model.Search
import Verif.Model.Sigmoid
import Verif.Model.Subsample
import Verif.Model.Train
import Verif.Model.TrainCmd
import Verif.Model.TrainProg
import Verif.Model.TrainSeq
import Verif.Model.TrainSys
import Verif.Model.Vector
import Verif.Model.Verbose
import Verif.Model.Word2vec
import Verif.Model.WordVector
import Verif.Spec.Cut
import Verif.Spec.HexNumber
import Verif.Spec.Huffman
import Verif.Spec.Logistic
import Verif.Spec.LogisticF64
import Verif.Spec.Pieces
import Verif.Spec.Race
import Verif.Spec.Rename
import Verif.Spec.SavedFile
import Verif.Spec.Search
import Verif.Spec.TieOrder
import Verif.Spec.TypedLine
import Verif.Spec.Window
import Verif.Spec.Words
import Verif.Proofs.Concurrency
import Verif.Proofs.Cooccurrence
import Verif.Proofs.Corpus
import Verif.Proofs.CosErr
import Verif.Proofs.Cutting
import Verif.Proofs.Dictionary
import Verif.Proofs.Disjoint
import Verif.Proofs.F64
import Verif.Proofs.F64Err
import Verif.Proofs.F64Mono
import Verif.Proofs.F64Mul
import Verif.Proofs.F64Near
import Verif.Proofs.F64Nearest
import Verif.Proofs.F64Sqrt
import Verif.Proofs.FirstOcc
import Verif.Proofs.Forward
import Verif.Proofs.GloveStep
import Verif.Proofs.Halted
import Verif.Proofs.HierSoftmax
import Verif.Proofs.HuffTree
import Verif.Proofs.Huffman
import Verif.Proofs.Items
import Verif.Proofs.Logistic
import Verif.Proofs.MatVal
import Verif.Proofs.Matrix
import Verif.Proofs.Object
import Verif.Proofs.ParseExpr
import Verif.Proofs.Pipeline
import Verif.Proofs.PoolSeq
import Verif.Proofs.Prog
import Verif.Proofs.Refine
import Verif.Proofs.RefineBack
import Verif.Proofs.RefineHs
import Verif.Proofs.RefineLex
import Verif.Proofs.RefineStep
import Verif.Proofs.RefineSys
import Verif.Proofs.RefineW2V
import Verif.Proofs.SaveLoad
import Verif.Proofs.Scanner
import Verif.Proofs.ScannerBytes
import Verif.Proofs.ScannerText
import Verif.Proofs.Search
import Verif.Proofs.Terminate
import Verif.Proofs.Text
import Verif.Proofs.Train
import Verif.Proofs.TrainProg
import Verif.Proofs.TrainSys
import Verif.Proofs.Vector
import Verif.Proofs.Verbose
import Verif.Proofs.Window
import Verif.Proofs.WordVector
import Verif.Props.BadOptions
import Verif.Props.ChangedDoc
import Verif.Props.Cmd
import Verif.Props.CmdFails
import Verif.Props.Console
import Verif.Props.Cooccurrence
import Verif.Props.Corpus
import Verif.Props.Cosine
import Verif.Props.CosineAccuracy
import Verif.Props.CosineF64
import Verif.Props.CutCharacter
import Verif.Props.CutFile
import Verif.Props.Cutting
import Verif.Props.DataRace
import Verif.Props.Describe
import Verif.Props.Dictionary
import Verif.Props.Encode
import Verif.Props.FloatSteps
import Verif.Props.Forward
import Verif.Props.FullDisk
import Verif.Props.Glove
import Verif.Props.HexNumber
import Verif.Props.HierSoftmax
import Verif.Props.HierSoftmaxF64
import Verif.Props.Huffman
import Verif.Props.IndexPerThread
import Verif.Props.InitF64
import Verif.Props.InitVectors
import Verif.Props.Interleave
import Verif.Props.ItemsF64
import Verif.Props.JoinFiles
import Verif.Props.LearningRate
import Verif.Props.Lexvec
import Verif.Props.Matrix
import Verif.Props.Modelutil
import Verif.Props.NanRate
import Verif.Props.NegSampling
import Verif.Props.NegSamplingF64
import Verif.Props.NoEffect
import Verif.Props.NothingToTrain
import Verif.Props.Object
import Verif.Props.ObjectOk
import Verif.Props.ObjectRate
import Verif.Props.ObjectStale
import Verif.Props.ObjectUntrained
import Verif.Props.OneGoroutine
import Verif.Props.OnlyWords
import Verif.Props.Options
import Verif.Props.Parallel
import Verif.Props.ParallelRace
import Verif.Props.ParseNumber
import Verif.Props.PathRace
import Verif.Props.PipeReader
import Verif.Props.Pipeline
import Verif.Props.ProximityF64
import Verif.Props.Query
import Verif.Props.QueryLength
import Verif.Props.RateLag
import Verif.Props.ReadWord
import Verif.Props.RenameWords
import Verif.Props.SaveLoad
import Verif.Props.SavedSimilarity
import Verif.Props.Scanner
import Verif.Props.Schedule
import Verif.Props.ScheduleF64
import Verif.Props.Scientific
import Verif.Props.Search
import Verif.Props.SearchAngles
import Verif.Props.SearchOrder
import Verif.Props.SearchRemove
import Verif.Props.SearchTies
import Verif.Props.SelfSearch
import Verif.Props.Sequential
import Verif.Props.Sigmoid
import Verif.Props.SigmoidF64
import Verif.Props.Subsample
import Verif.Props.SubsampleF64
import Verif.Props.SumOrder
import Verif.Props.Train
import Verif.Props.TrainFrame
import Verif.Props.TrainOk
import Verif.Props.Training
import Verif.Props.TypedLine
import Verif.Props.Verbose
import Verif.Props.WholeTrain
import Verif.Props.Word2vecF64
import Verif.Props.Word2vecStep
import Verif.Props.WordVector
import Verif.Props.ZeroVectors
