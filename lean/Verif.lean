import Verif.Model.Basic
import Verif.Model.IndexRange
import Verif.Model.ClusterTree
import Verif.Spec.Partition
import Verif.Spec.Tree
import Verif.Lemmas.Basic
import Verif.Lemmas.IndexRange
import Verif.Lemmas.ClusterTree
import Verif.Props.Partition
import Verif.Props.ClusterTree
import Verif.Model.Admissible
import Verif.Props.Admissible
import Verif.Model.Mat
import Verif.Model.RealOps
import Verif.Spec.Mat
import Verif.Lemmas.Mat
import Verif.Lemmas.Split
import Verif.Lemmas.MatOps
import Verif.Lemmas.DiffNorm
import Verif.Props.MatBasic
import Verif.Props.SplitMat
import Verif.Model.Construct
import Verif.Model.Kernels
import Verif.Lemmas.Construct
import Verif.Props.Construct
import Verif.Model.Arith
import Verif.Model.Gemm
import Verif.Spec.Gemm
import Verif.Lemmas.Arith
import Verif.Lemmas.Gemm
import Verif.Lemmas.GemmRec
import Verif.Lemmas.GemmTop
import Verif.Props.Gemm
import Verif.Spec.Lapack
import Verif.Model.LrAdd
import Verif.Lemmas.GemmTotal
import Verif.Lemmas.LrAdd
import Verif.Lemmas.Trunc
import Verif.Lemmas.Svd
import Verif.Props.LrAdd
import Verif.Props.GemmTotal
import Verif.Model.Tri
import Verif.Spec.Tri
import Verif.Lemmas.Tri
import Verif.Lemmas.Trmm
import Verif.Lemmas.Trsm
import Verif.Lemmas.Lu
import Verif.Props.Tri
import Verif.Model.Heap
import Verif.Spec.Heap
import Verif.Lemmas.Heap
import Verif.Lemmas.Mem
import Verif.Lemmas.MemRun
import Verif.Props.Heap
import Verif.Model.Handle
import Verif.Spec.Handle
import Verif.Lemmas.Handle
import Verif.Props.Handle
import Verif.Lemmas.Fit
import Verif.Lemmas.FitOps
import Verif.Spec.Built
import Verif.Props.Fit
import Verif.Model.Qr
import Verif.Spec.Qr
import Verif.Lemmas.Refl
import Verif.Lemmas.QrTiles
import Verif.Lemmas.QrBlocked
import Verif.Lemmas.QrCols
import Verif.Lemmas.QrTotal
import Verif.Lemmas.QrExists
import Verif.Props.Qr
import Verif.Model.Morton
import Verif.Spec.Morton
import Verif.Lemmas.Morton
import Verif.Props.Morton
import Verif.Model.Timer
import Verif.Spec.Timer
import Verif.Props.Timer
import Verif.Model.File
import Verif.Spec.File
import Verif.Props.File
import Verif.Model.Id
import Verif.Spec.Id
import Verif.Lemmas.Id
import Verif.Lemmas.IdExists
import Verif.Props.Id
import Verif.Model.Geqp3
import Verif.Spec.Geqp3
import Verif.Lemmas.Geqp3
import Verif.Props.Geqp3
import Verif.Model.Dispatch
import Verif.Model.Export
import Verif.Spec.Dispatch
import Verif.Spec.Export
import Verif.Lemmas.Dispatch
import Verif.Props.Dispatch
import Verif.Props.Export
import Verif.Model.Sample
import Verif.Props.Sample
import Verif.Model.OpenMP
import Verif.Model.ParQr
import Verif.Model.ParQrTiles
import Verif.Spec.OpenMP
import Verif.Lemmas.OpenMP
import Verif.Lemmas.ParQr
import Verif.Lemmas.ParQr2
import Verif.Lemmas.ParQrTiles
import Verif.Props.ParQr
import Verif.Lemmas.QrTiled
import Verif.Lemmas.QrTiledCols
import Verif.Lemmas.QrTiledFac
import Verif.Lemmas.TiledTotal
import Verif.Props.TiledQr
import Verif.Model.Mgs
import Verif.Spec.Mgs
import Verif.Lemmas.MgsSplit
import Verif.Lemmas.Mgs
import Verif.Lemmas.MgsRec
import Verif.Lemmas.MgsLoop
import Verif.Lemmas.MgsDense
import Verif.Props.MgsSplit
import Verif.Props.Mgs
import Verif.Spec.TriTotal
import Verif.Lemmas.TrsmTotal
import Verif.Lemmas.TrmmTotal
import Verif.Lemmas.Elim
import Verif.Lemmas.GetrfTotal
import Verif.Lemmas.Doolittle
import Verif.Props.TriTotal
import Verif.Lemmas.TriKinds
import Verif.Props.DispatchTri
import Verif.Spec.BuiltLu
import Verif.Lemmas.BuiltLu
import Verif.Model.HLu
import Verif.Props.HLu
import Verif.Model.BlrQr
import Verif.Lemmas.QrExplicit
import Verif.Lemmas.QrGrid
import Verif.Lemmas.BlrFacts
import Verif.Lemmas.Blr
import Verif.Props.BlrQr
import Verif.Lemmas.MgsKeep
import Verif.Lemmas.MgsLift
import Verif.Lemmas.MgsOrth
import Verif.Lemmas.MgsOrthLoop
import Verif.Lemmas.MgsTotal
import Verif.Lemmas.KernelPd
import Verif.Props.KernelPd
import Verif.Model.MgsProgram
import Verif.Props.MgsOrth
import Verif.Props.MgsProgram
import Verif.Lemmas.MgsNest
import Verif.Lemmas.BuiltQr
import Verif.Model.HQr
import Verif.Props.HQr
import Verif.Model.ParQrCols
import Verif.Model.ParProgram
import Verif.Lemmas.ParQrCols
import Verif.Props.ParProgram
import Verif.Lemmas.EckartYoung
import Verif.Props.LrAddBest
import Verif.Model.LrAddProgram
import Verif.Props.LrAddProgram
import Verif.Model.Points
import Verif.Spec.Points
import Verif.Props.Points
import Verif.Model.Compress
import Verif.Lemmas.Compress
import Verif.Props.Compress
import Verif.Props.CompressProgram
import Verif.Model.ExportProgram
import Verif.Spec.ExportProgram
import Verif.Lemmas.ExportProgram
import Verif.Props.ExportProgram
import Verif.Props.HeapOps
import Verif.Props.TimerReport
import Verif.Props.Print
import Verif.Model.FloatNorm
import Verif.Spec.FloatNorm
import Verif.Lemmas.FloatNorm
import Verif.Props.FloatNorm
import Verif.Model.Random
import Verif.Spec.Random
import Verif.Props.Random
import Verif.Model.HeapSplit
import Verif.Props.HeapSplit
import Verif.Model.FileDense
import Verif.Props.FileDense
import Verif.Props.OldRsvd
import Verif.Model.Ids
import Verif.Props.Ids
import Verif.Model.HeapGemm
import Verif.Lemmas.HeapGemm
import Verif.Lemmas.HeapGemmRec
import Verif.Props.HeapGemm
import Verif.Spec.Within
import Verif.Lemmas.ErrGemm
import Verif.Lemmas.ErrTri
import Verif.Lemmas.ErrLu
import Verif.Lemmas.Refine
import Verif.Props.ErrLu
import Verif.Props.GemmLr
import Verif.Lemmas.ErrPivot
import Verif.Props.HLuErr
import Verif.Props.AddReturns
import Verif.Props.TriInverse
import Verif.Props.Storage
import Verif.Props.Same
import Verif.Model.HeapTri
import Verif.Lemmas.HeapTri
import Verif.Props.HeapTri
import Verif.Model.FloatGemm
import Verif.Spec.FloatGemm
import Verif.Lemmas.FloatGemm
import Verif.Lemmas.FloatGemmRec
import Verif.Lemmas.FloatReturns
import Verif.Props.FloatGemm
import Verif.Model.FloatTri
import Verif.Spec.FloatTri
import Verif.Lemmas.FloatTri
import Verif.Lemmas.FloatTriTotal
import Verif.Lemmas.FloatRound
import Verif.Props.FloatTri
import Verif.Lemmas.FloatLu
import Verif.Lemmas.FloatLuTotal
import Verif.Props.FloatLu
import Verif.Model.FloatTrmm
import Verif.Spec.FloatTrmm
import Verif.Lemmas.FloatTrmm
import Verif.Props.FloatTrmm
import Verif.Model.FloatQr
import Verif.Spec.FloatQr
import Verif.Lemmas.FloatQrCols
import Verif.Lemmas.FloatQrOrth
import Verif.Lemmas.FloatQr
import Verif.Lemmas.FloatQrRun
import Verif.Lemmas.FloatQrAll
import Verif.Lemmas.FloatQrGlobal
import Verif.Lemmas.FloatQrExact
import Verif.Props.FloatQr
import Verif.Model.FloatHLu
import Verif.Props.FloatHLu
import Verif.Model.FloatBlrQr
import Verif.Lemmas.FloatBlrQr
import Verif.Props.FloatBlrQr
import Verif.Model.FloatParQr
import Verif.Lemmas.FloatParQr
import Verif.Props.FloatParQr
import Verif.Model.FloatAdd
import Verif.Props.FloatAdd
import Verif.Axioms
