import Verif.Lemmas.Apa
import Verif.Lemmas.ApaFeas
import Verif.Lemmas.ApaHeur
import Verif.Lemmas.ApaRun
import Verif.Lemmas.ApaSlots
import Verif.Lemmas.Bak
import Verif.Lemmas.Bar
import Verif.Lemmas.Binpack
import Verif.Lemmas.CanIter
import Verif.Lemmas.CanSim
import Verif.Lemmas.CanSimEnd
import Verif.Lemmas.CanStats
import Verif.Lemmas.CommitTable
import Verif.Lemmas.DaSchedule
import Verif.Lemmas.Dpcp
import Verif.Lemmas.DpcpCount
import Verif.Lemmas.DpcpModel
import Verif.Lemmas.EdfBusy
import Verif.Lemmas.EdfSim
import Verif.Lemmas.EdfSimRun
import Verif.Lemmas.EdfUni
import Verif.Lemmas.FairRatio
import Verif.Lemmas.FfMerge
import Verif.Lemmas.FfPoints
import Verif.Lemmas.Ffdbf
import Verif.Lemmas.FifoPreemptRun
import Verif.Lemmas.FixedPriority
import Verif.Lemmas.Fmlp
import Verif.Lemmas.FmlpCount
import Verif.Lemmas.FmlpModel
import Verif.Lemmas.ForcedForward
import Verif.Lemmas.GedfSteps
import Verif.Lemmas.GelScale
import Verif.Lemmas.GelSchedule
import Verif.Lemmas.GelSolve
import Verif.Lemmas.Gfb
import Verif.Lemmas.GfrlBigS
import Verif.Lemmas.GfrlCorners
import Verif.Lemmas.GfrlLoop
import Verif.Lemmas.GfrlSweep
import Verif.Lemmas.Global
import Verif.Lemmas.GlobalFp
import Verif.Lemmas.GyRta
import Verif.Lemmas.JobTable
import Verif.Lemmas.JobTableDflp
import Verif.Lemmas.JobTablePreempt
import Verif.Lemmas.JobTableSpin
import Verif.Lemmas.Load
import Verif.Lemmas.LockTable
import Verif.Lemmas.LockTableDpcp
import Verif.Lemmas.LockTableFmlp
import Verif.Lemmas.LockTableGlobal
import Verif.Lemmas.LockTableMpcp
import Verif.Lemmas.LockTableOmip
import Verif.Lemmas.LockTablePpcp
import Verif.Lemmas.LpAgent
import Verif.Lemmas.LpCharge
import Verif.Lemmas.LpCover
import Verif.Lemmas.LpDflp
import Verif.Lemmas.LpDflpSolve
import Verif.Lemmas.LpDpcp
import Verif.Lemmas.LpDpcpSolve
import Verif.Lemmas.LpDpcpTerms
import Verif.Lemmas.LpDpcpWait
import Verif.Lemmas.LpDual
import Verif.Lemmas.LpExample
import Verif.Lemmas.LpFmlp
import Verif.Lemmas.LpFmlpSplit
import Verif.Lemmas.LpGfmlp
import Verif.Lemmas.LpGlobal
import Verif.Lemmas.LpGlobalCert
import Verif.Lemmas.LpGlobalHold
import Verif.Lemmas.LpGlobalInherit
import Verif.Lemmas.LpGlobalPrio
import Verif.Lemmas.LpGlobalProto
import Verif.Lemmas.LpGlobalRun
import Verif.Lemmas.LpMpcp
import Verif.Lemmas.LpMpcpModel
import Verif.Lemmas.LpMpcpSolve
import Verif.Lemmas.LpNested
import Verif.Lemmas.LpNestedDef
import Verif.Lemmas.LpNestedRun
import Verif.Lemmas.LpOmip
import Verif.Lemmas.LpPedfAlg
import Verif.Lemmas.LpPedfDem
import Verif.Lemmas.LpPedfPreemptDem
import Verif.Lemmas.LpPedfPreemptRun
import Verif.Lemmas.LpPedfPreemptWin
import Verif.Lemmas.LpPedfRun
import Verif.Lemmas.LpPedfSol
import Verif.Lemmas.LpPedfWin
import Verif.Lemmas.LpRsb
import Verif.Lemmas.LpSem
import Verif.Lemmas.LpSpin
import Verif.Lemmas.LpSpinCount
import Verif.Lemmas.LpSpinPrio
import Verif.Lemmas.LpSpinRun
import Verif.Lemmas.LpSplit
import Verif.Lemmas.MixedCert
import Verif.Lemmas.Mpcp
import Verif.Lemmas.MpcpCount
import Verif.Lemmas.MpcpModel
import Verif.Lemmas.Msrp
import Verif.Lemmas.MsrpFp
import Verif.Lemmas.MsrpHolistic
import Verif.Lemmas.MsrpHolisticCore
import Verif.Lemmas.MsrpHolisticModel
import Verif.Lemmas.MsrpModel
import Verif.Lemmas.NativeBar
import Verif.Lemmas.NativeGedf
import Verif.Lemmas.NativeLoadTest
import Verif.Lemmas.NativePoints
import Verif.Lemmas.NativeRounds
import Verif.Lemmas.Necessary
import Verif.Lemmas.NestedCs
import Verif.Lemmas.OverheadFiles
import Verif.Lemmas.PartAccepted
import Verif.Lemmas.PartFp
import Verif.Lemmas.PartLocks
import Verif.Lemmas.PartOne
import Verif.Lemmas.PartOneSusp
import Verif.Lemmas.Pip
import Verif.Lemmas.Points
import Verif.Lemmas.Ppcp
import Verif.Lemmas.Qpa
import Verif.Lemmas.Rollback
import Verif.Lemmas.RwLock
import Verif.Lemmas.RwMerge
import Verif.Lemmas.RwModel
import Verif.Lemmas.RwPython
import Verif.Lemmas.RwTaskFair
import Verif.Lemmas.RwWait
import Verif.Lemmas.Schedule
import Verif.Lemmas.Sort
import Verif.Lemmas.SpinFpCore
import Verif.Lemmas.Witness
import Verif.Model.Apa
import Verif.Model.ApaFeas
import Verif.Model.Binpack
import Verif.Model.Broster
import Verif.Model.Can
import Verif.Model.CanPrio
import Verif.Model.CanSim
import Verif.Model.CanStats
import Verif.Model.Da
import Verif.Model.Dpcp
import Verif.Model.EdfBounds
import Verif.Model.EdfSim
import Verif.Model.ExampleStudy
import Verif.Model.Ffdbf
import Verif.Model.Fmlp
import Verif.Model.FpRta
import Verif.Model.Gel
import Verif.Model.Generator
import Verif.Model.Gfrl
import Verif.Model.GlobalEdf
import Verif.Model.GlobalFp
import Verif.Model.GyRta
import Verif.Model.Iter
import Verif.Model.LinProg
import Verif.Model.LockBounds
import Verif.Model.LockPartition
import Verif.Model.LpBackend
import Verif.Model.LpCommon
import Verif.Model.LpDflp
import Verif.Model.LpDpcp
import Verif.Model.LpGfmlp
import Verif.Model.LpGlobal
import Verif.Model.LpMpcp
import Verif.Model.LpNested
import Verif.Model.LpOmip
import Verif.Model.LpPedf
import Verif.Model.LpPedfLockFree
import Verif.Model.LpPedfPreempt
import Verif.Model.LpPpcp
import Verif.Model.LpRsb
import Verif.Model.LpSem
import Verif.Model.LpSpin
import Verif.Model.LpSpinPreempt
import Verif.Model.LpSpinPreemptPrio
import Verif.Model.LpSpinPreemptPrioFifo
import Verif.Model.LpSpinPreemptUnordered
import Verif.Model.LpSpinPrio
import Verif.Model.Mpcp
import Verif.Model.Msrp
import Verif.Model.MsrpFp
import Verif.Model.MsrpHolistic
import Verif.Model.NativeGedf
import Verif.Model.NativeLoad
import Verif.Model.NativeTasks
import Verif.Model.NestedCs
import Verif.Model.OverheadFiles
import Verif.Model.Overheads
import Verif.Model.Pip
import Verif.Model.PwLin
import Verif.Model.Qpa
import Verif.Model.Quanta
import Verif.Model.Resources
import Verif.Model.Rollback
import Verif.Model.Run
import Verif.Model.RwLocks
import Verif.Model.Serialize
import Verif.Model.SharedRes
import Verif.Model.Tasks
import Verif.Model.Util
import Verif.Props.Apa
import Verif.Props.ApaFeas
import Verif.Props.BarTest
import Verif.Props.Binpack
import Verif.Props.Broster
import Verif.Props.Can
import Verif.Props.CanPrio
import Verif.Props.CanRun
import Verif.Props.CanSim
import Verif.Props.CanStats
import Verif.Props.Da
import Verif.Props.Dpcp
import Verif.Props.DpcpExample
import Verif.Props.EdfBounds
import Verif.Props.EdfSim
import Verif.Props.ExampleStudy
import Verif.Props.Ffdbf
import Verif.Props.Fmlp
import Verif.Props.FmlpExample
import Verif.Props.FpRta
import Verif.Props.GedfBcli
import Verif.Props.GedfCombined
import Verif.Props.GedfRta
import Verif.Props.GedfRtaTerm
import Verif.Props.Gel
import Verif.Props.Generator
import Verif.Props.Gfrl
import Verif.Props.GfrlTotal
import Verif.Props.GlobalEdf
import Verif.Props.GlobalFp
import Verif.Props.GyRta
import Verif.Props.Iter
import Verif.Props.LinProg
import Verif.Props.LockBounds
import Verif.Props.LockPartition
import Verif.Props.LpBackend
import Verif.Props.LpDflp
import Verif.Props.LpDflpViolated
import Verif.Props.LpDpcp
import Verif.Props.LpDpcpExample
import Verif.Props.LpDpcpViolated
import Verif.Props.LpFmlp
import Verif.Props.LpFmlpExample
import Verif.Props.LpGfmlp
import Verif.Props.LpGfmlpExample
import Verif.Props.LpGlobal
import Verif.Props.LpGlobalEnd
import Verif.Props.LpGlobalExample
import Verif.Props.LpGlobalFmlp
import Verif.Props.LpGlobalPrio
import Verif.Props.LpKeys
import Verif.Props.LpMpcp
import Verif.Props.LpMpcpExample
import Verif.Props.LpMpcpViolated
import Verif.Props.LpNested
import Verif.Props.LpNestedLocal
import Verif.Props.LpOmip
import Verif.Props.LpPedf
import Verif.Props.LpPedfLockFree
import Verif.Props.LpPedfPreempt
import Verif.Props.LpPedfPreemptSafe
import Verif.Props.LpPedfWitness
import Verif.Props.LpPpcp
import Verif.Props.LpRsb
import Verif.Props.LpRsbExample
import Verif.Props.LpSpin
import Verif.Props.LpSpinExample
import Verif.Props.LpSpinPreempt
import Verif.Props.LpSpinPreemptExample
import Verif.Props.LpSpinPreemptPrio
import Verif.Props.LpSpinPreemptPrioExample
import Verif.Props.LpSpinPreemptPrioFifo
import Verif.Props.LpSpinPreemptPrioFifoNative
import Verif.Props.LpSpinPreemptPrioFifoViolated
import Verif.Props.LpSpinPreemptUnordered
import Verif.Props.LpSpinPreemptUnorderedExample
import Verif.Props.LpSpinPrio
import Verif.Props.LpSpinPrioExample
import Verif.Props.LpSpinPrioViolated
import Verif.Props.Mpcp
import Verif.Props.MpcpExample
import Verif.Props.Msrp
import Verif.Props.MsrpExample
import Verif.Props.MsrpFp
import Verif.Props.MsrpHolistic
import Verif.Props.MsrpHolisticExample
import Verif.Props.NativeGedf
import Verif.Props.NativeGedfArb
import Verif.Props.NativeGedfMore
import Verif.Props.NativeLoad
import Verif.Props.NestedCs
import Verif.Props.OverheadFiles
import Verif.Props.Overheads
import Verif.Props.PhaseFair
import Verif.Props.PhaseFairExample
import Verif.Props.Pip
import Verif.Props.PipExample
import Verif.Props.Points
import Verif.Props.Ppcp
import Verif.Props.PwLin
import Verif.Props.Qpa
import Verif.Props.Quanta
import Verif.Props.Requirements
import Verif.Props.Resources
import Verif.Props.Rollback
import Verif.Props.Run
import Verif.Props.RwBaseline
import Verif.Props.Serialize
import Verif.Props.SharedRes
import Verif.Props.SpinLocks
import Verif.Props.TaskFair
import Verif.Props.TaskFairExample
import Verif.Props.TaskLists
import Verif.Props.Tasks
import Verif.Props.Util
import Verif.Spec.ApaFeasible
import Verif.Spec.Arrivals
import Verif.Spec.BoxLp
import Verif.Spec.CanBus
import Verif.Spec.Change
import Verif.Spec.Completion
import Verif.Spec.Conserving
import Verif.Spec.Demand
import Verif.Spec.Dflp
import Verif.Spec.Dpcp
import Verif.Spec.EdfResponse
import Verif.Spec.FifoPreempt
import Verif.Spec.FixedPriority
import Verif.Spec.Fmlp
import Verif.Spec.Gel
import Verif.Spec.Gfrl
import Verif.Spec.GlobalFp
import Verif.Spec.GlobalLocks
import Verif.Spec.LinProg
import Verif.Spec.LockFree
import Verif.Spec.Milp
import Verif.Spec.MixedProgram
import Verif.Spec.Mpcp
import Verif.Spec.Msrp
import Verif.Spec.Nested
import Verif.Spec.NonPreemptive
import Verif.Spec.Omip
import Verif.Spec.Packing
import Verif.Spec.Pip
import Verif.Spec.Ppcp
import Verif.Spec.PreemptPrio
import Verif.Spec.PrioSpin
import Verif.Spec.RwLock
import Verif.Spec.Schedule
import Verif.Spec.SemiPartition
import Verif.Spec.SolverProblem
import Verif.Spec.Suspension
import Verif.Spec.Util
