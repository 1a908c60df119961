import Verif.LinExprProps
import Verif.ConicProps
import Verif.OptVarProps
import Verif.ConeProps
import Verif.DynProps
import Verif.ContactPlanProps
import Verif.HQPThreadProps
import Verif.LbfgsWrapProps
import Verif.LbfgsNlp
import Verif.LbfgsNlpProps
import Verif.LbfgsConvexProps
import Verif.LbfgsInterp
import Verif.LbfgsStop
import Verif.LbfgsRate
import Verif.DynSaveProps
import Verif.BnBViolations
import Verif.LqrOptimal
import Verif.LqrReg
import Verif.LqrBoxProps
import Verif.LqrBoxFb
import Verif.OrientRateProps
import Verif.OrientAcc
import Verif.TerrainProps
import Verif.SettingsProps
import Verif.EquilProps
import Verif.IPExamples
import Verif.TrajProps
import Verif.MinJerkTrajProps
import Verif.LdlProps
import Verif.IPGapProps
import Verif.IPBestProps
import Verif.Lin
import Verif.LinPerm
import Verif.LinBuild
import Verif.LinOp
import Verif.LinKkt
import Verif.LinProps
import Verif.LinSolveProps
import Verif.LinRefineProps
import Verif.RtMat
import Verif.RtCompact
import Verif.RtMatProps
import Verif.RtModel
import Verif.RtModelProps
import Verif.RtAppendProps
import Verif.RtQP
import Verif.RtQPSpec
import Verif.RtQPLin
import Verif.RtQPInv
import Verif.RtQPEq
import Verif.RtQPTerm
import Verif.RtQPStuck
import Verif.RtQPWit
import Verif.RtQPProps
import Verif.RtQPMem
import Verif.RtHqp
import Verif.RtHqpSpec
import Verif.RtHqpLin
import Verif.RtHqpInv
import Verif.RtHqpQp
import Verif.RtHqpRows
import Verif.RtHqpProps
import Verif.RtHqpSvd
import Verif.RtHqpExist
import Verif.RtHqpViol
import Verif.KinOpt
import Verif.KinOptLemmas
import Verif.KinOptProps
import Verif.KinOptSteps
import Verif.KinOptPosture
import Verif.KinOptLoop
import Verif.KinOptRun
import Verif.KinDisplay
import Verif.DynOpt
import Verif.DynOptLemmas
import Verif.DynOptProps
import Verif.DynOptCost
import Verif.DynOptSolve
import Verif.DynOptEnd
import Verif.DynOptStore
import Verif.DynOptLoop
import Verif.DynOptMore
import Verif.PyIk
import Verif.PyIkProps
import Verif.PyIkExist
import Verif.PyMko
import Verif.PyMkoProps
import Verif.PyMkoEx
import Verif.PyExec
import Verif.PyExecProps
import Verif.PyExecFiles
import Verif.PyExecRun
import Verif.PyIk2
import Verif.PyIk2Props
import Verif.PyIk2Solve
import Verif.PyLqr
import Verif.PyLqrProps
import Verif.PyLqrEff
import Verif.PyLqrFd
import Verif.PyMan
import Verif.PyManProps
import Verif.PyManStep
import Verif.PyManLog
import Verif.PyManGain
import Verif.PyManValue
import Verif.PyManPass
import Verif.Cont
import Verif.ContProps
import Verif.ContPlace
import Verif.Plan
import Verif.PlanProps
import Verif.BnBLink
import Verif.BnBLinkProps
import Verif.RtQPIf
import Verif.RtQPIfProps
import Verif.LqrSeq
import Verif.LqrSeqProps
import Verif.LqrHorizonProps
import Verif.ExecTune
import Verif.ExecTuneProps
import Verif.LqrFd2
import Verif.LqrFd2Props
import Verif.ConeOps
import Verif.ConeOpsProps
import Verif.ConicStore
import Verif.ConicStoreProps
import Verif.ConicNear
import Verif.ConicEndProps
import Verif.ConicProgram
import Verif.DynOptNear
import Verif.KinOptNear
import Verif.SettingsLoad
import Verif.PyInit
import Verif.RtSolve
import Verif.DynPlan
import Verif.DynPlanProps
import Verif.Slerp
import Verif.Swing
import Verif.SwingProps
import Verif.ViaLoad
import Verif.FloatTime
import Verif.FloatTimeProps
import Verif.DemoMain
import Verif.PyPlan
import Verif.IPRate
import Verif.IPStart
import Verif.SettingsInit
import Verif.SettingsInitProps
import Verif.PyView
import Verif.LqrRk4
import Verif.LbfgsFloat
import Verif.LbfgsFloatProps
import Verif.LbfgsFloatReal
import Verif.IPFloat
import Verif.IPFloatProps
import Verif.IPFloatExamples
import Verif.IPFloatReal
import Verif.BnBFloat
import Verif.BnBFloatProps
import Verif.BnBFloatExamples
import Verif.BnBFloatReal
import Verif.RtQPFloat
import Verif.RtQPFloatProps
import Verif.RtQPFloatReal
import Verif.RtQPFloatExamples
