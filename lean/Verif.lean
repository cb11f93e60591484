import Verif.Props.Bisync
import Verif.Props.Array
import Verif.Props.Queue
import Verif.Props.Mqueue
import Verif.Props.Spsc
import Verif.Props.Sched
import Verif.Props.SchedIsr
import Verif.Props.Task
import Verif.Props.Log
import Verif.Props.BBuf
import Verif.Props.BVec
import Verif.Props.Jems
import Verif.Props.JemsNumber
import Verif.Props.BisyncExact
import Verif.Props.ArrayExact
import Verif.Props.TaskExact
import Verif.Props.BBufExact
import Verif.Props.SpscLin
import Verif.Props.SpscTso
import Verif.Props.SchedMore
import Verif.Props.System
import Verif.Props.SystemQueue
import Verif.Props.Preempt
import Verif.Props.Init
import Verif.Props.RoundTrip
import Verif.Props.ArrayCost
import Verif.Props.SpscNested
import Verif.Props.ArrayBBuf
import Verif.Props.BBufCompose
import Verif.Props.BisyncStream
import Verif.Props.SpscReorder
import Verif.Props.Link
import Verif.Props.Wakeup
import Verif.Props.SchedClock
import Verif.Props.Telemetry
import Verif.Props.BBufCopy
import Verif.Props.ArrayPq
import Verif.Props.BBufState
import Verif.Props.BisyncMem
import Verif.Props.SchedLoad
import Verif.Spec.JemsCut
import Verif.Props.JemsCut
import Verif.Props.JemsTrunc
import Verif.Spec.JemsRound
import Verif.Props.JemsRound
import Verif.Spec.SrcQueue
import Verif.Props.SrcQueue
import Verif.Spec.SrcSpsc
import Verif.Props.SrcSpsc
import Verif.Spec.SrcMem
import Verif.Props.SrcBisync
import Verif.Spec.SrcBBuf
import Verif.Props.SrcBBuf
import Verif.Props.SrcBBufView
import Verif.Props.SrcBBufWrite
import Verif.Spec.SrcBVec
import Verif.Props.SrcBVec
import Verif.Spec.SrcArray
import Verif.Props.SrcArray
import Verif.Spec.SrcCmp
import Verif.Props.SrcArraySort
import Verif.Spec.SrcTask
import Verif.Props.SrcTask
import Verif.Spec.SrcMqueue
import Verif.Props.SrcMqueue
import Verif.Spec.SrcSched
import Verif.Props.SrcSched
import Verif.Spec.SrcLog
import Verif.Props.SrcLog
import Verif.Spec.SrcJems
import Verif.Props.SrcJems
import Verif.Spec.SrcFuel
import Verif.Spec.SrcProgram
import Verif.Props.SrcProgram
import Verif.C.SrcAct
import Verif.Spec.SrcConc
import Verif.Props.SrcSpscConc
import Verif.Spec.SrcOrder
import Verif.Props.SrcOrder
import Verif.Spec.SrcIsr
import Verif.Lemmas.SrcSafe
import Verif.Lemmas.SrcLocal
import Verif.Lemmas.SrcLocalSound
import Verif.Lemmas.SrcIsrEnv
import Verif.Lemmas.SrcIsrCalls
import Verif.Lemmas.SrcIsrStep
import Verif.Lemmas.SrcIsrReset
import Verif.Lemmas.SrcIsrCode
import Verif.Props.SrcIsr
import Verif.Props.SrcIsrReset
import Verif.Spec.SrcSystem
import Verif.Props.SrcSystem
import Verif.Spec.SrcTelemetry
import Verif.Props.SrcTelemetry
import Verif.Spec.SrcArrayBBuf
import Verif.Props.SrcArrayBBuf
import Verif.Spec.SrcFlow
import Verif.Props.SrcFlow
import Verif.C.SrcAccess
import Verif.Spec.SrcTso
import Verif.Lemmas.SrcTso
import Verif.Lemmas.SrcTsoStep
import Verif.Props.SrcTso
import Verif.Spec.SrcStory
import Verif.Lemmas.SrcStory
import Verif.Props.SrcStory
import Verif.Props.SrcStoryHooks
import Verif.Spec.SrcKernel
import Verif.Lemmas.SrcKernel
import Verif.Lemmas.SrcKernelDeep
import Verif.Lemmas.SrcKernelUser
import Verif.Props.SrcKernel
import Verif.Props.SrcKernelHook
import Verif.Props.SrcTsoLoose
import Verif.UnitTests.Basic
import Verif.UnitTests.Small
import Verif.UnitTests.Array
import Verif.UnitTests.BBuf
import Verif.UnitTests.Jems
import Verif.UnitTests.Sched
import Verif.UnitTests.Json
import Verif.Props.SrcBoxes
